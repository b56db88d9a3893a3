import Verif.Store.FilesFlush

namespace Verif.Store
open Verif.Bytes

/-! ### The invariant -/

/-- No flush is under way: `L` is the string in memory, `P` the one on disk. -/
structure Idle (S : Nat) (fm : FM) (files : Files) (L P : Bytes) : Prop where
  mem : ∃ a, Mem S fm.cache L a ∧ a ≤ fm.next.file
  has : Has S files P
  ends : Ends S files fm.prev
  prevV : Valid S fm.prev
  prevP : pos S fm.prev = P.length
  nextV : Valid S fm.next
  nextL : fm.latest.lt fm.next = false
  nextP : pos S fm.next ≤ P.length
  same : L.take (pos S fm.next) = P.take (pos S fm.next)
  wr : Wr (Before fm.next) fm.cache

/-- A flush is under way: the string on disk will be that before `fly.s` and the copied bytes. -/
structure Flying (S : Nat) (fm : FM) (files : Files) (fly : Fly) (L P Q : Bytes) : Prop where
  mem : ∃ a, Mem S fm.cache L a ∧ a ≤ fm.next.file ∧ a ≤ fly.s.file
  has : Has S files P
  ends : Ends S files fm.prev
  prevV : Valid S fm.prev
  prevP : pos S fm.prev = P.length
  sV : Valid S fly.s
  tV : Valid S fly.t
  st : fly.t.lt fly.s = false
  sP : pos S fly.s ≤ P.length
  q : Q = P.take (pos S fly.s) ++ fly.buf
  tQ : pos S fly.t = Q.length
  nextV : Valid S fm.next
  nextL : fm.latest.lt fm.next = false
  nextT : fly.t.lt fm.next = false
  same : L.take (pos S fm.next) = Q.take (pos S fm.next)
  wr : Wr (fun id => Before fly.s id ∨ (id < fly.s.file ∧ Before fm.next id)) fm.cache

theorem old_of {S : Nat} (hS : 0 < S) {files : Files} {P L : Bytes} {a n : Nat} (hh : Has S files P) (hs : Sane S files) (hn : n ≤ P.length)
    (ha : ∀ f, f < a → f * S ≤ n) (hsame : L.take n = P.take n) : ∀ f, 1 ≤ f → f < a → Table.get f files = some (chunk S L f) := by
  intro f h1 h2
  have := ha f h2
  rw [chunk_eq_of_take h1 this hsame]
  exact hh.full hs hS h1 (by omega)

theorem mul_le_pos {S : Nat} {l : Loc} {a f : Nat} (ha : a ≤ l.file) (hf : f < a) : f * S ≤ pos S l := by
  have := Nat.mul_le_mul_right S (show f ≤ l.file - 1 by omega)
  unfold pos; omega

theorem Idle.old {S : Nat} (hS : 0 < S) {fm : FM} {files : Files} {L P : Bytes} (h : Idle S fm files L P) {a : Nat} (ha : a ≤ fm.next.file) :
    ∀ f, 1 ≤ f → f < a → Table.get f files = some (chunk S L f) :=
  old_of hS h.has (ends_iff.mp h.ends).1 h.nextP (fun _ hf => mul_le_pos ha hf) h.same

theorem Flying.old {S : Nat} (hS : 0 < S) {fm : FM} {files : Files} {fly : Fly} {L P Q : Bytes} (h : Flying S fm files fly L P Q) {a : Nat}
    (ha : a ≤ fm.next.file) (ha' : a ≤ fly.s.file) : ∀ f, 1 ≤ f → f < a → Table.get f files = some (chunk S L f) := by
  have hsP := h.sP
  refine old_of hS (n := min (pos S fm.next) (pos S fly.s)) h.has (ends_iff.mp h.ends).1 (by omega) (fun f hf => ?_) ?_
  · have h1 := mul_le_pos (S := S) ha hf
    have h2 := mul_le_pos (S := S) ha' hf
    omega
  · have h1 := congrArg (List.take (min (pos S fm.next) (pos S fly.s))) h.same
    rw [List.take_take, List.take_take, show min (min (pos S fm.next) (pos S fly.s)) (pos S fm.next) = min (pos S fm.next) (pos S fly.s) by omega,
      h.q, List.take_append_of_le_length (by rw [List.length_take]; omega), List.take_take,
      show min (min (pos S fm.next) (pos S fly.s)) (pos S fly.s) = min (pos S fm.next) (pos S fly.s) by omega] at h1
    exact h1

/-- `latest` of a state that fits a string. -/
theorem Mem.at {S L a} {fm : FM} (h : Mem S fm.cache L a) :
    fm.latest.file = a + fm.cache.length - 1 ∧ a ≤ fm.latest.file ∧ Verif.Store.pos S fm.latest = L.length ∧ Valid S fm.latest := by
  have hl := h.latest (next := fm.next) (prev := fm.prev)
  change fm.latest.file = _ ∧ fm.latest.off = _ ∧ Verif.Store.pos S fm.latest = _ ∧ Valid S fm.latest at hl
  have hne : fm.cache.length ≠ 0 := fun hh => h.ne (List.length_eq_zero_iff.mp hh)
  exact ⟨hl.1, by omega, hl.2.2.1, hl.2.2.2⟩

theorem lt_trans_false {a b c : Loc} (h1 : b.lt a = false) (h2 : c.lt b = false) : c.lt a = false := by
  rw [lt_false_iff] at *; omega

theorem lt_total {a b : Loc} (h : a.lt b = true) : b.lt a = false := by
  rw [lt_iff] at h; rw [lt_false_iff]; omega

theorem lt_self (a : Loc) : a.lt a = false := by rw [lt_false_iff]; omega

theorem Idle.write {S cap : Nat} (hS : 0 < S) {fm : FM} {files : Files} {L P : Bytes} (h : Idle S fm files L P) (b : Bytes) :
    ∃ fm', fm.write S cap files b = some (fm.latest, fm') ∧ Idle S fm' files (L ++ b) P := by
  obtain ⟨a, hm, ha⟩ := h.mem
  obtain ⟨fm', a', k1, k2, k3, k4, k5, k6, k7, k8⟩ := write_spec (cap := cap) (files := files) hS hm b
  obtain ⟨hl1, hl2, hl3, hl4⟩ := hm.at
  have hnl := pos_le_of_not_lt hl4 h.nextV h.nextL
  refine ⟨fm', k1, ⟨a', k2, by rw [k5]; omega⟩, h.has, by rw [k6]; exact h.ends, by rw [k6]; exact h.prevV, by rw [k6]; exact h.prevP,
    by rw [k5]; exact h.nextV, ?_, by rw [k5]; exact h.nextP, ?_, ?_⟩
  · rw [k5]; exact lt_trans_false h.nextL k8
  · rw [k5, List.take_append_of_le_length (by omega)]; exact h.same
  · rw [k5]
    refine k7 _ (fun id hid => Or.inl ?_) h.wr
    have := lt_false_iff.mp h.nextL
    omega

theorem Flying.write {S cap : Nat} (hS : 0 < S) {fm : FM} {files : Files} {fly : Fly} {L P Q : Bytes} (h : Flying S fm files fly L P Q) (b : Bytes)
    (hs : fm.latest.lt fly.s = false) (hc : (L ++ b).length < (fly.s.file + cap - 1) * S) :
    ∃ fm', fm.write S cap files b = some (fm.latest, fm') ∧ Flying S fm' files fly (L ++ b) P Q := by
  obtain ⟨a, hm, ha, has⟩ := h.mem
  obtain ⟨fm', a', k1, k2, k3, k4, k5, k6, k7, k8⟩ := write_spec (cap := cap) (files := files) hS hm b
  obtain ⟨hl1, hl2, hl3, hl4⟩ := hm.at
  obtain ⟨hk1, hk2, hk3, hk4⟩ := k2.at
  have hnl := pos_le_of_not_lt hl4 h.nextV h.nextL
  have hwin : fm'.latest.file ≤ fly.s.file + cap - 1 := by
    by_contra hcon
    have h1 := Nat.mul_le_mul_right S (show fly.s.file + cap - 1 ≤ fm'.latest.file - 1 by omega)
    have h2 : pos S fm'.latest = (fm'.latest.file - 1) * S + fm'.latest.off := rfl
    omega
  have hsv := h.sV.1
  refine ⟨fm', k1, ⟨a', k2, by rw [k5]; omega, by omega⟩, h.has, by rw [k6]; exact h.ends, by rw [k6]; exact h.prevV, by rw [k6]; exact h.prevP,
    h.sV, h.tV, h.st, h.sP, h.q, h.tQ, by rw [k5]; exact h.nextV, ?_, by rw [k5]; exact h.nextT, ?_, ?_⟩
  · rw [k5]; exact lt_trans_false h.nextL k8
  · rw [k5, List.take_append_of_le_length (by omega)]; exact h.same
  · rw [k5]
    refine k7 _ (fun id hid => Or.inl (Or.inl ?_)) h.wr
    have := lt_false_iff.mp hs
    omega

theorem take_take_le {L P : Bytes} {n m : Nat} (h : L.take n = P.take n) (hm : m ≤ n) : L.take m = P.take m := by
  have := congrArg (List.take m) h
  rwa [List.take_take, List.take_take, Nat.min_eq_left hm] at this

theorem Idle.rollback {S cap : Nat} (hS : 0 < S) {fm : FM} {files : Files} {L P : Bytes} (h : Idle S fm files L P) (loc : Loc) (hv : Valid S loc)
    (hp : pos S loc ≤ L.length) (hc : ∃ a, Mem S fm.cache L a ∧ a ≤ loc.file + 1) :
    ∃ fm', fm.deleteTo cap files loc = some fm' ∧ Idle S fm' files (L.take (pos S loc)) P := by
  obtain ⟨a, hm, ha⟩ := h.mem
  obtain ⟨hl1, hl2, hl3, hl4⟩ := hm.at
  have hca : a ≤ loc.file + 1 := by
    obtain ⟨b, hb, hbl⟩ := hc
    have := hb.at.1
    have hne : fm.cache.length ≠ 0 := fun hh => hm.ne (List.length_eq_zero_iff.mp hh)
    omega
  obtain ⟨fm', a', k1, k2, k3, k4, k5, k6, k7, k8⟩ := deleteTo_spec (cap := cap) hm (h.old hS ha) loc hv hp hca
  refine ⟨fm', k1, ?_⟩
  by_cases hlt : loc.lt fm.latest = true
  · obtain ⟨k7a, k7b⟩ := k7 hlt
    have hat := k2.at
    have hnext : fm'.next = loc ∧ loc.lt fm.next = true ∨ fm'.next = fm.next ∧ loc.lt fm.next = false := by
      rw [k7b]
      cases hx : loc.lt fm.next
      · right; exact ⟨by simp, rfl⟩
      · left; exact ⟨by simp, rfl⟩
    rcases hnext with ⟨hn, hln⟩ | ⟨hn, hln⟩
    · have hpl := pos_le_of_lt hv h.nextV hln
      refine ⟨⟨a', k2, by rw [hn, ← k7a]; exact hat.2.1⟩, h.has, by rw [k5]; exact h.ends, by rw [k5]; exact h.prevV, by rw [k5]; exact h.prevP,
        by rw [hn]; exact hv, by rw [hn, k7a]; exact lt_self _, by rw [hn]; exact Nat.le_trans hpl h.nextP, ?_, ?_⟩
      · rw [hn, List.take_take, Nat.min_self]; exact take_take_le h.same hpl
      · rw [hn]
        exact k8 _ (h.wr.mono (fun id hb => hb.mono (lt_total hln))) (fun _ h0 => Or.inr ⟨rfl, h0⟩)
    · have hpl := pos_le_of_not_lt hv h.nextV hln
      refine ⟨⟨a', k2, by rw [hn]; omega⟩, h.has, by rw [k5]; exact h.ends, by rw [k5]; exact h.prevV, by rw [k5]; exact h.prevP,
        by rw [hn]; exact h.nextV, by rw [hn, k7a]; exact hln, by rw [hn]; exact h.nextP, ?_, ?_⟩
      · rw [hn, List.take_take, Nat.min_eq_left hpl]; exact h.same
      · rw [hn]
        refine k8 _ h.wr (fun _ h0 => ?_)
        rw [lt_false_iff] at hln
        unfold Before; omega
  · have hlf : loc.lt fm.latest = false := by simpa using hlt
    have hge := pos_le_of_not_lt hv hl4 hlf
    have : fm' = fm := by
      have hk : fm.deleteTo cap files loc = some fm := by unfold FM.deleteTo; rw [hlf]; rfl
      rw [hk] at k1; injection k1 with k1; exact k1.symm
    subst this
    rw [List.take_of_length_le (by omega)]
    exact h

theorem Flying.rollback {S cap : Nat} (hS : 0 < S) {fm : FM} {files : Files} {fly : Fly} {L P Q : Bytes} (h : Flying S fm files fly L P Q) (loc : Loc)
    (hv : Valid S loc) (hp : pos S loc ≤ L.length) (hc : ∃ a, Mem S fm.cache L a ∧ a ≤ loc.file + 1) :
    ∃ fm', fm.deleteTo cap files loc = some fm' ∧ Flying S fm' files fly (L.take (pos S loc)) P Q := by
  obtain ⟨a, hm, ha, has⟩ := h.mem
  obtain ⟨hl1, hl2, hl3, hl4⟩ := hm.at
  have hca : a ≤ loc.file + 1 := by
    obtain ⟨b, hb, hbl⟩ := hc
    have := hb.at.1
    have hne : fm.cache.length ≠ 0 := fun hh => hm.ne (List.length_eq_zero_iff.mp hh)
    omega
  obtain ⟨fm', a', k1, k2, k3, k4, k5, k6, k7, k8⟩ := deleteTo_spec (cap := cap) hm (h.old hS ha has) loc hv hp hca
  refine ⟨fm', k1, ?_⟩
  by_cases hlt : loc.lt fm.latest = true
  · obtain ⟨k7a, k7b⟩ := k7 hlt
    have hat := k2.at
    have hnext : fm'.next = loc ∧ loc.lt fm.next = true ∨ fm'.next = fm.next ∧ loc.lt fm.next = false := by
      rw [k7b]
      cases hx : loc.lt fm.next
      · right; exact ⟨by simp, rfl⟩
      · left; exact ⟨by simp, rfl⟩
    rcases hnext with ⟨hn, hln⟩ | ⟨hn, hln⟩
    · have hpl := pos_le_of_lt hv h.nextV hln
      refine ⟨⟨a', k2, by rw [hn, ← k7a]; exact hat.2.1, by omega⟩, h.has, by rw [k5]; exact h.ends, by rw [k5]; exact h.prevV, by rw [k5]; exact h.prevP,
        h.sV, h.tV, h.st, h.sP, h.q, h.tQ, by rw [hn]; exact hv, by rw [hn, k7a]; exact lt_self _, ?_, ?_, ?_⟩
      · rw [hn]; exact lt_trans_false (lt_total hln) h.nextT
      · rw [hn, List.take_take, Nat.min_self]; exact take_take_le h.same hpl
      · rw [hn]
        refine k8 _ (h.wr.mono (fun id hb => ?_)) (fun hla h0 => Or.inr ⟨by omega, Or.inr ⟨rfl, h0⟩⟩)
        rcases hb with hb | ⟨hb, hb'⟩
        · exact Or.inl hb
        · exact Or.inr ⟨hb, hb'.mono (lt_total hln)⟩
    · have hpl := pos_le_of_not_lt hv h.nextV hln
      refine ⟨⟨a', k2, by rw [hn]; omega, by omega⟩, h.has, by rw [k5]; exact h.ends, by rw [k5]; exact h.prevV, by rw [k5]; exact h.prevP,
        h.sV, h.tV, h.st, h.sP, h.q, h.tQ, by rw [hn]; exact h.nextV, by rw [hn, k7a]; exact hln, by rw [hn]; exact h.nextT, ?_, ?_⟩
      · rw [hn, List.take_take, Nat.min_eq_left hpl]; exact h.same
      · rw [hn]
        refine k8 _ h.wr (fun hla h0 => Or.inr ⟨by omega, ?_⟩)
        rw [lt_false_iff] at hln
        unfold Before; omega
  · have hlf : loc.lt fm.latest = false := by simpa using hlt
    have hge := pos_le_of_not_lt hv hl4 hlf
    have : fm' = fm := by
      have hk : fm.deleteTo cap files loc = some fm := by unfold FM.deleteTo; rw [hlf]; rfl
      rw [hk] at k1; injection k1 with k1; exact k1.symm
    subst this
    rw [List.take_of_length_le (by omega)]
    exact h

theorem Idle.prepare {S : Nat} (hS : 0 < S) {fm : FM} {files : Files} {L P : Bytes} (h : Idle S fm files L P) :
    ∃ fly fm', fm.prepare S files = some (fly, fm') ∧ Flying S fm' files fly L P L := by
  obtain ⟨a, hm, ha⟩ := h.mem
  obtain ⟨hl1, hl2, hl3, hl4⟩ := hm.at
  have hnl := pos_le_of_not_lt hl4 h.nextV h.nextL
  have hr := readRange_spec hm (h.old hS ha) fm.next h.nextV h.nextL
  refine ⟨⟨fm.next, fm.latest, L.drop (pos S fm.next)⟩, { fm with next := fm.latest }, by unfold FM.prepare; rw [hr]; rfl, ⟨⟨a, hm, hl2, ha⟩, h.has, h.ends, h.prevV, h.prevP, h.nextV, hl4, h.nextL, h.nextP, ?_, hl3, hl4,
    lt_self _, lt_self _, rfl, h.wr.mono (fun id hb => Or.inl hb)⟩⟩
  simp only
  rw [← h.same, List.take_append_drop]

theorem Flying.cancel {S : Nat} {fm : FM} {files : Files} {fly : Fly} {L P Q : Bytes} (h : Flying S fm files fly L P Q) :
    Idle S (fm.cancel fly) files L P := by
  obtain ⟨a, hm, ha, has⟩ := h.mem
  have hsP := h.sP
  have hlat : (fm.cancel fly).latest = fm.latest := rfl
  have hsame : ∀ n, n ≤ pos S fm.next → n ≤ pos S fly.s → L.take n = P.take n := by
    intro n h1 h2
    have := take_take_le h.same h1
    rw [h.q, List.take_append_of_le_length (by rw [List.length_take]; omega), List.take_take, Nat.min_eq_left h2] at this
    exact this
  cases hx : fly.s.lt fm.next with
  | true =>
    have hn : (fm.cancel fly).next = fly.s := by unfold FM.cancel; simp [hx]
    have hpl := pos_le_of_lt h.sV h.nextV hx
    refine ⟨⟨a, hm, by rw [hn]; exact has⟩, h.has, h.ends, h.prevV, h.prevP, by rw [hn]; exact h.sV, ?_, by rw [hn]; exact h.sP, ?_, ?_⟩
    · rw [hn, hlat]; exact lt_trans_false (lt_total hx) h.nextL
    · rw [hn]; exact hsame _ hpl (Nat.le_refl _)
    · rw [hn]
      refine h.wr.mono (fun id hb => ?_)
      rw [lt_iff] at hx
      unfold Before at *; omega
  | false =>
    have hn : (fm.cancel fly).next = fm.next := by unfold FM.cancel; simp [hx]
    have hpl := pos_le_of_not_lt h.sV h.nextV hx
    refine ⟨⟨a, hm, by rw [hn]; exact ha⟩, h.has, h.ends, h.prevV, h.prevP, by rw [hn]; exact h.nextV, ?_, by rw [hn]; omega, ?_, ?_⟩
    · rw [hn, hlat]; exact h.nextL
    · rw [hn]; exact hsame _ (Nat.le_refl _) hpl
    · rw [hn]
      refine h.wr.mono (fun id hb => ?_)
      rw [lt_false_iff] at hx
      unfold Before at *; omega

theorem Flying.commit {S : Nat} (hS : 0 < S) {fm : FM} {files : Files} {fly : Fly} {L P Q : Bytes} (h : Flying S fm files fly L P Q) :
    ∃ fm' ops, fm.flush S files fly.s fly.t fly.buf = some (fm', ops) ∧ Idle S fm' (applyAll files ops) L Q ∧
      (∀ op ∈ ops, Safe S (pos S fly.s) op) ∧ (∀ op ∈ ops, Low fly.t.file op) := by
  obtain ⟨a, hm, ha, has⟩ := h.mem
  have hsP := h.sP
  have hQ := congrArg List.length h.q
  rw [List.length_append, List.length_take, ← h.tQ] at hQ
  have hRl : (P.take (pos S fly.s)).length = pos S fly.s := by rw [List.length_take]; omega
  obtain ⟨fm', ops, k1, k2, k3, k4, k5, k6, k7, k8, k9, k10⟩ := flush_spec (buf := fly.buf) hS h.sV h.tV h.st hm has (by
    intro it hit hid hw
    have := h.wr it hit hw
    unfold Before at this
    omega) (h.has.take (pos S fly.s)) hRl h.ends (by omega)
  refine ⟨fm', ops, k1, ⟨⟨a, k6, by rw [k7]; exact ha⟩, by rw [h.q]; exact k2, by rw [k8]; exact k3, by rw [k8]; exact h.tV, by rw [k8]; exact h.tQ,
    by rw [k7]; exact h.nextV, by rw [k7, k9]; exact h.nextL, ?_, by rw [k7]; exact h.same, ?_⟩, by rw [← hRl]; exact k4, k5⟩
  · rw [k7, ← h.tQ]; exact pos_le_of_not_lt h.tV h.nextV h.nextT
  · intro it hit hw
    rw [k7]
    obtain ⟨⟨it0, i1, i2, i3⟩, hor⟩ := k10 it hit hw
    have hw0 := h.wr it0 i1 i3
    have ht := lt_false_iff.mp h.nextT
    unfold Before at *
    omega

/-! ### Starting -/

theorem foldl_max_ge : ∀ (l : List Nat) (x : Nat), x ≤ l.foldl max x ∧ (∀ y ∈ l, y ≤ l.foldl max x) ∧ (l.foldl max x = x ∨ l.foldl max x ∈ l)
  | [], x => by simp
  | y :: l, x => by
    obtain ⟨h1, h2, h3⟩ := foldl_max_ge l (max x y)
    simp only [List.foldl_cons]
    refine ⟨by omega, ?_, ?_⟩
    · intro z hz
      rcases List.mem_cons.mp hz with rfl | hz
      · omega
      · exact h2 z hz
    · rcases h3 with h3 | h3
      · by_cases hxy : x ≤ y
        · right; rw [h3, Nat.max_eq_right hxy]; simp
        · left; rw [h3]; omega
      · right; exact List.mem_cons_of_mem _ h3

theorem get_isSome_of_key : ∀ (fs : Files) (k : Nat), k ∈ fs.map (·.1) ↔ ∃ d, Table.get k fs = some d
  | [], k => by simp [Table.get]
  | x :: xs, k => by
    simp only [List.map_cons, List.mem_cons, Table.get]
    by_cases h : x.1 = k
    · simp [h]
    · rw [if_neg h, ← get_isSome_of_key xs k]
      simp [Ne.symm h]

theorem maxFile_spec (fs : Files) : (∀ g, maxFile fs < g → Table.get g fs = none) ∧
    (Table.get (maxFile fs) fs = none → ∀ g, Table.get g fs = none) := by
  obtain ⟨h1, h2, h3⟩ := foldl_max_ge (fs.map (·.1)) 0
  have ha : ∀ g, maxFile fs < g → Table.get g fs = none := by
    intro g hg
    cases hgg : Table.get g fs with
    | none => rfl
    | some d =>
      have := h2 g ((get_isSome_of_key fs g).mpr ⟨d, hgg⟩)
      unfold maxFile at hg; omega
  refine ⟨ha, fun hn g => ?_⟩
  cases hgg : Table.get g fs with
  | none => rfl
  | some d =>
    have hk := (get_isSome_of_key fs g).mpr ⟨d, hgg⟩
    have hge := h2 g hk
    rcases h3 with h3 | h3
    · have : maxFile fs = 0 := h3
      rw [this] at hn
      have : g = 0 := by unfold maxFile at this; omega
      rw [this, hn] at hgg; simp at hgg
    · obtain ⟨d', hd'⟩ := (get_isSome_of_key fs (maxFile fs)).mp h3
      rw [hn] at hd'; simp at hd'

/-- What a start finds: the last file in memory. -/
theorem start_gen {S : Nat} {files : Files} (hs : Sane S files) : ∃ fm it, FM.start files = some fm ∧ fm.cache = [it] ∧ 1 ≤ it.id ∧
    it.data = (Table.get it.id files).getD [] ∧ fm.next = ⟨it.id, it.data.length⟩ ∧ fm.prev = ⟨it.id, it.data.length⟩ ∧
    (it.writer = false → it.data = []) ∧ (∀ g, it.id < g → Table.get g files = none) ∧
    (Table.get it.id files = none → it.id = 1 ∧ ∀ g, Table.get g files = none) := by
  obtain ⟨h1, h2⟩ := maxFile_spec files
  unfold FM.start
  cases hg : Table.get (maxFile files) files with
  | none =>
    have hall := h2 hg
    simp only
    unfold FM.openAt
    simp only [List.getLast?_nil, Option.map_none, reduceCtorEq, if_false]
    exact ⟨_, _, rfl, rfl, Nat.le_refl 1, by simp [hall], rfl, rfl, fun _ => rfl, fun g _ => hall g, fun _ => ⟨rfl, hall⟩⟩
  | some d =>
    have hm1 : 1 ≤ maxFile files := by
      by_contra hc
      have : maxFile files = 0 := by omega
      rw [this, hs.1] at hg; simp at hg
    simp only
    unfold FM.openAt
    simp only [List.getLast?_nil, Option.map_none, reduceCtorEq, if_false]
    by_cases hd : 0 < d.length
    · rw [if_pos hd, hg]
      simp only
      rw [if_neg (Nat.lt_irrefl _), List.take_length]
      exact ⟨_, _, rfl, rfl, hm1, by simp [hg], rfl, rfl, fun h => by simp at h, h1, fun h => by simp only at h; rw [hg] at h; simp at h⟩
    · rw [if_neg hd]
      have hd0 : d = [] := List.length_eq_zero_iff.mp (by omega)
      subst hd0
      exact ⟨_, _, rfl, rfl, hm1, by simp [hg], rfl, rfl, fun _ => rfl, h1, fun h => by simp only at h; rw [hg] at h; simp at h⟩

theorem Has.short {S : Nat} {files : Files} {P : Bytes} (h : Has S files P) (hS : 0 < S) {m : Nat} (hm : ∀ g, m < g → Table.get g files = none) :
    P.length ≤ m * S := by
  by_contra hc
  obtain ⟨d, hd, _⟩ := h.exists (f := m + 1) (by omega) hS (by simp only [Nat.add_sub_cancel]; omega)
  rw [hm _ (by omega)] at hd; simp at hd

/-- **A restart** finds the string on disk. -/
theorem start_spec {S : Nat} (hS : 0 < S) {files : Files} {P : Bytes} {loc : Loc} (hv : Valid S loc) (hh : Has S files P) (he : Ends S files loc)
    (hp : pos S loc = P.length) : ∃ fm, FM.start files = some fm ∧ Idle S fm files P P := by
  rw [ends_iff] at he
  obtain ⟨fm, it, k1, k2, k3, k4, k5, k6, k7, k8, k9⟩ := start_gen he.1
  have hpl : pos S loc = (loc.file - 1) * S + loc.off := rfl
  have hmi := mul_pred_add S it.id k3
  have hml := mul_pred_add S loc.file hv.1
  have hshort := hh.short hS k8
  have key : it.data = chunk S P it.id ∧ (it.id - 1) * S ≤ P.length := by
    cases hg : Table.get it.id files with
    | none =>
      obtain ⟨h1, h2⟩ := k9 hg
      have : P.length ≤ 0 * S := hh.short hS (fun g _ => h2 g)
      have hP : P = [] := List.length_eq_zero_iff.mp (by omega)
      rw [k4, hg, h1, hP]
      simp [chunk]
    | some d =>
      have hle : it.id ≤ loc.file := by
        by_contra hc
        rw [he.2.1 _ (by omega)] at hg; simp at hg
      have hpre := hh it.id k3
      rw [hg] at hpre
      simp only [Option.getD_some] at hpre
      have hpl' := hpre.length_le
      rw [chunk_length] at hpl'
      have hdS := he.1.2 it.id
      unfold len at hdS
      rw [hg] at hdS
      simp only [Option.getD_some] at hdS
      rw [k4, hg]
      simp only [Option.getD_some]
      by_cases heq : it.id = loc.file
      · have hlo := he.2.2
        unfold len at hlo
        rw [← heq, hg] at hlo
        simp only [Option.getD_some] at hlo
        have hcl : (chunk S P it.id).length = loc.off := by
          rw [chunk_length, heq]
          have := hv.2
          omega
        refine ⟨(hpre.eq_of_length ?_).symm, by rw [heq]; omega⟩
        have := hpre.length_le
        omega
      · have := Nat.mul_le_mul_right S (show it.id ≤ loc.file - 1 by omega)
        refine ⟨(hpre.eq_of_length ?_).symm, by omega⟩
        rw [chunk_length]; omega
  have hdl : it.data.length = P.length - (it.id - 1) * S := by rw [key.1, chunk_length]; omega
  have hm : Mem S fm.cache P it.id := by
    rw [k2]
    refine ⟨k3, by simp, ⟨rfl, key.1, trivial⟩, ?_, ?_⟩
    · rw [List.length_singleton, show it.id + 1 - 2 = it.id - 1 by omega]; exact key.2
    · rw [List.length_singleton, Nat.add_sub_cancel]; exact hshort
  have hlat : fm.latest = ⟨it.id, it.data.length⟩ := by unfold FM.latest; rw [k2]; rfl
  obtain ⟨_, _, hl3, hl4⟩ := hm.at
  refine ⟨fm, k1, ⟨it.id, hm, by rw [k5]⟩, hh, ?_, by rw [k6, ← hlat]; exact hl4, by rw [k6, ← hlat]; exact hl3, by rw [k5, ← hlat]; exact hl4,
    by rw [k5, hlat]; exact lt_self _, by rw [k5, ← hlat, hl3], rfl, ?_⟩
  · rw [ends_iff, k6]
    exact ⟨he.1, k8, by unfold len; rw [k4]⟩
  · intro x hx hw
    rw [k2] at hx
    simp only [List.mem_singleton] at hx
    subst hx
    rw [k5, k7 hw]
    exact Or.inr ⟨rfl, rfl⟩

/-- **Recovery**: if the disk has the string before `fly.s`, and nothing beyond the next file, then a start with the redo log of
the flush puts the copied bytes after it. -/
theorem recover_spec {S cap : Nat} (hS : 0 < S) {files : Files} {R : Bytes} {fly : Fly} (hs : Valid S fly.s) (ht : Valid S fly.t)
    (hst : fly.t.lt fly.s = false) (hh : Has S files R) (hR : R.length = pos S fly.s) (hsane : Sane S files)
    (hab : ∀ g, fly.s.file + 1 < g → Table.get g files = none) (hb : fly.buf.length = pos S fly.t - pos S fly.s) :
    ∃ fm0 fm1 fm2 ops, FM.start files = some fm0 ∧ fm0.beforeRecover S cap files fly = some fm1 ∧
      fm1.flush S files fly.s fly.t fly.buf = some (fm2, ops) ∧ Idle S fm2 (applyAll files ops) (R ++ fly.buf) (R ++ fly.buf) ∧
      (∀ op ∈ ops, Safe S (pos S fly.s) op) ∧ (∀ op ∈ ops, Low fly.t.file op) := by
  obtain ⟨s, t, buf⟩ := fly
  simp only at *
  obtain ⟨fm0, it, k1, k2, k3, k4, k5, k6, k7, k8, k9⟩ := start_gen hsane
  have hps : pos S s = (s.file - 1) * S + s.off := rfl
  have hmi := mul_pred_add S it.id k3
  have hms := mul_pred_add S s.file hs.1
  have hshort := hh.short hS k8
  have hlat : fm0.latest = ⟨it.id, it.data.length⟩ := by unfold FM.latest; rw [k2]; rfl
  have hends : Ends S files fm0.prev := by
    rw [ends_iff, k6]
    exact ⟨hsane, k8, by unfold len; rw [k4]⟩
  have hidle : it.id ≤ s.file + 1 := by
    by_contra hc
    cases hg : Table.get it.id files with
    | none => have := (k9 hg).1; have := hs.1; omega
    | some d => rw [hab _ (by omega)] at hg; simp at hg
  have hlp : ((Table.get it.id files).getD []).length = it.data.length := by rw [k4]
  have hdS : it.data.length ≤ S := by rw [← hlp]; exact hsane.2 it.id
  have hpre := hh it.id k3
  rw [← k4] at hpre
  -- after the cut
  have cut : ∃ fm a, fm0.deleteTo cap files s = some fm ∧ Mem S fm.cache R a ∧ a ≤ fm.next.file ∧ fm.next.file ≤ s.file ∧ fm.prev = fm0.prev ∧
      Valid S fm.next ∧ fm.latest.lt fm.next = false ∧ pos S fm.next = pos S s ∧ Wr (Before fm.next) fm.cache ∧
      Wr (fun id => id = s.file → s.off = 0) fm.cache ∧ (fm.latest.file = s.file ∨ s.off = 0) := by
    by_cases hA : it.id = s.file + 1
    · -- the next file exists already
      have hlt : s.lt fm0.latest = true := by rw [hlat, lt_iff]; simp only; omega
      have hlt2 : s.lt fm0.next = true := by rw [k5, lt_iff]; simp only; omega
      have hsd : fm0.deleteTo cap files s = (FM.openAt cap files { fm0 with cache := [] } s).map (fun fm' => { fm' with next := s }) := by
        unfold FM.deleteTo
        rw [hlt, hlt2, k2, hlat, hA]
        simp
      have hev : evict cap fm0.next.file ([] : List Item) = [] := rfl
      by_cases h0 : 0 < s.off
      · obtain ⟨d, hd, hdp⟩ := hh.exists hs.1 hS (by omega)
        have hcl : (chunk S R s.file).length = s.off := by rw [chunk_length]; have := hs.2; omega
        have hdl := hdp.length_le
        have hop : FM.openAt cap files { fm0 with cache := [] } s = some { fm0 with cache := [⟨s.file, d.take s.off, true⟩] } := by
          unfold FM.openAt
          simp only [List.getLast?_nil, Option.map_none, reduceCtorEq, if_false]
          rw [if_pos h0, hd]
          simp only
          rw [if_neg (by omega)]
          rfl
        have hdt : d.take s.off = chunk S R s.file := by
          obtain ⟨r, rfl⟩ := hdp
          rw [List.take_append, List.take_of_length_le (by omega), show s.off - (chunk S R s.file).length = 0 by omega]; simp
        rw [hsd, hop]
        refine ⟨_, s.file, rfl, ?_, Nat.le_refl _, Nat.le_refl _, rfl, hs, ?_, rfl, ?_, ?_, Or.inl ?_⟩
        · refine ⟨hs.1, by simp, ⟨rfl, hdt, trivial⟩, ?_, ?_⟩
          · simp only [List.length_singleton]; rw [show s.file + 1 - 2 = s.file - 1 by omega]; omega
          · simp only [List.length_singleton, Nat.add_sub_cancel]; have := hs.2; omega
        · unfold FM.latest; simp only [List.getLast?_singleton]; rw [lt_false_iff, hdt]; exact Or.inr ⟨rfl, Nat.le_of_eq hcl.symm⟩
        · intro x hx hw; simp only [List.mem_singleton] at hx; subst hx; simp at hw
        · intro x hx hw; simp only [List.mem_singleton] at hx; subst hx; simp at hw
        · unfold FM.latest; simp only [List.getLast?_singleton]
      · have hop : FM.openAt cap files { fm0 with cache := [] } s = some { fm0 with cache := [⟨s.file, [], false⟩] } := by
          unfold FM.openAt
          simp only [List.getLast?_nil, Option.map_none, reduceCtorEq, if_false]
          rw [if_neg h0]
          rfl
        have h0' : s.off = 0 := by omega
        rw [hsd, hop]
        refine ⟨_, s.file, rfl, ?_, Nat.le_refl _, Nat.le_refl _, rfl, hs, ?_, rfl, ?_, ?_, Or.inr h0'⟩
        · refine ⟨hs.1, by simp, ⟨rfl, ?_, trivial⟩, ?_, ?_⟩
          · exact (chunk_nil (by omega)).symm
          · simp only [List.length_singleton]; rw [show s.file + 1 - 2 = s.file - 1 by omega]; omega
          · simp only [List.length_singleton, Nat.add_sub_cancel]; omega
        · unfold FM.latest; simp only [List.getLast?_singleton]; rw [lt_false_iff]; exact Or.inr ⟨rfl, Nat.le_of_eq h0'⟩
        · intro x hx hw; simp only [List.mem_singleton] at hx; subst hx; exact Or.inr ⟨rfl, h0'⟩
        · intro x hx hw _; exact h0'
    · by_cases hB : it.id = s.file
      · have hcl : (chunk S R it.id).length = s.off := by rw [chunk_length, hB]; have := hs.2; omega
        have hdl := hpre.length_le
        have hdt : it.data.take s.off = chunk S R it.id := by
          obtain ⟨r, hr⟩ := hpre
          rw [← hr, List.take_append, List.take_of_length_le (by omega), show s.off - (chunk S R it.id).length = 0 by omega]; simp
        by_cases hlt : s.off < it.data.length
        · have hl : s.lt fm0.latest = true := by rw [hlat, lt_iff]; simp only; omega
          have hl2 : s.lt fm0.next = true := by rw [k5, lt_iff]; simp only; omega
          have hsd : fm0.deleteTo cap files s = some { fm0 with cache := [{ it with data := it.data.take s.off }], next := s } := by
            unfold FM.deleteTo
            rw [hl, hl2, k2, hlat, hB]
            simp [hB]
          rw [hsd]
          refine ⟨_, s.file, rfl, ?_, Nat.le_refl _, Nat.le_refl _, rfl, hs, ?_, rfl, ?_, ?_, Or.inl ?_⟩
          · refine ⟨hs.1, by simp, ⟨hB, ?_, trivial⟩, ?_, ?_⟩
            · rw [← hB]; exact hdt
            · simp only [List.length_singleton]; rw [show s.file + 1 - 2 = s.file - 1 by omega]; omega
            · simp only [List.length_singleton, Nat.add_sub_cancel]; have := hs.2; omega
          · unfold FM.latest; simp only [List.getLast?_singleton]; rw [lt_false_iff]; simp only; rw [hdt]; omega
          · intro x hx hw; simp only [List.mem_singleton] at hx; subst hx
            have := k7 hw
            rw [this] at hlt; simp at hlt
          · intro x hx hw; simp only [List.mem_singleton] at hx; subst hx
            have := k7 hw
            rw [this] at hlt; simp at hlt
          · unfold FM.latest; simp only [List.getLast?_singleton]; exact hB
        · have hde : it.data = chunk S R it.id := by rw [← hdt, List.take_of_length_le (by omega)]
          have hl : s.lt fm0.latest = false := by rw [hlat, lt_false_iff]; simp only; omega
          have hsd : fm0.deleteTo cap files s = some fm0 := by unfold FM.deleteTo; rw [hl]; rfl
          have hsl : fm0.next = s := by
            rw [k5, hB, hde, hcl]
          refine ⟨fm0, it.id, hsd, ?_, by rw [k5], by rw [k5, hB], rfl, by rw [hsl]; exact hs, by rw [k5, hlat]; exact lt_self _, by rw [hsl], ?_, ?_,
            Or.inl (by rw [hlat, hB])⟩
          · rw [k2]
            refine ⟨k3, by simp, ⟨rfl, hde, trivial⟩, ?_, ?_⟩
            · simp only [List.length_singleton]; rw [show it.id + 1 - 2 = s.file - 1 by omega]; omega
            · simp only [List.length_singleton, Nat.add_sub_cancel]; exact hshort
          · intro x hx hw; rw [k2] at hx; simp only [List.mem_singleton] at hx; subst hx
            rw [k5, k7 hw]; exact Or.inr ⟨rfl, rfl⟩
          · intro x hx hw _; rw [k2] at hx; simp only [List.mem_singleton] at hx; subst hx
            have := k7 hw
            rw [this] at hlt hde
            rw [← hde] at hcl; simpa using hcl.symm
      · -- the file of `s` has not been created
        have hlt : it.id < s.file := by omega
        have h1 := Nat.mul_le_mul_right S (show it.id ≤ s.file - 1 by omega)
        have hsf : s.file = it.id + 1 := by
          by_contra hc
          have := mul_lt_succ (S := S) (show it.id < s.file - 1 by omega)
          omega
        have hso : s.off = 0 := by omega
        have hRl : R.length = it.id * S := by omega
        have hde : it.data = chunk S R it.id := (hpre.eq_of_length (by have := hpre.length_le; rw [chunk_length] at *; omega)).symm
        have hdl : it.data.length = S := by rw [hde, chunk_length]; omega
        have hl : s.lt fm0.latest = false ∨ s.lt fm0.latest = true := by cases s.lt fm0.latest <;> simp
        have hl' : s.lt fm0.latest = false := by rw [hlat, lt_false_iff]; simp only; omega
        have hsd : fm0.deleteTo cap files s = some fm0 := by unfold FM.deleteTo; rw [hl']; rfl
        refine ⟨fm0, it.id, hsd, ?_, by rw [k5], by rw [k5]; simp only; omega, rfl, by rw [k5]; exact ⟨k3, by simp only; omega⟩, by rw [k5, hlat]; exact lt_self _,
          ?_, ?_, ?_, Or.inr hso⟩
        · rw [k2]
          refine ⟨k3, by simp, ⟨rfl, hde, trivial⟩, ?_, ?_⟩
          · simp only [List.length_singleton]; rw [show it.id + 1 - 2 = it.id - 1 by omega]; omega
          · simp only [List.length_singleton, Nat.add_sub_cancel]; exact hshort
        · rw [k5]; show (it.id - 1) * S + it.data.length = _; rw [hdl]; omega
        · intro x hx hw; rw [k2] at hx; simp only [List.mem_singleton] at hx; subst hx
          have := k7 hw
          rw [this] at hdl; simp at hdl; omega
        · intro x hx hw _; exact hso
  obtain ⟨fmc, a, c1, c2, c3, c4, c5, c6, c7, c8, c9, c10, c11⟩ := cut
  obtain ⟨fm1, a', w1, w2, w3, w4, w5, w6, w7, w8⟩ := write_spec (cap := cap) (files := files) hS c2 buf
  obtain ⟨_, _, hl3, hl4⟩ := c2.at
  have hcl := lt_false_iff.mp c7
  have hwr1 : Wr (fun id => id = s.file → s.off = 0) fm1.cache := w7 _ (fun id hid he => by omega) c10
  have hwr2 : Wr (Before fmc.next) fm1.cache := w7 _ (fun id hid => Or.inl (by omega)) c9
  obtain ⟨fm2, ops, g1, g2, g3, g4, g5, g6, g7, g8, g9, g10⟩ := flush_spec hS hs ht hst w2 (show a' ≤ s.file by omega)
    (fun x hx hid hw => hwr1 x hx hw hid) hh hR (by rw [w6, c5]; exact hends) hb
  have hle := pos_le_of_not_lt ht hs hst
  refine ⟨fm0, fm1, fm2, ops, k1, ?_, g1, ⟨⟨a', g6, ?_⟩, g2, by rw [g8]; exact g3, by rw [g8]; exact ht, ?_, by rw [g7, w5]; exact c6, ?_, ?_, rfl, ?_⟩, ?_, g5⟩
  · unfold FM.beforeRecover
    rw [c1]
    simp only
    rw [w1]; rfl
  · rw [g7, w5]; omega
  · rw [g8, List.length_append]; omega
  · rw [g7, g9, w5]; exact lt_trans_false c7 w8
  · rw [g7, w5, List.length_append]; omega
  · intro x hx hw
    rw [g7, w5]
    obtain ⟨⟨it0, i1, i2, i3⟩, _⟩ := g10 x hx hw
    rw [← i2]; exact hwr2 it0 i1 i3
  · rw [← hR]; exact g4

end Verif.Store
