import Verif.RCache.SegLemmas

/-! # The slots stay right -/

namespace Verif.RCache

open Verif.Bytes Verif.Iter
open Verif.Block (bigBytes num_bigBytes)

/-! ## Data read from the database -/

theorem lastVal_sorted {l : List Entry} (h : SortedMem l) (k : Bytes) : lastVal l k = lookup l k := by
  induction l with
  | nil => rfl
  | cons e l ih =>
    have h1 := List.pairwise_cons.mp h
    rw [show e :: l = [e] ++ l from rfl, lastVal_append, ih h1.2]
    by_cases hk : e.1 = k
    · have : lookup l k = none := by
        cases hl : lookup l k with
        | none => rfl
        | some v => have := h1.1 _ (lookup_mem hl); rw [← hk] at this; simp [lt_irrefl] at this
      rw [this]
      simp [lastVal, lookup, hk]
    · have : lastVal [e] k = none := by simp [lastVal, hk]
      rw [this]
      simp [lookup, hk]

theorem lastVal_storage (l : List Entry) (k : Bytes) : lastVal (l.map (fun e => (storageKey e.1, e.2))) (storageKey k) = lastVal l k := by
  refine lastVal_of_filter ?_
  rw [List.filter_map, List.map_map]
  congr 1
  congr 1
  funext e
  simp [storageKey]

theorem lastVal_none {l : List Entry} {k : Bytes} (h : ∀ e ∈ l, e.1 ≠ k) : lastVal l k = none := by
  have : l.filter (fun e => decide (e.1 = k)) = [] := by
    rw [List.filter_eq_nil_iff]
    intro e he
    simpa using h e he
  simp [lastVal, this]

theorem lastVal_mem {l : List Entry} {k v : Bytes} (h : lastVal l k = some v) : (k, v) ∈ l := by
  unfold lastVal at h
  simp only [Option.map_eq_some_iff] at h
  obtain ⟨e, h1, h2⟩ := h
  have h3 := List.mem_filter.mp (List.mem_of_getLast? h1)
  have h4 : e.1 = k := by simpa using h3.2
  rw [← h4, ← h2]
  exact h3.1

theorem listStorage_sorted (c : Chain) (h : Nat) : SortedMem (listStorage c h) := by
  have := puts_sorted (l := (c.take h).flatMap (fun b : Blk => b.log.writes)) (m := []) List.Pairwise.nil
  exact this

theorem listStorage_lookup (c : Chain) (h : Nat) (k : Bytes) : lookup (listStorage c h) k = storageAt c h k := by
  have := lookup_puts (l := (c.take h).flatMap (·.log.writes)) (m := []) List.Pairwise.nil k
  rw [storageAt_eq]
  unfold listStorage
  unfold puts at this
  rw [this]
  simp [lookup]

theorem queryCurrent_agrees {g : Cfg} {c : Chain} (hc : Ok c) {r lo hi : Nat} (hs : Seg c r lo hi) :
    ∃ m b, queryCurrent g c r = some (m, b) ∧ c[hi - 1]? = some b ∧ Agrees c hi m := by
  obtain ⟨b, hb, hbr⟩ := hs.last
  have hlt := hs.lt
  have hh : b.height = hi := by rw [hc.heights _ _ hb]; omega
  unfold queryCurrent
  rw [hs.lastOfRound hc.rounds, hb]
  simp only [hh]
  refine ⟨_, b, rfl, rfl, ?_⟩
  have e1 : (listStorage c hi).foldl (fun m e => put (storageKey e.1) e.2 m) [] = puts ((listStorage c hi).map (fun e => (storageKey e.1, e.2))) [] := by
    simp [puts, List.foldl_map]
  have e2 : ∀ m : Mem, g.accounts.foldl (fun m a => match balanceAt c hi a with | none => m | some x => put (balanceKey a) (bigBytes x) m) m =
      puts (g.accounts.flatMap (fun a => match balanceAt c hi a with | none => [] | some x => [(balanceKey a, bigBytes x)])) m := by
    intro m
    rw [← foldl_puts]
    congr 1
    funext m a
    cases balanceAt c hi a <;> rfl
  rw [e1]
  refine (congrArg (Agrees c hi) (e2 _)).mpr ?_
  have hm1 : SortedMem (puts ((listStorage c hi).map (fun e => (storageKey e.1, e.2))) []) := puts_sorted List.Pairwise.nil
  constructor
  · exact puts_sorted hm1
  · intro k
    rw [lookup_puts hm1, lastVal_none, Option.none_or, lookup_puts List.Pairwise.nil, lastVal_storage, lastVal_sorted (listStorage_sorted c hi),
      listStorage_lookup]
    · simp [lookup]
    · intro e he
      obtain ⟨a, _, ha⟩ := List.mem_flatMap.mp he
      cases hba : balanceAt c hi a with
      | none => rw [hba] at ha; cases ha
      | some x => rw [hba] at ha; simp at ha; rw [ha]; simp [balanceKey, storageKey]
  · intro a v hv
    rw [lookup_puts hm1] at hv
    have h0 : lookup (puts ((listStorage c hi).map (fun e => (storageKey e.1, e.2))) []) (balanceKey a) = none := by
      rw [lookup_puts List.Pairwise.nil, lastVal_none]
      · simp [lookup]
      · intro e he
        obtain ⟨x, _, rfl⟩ := List.mem_map.mp he
        simp [balanceKey, storageKey]
    rw [h0, Option.or_none] at hv
    obtain ⟨a', _, ha'⟩ := List.mem_flatMap.mp (lastVal_mem hv)
    cases hba : balanceAt c hi a' with
    | none => rw [hba] at ha'; cases ha'
    | some x =>
      rw [hba] at ha'
      simp only [List.mem_singleton, Prod.mk.injEq, balanceKey, List.cons.injEq, true_and] at ha'
      rw [ha'.1, ha'.2, num_big, hba]

/-! ## A block comes -/

theorem SameTo.append {c : Chain} {b : Blk} {n : Nat} (h : n ≤ c.length) : SameTo n c (c ++ [b]) := by
  show (c ++ [b]).take n = c.take n
  rw [List.take_append_of_le_length h]

theorem get_append {c : Chain} {b x : Blk} {i : Nat} (h : (c ++ [b])[i]? = some x) : c[i]? = some x ∨ (i = c.length ∧ x = b) := by
  rw [List.getElem?_append] at h
  split at h
  · exact .inl h
  · right
    have : i = c.length := by
      by_contra hne
      have h1 : 1 ≤ i - c.length := by omega
      rw [List.getElem?_eq_none (by simpa using h1)] at h
      cases h
    subst this
    simp at h
    exact ⟨rfl, h.symm⟩

theorem redos_snoc {c : Chain} {b : Blk} {lo : Nat} (h : lo ≤ c.length) :
    redos (c ++ [b]) lo (c ++ [b]).length = redos c lo c.length ++ [redoOf b.height b.log] := by
  unfold redos
  rw [List.take_length, List.take_length, List.drop_append_of_le_length h, List.map_append]
  rfl

/-- Rounds do not fall at the end. -/
theorem Ok.last_le {c : Chain} {b l : Blk} (h : Ok (c ++ [b])) (hl : c.getLast? = some l) : l.round ≤ b.round := by
  have := (List.pairwise_append.mp h.rounds).2.2 l (List.mem_of_getLast? hl) b (by simp)
  exact this

theorem Ok.front {c : Chain} {b : Blk} (h : Ok (c ++ [b])) : Ok c where
  heights := by
    intro i x hx
    refine h.heights i x ?_
    rw [List.getElem?_append, if_pos (List.getElem?_eq_some_iff.mp hx).1]
    exact hx
  rounds := (List.pairwise_append.mp h.rounds).1
  hashes := by
    have := h.hashes
    rw [List.map_append] at this
    exact (List.nodup_append.mp this).1
  logs := fun x hx => h.logs x (List.mem_append_left _ hx)

theorem Ok.take {c : Chain} (h : Ok c) (n : Nat) : Ok (c.take n) where
  heights := by
    intro i x hx
    rw [List.getElem?_take] at hx
    split at hx
    · exact h.heights i x hx
    · cases hx
  rounds := h.rounds.sublist (List.take_sublist n c)
  hashes := h.hashes.sublist ((List.take_sublist n c).map _)
  logs := fun x hx => h.logs x (List.mem_of_mem_take hx)

theorem getLast_get {c : Chain} {l : Blk} (hl : c.getLast? = some l) : c[c.length - 1]? = some l := by rw [← List.getLast?_eq_getElem?]; exact hl

theorem seg_grow {c : Chain} {b : Blk} {r lo : Nat} (h : Seg c r lo c.length) (hb : b.round = r) : Seg (c ++ [b]) r lo (c ++ [b]).length where
  lt := by have := h.lt; simp; omega
  le := Nat.le_refl _
  before := by
    intro i x hx
    have := h.lt
    rcases get_append hx with h1 | ⟨h1, h2⟩
    · exact h.before i x h1
    · subst h2; omega
  upto := by
    intro i x hx
    have hlt := (List.getElem?_eq_some_iff.mp hx).1
    rcases get_append hx with h1 | ⟨h1, h2⟩
    · have := h.upto i x h1
      have := (List.getElem?_eq_some_iff.mp h1).1
      omega
    · subst h2; omega

theorem seg_new {c : Chain} {b l : Blk} (hc : Ok (c ++ [b])) (hl : c.getLast? = some l) (hlt : l.round < b.round) :
    Seg (c ++ [b]) b.round c.length (c ++ [b]).length where
  lt := by simp
  le := Nat.le_refl _
  before := by
    intro i x hx
    rcases get_append hx with h1 | ⟨h1, h2⟩
    · have h2 := (List.getElem?_eq_some_iff.mp h1).1
      have := round_mono (hc.front.rounds) h1 (getLast_get hl) (by omega)
      omega
    · subst h2; omega
  upto := by
    intro i x hx
    have h3 := (List.getElem?_eq_some_iff.mp hx).1
    rcases get_append hx with h1 | ⟨h1, h2⟩
    · have h2 := (List.getElem?_eq_some_iff.mp h1).1
      have := round_mono (hc.front.rounds) h1 (getLast_get hl) (by omega)
      omega
    · subst h2; omega

theorem Open.round {c : Chain} {lo : Nat} {e : Slot} (h : Open c lo e) {l : Blk} (hl : c.getLast? = some l) : e.round = l.round := by
  obtain ⟨b, hb, hbr⟩ := h.seg.last
  rw [getLast_get hl] at hb
  cases hb
  exact hbr.symm

theorem seg_append {c : Chain} {b : Blk} {r lo hi : Nat} (h : Seg c r lo hi) (hb : r < b.round) : Seg (c ++ [b]) r lo hi :=
  h.move (SameTo.append h.le) (by have := h.le; simp; omega) (by
    intro i x hi hx
    rcases get_append hx with h1 | ⟨_, rfl⟩
    · have := h.upto i x h1; omega
    · exact hb)

theorem Fulls.mem_seg {c : Chain} {lo hi : Nat} {l : List Slot} (h : Fulls c lo l hi) {d : Slot} (hd : d ∈ l) :
    ∃ lo' hi', lo ≤ lo' ∧ hi' ≤ hi ∧ Seg c d.round lo' hi' ∧ Full c d hi' := by
  induction h with
  | nil => cases hd
  | @cons lo mid hi d' l h1 h2 h3 h4 ih =>
    have := h1.lt
    have := h4.le
    rcases List.mem_cons.mp hd with rfl | hd
    · exact ⟨lo, mid, Nat.le_refl _, h4.le, h1, h2⟩
    · obtain ⟨lo', hi', g1, g2, g3⟩ := ih hd
      exact ⟨lo', hi', by omega, g2, g3⟩

theorem Fulls.append {c : Chain} {b : Blk} {lo hi : Nat} {l : List Slot} (h : Fulls c lo l hi) (hl : hi ≤ c.length)
    (hr : ∀ d ∈ l, d.round < b.round) : Fulls (c ++ [b]) lo l hi := by
  refine h.move (SameTo.append hl) (by simp; omega) ?_
  intro d hd i x hi hx
  rcases get_append hx with h1 | ⟨_, rfl⟩
  · exact h.later hd hi h1
  · exact hr d hd

/-- Rounds of earlier slots are smaller than that of the open one. -/
theorem Open.later {c : Chain} {mid : Nat} {e : Slot} (he : Open c mid e) {r lo hi : Nat} (hs : Seg c r lo hi) (hle : hi ≤ mid) : r < e.round := by
  have h1 := he.seg.lt
  have hb : c[mid]? = some c[mid] := List.getElem?_eq_getElem h1
  have h2 := (he.seg.mem hb).mpr ⟨Nat.le_refl _, h1⟩
  have := hs.upto _ _ hb
  omega

theorem push_slots {g : Cfg} {c : Chain} {d e x : Slot} {L : List Slot} {lo hi mid : Nat} (h1 : Seg c d.round lo hi) (h2 : Full c d hi)
    (h3 : Fulls c hi (L ++ [x]) mid) (h4 : Open c mid e) : Slots c (push g (d :: (L ++ [x])) e) := by
  unfold push
  simp only
  split
  · simp only [List.cons_append, List.tail_cons]
    cases L with
    | nil =>
      cases h3 with
      | cons a1 a2 a3 a4 =>
        cases a4
        exact Slots.some (l := []) a1 a2 (.nil _) h4
    | cons y L =>
      cases h3 with
      | cons a1 a2 a3 a4 => exact Slots.some (l := L ++ [x]) a1 a2 a4 h4
  · exact Slots.some (l := L ++ [x]) h1 h2 h3 h4

theorem snoc_getLast {α : Type} (d e : α) (L : List α) : (d :: (L ++ [e])).getLast? = some e := by
  rw [show d :: (L ++ [e]) = (d :: L) ++ [e] from rfl, List.getLast?_append]
  rfl

theorem snoc_dropLast {α : Type} (d e : α) (L : List α) : (d :: (L ++ [e])).dropLast = d :: L := by
  rw [show d :: (L ++ [e]) = (d :: L) ++ [e] from rfl]
  exact List.dropLast_concat

theorem Fulls.unsnoc {c : Chain} {lo hi : Nat} {l : List Slot} {q : Slot} (h : Fulls c lo (l ++ [q]) hi) :
    ∃ mid, Fulls c lo l mid ∧ Seg c q.round mid hi ∧ Full c q hi ∧ q.logs = some (redos c mid hi) := by
  induction l generalizing lo with
  | nil =>
    cases h with
    | cons a1 a2 a3 a4 =>
      cases a4
      exact ⟨lo, .nil _, a1, a2, a3⟩
  | cons y l ih =>
    cases h with
    | cons a1 a2 a3 a4 =>
      obtain ⟨mid, g1, g2⟩ := ih a4
      exact ⟨mid, .cons a1 a2 a3 g1, g2⟩

/-- What holds of a reached state. -/
structure Inv (s : St) : Prop where
  ok : Ok s.chain
  ne : s.chain ≠ []
  slots : s.inited = true → Slots s.chain s.slots ∧ ∀ l, s.chain.getLast? = some l → s.latest = l.round

theorem insert_inv {g : Cfg} (hg : g.Fair) (h2 : 2 ≤ g.count) {s : St} (hi : Inv s) {b : Blk} (hb : Ok (s.chain ++ [b])) :
    ∃ s', insert g s b = some s' ∧ Inv s' ∧ s'.chain = s.chain ++ [b] := by
  unfold insert
  simp only
  by_cases hin : s.inited = true
  swap
  · rw [Bool.not_eq_true] at hin
    rw [hin]
    exact ⟨_, rfl, ⟨hb, by simp, (by intro h; cases h)⟩, rfl⟩
  rw [hin]
  obtain ⟨hsl, hlat⟩ := hi.slots hin
  obtain ⟨l, hl⟩ : ∃ l, s.chain.getLast? = some l := by
    cases h : s.chain.getLast? with
    | none => exact absurd (List.getLast?_eq_none_iff.mp h) hi.ne
    | some l => exact ⟨l, rfl⟩
  have hlat := hlat l hl
  have hle := hb.last_le hl
  have hlast : ∀ x, (s.chain ++ [b]).getLast? = some x → b.round = x.round := by
    intro x hx; simp at hx; rw [hx]
  have hbh : b.height = s.chain.length + 1 := hb.heights s.chain.length b (by simp)
  have hpos : 0 < s.chain.length := List.length_pos_iff.mpr hi.ne
  simp only [Bool.not_true, Bool.false_eq_true, if_false]
  rw [if_neg (by omega)]
  by_cases heq : b.round = s.latest
  · rw [if_pos heq]
    generalize hss : s.slots = ss at hsl
    cases hsl with
    | empty =>
      refine ⟨_, rfl, ⟨hb, by simp, fun _ => ⟨?_, hlast⟩⟩, rfl⟩
      simp only [hss]
      exact .empty
    | @some d e L lo hi' mid h1 h2 h3 h4 =>
      have hgl := snoc_getLast d e L
      have hdl := snoc_dropLast d e L
      rw [hgl]
      simp only [h4.logs, hdl]
      have her := h4.round hl
      have hdr : ∀ {r lo hi'}, Seg s.chain r lo hi' → hi' ≤ mid → r < b.round := by
        intro r lo hi' hs hle
        have := h4.later hs hle
        omega
      have hml := h4.seg.lt
      refine ⟨_, rfl, ⟨hb, by simp, fun _ => ⟨?_, hlast⟩⟩, rfl⟩
      refine Slots.some (l := L) (seg_append h1 (hdr h1 h3.le)) (h2.move (by have := h1.lt; omega) (SameTo.append h1.le))
        (h3.append (by omega) ?_) ⟨?_, h4.cur, h4.last, ?_⟩
      · intro x hx
        obtain ⟨lo', hi'', _, g2, g3, _⟩ := h3.mem_seg hx
        exact hdr g3 g2
      · exact seg_grow h4.seg (by simp only; omega)
      · rw [redos_snoc (by omega)]
  · rw [if_neg heq]
    have hlt : l.round < b.round := by omega
    have hopen : Open (s.chain ++ [b]) s.chain.length ⟨b.round, none, none, some [redoOf b.height b.log]⟩ := by
      refine ⟨seg_new hb hl hlt, rfl, rfl, ?_⟩
      simp only
      rw [redos_snoc (Nat.le_refl _)]
      unfold redos
      rw [List.take_length, List.drop_length]
      rfl
    generalize hss : s.slots = ss at hsl
    cases hsl with
    | empty =>
      obtain ⟨lo, hi', hs⟩ := seg_exists hi.ok.rounds (List.mem_of_getLast? hl)
      have hhi : hi' = s.chain.length := by
        have h1 := hs.upto _ _ (getLast_get hl)
        have := hs.le
        omega
      subst hhi
      obtain ⟨m, x, g1, g2, g3⟩ := queryCurrent_agrees (g := g) hi.ok hs
      rw [← hlat] at g1
      simp only [List.length_nil, g1]
      refine ⟨_, rfl, ⟨hb, by simp, fun _ => ⟨?_, hlast⟩⟩, rfl⟩
      have hpush : push g [⟨s.latest, some x, some m, none⟩] ⟨b.round, none, none, some [redoOf b.height b.log]⟩ =
          [⟨s.latest, some x, some m, none⟩, ⟨b.round, none, none, some [redoOf b.height b.log]⟩] := by
        unfold push
        simp only [List.cons_append, List.nil_append, List.length_cons, List.length_nil]
        rw [if_neg (by omega)]
      simp only [hpush]
      refine Slots.some (l := []) (lo := lo) (hi := s.chain.length) ?_ ⟨m, x, rfl, rfl, ?_, ?_⟩ (.nil _) hopen
      · simp only
        rw [hlat]
        exact seg_append hs hlt
      · rw [List.getElem?_append, if_pos (by omega)]
        exact g2
      · exact g3.move (SameTo.append (Nat.le_refl _))
    | @some d e L lo hi' mid h1 h2 h3 h4 =>
      have hml := h4.seg.lt
      have hlen : (d :: (L ++ [e])).length = L.length + 2 := by simp
      have hp : (d :: (L ++ [e]))[L.length + 1]? = some e := by simp
      have hdr : ∀ {r lo hi'}, Seg s.chain r lo hi' → hi' ≤ mid → r < b.round := by
        intro r lo hi' hs hle
        have := h4.later hs hle
        have := h4.round hl
        omega
      have hq : ∃ q m, (d :: (L ++ [e]))[L.length]? = some q ∧ q.cur = some m ∧ Agrees s.chain mid m := by
        rcases List.eq_nil_or_concat L with rfl | ⟨L', q, rfl⟩
        · cases h3
          obtain ⟨m, _, g1, _, _, g4⟩ := h2
          exact ⟨d, m, rfl, g1, g4⟩
        · rw [List.concat_eq_append] at h3 ⊢
          obtain ⟨_, _, _, ⟨m, _, g1, _, _, g4⟩, _⟩ := h3.unsnoc
          refine ⟨q, m, ?_, g1, g4⟩
          rw [show d :: (L' ++ [q] ++ [e]) = (d :: L') ++ (q :: [e]) by simp, show (L' ++ [q]).length = (d :: L').length by simp]
          rw [List.getElem?_append_right (Nat.le_refl _)]
          simp
      obtain ⟨q, m, hq1, hq2, hq3⟩ := hq
      have hdl := snoc_dropLast d e L
      have hcl : s.chain[b.height - 2]? = some l := by
        rw [hbh, show s.chain.length + 1 - 2 = s.chain.length - 1 by omega]
        exact getLast_get hl
      have hne : redos s.chain mid s.chain.length ≠ [] := by
        intro h0
        have := congrArg List.length h0
        simp [redos] at this
        omega
      simp only [hlen, hp, hq1, hcl, h4.logs, hq2, if_neg hne, hdl, List.cons_append]
      refine ⟨_, rfl, ⟨hb, by simp, fun _ => ⟨?_, hlast⟩⟩, rfl⟩
      refine push_slots (seg_append h1 (hdr h1 h3.le)) (h2.move (by have := h1.lt; omega) (SameTo.append h1.le)) ?_ hopen
      have hagr := Agrees.build hg hi.ok.logs (Nat.le_of_lt hml) hq3
      refine Fulls.snoc (h3.append (by omega) ?_) ?_ ⟨_, l, rfl, rfl, ?_, hagr.move (SameTo.append (Nat.le_refl _))⟩ ?_
      · intro x hx
        obtain ⟨lo', hi'', _, g2, g3, _⟩ := h3.mem_seg hx
        exact hdr g3 g2
      · have := h4.round hl
        exact seg_append h4.seg (show e.round < b.round by omega)
      · rw [List.getElem?_append, if_pos (by omega)]
        exact getLast_get hl
      · simp only
        rw [redos_move (SameTo.append (Nat.le_refl _))]

/-! ## Blocks go -/

theorem seg_cut {c : Chain} {r lo hi n : Nat} (h : Seg c r lo hi) (h1 : lo < n) (h2 : n ≤ hi) : Seg (c.take n) r lo (c.take n).length := by
  have hle := h.le
  have hlen : (c.take n).length = n := by rw [List.length_take]; omega
  rw [hlen]
  have get : ∀ {i b}, (c.take n)[i]? = some b → i < n ∧ c[i]? = some b := by
    intro i b hb
    rw [List.getElem?_take] at hb
    split at hb
    · exact ⟨by assumption, hb⟩
    · cases hb
  refine ⟨h1, by omega, ?_, ?_⟩
  · intro i b hb
    exact h.before i b (get hb).2
  · intro i b hb
    have := get hb
    have := h.upto i b this.2
    omega

theorem SameTo.take {c : Chain} {n m : Nat} (h : n ≤ m) : SameTo n c (c.take m) := by
  show (c.take m).take n = c.take n
  rw [List.take_take, Nat.min_eq_left h]

theorem seg_take {c : Chain} {r lo hi n : Nat} (h : Seg c r lo hi) (hn : hi ≤ n) : Seg (c.take n) r lo hi := by
  have hle := h.le
  refine h.move (SameTo.take hn) (by rw [List.length_take]; omega) ?_
  intro i b hi' hb
  rw [List.getElem?_take] at hb
  split at hb
  · have := h.upto i b hb; omega
  · cases hb

theorem Fulls.take {c : Chain} {lo hi n : Nat} {l : List Slot} (h : Fulls c lo l hi) (hn : hi ≤ n) (hc : hi ≤ c.length) :
    Fulls (c.take n) lo l hi := by
  refine h.move (SameTo.take hn) (by rw [List.length_take]; omega) ?_
  intro d hd i b hi' hb
  rw [List.getElem?_take] at hb
  split at hb
  · exact h.later hd hi' hb
  · cases hb

theorem trim_redos {c : Chain} (hc : Ok c) {lo hi h : Nat} (h1 : lo < h) (h2 : h ≤ hi) (h3 : hi ≤ c.length) :
    trim h (redos c lo hi) = redos c lo (h - 1) := by
  have hsplit : redos c lo hi = redos c lo (h - 1) ++ redos c (h - 1) hi := by
    unfold redos
    rw [← List.map_append]
    congr 1
    have e := take_split c (show h - 1 ≤ hi by omega)
    conv_lhs => rw [e]
    rw [List.drop_append_of_le_length (by rw [List.length_take]; omega)]
  have hheight : ∀ {lo hi r}, r ∈ redos c lo hi → lo < r.height ∧ r.height ≤ hi := by
    intro lo hi r hr
    obtain ⟨b, hb, rfl⟩ := List.mem_map.mp hr
    obtain ⟨i, hi'⟩ := List.mem_iff_getElem?.mp hb
    rw [List.getElem?_drop, List.getElem?_take] at hi'
    split at hi'
    · have := hc.heights _ _ hi'
      simp only [redoOf]
      omega
    · cases hi'
  unfold trim
  rw [hsplit, List.reverse_append, List.dropWhile_append_of_pos]
  · cases hr : (redos c lo (h - 1)).reverse with
    | nil =>
      have : redos c lo (h - 1) = [] := by simpa using hr
      rw [this]
      rfl
    | cons r t =>
      have hm : r ∈ redos c lo (h - 1) := by
        rw [← List.mem_reverse, hr]
        exact List.mem_cons_self
      have := hheight hm
      rw [List.dropWhile_cons_of_neg (by simp; omega), ← hr, List.reverse_reverse]
  · intro r hr
    have := hheight (List.mem_reverse.mp hr)
    simp
    omega

/-- Slots of later rounds go. -/
theorem deleteLoop_later (r h : Nat) (A B : List Slot) (hB : ∀ d ∈ B, r < d.round) :
    deleteLoop r h (A ++ B).length (A ++ B) (A ++ B).length = deleteLoop r h A.length (A ++ B) A.length := by
  have key : ∀ (B1 B2 : List Slot), (∀ d ∈ B1, r < d.round) →
      deleteLoop r h (A ++ B1).length (A ++ B1 ++ B2) (A ++ B1).length = deleteLoop r h A.length (A ++ B1 ++ B2) A.length := by
    intro B1
    induction B1 using List.reverseRecOn with
    | nil => intro B2 _; simp
    | append_singleton B1 x ih =>
      intro B2 hB1
      have e : (A ++ (B1 ++ [x])).length = (A ++ B1).length + 1 := by simp; omega
      rw [e]
      have hx : (A ++ (B1 ++ [x]) ++ B2)[(A ++ B1).length]? = some x := by
        rw [show A ++ (B1 ++ [x]) ++ B2 = (A ++ B1) ++ (x :: B2) by simp, List.getElem?_append_right (Nat.le_refl _)]
        simp
      rw [deleteLoop, hx]
      simp only
      rw [if_pos (hB1 x (by simp))]
      have := ih (x :: B2) (fun d hd => hB1 d (by simp [hd]))
      rw [show A ++ (B1 ++ [x]) ++ B2 = A ++ B1 ++ x :: B2 by simp]
      exact this
  have := key B [] hB
  simpa using this

/-- A slot of an earlier round ends the loop. -/
theorem deleteLoop_stop {r h : Nat} {A B : List Slot} (n : Nat) (hA : ∀ d ∈ A, d.round < r) : deleteLoop r h A.length (A ++ B) n = (A ++ B, n) := by
  rcases List.eq_nil_or_concat A with rfl | ⟨A', x, rfl⟩
  · rfl
  · rw [List.concat_eq_append] at hA ⊢
    have hx : (A' ++ [x] ++ B)[A'.length]? = some x := by
      rw [List.append_assoc, List.getElem?_append_right (Nat.le_refl _)]
      simp
    have hr := hA x (by simp)
    rw [show (A' ++ [x]).length = A'.length + 1 by simp, deleteLoop, hx]
    simp only
    rw [if_neg (by omega), if_neg (by omega)]

/-- The slot of the round in which the first deleted block lies. -/
theorem deleteLoop_at {r h : Nat} {A B : List Slot} {x : Slot} {logs : List Redo} (hA : ∀ d ∈ A, d.round < r) (hx : x.round = r)
    (hl : x.logs = some logs) : deleteLoop r h (A.length + 1) (A ++ x :: B) (A.length + 1) =
      if trim h logs = [] then (A ++ { x with cur := none, last := none } :: B, A.length)
      else (A ++ { x with cur := none, last := none, logs := some (trim h logs) } :: B, A.length + 1) := by
  have hget : (A ++ x :: B)[A.length]? = some x := by
    rw [List.getElem?_append_right (Nat.le_refl _)]
    simp
  rw [deleteLoop, hget]
  simp only
  rw [if_neg (by omega), if_pos hx, hl]
  simp only
  have hset : ∀ y : Slot, (A ++ x :: B).set A.length y = A ++ y :: B := by
    intro y
    rw [List.set_append_right _ _ (Nat.le_refl _)]
    simp
  rw [hset, hset]
  split
  · exact deleteLoop_stop _ hA
  · exact deleteLoop_stop _ hA

/-- The loop does not leave more than one slot when all but the first are of later rounds. -/
theorem deleteLoop_one (r h : Nat) (d : Slot) (B : List Slot) : (deleteLoop r h 1 (d :: B) 1).2 ≤ 1 := by
  rw [deleteLoop]
  simp only [List.getElem?_cons_zero]
  split
  · simp [deleteLoop]
  · split
    · split
      · simp [deleteLoop]
      · split <;> simp [deleteLoop]
    · simp

theorem keep_few {l : List Slot} {n : Nat} (h : n ≤ 1) : keep l n = [] := by
  unfold keep
  rw [if_pos h]
  rfl

theorem keep_many {A B : List Slot} {x : Slot} (hA : A ≠ []) : keep (A ++ x :: B) (A.length + 1) = A ++ [{ x with cur := none, last := none }] := by
  have : 0 < A.length := List.length_pos_iff.mpr hA
  have e : (A ++ x :: B).take (A.length + 1) = A ++ [x] := by
    rw [List.take_append, List.take_of_length_le (by omega)]
    simp
  unfold keep
  rw [if_neg (by omega), e]
  simp

/-- The slots around the height from which on blocks go. -/
theorem slots_around {c : Chain} {h hi mid : Nat} {l : List Slot} {e : Slot} (hl : Fulls c hi l mid) (he : Open c mid e) (h1 : hi < h)
    (h2 : h ≤ c.length) : ∃ l1 x l2 lo' hi', l ++ [e] = l1 ++ x :: l2 ∧ Fulls c hi l1 lo' ∧ Seg c x.round lo' hi' ∧ lo' < h ∧ h ≤ hi' ∧
      x.logs = some (redos c lo' hi') ∧ ∀ y ∈ l2, x.round < y.round := by
  induction hl with
  | nil n => exact ⟨[], e, [], n, c.length, rfl, .nil _, he.seg, h1, h2, he.logs, by simp⟩
  | @cons lo mid' hi d l a1 a2 a3 a4 ih =>
    by_cases hm : mid' < h
    · obtain ⟨l1, x, l2, lo', hi', g1, g2, g3⟩ := ih he hm
      exact ⟨d :: l1, x, l2, lo', hi', by rw [List.cons_append, g1]; rfl, .cons a1 a2 a3 g2, g3⟩
    · refine ⟨[], d, l ++ [e], lo, mid', rfl, .nil _, a1, h1, by omega, a3, ?_⟩
      intro y hy
      have hb : ∀ {r lo2 hi2}, Seg c r lo2 hi2 → mid' ≤ lo2 → d.round < r := by
        intro r lo2 hi2 hs hle
        have g1 := hs.lt; have g2 := hs.le
        have hb : c[lo2]? = some c[lo2] := List.getElem?_eq_getElem (by omega)
        have := (hs.mem hb).mpr ⟨Nat.le_refl _, g1⟩
        have := a1.upto _ _ hb
        omega
      rcases List.mem_append.mp hy with hy | hy
      · obtain ⟨lo', hi', g1, _, g3, _⟩ := a4.mem_seg hy
        exact hb g3 g1
      · rw [List.mem_singleton.mp hy]
        exact hb he.seg a4.le

theorem delete_inv {s : St} (hi : Inv s) {h : Nat} (h1 : 2 ≤ h) (h2 : h ≤ s.chain.length) :
    ∃ s', delete s h = some s' ∧ Inv s' ∧ s'.chain = s.chain.take (h - 1) := by
  have hlen : (s.chain.take (h - 1)).length = h - 1 := by rw [List.length_take]; omega
  have hne : s.chain.take (h - 1) ≠ [] := by
    intro h0
    rw [h0] at hlen
    simp at hlen
    omega
  unfold delete
  simp only
  by_cases hin : s.inited = true
  swap
  · rw [Bool.not_eq_true] at hin
    rw [hin]
    exact ⟨_, rfl, ⟨hi.ok.take _, hne, (by intro h; cases h)⟩, rfl⟩
  rw [hin]
  obtain ⟨hsl, _⟩ := hi.slots hin
  have hf : s.chain[h - 1]? = some s.chain[h - 1] := List.getElem?_eq_getElem (by omega)
  have hb : s.chain[h - 2]? = some s.chain[h - 2] := List.getElem?_eq_getElem (by omega)
  generalize s.chain[h - 1] = first at hf
  generalize s.chain[h - 2] = before at hb
  have hfh : first.height = h := by rw [hi.ok.heights _ _ hf]; omega
  simp only [Bool.not_true, Bool.false_eq_true, if_false, hf, hb, hfh]
  refine ⟨_, rfl, ⟨hi.ok.take _, hne, fun _ => ⟨?_, ?_⟩⟩, rfl⟩
  swap
  · intro l hl
    have := getLast_get hl
    rw [hlen, List.getElem?_take, if_pos (by omega), show h - 1 - 1 = h - 2 by omega, hb] at this
    cases this
    rfl
  simp only
  generalize s.slots = ss at hsl ⊢
  cases hsl with
  | empty => exact .empty
  | @some d e l lo hi' mid a1 a2 a3 a4 =>
    by_cases hh : h ≤ hi'
    · have hr : ∀ y ∈ l ++ [e], first.round < y.round := by
        have hle : first.round ≤ d.round := (a1.upto _ _ hf).mpr (by omega)
        have hb : ∀ {r lo2 hi2}, Seg s.chain r lo2 hi2 → hi' ≤ lo2 → d.round < r := by
          intro r lo2 hi2 hs hle
          have g1 := hs.lt; have g2 := hs.le
          have hb : s.chain[lo2]? = some s.chain[lo2] := List.getElem?_eq_getElem (by omega)
          have := (hs.mem hb).mpr ⟨Nat.le_refl _, g1⟩
          have := a1.upto _ _ hb
          omega
        intro y hy
        rcases List.mem_append.mp hy with hy | hy
        · obtain ⟨lo', hi', g1, _, g3, _⟩ := a3.mem_seg hy
          have := hb g3 g1
          omega
        · rw [List.mem_singleton.mp hy]
          have := hb a4.seg a3.le
          omega
      have := deleteLoop_later first.round h [d] (l ++ [e]) hr
      simp only [List.cons_append, List.nil_append] at this
      rw [this]
      simp only [List.length_cons, List.length_nil, Nat.zero_add]
      rw [keep_few (deleteLoop_one _ _ _ _)]
      exact .empty
    · obtain ⟨l1, x, l2, lo', hi2, g1, g2, g3, g4, g5, g6, g7⟩ := slots_around a3 a4 (show hi' < h by omega) h2
      have hxr : first.round = x.round := (g3.mem hf).mpr (by omega)
      have hd : ∀ y ∈ d :: l1, y.round < first.round := by
        intro y hy
        rcases List.mem_cons.mp hy with rfl | hy
        · have := a1.upto _ _ hf; omega
        · exact g2.later hy (by omega) hf
      have hl1 := deleteLoop_later first.round h (d :: (l1 ++ [x])) l2 (by intro y hy; rw [hxr]; exact g7 y hy)
      have e1 : d :: (l ++ [e]) = (d :: l1) ++ x :: l2 := by rw [g1]; rfl
      have e2 : d :: (l1 ++ [x]) ++ l2 = (d :: l1) ++ x :: l2 := by simp
      rw [e2] at hl1
      rw [e1, hl1, show (d :: (l1 ++ [x])).length = (d :: l1).length + 1 by simp, deleteLoop_at hd hxr.symm g6,
        trim_redos hi.ok g4 g5 g3.le]
      have hcl := g3.le
      have hdm : Seg (s.chain.take (h - 1)) d.round lo hi' ∧ Full (s.chain.take (h - 1)) d hi' :=
        ⟨seg_take a1 (by omega), a2.move (by have := a1.lt; omega) (SameTo.take (by omega))⟩
      by_cases hlo : lo' = h - 1
      · have hnil : redos s.chain lo' (h - 1) = [] := by
          unfold redos
          rw [hlo, List.drop_eq_nil_of_le (by rw [List.length_take]; omega)]
          rfl
        rw [if_pos hnil]
        simp only
        rcases List.eq_nil_or_concat l1 with rfl | ⟨l1', y, rfl⟩
        · rw [keep_few (by simp)]
          exact .empty
        · rw [List.concat_eq_append] at g2 ⊢
          obtain ⟨mid', b1, b2, b3, b4⟩ := g2.unsnoc
          have e3 : ∀ z : Slot, d :: (l1' ++ [y]) ++ z :: l2 = (d :: l1') ++ y :: (z :: l2) := by intro z; simp
          rw [e3, show (d :: (l1' ++ [y])).length = (d :: l1').length + 1 by simp, keep_many (by simp)]
          have hyl := b2.lt
          refine Slots.some (l := l1') hdm.1 hdm.2 (b1.take (by omega) (by omega)) ⟨?_, rfl, rfl, ?_⟩
          · exact seg_cut b2 (by omega) (by omega)
          · simp only
            rw [b4, hlen, hlo, redos_move (SameTo.take (Nat.le_refl _))]
      · have hnn : redos s.chain lo' (h - 1) ≠ [] := by
          intro h0
          have := congrArg List.length h0
          simp [redos] at this
          omega
        rw [if_neg hnn]
        simp only
        rw [keep_many (by simp)]
        refine Slots.some (l := l1) hdm.1 hdm.2 (g2.take (by omega) (by omega)) ⟨?_, rfl, rfl, ?_⟩
        · exact seg_cut g3 (by omega) (by omega)
        · simp only
          rw [hlen, redos_move (SameTo.take (Nat.le_refl _))]

end Verif.RCache
