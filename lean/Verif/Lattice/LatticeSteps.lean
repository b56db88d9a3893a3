import Mathlib.Data.List.Perm.Subperm
import Verif.Lattice.LatticeInv

/-!
Every operation keeps the invariant, and what it does to the blocks.
-/

namespace Verif.Lattice

variable {U : Blk → Prop} {c : Chain}

/-! ### Removing blocks -/

theorem mem_without {l D : List Blk} (hi : ∀ x ∈ l, ∀ y ∈ D, x.hash = y.hash → x = y) {x : Blk} : x ∈ without l D ↔ x ∈ l ∧ x ∉ D := by
  simp only [without, hashes, List.mem_filter, List.mem_map, decide_eq_true_eq]
  constructor
  · rintro ⟨h1, h2⟩
    exact ⟨h1, fun h => h2 ⟨x, h, rfl⟩⟩
  · rintro ⟨h1, h2⟩
    refine ⟨h1, ?_⟩
    rintro ⟨y, hy, e⟩
    have := hi x h1 y hy e.symm
    subst this; exact h2 hy

theorem get_filter_key {K V : Type} [DecidableEq K] (p : K → Bool) (t : Table K V) {k : K} {v : V} :
    Table.get k (t.filter (fun x => p x.1)) = some v → p k = true ∧ Table.get k t = some v := by
  induction t with
  | nil => intro h; cases h
  | cons x t ih =>
    intro h
    by_cases hp : p x.1 = true
    · rw [List.filter_cons_of_pos (by simpa using hp)] at h
      simp only [Table.get] at h ⊢
      by_cases e : x.1 = k
      · rw [if_pos e] at h ⊢; rw [← e]; exact ⟨hp, h⟩
      · rw [if_neg e] at h ⊢; exact ih h
    · rw [List.filter_cons_of_neg (by simpa using hp)] at h
      obtain ⟨h1, h2⟩ := ih h
      refine ⟨h1, ?_⟩
      simp only [Table.get]
      rw [if_neg]
      · exact h2
      · intro e; rw [e] at hp; exact hp h1

theorem Inv.remove (S : Sound U) (I : Inv U c) {D : List Blk} (hs : D.Sublist c.unconf)
    (hclosed : ∀ x ∈ c.all, ∀ d ∈ D, Dep x d → x ∈ D) :
    Inv U (c.remove D) ∧ ∀ x, x ∈ (c.remove D).all ↔ x ∈ c.all ∧ x ∉ D := by
  have hDu : ∀ d ∈ D, d ∈ c.unconf := fun d hd => hs.subset hd
  have hDa : ∀ d ∈ D, d ∈ c.all := fun d hd => mem_all.mpr (.inr (hDu d hd))
  have hw : ∀ l : List Blk, (∀ x ∈ l, x ∈ c.all) → ∀ x, x ∈ without l D ↔ x ∈ l ∧ x ∉ D := by
    intro l hl x
    exact mem_without (fun x hx y hy e => I.ledger.hash_inj S (hl x hx) (hDa y hy) e)
  have hwu := hw c.unconf (fun x hx => mem_all.mpr (.inr hx))
  have hwd := hw c.ds I.ds2
  have hconf : (c.remove D).confirmed = c.confirmed := rfl
  have hall : (c.remove D).all = c.confirmed ++ without c.unconf D := rfl
  have hmem : ∀ x, x ∈ (c.remove D).all ↔ x ∈ c.all ∧ x ∉ D := by
    intro x
    rw [hall, List.mem_append, hwu, mem_all]
    constructor
    · rintro (h | h)
      · exact ⟨.inl h, fun hd => I.unconf_not (hDu x hd) h⟩
      · exact ⟨.inr h.1, h.2⟩
    · rintro ⟨h | h, hd⟩
      · exact .inl h
      · exact .inr ⟨h, hd⟩
  have hsub : (c.remove D).all.Sublist c.all := by
    rw [hall]; unfold Chain.all without
    exact List.Sublist.append (List.Sublist.refl _) List.filter_sublist
  have hL : Ledger U (c.remove D).all := by
    apply I.ledger.sub hsub
    intro b hb d hd hdep
    rw [hmem] at hb ⊢
    exact ⟨hd, fun hd' => hb.2 (hclosed b hb.1 d hd' hdep)⟩
  refine ⟨?_, hmem⟩
  refine { ledger := hL, mem := ?_, disk := I.disk, pm := proper_run _ I.pm, pd := I.pd, pend := ?_, warm := warm_roll _ _ I.warm,
           ds1 := ?_, ds2 := ?_, hot := ?_, heights := I.heights, nonempty := I.nonempty, content := I.content, gen1 := I.gen1,
           gen2 := ?_, dest := ?_, made := ?_ }
  · refine exact_drop S (K := c.chunks) (G := []) (L := c.all) (bs := D) ?_ I.ledger ?_ ?_ ?_ ?_ ?_
    · rw [List.append_nil]; exact I.mem
    · simp only [List.flatMap_nil, List.nil_append]
      exact hs.trans (List.sublist_append_right _ _)
    · simp only [List.flatMap_nil, List.nil_append]
      exact fun d hd => I.gen2 d (hDu d hd)
    · simpa only [List.flatMap_nil, List.nil_append] using hmem
    · simp only [List.flatMap_nil, List.nil_append]
      intro x hx d hd hdep
      exact ((hmem x).mp hx).2 (hclosed x ((hmem x).mp hx).1 d hd hdep)
    · intro _ _ k' hk'; cases hk'
  · show c.pend.filter _ = _
    rw [I.pend, List.filter_map]
    rfl
  · intro b hb
    have hb' := (hwu b).mp hb
    exact (hwd b).mpr ⟨I.ds1 b hb'.1, hb'.2⟩
  · intro b hb
    have hb' := (hwd b).mp hb
    exact (hmem b).mpr ⟨I.ds2 b hb'.1, hb'.2⟩
  · intro a h hh
    have hh' : Table.get a (c.hot.filter (fun x => decide (x.1 ∉ D.map (·.addr)))) = some h := hh
    obtain ⟨h1, h2⟩ := get_filter_key (fun k : Nat => decide (k ∉ D.map (fun b => b.addr))) c.hot hh'
    simp only [decide_eq_true_eq] at h1
    obtain ⟨b, ⟨hb, ha, hl⟩, e⟩ := I.hot a h h2
    refine ⟨b, ⟨(hmem b).mpr ⟨hb, fun hd => h1 (List.mem_map.mpr ⟨b, hd, ha⟩)⟩, ha, ?_⟩, e⟩
    intro x hx
    exact hl x ((hmem x).mp hx).1
  · intro b hb; exact I.gen2 b ((hwu b).mp hb).1
  · intro b hb; exact I.dest b ((hmem b).mp hb).1
  · intro h s hh
    have hh' : Table.get h (c.made.filter (fun x => decide (x.1 ∉ hashes (D.filter (fun b => b.kind = .create))))) = some s := hh
    obtain ⟨h1, h2⟩ := get_filter_key (fun k => decide (k ∉ hashes (D.filter (fun b => b.kind = .create)))) c.made hh'
    simp only [decide_eq_true_eq] at h1
    obtain ⟨b, hb, e, ek, r⟩ := I.made h s h2
    have hnd : b ∉ D := by
      intro hd
      apply h1
      refine List.mem_map.mpr ⟨b, List.mem_filter.mpr ⟨hd, by simp [ek]⟩, e⟩
    refine ⟨b, (hmem b).mpr ⟨hb, hnd⟩, e, ek, ?_⟩
    rcases r with ⟨r1, r2⟩ | r
    · exact .inl ⟨(hwu b).mpr ⟨r1, hnd⟩, r2⟩
    · exact .inr r

/-- Deleting an unconfirmed block deletes exactly what rests on it. -/
theorem Inv.dependents (S : Sound U) (I : Inv U c) {P : List Blk} {b : Blk} {Q : List Blk} (hu : c.unconf = P ++ b :: Q) :
    (dependents (b :: Q)).Sublist c.unconf ∧ ∀ x, x ∈ dependents (b :: Q) ↔ Tainted (· = b) c.all x := by
  have hall : c.all = (c.confirmed ++ P) ++ b :: Q := by unfold Chain.all; rw [hu, List.append_assoc]
  have w := I.ledger
  rw [hall] at w
  have hbq : b ∉ c.confirmed ++ P ∧ b ∉ Q := by
    have n := w.nodup
    rw [List.nodup_append, List.nodup_cons] at n
    exact ⟨fun h => n.2.2 b h b List.mem_cons_self rfl, n.2.1.1⟩
  have hdis : ∀ x ∈ c.confirmed ++ P, x ∉ b :: Q := by
    have n := w.nodup
    rw [List.nodup_append] at n
    exact fun x hx hx' => n.2.2 x hx x hx' rfl
  have hlate : ∀ x, Tainted (· = b) ((c.confirmed ++ P) ++ b :: Q) x → x ∈ b :: Q := by
    intro x hx
    exact Tainted.late (seed := (· = b)) w.order (fun y hy (e : y = b) => hbq.1 (e ▸ hy)) hdis hx
  have htb : Tainted (· = b) ((c.confirmed ++ P) ++ b :: Q) b := .base (by simp) rfl
  have e : (c.confirmed ++ P) ++ b :: Q = ((c.confirmed ++ P) ++ [b]) ++ Q := by simp
  have N : Noted (· = b) ((c.confirmed ++ P) ++ b :: Q) ((c.confirmed ++ P) ++ [b]) Q [b.addr] (b.hash :: b.sends.map (·.hash)) := by
    constructor
    · intro a
      simp only [List.mem_singleton]
      constructor
      · rintro rfl; exact ⟨b, by simp, htb, rfl⟩
      · rintro ⟨d, hd, ht, ea⟩
        rcases List.mem_append.mp hd with h | h
        · exact absurd (hlate d ht) (hdis d h)
        · simp only [List.mem_singleton] at h
          subst h; exact ea.symm
    · intro x hx h ht
      constructor
      · intro hh
        refine ⟨b, by simp, htb, ?_⟩
        have hx' : x ∈ (c.confirmed ++ P) ++ b :: Q := List.mem_append_right _ (List.mem_cons_of_mem _ hx)
        obtain ⟨d, hd, s, hs, e1, _⟩ := w.backed x hx' h ht
        have : d = b := w.ids S hd (by simp) (h := h) (by rw [← e1]; exact outs_ids hs) hh
        subst this
        exact ⟨s, hs, e1⟩
      · rintro ⟨d, hd, ht', s, hs, ea⟩
        have : d = b := by
          rcases List.mem_append.mp hd with h | h
          · exact absurd (hlate d ht') (hdis d h)
          · simpa using h
        subst this
        rw [← ea]; exact outs_ids hs
  have hsp := spread_exact (U := U) (seed := (· = b)) Q ((c.confirmed ++ P) ++ [b]) [b.addr] (b.hash :: b.sends.map (·.hash))
    (by rw [← e]; exact w) (by rw [← e]; exact N) (fun x hx q => hbq.2 (q ▸ hx))
    (fun x hx => I.gen2 x (by rw [hu]; simp [hx]))
  rw [← e] at hsp
  unfold Lattice.dependents
  constructor
  · rw [hu]
    exact (hsp.1.cons_cons b).trans (List.sublist_append_right P (b :: Q))
  · intro x
    rw [List.mem_cons, hsp.2, hall]
    constructor
    · rintro (rfl | h)
      · exact htb
      · exact h.2
    · intro h
      rcases List.mem_cons.mp (hlate x h) with q | q
      · exact .inl q
      · exact .inr ⟨q, h⟩

theorem Inv.deletion (S : Sound U) (I : Inv U c) {P : List Blk} {b : Blk} {Q : List Blk} (hu : c.unconf = P ++ b :: Q) :
    Inv U (c.remove (Lattice.dependents (b :: Q))) ∧
    ∀ x, x ∈ (c.remove (Lattice.dependents (b :: Q))).all ↔ x ∈ c.all ∧ ¬ Tainted (· = b) c.all x := by
  obtain ⟨h1, h2⟩ := I.dependents S hu
  obtain ⟨h3, h4⟩ := I.remove S h1 (by
    intro x hx d hd hdep
    rw [h2] at hd ⊢
    exact .step hx hd hdep)
  refine ⟨h3, ?_⟩
  intro x
  rw [h4, h2]

theorem dropWhile_split {p : Blk → Bool} {l : List Blk} {b : Blk} {Q : List Blk} (h : l.dropWhile p = b :: Q) :
    ∃ P, l = P ++ b :: Q ∧ p b = false := by
  refine ⟨l.takeWhile p, ?_, ?_⟩
  · rw [← h, List.takeWhile_append_dropWhile]
  · have hne : l.dropWhile p ≠ [] := by rw [h]; simp
    have := List.head_dropWhile_not p (l := l) hne
    simp only [h, List.head_cons] at this
    simpa using this

theorem dropWhile_none {p : Blk → Bool} {l : List Blk} (h : l.dropWhile p = []) : ∀ x ∈ l, p x = true := by
  induction l with
  | nil => simp
  | cons x l ih =>
    by_cases q : p x = true
    · rw [List.dropWhile_cons_of_pos q] at h
      intro y hy
      rcases List.mem_cons.mp hy with e | e
      · subst e; exact q
      · exact ih h y e
    · rw [List.dropWhile_cons_of_neg q] at h
      cases h

/-! ### Snapshots -/

theorem Inv.top (I : Inv U c) : c.top = c.chunks.length := by
  unfold Chain.top
  have h := I.heights
  have : (c.chunks.map (·.snap.height)).getLast? = some c.chunks.length := by
    rw [h]
    have : c.chunks.length ≠ 0 := by
      intro e; exact I.nonempty (List.length_eq_zero_iff.mp e)
    obtain ⟨n, hn⟩ := Nat.exists_eq_succ_of_ne_zero this
    rw [hn, List.range'_1_concat]
    simp [Nat.add_comm]
  rw [List.getLast?_map] at this
  rw [this]; rfl

theorem Inv.height_mem (I : Inv U c) {k : Chunk} (hk : k ∈ c.chunks) : 1 ≤ k.snap.height ∧ k.snap.height ≤ c.chunks.length := by
  have : k.snap.height ∈ c.chunks.map (·.snap.height) := List.mem_map.mpr ⟨k, hk, rfl⟩
  rw [I.heights, List.mem_range'_1] at this
  omega

theorem confirmPend_ok : ∀ (bs u : List Blk) (t : Tbl), (∀ x ∈ u, ∀ y ∈ u, x.hash = y.hash → x = y) → bs.Nodup → (∀ b ∈ bs, b ∈ u) →
    confirmPend bs (u.map (fun b => (b.hash, insertBatch b))) t =
      some ((without u bs).map (fun b => (b.hash, insertBatch b)), run (bs.flatMap insertBatch) t) := by
  intro bs
  induction bs with
  | nil =>
    intro u t _ _ _
    have : without u [] = u := by simp [without, hashes]
    rw [this]; rfl
  | cons b bs ih =>
    intro u t hi hn hb
    have hbu := hb b List.mem_cons_self
    have hg : Table.get b.hash (u.map (fun b => (b.hash, insertBatch b))) = some (insertBatch b) := by
      clear ih hn hb
      induction u with
      | nil => cases hbu
      | cons x u ihu =>
        simp only [List.map_cons, Table.get]
        by_cases e : x.hash = b.hash
        · rw [if_pos e]
          have := hi x List.mem_cons_self b hbu e
          rw [this]
        · rw [if_neg e]
          rcases List.mem_cons.mp hbu with q | q
          · rw [q] at e; exact absurd rfl e
          · exact ihu (fun x hx y hy => hi x (List.mem_cons_of_mem _ hx) y (List.mem_cons_of_mem _ hy)) q
    unfold confirmPend
    rw [hg]
    simp only
    have hf : (u.map (fun b => (b.hash, insertBatch b))).filter (fun q => decide (q.1 ≠ b.hash)) =
        (u.filter (fun x => decide (x.hash ≠ b.hash))).map (fun b => (b.hash, insertBatch b)) := by
      rw [List.filter_map]; rfl
    rw [hf, ih]
    · rw [List.flatMap_cons, run_append]
      congr 3
      unfold without hashes
      rw [List.filter_filter]
      congr 1
      funext x
      simp only [List.map_cons, List.mem_cons, not_or, Bool.decide_and, ne_eq]
      exact Bool.and_comm _ _
    · intro x hx y hy
      exact hi x (List.mem_filter.mp hx).1 y (List.mem_filter.mp hy).1
    · exact (List.nodup_cons.mp hn).2
    · intro x hx
      refine List.mem_filter.mpr ⟨hb x (List.mem_cons_of_mem _ hx), ?_⟩
      simp only [ne_eq, decide_eq_true_eq]
      intro e
      have := hi x (hb x (List.mem_cons_of_mem _ hx)) b hbu e
      subst this
      exact (List.nodup_cons.mp hn).1 hx

theorem confirmMade_get (s : Nat) (bs : List Blk) : ∀ (t : Table Nat Nat) {h n : Nat}, Table.get h (confirmMade s bs t) = some n →
    (∃ b ∈ bs, b.hash = h ∧ b.kind = .create ∧ n = s) ∨ (Table.get h t = some n ∧ ∀ b ∈ bs, b.kind = .create → b.hash ≠ h) := by
  induction bs with
  | nil => intro t h n e; exact .inr ⟨e, by simp⟩
  | cons b bs ih =>
    intro t h n e
    have e' : Table.get h (confirmMade s bs (if b.kind = .create then Table.put b.hash s t else t)) = some n := e
    rcases ih _ e' with ⟨x, hx, r⟩ | ⟨q, hq⟩
    · exact .inl ⟨x, List.mem_cons_of_mem _ hx, r⟩
    · by_cases hk : b.kind = .create
      · rw [if_pos hk, Table.get_put] at q
        by_cases eh : h = b.hash
        · rw [if_pos eh] at q
          injection q with q
          exact .inl ⟨b, List.mem_cons_self, eh.symm, hk, q.symm⟩
        · rw [if_neg eh] at q
          refine .inr ⟨q, ?_⟩
          intro x hx hxk
          rcases List.mem_cons.mp hx with r | r
          · subst r; exact Ne.symm eh
          · exact hq x r hxk
      · rw [if_neg hk] at q
        refine .inr ⟨q, ?_⟩
        intro x hx hxk
        rcases List.mem_cons.mp hx with r | r
        · subst r; exact absurd hxk hk
        · exact hq x r hxk

theorem Inv.confirm (S : Sound U) (I : Inv U c) {s : Snap} {bs : List Blk} (hs : bs.Sublist c.unconf)
    (hclosed : ∀ b ∈ bs, ∀ d ∈ c.unconf, Dep b d → d ∈ bs) (hh : s.height = c.top + 1)
    (hcont : ∀ a n h, (a, n, h) ∈ s.content ↔ ∃ b, Last bs a b ∧ b.height = n ∧ b.hash = h) :
    ∃ c', c.confirm s bs = some c' ∧ Inv U c' ∧ c'.chunks = c.chunks ++ [⟨s, bs⟩] ∧ c'.unconf = without c.unconf bs ∧
      ∀ x, x ∈ c'.all ↔ x ∈ c.all := by
  have hbu : ∀ b ∈ bs, b ∈ c.unconf := fun b hb => hs.subset hb
  have hba : ∀ b ∈ bs, b ∈ c.all := fun b hb => mem_all.mpr (.inr (hbu b hb))
  have hwu : ∀ x, x ∈ without c.unconf bs ↔ x ∈ c.unconf ∧ x ∉ bs := fun x =>
    mem_without (fun x hx y hy e => I.ledger.hash_inj S (mem_all.mpr (.inr hx)) (hba y hy) e)
  have hnod : c.unconf.Nodup := (List.nodup_append.mp I.ledger.nodup).2.1
  have hp := confirmPend_ok bs c.unconf c.disk (fun x hx y hy e => I.ledger.hash_inj S (mem_all.mpr (.inr hx)) (mem_all.mpr (.inr hy)) e)
    (hnod.sublist hs) hbu
  unfold Chain.confirm
  rw [I.pend, hp]
  refine ⟨_, rfl, ?_, rfl, rfl, ?_⟩
  · set c' : Chain := { c with
      chunks := c.chunks ++ [⟨s, bs⟩]
      unconf := without c.unconf bs
      mem := run (snapBatch s bs) c.mem
      disk := run (snapBatch s bs) (run (bs.flatMap insertBatch) c.disk)
      pend := (without c.unconf bs).map (fun b => (b.hash, insertBatch b))
      lru := Lattice.warm (snapBatch s bs) c.lru
      made := confirmMade s.height bs c.made } with hc'
    have hconf : c'.confirmed = c.confirmed ++ bs := by simp [hc', Chain.confirmed, List.flatMap_append]
    have hall : c'.all = (c.confirmed ++ bs) ++ without c.unconf bs := by unfold Chain.all; rw [hconf]
    have hmem : ∀ x, x ∈ c'.all ↔ x ∈ c.all := by
      intro x
      rw [hall, List.mem_append, List.mem_append, hwu, mem_all]
      constructor
      · rintro ((h | h) | h)
        · exact .inl h
        · exact .inr (hbu x h)
        · exact .inr h.1
      · rintro (h | h)
        · exact .inl (.inl h)
        · by_cases q : x ∈ bs
          · exact .inl (.inr q)
          · exact .inr ⟨h, q⟩
    have hord := I.ledger.order
    unfold Chain.all at hord
    rw [List.pairwise_append] at hord
    have hL : Ledger U c'.all := by
      apply I.ledger.reorder hmem
      · rw [hall, List.nodup_append, List.nodup_append]
        have n := I.ledger.nodup
        unfold Chain.all at n
        rw [List.nodup_append] at n
        refine ⟨⟨n.1, hnod.sublist hs, ?_⟩, hnod.sublist List.filter_sublist, ?_⟩
        · intro x hx y hy; exact n.2.2 x hx y (hbu y hy)
        · intro x hx y hy e
          subst e
          rcases List.mem_append.mp hx with h | h
          · exact n.2.2 x h x ((hwu x).mp hy).1 rfl
          · exact ((hwu x).mp hy).2 h
      · rw [hall, List.pairwise_append, List.pairwise_append]
        refine ⟨⟨hord.1, hord.2.1.sublist hs, ?_⟩, hord.2.1.sublist List.filter_sublist, ?_⟩
        · intro x hx y hy; exact hord.2.2 x hx y (hbu y hy)
        · intro x hx y hy
          have hy' := (hwu y).mp hy
          rcases List.mem_append.mp hx with h | h
          · exact hord.2.2 x h y hy'.1
          · exact fun hdep => hy'.2 (hclosed x h y hy'.1 hdep)
    have hfresh : ∀ a n h, (a, n, h) ∈ s.content → ∀ k ∈ c.chunks, ∀ h', (a, n, h') ∉ k.snap.content := by
      intro a n h hh k hk h' hh'
      obtain ⟨b, ⟨hb, e1, _⟩, e2, _⟩ := (hcont a n h).mp hh
      obtain ⟨d, ⟨hd, e3, _⟩, e4, _⟩ := (I.content k hk a n h').mp hh'
      have hdc : d ∈ c.confirmed := List.mem_flatMap.mpr ⟨k, hk, hd⟩
      have := I.ledger.place b (hba b hb) d (mem_all.mpr (.inl hdc)) (e1.trans e3.symm) (e2.trans e4.symm)
      subst this
      exact I.unconf_not (hbu b hb) hdc
    have hnew : ∀ b ∈ bs, b ∉ c.chunks.flatMap (·.blocks) := fun b hb => I.unconf_not (hbu b hb)
    have hLc : Ledger U (c.confirmed ++ bs) := by rw [hall] at hL; exact hL.left
    refine { ledger := hL, mem := ?_, disk := ?_, pm := proper_run _ I.pm, pd := proper_run _ (proper_run _ I.pd), pend := rfl,
             warm := warm_snap s bs I.warm, ds1 := ?_, ds2 := ?_, hot := ?_, heights := ?_, nonempty := by simp [hc'], content := ?_, gen1 := ?_,
             gen2 := ?_, dest := ?_, made := ?_ }
    · exact exact_congr (exact_snap I.mem I.ledger hba hfresh) hmem
    · rw [hconf]
      exact exact_snap (exact_inserts S bs c.confirmed c.disk I.disk hLc hnew) hLc (fun b hb => List.mem_append_right _ hb) hfresh
    · intro b hb; exact I.ds1 b ((hwu b).mp hb).1
    · intro b hb; exact (hmem b).mpr (I.ds2 b hb)
    · intro a h q
      obtain ⟨b, ⟨h1, h2, h3⟩, e⟩ := I.hot a h q
      exact ⟨b, ⟨(hmem b).mpr h1, h2, fun x hx => h3 x ((hmem x).mp hx)⟩, e⟩
    · simp only [hc', List.map_append, List.map_cons, List.map_nil, List.length_append, List.length_singleton]
      rw [I.heights, hh, I.top, List.range'_1_concat, Nat.add_comm 1]
    · intro k hk
      rcases List.mem_append.mp hk with h | h
      · exact I.content k h
      · simp only [List.mem_singleton] at h; subst h; exact hcont
    · intro k hk b hb hg
      rcases List.mem_append.mp hk with h | h
      · exact I.gen1 k h b hb hg
      · simp only [List.mem_singleton] at h; subst h
        exact absurd hg (I.gen2 b (hbu b hb))
    · intro b hb; exact I.gen2 b ((hwu b).mp hb).1
    · intro b hb; exact I.dest b ((hmem b).mp hb)
    · intro h n q
      rcases confirmMade_get s.height bs c.made q with ⟨b, hb, e, ek, en⟩ | ⟨q, hq⟩
      · exact ⟨b, (hmem b).mpr (hba b hb), e, ek, .inr ⟨⟨s, bs⟩, by simp [hc'], hb, en⟩⟩
      · obtain ⟨b, hb, e, ek, r⟩ := I.made h n q
        refine ⟨b, (hmem b).mpr hb, e, ek, ?_⟩
        rcases r with ⟨r1, r2⟩ | ⟨k, hk, r⟩
        · exact .inl ⟨(hwu b).mpr ⟨r1, fun hb' => hq b hb' ek e⟩, r2⟩
        · exact .inr ⟨k, List.mem_append_left _ hk, r⟩
  · intro x
    simp only [Chain.all, Chain.confirmed, List.flatMap_append, List.flatMap_cons, List.flatMap_nil, List.append_nil, List.mem_append, hwu]
    constructor
    · rintro ((h | h) | h)
      · exact .inl h
      · exact .inr (hbu x h)
      · exact .inr h.1
    · rintro (h | h)
      · exact .inl (.inl h)
      · by_cases q : x ∈ bs
        · exact .inl (.inr q)
        · exact .inr ⟨h, q⟩

/-! ### Which blocks a snapshot confirms -/

/-- The test for a block to be confirmed. -/
def cov (content : List (Nat × Nat × Nat)) (b : Blk) : Bool := (upTo content b.addr).any (fun n => decide (b.height ≤ n))

theorem cov_iff {content : List (Nat × Nat × Nat)} {b : Blk} : cov content b = true ↔ Covers content b := by
  unfold cov Covers
  cases h : upTo content b.addr <;> simp

def hit (content : List (Nat × Nat × Nat)) (b : Blk) : Bool := decide (upTo content b.addr = some b.height)

theorem toConfirm_some (content : List (Nat × Nat × Nat)) : ∀ (L : List Blk) (done : Nat) (r : List Blk), toConfirm content L done = some r →
    ∃ P Q, L = P ++ Q ∧ r = P.filter (cov content) ∧ content.length ≤ done + (P.filter (hit content)).length := by
  intro L
  induction L with
  | nil => intro done r h; cases h
  | cons b L ih =>
    intro done r h
    unfold toConfirm at h
    simp only [Option.map_eq_some_iff] at h
    obtain ⟨r', h1, h2⟩ := h
    have hd : ∀ P : List Blk, (if upTo content b.addr = some b.height then done + 1 else done) + (P.filter (hit content)).length =
        done + ((b :: P).filter (hit content)).length := by
      intro P
      by_cases q : upTo content b.addr = some b.height
      · rw [if_pos q, List.filter_cons_of_pos (by simp [hit, q]), List.length_cons]; omega
      · rw [if_neg q, List.filter_cons_of_neg (by simp [hit, q])]
    have hr : ∀ P : List Blk, r' = P.filter (cov content) → r = (b :: P).filter (cov content) := by
      intro P hP
      rw [← h2, hP]
      by_cases q : (upTo content b.addr).any (fun n => decide (b.height ≤ n)) = true
      · rw [if_pos q, List.filter_cons_of_pos (by exact q)]
      · rw [if_neg q, List.filter_cons_of_neg (by exact q)]
    by_cases hlen : content.length ≤ (if upTo content b.addr = some b.height then done + 1 else done)
    · rw [if_pos hlen] at h1
      injection h1 with h1
      refine ⟨[b], L, rfl, hr [] (by simpa using h1.symm), ?_⟩
      have := hd []
      simp only [List.filter_nil, List.length_nil, Nat.add_zero] at this
      omega
    · rw [if_neg hlen] at h1
      obtain ⟨P, Q, e1, e2, e3⟩ := ih _ _ h1
      refine ⟨b :: P, Q, by rw [e1]; rfl, hr P e2, ?_⟩
      have := hd P
      omega

theorem upTo_iff {content : List (Nat × Nat × Nat)} (hn : (content.map (·.1)).Nodup) {a n : Nat} :
    upTo content a = some n ↔ ∃ h, (a, n, h) ∈ content := by
  unfold upTo
  rw [Option.map_eq_some_iff]
  constructor
  · rintro ⟨e, he, rfl⟩
    have h1 := List.mem_of_find?_eq_some he
    have h2 := List.find?_some he
    simp only [decide_eq_true_eq] at h2
    subst h2
    exact ⟨e.2.2, h1⟩
  · rintro ⟨h, hm⟩
    cases q : content.find? (fun e => decide (e.1 = a)) with
    | none =>
      rw [List.find?_eq_none] at q
      have := q _ hm
      simp at this
    | some e =>
      have h1 := List.mem_of_find?_eq_some q
      have h2 := List.find?_some q
      simp only [decide_eq_true_eq] at h2
      have := List.inj_on_of_nodup_map hn h1 hm h2
      subst this
      exact ⟨_, rfl, rfl⟩

/-- The blocks confirmed are those covered by the content, and every entry of the content names one of them. -/
theorem toBeConfirmed_some {content : List (Nat × Nat × Nat)} (hn : (content.map (·.1)).Nodup) {L : List Blk} (w : ∃ P, Ledger U (P ++ L))
    {r : List Blk} (h : toBeConfirmed content L = some r) :
    r = L.filter (cov content) ∧ ∀ a n, upTo content a = some n → ∃ b ∈ L, b.addr = a ∧ b.height = n := by
  obtain ⟨P0, w⟩ := w
  unfold toBeConfirmed at h
  split at h
  · rename_i he
    rw [List.isEmpty_iff] at he
    subst he
    injection h with h
    refine ⟨?_, by intro a n q; simp [upTo] at q⟩
    rw [← h]
    symm
    rw [List.filter_eq_nil_iff]
    intro b _
    simp [cov, upTo]
  · obtain ⟨P, Q, e1, e2, e3⟩ := toConfirm_some content L 0 r h
    have hsub : ∀ x ∈ L, ∀ y ∈ L, x.addr = y.addr → x.height = y.height → x = y :=
      fun x hx y hy => w.place x (List.mem_append_right _ hx) y (List.mem_append_right _ hy)
    have hnl : L.Nodup := (List.nodup_append.mp w.nodup).2.1
    -- the accounts hit
    have hits : ∀ a ∈ content.map (·.1), a ∈ (P.filter (hit content)).map (·.addr) := by
      have hnd : ((P.filter (hit content)).map (·.addr)).Nodup := by
        apply List.Nodup.map_on
        · intro x hx y hy e
          rw [List.mem_filter] at hx hy
          have h1 : upTo content x.addr = some x.height := by simpa [hit] using hx.2
          have h2 : upTo content y.addr = some y.height := by simpa [hit] using hy.2
          rw [e, h2] at h1
          injection h1 with h1
          exact hsub x (by rw [e1]; simp [hx.1]) y (by rw [e1]; simp [hy.1]) e h1.symm
        · rw [e1] at hnl
          exact ((List.nodup_append.mp hnl).1).sublist List.filter_sublist
      have hss : (P.filter (hit content)).map (·.addr) ⊆ content.map (·.1) := by
        intro a ha
        obtain ⟨x, hx, rfl⟩ := List.mem_map.mp ha
        have h1 : upTo content x.addr = some x.height := by simpa [hit] using (List.mem_filter.mp hx).2
        obtain ⟨h', hm⟩ := (upTo_iff hn).mp h1
        exact List.mem_map.mpr ⟨_, hm, rfl⟩
      have hsp := hnd.subperm hss
      have hp := hsp.perm_of_length_le (by simp only [List.length_map]; omega)
      intro a ha
      exact hp.mem_iff.mpr ha
    have names : ∀ a n, upTo content a = some n → ∃ b ∈ P, b.addr = a ∧ b.height = n := by
      intro a n q
      obtain ⟨h', hm⟩ := (upTo_iff hn).mp q
      have := hits a (List.mem_map.mpr ⟨_, hm, rfl⟩)
      obtain ⟨b, hb, e⟩ := List.mem_map.mp this
      rw [List.mem_filter] at hb
      refine ⟨b, hb.1, e, ?_⟩
      have h1 : upTo content b.addr = some b.height := by simpa [hit] using hb.2
      rw [e, q] at h1
      injection h1 with h1
      exact h1.symm
    refine ⟨?_, fun a n q => ?_⟩
    · rw [e2, e1, List.filter_append]
      have : Q.filter (cov content) = [] := by
        rw [List.filter_eq_nil_iff]
        intro x hx hcx
        rw [cov_iff] at hcx
        obtain ⟨n, q, hle⟩ := hcx
        obtain ⟨b, hb, ea, en⟩ := names _ _ q
        obtain ⟨Q1, Q2, eq⟩ := List.append_of_mem hx
        have hw : Ledger U ((P0 ++ (P ++ Q1)) ++ x :: Q2) := by
          have : P0 ++ L = (P0 ++ (P ++ Q1)) ++ x :: Q2 := by rw [e1, eq]; simp
          rw [← this]; exact w
        have := hw.below (List.mem_append_right _ (List.mem_append_left _ hb)) ea
        omega
      rw [this, List.append_nil]
    · obtain ⟨b, hb, r⟩ := names a n q
      exact ⟨b, by rw [e1]; simp [hb], r⟩

/-- Confirmation of an accepted snapshot whose content is closed. -/
theorem Inv.confirmed (S : Sound U) (I : Inv U c) {s : Snap} {bs : List Blk} (ok : c.snapOk s = true) (hcl : Closed c s.content)
    (hb : toBeConfirmed s.content c.unconf = some bs) :
    bs = c.unconf.filter (cov s.content) ∧ ∃ c', c.confirm s bs = some c' ∧ Inv U c' ∧ c'.chunks = c.chunks ++ [⟨s, bs⟩] ∧
      c'.unconf = without c.unconf bs ∧ ∀ x, x ∈ c'.all ↔ x ∈ c.all := by
  unfold Chain.snapOk at ok
  simp only [Bool.and_eq_true, decide_eq_true_eq, List.all_eq_true] at ok
  obtain ⟨⟨hh, hn⟩, hblk⟩ := ok
  obtain ⟨h1, h2⟩ := toBeConfirmed_some hn (U := U) ⟨c.confirmed, I.ledger⟩ hb
  refine ⟨h1, ?_⟩
  have hmem : ∀ b, b ∈ bs ↔ b ∈ c.unconf ∧ Covers s.content b := by
    intro b; rw [h1, List.mem_filter, cov_iff]
  apply I.confirm S (by rw [h1]; exact List.filter_sublist) _ hh
  · intro a n h
    have named : ∀ h, (a, n, h) ∈ s.content → ∃ b ∈ c.unconf, b.addr = a ∧ b.height = n ∧ b.hash = h := by
      intro h hm
      obtain ⟨b, hb', e1, e2⟩ := h2 a n ((upTo_iff hn).mpr ⟨h, hm⟩)
      refine ⟨b, hb', e1, e2, ?_⟩
      have := hblk _ hm
      simp only at this
      cases q : c.byHeight a n with
      | none => rw [q] at this; cases this
      | some d =>
        rw [q] at this
        simp only [Option.any_some, decide_eq_true_eq] at this
        obtain ⟨hd, e3, e4⟩ := I.byHeight.mp q
        rw [I.ledger.place b (mem_all.mpr (.inr hb')) d hd (e1.trans e3.symm) (e2.trans e4.symm), this]
    constructor
    · intro hm
      obtain ⟨b, hb', e1, e2, e3⟩ := named h hm
      have hup : upTo s.content a = some n := (upTo_iff hn).mpr ⟨h, hm⟩
      refine ⟨b, ⟨(hmem b).mpr ⟨hb', ⟨n, by rw [e1]; exact hup, by omega⟩⟩, e1, ?_⟩, e2, e3⟩
      intro x hx ex
      obtain ⟨_, m, hm', hle⟩ := (hmem x).mp hx
      rw [ex, hup] at hm'
      injection hm' with hm'
      omega
    · rintro ⟨b, ⟨hb', e1, hmax⟩, e2, e3⟩
      obtain ⟨hbu, m, hup, hle⟩ := (hmem b).mp hb'
      rw [e1] at hup
      obtain ⟨h', hm⟩ := (upTo_iff hn).mp hup
      obtain ⟨d, hd, e4, e5⟩ := h2 a m hup
      have hdb : d ∈ bs := (hmem d).mpr ⟨hd, ⟨m, by rw [e4]; exact hup, by omega⟩⟩
      have hle' := hmax d hdb e4
      have hbd : b = d := I.ledger.place b (mem_all.mpr (.inr hbu)) d (mem_all.mpr (.inr hd)) (e1.trans e4.symm) (by omega)
      subst hbd
      have hmn : m = n := by omega
      subst hmn
      have := hblk _ hm
      simp only at this
      rw [I.byHeight.mpr ⟨mem_all.mpr (.inr hbu), e1, e2⟩] at this
      simp only [Option.any_some, decide_eq_true_eq] at this
      rw [← e3, this]
      exact hm
  · intro b hb' d hd hdep
    rw [hmem] at hb' ⊢
    exact ⟨hd, hcl b hb'.1 hb'.2 d hd hdep⟩

/-- The unconfirmed blocks that are dropped after a snapshot. -/
theorem Inv.toDrop (I : Inv U c) (everything : Bool) (bad : Blk → Bool) :
    (Lattice.toDrop everything bad c.unconf).Sublist c.unconf ∧
    ∀ x, x ∈ Lattice.toDrop everything bad c.unconf ↔
      Tainted (fun b => b ∈ c.unconf ∧ (everything = true ∨ b.kind = .error ∨ bad b = true)) c.all x := by
  have w := I.ledger
  have hdis : ∀ x ∈ c.confirmed, x ∉ c.unconf := fun x hx hx' => I.unconf_not hx' hx
  have hlate : ∀ seed : Blk → Prop, (∀ x, seed x → x ∈ c.unconf) → ∀ x, Tainted seed c.all x → x ∈ c.unconf := by
    intro seed hs x hx
    exact Tainted.late w.order (fun y hy q => hdis y hy (hs y q)) hdis hx
  cases everything with
  | true =>
    simp only [Lattice.toDrop, if_true, true_or, and_true]
    refine ⟨List.Sublist.refl _, ?_⟩
    intro x
    constructor
    · intro h; exact .base (mem_all.mpr (.inr h)) h
    · exact hlate _ (fun x h => h) x
  | false =>
    simp only [Lattice.toDrop, Bool.false_eq_true, if_false, false_or]
    have N : Noted (fun b => b ∈ c.unconf ∧ (b.kind = .error ∨ bad b = true)) (c.confirmed ++ c.unconf) c.confirmed c.unconf [] [] := by
      constructor
      · intro a
        simp only [List.not_mem_nil, false_iff]
        rintro ⟨d, hd, ht, _⟩
        exact hdis d hd (hlate _ (fun x h => h.1) d ht)
      · intro x _ h _
        simp only [List.not_mem_nil, false_iff]
        rintro ⟨d, hd, ht, _⟩
        exact hdis d hd (hlate _ (fun x h => h.1) d ht)
    obtain ⟨h1, h2⟩ := invalid_exact (U := U) (bad := bad) c.unconf c.confirmed [] [] w N
      (fun b hb => ⟨fun h => h.2, fun h => ⟨hb, h⟩⟩) I.gen2
    refine ⟨h1, ?_⟩
    intro x
    rw [h2]
    constructor
    · exact fun h => h.2
    · intro h; exact ⟨hlate _ (fun x h => h.1) x h, h⟩

theorem Inv.dropped (S : Sound U) (I : Inv U c) (everything : Bool) (bad : Blk → Bool) :
    let d := Lattice.toDrop everything bad c.unconf
    let c' := if d.isEmpty then c else c.remove d
    Inv U c' ∧ c'.chunks = c.chunks ∧ ∀ x, x ∈ c'.all ↔ x ∈ c.all ∧
      ¬ Tainted (fun b => b ∈ c.unconf ∧ (everything = true ∨ b.kind = .error ∨ bad b = true)) c.all x := by
  obtain ⟨h1, h2⟩ := I.toDrop everything bad
  dsimp only
  split
  · rename_i he
    rw [List.isEmpty_iff] at he
    refine ⟨I, rfl, ?_⟩
    intro x
    rw [← h2, he]; simp
  · obtain ⟨h3, h4⟩ := I.remove S h1 (by
      intro x hx d hd hdep
      rw [h2] at hd ⊢
      exact .step hx hd hdep)
    refine ⟨h3, rfl, ?_⟩
    intro x
    rw [h4, h2]

end Verif.Lattice
