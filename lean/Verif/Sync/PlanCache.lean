import Verif.Sync.PlanProps

/-!
# Plans that use the cache

Property C82: the tasks and the chunks that are kept lead from the start to the end. -/

namespace Verif.Sync

/-! ## The chunks that are kept -/

/-- Both ends of the chunk are points. -/
def Fits (l : List Point) (s : Seg) : Prop :=
  (∃ p ∈ l, s.lo = p.height + 1 ∧ s.prev = p.hash) ∧ ∃ q ∈ l, s.hi = q.height ∧ s.hash = q.hash

theorem scanSeg_spec (s : Seg) (l : List Point) (f t : Bool) : (scanSeg s l f t).2.2 <:+ l ∧
    ((scanSeg s l f t).1 = true → f = true ∨ ∃ p ∈ l, s.lo = p.height + 1 ∧ s.prev = p.hash) ∧
    ((scanSeg s l f t).2.1 = true → t = true ∨ ∃ q ∈ l, s.hi = q.height ∧ s.hash = q.hash) := by
  induction l generalizing f t with
  | nil => exact ⟨List.suffix_rfl, Or.inl, Or.inl⟩
  | cons p r ih =>
    unfold scanSeg
    simp only
    have key : ∀ b b' : Bool, (b = true → f = true ∨ ∃ p' ∈ p :: r, s.lo = p'.height + 1 ∧ s.prev = p'.hash) →
        (b' = true → t = true ∨ ∃ q ∈ p :: r, s.hi = q.height ∧ s.hash = q.hash) → True := fun _ _ _ _ => trivial
    have e1 : (f || decide (s.lo = p.height + 1 ∧ s.prev = p.hash)) = true → f = true ∨ ∃ p' ∈ p :: r, s.lo = p'.height + 1 ∧ s.prev = p'.hash := by
      intro h
      rcases Bool.or_eq_true _ _ ▸ h with h | h
      · exact Or.inl h
      · exact Or.inr ⟨p, List.mem_cons_self, of_decide_eq_true h⟩
    have e2 : (t || decide (s.hi = p.height ∧ s.hash = p.hash)) = true → t = true ∨ ∃ q ∈ p :: r, s.hi = q.height ∧ s.hash = q.hash := by
      intro h
      rcases Bool.or_eq_true _ _ ▸ h with h | h
      · exact Or.inl h
      · exact Or.inr ⟨p, List.mem_cons_self, of_decide_eq_true h⟩
    split
    · exact ⟨List.suffix_rfl, e1, e2⟩
    · obtain ⟨h1, h2, h3⟩ := ih (f || decide (s.lo = p.height + 1 ∧ s.prev = p.hash)) (t || decide (s.hi = p.height ∧ s.hash = p.hash))
      refine ⟨h1.trans (List.suffix_cons p r), fun h => ?_, fun h => ?_⟩
      · rcases h2 h with h | ⟨q, hq, h⟩
        · exact e1 h
        · exact Or.inr ⟨q, List.mem_cons_of_mem _ hq, h⟩
      · rcases h3 h with h | ⟨q, hq, h⟩
        · exact e2 h
        · exact Or.inr ⟨q, List.mem_cons_of_mem _ hq, h⟩

theorem select_keep (low high : Nat) (segs : List Seg) (l : List Point) : List.Sublist (select low high segs l).1 segs ∧
    ∀ s ∈ (select low high segs l).1, Fits l s := by
  induction segs generalizing l with
  | nil => exact ⟨List.Sublist.slnil, by simp [select]⟩
  | cons s r ih =>
    unfold select
    split
    · exact ⟨(ih l).1.trans (List.sublist_cons_self s r), (ih l).2⟩
    · split
      · exact ⟨List.nil_sublist _, by simp⟩
      · obtain ⟨h1, h2, h3⟩ := scanSeg_spec s l false false
        have hl : ∀ x, Fits (scanSeg s l false false).2.2 x → Fits l x := by
          rintro x ⟨⟨p, hp, h⟩, q, hq, h'⟩
          exact ⟨⟨p, h1.subset hp, h⟩, q, h1.subset hq, h'⟩
        simp only
        have hr := ih (scanSeg s l false false).2.2
        split
        · rename_i hft
          rw [Bool.and_eq_true] at hft
          refine ⟨hr.1.cons_cons s, fun x hx => ?_⟩
          rcases List.mem_cons.mp hx with rfl | hx
          · refine ⟨?_, ?_⟩
            · rcases h2 hft.1 with h | h
              · cases h
              · exact h
            · rcases h3 hft.2 with h | h
              · cases h
              · exact h
          · exact hl x (hr.2 x hx)
        · exact ⟨hr.1.trans (List.sublist_cons_self s r), fun x hx => hl x (hr.2 x hx)⟩

/-- A chunk that reaches into the range is kept or deleted. -/
theorem select_all {low high : Nat} {segs : List Seg} (hs : Stored segs) (l : List Point) {s : Seg} (hm : s ∈ segs) (h1 : low < s.hi) (h2 : s.lo ≤ high) :
    s ∈ (select low high segs l).1 ∨ s ∈ (select low high segs l).2 := by
  induction segs generalizing l with
  | nil => cases hm
  | cons t r ih =>
    have hr : Stored r := ⟨(List.pairwise_cons.mp hs.1).2, fun x hx => hs.2 x (List.mem_cons_of_mem _ hx)⟩
    unfold select
    rcases List.mem_cons.mp hm with rfl | hm'
    · rw [if_neg (by omega), if_neg (by omega)]
      simp only
      split <;> simp
    · have hlt := List.rel_of_pairwise_cons hs.1 hm'
      have ht := hs.2 t List.mem_cons_self
      split
      · exact ih hr l hm'
      · rw [if_neg (by omega)]
        simp only
        have := ih hr (scanSeg t l false false).2.2 hm'
        split
        · rcases this with h | h
          · exact Or.inl (List.mem_cons_of_mem _ h)
          · exact Or.inr h
        · rcases this with h | h
          · exact Or.inl h
          · exact Or.inr (List.mem_cons_of_mem _ h)

/-! ## Joined chunks -/

/-- A run of neighbouring chunks as one. -/
def collapse (g : List Seg) : Seg := { g.headD ⟨0, 0, 0, 0⟩ with hi := (g.getLast?.getD ⟨0, 0, 0, 0⟩).hi }

def Contig (g : List Seg) : Prop := g ≠ [] ∧ List.IsChain (fun s t : Seg => s.hi + 1 = t.lo) g

theorem collapse_lo {s : Seg} {g : List Seg} : (collapse (s :: g)).lo = s.lo := rfl

theorem contig_snoc {g : List Seg} {t : Seg} (h : Contig g) (ht : (collapse g).hi + 1 = t.lo) : Contig (g ++ [t]) := by
  refine ⟨by simp, ?_⟩
  rw [List.isChain_append]
  refine ⟨h.2, List.isChain_singleton _, ?_⟩
  intro x hx y hy
  simp only [List.head?_cons, Option.mem_def, Option.some.injEq] at hy
  subst hy
  have : g.getLast?.getD ⟨0, 0, 0, 0⟩ = x := by
    rw [hx]
    rfl
  rw [← ht]
  show x.hi + 1 = (g.getLast?.getD ⟨0, 0, 0, 0⟩).hi + 1
  rw [this]

theorem collapse_snoc {g : List Seg} (t : Seg) (h : g ≠ []) : collapse (g ++ [t]) = { collapse g with hi := t.hi } := by
  cases g with
  | nil => exact absurd rfl h
  | cons s g =>
    have : (s :: g ++ [t]).getLast? = some t := List.getLast?_concat
    unfold collapse
    rw [this]
    rfl

/-- Joining gives runs of neighbours. -/
theorem join_groups (g : List Seg) (r : List Seg) (hg : Contig g) :
    ∃ gs : List (List Seg), joinSegs (collapse g :: r) = gs.map collapse ∧ gs.flatten = g ++ r ∧ (∀ x ∈ gs, Contig x) ∧
      ((g ++ r).Pairwise (fun s t => s.hi < t.lo) → (∀ s ∈ g ++ r, s.lo ≤ s.hi) → (gs.map collapse).Pairwise (fun s t => s.hi + 1 < t.lo)) ∧
      (∀ x ∈ gs, x.headD ⟨0, 0, 0, 0⟩ ∈ g ++ r ∧ ((collapse x).lo = (collapse g).lo ∨ x.headD ⟨0, 0, 0, 0⟩ ∈ r)) := by
  induction r generalizing g with
  | nil =>
    refine ⟨[g], by simp [joinSegs], by simp, by simpa using hg, by simp, ?_⟩
    intro x hx
    simp only [List.mem_singleton] at hx
    subst hx
    obtain ⟨s, g', rfl⟩ := List.exists_cons_of_ne_nil hg.1
    exact ⟨by simp, Or.inl rfl⟩
  | cons t r ih =>
    by_cases h : (collapse g).hi + 1 = t.lo
    · obtain ⟨gs, h1, h2, h3, h4, h5⟩ := ih (g ++ [t]) (contig_snoc hg h)
      refine ⟨gs, ?_, by rw [h2]; simp, h3, ?_, ?_⟩
      · rw [joinSegs, if_pos h, ← collapse_snoc t hg.1]
        exact h1
      · intro hp hle
        exact h4 (by simpa using hp) (by simpa using hle)
      · intro x hx
        obtain ⟨a, b⟩ := h5 x hx
        refine ⟨by simpa using a, ?_⟩
        rcases b with b | b
        · left
          rw [b, collapse_snoc t hg.1]
        · exact Or.inr (List.mem_cons_of_mem _ b)
    · obtain ⟨gs, h1, h2, h3, h4, h5⟩ := ih [t] ⟨by simp, List.isChain_singleton _⟩
      have e : collapse [t] = t := rfl
      rw [e] at h1
      refine ⟨g :: gs, ?_, by rw [List.flatten_cons, h2]; simp, ?_, ?_, ?_⟩
      · rw [joinSegs, if_neg h, h1]
        rfl
      · intro x hx
        rcases List.mem_cons.mp hx with rfl | hx
        · exact hg
        · exact h3 x hx
      · intro hp hle
        rw [List.pairwise_append] at hp
        rw [List.map_cons, List.pairwise_cons]
        refine ⟨?_, h4 hp.2.1 (fun s hs => hle s (List.mem_append_right _ hs))⟩
        intro y hy
        obtain ⟨x, hx, rfl⟩ := List.mem_map.mp hy
        have hmem := (h5 x hx).1
        have hlast : g.getLast?.getD ⟨0, 0, 0, 0⟩ ∈ g := by
          rw [List.getLast?_eq_getLast_of_ne_nil hg.1]
          exact List.getLast_mem hg.1
        have hlo : (collapse x).lo = (x.headD ⟨0, 0, 0, 0⟩).lo := rfl
        have hhi : (collapse g).hi = (g.getLast?.getD ⟨0, 0, 0, 0⟩).hi := rfl
        have ht := hp.2.2 _ hlast t List.mem_cons_self
        rw [hlo, hhi]
        rw [hhi] at h
        rcases List.mem_cons.mp hmem with h' | h'
        · rw [h']; omega
        · have := List.rel_of_pairwise_cons hp.2.1 h'
          have := hle t (by simp)
          omega
      · intro x hx
        rcases List.mem_cons.mp hx with rfl | hx
        · obtain ⟨s, g', rfl⟩ := List.exists_cons_of_ne_nil hg.1
          exact ⟨by simp, Or.inl rfl⟩
        · have := (h5 x hx).1
          exact ⟨List.mem_append_right _ this, Or.inr this⟩

theorem asc_inj {l : List Point} (h : Ascending l) {p q : Point} (hp : p ∈ l) (hq : q ∈ l) (e : p.height = q.height) : p = q := by
  induction l with
  | nil => cases hp
  | cons x l ih =>
    rcases List.mem_cons.mp hp with rfl | hp' <;> rcases List.mem_cons.mp hq with rfl | hq'
    · rfl
    · have := List.rel_of_pairwise_cons h hq'; omega
    · have := List.rel_of_pairwise_cons h hp'; omega
    · exact ih (List.pairwise_cons.mp h).2 hp' hq'

/-- A run of chunks whose ends are points leads from the point before to the point at its end. -/
theorem group_leads {l : List Point} (hl : Ascending l) {g : List Seg} (hc : Contig g) (hf : ∀ s ∈ g, Fits l s ∧ s.lo ≤ s.hi) :
    ∃ a ∈ l, ∃ b ∈ l, (collapse g).lo = a.height + 1 ∧ (collapse g).hi = b.height ∧ a.height < b.height ∧ Leads a.block g b.block := by
  induction g with
  | nil => exact absurd rfl hc.1
  | cons s g ih =>
    obtain ⟨⟨⟨p, hp, hp1, hp2⟩, q, hq, hq1, hq2⟩, hle⟩ := hf s List.mem_cons_self
    cases g with
    | nil =>
      refine ⟨p, hp, q, hq, hp1, hq1, by omega, hp1, hp2, hle, ?_⟩
      simp [Leads, Point.block, hq1, hq2]
    | cons t g =>
      have hch := hc.2
      rw [List.isChain_cons_cons] at hch
      obtain ⟨a, ha, b, hb, h1, h2, h3, h4⟩ := ih ⟨by simp, hch.2⟩ (fun x hx => hf x (List.mem_cons_of_mem _ hx))
      have e1 : t.lo = a.height + 1 := h1
      have : q = a := asc_inj hl hq ha (by omega)
      subst this
      refine ⟨p, hp, b, hb, hp1, ?_, by omega, hp1, hp2, hle, ?_⟩
      · rw [← h2]; simp [collapse]
      · rw [hq1, hq2]
        exact h4

end Verif.Sync
