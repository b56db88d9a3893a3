import Verif.Sync.PlanSpec

/-!
# Plans cover what is missing, once

Property C82. -/

namespace Verif.Sync

theorem Leads.append {a b c : Nat × Nat} {l m : List Seg} (h1 : Leads a l b) (h2 : Leads b m c) : Leads a (l ++ m) c := by
  induction l generalizing a with
  | nil => simp only [Leads] at h1; subst h1; exact h2
  | cons s r ih => exact ⟨h1.1, h1.2.1, h1.2.2.1, ih h1.2.2.2⟩

theorem Leads.le {a b : Nat × Nat} {l : List Seg} (h : Leads a l b) : a.1 ≤ b.1 := by
  induction l generalizing a with
  | nil => simp only [Leads] at h; subst h; rfl
  | cons s r ih =>
    obtain ⟨h1, -, h3, h4⟩ := h
    have := ih h4
    simp only at this
    omega

theorem Leads.bounds {a b : Nat × Nat} {l : List Seg} (h : Leads a l b) {s : Seg} (hs : s ∈ l) : a.1 < s.lo ∧ s.lo ≤ s.hi ∧ s.hi ≤ b.1 := by
  induction l generalizing a with
  | nil => cases hs
  | cons t r ih =>
    obtain ⟨h1, -, h3, h4⟩ := h
    rcases List.mem_cons.mp hs with rfl | hs
    · have := h4.le
      simp only at this
      omega
    · have := ih h4 hs
      simp only at this
      omega

theorem Leads.pairwise {a b : Nat × Nat} {l : List Seg} (h : Leads a l b) : l.Pairwise (fun s t => s.hi < t.lo) := by
  induction l generalizing a with
  | nil => exact List.Pairwise.nil
  | cons t r ih =>
    obtain ⟨h1, -, h3, h4⟩ := h
    refine List.Pairwise.cons (fun s hs => (h4.bounds hs).1) (ih h4)

theorem real_append (a b : List Seg) : real (a ++ b) = real a ++ real b := by simp [real]

/-! ## Without a cache -/

/-- The state of the loop: what is done leads to the block before the current chunk, which reaches to the last point `p`. -/
theorem build_inv {a : Nat × Nat} {l : List Point} {b : Build} {p : Point} (hasc : Ascending (p :: l))
    (hdone : Leads a (real b.done) (b.seg.lo - 1, b.seg.prev)) (hlo : b.seg.lo ≤ p.height + 1) (h1 : 1 ≤ b.seg.lo)
    (hhas : (b.has = true ∧ b.seg.hi = p.height ∧ b.seg.hash = p.hash) ∨ (b.has = false ∧ b.seg.lo = p.height + 1 ∧ b.seg.prev = p.hash))
    (hempty : b.seg.lo = p.height + 1 → b.seg.prev = p.hash) :
    Leads a (real ((l.foldl buildStep b).done ++ [{ (l.foldl buildStep b).seg with hi := (l.getLastD p).height, hash := (l.getLastD p).hash }]))
      (l.getLastD p).block := by
  induction l generalizing b p with
  | nil =>
    simp only [List.foldl_nil, List.getLastD_nil, real_append]
    by_cases h : b.seg.lo ≤ p.height
    · refine hdone.append ?_
      simp only [real, List.filter_cons, h, decide_true, if_true, List.filter_nil, Leads, Point.block, and_true, true_and]
      omega
    · have e : b.seg.lo = p.height + 1 := by omega
      have : real [({ b.seg with hi := p.height, hash := p.hash } : Seg)] = [] := by
        simp [real]
        omega
      rw [this, List.append_nil]
      have e2 := hempty e
      rw [e, e2] at hdone
      exact hdone
  | cons q l ih =>
    have hpq : p.height < q.height := List.rel_of_pairwise_cons hasc List.mem_cons_self
    have hasc' : Ascending (q :: l) := (List.pairwise_cons.mp hasc).2
    simp only [List.foldl_cons, List.getLastD_cons]
    by_cases hc : q.height + 1 - b.seg.lo > 2000 ∨ (b.size + q.size) % 2 ^ 64 > 2 ^ 21
    · rcases hhas with ⟨h2, h3, h4⟩ | ⟨h2, h3, h4⟩
      · have e : buildStep b q = { seg := ⟨b.seg.hi + 1, q.height, b.seg.hash, q.hash⟩, size := q.size, has := true, done := b.done ++ [b.seg] } := by
          simp only [buildStep]
          rw [if_pos hc, h2]
          simp
        rw [e]
        refine ih hasc' ?_ (by show b.seg.hi + 1 ≤ q.height + 1; omega) (by show 1 ≤ b.seg.hi + 1; omega) (Or.inl ⟨rfl, rfl, rfl⟩)
          (fun h => absurd h (by show ¬ (b.seg.hi + 1 = q.height + 1); omega))
        show Leads a (real (b.done ++ [b.seg])) (b.seg.hi + 1 - 1, b.seg.hash)
        rw [real_append]
        by_cases h : b.seg.lo ≤ b.seg.hi
        · refine hdone.append ?_
          simp only [real, List.filter_cons, h, decide_true, if_true, List.filter_nil, Leads, and_true, true_and, Nat.add_sub_cancel]
          omega
        · have e1 : b.seg.lo = p.height + 1 := by omega
          have : real [b.seg] = [] := by simp [real]; omega
          rw [this, List.append_nil, h3, h4, Nat.add_sub_cancel]
          have e2 := hempty e1
          rw [e1, e2] at hdone
          exact hdone
      · have e : buildStep b q = { seg := ⟨q.height + 1, q.height, q.hash, q.hash⟩, size := q.size, has := true, done := b.done ++ [{ b.seg with hi := q.height, hash := q.hash }] } := by
          simp only [buildStep]
          rw [if_pos hc, h2]
          simp
        rw [e]
        refine ih hasc' ?_ (by show q.height + 1 ≤ q.height + 1; omega) (by show 1 ≤ q.height + 1; omega) (Or.inl ⟨rfl, rfl, rfl⟩)
          (fun h => rfl)
        show Leads a (real (b.done ++ [{ b.seg with hi := q.height, hash := q.hash }])) (q.height + 1 - 1, q.hash)
        rw [real_append]
        refine hdone.append ?_
        have hle : b.seg.lo ≤ q.height := by omega
        simp only [real, List.filter_cons, hle, decide_true, if_true, List.filter_nil, Leads, and_true, true_and, Nat.add_sub_cancel]
        omega
    · have e : buildStep b q = { b with seg := { b.seg with hi := q.height, hash := q.hash }, size := (b.size + q.size) % 2 ^ 64, has := true } := by
        simp only [buildStep]
        rw [if_neg hc]
      rw [e]
      exact ih hasc' hdone (by show b.seg.lo ≤ q.height + 1; omega) h1 (Or.inl ⟨rfl, rfl, rfl⟩)
        (fun h => absurd h (by show ¬ (b.seg.lo = q.height + 1); omega))

/-- **C82.** Without a cache the tasks lead from the start to the last point. -/
theorem constructTasks_leads {p : Point} {l : List Point} (h : Ascending (p :: l)) :
    Leads p.block (real (constructTasks (p :: l))) (l.getLastD p).block := by
  unfold constructTasks
  refine build_inv h ?_ (Nat.le_refl _) (by show 1 ≤ p.height + 1; omega) (Or.inr ⟨rfl, rfl, rfl⟩) (fun _ => rfl)
  simp [real, Leads, Point.block]

end Verif.Sync
