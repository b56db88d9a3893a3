import Verif.Gossip.FilterModel

/-! # The filter forgets nothing early and a new one knows nothing (C119) -/

namespace Verif.Gossip

/-- Add things one after the other. -/
def Filter.addAll (f : Filter) : List (List Nat) → Filter
  | [] => f
  | p :: ps => (f.add p).addAll ps

theorem Bits.has_put (b : Bits) (p : List Nat) : (b.put p).has p = true := by
  simp only [Bits.has, Bits.put, List.all_eq_true]
  intro i hi
  simp [hi]

theorem Bits.has_mono {b : Bits} {p : List Nat} (q : List Nat) (h : b.has p = true) :
    (b.put q).has p = true := by
  simp only [Bits.has, Bits.put, List.all_eq_true] at *
  intro i hi
  have := h i hi
  simp only [List.contains_eq_mem, decide_eq_true_eq, List.mem_append] at *
  exact .inr this

/-- A thing just added is found. -/
theorem added_found (f : Filter) (p : List Nat) : (f.add p).test p = true := by
  simp [Filter.test, Filter.add, Bits.has_put]

theorem addAll_found (k : Nat) (p : List Nat) (ps : List (List Nat)) : ∀ f : Filter,
    (∀ q ∈ ps, q.length = k) →
    (f.fill.has p = true ∨
      (f.kept.has p = true ∧ ∀ j < ps.length, 5 * (f.fill.count + j * k) ≤ 4 * f.m)) →
    (∀ j < ps.length, 5 * (j * k) ≤ 4 * f.m) → (f.addAll ps).test p = true := by
  induction ps with
  | nil =>
    intro f _ h _
    rcases h with h | h <;> simp [Filter.addAll, Filter.test, h]
  | cons q ps ih =>
    intro f hq h hk
    have hql := hq q (by simp)
    have hm : (f.add q).m = f.m := by
      simp only [Filter.add, Filter.turn]
      split <;> rfl
    have hmul : ∀ j, (j + 1) * k = k + j * k := fun j => by ring
    simp only [Filter.addAll]
    refine ih (f.add q) (fun x hx => hq x (by simp [hx])) ?_ ?_
    · rw [hm]
      rcases h with h | ⟨h1, h2⟩
      · by_cases ht : 5 * f.fill.count > 4 * f.m
        · right
          simp only [Filter.add, Filter.turn, ht, if_true, Bits.put]
          refine ⟨h, fun j hj => ?_⟩
          have := hk (j + 1) (by simp; omega)
          rw [hmul] at this
          rw [hql]
          omega
        · left
          simp only [Filter.add, Filter.turn, ht, if_false]
          exact Bits.has_mono q h
      · right
        have ht : ¬ 5 * f.fill.count > 4 * f.m := by
          have := h2 0 (by simp)
          omega
        simp only [Filter.add, Filter.turn, ht, if_false, Bits.put]
        refine ⟨h1, fun j hj => ?_⟩
        have := h2 (j + 1) (by simp; omega)
        rw [hmul] at this
        rw [hql]
        omega
    · rw [hm]
      intro j hj
      exact hk j (by simp; omega)

/-- A thing that was added is found after `n` further things, as long as the `n - 1` before the last
of them fill no more than four fifths of an array; whatever was in the filter before, and however
many things share places. -/
theorem remembered (f : Filter) (k : Nat) (p : List Nat) (later : List (List Nat))
    (hk : ∀ q ∈ later, q.length = k) (hn : 5 * ((later.length - 1) * k) ≤ 4 * f.m) :
    ((f.add p).addAll later).test p = true := by
  have hm : (f.add p).m = f.m := by
    simp only [Filter.add, Filter.turn]
    split <;> rfl
  refine addAll_found k p later (f.add p) hk (.inl (Bits.has_put _ _)) (fun j hj => ?_)
  rw [hm]
  have : j * k ≤ (later.length - 1) * k := Nat.mul_le_mul_right _ (by omega)
  omega

/-- The bound is sharp: a filter of size 10 and things with four places forget a
thing with the fourth that comes after it, if it was the last to fill an array. -/
theorem forgotten_next :
    ∃ (f : Filter) (p : List Nat) (later : List (List Nat)),
      later.length = 4 ∧ (∀ q ∈ later, q.length = 4) ∧ f.m = 10 ∧
      ((f.add p).addAll later).test p = false ∧ ((f.add p).addAll later.dropLast).test p = true := by
  refine ⟨(Filter.new 10).addAll [[0, 1, 2, 3], [0, 1, 2, 3]], [4, 5, 6, 7],
    [[0, 1, 2, 8], [0, 1, 2, 8], [0, 1, 2, 8], [0, 1, 2, 8]], ?_⟩
  decide +kernel

/-- The filter says yes only to things whose places were set: if one place of a thing is no place of
anything that was put into a new filter, it says no. -/
theorem not_added_not_found (m : Nat) (ps : List (List Nat)) (p : List Nat) (i : Nat) (hi : i ∈ p)
    (hfree : ∀ q ∈ ps, i ∉ q) : ((Filter.new m).addAll ps).test p = false := by
  have key : ∀ (ps : List (List Nat)) (f : Filter), i ∉ f.fill.set → i ∉ f.kept.set →
      (∀ q ∈ ps, i ∉ q) → (f.addAll ps).test p = false := by
    intro ps
    induction ps with
    | nil =>
      intro f h1 h2 _
      simp only [Filter.addAll, Filter.test, Bits.has, Bool.or_eq_false_iff, List.all_eq_false]
      exact ⟨⟨i, hi, by simpa using h1⟩, ⟨i, hi, by simpa using h2⟩⟩
    | cons q ps ih =>
      intro f h1 h2 h3
      simp only [Filter.addAll]
      have hq := h3 q (by simp)
      refine ih (f.add q) ?_ ?_ (fun x hx => h3 x (by simp [hx]))
      · simp only [Filter.add, Filter.turn, Bits.put]
        split <;> simp [hq, h1]
      · simp only [Filter.add, Filter.turn]
        split <;> simp [h1, h2]
  exact key ps _ (by simp [Filter.new]) (by simp [Filter.new]) hfree

/-- Asking and adding at once: it answers as asking does, and after it the thing is found. -/
theorem testAndAdd_found (f : Filter) (p : List Nat) :
    (f.testAndAdd p).1 = f.test p ∧ (f.testAndAdd p).2.test p = true := by
  unfold Filter.testAndAdd
  cases h : f.test p with
  | true => simp [h]
  | false => simp [added_found]

-- the sizes in use: 1917012 bits and 14 places: more than 100000 later things are borne
example : 5 * ((109544 - 1) * 14) ≤ 4 * 1917012 := by decide
example : ((((Filter.new 100).add [1, 2, 3]).addAll [[4, 5, 6], [7, 8, 9]]).test [1, 2, 3]) = true ∧
    ((((Filter.new 100).add [1, 2, 3]).addAll [[4, 5, 6], [7, 8, 9]]).test [1, 2, 10]) = false := by
  decide +kernel

end Verif.Gossip
