import Verif.Fork.ForkProps

/-! Trees that meet the hypotheses, and a switch that loses the main branch. -/

namespace Verif.Fork.Ex

def g : Knot := ⟨0, 100, 0⟩
def a1 : Knot := ⟨1, 101, 100⟩
def a2 : Knot := ⟨2, 102, 101⟩
def b2 : Knot := ⟨2, 202, 101⟩
def b3 : Knot := ⟨3, 203, 202⟩

def K (k : Knot) : Prop := k ∈ [g, a1, a2, b2, b3]

theorem uniq : Uniq K := by
  have : ∀ a ∈ [g, a1, a2, b2, b3], ∀ b ∈ [g, a1, a2, b2, b3], a.hash = b.hash → a = b := by decide +kernel
  intro a b ha hb e
  exact this a ha b hb e

def next (t : Tree) (o : Op) : Tree := (t.step o).getD t

theorem next_eq {t : Tree} {o : Op} (h : (t.step o).isSome = true) : t.step o = some (next t o) := by
  rw [next]
  obtain ⟨x, e⟩ := Option.isSome_iff_exists.mp h
  rw [e]; rfl

theorem Reach.next {t : Tree} {o : Op} (r : Reach K t) (al : Allowed K t o) : Reach K (next t o) := by
  obtain ⟨t', e, -⟩ := never_panics_partial uniq r al
  have : Ex.next t o = t' := by rw [Ex.next, e]; rfl
  rw [this]
  exact Reach.step r al e

theorem not_stale {t : Tree} {i r : Nat} (h1 : (t.br i).root = some r) (h2 : (t.br r).root = none)
    (h3 : (t.knot r (t.br i).head true).any (fun k => k.hash = (t.br i).headHash) = false) : ¬ Stale t i := by
  rintro ⟨-, y, k, a, e1, e2⟩
  have : y = r := by
    cases a with
    | root e => rw [h1] at e; simpa using e.symm
    | step e a =>
      rw [h1] at e
      rename_i z
      obtain rfl : r = z := by simpa using e
      cases a with
      | root e => rw [h2] at e; exact absurd e (by simp)
      | step e _ => rw [h2] at e; exact absurd e (by simp)
  subst this
  rw [e1] at h3
  simp [e2] at h3

def s0 : Tree := start [g]
def s1 : Tree := next s0 (.extend 1 a1)
def s2 : Tree := next s1 (.extend 1 a2)
def s3 : Tree := next s2 (.attach 1 1)
def s4 : Tree := next s3 (.extend 2 b2)
def s5 : Tree := next s4 (.switch 2)
def s6 : Tree := next s5 (.confirm a1)
def s7 : Tree := next s6 (.confirm a2)

theorem r0 : Reach K s0 := by
  refine Reach.start (by simp) ⟨?_, ?_⟩
  · intro h k e
    match h with
    | 0 => simp at e; subst e; exact ⟨rfl, by simp [K]⟩
    | n + 1 => simp at e
  · intro h k k' _ e; simp at e

theorem r4 : Reach K s4 :=
  Reach.next (Reach.next (Reach.next (Reach.next r0 (.extend (by decide +kernel) (by simp [K]))) (.extend (by decide +kernel) (by simp [K])))
    (.attach (by decide +kernel))) (.extend (by decide +kernel) (by simp [K]))

/-- The switch to the second branch is allowed. -/
theorem allowed5 : Allowed K s4 (.switch 2) :=
  .switch (by decide +kernel) ⟨g, by decide +kernel, by decide +kernel⟩
    (not_stale (r := 1) (by decide +kernel) (by decide +kernel) (by decide +kernel))

theorem r5 : Reach K s5 := Reach.next r4 allowed5
theorem r7 : Reach K s7 := Reach.next (Reach.next r5 (.confirm (by simp [K]))) (.confirm (by simp [K]))

/-- The trees are not trivial: two branches, the second one main after the switch, and blocks written to the chain. -/
example : s4.live = [1, 2] ∧ s4.main = 1 ∧ s4.knot 2 2 true = some b2 ∧ s4.knot 1 2 true = some a2 ∧ s4.knot 2 1 true = some a1 := by
  decide +kernel
example : s5.live = [1, 2] ∧ s5.main = 2 ∧ s5.kids = [(2, 1)] ∧ s5.knot 2 2 true = some b2 ∧ s5.knot 1 2 true = some a2 := by decide +kernel
example : s7.main = 3 ∧ s7.live = [1, 2, 3] ∧ s7.disk = [g, a1, a2] ∧ s7.check = true ∧ s7.checkTail = true ∧
    s7.knot 2 2 true = some b2 := by decide +kernel
/-- The fork point of the second branch lies below the main branch, and the branch is reached by rolling back to it. -/
example : s7.forkPoint 2 = some (some a2, a1) ∧ ¬ Stale s7 2 :=
  ⟨by decide +kernel, not_stale (r := 3) (by decide +kernel) (by decide +kernel) (by decide +kernel)⟩
/-- An empty branch is forked at the head of the chain, and the others stay. -/
example : (next s5 (.toEmpty [1, 2])).main = 3 ∧ (next s5 (.toEmpty [1, 2])).live = [1, 2, 3] ∧ (next s5 (.toEmpty [1, 2])).disk = [g] ∧
    (next s5 (.toEmpty [1, 2])).knot 2 2 true = some b2 := by decide +kernel
/-- A rollback gives the blocks to the main branch. -/
example : (next s7 (.rollback 1)).disk = [g] ∧ (next s7 (.rollback 1)).knot 3 2 true = some a2 ∧
    (next s7 (.rollback 1)).brothers 3 = [1] := by decide +kernel
/-- Pruning removes the first branch, whose blocks are in the chain, and keeps the second. -/
example : (next s7 (.prune (fun _ => false) [1, 2, 3] [1, 2, 3])).live = [2, 3] ∧
    (next s7 (.prune (fun _ => false) [1, 2, 3] [1, 2, 3])).knot 2 2 true = some b2 := by decide +kernel

end Verif.Fork.Ex

namespace Verif.Fork
open Ex

/-- A switch the code makes, the branch having the block the main branch stands on, after which the main branch is none
of the branches of the tree: it is pruned away before it becomes the main branch. -/
theorem stale_switch : ∃ (K : Knot → Prop) (t t' : Tree) (i : Nat), Uniq K ∧ Reach K t ∧ i ∈ t.live ∧ OnPath t i ∧
    (∃ p f, t.forkPoint i = some (p, f) ∧ (t.br t.main).tail ≤ f.height) ∧
    t.step (.switch i) = some t' ∧ t'.main = i ∧ t'.main ∉ t'.live := by
  refine ⟨Ex.K, s7, next s7 (.switch 1), 1, uniq, r7, by decide +kernel, ⟨a2, by decide +kernel, by decide +kernel⟩,
    ⟨none, a2, by decide +kernel, by decide +kernel⟩, next_eq (by decide +kernel), by decide +kernel, by decide +kernel⟩

/-- The same with a branch chosen at random among the brothers of the main branch, after a rollback. -/
theorem stale_brother : ∃ (K : Knot → Prop) (t t' : Tree) (i : Nat), Uniq K ∧ Reach K t ∧ i ∈ t.brothers t.main ∧
    t.step (.switch i) = some t' ∧ t'.main = i ∧ t'.main ∉ t'.live := by
  refine ⟨Ex.K, next s7 (.rollback 1), next (next s7 (.rollback 1)) (.switch 1), 1, uniq, Reach.next r7 .rollback, by decide +kernel,
    next_eq (by decide +kernel), by decide +kernel, by decide +kernel⟩

end Verif.Fork
