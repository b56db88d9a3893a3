import Verif.Settle.SettleProps

/-!
# Irreversible blocks: concrete cases

Three nodes, rounds of ten seconds.
-/

namespace Verif.Settle
open Verif.Consensus Verif.Snap

def xg : Cfg := ⟨3, ⟨1000, 10⟩⟩

def xb (hash prev height sec producer : Nat) : Snap := ⟨hash, prev, height, (1000 + sec : Nat) * 1000000000, 0, none, producer, []⟩

/-- A genesis block and two rounds with three producers each. -/
def x1 : Chain := [xb 1 0 1 0 9, xb 2 1 2 10 7, xb 3 2 3 11 8, xb 4 3 4 12 9, xb 5 4 5 20 7, xb 6 5 6 21 8, xb 7 6 7 22 9]

/-- Blocks of a branch that leaves the chain after the first block of the second round: all by one producer. -/
def y6 : Snap := xb 16 5 6 23 7
def y7 : Snap := xb 17 16 7 24 7
/-- A branch that leaves it before. -/
def z5 : Snap := xb 25 4 5 25 8

/-- The block of a hash. -/
def xblock (h : Hash) : Snap := ((x1 ++ [y6, y7, z5]).find? (fun b => decide (b.hash = h))).getD z5

/-- The conditions on a chain, as a test. -/
def okB (g : Cfg) (block : Hash → Snap) (c : Chain) : Bool :=
  !c.isEmpty && (List.range c.length).all (fun i => (c[i]?.all (fun b => decide (b.height = i + 1)))) &&
  decide (c.Pairwise (fun a b => a.time < b.time)) && c.all (fun b => decide (b.time % 1000000000 = 0)) && c.head?.all (fun b => decide (b.time = g.start 0)) &&
  c.all (fun b => decide (b.time < g.start 0 + 2 ^ 64 * 1000000000)) && c.all (fun b => decide (block b.hash = b)) &&
  (List.range c.length).all (fun i => c[i]?.all (fun a => c[i + 1]?.all (fun b => decide (b.prev = a.hash))))

theorem ok_of {g : Cfg} {block : Hash → Snap} {c : Chain} (h : okB g block c = true) : Ok g block c := by
  unfold okB at h
  simp only [Bool.and_eq_true, List.all_eq_true, decide_eq_true_eq, List.mem_range, Option.all_eq_true] at h
  obtain ⟨⟨⟨⟨⟨⟨⟨h1, h2⟩, h3⟩, h4⟩, h5⟩, h6⟩, h7⟩, h8⟩ := h
  refine ⟨⟨?_, ?_, h3⟩, h4, ?_, h6, h7, ?_⟩
  · rintro rfl; exact absurd h1 (by simp)
  · intro i b hb
    exact h2 i (List.getElem?_eq_some_iff.1 hb).1 b hb
  · intro b hb; exact h5 b hb
  · intro i a b ha hb
    exact h8 i (List.getElem?_eq_some_iff.1 ha).1 a ha b hb

def b5 : Snap := xb 5 4 5 20 7

def s1 : St := ⟨x1, none⟩
def s2 : St := ⟨x1, some ⟨some b5, xb 7 6 7 22 9⟩⟩
def s3 : St := { s2 with chain := x1.take 5 }
def s4 : St := { s2 with chain := x1.take 5 ++ [y6] }
def s5 : St := { s2 with chain := x1.take 5 ++ [y6, y7] }
def s6 : St := ⟨x1.take 4, some ⟨some (xb 2 1 2 10 7), y7⟩⟩
def s7 : St := ⟨x1.take 4 ++ [z5], some ⟨some (xb 2 1 2 10 7), y7⟩⟩

theorem r1 : Reach xg xblock s1 := .start (ok_of (by decide +kernel))
theorem r2 : Reach xg xblock s2 := .step (o := .update) r1 trivial (by decide +kernel)
theorem r3 : Reach xg xblock s3 := .step (o := .fork 6) r2 (by unfold Allowed; omega) (by decide +kernel)
theorem r4 : Reach xg xblock s4 := .step (o := .grow y6) r3 (ok_of (by decide +kernel)) (by decide +kernel)
theorem r5 : Reach xg xblock s5 := .step (o := .grow y7) r4 (ok_of (by decide +kernel)) (by decide +kernel)
theorem r6 : Reach xg xblock s6 := .step (o := .fork 5) r5 (by unfold Allowed; omega) (by decide +kernel)
theorem r7 : Reach xg xblock s7 := .step (o := .grow z5) r6 (ok_of (by decide +kernel)) (by decide +kernel)

/-- **C72** A block that was reported as irreversible is removed by two forks. The first takes away the other blocks of its round, so that the round
no longer counts; the second then finds an earlier block and may delete the one reported before. -/
theorem two_forks_remove : report xg s1 = .ok (s2, some b5) ∧ step xg s2 (.fork 6) = some s3 ∧ step xg s3 (.grow y6) = some s4 ∧ step xg s4 (.grow y7) = some s5 ∧
    step xg s5 (.fork 5) = some s6 ∧ b5 ∈ s2.chain ∧ b5 ∉ s6.chain := by decide +kernel

/-- In the state before, a fork that would delete the block is refused. -/
theorem one_fork_refused : fork xg s2 5 = .ok (s2, false) ∧ fork xg s2 6 = .ok (s3, true) := by decide +kernel

/-- What the theorems speak about: in the first chain the two rounds are final, and the highest is that of height 5. -/
theorem b5_final : Final xg x1 b5 := ((reported_exact (by decide) (by decide) r1 (o := some b5) (s' := s2) (by decide +kernel)).2).1

theorem x1_calm : Calm xg x1 := by unfold Calm; decide +kernel

/-- `final_lost_only_by` speaks of this step: the block is no longer final after it. -/
theorem b5_lost : ¬ Final xg s3.chain b5 := by
  intro h
  have := (reported_exact (by decide) (by decide) r3 (o := some (xb 2 1 2 10 7)) (s' := { s3 with info := some ⟨some (xb 2 1 2 10 7), b5⟩ }) (by decide +kernel)).2.2 b5 h
  exact absurd this (by decide +kernel)

/-- A chain with four blocks in the first round. -/
def w1 : Chain := [xb 1 0 1 0 9, xb 32 1 2 1 7, xb 33 32 3 2 8, xb 34 33 4 3 9]

/-- **C71** The query panics on a chain whose first round has more blocks than a quorum: there is no block before the first round, and the height of
that block is read. -/
theorem long_first_round_panics : step xg ⟨w1, none⟩ .update = none ∧ okB xg (fun h => (w1.find? (fun b => decide (b.hash = h))).getD z5) w1 = true := by decide +kernel

/-- It is a state that is reached. -/
example : ∃ block, Reach xg block ⟨w1, none⟩ := ⟨_, .start (ok_of long_first_round_panics.2)⟩

end Verif.Settle
