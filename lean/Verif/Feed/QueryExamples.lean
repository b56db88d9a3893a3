import Verif.Feed.QueryProps

/-! # The hypotheses are met -/

namespace Verif.Feed

/-- An account of 205 blocks; every block has a log whose first topic is 7 for even numbers. -/
def longAccount : Nat → List QBlk := fun a => if a = 9 then (List.range 205).map fun i => ⟨i + 1000, some [⟨[if i % 2 = 0 then 7 else 8, i], i⟩]⟩ else []

example : (9 : Nat) = 9 ∧ (⟨3, 202⟩ : HRange).lo ≤ (longAccount 9).length ∧ ((⟨3, 202⟩ : HRange).hi = 0 ∨ (⟨3, 202⟩ : HRange).lo ≤ (⟨3, 202⟩ : HRange).hi) ∧ 2 * 40 < 2 ^ 64 := by
  decide +kernel

/-- The third page of 40 has 20 logs: there are 100 matching ones of heights 3 to 202. -/
example : ((getLogs longAccount [(9, ⟨3, 202⟩)] [[7]] 2 40).getD []).map (·.height) = (List.range 20).map fun i => 163 + 2 * i := by
  decide +kernel

/-- Topics at the second place only. -/
example : ((getLogs longAccount [(9, ⟨1, 0⟩)] [[], [4, 9, 150]] 0 40).getD []).map (·.height) = [5, 10, 151] := by
  decide +kernel

example : ((([(1, ⟨1, 2⟩), (2, ⟨1, 1⟩)] : List (Nat × HRange)).flatMap fun e => Spec.wanted [] (twoAccounts e.1) e.2 e.1).length = 3) := by
  decide +kernel

example : filterLog [[5], []] ⟨[5, 6], 0⟩ = true ∧ filterLog [[5], [], []] ⟨[5, 6], 0⟩ = false := by decide +kernel

end Verif.Feed
