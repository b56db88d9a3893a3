import Verif.Wal.RecoverProps
import Verif.Wal.JournalExamples

/-! # Coming up after a crash: examples (C107) -/

namespace Verif.Wal
open Verif.Bytes Verif.Store

/-- Three writes of one key and one deletion of another. -/
def ws3 : List (List Batch) := [[[⟨[1], some [10]⟩, ⟨[2], some [20]⟩]], [[⟨[1], some [11]⟩], [⟨[2], none⟩]], [[⟨[1], some [12]⟩]]]

example : Spec.Small 5 ws3 := by
  refine ⟨by decide, ?_⟩
  intro w hw
  simp only [ws3, List.mem_cons, List.not_mem_nil, or_false] at hw
  rcases hw with h | h | h <;> subst h <;> exact ⟨by decide, by simp [Batch.encode, Rec.encode, uvarint]⟩

/-- The values after the first two of them. -/
example : Spec.after ((ws3.take 2).flatten.flatten) [1] = some (some [11]) ∧ Spec.after ((ws3.take 2).flatten.flatten) [2] = some none ∧ Spec.after ((ws3.take 2).flatten.flatten) [3] = none := by decide

/-- **What does not hold.** A gap in the sequence numbers is not noticed: only numbers that are too small are refused (`batch.go:285-287`). When the record of a write in the middle is damaged, the later ones are applied without it. -/
theorem gap_not_noticed : ∃ r1 r3 : List Nat, r1 = (groupParts 6 [[⟨[1], some [10]⟩]]).flatten ∧ r3 = (groupParts 8 [[⟨[2], some [20]⟩]]).flatten ∧
    (replay 6 [] [r1, r3]).2 = [⟨6, ⟨[1], some [10]⟩⟩, ⟨8, ⟨[2], some [20]⟩⟩] := by
  refine ⟨_, _, rfl, rfl, ?_⟩
  have h1 := decodeToMem_group 6 6 [[⟨[1], some [10]⟩]] (by omega) (by decide) (by decide) (by simp [Batch.encode, Rec.encode, uvarint])
  have h2 := decodeToMem_group 8 (6 + 1) [[⟨[2], some [20]⟩]] (by omega) (by decide) (by decide) (by simp [Batch.encode, Rec.encode, uvarint])
  simp only [replay, h1]
  have e : ([[⟨[1], some [10]⟩]] : List Batch).flatten.length = 1 := rfl
  rw [e]
  simp only [h2, replay]
  rfl

end Verif.Wal
