import Verif.Iter.StorageProps
import Verif.Iter.SnapProps

/-! # Concrete cases of the iterators, and the readings that go wrong -/

namespace Verif.Iter.Examples

open Verif.Bytes Verif.State

instance (p : Bytes) : Decidable (PlainPrefix p) := by unfold PlainPrefix; infer_instance

def A : Bytes := List.replicate 21 7

/-- Three stored slots of one contract. -/
def db : Store := [(rawKey A [1], [10]), (rawKey A [1, 2], [11]), (rawKey A [3], [12])]

/-- The block being executed rewrites one slot, empties one and adds two; a key of 33 bytes is refused. -/
def ws : List Entry := [([1, 2], [21]), ([3], []), ([1, 5], [22]), ([2], [23]), (List.replicate 33 1, [24])]

theorem db_wf : StoreWf db where
  sorted := by decide +kernel
  shape := by
    intro e he _
    simp only [db, List.mem_cons, List.not_mem_nil, or_false] at he
    rcases he with rfl | rfl | rfl
    · exact ⟨A, [1], rfl, by decide, rfl, by decide⟩
    · exact ⟨A, [1, 2], rfl, by decide, rfl, by decide⟩
    · exact ⟨A, [3], rfl, by decide, rfl, by decide⟩

theorem ws_named : NoEmptyKey db A (writes .new ws) [] := by
  refine .inr ⟨by decide +kernel, ?_⟩
  intro v hv
  simp only [db, List.mem_cons, Prod.mk.injEq, List.not_mem_nil, or_false] at hv
  rcases hv with ⟨h, _⟩ | ⟨h, _⟩ | ⟨h, _⟩ <;> exact absurd h (by decide +kernel)

/-- The hypotheses of the three readings hold for this contract. -/
example : InOrder true (drain true (writes .new ws).isDelete 20 (newIterator db A (writes .new ws) [])) :=
  (iterate_exact db_wf rfl ws (by decide +kernel) ws_named (by decide +kernel)).1

example : drain true (writes .new ws).isDelete 20 (newIterator db A (writes .new ws) []) =
    [([1], [10]), ([1, 2], [21]), ([1, 5], [22]), ([2], [23])] := by decide +kernel

example : drain true (writes .new ws).isDelete 20 (newIterator db A (writes .new ws) [1]) =
    [([1], [10]), ([1, 2], [21]), ([1, 5], [22])] := by decide +kernel

example : readBack (writes .new ws).isDelete 20 (newIterator db A (writes .new ws) []) =
    [([2], [23]), ([1, 5], [22]), ([1, 2], [21]), ([1], [10])] := by decide +kernel

example : readFrom (writes .new ws).isDelete [1, 3] 20 (newIterator db A (writes .new ws) []) =
    [([1, 5], [22]), ([2], [23])] := by decide +kernel

example (k v : Bytes) : (k, v) ∈ readFrom (writes .new ws).isDelete [1, 3] 20 (newIterator db A (writes .new ws) []) ↔
    Listed (getValue db A (writes .new ws)) [] k v ∧ lt k [1, 3] = false :=
  (iterate_from db_wf rfl ws (by decide +kernel) ws_named (by decide +kernel) [] [1, 3]).2 k v

/-! ## Turning round -/

/-- Storage with keys 1 and 4 saved and 2 and 3 written by the block. -/
def turnDb : Store := [(rawKey A [1], [1]), (rawKey A [4], [4])]
def turnU : Unsaved := writes .new [([2], [2]), ([3], [3])]

/-- The keys that `steps` (`true` is `Next`, `false` is `Prev`) comes to; `none` where the step says there is nothing more. -/
def walk (del : Bytes → Bool) : List Bool → Merged → List (Option Bytes)
  | [], _ => []
  | d :: ds, m => let r := m.step d del; (if r.2 then some r.1.key else none) :: walk del ds r.1

/-- **Changing direction twice loses a slot**: after `Next`, `Next`, `Next`, the first `Prev` comes to 2, but the second says there is
nothing more, though the slot 1 is there. `step` compares the direction with one that it never sets, so that it forgets the entries it has
read ahead at every step against the first direction. -/
theorem turn_loses : walk turnU.isDelete [true, true, true, false, false] (newIterator turnDb A turnU []) =
    [some [1], some [2], some [3], some [2], none] ∧ getValue turnDb A turnU [1] = [1] := by decide +kernel

/-- So does `Last`, `Prev`, `Prev`, `Next`, `Next`: 4 is lost. -/
theorem turn_loses_after_last :
    (let m := ((newIterator turnDb A turnU []).last turnU.isDelete).1
     m.key :: (walk turnU.isDelete [false, false, true, true] m).map (·.getD [])) = [[4], [3], [2], [3], []] ∧
      getValue turnDb A turnU [4] = [4] := by decide +kernel

/-! ## The slot with the empty key -/

/-- A slot whose key is empty, and a second slot. -/
def emptyDb : Store := [(rawKey A [], [5]), (rawKey A [1], [6])]

/-- **A slot with the empty key is not listed**, though it can be read. -/
theorem empty_key_skipped : drain true Unsaved.new.isDelete 9 (newIterator emptyDb A .new []) = [([1], [6])] ∧
    getValue emptyDb A .new [] = [5] := by decide +kernel

/-! ## Prefixes that end in a zero byte -/

/-- **A prefix that ends in zero bytes also lists shorter keys**, because saved keys are padded with zeros: prefix `[1, 0]` gives the saved
key `[1]`, but not the same key if the block has written it. -/
theorem zero_prefix : drain true Unsaved.new.isDelete 9 (newIterator emptyDb A .new [1, 0]) = [([1], [6])] ∧
    drain true Unsaved.new.isDelete 9 (newIterator [] A (writes .new [([1], [6])]) [1, 0]) = [] ∧ ¬ ([1, 0] : Bytes) <+: [1] ∧
    ¬ PlainPrefix [1, 0] := by decide +kernel

/-! ## At a snapshot -/

/-- Slot 1 written at heights 3 and 8 and emptied at 5; slot 2 written at 9; slot 1·1 written at 4; another contract's slot. -/
def hist : Store := [(histKey A [1] 3, [30]), (histKey A [1] 5, []), (histKey A [1] 8, [80]), (histKey A [1, 1] 4, [40]),
  (histKey A [2] 9, [90]), (histKey (List.replicate 21 9) [1] 1, [1])]

theorem hist_wf : HistWf hist where
  sorted := by decide +kernel
  shape := by
    intro e he _
    simp only [hist, List.mem_cons, List.not_mem_nil, or_false] at he
    rcases he with rfl | rfl | rfl | rfl | rfl | rfl
    · exact ⟨A, [1], 3, rfl, by decide, by decide, rfl⟩
    · exact ⟨A, [1], 5, rfl, by decide, by decide, rfl⟩
    · exact ⟨A, [1], 8, rfl, by decide, by decide, rfl⟩
    · exact ⟨A, [1, 1], 4, rfl, by decide, by decide, rfl⟩
    · exact ⟨A, [2], 9, rfl, by decide, by decide, rfl⟩
    · exact ⟨List.replicate 21 9, [1], 1, rfl, by decide, by decide, rfl⟩

example (k v : Bytes) : (k, v) ∈ (newSnap hist A [] 8).drain true 9 ↔ ValueAt hist A k 8 v ∧ [] <+: k :=
  (snapshot_iterate hist_wf rfl (by decide +kernel) (by decide) (by decide +kernel)).2 k v

example : (newSnap hist A [] 8).drain true 9 = [([1], [80]), ([1, 1], [40])] ∧
    (newSnap hist A [] 9).readBack 9 = [([2], [90]), ([1, 1], [40]), ([1], [80])] ∧
    (newSnap hist A [] 9).readFrom A [1, 0] 9 = [([1, 1], [40]), ([2], [90])] ∧
    (newSnap hist A [] 2).drain true 9 = [] := by decide +kernel

/-- **A slot that was emptied is still listed at later snapshots**, with the empty value. -/
theorem emptied_listed : (newSnap hist A [] 6).drain true 9 = [([1], []), ([1, 1], [40])] := by decide +kernel

/-- Next and Prev may be mixed here. -/
example : decodeKey ((newSnap hist A [] 9).next.next.next.prev.cur.key) = [1, 1] ∧
    decodeKey ((newSnap hist A [] 9).next.next.next.prev.prev.cur.key) = [1] ∧
    decodeKey ((newSnap hist A [] 9).next.next.next.prev.prev.next.cur.key) = [1, 1] := by decide +kernel

example : Stands hist A [] 9 (newSnap hist A [] 9).next [1] := by
  have := snapshot_first hist_wf (addr := A) (p := []) (h := 9) rfl (by decide) (by decide +kernel)
  have e : decodeKey (newSnap hist A [] 9).next.cur.key = [1] := by decide +kernel
  rw [e] at this
  exact this

end Verif.Iter.Examples
