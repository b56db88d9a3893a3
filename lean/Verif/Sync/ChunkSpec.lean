import Verif.Sync.ChunkModel

/-!
# What a chunk should be -/

namespace Verif.Sync

/-- Snapshot blocks that follow one another from the block `a` (height, hash) to the block `b`. -/
def LinkedS : Nat × Nat → List SBlk → Nat × Nat → Prop
  | a, [], b => a = b
  | a, s :: r, b => s.height = a.1 + 1 ∧ s.prev = a.2 ∧ LinkedS (s.height, s.hash) r b

/-- Blocks of one account that follow one another. -/
def LinkedA : List ABlk → Prop
  | [] => True
  | [_] => True
  | x :: y :: r => y.height = x.height + 1 ∧ y.prev = x.hash ∧ LinkedA (y :: r)

/-- The account blocks of a file. -/
def accsOf : List Frame → List ABlk
  | [] => []
  | .acc b :: l => b :: accsOf l
  | _ :: l => accsOf l

/-- The snapshot blocks of a file. -/
def snapsOf : List Frame → List SBlk
  | [] => []
  | .snap b :: l => b :: snapsOf l
  | _ :: l => snapsOf l

/-- No block of the file is on the black list. -/
def Clean (j : Judge) (l : List Frame) : Prop := (∀ b ∈ accsOf l, j.black b.hash = false) ∧ ∀ b ∈ snapsOf l, j.black b.hash = false

end Verif.Sync
