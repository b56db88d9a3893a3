import Verif.Wal.JournalModel

/-! # The journal of the database: the layout of the file (C106)

How the bytes of a record lie in the file, as the comment of the package says (`journal.go:61-78`): chunks that do not cross the end of a block. Used in the proofs only. -/

namespace Verif.Wal

/-- The chunks of what is left of a record at the beginning of a block, and where in its block the last one ends. -/
def more (B : Nat) (crc : List Nat → Nat) (p : List Nat) : List Nat × Nat :=
  if p.length ≤ B - 7 ∨ B ≤ 7 then (header crc 4 p ++ p, 7 + p.length)
  else (header crc 3 (p.take (B - 7)) ++ p.take (B - 7) ++ (more B crc (p.drop (B - 7))).1, (more B crc (p.drop (B - 7))).2)
termination_by p.length
decreasing_by all_goals (simp only [List.length_drop]; omega)

/-- The chunks of a record from offset `o` of a block, where there is room for a header. -/
def whole (B : Nat) (crc : List Nat → Nat) (o : Nat) (p : List Nat) : List Nat × Nat :=
  if p.length ≤ B - o - 7 then (header crc 1 p ++ p, o + 7 + p.length)
  else (header crc 2 (p.take (B - o - 7)) ++ p.take (B - o - 7) ++ (more B crc (p.drop (B - o - 7))).1, (more B crc (p.drop (B - o - 7))).2)

/-- The bytes of a record from offset `o` of a block, with the zeros that fill a block without room for a header. -/
def enc (B : Nat) (crc : List Nat → Nat) (o : Nat) (p : List Nat) : List Nat × Nat :=
  if o + 7 > B then (zeros (B - o) ++ (whole B crc 0 p).1, (whole B crc 0 p).2) else whole B crc o p

/-- The bytes of some records. -/
def encs (B : Nat) (crc : List Nat → Nat) : Nat → List (List Nat) → List Nat
  | _, [] => []
  | o, p :: ps => (enc B crc o p).1 ++ encs B crc (enc B crc o p).2 ps

end Verif.Wal
