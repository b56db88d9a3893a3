import Verif.Wal.JournalProps

/-! # The journal of the database: examples (C106) -/

namespace Verif.Wal

/-- A checksum for the examples. -/
def sum1 (l : List Nat) : Nat := l.sum + 1

/-- `recover` with a bound on the number of steps, for the examples: the kernel can compute it. -/
def recoverN (B : Nat) (crc : List Nat → Nat) (strict check : Bool) : Nat → Option (List Nat) → RSt → Option (List (List Nat) × Bool)
  | 0, _, _ => none
  | n + 1, acc, s =>
    match nextChunk B crc strict check acc.isNone s with
    | (.ok p last, s') =>
      if last then (recoverN B crc strict check n none s').map fun r => ((acc.getD [] ++ p) :: r.1, r.2) else recoverN B crc strict check n (some (acc.getD [] ++ p)) s'
    | (.skip, s') => recoverN B crc strict check n none s'
    | (.eof, _) => some ([], false)
    | (.fail, _) => some ([], true)

theorem recoverN_eq (B : Nat) (crc : List Nat → Nat) (strict check : Bool) : ∀ (n : Nat) (acc : Option (List Nat)) (s : RSt) (r : List (List Nat) × Bool),
    recoverN B crc strict check n acc s = some r → recover B crc strict check acc s = r
  | 0, _, _, _, h => by simp [recoverN] at h
  | n + 1, acc, s, r, h => by
    rw [recover_eq]
    rw [recoverN] at h
    split at h
    · rename_i hc
      rw [hc]
      dsimp only
      split at h
      · rename_i hl
        rw [if_pos hl]
        rw [Option.map_eq_some_iff] at h
        obtain ⟨r', h1, h2⟩ := h
        rw [recoverN_eq B crc strict check n _ _ _ h1]
        exact h2
      · rename_i hl
        rw [if_neg hl]
        exact recoverN_eq B crc strict check n _ _ _ h
    · rename_i hc
      rw [hc]
      exact recoverN_eq B crc strict check n _ _ _ h
    · rename_i hc
      rw [hc]
      simpa using h
    · rename_i hc
      rw [hc]
      simpa using h

/-- Three records in blocks of 16: one that fits, one over four blocks, written in parts, and an empty one. -/
def recs3 : List (List (List Nat)) := [[[1, 2]], [[3, 4, 5], [], [6, 7, 8, 9, 10, 11, 12, 13, 14, 15, 16, 17, 18, 19, 20, 21]], [[]]]

example : readFile 16 sum1 true true (journal 16 sum1 recs3) = ([[1, 2], (List.range 19).map (· + 3), []], false) := by
  rw [journal_round_trip 16 sum1 true true (by decide)]; decide

/-- Two records that lie in three blocks of 16, byte by byte. -/
def bytes2 : List Nat := header sum1 1 [1, 2] ++ [1, 2] ++ (header sum1 2 [] ++ (header sum1 3 [3, 4, 5, 6, 7, 8, 9, 10, 11] ++ [3, 4, 5, 6, 7, 8, 9, 10, 11] ++ (header sum1 4 [12, 13] ++ [12, 13])))

example : journal 16 sum1 [[[1, 2]], [[3, 4, 5, 6], [7, 8, 9, 10, 11, 12, 13]]] = bytes2 := by
  rw [journal_enc 16 sum1 (by decide)]
  show (enc 16 sum1 0 [1, 2]).1 ++ encs 16 sum1 (enc 16 sum1 0 [1, 2]).2 [[3, 4, 5, 6, 7, 8, 9, 10, 11, 12, 13]] = _
  have h1 : enc 16 sum1 0 [1, 2] = (header sum1 1 [1, 2] ++ [1, 2], 9) := by decide
  have h3 : more 16 sum1 [12, 13] = (header sum1 4 [12, 13] ++ [12, 13], 9) := by rw [more]; decide
  have h2 : more 16 sum1 [3, 4, 5, 6, 7, 8, 9, 10, 11, 12, 13] = (header sum1 3 [3, 4, 5, 6, 7, 8, 9, 10, 11] ++ [3, 4, 5, 6, 7, 8, 9, 10, 11] ++ (more 16 sum1 [12, 13]).1, (more 16 sum1 [12, 13]).2) := by
    rw [more]; rfl
  have h4 : enc 16 sum1 9 [3, 4, 5, 6, 7, 8, 9, 10, 11, 12, 13] = (header sum1 2 [] ++ [] ++ (more 16 sum1 [3, 4, 5, 6, 7, 8, 9, 10, 11, 12, 13]).1, (more 16 sum1 [3, 4, 5, 6, 7, 8, 9, 10, 11, 12, 13]).2) := rfl
  rw [h1]
  dsimp only [encs]
  rw [h4, h2, h3]
  decide

/-- A crash in the second block: the first record is read. -/
example : readFile 16 sum1 false true (bytes2.take 30) = ([[1, 2]], false) := recoverN_eq 16 sum1 false true 9 _ _ _ (by decide +kernel)

/-- A reader that is told to be strict fails on the same file. -/
example : readFile 16 sum1 true true (bytes2.take 30) = ([[1, 2]], true) := recoverN_eq 16 sum1 true true 9 _ _ _ (by decide +kernel)

/-- **What does not hold.** If the beginning of the file is damaged — a block that the system had not written back when it crashed, while later ones were — the records in it are missing and later ones are read all the same: what the database comes up with is not what it was at any time. Here the first block is zeros. -/
theorem journal_hole : ∃ recs : List (List (List Nat)), ∃ damaged : List Nat, damaged.length = (journal 16 sum1 recs).length ∧ damaged.drop 16 = (journal 16 sum1 recs).drop 16 ∧
    readFile 16 sum1 false true damaged = (((recs.drop 1).map List.flatten), false) ∧ 1 < recs.length := by
  refine ⟨[[[1, 2, 3, 4, 5, 6, 7, 8, 9]], [[10]], [[11]]], zeros 16 ++ (header sum1 1 [10] ++ [10] ++ (header sum1 1 [11] ++ [11])), ?_, ?_, ?_, by decide⟩
  · rw [journal_enc 16 sum1 (by decide)]; decide +kernel
  · rw [journal_enc 16 sum1 (by decide)]; decide +kernel
  · exact recoverN_eq 16 sum1 false true 9 _ _ _ (by decide +kernel)

end Verif.Wal
