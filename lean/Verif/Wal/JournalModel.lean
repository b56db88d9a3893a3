import Verif.Tactics

/-!
# The journal of the database

Models `common/db/xleveldb/journal/journal.go`: the writer and the reader of the file that holds the writes that are not yet in tables. Bytes are numbers. The size of a block is a parameter `B` (32768 in the code, `:98`), the size of a header 7 (`:99`).
The checksum is any function `crc` of the type and the payload, of which the header keeps 32 bits (`util.NewCRC(..).Value()`, a `uint32`). Errors of the file system are not modelled. -/

namespace Verif.Wal

/-- Bytes of zero. -/
def zeros (n : Nat) : List Nat := List.replicate n 0

/-- `binary.LittleEndian.PutUint16` and `PutUint32`. -/
def le2 (v : Nat) : List Nat := [v % 256, v / 256 % 256]
def le4 (v : Nat) : List Nat := [v % 256, v / 256 % 256, v / 65536 % 256, v / 16777216 % 256]

/-- What `fillHeader` puts before a payload (`journal.go:351-369`): checksum of type and payload, length, type. -/
def header (crc : List Nat → Nat) (ty : Nat) (p : List Nat) : List Nat := le4 (crc (ty :: p) % 2 ^ 32) ++ le2 (p.length % 2 ^ 16) ++ [ty]

/-- `Writer` (`journal.go:317-338`): `file` is what was written to `w`; `buf` is `buf[:j]`. The seven bytes that are kept free for a header are zero here until they are filled, while the code has old bytes there, which are not written either. -/
structure WSt where
  file : List Nat := []
  buf : List Nat := []
  i : Nat := 0
  written : Nat := 0
  first : Bool := false
  pending : Bool := false
deriving DecidableEq, Repr

/-- `fillHeader` (`journal.go:351-369`). -/
def fillHeader (crc : List Nat → Nat) (last : Bool) (w : WSt) : WSt :=
  let ty := if last then (if w.first then 1 else 4) else (if w.first then 2 else 3)
  { w with buf := w.buf.take w.i ++ header crc ty (w.buf.drop (w.i + 7)) ++ w.buf.drop (w.i + 7) }

/-- `writeBlock` (`journal.go:373-378`). -/
def writeBlock (w : WSt) : WSt := { w with file := w.file ++ w.buf.drop w.written, i := 0, buf := zeros 7, written := 0 }

/-- `Flush` (`journal.go:382-392`, `:408-419`); `Close` writes the same (`:395-403`). -/
def flush (crc : List Nat → Nat) (w : WSt) : WSt :=
  let w1 := if w.pending then { fillHeader crc true w with pending := false } else w
  { w1 with file := w1.file ++ w1.buf.drop w1.written, written := w1.buf.length }

/-- `Next` of the writer (`journal.go:443-468`). -/
def next (B : Nat) (crc : List Nat → Nat) (w : WSt) : WSt :=
  let w1 := if w.pending then fillHeader crc true w else w
  let w2 := if w1.buf.length + 7 > B then writeBlock { w1 with buf := w1.buf ++ zeros (B - w1.buf.length), i := w1.buf.length } else { w1 with buf := w1.buf ++ zeros 7, i := w1.buf.length }
  { w2 with first := true, pending := true }

/-- The block that is written when there is more to write and no room (`journal.go:486-494`). -/
def roll (B : Nat) (crc : List Nat → Nat) (w : WSt) : WSt :=
  if w.buf.length = B then { writeBlock (fillHeader crc false w) with first := false } else w

/-- `Write` (`journal.go:476-502`). That a step copies nothing does not happen (`B > 7`); the code would not end then. -/
def write (B : Nat) (crc : List Nat → Nat) (p : List Nat) (w : WSt) : WSt :=
  if p.length = 0 then w
  else
    if min (B - (roll B crc w).buf.length) p.length = 0 then roll B crc w
    else write B crc (p.drop (min (B - (roll B crc w).buf.length) p.length)) { roll B crc w with buf := (roll B crc w).buf ++ p.take (min (B - (roll B crc w).buf.length) p.length) }
termination_by p.length
decreasing_by simp only [List.length_drop]; omega

/-- A record, written in any number of parts, and flushed, as `writeJournal` does (`common/db/xleveldb/db_write.go:18-33`) and the writer of the manifest (`session_util.go:205-255`). -/
def putRec (B : Nat) (crc : List Nat → Nat) (w : WSt) (parts : List (List Nat)) : WSt :=
  flush crc (parts.foldl (fun w p => write B crc p w) (next B crc w))

/-- The file after some records. -/
def journal (B : Nat) (crc : List Nat → Nat) (recs : List (List (List Nat))) : List Nat := (recs.foldl (putRec B crc) {}).file

/-- `Reader` (`journal.go:123-146`): `blk` is `buf[j:n]`, `n` the size of the block, `rest` what was not read yet. -/
structure RSt where
  blk : List Nat
  n : Nat
  rest : List Nat
deriving DecidableEq, Repr

/-- What `nextChunk` gives: a payload and whether it ends its record, `errSkip`, `io.EOF`, or an error. -/
inductive Res where
  | ok (p : List Nat) (last : Bool)
  | skip
  | eof
  | fail
deriving DecidableEq, Repr

/-- `corrupt` (`journal.go:163-172`). -/
def corrupt (strict skip : Bool) : Res := if strict && !skip then .fail else .skip

/-- `binary.LittleEndian.Uint16` and `Uint32`. -/
def un2 (l : List Nat) : Nat := l.getD 0 0 + 256 * l.getD 1 0
def un4 (l : List Nat) : Nat := l.getD 0 0 + 256 * l.getD 1 0 + 65536 * l.getD 2 0 + 16777216 * l.getD 3 0

/-- The part of `nextChunk` that takes a chunk from the block (`journal.go:178-213`). -/
def inBlock (crc : List Nat → Nat) (strict check first : Bool) (s : RSt) : Res × RSt :=
  let sum := un4 s.blk
  let len := un2 (s.blk.drop 4)
  let ty := s.blk.getD 6 0
  let gone : RSt := { s with blk := [] }
  if sum = 0 ∧ len = 0 ∧ ty = 0 then (corrupt strict false, gone)
  else if ty < 1 ∨ ty > 4 then (corrupt strict false, gone)
  else if 7 + len > s.blk.length then (corrupt strict false, gone)
  else if check ∧ sum ≠ crc (ty :: (s.blk.drop 7).take len) % 2 ^ 32 then (corrupt strict false, gone)
  else if first ∧ ty ≠ 1 ∧ ty ≠ 2 then (corrupt strict true, { s with blk := s.blk.drop (7 + len) })
  else (.ok ((s.blk.drop 7).take len) (decide (ty = 1 ∨ ty = 4)), { s with blk := s.blk.drop (7 + len) })

/-- The end of the file (`journal.go:217-223`, `:230-236`). -/
def atEnd (strict first : Bool) : Res := if first then .eof else corrupt strict false

/-- `nextChunk` (`journal.go:176-239`). -/
def nextChunk (B : Nat) (crc : List Nat → Nat) (strict check first : Bool) (s : RSt) : Res × RSt :=
  if 7 ≤ s.blk.length then inBlock crc strict check first s
  else if s.n < B ∧ 0 < s.n then (atEnd strict first, s)
  else
    let b := s.rest.take B
    if b.length = 0 then (atEnd strict first, s)
    else
      let s1 : RSt := ⟨b, b.length, s.rest.drop B⟩
      if 7 ≤ b.length then inBlock crc strict check first s1 else (atEnd strict first, s1)

/-- What is left to read. -/
def RSt.size (s : RSt) : Nat := s.blk.length + s.rest.length

theorem inBlock_size (crc : List Nat → Nat) (strict check first : Bool) (s : RSt) (h : 7 ≤ s.blk.length) : (inBlock crc strict check first s).2.size < s.size := by
  unfold inBlock RSt.size
  dsimp only
  split_ifs <;> simp only [List.length_nil, List.length_drop] <;> omega

theorem nextChunk_size (B : Nat) (crc : List Nat → Nat) (strict check first : Bool) (s : RSt) :
    (nextChunk B crc strict check first s).2.size < s.size ∨
    (nextChunk B crc strict check first s).2.size ≤ s.size ∧ (nextChunk B crc strict check first s).1 = atEnd strict first := by
  unfold nextChunk
  split
  · rename_i h; exact .inl (inBlock_size _ _ _ _ _ h)
  · split
    · exact .inr ⟨le_refl _, rfl⟩
    · dsimp only
      have hsz : (⟨s.rest.take B, (s.rest.take B).length, s.rest.drop B⟩ : RSt).size ≤ s.size := by
        unfold RSt.size; simp only [List.length_take, List.length_drop]; omega
      split
      · exact .inr ⟨le_refl _, rfl⟩
      · split
        · exact .inl (Nat.lt_of_lt_of_le (inBlock_size _ _ _ _ _ (by assumption)) hsz)
        · exact .inr ⟨hsz, rfl⟩

/-- Reading all records as the database does at its start (`common/db/xleveldb/db.go:551-573`): `Next` (`journal.go:245-260`), then the reader of the record to its end (`:284-310`). `acc` is `none` between records, else what was read of the one under way.
A record that turns out to be damaged is passed over when `strict` is off (`db.go:563-566`). The result also says whether the reading failed. -/
def recover (B : Nat) (crc : List Nat → Nat) (strict check : Bool) (acc : Option (List Nat)) (s : RSt) : List (List Nat) × Bool :=
  match hr : nextChunk B crc strict check acc.isNone s with
  | (.ok p last, s') =>
    if last then
      let r := recover B crc strict check none s'
      ((acc.getD [] ++ p) :: r.1, r.2)
    else recover B crc strict check (some (acc.getD [] ++ p)) s'
  | (.skip, s') => recover B crc strict check none s'
  | (.eof, _) => ([], false)
  | (.fail, _) => ([], true)
termination_by 2 * s.size + (if acc.isSome then 1 else 0)
decreasing_by
  all_goals
    have h := nextChunk_size B crc strict check acc.isNone s
    rw [hr] at h
    dsimp only [atEnd, corrupt] at h
    cases acc <;> cases strict <;> simp at h ⊢ <;> omega

/-- Opening a file and reading its records (`journal.go:151-159`). -/
def readFile (B : Nat) (crc : List Nat → Nat) (strict check : Bool) (file : List Nat) : List (List Nat) × Bool :=
  recover B crc strict check none ⟨[], 0, file⟩

end Verif.Wal
