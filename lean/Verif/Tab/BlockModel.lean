import Mathlib.Order.Basic
import Verif.Store.BatchModel
import Verif.Snap.TimeModel
import Verif.Tactics

/-!
# Blocks of a table: writer, entries and iterator

`common/db/xleveldb/table/writer.go` and `reader.go`.  A block is a list of bytes.  The comparer is
that of a linear order into which keys are mapped (`ord`); for internal keys it is user key and
descending number, for plain keys the order of bytes.
-/

namespace Verif.Tab
open Verif.Bytes Verif.Store

variable {O : Type} [LinearOrder O]

/-! ### Writing -/

/-- `writer.go:23-32` (`sharedPrefixLen`). -/
def shared : Bytes → Bytes → Nat
  | a :: l, b :: m => if a = b then shared l m + 1 else 0
  | _, _ => 0

/-- `binary.LittleEndian.PutUint32`. -/
def put4 (v : Nat) : Bytes :=
  [UInt8.ofNat (v % 256), UInt8.ofNat (v / 256 % 256), UInt8.ofNat (v / 65536 % 256), UInt8.ofNat (v / 16777216 % 256)]

/-- `binary.LittleEndian.Uint32`. -/
def get4 (l : Bytes) : Nat :=
  (l.getD 0 0).toNat + 256 * (l.getD 1 0).toNat + 65536 * (l.getD 2 0).toNat + 16777216 * (l.getD 3 0).toNat

/-- `writer.go:34-41` (`blockWriter`). -/
structure BW where
  interval : Nat
  buf : Bytes
  n : Nat
  prev : Bytes
  restarts : List Nat

/-- A new writer. -/
def BW.new (interval : Nat) : BW := ⟨interval, [], 0, [], []⟩

/-- An entry: the length shared with the key before, the lengths of the rest of the key and of the
value, and both.  `writer.go:50-55`. -/
def encEntry (s : Nat) (e : Bytes × Bytes) : Bytes :=
  uvarint s ++ (uvarint (e.1.length - s) ++ (uvarint e.2.length ++ (e.1.drop s ++ e.2)))

/-- `writer.go:43-58` (`append`). -/
def BW.append (w : BW) (e : Bytes × Bytes) : BW :=
  if w.n % w.interval = 0 then
    { w with restarts := w.restarts ++ [w.buf.length], buf := w.buf ++ encEntry 0 e, prev := e.1, n := w.n + 1 }
  else
    { w with buf := w.buf ++ encEntry (shared w.prev e.1) e, prev := e.1, n := w.n + 1 }

/-- What `finish` leaves in the buffer.  `writer.go:60-71`. -/
def BW.finish (w : BW) : Bytes :=
  let rs := if w.n = 0 then w.restarts ++ [0] else w.restarts
  w.buf ++ ((rs ++ [rs.length]).map put4).flatten

/-- `writer.go:79-85` (`bytesLen`). -/
def BW.bytesLen (w : BW) : Nat :=
  w.buf.length + 4 * (if w.restarts.length = 0 then 1 else w.restarts.length) + 4

/-! ### Reading -/

/-- `reader.go:56-62` (`block`): the bytes, the number of restart points and where they begin. -/
structure Block where
  data : Bytes
  rlen : Nat
  roff : Nat

/-- `reader.go:607-614`, in `readBlock`. -/
def Block.ofBytes (data : Bytes) : Block :=
  let n := get4 (data.drop (data.length - 4))
  ⟨data, n, data.length - (n + 1) * 4⟩

/-- `reader.go:87-89` (`restartOffset`). -/
def Block.restart (b : Block) (i : Nat) : Nat := get4 (b.data.drop (b.roff + 4 * i))

/-- What an entry says. -/
structure Ent where
  suffix : Bytes
  value : Bytes
  shared : Nat
  n : Nat

/-- What is found at an offset: nothing sensible, the end, or an entry. -/
inductive Got where
  | bad
  | stop
  | ent (e : Ent)

/-- `reader.go:91-111` (`entry`).  Lengths of `2^63` and more, which would be negative in the code, are
just too long here. -/
def Block.entry (b : Block) (off : Nat) : Got :=
  if b.roff ≤ off then (if off = b.roff then .stop else .bad)
  else
    match readUvarint 0 0 (b.data.drop off) with
    | none => .bad
    | some (v0, r0) =>
      match readUvarint 0 0 r0 with
      | none => .bad
      | some (v1, r1) =>
        match readUvarint 0 0 r1 with
        | none => .bad
        | some (v2, r2) =>
          if b.roff < off + ((b.data.length - off - r2.length) + v1 + v2) then .bad
          else .ent ⟨r2.take v1, (r2.drop v1).take v2, v0, (b.data.length - off - r2.length) + v1 + v2⟩

/-- The key at a restart point, as `seek` reads it: one byte is passed over.  `reader.go:66-70`. -/
def Block.restartKey (b : Block) (off : Nat) : Bytes :=
  match readUvarint 0 0 (b.data.drop (off + 1)) with
  | none => []
  | some (v1, r1) =>
    match readUvarint 0 0 r1 with
    | none => []
    | some (_, r2) => r2.take v1

/-- `reader.go:64-79` (`seek`): the restart point from which to look for a key, and its offset. -/
def Block.seek (ord : Bytes → O) (b : Block) (rstart rlimit : Nat) (k : Bytes) : Nat × Nat :=
  let s := Snap.search (rlimit - rstart) (fun i => decide (ord k < ord (b.restartKey (b.restart (rstart + i)))))
  let index := if s = 0 then rstart else s + rstart - 1
  (index, b.restart index)

/-- `reader.go:81-85` (`restartIndex`). -/
def Block.restartIndex (b : Block) (rstart rlimit off : Nat) : Nat :=
  Snap.search (rlimit - rstart) (fun i => decide (off < b.restart (rstart + i))) + rstart - 1

/-! ### The iterator -/

/-- `reader.go:119-127`. -/
inductive Dir where
  | soi
  | eoi
  | back
  | fwd
  deriving DecidableEq

/-- `reader.go:129-152` (`blockIter`).  The cache of a backward walk, `prevNode` with `prevKeys`, is a
stack here: the offset of the restart point, and for each entry its key and where its value lies. -/
structure BI where
  key : Bytes
  value : Bytes
  offset : Nat
  prevOffset : Nat
  stack : Option (Nat × List (Bytes × Nat × Nat))
  restartIndex : Nat
  dir : Dir
  riStart : Nat
  riLimit : Nat
  offsetStart : Nat
  offsetRealStart : Nat
  offsetLimit : Nat
  bad : Bool

/-- Take an entry: the key keeps what is shared.  `reader.go:275-276`, `:295-296`. -/
def BI.load (i : BI) (e : Ent) : BI := { i with key := i.key.take e.shared ++ e.suffix, value := e.value }

/-- The outcome of a loop: it failed, or it goes on. -/
inductive Went where
  | fail (i : BI)
  | go (i : BI)

/-- More turns than there are entries. -/
def Block.fuel (b : Block) : Nat := b.data.length + 1

/-- Walk up to where the slice really begins.  `reader.go:265-278`. -/
def BI.skip (b : Block) : Nat → BI → Went
  | 0, i => .fail { i with bad := true }
  | n + 1, i =>
    if i.offset < i.offsetRealStart then
      match b.entry i.offset with
      | .bad => .fail { i with bad := true }
      | .stop => .fail { i with dir := .eoi }
      | .ent e => BI.skip b n { i.load e with offset := i.offset + e.n }
    else .go i

/-- Before a step forward.  `reader.go:258-264`. -/
def BI.enter (i : BI) : BI :=
  if i.dir = .soi then { i with restartIndex := i.riStart, offset := i.offsetStart }
  else if i.dir = .back then { i with stack := none }
  else i

/-- `reader.go:250-301` (`Next`). -/
def BI.next (b : Block) (i : BI) : BI × Bool :=
  if i.dir = .eoi ∨ i.bad = true then (i, false)
  else
    match BI.skip b b.fuel i.enter with
    | .fail i' => (i', false)
    | .go i' =>
      if i'.offsetLimit ≤ i'.offset then
        ({ i' with dir := .eoi, bad := decide (i'.offset ≠ i'.offsetLimit) }, false)
      else
        match b.entry i'.offset with
        | .bad => ({ i' with bad := true }, false)
        | .stop => ({ i' with dir := .eoi }, false)
        | .ent e => ({ i'.load e with prevOffset := i'.offset, offset := i'.offset + e.n, dir := .fwd }, true)

/-- The value to remember: only that of an entry of the slice.  `reader.go:376-386`. -/
def keepVal (realStart off : Nat) (v : Bytes) (val : Option Bytes) : Option Bytes :=
  if realStart ≤ off then some v else val

/-- The entry before goes to the cache, if it is in the slice.  `reader.go:376-385`. -/
def keepStack (realStart off : Nat) (key : Bytes) (val : Option Bytes) (st : List (Bytes × Nat × Nat)) :
    List (Bytes × Nat × Nat) :=
  if realStart ≤ off then
    match val with
    | some v => (key, off - v.length, v.length) :: st
    | none => st
  else st

/-- Walk from a restart point up to the offset of the iterator, keeping the entries of the slice in the
cache.  `reader.go:370-398`.  `val` is the value of the entry before, if it is in the slice. -/
def BI.build (b : Block) (target realStart : Nat) :
    Nat → Nat → Bytes → Option Bytes → List (Bytes × Nat × Nat) →
      Option (Bytes × Option Bytes × List (Bytes × Nat × Nat))
  | 0, _, _, _, _ => none
  | n + 1, off, key, val, st =>
    match b.entry off with
    | .bad => none
    | .stop => none
    | .ent e =>
      if target ≤ off + e.n then
        if off + e.n = target then
          some (key.take e.shared ++ e.suffix, keepVal realStart off e.value val, keepStack realStart off key val st)
        else none
      else
        BI.build b target realStart n (off + e.n) (key.take e.shared ++ e.suffix)
          (keepVal realStart off e.value val) (keepStack realStart off key val st)

/-- The second half of `Prev`: fill the cache from the restart point `ri`, or from the one before when
that is where the iterator is.  `reader.go:357-401`.  The code would add to a cache that was not
emptied; this counts as failure here, and is shown not to happen. -/
def BI.refill (b : Block) (i : BI) (ri : Nat) : BI × Bool :=
  if b.restart ri = i.offset ∧ ri = 0 then ({ i with dir := .soi, key := [], value := [] }, false)
  else
    let r := if b.restart ri = i.offset then ri - 1 else ri
    if i.stack ≠ none then ({ i with bad := true }, false)
    else match BI.build b i.offset i.offsetRealStart b.fuel (b.restart r) [] none [] with
    | none => ({ i with bad := true }, false)
    | some (key, val, st) =>
      ({ i with key := key, value := val.getD [], stack := some (b.restart r, st), restartIndex := r }, true)

/-- `reader.go:303-402` (`Prev`). -/
def BI.prev (b : Block) (i : BI) : BI × Bool :=
  if i.dir = .soi ∨ i.bad = true then (i, false)
  else
    if i.dir = .fwd then
      if i.prevOffset = i.offsetRealStart then ({ i with offset := i.prevOffset, dir := .soi }, false)
      else BI.refill b { i with offset := i.prevOffset, dir := .back }
        (b.restartIndex i.restartIndex i.riLimit i.prevOffset)
    else if i.dir = .eoi then
      if i.offsetLimit = i.offsetRealStart then
        ({ i with restartIndex := i.riLimit, offset := i.offsetLimit, dir := .soi }, false)
      else BI.refill b { i with restartIndex := i.riLimit, offset := i.offsetLimit, dir := .back } (i.riLimit - 1)
    else
      match i.stack with
      | none => ({ i with bad := true }, false)
      | some (o, []) =>
        if i.restartIndex = i.riStart then ({ i with offset := o, stack := none, dir := .soi }, false)
        else BI.refill b { i with offset := o, stack := none, restartIndex := i.restartIndex - 1 } (i.restartIndex - 1)
      | some (o, (k, vo, vl) :: st) =>
        ({ i with key := k, value := (b.data.drop vo).take vl, offset := vo + vl, stack := some (o, st) }, true)

/-- `reader.go:192-206` (`First`). -/
def BI.first (b : Block) (i : BI) : BI × Bool :=
  if i.bad = true then (i, false)
  else BI.next b { i with stack := if i.dir = .back then none else i.stack, dir := .soi }

/-- `reader.go:208-222` (`Last`). -/
def BI.last (b : Block) (i : BI) : BI × Bool :=
  if i.bad = true then (i, false)
  else BI.prev b { i with stack := if i.dir = .back then none else i.stack, dir := .eoi }

/-- The loop of `Seek`.  `reader.go:242-247`. -/
def BI.seekLoop (ord : Bytes → O) (b : Block) (k : Bytes) : Nat → BI → BI × Bool
  | 0, i => ({ i with bad := true }, false)
  | n + 1, i =>
    if (BI.next b i).2 = true then
      if ord (BI.next b i).1.key < ord k then BI.seekLoop ord b k n (BI.next b i).1 else ((BI.next b i).1, true)
    else ((BI.next b i).1, false)

/-- `reader.go:224-248` (`Seek`). -/
def BI.seek (ord : Bytes → O) (b : Block) (i : BI) (k : Bytes) : BI × Bool :=
  if i.bad = true then (i, false)
  else
    let s := b.seek ord i.riStart i.riLimit k
    BI.seekLoop ord b k b.fuel
      { i with restartIndex := s.1, offset := max i.offsetStart s.2,
               dir := if i.dir = .soi ∨ i.dir = .eoi then .fwd else i.dir }

/-- `reader.go:404-416` (`Key`, `Value`): what the iterator shows. -/
def BI.shows (i : BI) : Option (Bytes × Bytes) :=
  if i.bad = true ∨ i.dir = .soi ∨ i.dir = .eoi then none else some (i.key, i.value)

/-- An iterator over the whole block.  `reader.go:725-737`. -/
def BI.whole (b : Block) : BI :=
  ⟨[], [], 0, 0, none, 0, .soi, 0, b.rlen, 0, 0, b.roff, false⟩

/-- `reader.go:162-172` (`reset`). -/
def BI.reset (i : BI) : BI :=
  { i with stack := if i.dir = .back then none else i.stack, restartIndex := i.riStart,
           offset := i.offsetStart, dir := .soi, key := [], value := [] }

/-- The lower end of a slice.  `reader.go:739-749`. -/
def BI.cutStart (ord : Bytes → O) (b : Block) (i : BI) (start : Bytes) : BI :=
  let r := i.seek ord b start
  if r.2 = true then
    { r.1 with
      riStart := b.restartIndex r.1.restartIndex b.rlen r.1.prevOffset
      offsetStart := b.restart (b.restartIndex r.1.restartIndex b.rlen r.1.prevOffset)
      offsetRealStart := r.1.prevOffset }
  else { r.1 with riStart := b.rlen, offsetStart := b.roff, offsetRealStart := b.roff }

/-- The upper end of a slice.  `reader.go:750-755`. -/
def BI.cutLimit (ord : Bytes → O) (b : Block) (i : BI) (limit : Bytes) (incl : Bool) : BI :=
  let r := i.seek ord b limit
  if r.2 = true then
    if incl then
      let r' := BI.next b r.1
      if r'.2 = true then { r'.1 with offsetLimit := r'.1.prevOffset, riLimit := r'.1.restartIndex + 1 } else r'.1
    else { r.1 with offsetLimit := r.1.prevOffset, riLimit := r.1.restartIndex + 1 }
  else r.1

/-- The lower end, if there is one.  `reader.go:739`. -/
def BI.cutStart? (ord : Bytes → O) (b : Block) (i : BI) : Option Bytes → BI
  | some s => i.cutStart ord b s
  | none => i

/-- The upper end, if there is one.  `reader.go:750`. -/
def BI.cutLimit? (ord : Bytes → O) (b : Block) (i : BI) (incl : Bool) : Option Bytes → BI
  | some l => i.cutLimit ord b l incl
  | none => i

/-- The check at the end.  `reader.go:757-759`. -/
def BI.checked (i : BI) : BI := { i with bad := i.bad || decide (i.offsetLimit < i.offsetStart) }

/-- `reader.go:724-762` (`newBlockIter`) with a slice. -/
def BI.slice (ord : Bytes → O) (b : Block) (start limit : Option Bytes) (incl : Bool) : BI :=
  ((((BI.whole b).cutStart? ord b start).cutLimit? ord b incl limit).reset).checked

end Verif.Tab
