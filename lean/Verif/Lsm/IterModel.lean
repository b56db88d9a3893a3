import Verif.Lsm.Model

/-!
# The iterator of the levelled database

Models `/repo/common/db/xleveldb/db_iter.go` (`dbIter`): First, Last, Seek, Next and Prev over the
merged entries of the memory tables and the levels.

The merged iterator underneath is a place in the sorted list of all entries.  The tables on disk
are pinned by the iterator; the memory tables are shared with the writers, so entries may come in
while the iterator is open (`grow`).
-/

namespace Verif.Lsm

/-- The place of the merged iterator: before the first entry, at an entry (with those before it,
nearest first, and those after it), or after the last.
`common/db/xleveldb/iterator/merged_iter.go:30-300` (`dirSOI`, `dirEOI` and the rest). -/
inductive Raw (K V : Type) where
  | soi
  | cur (l : List (Entry K V)) (c : Entry K V) (r : List (Entry K V))
  | eoi
  deriving DecidableEq

/-- Where the iterator has been left.  `common/db/xleveldb/iterator/merged_iter.go:20-28` and
`db_iter.go:167-182` (`dir`). -/
inductive Dir where
  | soi
  | eoi
  | fwd
  | bwd
  deriving DecidableEq

/-- The iterator.  `common/db/xleveldb/db_iter.go:163-182` (`dbIter`). -/
structure It (K V : Type) where
  es : List (Entry K V)
  seq : Nat
  raw : Raw K V
  dir : Dir
  key : Option K
  value : Option V
  deriving DecidableEq

/-- A new iterator over some entries, reading at a number.
`common/db/xleveldb/db_iter.go:69-93` (`newIterator`). -/
def It.fresh {K V : Type} (es : List (Entry K V)) (s : Nat) : It K V :=
  { es := es, seq := s, raw := .soi, dir := .soi, key := none, value := none }

variable {K V : Type} [LinearOrder K]

/-- One place on.  `common/db/xleveldb/iterator/merged_iter.go` (`Next`). -/
def Raw.next (es : List (Entry K V)) : Raw K V → Raw K V
  | .soi => match es with
    | [] => .eoi
    | c :: r => .cur [] c r
  | .cur l c r => match r with
    | [] => .eoi
    | c' :: r' => .cur (c :: l) c' r'
  | .eoi => .eoi

/-- The loop of `next`: from an entry on, the first that is not too new, is no deletion and is not
of a key already dealt with; `bound` is the key dealt with (`none`: `dir == dirSOI`).
`common/db/xleveldb/db_iter.go:260-290` (`next`). -/
def nextLoop (s : Nat) : List (Entry K V) → Entry K V → List (Entry K V) → Option K →
    Option (List (Entry K V) × Entry K V × List (Entry K V))
  | l, c, r, bound =>
    if c.seq ≤ s ∧ c.val.isSome ∧ (∀ k ∈ bound, k < c.key) then some (l, c, r)
    else
      match r with
      | [] => none
      | c' :: r' => nextLoop s (c :: l) c' r' (if c.seq ≤ s ∧ c.val.isNone then some c.key else bound)
termination_by structural _ _ r _ => r

/-- Take the outcome of the loop of `next`.  `common/db/xleveldb/db_iter.go:260-290` (`next`). -/
def It.toNext (i : It K V) :
    Option (List (Entry K V) × Entry K V × List (Entry K V)) → It K V
  | some (l, c, r) => { i with raw := .cur l c r, dir := .fwd, key := some c.key, value := c.val }
  | none => { i with raw := .eoi, dir := .eoi }

/-- Start the loop of `next` at the place reached, if there is an entry.
`common/db/xleveldb/db_iter.go:209-224, 242-258, 292-306`. -/
def It.nextFrom (i : It K V) (raw : Raw K V) (bound : Option K) : It K V :=
  match raw with
  | .cur l c r => i.toNext (nextLoop i.seq l c r bound)
  | _ => { i with raw := .eoi, dir := .eoi }

/-- `common/db/xleveldb/db_iter.go:209-224` (`First`). -/
def It.first (i : It K V) : It K V := i.nextFrom (Raw.next i.es .soi) none

/-- `common/db/xleveldb/db_iter.go:242-258` (`Seek`). -/
def It.seek (i : It K V) (k : K) : It K V :=
  match i.es.dropWhile (fun e => !reached k i.seq e) with
  | [] => { i with raw := .eoi, dir := .eoi }
  | c :: r => i.nextFrom (.cur (i.es.takeWhile (fun e => !reached k i.seq e)).reverse c r) none

/-- `common/db/xleveldb/db_iter.go:292-306` (`Next`). -/
def It.next (i : It K V) : It K V :=
  match i.dir with
  | .eoi => i
  | .soi => i.nextFrom (Raw.next i.es i.raw) none
  | .fwd => i.nextFrom (Raw.next i.es i.raw) i.key
  | .bwd => i.nextFrom (Raw.next i.es (Raw.next i.es i.raw)) i.key

/-- The loop of `prev`, over the entries from the present one backwards (`m`) with those behind it
(`r`); `best` is the key and value noted, none while `del` is set.  It ends at the entry of a
smaller key, or before the first.  `common/db/xleveldb/db_iter.go:308-340` (`prev`). -/
def prevLoop (s : Nat) : List (Entry K V) → List (Entry K V) → Option (K × V) →
    Raw K V × Option (K × V)
  | [], _, best => (.soi, best)
  | c :: l, r, best =>
    if c.seq ≤ s then
      match best with
      | some (k, v) =>
        if c.key < k then (.cur l c r, some (k, v))
        else prevLoop s l (c :: r) (c.val.map (fun v => (c.key, v)))
      | none => prevLoop s l (c :: r) (c.val.map (fun v => (c.key, v)))
    else prevLoop s l (c :: r) best

/-- Run the loop of `prev` and take its outcome.  `common/db/xleveldb/db_iter.go:308-340`. -/
def It.prevFrom (i : It K V) (m r : List (Entry K V)) : It K V :=
  match prevLoop i.seq m r none with
  | (raw, some (k, v)) => { i with raw := raw, dir := .bwd, key := some k, value := some v }
  | (raw, none) => { i with raw := raw, dir := .soi }

/-- `common/db/xleveldb/db_iter.go:226-240` (`Last`). -/
def It.last (i : It K V) : It K V := i.prevFrom i.es.reverse []

/-- Step back from an entry to one of a smaller key: the entries from there backwards, and those
passed.  `common/db/xleveldb/db_iter.go:353-366`. -/
def backTo (k : K) : List (Entry K V) → List (Entry K V) → List (Entry K V) × List (Entry K V)
  | [], r => ([], r)
  | c :: l, r => if c.key < k then (c :: l, r) else backTo k l (c :: r)

/-- `common/db/xleveldb/db_iter.go:342-372` (`Prev`).  Where nothing is left to step back to, the
iterator is before the first entry, as `prevFrom` with no entries leaves it. -/
def It.prev (i : It K V) : It K V :=
  match i.dir with
  | .soi => i
  | .eoi => i.last
  | .fwd =>
    match i.raw, i.key with
    | .cur l c r, some k =>
      let b := backTo k l (c :: r)
      i.prevFrom b.1 b.2
    | _, _ => i
  | .bwd =>
    match i.raw with
    | .cur l c r => i.prevFrom (c :: l) r
    | _ => i.prevFrom [] i.es

/-- An entry comes into a memory table under the iterator.
`common/db/xleveldb/memdb/memdb.go:350-399` (`Put`), with `db_iter.go:54-60`: the iterator reads
the memory table itself, not a copy. -/
def It.grow (i : It K V) (e : Entry K V) : It K V :=
  { i with
    es := insert e i.es
    raw := match i.raw with
      | .cur l c r =>
        if prior e c then .cur (insert e l.reverse).reverse c r else .cur l c (insert e r)
      | raw => raw }

/-- What the caller sees.  `common/db/xleveldb/db_iter.go:205-207, 374-386` (`Valid`, `Key`,
`Value`). -/
def It.at (i : It K V) : Option (K × V) :=
  match i.dir with
  | .fwd | .bwd => i.key.bind (fun k => i.value.map (fun v => (k, v)))
  | _ => none

/-- Calls on an iterator, and writers coming in between. -/
inductive Call (K V : Type) where
  | first
  | last
  | seek (k : K)
  | next
  | prev
  | grow (e : Entry K V)

/-- One call.  `common/db/xleveldb/db_iter.go:205-372`. -/
def It.call (i : It K V) : Call K V → It K V
  | .first => i.first
  | .last => i.last
  | .seek k => i.seek k
  | .next => i.next
  | .prev => i.prev
  | .grow e => i.grow e

/-- What the caller sees after each of the calls in turn.  `common/db/xleveldb/db_iter.go`. -/
def It.calls (i : It K V) : List (Call K V) → List (Option (K × V))
  | [] => []
  | c :: cs => (i.call c).at :: (i.call c).calls cs

/-- All entries of a database in order: what an iterator made now runs through.
`common/db/xleveldb/db_iter.go:37-67` (`newRawIterator`). -/
def Db.entries (d : Db K V) : List (Entry K V) :=
  sortBy (fun a b => prior a b || decide (a.key = b.key ∧ a.seq = b.seq))
    (d.mem ++ d.frozen.getD [] ++ ((List.range d.depth).flatMap d.lev).flatMap (·.es))

end Verif.Lsm
