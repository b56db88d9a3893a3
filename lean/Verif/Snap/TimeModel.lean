import Verif.Consensus.SlotModel

/-!
# Snapshot blocks by time

Models `GetSnapshotHeaderBeforeTime`, `GetSnapshotHeadersAfterOrEqualTime` and `binarySearchBeforeTime` of `ledger/chain/snapshot_block.go`, and
`sort.Search` of the Go library.

Simplifications: the chain does not change during a query and reads of single headers do not fail, so that a header is found exactly for
heights from 1 to the height of the latest. Times are nanoseconds as in `UnixNano`.
-/

namespace Verif.Snap
open Verif.Consensus (Addr)

/-- A hash. -/
abbrev Hash := Nat

/-- `SnapshotBlock`, `interfaces/core/snapshot_block.go:120-140`. The signature is left out; `producer` is the address of the public key. -/
structure Snap where
  hash : Hash
  prev : Hash
  height : Nat
  /-- nanoseconds -/
  time : Int
  seed : Nat
  seedHash : Option Hash
  producer : Addr
  /-- account, height and hash -/
  content : List (Addr × Nat × Hash)
  deriving DecidableEq, Repr

/-- A chain, the oldest block first. -/
abbrev Chain := List Snap

/-- `GetSnapshotHeaderByHeight`, `snapshot_block.go:80-115` -/
def headerAt (c : Chain) (h : Nat) : Option Snap := if h = 0 then none else c[h - 1]?

/-- `Time.Unix()` -/
def unix (t : Int) : Int := t / 1000000000

/-- `sort.Search`: the loop, `sort/search.go:59-75`; `n` bounds its steps -/
def searchGo (f : Nat → Bool) : Nat → Nat → Nat → Nat
  | 0, i, _ => i
  | n + 1, i, j =>
    if i < j then
      let h := (i + j) / 2
      if f h then searchGo f n i h else searchGo f n (h + 1) j
    else i

/-- `sort.Search(n, f)` -/
def search (n : Nat) (f : Nat → Bool) : Nat := searchGo f n 0 n

/-- The result of a query: a header or none, or an error. -/
inductive Res where
  | found (b : Option Snap)
  | err
  deriving DecidableEq, Repr

/-- `binarySearchBeforeTime`, `snapshot_block.go:786-823`. A missing header makes the test true and the result an error; within a chain none is
missing. -/
def binarySearch (c : Chain) (s e : Snap) (t : Int) : Res :=
  let n := e.height - s.height + 1
  if (List.range n).any (fun i => (headerAt c (s.height + i)).isNone) then .err
  else
    let i := search n (fun i => match headerAt c (s.height + i) with | some b => decide (b.time ≥ t) | none => true)
    if i ≥ n then .found none else .found (headerAt c (s.height + i - 1))

/-- The state of the loop: the estimate and the boundaries found. -/
structure Probe where
  est : Nat
  low : Option Snap
  high : Option Snap
  deriving DecidableEq, Repr

/-- One turn of the loop, `snapshot_block.go:331-368`. `none` is an error; the flag says that it breaks out. -/
def probeStep (c : Chain) (genesis latest : Snap) (t : Int) (p : Probe) : Option (Probe × Bool) :=
  match headerAt c p.est with
  | none => none
  | some b =>
    if b.time ≥ t then
      let gap := let g := (unix b.time - unix t).toNat; if g = 0 then 1 else g
      if b.height ≤ gap then some (⟨p.est, some genesis, some b⟩, true)
      else some (⟨b.height - gap, p.low, some b⟩, false)
    else
      let est := b.height + (unix t - unix b.time).toNat
      some (⟨est, some b, if est > latest.height then some latest else p.high⟩, false)

/-- The loop, for at most `fuel` turns; `none` if it is still running then. -/
def probe (c : Chain) (genesis latest : Snap) (t : Int) : Nat → Probe → Option (Option (Snap × Snap))
  | 0, _ => none
  | fuel + 1, p =>
    match p.low, p.high with
    | some l, some h => some (some (l, h))
    | _, _ =>
      match probeStep c genesis latest t p with
      | none => some none
      | some (⟨_, some l, some h⟩, true) => some (some (l, h))
      | some (p', _) => probe c genesis latest t fuel p'

/-- `GetSnapshotHeaderBeforeTime`, `snapshot_block.go:307-381`; `none` if the loop is still running after `fuel` turns. -/
def headerBefore (c : Chain) (t : Int) (fuel : Nat) : Option Res :=
  match c.head?, c.getLast? with
  | some genesis, some latest =>
    if genesis.time ≥ t then some (.found none)
    else if latest.time < t then some (.found (some latest))
    else
      let gap := (unix latest.time - unix t).toNat
      let est := if latest.height > gap then latest.height - gap else 1
      match probe c genesis latest t fuel ⟨est, none, none⟩ with
      | none => none
      | some none => some .err
      | some (some (l, h)) => if h.height = l.height + 1 then some (.found (some l)) else some (binarySearch c l h t)
  | _, _ => some .err

/-- `GetSnapshotHeaders(hash, false, count)`: the block and those below it, at most `count`, the highest first. `snapshot_block.go:218-230,749-784`,
`index/snapshot_block.go:96-134` -/
def headersDown (c : Chain) (height count : Nat) : List Snap :=
  let start := if height ≤ count then 1 else height - count + 1
  ((c.take height).drop (start - 1)).reverse

/-- `GetSnapshotHeadersAfterOrEqualTime`, `snapshot_block.go:383-417`. With a producer the loop appends nothing: `result = append(result)`. -/
def headersFrom (c : Chain) (endHeight : Nat) (t : Int) (producer : Option Addr) (fuel : Nat) : Option (Option (List Snap)) :=
  match headerBefore c t fuel, c.head? with
  | none, _ => none
  | some .err, _ => some none
  | some (.found _), none => some none
  | some (.found b), some genesis =>
    let start := b.getD genesis
    if start.height ≥ endHeight then some (some [])
    else
      match producer with
      | none => some (some (headersDown c endHeight (endHeight - start.height)))
      | some _ => some (some [])

end Verif.Snap
