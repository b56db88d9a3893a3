import Verif.Base.Table
import Mathlib.Algebra.Group.Prod
import Mathlib.Algebra.BigOperators.Group.List.Basic

/-!
# Model of the cache of used quota

Source: `/repo/ledger/chain/cache/quota_list.go`, and the calls of it in `cache/account_block.go`, `cache/snapshot_block.go`,
`cache/init.go`, `ledger/chain/insert.go`, `ledger/chain/delete.go`.

The cache is a doubly linked list. Each element is a map from addresses to the quota used in one snapshot; the last element is
for the blocks not yet in a snapshot. `usedStart` is a pointer to the element where the window of 75 begins.

Simplifications.
* Counters are integers; the code's are `uint64`, so they are these modulo 2^64.
* The disk always answers, and what it answers is the ledger.
* `backElement` is always the map of the last element of the list (in Go they are the same map), so it is not a field.
* `Rollback` of 600 chunks or more (quota_list.go:204-205) is left out: at most 120 snapshots are deleted at once
  (delete.go:39-54).
* Before `Init` (while the genesis blocks are written) nothing is recorded: histories begin with `restart`.
* Which blocks are deleted, confirmed or found invalid is arbitrary.
-/

namespace Verif.Chain

/-- `types.QuotaInfo`: number of blocks, `QuotaTotal`, `QuotaUsedTotal`. -/
abbrev Info := Int × Int × Int

/-- What the cache reads of an account block. -/
structure Blk where
  hash : Nat
  addr : Nat
  quota : Nat
  used : Nat
  deriving DecidableEq, Repr

def Blk.info (b : Blk) : Info := (1, b.quota, b.used)

/-- The map of one element. -/
abbrev QMap := Table Nat Info

/-- `add`: quota_list.go:364-373. The same is written out in quota_list.go:128-138, 168-178, 276-290, 309-322. -/
def addTo (m : QMap) (b : Blk) : QMap := Table.put b.addr ((Table.get b.addr m).getD 0 + b.info) m

/-- The map of a list of blocks. -/
def mapOf (bs : List Blk) : QMap := bs.foldl addTo []

/-- `sub` for one block: quota_list.go:375-389. -/
def subFrom (m : QMap) (b : Blk) : QMap :=
  match Table.get b.addr m with
  | none => m
  | some q => if q.1 ≤ 1 then Table.del b.addr m else Table.put b.addr (q - b.info) m

/-- `aggregate`: quota_list.go:422-429. -/
def agg (m : QMap) : Info := (m.map (·.2)).sum

/-- The pointer `usedStart`: `nil`, an element of the list (counted from the front), or one that was removed from the list.
An element that was removed has no next one (`container/list`). -/
inductive Ptr
  | nil
  | at (i : Nat)
  | gone (m : QMap)
  deriving DecidableEq, Repr

/-- `quotaList`: quota_list.go:19-35. -/
structure QL where
  items : List QMap
  start : Ptr
  global : Info
  deriving DecidableEq, Repr

/-- `usedAccumulateHeight`, `listMaxLength`: quota_list.go:44-45. -/
def windowLen : Nat := 75
def listMax : Nat := 600

/-- The elements from `usedStart` on. -/
def QL.seen (q : QL) : List QMap :=
  match q.start with
  | .nil => []
  | .at i => q.items.drop i
  | .gone m => [m]

/-- `GetQuotaUsedList`: quota_list.go:75-98. -/
def QL.usedList (q : QL) (a : Nat) : List Info := q.seen.map (fun m => (Table.get a m).getD 0)

/-- `backElement`. -/
def QL.back (q : QL) : QMap := q.items.getLastD []

/-- `GetGlobalQuota`: quota_list.go:64-73. -/
def QL.globalQuota (q : QL) : Info := q.global - agg q.back

/-- `Add`: quota_list.go:100-109. -/
def QL.add (q : QL) (b : Blk) : QL :=
  { q with items := q.items.dropLast ++ [addTo q.back b], global := q.global + b.info }

/-- `Sub`: quota_list.go:111-120. -/
def QL.sub (q : QL) (b : Blk) : QL :=
  { q with items := q.items.dropLast ++ [subFrom q.back b], global := q.global - b.info }

/-- `list.Remove(list.Back())` -/
def QL.removeBack (q : QL) : QL :=
  { q with
    items := q.items.dropLast
    start := match q.start with
      | .at i => if i + 1 = q.items.length then .gone q.back else .at i
      | p => p }

/-- `list.Remove(list.Front())` -/
def QL.removeFront (q : QL) : QL :=
  { q with
    items := q.items.tail
    start := match q.start with
      | .at 0 => .gone (q.items.headD [])
      | .at (i + 1) => .at i
      | p => p }

/-- `usedStart.Value` -/
def QL.startMap (q : QL) : QMap := q.seen.headD []

/-- `usedStart = usedStart.Next()` -/
def QL.advance (q : QL) : QL :=
  { q with start := match q.start with
      | .at i => if i + 1 < q.items.length then .at (i + 1) else .nil
      | _ => .nil }

/-- `moveNext`: quota_list.go:331-362. -/
def QL.moveNext (q : QL) (m : QMap) : QL :=
  let q1 := { q with
    items := q.items ++ [m]
    start := if q.start = .nil then .at q.items.length else q.start }
  if q1.items.length ≤ windowLen then q1
  else
    let q2 := QL.advance { q1 with global := q1.global - agg q1.startMap }
    if listMax < q2.items.length then q2.removeFront else q2

/-- `ResetUnconfirmedQuotas`: quota_list.go:122-159. -/
def QL.reset (q : QL) (unconfirmed : List Blk) : QL :=
  let q' := { q with global := q.global - agg q.back + agg (mapOf unconfirmed) }.removeBack
  { q' with items := q'.items ++ [mapOf unconfirmed] }

/-- The blocks of a new snapshot leave the last map; `none` is a panic: quota_list.go:168-187. -/
def confirm : QMap → List Blk → Option QMap
  | m, [] => some m
  | m, b :: bs => if (Table.get b.addr m).isNone then none else confirm (subFrom m b) bs

/-- `NewNext`: quota_list.go:161-191. -/
def QL.newNext (q : QL) (confirmed : List Blk) : Option QL :=
  (confirm q.back confirmed).map (fun m =>
    QL.moveNext { q with items := q.items.dropLast ++ [mapOf confirmed] } m)

/-- The deferred part of `build`, with `resetUsedStart` and `calculateGlobalUsed`: quota_list.go:221-234, 391-420. -/
def QL.finish (q : QL) : QL :=
  if q.items = [] then q
  else { q with start := .at (q.items.length - windowLen), global := ((q.items.drop (q.items.length - windowLen)).map agg).sum }

/-- `build`: quota_list.go:220-329. `snaps` is the ledger: the blocks of each snapshot, the genesis first (height 1). The first
segment that the chain returns is the snapshot block `startSbHeight` without its account blocks, the last one is
`endSbHeight` (block_db.go:202-273). -/
def QL.build (q : QL) (snaps : List (List Blk)) : QL :=
  let len := q.items.length
  if windowLen ≤ len ∨ snaps.length ≤ len then q.finish
  else
    let endH := snaps.length + 1 - len
    let lack := listMax - len
    let startH := if lack < endH then endH - lack else 1
    if len = 0 then QL.finish { q with items := (snaps.drop startH).map mapOf }
    else QL.finish { q with items := ((snaps.take endH).drop startH).map mapOf ++ q.items }

/-- `n` elements are removed from the back: quota_list.go:207-209. -/
def QL.removeBacks : Nat → QL → QL
  | 0, q => q
  | n + 1, q => if q.items = [] then q else QL.removeBacks n q.removeBack

/-- `Rollback`: quota_list.go:193-218. `n` is the number of chunks. -/
def QL.rollback (q : QL) (n : Nat) (snaps : List (List Blk)) : QL :=
  if q.items = [] then q
  else
    let q1 := if q.back = [] then q.removeBack else q
    ((QL.removeBacks n q1).build snaps).moveNext []

/-- `init`: quota_list.go:37-62. -/
def QL.init (snaps : List (List Blk)) : QL := (QL.build ⟨[], .nil, 0⟩ snaps).moveNext []

/-! ### The chain -/

/-- The ledger, its blocks that are in no snapshot, and the cache. -/
structure Ch where
  snaps : List (List Blk)
  unconfirmed : List Blk
  ql : QL

inductive Op
  | insert (b : Blk)
  | delete (hashes : List Nat)
  | snapshot (hashes : List Nat) (quotaOf : Nat → Nat) (invalid : List Nat)
  | rollback (k : Nat) (keep : Bool)
  | restart

/-- `block.Quota` is set anew for the blocks that stay unconfirmed: unconfirmed.go:135. -/
def Blk.requota (f : Nat → Nat) (b : Blk) : Blk := { b with quota := f b.hash }

/-- The blocks with one of these hashes, and the others. -/
def picked (hs : List Nat) (bs : List Blk) : List Blk := bs.filter (fun b => decide (b.hash ∈ hs))
def others (hs : List Nat) (bs : List Blk) : List Blk := bs.filter (fun b => decide (b.hash ∉ hs))

/-- A snapshot block: insert.go:48-68, snapshot_block.go:10-33. -/
def Ch.snapshot (s : Ch) (hashes : List Nat) (quotaOf : Nat → Nat) (invalid : List Nat) : Ch :=
  match s.ql.newNext (picked hashes s.unconfirmed) with
  | none => s
  | some q =>
    let rest := (others hashes s.unconfirmed).map (Blk.requota quotaOf)
    { snaps := s.snaps ++ [picked hashes s.unconfirmed]
      unconfirmed := others invalid rest
      ql := ((picked invalid rest).foldl QL.sub q).reset (others invalid rest) }

/-- `k` snapshots are deleted: delete.go:75-211, snapshot_block.go:35-86. The unconfirmed blocks are one more chunk. `keep`
tells that the blocks of the first deleted snapshot become unconfirmed. -/
def Ch.rollback (s : Ch) (k : Nat) (keep : Bool) : Ch :=
  if k = 0 ∨ 120 < k ∨ s.snaps.length ≤ k then s
  else
    let snaps := s.snaps.take (s.snaps.length - k)
    let back := if keep then s.snaps.getD (s.snaps.length - k) [] else []
    { snaps := snaps
      unconfirmed := back
      ql := back.foldl QL.add (s.ql.rollback (if s.unconfirmed = [] then k else k + 1) snaps) }

def Ch.step (s : Ch) : Op → Ch
  -- insert.go:13-46, account_block.go:64-76
  | .insert b => { s with unconfirmed := s.unconfirmed ++ [b], ql := s.ql.add b }
  -- delete.go:267-308, account_block.go:15-34
  | .delete hs => { s with unconfirmed := others hs s.unconfirmed, ql := (picked hs s.unconfirmed).foldl QL.sub s.ql }
  | .snapshot hs f bad => s.snapshot hs f bad
  | .rollback k keep => s.rollback k keep
  -- chain.go:276-281, init.go:3-14: unconfirmed blocks are not kept
  | .restart => { s with unconfirmed := [], ql := QL.init s.snaps }

/-- A node started on a ledger, and what happens after. -/
def Ch.start (snaps : List (List Blk)) : Ch := ⟨snaps, [], QL.init snaps⟩
def Ch.run (s : Ch) (ops : List Op) : Ch := ops.foldl Ch.step s

end Verif.Chain
