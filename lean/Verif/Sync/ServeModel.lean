import Verif.Sync.PlanModel

/-!
# Answers to the requests of other nodes

Models `handleGetHashHeightList` (`net/msghandler.go:211-282`), the handlers of requests for snapshot and account blocks (`net/msghandler.go:307-365`, `383-448`) and
`splitChunk` (`net/msghandler.go:544-567`). A chain is the list of the hashes of its blocks from height 1 on; for account blocks it is the chain of the account. Reading the chain is
without errors and not disturbed by others. The sizes of the points, which are estimates, are left out. No handler recovers from a panic: `panic` ends the node. -/

namespace Verif.Sync

/-- A chain: the hash of the block with height `h` is at `h - 1`. -/
abbrev Ledger := List Nat

/-- `GetSnapshotBlockByHeight` (`ledger/chain/snapshot_block.go:116-124`), `GetAccountBlockByHeight`. -/
def atHeight (c : Ledger) (h : Nat) : Option (Nat × Nat) := if h = 0 then none else c[h - 1]?.map (fun x => (h, x))

/-- `GetSnapshotBlocksByHeight` upwards (`ledger/chain/snapshot_block.go:263-275`, `index/snapshot_block.go:115-134`): the blocks from `a` to `b` that there are. -/
def fetchRange (c : Ledger) (a b : Nat) : List (Nat × Nat) := (List.range (b + 1 - a)).filterMap (fun i => atHeight c (a + i))

/-- `GetAccountBlocksByHeight` (`ledger/chain/account_block.go:183-201`): the same, downwards (`:340-371`). -/
def fetchDown (c : Ledger) (a b : Nat) : List (Nat × Nat) := (fetchRange c a b).reverse

/-- `syncTaskSize` (`net/syncer.go:39`). -/
def taskSize : Nat := 100

/-- The loop of `splitChunk` (`msghandler.go:555-564`). The heights are those of blocks that exist, and few enough to be allocated; they do not wrap. -/
def pieces (lo hi : Nat) : List (Nat × Nat) :=
  if lo ≤ hi then
    let e := min (lo + taskSize - 1) hi
    (lo, e) :: pieces (e + 1) hi
  else []
termination_by hi + 1 - lo
decreasing_by simp only [taskSize]; omega

/-- The most elements of 16 bytes that `make` can be asked for; it panics for more (2^48 bytes on amd64), or the process runs out of memory before. -/
def makeMax : Nat := 2 ^ 44

/-- `splitChunk` (`msghandler.go:544-567`) for pieces of `taskSize`; `none` is a panic. -/
def splitChunk (lo hi : Nat) : Option (List (Nat × Nat)) :=
  if lo > hi ∨ hi = 0 then some []
  else if (hi - lo) / taskSize + 1 > makeMax then none
  else some (pieces lo hi)

/-- One less, as 64-bit numbers. -/
def pred64 (x : Nat) : Nat := if x = 0 then 18446744073709551615 else (x - 1) % 18446744073709551616

/-- The heights asked for (`msghandler.go:333-344`, `416-427`). -/
def askedRange (h count : Nat) (forward : Bool) : Nat × Nat :=
  if forward then (h, pred64 (h + count))
  else if h ≥ count then (h - count + 1, h) else (0, h)

/-- The loop that sends (`msghandler.go:349-362`, `432-445`): the messages with blocks, and whether one that says that blocks are missing ends it. -/
def sendAll (get : Nat → Nat → List (Nat × Nat)) : List (Nat × Nat) → List (List (Nat × Nat)) × Bool
  | [] => ([], false)
  | p :: r =>
    if get p.1 p.2 = [] then ([], true)
    else (get p.1 p.2 :: (sendAll get r).1, (sendAll get r).2)

/-- What a request leads to. -/
inductive Answer where
  | blocks (msgs : List (List (Nat × Nat))) (missing : Bool)
  | panic
deriving Repr, DecidableEq

/-- The handlers of `GetSnapshotBlocks` (`msghandler.go:307-365`) and `GetAccountBlocks` (`383-448`) once the block that is named has been looked up: its height, or nothing. -/
def serve (get : Nat → Nat → List (Nat × Nat)) (found : Option Nat) (count : Nat) (forward : Bool) : Answer :=
  match found with
  | none => .blocks [] true
  | some h =>
    match splitChunk (askedRange h count forward).1 (askedRange h count forward).2 with
    | none => .panic
    | some l => .blocks (sendAll get l).1 (sendAll get l).2

/-- The first loop of `handleGetHashHeightList` (`msghandler.go:214-226`): `block` keeps what was read last, also when the hash was another. -/
def startBlock (c : Ledger) : List (Nat × Nat) → Option (Nat × Nat) → Option (Nat × Nat)
  | [], b => b
  | p :: r, _ =>
    match atHeight c p.1 with
    | none => startBlock c r none
    | some b => if b.2 ≠ p.2 then startBlock c r (some b) else some b

/-- The loop that collects points (`msghandler.go:239-261`). When the next height wraps it is 0, at which there is no block. -/
def collect (c : Ledger) (step last start : Nat) : List (Nat × Nat) :=
  if hs : 0 < step ∧ start ≤ last then
    match atHeight c start with
    | none => []
    | some b =>
      if start = last then [b]
      else if start + step ≥ 2 ^ 64 then [b]
      else if he : (start + step) / step * step > last then b :: collect c step last last
      else b :: collect c step last ((start + step) / step * step)
  else []
termination_by last - start
decreasing_by
  all_goals
    have h1 : start < (start + step) / step * step := by
      rw [Nat.add_div_right _ hs.1, Nat.succ_mul]
      have := Nat.lt_div_mul_add (a := start) hs.1
      omega
    omega

/-- The answer to a request for points. -/
inductive HashAnswer where
  | points (l : List (Nat × Nat))
  | missing
  | panic
deriving Repr, DecidableEq

/-- `handleGetHashHeightList` (`msghandler.go:211-282`). Dividing by a step of zero panics (`:233`). -/
def hashList (c : Ledger) (froms : List (Nat × Nat)) (step last : Nat) : HashAnswer :=
  match startBlock c froms none with
  | none => .missing
  | some b =>
    if step = 0 then .panic
    else
      let start := (b.1 + 1) / step * step
      let start := if start < b.1 + 1 then b.1 + 1 else start
      match collect c step last start with
      | [] => .missing
      | l => .points l

end Verif.Sync
