import Verif.Gossip.ChooseModel

/-!
# A node that hears of blocks and passes them on

`net/broadcaster.go`, `net/block_feed.go`, `net/sync_state.go`.  The filters of seen blocks are sets
of hashes here; how the real ones differ from sets is the matter of `FilterModel`.  Writing to a peer
always works.  Of a block only what the broadcaster looks at is kept.
-/

namespace Verif.Gossip

/-- A block in a message: `body` is the hash computed from its content, `claimed` the hash written
in it, `sig` whether its signature is right (for a snapshot block, also its time, which is compared
with the clock); the content is given by `body`, but the signature is not part of it.  `interfaces/core/snapshot_block.go`, `interfaces/core/account_block.go`. -/
structure Blk where
  snap : Bool
  body : Nat
  claimed : Nat
  height : Nat
  sig : Bool
  deriving DecidableEq, Repr

/-- The check of blocks from the net: the hash and the signature.
`ledger/verifier/verifier.go:64-78`, `ledger/verifier/snapshot_verifier.go:29-72`. -/
def Blk.valid (b : Blk) : Bool := b.claimed == b.body && b.sig

/-- The states of synchronisation.  `net/sync_state.go:8-14`. -/
inductive St where
  | init | syncing | done | error | cancel
  deriving DecidableEq, Repr

/-- `net/sync_state.go:54-56` (`syncExited`). -/
def St.exited (s : St) : Bool := s == .done || s == .error || s == .cancel

/-- Blocks kept back while syncing.  `net/broadcaster.go:34-42` (`memBlockStore`, one of its two
halves). -/
structure Queue where
  items : List Blk
  idx : Nat
  deriving DecidableEq, Repr

/-- The room of the queue.  `net/net.go:391`. -/
def queueCap : Nat := 1000

/-- `net/broadcaster.go:51-58`, `75-82` (`enqueueAccountBlock`, `enqueueSnapshotBlock`). -/
def Queue.enq (q : Queue) (b : Blk) : Queue :=
  if q.items.length < queueCap then { q with items := q.items ++ [b] } else q

/-- `net/broadcaster.go:60-73`, `84-97` (`dequeueAccountBlock`, `dequeueSnapshotBlock`).  The index
is never set back. -/
def Queue.deq (q : Queue) : Option Blk × Queue :=
  match q.items[q.idx]? with
  | none => (none, { q with items := [] })
  | some b => (some b, { q with idx := q.idx + 1 })

/-- Take from the queue until it gives nothing.  `net/broadcaster.go:623`, `626`.  The bound on the
turns is that of the loop in `Node.sync`. -/
def Queue.drain : Nat → Queue → List Blk × Queue
  | 0, q => ([], q)
  | fuel + 1, q =>
    match q.deq.1 with
    | none => ([], q.deq.2)
    | some b => (b :: (Queue.drain fuel q.deq.2).1, (Queue.drain fuel q.deq.2).2)

/-- A node.  `net/broadcaster.go:389-411` (`broadcaster`), with what it knows of its peers
(`net/peer.go:120-140`), the chain's height and confirmations, the black blocks of the feed, and
`fed`, the blocks given to the subscribers, in order. -/
structure Node where
  peers : List Nat
  full : Bool
  black : List Nat
  told : Nat → List Nat
  known : Nat → List Nat
  filter : List Nat
  st : St
  top : Nat
  confirmed : Nat → Nat
  sq : Queue
  aq : Queue
  fed : List Blk

/-- Tell the subscribers of a block.  `net/block_feed.go:67-91` (`notifySnapshotBlock`,
`notifyAccountBlock`). -/
def Node.notify (n : Node) (b : Blk) : Node :=
  if n.black.contains b.claimed then n else { n with fed := n.fed ++ [b] }

/-- Keep a block back.  `net/broadcaster.go:489`, `554`. -/
def Node.keep (n : Node) (b : Blk) : Node :=
  if b.snap then { n with sq := n.sq.enq b } else { n with aq := n.aq.enq b }

/-- The peers to forward to; `order` is the order in which ours come.  `net/broadcaster.go:107-113`,
`131-142`, `167-172` (`choosePeers`). -/
def Node.choose (n : Node) (order : List Nat) (src : Nat) : List Nat :=
  if n.full then fullPeers order src else commonPeers order (n.told src) src 3 10

/-- Go through the chosen peers: one that is known to have the block is left out, the others are
noted as having it.  `net/broadcaster.go:731-743`, `770-782`. -/
def spread (h : Nat) : List Nat → (Nat → List Nat) → (Nat → List Nat) × List Nat
  | [], known => (known, [])
  | p :: ps, known =>
    if (known p).contains h then spread h ps known
    else
      let r := spread h ps (fun q => if q = p then h :: known q else known q)
      (r.1, p :: r.2)

/-- Pass a block on.  `net/broadcaster.go:716-743`, `756-783` (`forwardSnapshotBlock`,
`forwardAccountBlock`). -/
def Node.forward (n : Node) (order : List Nat) (src : Nat) (b : Blk) : Node × List Nat :=
  let r := spread b.claimed (n.choose order src) n.known
  ({ n with known := r.1 }, r.2)

/-- A message with a block has come from `src`; `pick` is the toss that decides whether the
confirmations of an account block are looked at.  The second part of the result: to whom it is sent
on, with the time to live.  `net/broadcaster.go:436-560` (`handle`). -/
def Node.handle (n : Node) (pick : Bool) (order : List Nat) (src : Nat) (b : Blk) (ttl : Nat) :
    Node × List (Nat × Nat) :=
  if b.snap && decide (b.height + 100 < n.top) then (n, [])
  else if n.filter.contains b.claimed then (n, [])
  else if n.filter.contains b.body then (n, [])
  else
    let n1 := { n with filter := b.body :: n.filter }
    if !b.snap && pick && decide (100 < n1.confirmed b.body) then (n1, [])
    else if !b.valid then (n1, [])
    else
      let f := if 0 < ttl then n1.forward order src b else (n1, [])
      (if f.1.st.exited then f.1.notify b else f.1.keep b, f.2.map (fun p => (p, ttl - 1)))

/-- Send a block of our own to all peers.  `net/broadcaster.go:632-667`, `675-710`
(`BroadcastSnapshotBlock`, `BroadcastAccountBlock`). -/
def Node.broadcast (n : Node) (order : List Nat) (b : Blk) : Node × List (Nat × Nat) :=
  if n.st = .syncing then (n, [])
  else ({ n with filter := b.claimed :: n.filter }, order.map (fun p => (p, 32)))

/-- The state of synchronisation changes: when it is over, the subscribers are told of the blocks
kept back.  `net/broadcaster.go:619-630` (`subSyncState`). -/
def Node.sync (n : Node) (st : St) : Node :=
  let n1 := { n with st := st }
  if st.exited then
    let s := n1.sq.drain (n1.sq.items.length + 1)
    let n2 := s.1.foldl Node.notify { n1 with sq := s.2 }
    let a := n2.aq.drain (n2.aq.items.length + 1)
    a.1.foldl Node.notify { n2 with aq := a.2 }
  else n1

/-- What may happen to a node. -/
inductive Ev where
  | recv (pick : Bool) (order : List Nat) (src : Nat) (b : Blk) (ttl : Nat)
  | own (order : List Nat) (b : Blk)
  | sync (st : St)
  | hear (p : Nat) (l : List Nat)
  | chain (top : Nat) (confirmed : Nat → Nat)

/-- One event.  For `hear`: `net/msghandler.go:510-542` and `setPeers`. -/
def Node.step (n : Node) : Ev → Node × List (Nat × Nat)
  | .recv pick order src b ttl => n.handle pick order src b ttl
  | .own order b => n.broadcast order b
  | .sync st => (n.sync st, [])
  | .hear p l => ({ n with told := fun q => if q = p then l else n.told q }, [])
  | .chain top confirmed => ({ n with top := top, confirmed := confirmed }, [])

/-- Some events, one after the other. -/
def Node.run (n : Node) : List Ev → Node
  | [] => n
  | e :: es => (n.step e).1.run es

/-- A node that has just been started.  `net/broadcaster.go:413-428` (`newBroadcaster`). -/
def Node.fresh (peers : List Nat) (full : Bool) (black : List Nat) : Node :=
  { peers := peers, full := full, black := black, told := fun _ => [], known := fun _ => [],
    filter := [], st := .init, top := 0, confirmed := fun _ => 0, sq := ⟨[], 0⟩, aq := ⟨[], 0⟩,
    fed := [] }

/-! ### The subscribers -/

/-- The subscribers of account blocks and of snapshot blocks, and the last number given out.
`net/block_feed.go:28-33` (`blockFeed`). -/
structure Feed where
  aSubs : List Nat
  bSubs : List Nat
  cur : Nat
  deriving DecidableEq, Repr

/-- `net/block_feed.go:47-51` (`SubscribeAccountBlock`). -/
def Feed.subA (f : Feed) : Feed × Nat :=
  ({ f with cur := f.cur + 1, aSubs := f.aSubs ++ [f.cur + 1] }, f.cur + 1)

/-- `net/block_feed.go:57-61` (`SubscribeSnapshotBlock`). -/
def Feed.subB (f : Feed) : Feed × Nat :=
  ({ f with cur := f.cur + 1, bSubs := f.bSubs ++ [f.cur + 1] }, f.cur + 1)

/-- `net/block_feed.go:53-55` (`UnsubscribeAccountBlock`). -/
def Feed.unsubA (f : Feed) (i : Nat) : Feed := { f with aSubs := f.aSubs.filter (fun x => x != i) }

/-- `net/block_feed.go:63-65` (`UnsubscribeSnapshotBlock`): it takes from the wrong map. -/
def Feed.unsubB (f : Feed) (i : Nat) : Feed := { f with aSubs := f.aSubs.filter (fun x => x != i) }

end Verif.Gossip
