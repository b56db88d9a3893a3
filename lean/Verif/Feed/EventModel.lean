import Verif.Feed.QueryModel

/-!
# What subscribers are told

Models the events of the ledger as `ChainSubscribe` passes them on (`rpcapi/api/filters/chain_subscribe.go`) and what `EventSystem` makes of them for each kind of subscription (`rpcapi/api/filters/event_system.go:93-278`).
Hashes, addresses and heights are numbers. The four channels of the event system are queues; the loop takes from any of them that has something, as `select` does. That the channels are bounded and that the loop waits for its subscribers is the
subject of `LoopModel`; here a message is handed over at once. Errors of the database are not modelled. -/

namespace Verif.Feed

/-- `AccountChainEvent` (`chain_subscribe.go:10-43`): a block with the logs of its run and, for a contract, the sends in it (`sends`: hash and receiver). `src` is `FromBlockHash`, `dst` is `ToAddr`. -/
structure Ev where
  kind : Nat
  src : Nat
  hash : Nat
  height : Nat
  addr : Nat
  dst : Nat
  logs : List Log
  sends : List (Nat × Nat)
deriving DecidableEq, Repr

/-- `IsSendBlock` (`interfaces/core/account_block.go:422-427`, the numbers `:20-27`). -/
def isSend (k : Nat) : Bool := k == 1 || k == 2 || k == 3 || k == 6

/-- `IsReceiveBlock` (`interfaces/core/account_block.go:437-441`). -/
def isRecv (k : Nat) : Bool := k == 4 || k == 5 || k == 7

/-- `OnroadMsg` (`subscribe.go:88-92`). -/
structure OnMsg where
  hash : Nat
  closed : Bool
  removed : Bool
deriving DecidableEq, Repr

/-- `deletedSendBlockHash` (`event_system.go:156`): a map from the hash of a send to its receiver. -/
abbrev Del := List (Nat × Nat)

/-- Assignment to a key of the map. -/
def Del.put (d : Del) (s : Nat × Nat) : Del := d.filter (fun e => decide (e.1 ≠ s.1)) ++ [s]

/-- Deletion of a key of the map (`event_system.go:193`). -/
def Del.erase (d : Del) (h : Nat) : Del := d.filter fun e => decide (e.1 ≠ h)

/-- Whether a key is in the map (`event_system.go:190`). -/
def Del.has (d : Del) (h : Nat) : Bool := d.any fun e => decide (e.1 = h)

/-- The first loop of `handleAcEvent` for the on-road messages (`event_system.go:164-185`). The map of messages by address is the list of all messages with their addresses, in order (`appendOnroadMsg`, `:252-258`). -/
def evStep (removed : Bool) (st : List (Nat × OnMsg) × Del) (e : Ev) : List (Nat × OnMsg) × Del :=
  if removed then
    if isSend e.kind then (st.1, st.2.put (e.hash, e.dst)) else (st.1, e.sends.foldl Del.put st.2)
  else if isSend e.kind then (st.1 ++ [(e.dst, ⟨e.hash, false, removed⟩)], st.2)
  else (st.1 ++ [(e.addr, ⟨e.src, true, removed⟩)] ++ e.sends.map fun s => (s.2, ⟨s.1, false, removed⟩), st.2)

/-- The second loop, for deleted blocks only (`event_system.go:187-197`). -/
def delStep (st : List (Nat × OnMsg) × Del) (e : Ev) : List (Nat × OnMsg) × Del :=
  if isRecv e.kind then
    if st.2.has e.src then (st.1, st.2.erase e.src) else (st.1 ++ [(e.addr, ⟨e.src, false, false⟩)], st.2)
  else st

/-- The on-road messages of a batch of events (`event_system.go:153-200`). `order` is the order in which Go goes through the map of deleted sends (`:198`). -/
def onroadAll (order : Del → Del) (removed : Bool) (evs : List Ev) : List (Nat × OnMsg) :=
  let s1 := evs.foldl (evStep removed) ([], [])
  let s2 := if removed then evs.foldl delStep s1 else s1
  s2.1 ++ (order s2.2).map fun d => (d.2, ⟨d.1, false, true⟩)

/-- What a subscriber to the unreceived blocks of an address is sent (`event_system.go:217-226`). -/
def onroadMsgs (order : Del → Del) (a : Nat) (removed : Bool) (evs : List Ev) : List OnMsg :=
  ((onroadAll order removed evs).filter fun m => decide (m.1 = a)).map (·.2)

/-- What a subscriber to all account blocks is sent (`event_system.go:153-158`, `:202-204`): hash and the mark of removal. -/
def blockMsgs (removed : Bool) (evs : List Ev) : List (Nat × Bool) := evs.map fun e => (e.hash, removed)

/-- What a subscriber to the account blocks of an address is sent (`event_system.go:159-162`, `:206-215`): hash and height. -/
def addrMsgs (a : Nat) (removed : Bool) (evs : List Ev) : List ((Nat × Nat) × Bool) :=
  (evs.filter fun e => decide (e.addr = a)).map fun e => ((e.hash, e.height), removed)

/-- `FilterParam` (`ledger_v2.go:396-399`); `none` is a nil map, which `ToFilterParam` does not make. -/
structure LogParam where
  ranges : Option (List (Nat × HRange))
  topics : List (List Nat)

/-- Whether the address and the height of a block are asked for (`event_system.go:265-271`). -/
def LogParam.pass (p : LogParam) (e : Ev) : Bool :=
  match p.ranges with
  | none => true
  | some m =>
    match m.find? fun x => decide (x.1 = e.addr) with
    | none => false
    | some x => !((decide (x.2.lo > 0) && decide (x.2.lo > e.height)) || (decide (x.2.hi > 0) && decide (x.2.hi < e.height)))

/-- `filterLogs` (`event_system.go:260-278`). -/
def filterLogs (p : LogParam) (removed : Bool) (e : Ev) : List (QOut × Bool) :=
  if e.logs.length = 0 then []
  else if p.pass e then (e.logs.filter fun l => filterLog p.topics l).map fun l => (⟨l, e.hash, e.height, e.addr⟩, removed)
  else []

/-- What a subscriber to logs is sent (`event_system.go:228-249`). -/
def logMsgs (p : LogParam) (removed : Bool) (evs : List Ev) : List (QOut × Bool) := evs.flatMap (filterLogs p removed)

/-- What a subscriber to snapshot blocks is sent (`event_system.go:133-147`): hash and height. -/
def snapMsgs (removed : Bool) (sbs : List (Nat × Nat)) : List ((Nat × Nat) × Bool) := sbs.map fun s => (s, removed)

/-- An event as the loop gets it: new or deleted account blocks, new or deleted snapshot blocks (`event_system.go:102-109`). -/
inductive Event where
  | acc (removed : Bool) (evs : List Ev)
  | snap (removed : Bool) (sbs : List (Nat × Nat))
deriving DecidableEq

/-- The chunks of a deletion: account blocks and, except for the unconfirmed ones, a snapshot block (`ledger/chain/delete.go:134-154`). -/
structure Chunk where
  blocks : List Ev
  snap : Option (Nat × Nat)

/-- The ledger, `preDeleteAccountBlocks`, the four channels, and, kept for the statements, what was put into channels and what the loop took out, in order. -/
structure FSt where
  ledger : List Ev
  snaps : List (Nat × Nat)
  pre : List Ev := []
  ac : List (List Ev) := []
  acDel : List (List Ev) := []
  sb : List (List (Nat × Nat)) := []
  sbDel : List (List (Nat × Nat)) := []
  pushed : List Event := []
  got : List Event := []

/-- The event of a block that is deleted: its logs are read from the database (`chain_subscribe.go:93-103`, `:116-126`), which has them only if the node keeps the logs of this contract (`ledger/chain/state/write.go:86`). -/
def delEv (kept : Nat → Bool) (e : Ev) : Ev := if kept e.addr then e else { e with logs := [] }

/-- `InsertAccountBlocks` (`chain_subscribe.go:71-78`). -/
def FSt.insertAcc (s : FSt) (bs : List Ev) : FSt :=
  { s with ledger := s.ledger ++ bs, ac := s.ac ++ [bs], pushed := s.pushed ++ [.acc false bs] }

/-- `InsertSnapshotBlocks` (`chain_subscribe.go:83-90`). -/
def FSt.insertSnap (s : FSt) (sbs : List (Nat × Nat)) : FSt :=
  { s with snaps := s.snaps ++ sbs, sb := s.sb ++ [sbs], pushed := s.pushed ++ [.snap false sbs] }

/-- `PrepareDeleteAccountBlocks` (`chain_subscribe.go:91-106`). -/
def FSt.prepareAcc (kept : Nat → Bool) (s : FSt) (bs : List Ev) : FSt := { s with pre := s.pre ++ bs.map (delEv kept) }

/-- `DeleteAccountBlocks` (`chain_subscribe.go:107-112`). -/
def FSt.deleteAcc (s : FSt) : FSt :=
  { s with pre := [], acDel := s.acDel ++ [s.pre], pushed := s.pushed ++ [.acc true s.pre] }

/-- `PrepareDeleteSnapshotBlocks` (`chain_subscribe.go:113-130`). -/
def FSt.prepareSnap (kept : Nat → Bool) (s : FSt) (cs : List Chunk) : FSt :=
  { s with pre := s.pre ++ (cs.flatMap (·.blocks)).map (delEv kept) }

/-- `DeleteSnapshotBlocks` (`chain_subscribe.go:131-146`). -/
def FSt.deleteSnap (s : FSt) (cs : List Chunk) : FSt :=
  let s1 := { s with sbDel := s.sbDel ++ [cs.filterMap (·.snap)], pushed := s.pushed ++ [.snap true (cs.filterMap (·.snap))] }
  if s1.pre.length > 0 then s1.deleteAcc else s1

/-- A deletion of account blocks (`ledger/chain/delete.go:267-309`): the listener is asked before and told after the blocks are gone. `rest` is what stays. -/
def FSt.dropAcc (kept : Nat → Bool) (s : FSt) (bs rest : List Ev) : FSt :=
  FSt.deleteAcc { s.prepareAcc kept bs with ledger := rest }

/-- A deletion of snapshot blocks (`ledger/chain/delete.go:176-208`). -/
def FSt.dropSnap (kept : Nat → Bool) (s : FSt) (cs : List Chunk) (rest : List Ev) (restS : List (Nat × Nat)) : FSt :=
  FSt.deleteSnap { s.prepareSnap kept cs with ledger := rest, snaps := restS } cs

/-- The loop takes an event (`event_system.go:100-109`); `none` when the channel is empty. -/
def FSt.take (s : FSt) : Nat → Option FSt
  | 0 => match s.ac with
    | [] => none
    | e :: r => some { s with ac := r, got := s.got ++ [.acc false e] }
  | 1 => match s.acDel with
    | [] => none
    | e :: r => some { s with acDel := r, got := s.got ++ [.acc true e] }
  | 2 => match s.sb with
    | [] => none
    | e :: r => some { s with sb := r, got := s.got ++ [.snap false e] }
  | _ => match s.sbDel with
    | [] => none
    | e :: r => some { s with sbDel := r, got := s.got ++ [.snap true e] }

/-- The messages of a subscriber who hears the account events through `f`; for an empty batch nothing is done (`event_system.go:150-152`). -/
def accMsgs {X : Type} (f : Bool → List Ev → List X) (got : List Event) : List X :=
  got.flatMap fun
    | .acc r evs => if evs.length = 0 then [] else f r evs
    | .snap _ _ => []

/-- The messages of a subscriber to snapshot blocks (`event_system.go:134-136`). -/
def sbMsgs (got : List Event) : List ((Nat × Nat) × Bool) :=
  got.flatMap fun
    | .acc _ _ => []
    | .snap r sbs => if sbs.length = 0 then [] else snapMsgs r sbs

end Verif.Feed
