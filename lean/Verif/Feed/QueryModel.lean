import Verif.Tactics

/-!
# Queries for the logs of contracts

Models `ledger_getVmLogsByFilter` and its deprecated form `subscribe_getLogs`: `GetLogs`, `getHeightPage`, `FilterLog`, `ToFilterParam` (`rpcapi/api/ledger_v2.go:366-549`) and the reads of the ledger under them
(`ledger/chain/account_block.go:183-201`, `ledger/chain/index/account_block.go:84-143`). Hashes, addresses and topics are numbers. Errors of the database are not modelled. -/

namespace Verif.Feed

/-- `VmLog`: topics and data. -/
structure Log where
  topics : List Nat
  data : Nat
deriving DecidableEq, Repr

/-- An account block as the query sees it: `logs` is `none` when `LogHash` is nil, else what `GetVmLogList` gives for it (empty when the node keeps no logs of this contract, `ledger/chain/state/state_db.go:251-263`). -/
structure QBlk where
  hash : Nat
  logs : Option (List Log)
deriving DecidableEq, Repr

/-- `HeightRange` (`ledger_v2.go:400-403`). -/
structure HRange where
  lo : Nat
  hi : Nat
deriving DecidableEq, Repr

/-- `Logs` (`ledger_v2.go:432-437`). -/
structure QOut where
  log : Log
  hash : Nat
  height : Nat
  addr : Nat
deriving DecidableEq, Repr

/-- The inner loop of `FilterLog` (`ledger_v2.go:538-543`). -/
def topicFlag (x : Nat) : List Nat → Bool → Bool
  | [], flag => flag
  | t :: ts, flag => topicFlag x ts (if t = x then true else flag)

/-- The outer loop of `FilterLog` (`ledger_v2.go:533-547`). -/
def topicLoop (tps : List Nat) : Nat → List (List Nat) → Bool
  | _, [] => true
  | i, r :: rest =>
    if r.length = 0 then topicLoop tps (i + 1) rest
    else if topicFlag (tps.getD i 0) r false then topicLoop tps (i + 1) rest else false

/-- `FilterLog` (`ledger_v2.go:529-549`). -/
def filterLog (topics : List (List Nat)) (l : Log) : Bool :=
  if l.topics.length < topics.length then false else topicLoop l.topics 0 topics

/-- `getHeightPage` (`ledger_v2.go:521-527`): the upper end of the page, its size and whether it is the last. The caller makes sure that `start ≤ stop`, so nothing wraps around. -/
def heightPage (start stop count : Nat) : Nat × Nat × Bool :=
  if stop + 1 - start ≤ count then (stop, stop + 1 - start, true) else (start + count - 1, count, false)

/-- `GetAccountBlocksByHeight` (`account_block.go:183-201`, `index/account_block.go:84-143`): `count` blocks down from a height, the highest first. The block of height `h` is at `h - 1` in the list. -/
def blocksByHeight (bs : List QBlk) (height count : Nat) : List (QBlk × Nat) :=
  let start := if height > count then height - count + 1 else 1
  (((bs.zipIdx 1).drop (start - 1)).take (height + 1 - start)).reverse

/-- What the loops of `GetLogs` carry: `logs` (without the address), `skipCount` and `maxSizeReached`. -/
structure QSt where
  out : List (Log × Nat × Nat)
  skip : Nat
  full : Bool
deriving DecidableEq, Repr

/-- The loop over the logs of a block (`ledger_v2.go:495-507`). -/
def scanLogs (topics : List (List Nat)) (ps hash height : Nat) : List Log → QSt → QSt
  | [], s => s
  | l :: ls, s =>
    if filterLog topics l then
      if s.skip > 0 then scanLogs topics ps hash height ls { s with skip := s.skip - 1 }
      else if (s.out ++ [(l, hash, height)]).length ≥ ps then { s with out := s.out ++ [(l, hash, height)], full := true }
      else scanLogs topics ps hash height ls { s with out := s.out ++ [(l, hash, height)] }
    else scanLogs topics ps hash height ls s

/-- The loop over the blocks of a page, the lowest first (`ledger_v2.go:489-512`). -/
def scanBlocks (topics : List (List Nat)) (ps : Nat) : List (QBlk × Nat) → QSt → QSt
  | [], s => s
  | b :: bs, s =>
    match b.1.logs with
    | none => scanBlocks topics ps bs s
    | some ls =>
      if (scanLogs topics ps b.1.hash b.2 ls s).full then scanLogs topics ps b.1.hash b.2 ls s
      else scanBlocks topics ps bs (scanLogs topics ps b.1.hash b.2 ls s)

/-- The loop over the pages of heights of an address (`ledger_v2.go:479-516`). -/
def scanPages (topics : List (List Nat)) (ps : Nat) (bs : List QBlk) (start stop : Nat) (s : QSt) : QSt :=
  if (heightPage start stop 100).2.1 = 0 then s
  else if (heightPage start stop 100).2.2 ∨
      (scanBlocks topics ps (blocksByHeight bs (heightPage start stop 100).1 (heightPage start stop 100).2.1).reverse s).full then
    scanBlocks topics ps (blocksByHeight bs (heightPage start stop 100).1 (heightPage start stop 100).2.1).reverse s
  else scanPages topics ps bs ((heightPage start stop 100).1 + 1) stop
    (scanBlocks topics ps (blocksByHeight bs (heightPage start stop 100).1 (heightPage start stop 100).2.1).reverse s)
termination_by stop + 1 - start
decreasing_by
  rename_i h1 h2
  unfold heightPage at h1 h2 ⊢
  split at h2
  · simp at h2
  · rename_i h3
    simp only [h3, if_false]
    omega

/-- What is done for an address (`ledger_v2.go:461-516`). -/
def scanAddr (topics : List (List Nat)) (ps : Nat) (bs : List QBlk) (hr : HRange) (s : QSt) : QSt :=
  let top := bs.length
  if top = 0 then s
  else
    let start := if hr.lo = 0 ∨ hr.lo > top then top else hr.lo
    let stop := if hr.hi = 0 ∨ hr.hi > top then top else hr.hi
    if start > stop then s else scanPages topics ps bs start stop s

/-- The loop over the addresses (`ledger_v2.go:460-517`), in the order in which Go goes through the map. -/
def scanAddrs (topics : List (List Nat)) (ps : Nat) (chain : Nat → List QBlk) : List (Nat × HRange) → QSt → QSt
  | [], s => s
  | e :: es, s => scanAddrs topics ps chain es (scanAddr topics ps (chain e.1) e.2 s)

/-- `GetLogs` (`ledger_v2.go:442-519`); `none` is an error. `order` is the map of ranges in the order of the iteration. `ToFilterParam` refuses an empty map and a range that is upside down (`:388-390`, `:407-409`). The product of the page is taken modulo 2⁶⁴ (`:456`).
Each log is given the address of the variable of the loop (`&addr`, `:501`), of which there is one for the whole loop (`go 1.13` in `go.mod`), so in the end all logs carry the address that came last. -/
def getLogs (chain : Nat → List QBlk) (order : List (Nat × HRange)) (topics : List (List Nat)) (pageIndex pageSize : Nat) : Option (List QOut) :=
  if order.length = 0 then none
  else if order.any (fun e => decide (e.2.hi < e.2.lo ∧ e.2.hi ≠ 0)) then none
  else if pageSize > 1000 then none
  else
    let ps := if pageSize = 0 then 1000 else pageSize
    let label := (order.getLast?.map (·.1)).getD 0
    some ((scanAddrs topics ps chain order { out := [], skip := (pageIndex * ps) % 2 ^ 64, full := false }).out.map
      fun x => { log := x.1, hash := x.2.1, height := x.2.2, addr := label })

end Verif.Feed
