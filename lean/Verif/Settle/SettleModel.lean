import Verif.Snap.TimeModel

/-!
# Irreversible snapshot blocks

Models `ledger/pool/pool_fork_checker.go`: the search for the latest irreversible block, the record the pool keeps of it, and the check made
before a fork deletes snapshot blocks.

Simplifications: the chain does not change during a call, as the locks taken by `checkFork` ensure, and reads do not fail. `rollbackV` is
left out: its only reader, `delChainsForIrreversible` (`pool.go:574-580`), does nothing. Of a fork there is the part that decides and deletes:
which branch is chosen and the switch of the tree are in `Verif.Fork`; the insertion of the branch's blocks is an operation of its own.
-/

namespace Verif.Settle
open Verif.Consensus Verif.Snap

/-- What does not change: `GetNodeCount` and `GetPeriodTimeIndex`, `consensus_snapshot.go:72-78`. -/
structure Cfg where
  nodes : Nat
  ti : TimeIndex
  deriving DecidableEq, Repr

/-- `irreversibleCnt`, `pool_fork_checker.go:251` -/
def Cfg.cnt (g : Cfg) : Nat := g.nodes / 3 * 2 + 1

/-- `Time2Index` of the time of a block -/
def Cfg.round (g : Cfg) (b : Snap) : Nat := g.ti.time2Index (unix b.time)

/-- `Index2Time`: the start, in nanoseconds -/
def Cfg.start (g : Cfg) (r : Nat) : Int := (g.ti.index2Time r).1 * 1000000000

/-- `irreversibleInfo`, `pool_fork_checker.go:145-149`; the proof point is never nil. -/
structure Info where
  point : Option Snap
  proof : Snap
  deriving DecidableEq, Repr

/-- How a call ends: with a value, an error, or a panic. -/
inductive Out (α : Type) where
  | ok (a : α)
  | err
  | panic
  deriving DecidableEq, Repr

/-- The loop of `checkIrreversible` over the heights `from + 1 … from + n`: the set of producers, or nothing if a block is missing.
`pool_fork_checker.go:294-303` -/
def producers (c : Chain) (lo : Nat) : Nat → List Addr → Option (List Addr)
  | 0, s => some s
  | n + 1, s =>
    match headerAt c (lo + n + 1) with
    | none => none
    | some b => producers c lo n (s.insert b.producer)

/-- `checkIrreversible`, `pool_fork_checker.go:287-304`. The map of addresses is a list without repetition. -/
def check (c : Chain) (point proof : Snap) (cnt : Nat) : Bool :=
  if 1 + proof.height - point.height < cnt then false
  else
    match producers c point.height (proof.height - 1 - point.height) ((([] : List Addr).insert proof.producer).insert point.producer) with
    | none => false
    | some s => decide (s.length ≥ cnt)

/-- The loop of `getLatestIrreversible`, `pool_fork_checker.go:255-284`; the first argument bounds its turns. `GetSnapshotHeaderBeforeTime`
gives nil without an error if there is no block before the time, and its height is read without a test. A query that does not end is a panic
here. -/
def search (g : Cfg) (c : Chain) (lastIdx : Nat) (head : Snap) : Nat → Snap → Out (Option Info)
  | 0, _ => .panic
  | fuel + 1, latest =>
    if latest.height ≤ g.cnt then .ok (some ⟨none, head⟩)
    else
      let index := g.round latest
      if index < lastIdx then .ok none
      else
        match headerBefore c (g.start index) (c.length + 3) with
        | none => .panic
        | some .err => .err
        | some (.found none) => .panic
        | some (.found (some block)) =>
          match headerAt c (block.height + 1) with
          | none => .err
          | some point => if check c point latest g.cnt then .ok (some ⟨some point, head⟩) else search g c lastIdx head fuel block

/-- `getLatestIrreversible`, `pool_fork_checker.go:246-285` -/
def getLatest (g : Cfg) (c : Chain) (lastIdx : Nat) : Out (Option Info) :=
  if g.nodes < 3 then .ok none
  else
    match c.getLast? with
    | none => .panic
    | some head => search g c lastIdx head (head.height + 1) head

/-- `getLatestIrreversibleBlock`, `pool_fork_checker.go:228-243` -/
def getLatestBlock (g : Cfg) (c : Chain) (lastProof : Option Snap) : Out (Option Info) :=
  let lastIdx :=
    match lastProof with
    | none => 0
    | some p =>
      match headerAt c p.height with
      | none => 0
      | some b => if b.hash = p.hash then g.round b else 0
  getLatest g c lastIdx

/-- The pool: the chain and what is kept, `pendingSc.irreversible`. -/
structure St where
  chain : Chain
  info : Option Info
  deriving DecidableEq, Repr

/-- `updateIrreversibleBlock`, `pool_fork_checker.go:192-226` -/
def update (g : Cfg) (s : St) : Out St :=
  if g.nodes < 3 then .ok s
  else
    match s.info with
    | none =>
      match getLatestBlock g s.chain none with
      | .panic => .panic
      | .err => .err
      | .ok none => .err
      | .ok (some i) => .ok { s with info := some i }
    | some last =>
      match getLatestBlock g s.chain (some last.proof) with
      | .panic => .panic
      | .err => .err
      | .ok none => .ok s
      | .ok (some i) => .ok { s with info := some i }

/-- `checkIrreversiblePrinciple`, `pool_fork_checker.go:167-190`: the hash of a block that may be nil is read. -/
def checkPrinciple (s : St) (key : Nat) : Out Unit :=
  match s.info with
  | none => .ok ()
  | some info =>
    match headerAt s.chain info.proof.height with
    | none => .panic
    | some b =>
      if b.hash ≠ info.proof.hash then .err
      else
        match info.point with
        | none => .ok ()
        | some p => if p.height < key then .ok () else .err

/-- `GetIrreversibleBlock`, `pool_fork_checker.go:306-313`: an error is ignored. -/
def report (g : Cfg) (s : St) : Out (St × Option Snap) :=
  match update g s with
  | .panic => .panic
  | .err => .ok (s, s.info.bind (·.point))
  | .ok s' => .ok (s', s'.info.bind (·.point))

/-- The part of `snapshotFork` that decides and deletes, `pool_fork_checker.go:57-93`: `key` is the height of the first block of the branch that
is not on the chain. If it is above the chain nothing is deleted. `DeleteSnapshotBlocksToHeight` deletes the block of the height and all above.
The flag says whether the fork goes on; the state is kept even if it does not. -/
def fork (g : Cfg) (s : St) (key : Nat) : Out (St × Bool) :=
  if key > s.chain.length then .ok (s, true)
  else
    match update g s with
    | .panic => .panic
    | .err => .ok (s, false)
    | .ok s' =>
      match checkPrinciple s' key with
      | .panic => .panic
      | .err => .ok (s', false)
      | .ok () => .ok ({ s' with chain := s'.chain.take (key - 1) }, true)

/-- What happens to the pool. -/
inductive Op where
  /-- a snapshot block is inserted -/
  | grow (b : Snap)
  /-- the timer, `worker.go:85-86`, or a query -/
  | update
  | fork (key : Nat)
  deriving DecidableEq, Repr

/-- One operation; `none` is a panic. -/
def step (g : Cfg) (s : St) : Op → Option St
  | .grow b => some { s with chain := s.chain ++ [b] }
  | .update =>
    match report g s with
    | .ok (s', _) => some s'
    | _ => none
  | .fork key =>
    match fork g s key with
    | .ok (s', _) => some s'
    | _ => none

end Verif.Settle
