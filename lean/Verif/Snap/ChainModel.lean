import Verif.Snap.TimeModel

/-!
# Which snapshot blocks are accepted, and the random numbers made of them

Models `ledger/verifier/snapshot_verifier.go`, `VerifySnapshotProducer` and `ElectionIndex` of `ledger/consensus`, and the seeds of
`ledger/chain/snapshot_block.go:460-613`.

Simplifications: the signature is left out; the hash function is a parameter; who is elected is a function of the proof block, as the votes and
the success rates are read at it (the election itself is modelled in `Verif.Consensus.ElectModel`). A time within a second has the round of the
second: `Seconds()` may round such a time up, but no slot starts within a second, so that the block is refused in either case.
-/

namespace Verif.Snap
open Verif.Consensus

/-- What a block's hash is made of, `interfaces/core/snapshot_block.go:189-240`: the time in seconds; no signature, no public key. Left out: the
name of the fork and the version. -/
structure Body where
  prev : Hash
  height : Nat
  sec : Int
  seed : Nat
  seedHash : Hash
  content : List (Addr × Nat × Hash)
  deriving DecidableEq, Repr

/-- The hashed part; a missing seed hash is 32 zero bytes. `snapshot_block.go:189-222` -/
def Snap.body (b : Snap) : Body := ⟨b.prev, b.height, unix b.time, b.seed, b.seedHash.getD 0, b.content⟩

/-- What the checks depend on. -/
structure Cfg where
  /-- the hash function -/
  H : Body → Hash
  /-- the hash of a seed, of the hash before and of the seconds, `interfaces/core/snapshot_block.go:142-160` -/
  S : Nat → Hash → Int → Hash
  plan : Plan
  /-- who is elected on the ground of a proof block -/
  votes : Hash → List Addr
  /-- the genesis block -/
  genesis : Hash

/-- `genSnapshotProofTimeIndx`, `consensus_snapshot.go:394-400`, in seconds -/
def proofTime (p : Plan) (i : Nat) : Int := if i < 2 then p.genesis + 1 else (p.index.index2Time (i - 2)).2

/-- `ElectionIndex`, `consensus_snapshot.go:255-273`: the elected of a round. `none` if the proof block is not found. -/
def elected (g : Cfg) (c : Chain) (i : Nat) : Option (List Addr) :=
  match headerBefore c (proofTime g.plan i * 1000000000) (c.length + 3) with
  | some (.found (some pb)) => some (g.votes pb.hash)
  | _ => none

/-- `VerifyProducer`, `consensus_snapshot.go:422-442`; `none` is an error -/
def producerOk (g : Cfg) (c : Chain) (a : Addr) (t : Int) : Option Bool :=
  let i := g.plan.index.time2Index (unix t)
  (elected g c i).map (fun ms => (genPlan g.plan i ms).any (fun s => decide (s.member = a) && decide (s.stime * 1000000000 = t)))

/-- `GetLastUnpublishedSeedSnapshotHeader`, `snapshot_block.go:615-665`: the walk down, with the seeds seen. -/
def unpublished (g : Cfg) (a : Addr) (before : Int) : List Snap → List Nat → Option Snap
  | [], _ => none
  | b :: l, seeds =>
    if b.producer ≠ a then unpublished g a before l seeds
    else match b.seedHash with
      | none => unpublished g a before l seeds
      | some h =>
        if ¬ b.time < before then unpublished g a before l (b.seed :: seeds)
        else if seeds.any (fun s => decide (g.S s b.prev (unix b.time) = h)) then unpublished g a before l (b.seed :: seeds)
        else some b

/-- `verifyProducerAndSeed`, `consensus_snapshot.go:444-469`; `none` is an error -/
def producerAndSeed (g : Cfg) (c : Chain) (b : Snap) : Option Bool :=
  match producerOk g c b.producer b.time with
  | none => none
  | some false => some false
  | some true =>
    if b.seed ≠ 0 then
      let stime := (g.plan.index.index2Time (g.plan.index.time2Index (unix b.time))).1 * 1000000000
      match unpublished g b.producer stime (c.drop (c.length - 601)).reverse [] with
      | none => none
      | some s => if some (g.S b.seed s.prev (unix s.time)) = s.seedHash then some true else none
    else some true

/-- `VerifySnapshotProducer`, `consensus_impl.go:14-17`: the result of the check of the seed is dropped. -/
def verifySnapshotProducer (g : Cfg) (c : Chain) (b : Snap) : Option Bool :=
  let _ := producerAndSeed g c b
  producerOk g c b.producer b.time

/-- The results of a verification. `verifier/verifier.go` -/
inductive Verdict where
  | success | fail | pending
  deriving DecidableEq, Repr

/-- `verifyDataValidity`, `snapshot_verifier.go:56-75`, without the signature -/
def dataValid (g : Cfg) (b : Snap) : Bool := decide (b.hash ≠ 0) && decide (g.H b.body = b.hash)

/-- The account blocks of the content. `verifyAccounts`, `snapshot_verifier.go:107-132` -/
def contentVerdict (accounts : Addr → Nat → Option Hash) (b : Snap) : Verdict :=
  if b.content.any (fun x => match accounts x.1 x.2.1 with | none => false | some h => decide (h ≠ x.2.2)) then .fail
  else if b.content.any (fun x => (accounts x.1 x.2.1).isNone) then .pending
  else .success

/-- `getLastSeedBlock`, `snapshot_verifier.go:183-199`: it is commented out. -/
def lastSeedBlock (_ : Snap) : Option Snap := none

/-- `verifySelf`, `snapshot_verifier.go:77-105`; `none` if it passes. The height is an `uint64`. -/
def verifySelf (g : Cfg) (latest b : Snap) : Option Verdict :=
  if b.height = 1 ∧ b.hash ≠ g.genesis then some .fail
  else
    let seedBad := match lastSeedBlock b with
      | none => false
      | some s => decide (b.seed ≠ 0) && decide (some (g.S b.seed s.prev (unix s.time)) ≠ s.seedHash)
    if seedBad then some .pending
    else if latest.height ≠ (b.height + (2 ^ 64 - 1)) % 2 ^ 64 then some .pending
    else if latest.hash ≠ b.prev then some .pending
    else none

/-- `VerifyReferred`, `snapshot_verifier.go:134-179` -/
def verifyReferred (g : Cfg) (c : Chain) (accounts : Addr → Nat → Option Hash) (b : Snap) : Verdict :=
  match c.getLast? with
  | none => .fail
  | some latest =>
    match verifySelf g latest b with
    | some v => v
    | none =>
      if ¬ latest.time < b.time then .fail
      else match contentVerdict accounts b with
        | .fail => .fail
        | .pending => .pending
        | .success =>
          if b.height ≠ 1 then
            match verifySnapshotProducer g c b with
            | none => .fail
            | some false => .fail
            | some true => .success
          else .success

/-- What happens to the chain. -/
inductive Op where
  /-- a block arrives, when these account blocks are there -/
  | insert (b : Snap) (accounts : Addr → Nat → Option Hash)
  /-- the blocks above a height are rolled back; the first block stays -/
  | rollback (h : Nat)

/-- `insert`: `pool/snapshot_pool.go` verifies and inserts; `rollback`: `chain/delete.go` -/
def step (g : Cfg) (c : Chain) : Op → Chain
  | .insert b accounts => if dataValid g b = true ∧ verifyReferred g c accounts b = .success then c ++ [b] else c
  | .rollback h => c.take (max 1 h)

/-- A history. -/
def run (g : Cfg) (c : Chain) (ops : List Op) : Chain := ops.foldl (step g) c

/-! ### Seeds -/

/-- `GetSnapshotHeightByHash`; 0 if there is none -/
def heightOf (c : Chain) (h : Hash) : Nat := ((c.find? (fun b => decide (b.hash = h))).map (·.height)).getD 0

/-- The loop of `GetRandomSeed`, `snapshot_block.go:484-524`, over the blocks from the highest down. -/
def seedLoop (n : Nat) : List Snap → Option Hash → List Addr → Nat → Nat → Nat
  | [], _, _, _, sum => sum
  | b :: l, prev, seen, cnt, sum =>
    if cnt < n then
      if prev.isSome ∧ prev ≠ some b.hash then 0
      else if b.seed = 0 then seedLoop n l (some b.prev) seen cnt sum
      else if b.producer ∈ seen then seedLoop n l (some b.prev) seen cnt sum
      else seedLoop n l (some b.prev) (b.producer :: seen) (cnt + 1) ((sum + b.seed) % 2 ^ 64)
    else sum

/-- The blocks looked at: the block and 600 below it, the highest first. `snapshot_block.go:461-477` -/
def seedWindow (c : Chain) (height : Nat) : List Snap := ((c.take height).drop (height - 601)).reverse

/-- `GetRandomSeed`, `snapshot_block.go:460-527` -/
def randomSeed (c : Chain) (h : Hash) (n : Nat) : Nat := seedLoop n (seedWindow c (heightOf c h)) none [] 0 0

/-- `GetSeed`, `snapshot_block.go:604-613`: the low 64 bits of the hash are mixed in. -/
def getSeed (c : Chain) (limit : Snap) (fromHash : Hash) : Nat := (randomSeed c limit.hash 25) ^^^ (fromHash % 2 ^ 64)

/-- The loop of `GetSeedConfirmedSnapshotBlock`, `snapshot_block.go:576-600`, over the blocks from the confirming one up; the count is an `uint8`. -/
def seedConfirmed (k : Nat) : List Snap → Nat → Option Snap
  | [], _ => none
  | b :: l, cnt =>
    let cnt := if b.seed > 0 then (cnt + 1) % 256 else cnt
    if cnt = k then some b else seedConfirmed k l cnt

/-- The block whose seed a contract's receive gets, `generator.go:128-150`, `snapshot_block.go:531-602`, after the seed fork: `confirm` is the height that confirms
the send, `sendTimes` and `seedTimes` are of the contract. The outer `none` is an error, the inner one says that it gets no seed. -/
def limitBlock (c : Chain) (confirm sendTimes seedTimes : Nat) : Option (Option Snap) :=
  let a : Option (Option Snap) := if sendTimes = 0 then some none else (headerAt c (confirm + sendTimes - 1)).map some
  let b : Option (Option Snap) := if seedTimes = 0 then some none else (seedConfirmed seedTimes (c.drop (confirm - 1)) 0).map some
  match a, b with
  | some (some x), some (some y) => some (some (if x.height < y.height then y else x))
  | some (some x), some none => some (some x)
  | some none, some y => some y
  | _, _ => none

end Verif.Snap
