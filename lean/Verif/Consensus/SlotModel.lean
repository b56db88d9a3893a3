import Verif.Consensus.ElectModel

/-!
# Rounds and slots

Models `ledger/consensus/core/time_index.go`, `ledger/consensus/core/group.go` and the check of a snapshot block's producer in
`ledger/consensus/consensus_snapshot.go`.

Simplifications: times are whole seconds, as the timestamps of blocks are, so that the floating point number of `Seconds()` is exact;
durations are taken to be below 292 years, where `time.Duration` ends.
-/

namespace Verif.Consensus

/-- `timeIndex`, `time_index.go:12-16` -/
structure TimeIndex where
  genesis : Int
  interval : Nat
  deriving DecidableEq, Repr

/-- `Index2Time`, `time_index.go:18-22` -/
def TimeIndex.index2Time (x : TimeIndex) (i : Nat) : Int × Int :=
  (x.genesis + x.interval * i, x.genesis + x.interval * (i + 1 : Nat))

/-- `Time2Index`, `time_index.go:23-27`: the difference is converted to an `uint64`. -/
def TimeIndex.time2Index (x : TimeIndex) (t : Int) : Nat :=
  ((t - x.genesis) % 2 ^ 64).toNat / x.interval

/-- The parameters of a group used here. `group.go:18-25`, `common/types/contracts.go:7-24` -/
structure Plan where
  genesis : Int
  interval : Nat
  nodeCount : Nat
  perCount : Nat
  rep : Nat
  deriving DecidableEq, Repr

/-- `planInterval`, `group.go:39-41` -/
def Plan.round (p : Plan) : Nat := p.interval * p.nodeCount * p.perCount * p.rep

/-- `NewGroupInfo`, `group.go:27-37` -/
def Plan.index (p : Plan) : TimeIndex := ⟨p.genesis, p.round⟩

/-- `MemberPlan`, `group.go:11-16` -/
structure Slot where
  stime : Int
  etime : Int
  member : Addr
  deriving DecidableEq, Repr

/-- The innermost loop, `group.go:68-73`: the slots in a row of one member, and the time reached. -/
def slotsOfMember (interval : Nat) (m : Addr) : Nat → Int → List Slot × Int
  | 0, t => ([], t)
  | n + 1, t =>
    let (l, t') := slotsOfMember interval m n (t + interval)
    (⟨t, t + interval, m⟩ :: l, t')

/-- The loop over the members, `group.go:67-74` -/
def slotsOfMembers (p : Plan) : List Addr → Int → List Slot × Int
  | [], t => ([], t)
  | m :: ms, t =>
    let (l, t1) := slotsOfMember p.interval m p.perCount t
    let (l', t2) := slotsOfMembers p ms t1
    (l ++ l', t2)

/-- The loop over the repetitions, `group.go:66-78` -/
def slotsOfRounds (p : Plan) (members : List Addr) : Nat → Int → List Slot
  | 0, _ => []
  | n + 1, t =>
    let (l, t1) := slotsOfMembers p members t
    let t2 := if members.length < p.nodeCount then t1 + p.interval * p.perCount * (p.nodeCount - members.length : Nat) else t1
    l ++ slotsOfRounds p members n t2

/-- `GenPlanByAddress`, `group.go:57-80` -/
def genPlan (p : Plan) (i : Nat) (members : List Addr) : List Slot :=
  if members.length > p.nodeCount then [] else slotsOfRounds p members p.rep (p.index.index2Time i).1

/-- `verifyProducer`, `consensus_snapshot.go:430-442`, with the election of the round of the time, `consensus_snapshot.go:422-428,250-273`;
`members` gives the elected of a round. -/
def verifyProducer (p : Plan) (members : Nat → List Addr) (a : Addr) (t : Int) : Bool :=
  (genPlan p (p.index.time2Index t) (members (p.index.time2Index t))).any (fun s => decide (s.member = a) && decide (s.stime = t))

end Verif.Consensus
