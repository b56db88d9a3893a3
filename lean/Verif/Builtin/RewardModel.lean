/-!
# Model of the reward of block producers

Source: `/repo/vm/contracts/contracts_governance.go:447-645`, `/repo/vm/util/consensus_reader.go`,
`/repo/ledger/consensus/core/time_index.go`, `/repo/ledger/consensus/consensus_snapshot.go:140-235`.

Simplifications.
* `uint64` and `int64` sums (block numbers of one day, times in seconds) do not overflow; `big.Int` is exact.
* Go maps with iteration order nobody can see are lists with distinct keys.
-/

namespace Verif.Builtin.Reward

/-- A name of a block producer (a string). -/
abbrev Name := List Nat

/-- `rewardPerBlock`: vm/contracts/params.go:36. -/
def rewardPerBlock : Nat := 951293759512937595

/-- `rewardTimeLimit`: vm/contracts/params.go:25. -/
def rewardTimeLimit : Int := 3600

/-- `core.SbpStats`: sbp_reader.go:25-31. -/
structure SbpStat where
  name : Name
  blockNum : Nat
  expected : Nat
  votes : Nat
  deriving DecidableEq, Repr

/-- `core.DayStats`: sbp_reader.go:33-40. -/
structure DayStats where
  stats : List SbpStat
  voteSum : Nat
  blockTotal : Nat
  deriving DecidableEq, Repr

/-- `cdb.Point`, as far as it is used: produced and expected blocks of each address, votes of each name and their sum;
cdb/point.go:14-50. -/
structure Point where
  /-- address, expected, produced -/
  sbps : List (Nat × Nat × Nat)
  votes : List (Name × Nat)
  voteTotal : Nat

/-- `dayVoteStat`: consensus_snapshot.go:216-235: the first `rank` names by votes, and the sum of their votes. -/
def dayVoteStat (rank : Nat) (sorted : List (Name × Nat)) : List (Name × Nat) × Nat :=
  (sorted.take rank, ((sorted.take rank).map (·.2)).sum)

/-- Adding the numbers of one address to the statistics: consensus_snapshot.go:201-210. `name` is `registerMap[k]`, `none`
for the empty string of a missing entry. -/
def addSbp (name : Option Name) (expected produced : Nat) (d : DayStats) : DayStats :=
  { d with
    stats := d.stats.map (fun s => if some s.name = name then
      { s with blockNum := s.blockNum + produced, expected := s.expected + expected } else s)
    blockTotal := d.blockTotal + produced }

/-- The conversion of a day's point in `DayStats`: consensus_snapshot.go:186-211. -/
def dayStats (registered : Nat → Option Name) (p : Point) : DayStats :=
  p.sbps.foldl (fun d x => addSbp (registered x.1) x.2.1 x.2.2 d)
    ⟨p.votes.map (fun v => ⟨v.1, 0, 0, v.2⟩), p.voteTotal, 0⟩

/-- The vote part of `calcRewardByDayDetail`: contracts_governance.go:614-633. -/
def voteReward (d : DayStats) (s : SbpStat) (stake : Nat) : Nat :=
  (s.votes + stake) * d.blockTotal * 50 * rewardPerBlock * s.blockNum / (d.stats.length * stake + d.voteSum) / s.expected / 100

/-- The block part: contracts_governance.go:635-639. -/
def blockReward (s : SbpStat) : Nat := s.blockNum * 50 * rewardPerBlock / 100

/-- `calcRewardByDayDetail`, the total: contracts_governance.go:607-645. -/
def dayReward (d : DayStats) (name : Name) (stake : Nat) : Nat :=
  match d.stats.find? (fun s => s.name = name) with
  | none => 0
  | some s => if s.expected = 0 then 0 else voteReward d s stake + blockReward s

/-! ### Cycles -/

/-- `timeIndex`: time_index.go:13-27. -/
structure TimeIndex where
  genesis : Int
  interval : Nat

/-- `Time2Index` for times not before genesis. -/
def TimeIndex.index (ti : TimeIndex) (t : Int) : Nat := (t - ti.genesis).toNat / ti.interval

/-- `Index2Time`: start and end of a cycle. -/
def TimeIndex.start (ti : TimeIndex) (i : Nat) : Int := ti.genesis + (ti.interval * i : Nat)
def TimeIndex.finish (ti : TimeIndex) (i : Nat) : Int := ti.genesis + (ti.interval * (i + 1) : Nat)

/-- `GetIndexByStartTime`: consensus_reader.go:49-59; `none` is `drained`. -/
def startIndex (ti : TimeIndex) (t : Int) : Option Nat :=
  if t < 0 then none
  else if t ≤ ti.genesis then some 0
  else some (ti.index (t - 1) + 1)

/-- `GetIndexByEndTime`: consensus_reader.go:73-83: end index, end time, within one day. -/
def endIndex (ti : TimeIndex) (t : Int) : Nat × Int × Bool :=
  if t < ti.genesis then (0, ti.genesis, true)
  else if ti.index t = 0 then (0, ti.genesis, true)
  else (ti.index t - 1, ti.finish (ti.index t - 1), false)

/-- What the calculation reads of a registration. -/
structure Times where
  rewardTime : Int
  revokeTime : Int

/-- The source of day statistics: `GetConsensusDetailByDay` skips days without a point. -/
structure Source where
  ti : TimeIndex
  day : Nat → Option DayStats
  /-- the stake amount of a day: `getSnapshotGroupStakeAmount`, contracts_governance.go:513-532 -/
  stake : Nat → Nat

/-- The days from `a` to `b`. -/
def days (a b : Nat) : List Nat := (List.range (b + 1)).filter (fun i => a ≤ i)

/-- Sum of the rewards of a name over days: contracts_governance.go:494-506. -/
def sumDays (src : Source) (name : Name) (l : List Nat) : Nat :=
  (l.map (fun i => match src.day i with
    | none => 0
    | some d => dayReward d name (src.stake i))).sum

/-- The answer of `calcReward`: end time, the total reward (`none` is nil), drained. -/
structure Answer where
  endTime : Int
  reward : Option Nat
  drained : Bool
  deriving DecidableEq, Repr

/-- End index and `drained` by the state of the registration: contracts_governance.go:475-486. -/
def rewardEnd (ti : TimeIndex) (x : Times) (limit : Int) : (Nat × Int × Bool) × Bool :=
  if x.revokeTime ≠ 0 then
    if (endIndex ti x.revokeTime).2.1 ≤ limit then (endIndex ti x.revokeTime, true) else (endIndex ti limit, false)
  else (endIndex ti limit, false)

/-- `CalcReward` and `calcReward`: contracts_governance.go:456-507; `now` is the time of the current snapshot block. If
reading the statistics panics (`panics`), the deferred function assigns the error to a variable of its own
(`if err := recover()`), so the caller sees zero values and no error. -/
def calcReward (panics : Bool) (src : Source) (name : Name) (x : Times) (now : Int) : Answer :=
  match startIndex src.ti x.rewardTime with
  | none => ⟨0, none, true⟩
  | some a =>
    let e := rewardEnd src.ti x (now - rewardTimeLimit)
    if e.1.2.2 = true ∨ a > e.1.1 then ⟨e.1.2.1, some 0, e.2⟩
    else if panics then ⟨0, none, false⟩
    else ⟨e.1.2.1, some (sumDays src name (days a e.1.1)), e.2⟩

/-- `RewardDrained`: contracts_governance.go:429-434. -/
def rewardDrained (a : Answer) : Bool := a.drained && (a.reward.getD 0 == 0)

end Verif.Builtin.Reward
