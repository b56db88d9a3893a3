import Verif.Snap.ChainModel

/-!
# The statistics of producers, with their caches

Models `ledger/consensus/consensus_point_array.go`, `rollback_proof.go`, `cdb/point.go`, the elections and success rates of
`consensus_snapshot.go:255-345` and `chain_rw.go:296-340`, and the lists of statistics of `consensus_snapshot.go:72-128`.

Simplifications: maps are functions; counts do not reach `2^32`, except where the rate multiplies one; a query sees one chain from its start to its end; the votes and
the choice among them are a function of the proof block and of the success rates (`Verif.Consensus.ElectModel` has the choice); the two caches of elections, in the
database and in memory, are one; marshalling a point and reading it again gives the point.
-/

namespace Verif.Stats
open Verif.Consensus Verif.Snap

/-- `Content`, `cdb/point.go:13-16` -/
structure Content where
  expected : Nat
  factual : Nat
  deriving DecidableEq, Repr

/-- `Point`, `cdb/point.go:53-59` -/
structure Point where
  prev : Hash
  hash : Hash
  sbps : Addr → Option Content
  votes : Option Nat

/-- `NewEmptyPoint`, `point.go:182-188` -/
def Point.empty (h : Hash) : Point := ⟨h, h, fun _ => none, none⟩

/-- `IsEmpty`, `point.go:179-181` -/
def Point.isEmpty (p : Point) : Bool := decide (p.hash = p.prev)

/-- `mergeMap`, `point.go:190-205`, with `Merge`, `point.go:27-30` -/
def mergeMap (m1 m2 : Addr → Option Content) : Addr → Option Content := fun a =>
  match m1 a, m2 a with
  | none, x => x
  | some x, none => some x
  | some x, some y => some ⟨x.expected + y.expected, x.factual + y.factual⟩

/-- `LeftAppend`, `point.go:146-161`; `none` is an error -/
def Point.leftAppend (self p : Point) : Option Point :=
  if p.hash ≠ self.prev then none else some { self with prev := p.prev, sbps := mergeMap self.sbps p.sbps }

/-- `Rate`, `point.go:32-41`: the product is of `uint32`. The quotient may be above what an `int32` holds. -/
def Content.rate (c : Content) : Int :=
  if c.expected = 0 then -1
  else if c.factual = 0 then 0
  else
    let q : Nat := (c.factual * 1000000) % 2 ^ 32 / c.expected
    if q < 2 ^ 31 then (q : Int) else (q : Int) - 2 ^ 32

/-- Days and hours are kept in the database. -/
inductive Lvl where
  | hour | day
  deriving DecidableEq, Repr

/-- What is kept. -/
structure St where
  /-- `periods`, in memory -/
  periods : Nat → Option Point
  /-- `ConsensusDB` -/
  db : Lvl → Nat → Option Point
  /-- the results of elections, by proof block -/
  elections : Hash → Option (List Addr)

/-- What the queries depend on besides the chain. -/
structure Env extends Cfg where
  /-- the choice of producers, from the proof block and the success rates -/
  choose : Hash → (Addr → Option Int) → List Addr
  /-- `dayVoteStat`, `consensus_snapshot.go:211-231` -/
  dayVotes : Hash → Nat

/-- `GetSnapshotHeaderBeforeTime`, with an answer of none an error as in all callers here -/
def before (c : Chain) (t : Int) : Option Snap :=
  match headerBefore c t (c.length + 3) with
  | some (.found (some b)) => some b
  | _ => none

/-- `ProofHash`, `rollback_proof.go:42-51` -/
def proofHash (c : Chain) (t : Int) : Option Hash := (before c t).map (·.hash)

/-- `ProofEmpty`, `rollback_proof.go:24-40` -/
def proofEmpty (c : Chain) (stime etime : Int) : Option Bool :=
  match before c etime with
  | none => none
  | some b => if ¬ b.time < etime then none else some (decide (b.time < stime))

/-- An amount is added to a count. `point.go:42-45`, `consensus_point_array.go:300-317` -/
def addNum (m : Addr → Option Content) (a : Addr) (e f : Nat) : Addr → Option Content := fun x =>
  if x = a then match m a with
    | none => some ⟨e, f⟩
    | some c => some ⟨c.expected + e, c.factual + f⟩
  else m x

/-- `genPeriodPoint`, `consensus_point_array.go:291-320` -/
def genPoint (h : Hash) (blocks : List Snap) (plan : List Slot) : Option Point :=
  match blocks.head?, blocks.getLast? with
  | some b0, some bl =>
    if h ≠ b0.hash then none
    else
      let m := blocks.foldl (fun m b => addNum m b.producer 0 1) (fun _ => none)
      let m := plan.foldl (fun m s => addNum m s.member 1 0) m
      some ⟨bl.prev, b0.hash, m, none⟩
  | _, _ => none

/-- An election of the producers on the ground of a proof block, which may change what is kept. -/
abbrev Elect := St → Snap → St × Option (List Addr)

/-- The times of a round, in nanoseconds. -/
def periodTime (g : Env) (i : Nat) : Int × Int :=
  ((g.plan.index.index2Time i).1 * 1000000000, (g.plan.index.index2Time i).2 * 1000000000)

/-- `getByIndexWithProofFromChain`, `consensus_point_array.go:250-289`, with `ElectionIndex`, `consensus_snapshot.go:255-273` -/
def periodChain (g : Env) (el : Elect) (c : Chain) (st : St) (i : Nat) (h : Hash) : St × Option Point :=
  match c.find? (fun b => decide (b.hash = h)) with
  | none => (st, none)
  | some b =>
    if b.time < (periodTime g i).1 then (st, some (.empty h))
    else
      match headersFrom c b.height (periodTime g i).1 none (c.length + 3) with
      | some (some blocks) =>
        if blocks.length = 0 then (st, some (.empty h))
        else
          match before c (proofTime g.plan i * 1000000000) with
          | none => (st, none)
          | some pb =>
            match el st pb with
            | (st, none) => (st, none)
            | (st, some ms) => (st, genPoint h blocks (genPlan g.plan i ms))
      | _ => (st, none)

/-- `GetByIndexWithProof` of periods, `consensus_point_array.go:186-233`. The genesis block is the first of the chain. -/
def periodGet (g : Env) (el : Elect) (c : Chain) (st : St) (i : Nat) (h : Hash) : St × Option Point :=
  let compute : St × Option Point :=
    match periodChain g el c st i h with
    | (st, some p) => ({ st with periods := fun j => if j = i then some p else st.periods j }, some p)
    | (st, none) => (st, none)
  if c.head?.map (·.hash) = some h then (st, some (.empty h))
  else
    match st.periods i with
    | none =>
      match proofEmpty c (periodTime g i).1 (periodTime g i).2 with
      | none => (st, none)
      | some true => (st, some (.empty h))
      | some false => compute
    | some p => if h = p.hash then (st, some p) else compute

/-- `GetByIndex` of periods, `consensus_point_array.go:235-243` -/
def periodAt (g : Env) (el : Elect) (c : Chain) (st : St) (i : Nat) : St × Option Point :=
  match proofHash c (periodTime g i).2 with
  | none => (st, none)
  | some h => periodGet g el c st i h

/-- The loop of `GetSuccessRateByHour`, `chain_rw.go:300-333`: from round `i` down, at most `n`. -/
def rateLoop (g : Env) (el : Elect) (c : Chain) : Nat → St → Nat → Option Hash → (Addr → Option Content) → St × Option (Addr → Option Content)
  | 0, st, _, _, m => (st, some m)
  | n + 1, st, i, prev, m =>
    match (match prev with | none => periodAt g el c st i | some h => periodGet g el c st i h) with
    | (st, none) => (st, none)
    | (st, some p) =>
      let m := mergeMap m p.sbps
      if i = 0 then (st, some m) else rateLoop g el c n st (i - 1) (some p.prev) m

/-- `GetSuccessRateByHour`, `chain_rw.go:296-340` -/
def successRate (g : Env) (el : Elect) (c : Chain) (st : St) (i : Nat) : St × Option (Addr → Option Int) :=
  match rateLoop g el c 48 st i none (fun _ => none) with
  | (st, none) => (st, none)
  | (st, some m) => (st, some (fun a => (m a).map Content.rate))

/-- `calVotes`, `consensus_snapshot.go:275-322`; the calls nest at most `fuel` deep -/
def calVotes (g : Env) (c : Chain) : Nat → Elect
  | 0 => fun st _ => (st, none)
  | fuel + 1 => fun st pb =>
    match st.elections pb.hash with
    | some l => (st, some l)
    | none =>
      let r := g.plan.index.time2Index (unix pb.time)
      let proofIndex := if r < 2 then 0 else r - 2
      let (st, rates) : St × Option (Addr → Option Int) :=
        if proofIndex > 0 then successRate g (calVotes g c fuel) c st proofIndex else (st, some (fun _ => none))
      match rates with
      | none => (st, none)
      | some rates =>
        let l := g.choose pb.hash rates
        ({ st with elections := fun h => if h = pb.hash then some l else st.elections h }, some l)

/-- How many of the lower array make one, `consensus_point_array.go:25,40` -/
def rate (g : Env) : Lvl → Nat
  | .hour => 3600 / g.plan.round
  | .day => 24

/-- The times of an hour or a day, in nanoseconds. -/
def lvlTime (g : Env) (l : Lvl) (i : Nat) : Int × Int :=
  let s : Nat := match l with | .hour => 3600 | .day => 86400
  let x : TimeIndex := ⟨g.plan.genesis, s⟩
  ((x.index2Time i).1 * 1000000000, (x.index2Time i).2 * 1000000000)

/-- The lower array. -/
abbrev Get := St → Nat → Hash → St × Option Point

/-- The loop of `getByIndexWithProofFromKernel`, `consensus_point_array.go:135-150`, over the `n` indices from `start` on, from the last. -/
def kernelLoop (low : Get) (start : Nat) : Nat → St → Hash → Point → St × Option Point
  | 0, st, _, r => (st, some r)
  | n + 1, st, tmp, r =>
    match low st (start + n) tmp with
    | (st, none) => (st, none)
    | (st, some p) =>
      if p.isEmpty then kernelLoop low start n st tmp r
      else
        match r.leftAppend p with
        | none => (st, none)
        | some r => kernelLoop low start n st p.prev r

/-- `getByIndexWithProofFromKernel`, `consensus_point_array.go:130-162` -/
def kernel (g : Env) (l : Lvl) (low : Get) (st : St) (i : Nat) (h : Hash) : St × Option Point :=
  match kernelLoop low (i * rate g l) (rate g l) st h (.empty h) with
  | (st, none) => (st, none)
  | (st, some r) =>
    match l with
    | .hour => (st, some r)
    | .day => (st, some (if r.isEmpty then r else { r with votes := some (g.dayVotes h) }))

/-- Something is written to the database or deleted. -/
def St.put (st : St) (l : Lvl) (i : Nat) (p : Option Point) : St :=
  { st with db := fun l' j => if l' = l ∧ j = i then p else st.db l' j }

/-- `GetByIndexWithProof` of hours and days, `consensus_point_array.go:77-127` -/
def linkedGet (g : Env) (l : Lvl) (low : Get) (c : Chain) (st : St) (i : Nat) (h : Hash) : St × Option Point :=
  let compute (isThere : Bool) : St × Option Point :=
    match kernel g l low st i h with
    | (st, none) => (st, none)
    | (st, some p) => if isThere && p.isEmpty then (st.put l i none, some p) else (st.put l i (some p), some p)
  match st.db l i with
  | none =>
    match proofEmpty c (lvlTime g l i).1 (lvlTime g l i).2 with
    | none => (st, none)
    | some true => (st, some (.empty h))
    | some false => compute false
  | some p => if h = p.hash then (st, some p) else compute true

/-- The three arrays. -/
inductive Arr where
  | period | hour | day
  deriving DecidableEq, Repr

/-- The elections as they are used: nested no deeper than the chain is high. -/
def elect (g : Env) (c : Chain) : Elect := calVotes g c (c.length + 1)

/-- `GetByIndexWithProof` -/
def get (g : Env) (c : Chain) : Arr → Get
  | .period => periodGet g (elect g c) c
  | .hour => linkedGet g .hour (periodGet g (elect g c) c) c
  | .day => linkedGet g .day (linkedGet g .hour (periodGet g (elect g c) c) c) c

/-- `Index2Time` of an array -/
def timeOf (g : Env) : Arr → Nat → Int × Int
  | .period => periodTime g
  | .hour => lvlTime g .hour
  | .day => lvlTime g .day

/-- `GetByIndex`, `consensus_point_array.go:68-75,235-243` -/
def getAt (g : Env) (c : Chain) (a : Arr) (st : St) (i : Nat) : St × Option Point :=
  match proofHash c (timeOf g a i).2 with
  | none => (st, none)
  | some h => get g c a st i h

/-- The loop of `getBaseStats`, `consensus_snapshot.go:76-105`: over the `n` indices from `start` on, from the last. -/
def statsLoop (g : Env) (c : Chain) (a : Arr) (start : Nat) : Nat → St → Option Hash → List (Nat × Point) → St × Option (List (Nat × Point))
  | 0, st, _, acc => (st, some acc)
  | n + 1, st, prev, acc =>
    if prev.isSome ∧ prev = c.head?.map (·.hash) then (st, some acc)
    else
      match (match prev with | none => getAt g c a st (start + n) | some h => get g c a st (start + n) h) with
      | (st, none) => (st, none)
      | (st, some p) => if p.isEmpty then statsLoop g c a start n st prev acc else statsLoop g c a start n st (some p.prev) ((start + n, p) :: acc)

/-- `getBaseStats`, `consensus_snapshot.go:72-128`, from one index to another, both counted; those without blocks are left out -/
def baseStats (g : Env) (c : Chain) (a : Arr) (st : St) (s e : Nat) : St × Option (List (Nat × Point)) := statsLoop g c a s (e + 1 - s) st none []

/-- What happens. -/
inductive Op where
  /-- blocks arrive, or are rolled back: there is another chain -/
  | chain (c : Chain)
  /-- a query -/
  | at (a : Arr) (i : Nat)
  /-- a list is asked for -/
  | stats (a : Arr) (s e : Nat)
  /-- the producers of a round are asked for -/
  | election (i : Nat)
  /-- entries are dropped from memory -/
  | evict (ps : Nat → Bool) (es : Hash → Bool)

/-- The chain and what is kept. -/
structure Sys where
  chain : Chain
  st : St

/-- One step, with the answer left out. -/
def step (g : Env) (s : Sys) : Op → Sys
  | .chain c => { s with chain := c }
  | .at a i => { s with st := (getAt g s.chain a s.st i).1 }
  | .stats a i j => { s with st := (baseStats g s.chain a s.st i j).1 }
  | .election i =>
    match before s.chain (proofTime g.plan i * 1000000000) with
    | none => s
    | some pb => { s with st := (elect g s.chain s.st pb).1 }
  | .evict ps es =>
    { s with st := { s.st with periods := fun i => if ps i then none else s.st.periods i, elections := fun h => if es h then none else s.st.elections h } }

/-- Nothing is kept at first. -/
def St.init : St := ⟨fun _ => none, fun _ _ => none, fun _ => none⟩

/-- A history. -/
def run (g : Env) (s : Sys) (ops : List Op) : Sys := ops.foldl (step g) s

end Verif.Stats
