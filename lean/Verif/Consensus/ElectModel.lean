import Verif.Base.Bytes
import Verif.Base.Table

/-!
# The election of block producers

Models `ledger/consensus/core/vote_algo.go` and the order of `ledger/consensus/core/consensus.go`.

Simplifications, for the whole file.

* `sort.Sort` is an insertion sort. Its result is the only sorted arrangement if no two candidates have the same name
  (`sort_unique`), so that it does not matter which sort is used.
* The generator `math/rand` is a parameter: `Rand` gives the numbers that `Intn` draws for a seed; nothing is assumed of them. `Perm` is
  modelled as in Go 1.17 (`math/rand/rand.go:140-160`).
* Go slices that share memory: `FilterSimple` takes `votes[0:n]` before it sorts `votes`, so what it returns is the sorted
  slice's part. `Type`, which is only logged, is left out.
* A slice out of range is `none`.
-/

namespace Verif.Consensus
open Verif.Bytes

/-- An address. -/
abbrev Addr := Nat

/-- A candidate. `ledger/consensus/core/consensus.go:18-23` -/
structure Vote where
  name : Bytes
  addr : Addr
  balance : Nat
  deriving DecidableEq, Repr

/-- Not after. `consensus.go:25-37` (`ByBalance`) -/
def Vote.le (a b : Vote) : Bool :=
  if a.balance = b.balance then decide (bcmp a.name b.name ≠ .gt) else decide (b.balance < a.balance)

/-- Put one element into a sorted list. -/
def insertBy {α : Type} (le : α → α → Bool) (x : α) : List α → List α
  | [] => [x]
  | y :: l => if le x y then x :: y :: l else y :: insertBy le x l

/-- `sort.Sort` -/
def sortBy {α : Type} (le : α → α → Bool) : List α → List α
  | [] => []
  | x :: l => insertBy le x (sortBy le l)

/-- `sort.Sort(ByBalance(votes))` -/
def sortVotes (l : List Vote) : List Vote := sortBy Vote.le l

/-- The parameters of a consensus group used here. `common/types/contracts.go:7-24` -/
structure Group where
  nodeCount : Nat
  randCount : Nat
  randRank : Nat
  /-- the number of the group -/
  gid : Nat
  deriving DecidableEq, Repr

/-- The numbers drawn: for a seed, the `k`-th call. -/
abbrev Rand := Int → Nat → Nat

/-- One step of `Perm`: `j := r.Intn(i+1); m[i] = m[j]; m[j] = i` -/
def permStep (m : List Nat) (j : Nat) : List Nat :=
  match m[j]? with
  | some x => m.set j m.length ++ [x]
  | none => m ++ [m.length]

/-- `rand.Perm(n)` -/
def perm (r : Rand) (seed : Int) : Nat → List Nat
  | 0 => []
  | n + 1 => permStep (perm r seed n) (r seed n % (n + 1))

/-- `findSeed`, `vote_algo.go:74-90`; the seed is cut to an `int64`, here left to the generator -/
def findSeed (g : Group) (votes : List Vote) (height seeds : Nat) : Int :=
  if seeds = 0 then (((votes.map (·.balance)).sum + height + g.gid : Nat) : Int)
  else ((seeds + height + g.gid : Nat) : Int)

/-- `ShuffleVotes`, `vote_algo.go:92-102` -/
def shuffle (r : Rand) (g : Group) (votes : List Vote) (height seeds : Nat) : List Vote :=
  (perm r (findSeed g votes height seeds) votes.length).filterMap (fun i => votes[i]?)

/-- `FilterSimple`, `vote_algo.go:129-141` -/
def filterSimple (g : Group) (votes : List Vote) : Option (List Vote × List Vote) :=
  if votes.length ≤ g.nodeCount then some (votes, [])
  else
    let s := sortVotes votes
    if s.length ≤ g.randRank then some (s.take g.nodeCount, s.drop g.nodeCount)
    else if g.randRank < g.nodeCount then none
    else some (s.take g.nodeCount, (s.take g.randRank).drop g.nodeCount)

/-- `calRandCnt`, `vote_algo.go:143-151` -/
def calRandCnt (total randNum : Nat) : Nat := if total / 3 > randNum then randNum else total / 3

/-- A candidate with its success rate, -1 if there is none. `vote_algo.go:350-353` -/
abbrev Rated := Vote × Int

/-- `vote_algo.go:355-371` (`BySuccessRate`) -/
def ratedLe (a b : Rated) : Bool := if a.2 = b.2 then a.1.le b.1 else decide (b.2 < a.2)

/-- `Line`, `vote_algo.go:373-375` -/
def line : Int := 800000

/-- `vote_algo.go:253-261`: rates looked up, then sorted -/
def rated (rates : Table Addr Int) (l : List Vote) : List Rated :=
  sortBy ratedLe (l.map (fun v => (v, (rates.get v.addr).getD (-1))))

/-- The candidates of the second group to be promoted: the first ones, at most two, above the line. `vote_algo.go:288-299`. Gives the
others, then the promoted ones. -/
def promote : Nat → List Rated → List Rated × List Rated
  | _, [] => ([], [])
  | 0, v :: l => (v :: l, [])
  | n + 1, v :: l =>
    if v.2 > line then let (b, i) := promote n l; (b, v :: i)
    else let (b, i) := promote (n + 1) l; (v :: b, i)

/-- `vote_algo.go:302-315`: the last of the demoted with the first of the promoted, and so on, as long as both last. -/
def exchange (del imp : List Rated) : List Rated × List Rated :=
  let k := min del.length imp.length
  (del.take (del.length - k) ++ (imp.take k).reverse, (del.drop (del.length - k)).reverse ++ imp.drop k)

/-- `filterBySuccessRate`, `vote_algo.go:235-338` -/
def filterBySuccessRate (rates : Table Addr Int) (a b : List Vote) : Option (List Vote × List Vote) :=
  if b.length = 0 then some (a, b)
  else if rates.length < 2 then some (a, b)
  else
    let ra := rated rates a
    if ra.length < 2 then none
    else
      let tmps := ra.drop (ra.length - 2)
      let del := tmps.filter (fun v => decide (v.2 ≥ 0 ∧ v.2 < line))
      let a1 := ra.take (ra.length - 2) ++ tmps.filter (fun v => ¬ decide (v.2 ≥ 0 ∧ v.2 < line))
      let (b1, imp) := promote 2 (rated rates b)
      let (del, imp) := exchange del imp
      some ((a1 ++ del).map (·.1), (b1 ++ imp).map (·.1))

/-- `l[v]` for the indices given. -/
def pick (l : List Vote) (is : List Nat) : List Vote := is.filterMap (fun i => l[i]?)

/-- `filterRandV2`, `vote_algo.go:192-233` -/
def filterRandV2 (r : Rand) (g : Group) (a b : List Vote) (height seeds : Nat) : Option (List Vote) :=
  if b.length = 0 then some a
  else
    let total := g.nodeCount
    let a := sortVotes a
    let b := sortVotes b
    let length := a.length + b.length
    let seed := findSeed g (a ++ b) height seeds
    let randCnt := calRandCnt total g.randCount
    let topTotal := total - randCnt
    if topTotal * (length - total) > randCnt * total then
      if length - total < randCnt then none
      else some (pick a ((perm r seed total).take topTotal) ++ pick b ((perm r (seed + 1) (length - total)).take randCnt))
    else
      some (((perm r seed length).take total).filterMap (fun v => if v ≥ total then b[v - total]? else a[v]?))

/-- `FilterVotes`, `vote_algo.go:104-127`. `NewVoteAlgoContext` never passes a nil map of rates on. -/
def filterVotes (r : Rand) (g : Group) (votes : List Vote) (rates : Table Addr Int) (height seeds : Nat) : Option (List Vote) :=
  match filterSimple g votes with
  | none => none
  | some (a, b) =>
    if b.length = 0 then some (sortVotes a)
    else match filterBySuccessRate rates a b with
      | none => none
      | some (a, b) => (filterRandV2 r g a b height seeds).map sortVotes

/-- What `calVotes` does with it, `consensus_snapshot.go:258-320`, `consensus_contract_dpos.go:62-90`: filter, then shuffle. -/
def elect (r : Rand) (g : Group) (votes : List Vote) (rates : Table Addr Int) (height seeds : Nat) : Option (List Vote) :=
  (filterVotes r g votes rates height seeds).map (fun l => shuffle r g l height seeds)

end Verif.Consensus
