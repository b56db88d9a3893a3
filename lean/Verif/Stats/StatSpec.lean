import Verif.Stats.StatModel
import Verif.Snap.LimitProps

/-!
# What the statistics of producers have to be

In terms of the blocks on the chain alone: nothing is kept.
-/

namespace Verif.Stats
open Verif.Consensus Verif.Snap

/-- What counts of a block. -/
structure Blk where
  hash : Hash
  height : Nat
  time : Int
  producer : Addr
  deriving DecidableEq, Repr

def Snap.blk (b : Snap) : Blk := ⟨b.hash, b.height, b.time, b.producer⟩

/-- The blocks of a chain. -/
def view (c : Chain) : List Blk := c.map Snap.blk

/-- When a round starts, in nanoseconds. -/
def start (g : Env) (i : Nat) : Int := (g.plan.genesis + g.plan.round * i) * 1000000000

/-- The last block before a time. -/
def lastBefore (v : List Blk) (t : Int) : Option Blk := (v.filter (fun b => decide (b.time < t))).getLast?

/-- The blocks of the rounds from `i` on before `j`; the first block of the chain is not made by a producer. -/
def blocksIn (g : Env) (v : List Blk) (i j : Nat) : List Blk :=
  v.filter (fun b => decide (b.height ≠ 1 ∧ start g i ≤ b.time ∧ b.time < start g j))

/-- How many blocks a producer made in these rounds. -/
def factual (g : Env) (v : List Blk) (i j : Nat) (a : Addr) : Nat := ((blocksIn g v i j).filter (fun b => decide (b.producer = a))).length

/-- How many slots a producer has in a round. -/
def slots (g : Env) (v : List Blk) (k : Nat) (a : Addr) : Nat :=
  match lastBefore v (proofTime g.plan k * 1000000000) with
  | none => 0
  | some pb => ((genPlan g.plan k (g.votes pb.hash)).filter (fun s => decide (s.member = a))).length

/-- How many blocks are expected of a producer: its slots in those of the rounds in which any block was made. -/
def expected (g : Env) (v : List Blk) (i j : Nat) (a : Addr) : Nat :=
  ((List.range' i (j - i)).map (fun k => if (blocksIn g v k (k + 1)).isEmpty then 0 else slots g v k a)).sum

/-- Both, for those that have any. -/
def counts (g : Env) (v : List Blk) (i j : Nat) : Addr → Option Content := fun a =>
  if expected g v i j a = 0 ∧ factual g v i j a = 0 then none else some ⟨expected g v i j a, factual g v i j a⟩

/-- The hash of the last block before a round; of the first block if there is none. -/
def hashAt (g : Env) (v : List Blk) (k : Nat) : Hash :=
  match lastBefore v (start g k), v.head? with
  | some b, _ => b.hash
  | none, some b => b.hash
  | none, none => 0

/-- The statistics of the rounds from `i` on before `j`. -/
def truth (g : Env) (v : List Blk) (i j : Nat) : Point := ⟨hashAt g v i, hashAt g v j, counts g v i j, none⟩

/-- How many rounds one element of an array has. -/
def width (g : Env) : Arr → Nat
  | .period => 1
  | .hour => rate g .hour
  | .day => 24 * rate g .hour

/-- The statistics of an element of an array; those of days have votes as well. -/
def truthOf (g : Env) (v : List Blk) (a : Arr) (i : Nat) : Point :=
  let p := truth g v (i * width g a) ((i + 1) * width g a)
  match a with
  | .day => if p.isEmpty then p else { p with votes := some (g.dayVotes p.hash) }
  | _ => p

/-- The elements of an array from `s` on, `n` of them, in which any block was made, with their statistics. -/
def trueStats (g : Env) (v : List Blk) (a : Arr) (s n : Nat) : List (Nat × Point) :=
  ((List.range' s n).filter (fun i => !(blocksIn g v (i * width g a) ((i + 1) * width g a)).isEmpty)).map (fun i => (i, truthOf g v a i))

/-- The success rates over the 48 rounds up to one. -/
def trueRates (g : Env) (v : List Blk) (k : Nat) : Addr → Option Int := fun a => (counts g v (k + 1 - 48) (k + 1) a).map Content.rate

/-- A chain of the network whose first block is given. -/
structure Valid (g : Env) (first : Snap) (c : Chain) : Prop where
  inv : Inv64 g.toCfg c
  first : c.head? = some first

/-- The round whose rates count for the election at a block. -/
def rateRound (g : Env) (b : Snap) : Nat := g.plan.index.time2Index (unix b.time) - 2

/-- The producers are those that the election chooses from the votes and the true success rates. -/
def Consistent (g : Env) (first : Snap) : Prop :=
  ∀ c, Valid g first c → ∀ pb ∈ c, g.votes pb.hash = g.choose pb.hash (if rateRound g pb = 0 then fun _ => none else trueRates g (view c) (rateRound g pb))

/-- What is asked of the parameters. -/
structure EnvOk (g : Env) (first : Snap) : Prop where
  cfg : CfgOk g.toCfg
  inj : Function.Injective g.H
  small : ∀ h, (g.votes h).length ≤ g.plan.nodeCount
  consistent : Consistent g first
  /-- a round divides an hour -/
  divides : g.plan.round * rate g .hour = 3600

end Verif.Stats
