import Verif.Gossip.NetModel

/-!
# What is asked of the nodes passing blocks on

A block that one node sends reaches all nodes connected with it.
-/

namespace Verif.Gossip

/-- The nodes that have sent the block as their own. -/
def origins (c : Blk) : List NetOp → List Nat
  | [] => []
  | .own i _ b :: os => if b = c then i :: origins c os else origins c os
  | _ :: os => origins c os

/-- What is supposed of what happens, with regard to the block `c` and the links `adj`: blocks that
are sent are right, and none but `c` has its hash; nodes say truly who their peers are; and `c` is
not too old for any chain. -/
def Legal (adj : Nat → List Nat) (c : Blk) (net : Net) : NetOp → Prop
  | .own i order b => order.Perm (adj i) ∧ b.valid = true ∧ (b.body = c.body → b = c)
  | .deliver k _ order => ∀ w, net.wire[k]? = some w → order.Perm (adj w.dst)
  | .hear _ p l => ∀ x ∈ l, x ∈ adj p
  | .chain _ top confirmed => (c.snap = true → top ≤ c.height + 100) ∧ confirmed c.body ≤ 100

/-- All that happens is so. -/
def LegalRun (adj : Nat → List Nat) (c : Blk) : Net → List NetOp → Prop
  | _, [] => True
  | net, o :: os => Legal adj c net o ∧ LegalRun adj c (net.step o) os

/-- Where it starts: nobody has heard of `c`, nobody is syncing, `c` is not black or too old; other
blocks may be anywhere. -/
structure Start (adj : Nat → List Nat) (c : Blk) (net : Net) : Prop where
  right : c.valid = true
  unseen : ∀ i, c.body ∉ (net.node i).filter
  unknown : ∀ i p, c.body ∉ (net.node i).known p
  live : ∀ i, (net.node i).st.exited = true
  white : ∀ i, c.claimed ∉ (net.node i).black
  told : ∀ i p, ∀ x ∈ (net.node i).told p, x ∈ adj p
  young : ∀ i, (c.snap = true → (net.node i).top ≤ c.height + 100) ∧ (net.node i).confirmed c.body ≤ 100
  wire : ∀ w ∈ net.wire, w.b.valid = true ∧ w.b.body ≠ c.body

/-- The block is on its way to somebody. -/
def inFlight (c : Blk) (net : Net) : Prop := ∃ w ∈ net.wire, w.b = c

/-- From one node to another over links. -/
inductive Linked (adj : Nat → List Nat) (i : Nat) : Nat → Prop
  | here : Linked adj i i
  | on (j k : Nat) : Linked adj i j → k ∈ adj j → Linked adj i k

/-- How many messages with the block arrived. -/
def arrived (c : Blk) : Net → List NetOp → Nat
  | _, [] => 0
  | net, o :: os =>
    (match o with
      | .deliver k _ _ =>
        match net.wire[k]? with
        | some w => if w.b = c then 1 else 0
        | none => 0
      | _ => 0) + arrived c (net.step o) os

end Verif.Gossip
