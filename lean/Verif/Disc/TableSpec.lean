import Verif.Disc.TableModel

/-!
# What the table of nodes should be

A set of nodes: no two with the same identity, no two with the same address,
at most so many of each distance.  The look-ups agree with the set.
-/

namespace Verif.Disc

/-- The nodes of the table. -/
def Tab.all (c : Cfg) (t : Tab) : List Node := (List.range c.num).flatMap fun i => (t.bkts i).list

/-- In every state, whatever the order of the steps: each node lies in the
bucket of its distance, no bucket is over its size, its counter is the number
of its nodes, and neither the own node nor one without identity is there. -/
structure Placed (c : Cfg) (t : Tab) : Prop where
  bucket : ∀ i, ∀ n ∈ (t.bkts i).list, c.slot n.id = i
  bound : ∀ i, (t.bkts i).list.length ≤ c.cap
  counter : ∀ i, (t.bkts i).count = (t.bkts i).list.length
  foreign : ∀ n ∈ t.all c, n.id ≠ c.self ∧ n.id ≠ List.replicate c.N 0

/-- The table is a set of nodes with different identities and different
addresses, and all look-ups and the size agree with it. -/
structure Exact (c : Cfg) (t : Tab) : Prop where
  ids : ((t.all c).map Node.id).Nodup
  addrs : ((t.all c).map Node.addr).Nodup
  byId : ∀ id n, t.resolve c id = some n ↔ n ∈ t.all c ∧ n.id = id
  byAddr : ∀ a n, t.resolveAddr a = some n ↔ n ∈ t.all c ∧ n.addr = a
  size : t.size c = (t.all c).length

/-- The step is neither half of an `add` nor a change of a node in place; and
if it replaces a node, the old one is still the one in the table and no other
node has the identity or the address of the new one. -/
def Calm (c : Cfg) (s : Sys) : Op → Prop
  | .beginAdd _ => False
  | .endAdd _ _ => False
  | .update _ _ => False
  | .pingFailed k => ∀ old new, s.checking[k]? = some (old, new) → ∀ m ∈ s.tab.all c,
      m = old ∨ (m.id ≠ old.id ∧ m.id ≠ new.id ∧ m.addr ≠ new.addr)
  | _ => True

/-- Every step of a history is calm. -/
def CalmRun (c : Cfg) : Sys → List Op → Prop
  | _, [] => True
  | s, op :: ops => Calm c s op ∧ CalmRun c (s.step c op) ops

/-- No step changes a node in place. -/
def NoUpdate : Op → Prop
  | .update _ _ => False
  | _ => True

end Verif.Disc
