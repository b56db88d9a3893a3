import Verif.Gossip.Model

/-!
# Nodes that pass blocks on to each other

The nodes of `Model`, each with its own identity, and the messages on their way between them: a
message arrives some time after it was sent, in any order, and is not lost.  `net/broadcaster.go`,
`net/peer.go:283-330` (`WriteMsg` puts a message on the peer's queue; the model does not have the
case of a full queue, in which it is dropped).
-/

namespace Verif.Gossip

/-- A message on its way. -/
structure Wire where
  src : Nat
  dst : Nat
  ttl : Nat
  b : Blk
  deriving DecidableEq, Repr

/-- All nodes and all messages on their way. -/
structure Net where
  node : Nat → Node
  wire : List Wire

/-- What may happen: a node sends a block of its own, a message arrives, a node hears of the peers of
a peer, a node's chain moves. -/
inductive NetOp where
  | own (i : Nat) (order : List Nat) (b : Blk)
  | deliver (k : Nat) (pick : Bool) (order : List Nat)
  | hear (i p : Nat) (l : List Nat)
  | chain (i top : Nat) (confirmed : Nat → Nat)

/-- The new state of a node, and the messages that it sends with the block. -/
def Net.put (net : Net) (i : Nat) (b : Blk) (r : Node × List (Nat × Nat)) : Net :=
  { node := fun j => if j = i then r.1 else net.node j,
    wire := net.wire ++ r.2.map (fun m => ⟨i, m.1, m.2, b⟩) }

/-- One of these. -/
def Net.step (net : Net) : NetOp → Net
  | .own i order b => net.put i b ((net.node i).step (.own order b))
  | .deliver k pick order =>
    match net.wire[k]? with
    | none => net
    | some w =>
      ({ net with wire := net.wire.eraseIdx k } : Net).put w.dst w.b
        ((net.node w.dst).step (.recv pick order w.src w.b w.ttl))
  | .hear i p l => net.put i ⟨true, 0, 0, 0, true⟩ ((net.node i).step (.hear p l))
  | .chain i top confirmed => net.put i ⟨true, 0, 0, 0, true⟩ ((net.node i).step (.chain top confirmed))

/-- Some of them, one after the other. -/
def Net.run (net : Net) : List NetOp → Net
  | [] => net
  | o :: os => (net.step o).run os

end Verif.Gossip
