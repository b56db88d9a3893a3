import Verif.Tactics

/-!
# Whom a block is forwarded to, and what is known of the peers of a peer

`net/broadcaster.go:114-246`, `net/peer.go:415-446`, `net/msghandler.go:510-542`,
`net/net.go:598-660`.  Peers are their identities.
-/

namespace Verif.Gossip

/-- All peers but the sender.  `net/broadcaster.go:131-142` (`fullForward.choosePeers`). -/
def fullPeers (ours : List Nat) (sender : Nat) : List Nat := ours.filter (fun p => p != sender)

/-- The first pass: the sender is taken out, and the common peers after the first `max`; it counts
the common peers and notes the place of the last one left in.  `net/broadcaster.go:189-206`. -/
def pass1 (told : List Nat) (sender max : Nat) :
    List Nat → Nat → Nat → Nat → List (Option Nat) × Nat × Nat
  | [], _, common, enough => ([], common, enough)
  | p :: ps, i, common, enough =>
    if p = sender then
      let r := pass1 told sender max ps (i + 1) common enough
      (none :: r.1, r.2)
    else if told.contains p then
      if max < common + 1 then
        let r := pass1 told sender max ps (i + 1) (common + 1) enough
        (none :: r.1, r.2)
      else
        let r := pass1 told sender max ps (i + 1) (common + 1) i
        (some p :: r.1, r.2)
    else
      let r := pass1 told sender max ps (i + 1) common enough
      (some p :: r.1, r.2)

/-- The second pass: take out the first `over` common peers.  `net/broadcaster.go:219-233`. -/
def pass2 (told : List Nat) : Nat → List (Option Nat) → List (Option Nat)
  | _, [] => []
  | 0, l => l
  | over + 1, none :: l => none :: pass2 told (over + 1) l
  | over + 1, some p :: l =>
    if told.contains p then none :: pass2 told over l else some p :: pass2 told (over + 1) l

/-- How many of the common peers to keep.  `net/broadcaster.go:213-216`. -/
def want (common ratio : Nat) : Nat :=
  if common * ratio / 100 = 0 then 1 else common * ratio / 100

/-- The peers to forward to, from ours in the order in which they come, those the sender has told of
(none: nothing is known), and the limits.  `net/broadcaster.go:174-246` (`commonPeers`). -/
def commonPeers (ours told : List Nat) (sender max ratio : Nat) : List Nat :=
  if told.isEmpty then fullPeers ours sender
  else
    let r := pass1 told sender max ours 0 0 0
    let common := r.2.1
    let commonMax := min max common
    let slots :=
      if want common ratio < commonMax then
        pass2 told (commonMax - want common ratio) (r.1.take r.2.2) ++ r.1.drop r.2.2
      else r.1
    slots.filterMap id

/-- An entry of a heartbeat: an identity (`none`: of a wrong length) and whether it is connected.
`net/msghandler.go:530-538`. -/
structure Told where
  id : Option Nat
  add : Bool
  deriving DecidableEq, Repr

/-- The loop over the entries; `last` is the variable `id`, which only an addition sets.
`net/peer.go:423-434`. -/
def setLoop : List Told → Nat → List Nat → List Nat
  | [], _, m => m
  | c :: cs, last, m =>
    if c.add then
      match c.id with
      | none => setLoop cs 0 m
      | some i => setLoop cs i (if m.contains i then m else m ++ [i])
    else setLoop cs last (m.filter (fun x => x != last))

/-- What is known of the peers of a peer after a heartbeat.  `net/peer.go:415-442` (`setPeers`);
the zero identity is 0. -/
def setPeers (m : List Nat) (cs : List Told) (patch : Bool) : List Nat :=
  setLoop cs 0 (if patch then m else [])

/-- The sender of heartbeats: the peers it took note of, and when it last sent all (`none`:
never).  `net/net.go:598-603` (`heartBeater`). -/
structure Beater where
  last : Option Nat
  lastPeers : List Nat
  deriving DecidableEq, Repr

/-- A heartbeat: the entries and the flag, in the order of a map's iteration.
`net/net.go:613-660` (`state`).  `last` is never set. -/
def Beater.state (h : Beater) (now : Nat) (ids : List Nat) : Beater × List Told × Bool :=
  let full := match h.last with
    | none => true
    | some t => decide (60 < now - t)
  let before := if full then [] else h.lastPeers
  let gone := before.filter (fun i => !ids.contains i)
  let new := ids.filter (fun i => !before.contains i)
  ({ h with lastPeers := new },
   gone.map (fun i => ⟨some i, false⟩) ++ new.map (fun i => ⟨some i, true⟩), !full)

end Verif.Gossip
