import Verif.Sync.PlanModel

/-!
# Where a synchronising node goes

Models the tree of points that peers send and the choice of a branch (`net/skeleton.go:36-100`, `203-228`), and the choice of the height to reach (`net/peer.go:588-603`, `692-715`,
`net/syncer.go:409-426`). Peers and hashes are numbers. Only the answers that arrive matter, so waiting for them is left out. Maps are walked in an order that is not known: the
functions take it as an argument. -/

namespace Verif.Sync

/-- A node of the tree (`skeleton.go:36-44`), with the hashes that lead to it, its own last. -/
structure TNode where
  path : List Nat
  point : Point
  ps : List Nat
deriving Repr, DecidableEq

/-- The node at a path. -/
def findNode (t : List TNode) (path : List Nat) : Option TNode := t.find? (fun n => decide (n.path = path))

/-- One turn of the loop of `addBranch` (`skeleton.go:56-72`). `ps` is a map, a peer is in it once. -/
def addPoint (t : List TNode) (path : List Nat) (p : Point) (sender : Nat) : List TNode :=
  match findNode t path with
  | some _ => t.map (fun n => if n.path = path then { n with ps := if sender ∈ n.ps then n.ps else sender :: n.ps } else n)
  | none => t ++ [⟨path, p, [sender]⟩]

/-- `addBranch` (`skeleton.go:52-75`) below the node at `path`. -/
def addBranch (t : List TNode) (path : List Nat) : List Point → Nat → List TNode
  | [], _ => t
  | p :: l, sender => addBranch (addPoint t (path ++ [p.hash]) p sender) (path ++ [p.hash]) l sender

/-- The nodes below a node. -/
def below (t : List TNode) (path : List Nat) : List TNode := t.filter (fun n => decide (n.path ≠ [] ∧ n.path.dropLast = path))

/-- The inner loop of `bestBranch` (`skeleton.go:89-94`): the first one that more peers sent than any before. -/
def heaviest : List TNode → Option TNode → Option TNode
  | [], b => b
  | n :: l, none => if n.ps.length > 0 then heaviest l (some n) else heaviest l none
  | n :: l, some b => if n.ps.length > b.ps.length then heaviest l (some n) else heaviest l (some b)

/-- `bestBranch` (`skeleton.go:77-100`) from a node on. `ord` is the order in which the map is walked. No branch is deeper than there are nodes. -/
def bestFrom (ord : List TNode → List TNode) (t : List TNode) : Nat → List Nat → List Point
  | 0, _ => []
  | fuel + 1, path =>
    match heaviest (ord (below t path)) none with
    | none => []
    | some n => n.point :: bestFrom ord t fuel n.path

/-- `bestBranch`. -/
def bestBranch (ord : List TNode → List TNode) (t : List TNode) : List Point := bestFrom ord t t.length []

/-- `receiveHashList` while the node waits (`skeleton.go:203-228`): a list with a block of the black list is dropped, any other is added, also when nobody asked for it. -/
def receiveList (black : Nat → Bool) (t : List TNode) (m : Nat × List Point) : List TNode :=
  if m.2.any (fun p => black p.hash) then t else addBranch t [] m.2 m.1

/-- All answers, in the order in which they arrive. -/
def receiveLists (black : Nat → Bool) (ms : List (Nat × List Point)) : List TNode := ms.foldl (receiveList black) []

/-- `peers.Less` (`peer.go:808-810`): higher ones first. `sort.Sort` is an insertion sort here; peers of the same height may be in any order in the program, their heights are not. -/
def insertPeer (x : Nat × Nat) : List (Nat × Nat) → List (Nat × Nat)
  | [] => [x]
  | y :: l => if x.2 > y.2 then x :: y :: l else y :: insertPeer x l

/-- The reliable peers from high to low (`sortPeers`, `peer.go:692-715`); a peer is its number and its height. -/
def sortPeers (l : List (Nat × Nat)) : List (Nat × Nat) := l.foldr insertPeer []

/-- `syncPeer` (`peer.go:593-603`). -/
def syncPeer (l : List (Nat × Nat)) : Option (Nat × Nat) := (sortPeers l)[l.length / 3]?

/-- `getEnd` (`syncer.go:409-426`) for the height of the first start and that of the peer. -/
def getEnd (start sync : Nat) : Nat :=
  let e := (start + 50000) / 50000 * 50000
  if e > sync then sync else e

end Verif.Sync
