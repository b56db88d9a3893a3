import Verif.Tactics
import Mathlib.Data.List.Sort

/-!
# Sorting the account blocks of a chunk

Models `toposort.TopoSort` (`tools/toposort/sort.go`, `tools/toposort/topsort.go`) as the pool uses it (`ledger/pool/face.go`, `ledger/pool/pool_batch_chunk.go:104-110`). Ids
are numbers; as strings they are hexadecimal forms of hashes of one length, which are ordered in the same way. -/

namespace Verif.Batch

/-- What is sorted (`face.go:13-39`): the hash of a block, the hashes by which others refer to it (its own and those of the sends in it), and the hashes it refers to. -/
structure Node where
  id : Nat
  names : List Nat
  inputs : List Nat
deriving Repr, DecidableEq

/-- `alias[k]` (`sort.go:45-49`): the last node that has this alias. -/
def realOf (ns : List Node) (k : Nat) : Option Nat := (ns.reverse.find? fun n => decide (k ∈ n.names)).map (·.id)

/-- The nodes an input stands for (`sort.go:56-60`). -/
def realInputs (ns : List Node) (n : Node) : List Nat := n.inputs.filterMap (realOf ns)

/-- `unsortedMap[real].outputs` (`sort.go:56-64`). -/
def outputsOf (env : List Node) (ns : List Node) (r : Nat) : List Nat := ns.flatMap fun n => ((realInputs env n).filter fun x => decide (x = r)).map fun _ => n.id

/-- A node in the graph: what is left to count down and whom it counts down. -/
structure GNode where
  id : Nat
  cnt : Int
  outs : List Nat
deriving Repr, DecidableEq

/-- `unsortedMap` (`sort.go:50-54`): the last node of every id. -/
def keepLast : List Node → List Node
  | [] => []
  | n :: ns => if ns.any (fun m => decide (m.id = n.id)) then keepLast ns else n :: keepLast ns

/-- The graph (`sort.go:50-66`). -/
def graphOf (ns : List Node) : List GNode := (keepLast ns).map fun n => ⟨n.id, ((realInputs ns n).length : Int), outputsOf ns ns n.id⟩

/-- The counts of the outputs go down (`topsort.go:64-67`); `none` is the nil pointer of an output that is not there any more. -/
def countDown : List GNode → List Nat → Option (List GNode)
  | us, [] => some us
  | us, o :: os =>
    if us.any (fun u => decide (u.id = o)) then countDown (us.map fun u => if u.id = o then { u with cnt := u.cnt - 1 } else u) os else none

/-- One node is moved (`topsort.go:37-40`, `:64-68`). -/
def moveOne (st : List Nat × List GNode) (n : GNode) : Option (List Nat × List GNode) :=
  (countDown st.2 n.outs).map fun us => (st.1 ++ [n.id], us.filter fun u => decide (u.id ≠ n.id))

/-- The nodes of one round, one after the other (`topsort.go:63-69`). -/
def moveAll : List Nat × List GNode → List GNode → Option (List Nat × List GNode)
  | st, [] => some st
  | st, n :: ns =>
    match moveOne st n with
    | none => none
    | some st => moveAll st ns

/-- `filterZero` (`topsort.go:26-35`): the nodes with nothing left to count down, by id. -/
def zeros (us : List GNode) : List GNode := (us.filter fun u => decide (u.cnt = 0)).insertionSort (fun a b => a.id ≤ b.id)

/-- What sorting comes to. -/
inductive Sorted (α : Type) where
  | done (l : α)
  | cycle
  | panic
deriving Repr, DecidableEq

/-- `tpSort` (`topsort.go:55-75`). Every round moves a node, so there are no more rounds than nodes. -/
def rounds : Nat → List Nat × List GNode → Sorted (List Nat)
  | 0, st => .done st.1
  | f + 1, st =>
    if (zeros st.2).isEmpty && !st.2.isEmpty then .cycle
    else match moveAll st (zeros st.2) with
      | none => .panic
      | some st => if st.2.isEmpty then .done st.1 else rounds f st

/-- `sortedIndex` (`sort.go:72-74`). -/
def indexIn (l : List Nat) (n : Node) : Nat := l.findIdx fun x => decide (x = n.id)

/-- `TopoSort` (`sort.go:28-86`): the nodes by their place in the sorted list. `sort.Sort` need not keep the order of equal places; there are none when the ids differ. -/
def topoSort (ns : List Node) : Sorted (List Node) :=
  match rounds ns.length ([], graphOf ns) with
  | .done l => .done (ns.insertionSort fun a b => indexIn l a ≤ indexIn l b)
  | .cycle => .cycle
  | .panic => .panic

end Verif.Batch
