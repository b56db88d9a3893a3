import Verif.Tactics

/-!
The queue of the worker's tasks (ledger/onroad/task_pqueue.go and its use in ledger/onroad/contract.go), with the functions of Go's
container/heap. A slice is its length and its contents; what lies behind its length is never looked at. The mutex is left out:
each operation is one step.
-/

namespace Verif.Work.Heap

/-- task_pqueue.go:7-11: contractTask. -/
structure Task where
  addr : Nat
  quota : Nat
  index : Nat
deriving DecidableEq, Repr

/-- task_pqueue.go:13: contractTaskPQueue. -/
structure Pq where
  len : Nat
  get : Nat → Task

/-- task_pqueue.go:32-37: Less is "not smaller", so it also holds for equal quotas. -/
def Pq.less (q : Pq) (i j : Nat) : Bool := if (q.get i).quota < (q.get j).quota then false else true

/-- task_pqueue.go:39-43: Swap. -/
def Pq.swap (q : Pq) (i j : Nat) : Pq :=
  { q with get := fun k => if k = i then { q.get j with index := i } else if k = j then { q.get i with index := j } else q.get k }

/-- container/heap: up. The parent of 0 is 0. -/
def Pq.up (q : Pq) (j : Nat) : Pq :=
  if j = 0 then q
  else if q.less j ((j - 1) / 2) then (q.swap ((j - 1) / 2) j).up ((j - 1) / 2) else q
termination_by j
decreasing_by omega

/-- container/heap: down: the child that is compared. -/
def Pq.child (q : Pq) (i n : Nat) : Nat := if 2 * i + 2 < n ∧ q.less (2 * i + 2) (2 * i + 1) = true then 2 * i + 2 else 2 * i + 1

theorem Pq.child_eq (q : Pq) (i n : Nat) : q.child i n = 2 * i + 1 ∨ q.child i n = 2 * i + 2 := by
  unfold Pq.child
  split
  · exact Or.inr rfl
  · exact Or.inl rfl

/-- container/heap: down: the queue and where the element ends. -/
def Pq.down (q : Pq) (i n : Nat) : Pq × Nat :=
  if n ≤ 2 * i + 1 then (q, i)
  else if q.less (q.child i n) i then (q.swap i (q.child i n)).down (q.child i n) n
  else (q, i)
termination_by n - i
decreasing_by
  have := q.child_eq i n
  omega

/-- container/heap: Fix. -/
def Pq.fix (q : Pq) (i : Nat) : Pq :=
  let r := q.down i q.len
  if r.2 > i then r.1 else r.1.up i

/-- container/heap: Init: the loop over the positions below `k`, from the last. -/
def Pq.initLoop (q : Pq) : Nat → Pq
  | 0 => q
  | k + 1 => ((q.down k q.len).1).initLoop k

/-- contract.go:218-234: getAndSortAllAddrQuota, for the entries of the map in the order they come. -/
def Pq.make (l : List (Nat × Nat)) : Pq :=
  let q : Pq := { len := l.length, get := fun i => { addr := (l.getD i (0, 0)).1, quota := (l.getD i (0, 0)).2, index := i } }
  q.initLoop (q.len / 2)

/-- contract.go:248-249: the first task of the address. -/
def Pq.find (q : Pq) (a : Nat) : Option Nat := (List.range q.len).find? (fun i => (q.get i).addr = a)

/-- contract.go:250: `v.Quota = t.Quota`. -/
def Pq.setQuota (q : Pq) (i k : Nat) : Pq := { q with get := fun j => if j = i then { q.get i with quota := k } else q.get j }

/-- task_pqueue.go:15-19: Push. -/
def Pq.append (q : Pq) (a k : Nat) : Pq :=
  { len := q.len + 1, get := fun j => if j = q.len then { addr := a, quota := k, index := q.len } else q.get j }

/-- contract.go:245-256: pushContractTask, with heap.Push. -/
def Pq.push (q : Pq) (a k : Nat) : Pq :=
  match q.find a with
  | some i => (q.setQuota i k).fix (q.get i).index
  | none => (q.append a k).up q.len

/-- contract.go:258-265: popContractTask, with heap.Pop and Pop (task_pqueue.go:21-28). -/
def Pq.pop (q : Pq) : Option ((Nat × Nat) × Pq) :=
  if q.len = 0 then none
  else
    let r := ((q.swap 0 (q.len - 1)).down 0 (q.len - 1)).1
    some (((r.get (q.len - 1)).addr, (r.get (q.len - 1)).quota), { r with len := q.len - 1 })

end Verif.Work.Heap
