import Verif.Work.HeapModel

/-!
What the queue is for: a table of contracts with their quotas.
-/

namespace Verif.Work.Heap

/-- The table: a contract has at most one quota. -/
abbrev Table := Nat → Option Nat

/-- The table with an entry. -/
def Table.put (m : Table) (a k : Nat) : Table := fun b => if b = a then some k else m b

/-- The table without an entry. -/
def Table.drop (m : Table) (a : Nat) : Table := fun b => if b = a then none else m b

/-- The table of distinct entries. -/
def Table.of (l : List (Nat × Nat)) : Table := fun b => (l.find? (fun e => e.1 = b)).map (·.2)

/-- A queue with the table it stands for: made at a start, changed by pushing and popping. -/
inductive Reach : Pq → Table → Prop
  | make (l : List (Nat × Nat)) : (l.map (·.1)).Nodup → Reach (Pq.make l) (Table.of l)
  | push {q : Pq} {m : Table} (a k : Nat) : Reach q m → Reach (q.push a k) (m.put a k)
  | pop {q q' : Pq} {m : Table} {a k : Nat} : Reach q m → q.pop = some ((a, k), q') → Reach q' (m.drop a)

end Verif.Work.Heap
