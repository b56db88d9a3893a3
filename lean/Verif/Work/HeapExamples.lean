import Verif.Work.HeapProps

/-!
Queues: the hypotheses of the theorems are met.
-/

namespace Verif.Work.Heap

/-- Contract 3 has the greatest quota. -/
example : ((Pq.make [(1, 5), (2, 7), (3, 9), (4, 1)]).pop).map (·.1) = some (3, 9) := by decide +kernel

example : Reach (Pq.make [(1, 5), (2, 7), (3, 9), (4, 1)]) (Table.of [(1, 5), (2, 7), (3, 9), (4, 1)]) := Reach.make _ (by decide)

/-- A push of a contract that is there changes its quota. -/
example : (((Pq.make [(1, 5), (2, 7), (3, 9), (4, 1)]).push 4 10).pop).map (·.1) = some (4, 10) := by decide +kernel
example : (((Pq.make [(1, 5), (2, 7), (3, 9), (4, 1)]).push 3 2).pop).map (·.1) = some (2, 7) := by decide +kernel
example : ((Pq.make [(1, 5), (2, 7), (3, 9), (4, 1)]).push 3 2).len = 4 := by decide +kernel
example : ((Pq.make [(1, 5), (2, 7), (3, 9), (4, 1)]).push 5 2).len = 5 := by decide +kernel

/-- Two contracts with the same quota: the one that was just served is served again. -/
example : ((Pq.make [(1, 9), (2, 9)]).pop).map (·.1) = some (2, 9) := by decide +kernel
example : (((Pq.make [(1, 9), (2, 9)]).pop).bind fun r => ((r.2.push 2 9).pop).map (·.1)) = some (2, 9) := by decide +kernel

end Verif.Work.Heap
