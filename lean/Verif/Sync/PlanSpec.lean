import Verif.Sync.PlanModel

/-!
# What a plan should be -/

namespace Verif.Sync

/-- The chunks lead from the block `a` (height, hash) to the block `b` without gap or overlap: each starts after the end of the one before, names its
hash, and has a block. -/
def Leads : Nat × Nat → List Seg → Nat × Nat → Prop
  | a, [], b => a = b
  | a, s :: r, b => s.lo = a.1 + 1 ∧ s.prev = a.2 ∧ s.lo ≤ s.hi ∧ Leads (s.hi, s.hash) r b

/-- Heights of points ascend. -/
def Ascending (l : List Point) : Prop := l.Pairwise (fun p q => p.height < q.height)

/-- Cached chunks as the cache has them: with blocks, from low to high, without overlap, none of the first block's parent. -/
def Stored (segs : List Seg) : Prop := segs.Pairwise (fun s t => s.hi < t.lo) ∧ ∀ s ∈ segs, 1 ≤ s.lo ∧ s.lo ≤ s.hi

/-- The block of a point. -/
def Point.block (p : Point) : Nat × Nat := (p.height, p.hash)

end Verif.Sync
