import Verif.Sync.SegCacheProps

/-!
# Cases of C82 and C83 -/

namespace Verif.Sync

/-- Points every 100 blocks; block 100 is the own one. Chunks 301-400 and 401-500 fit, 601-700 is of another branch. -/
def pts : List Point := [⟨100, 10, 0⟩, ⟨200, 20, 5⟩, ⟨300, 30, 5⟩, ⟨400, 40, 5⟩, ⟨500, 50, 5⟩, ⟨600, 60, 5⟩, ⟨700, 70, 5⟩, ⟨800, 80, 5⟩]
def cached : List Seg := [⟨1, 100, 0, 10⟩, ⟨301, 400, 30, 40⟩, ⟨401, 500, 40, 50⟩, ⟨601, 700, 60, 71⟩]

example : Stored cached := ⟨by decide +kernel, by decide +kernel⟩
example : Ascending pts := by unfold Ascending pts; decide +kernel
example : plan cached ⟨100, 10, 0⟩ pts = ([⟨101, 300, 10, 30⟩, ⟨501, 800, 50, 80⟩], [⟨601, 700, 60, 71⟩]) := by decide +kernel
example : ∀ s ∈ cached, s.lo ≠ 800 := by decide +kernel
example : Leads (100, 10) [⟨101, 300, 10, 30⟩, ⟨301, 400, 30, 40⟩, ⟨401, 500, 40, 50⟩, ⟨501, 800, 50, 80⟩] (800, 80) := by simp [Leads]

/-- Tasks end at 2000 blocks or at two megabytes. -/
example : plan [] ⟨0, 1, 0⟩ [⟨0, 1, 0⟩, ⟨1000, 2, 10⟩, ⟨2000, 3, 10⟩, ⟨3000, 4, 10⟩, ⟨4000, 5, 2 ^ 21⟩, ⟨5000, 6, 10⟩] =
    ([⟨1, 2000, 1, 3⟩, ⟨2001, 3000, 3, 4⟩, ⟨3001, 4000, 4, 5⟩, ⟨4001, 5000, 5, 6⟩], []) := by decide +kernel

/-- A chunk from the start: nothing is asked for before it. -/
example : real (plan [⟨101, 300, 10, 30⟩] ⟨100, 10, 0⟩ (pts.take 4)).1 = [⟨301, 400, 30, 40⟩] := by decide +kernel

def dir0 : Path := ['d']
def seg1 : Seg := ⟨1, 100, 0, 10⟩
def seg2 : Seg := ⟨201, 300, 20, 30⟩
def seg3 : Seg := ⟨101, 200, 10, 20⟩

/-- Two chunks are written at the same time; a third that overlaps is refused; one is deleted. -/
def calls : List CacheOp :=
  [.open seg2 ['b'] true, .open seg1 ['a'] true, .write 0 [1, 2], .write 1 [3], .write 0 [4], .open ⟨50, 250, 5, 25⟩ ['c'] true, .close 0 true, .open seg3 ['e'] true,
   .close 1 true, .write 2 [9], .close 2 true, .verify 0, .delete seg1]

example : FairAll dir0 emptyCache calls := by decide +kernel
example : ∀ o ∈ calls, Running o := by unfold calls Running; decide +kernel
example : chunks (calls.foldl (stepCache dir0) emptyCache) = [seg3, seg2] := by decide +kernel
example : newReader dir0 (calls.foldl (stepCache dir0) emptyCache) seg2 = some [1, 2, 4] := by decide +kernel
example : newReader dir0 (calls.foldl (stepCache dir0) emptyCache) seg1 = none := by decide +kernel

/-- The cache takes a chunk in the gap and refuses one that overlaps. -/
example : (newWriter dir0 (calls.foldl (stepCache dir0) emptyCache) seg1 ['f'] true).2.isSome = true := by decide +kernel
example : (newWriter dir0 (calls.foldl (stepCache dir0) emptyCache) ⟨300, 301, 0, 0⟩ ['f'] true).2.isSome = false := by decide +kernel

/-- After a start both chunks are listed and neither can be read. -/
example : chunks (load dir0 (calls.foldl (stepCache dir0) emptyCache)) = [seg3, seg2] := by decide +kernel
example : newReader dir0 (load dir0 (calls.foldl (stepCache dir0) emptyCache)) seg2 = none := by decide +kernel
example : ∃ r ∈ (calls.foldl (stepCache dir0) emptyCache).index, hasFile dir0 (calls.foldl (stepCache dir0) emptyCache).files r.file = true := by decide +kernel

/-- A chunk whose writing was cut off by a crash is not listed. -/
example : chunks (([.open seg1 ['a'] true, .write 0 [1], .restart] : List CacheOp).foldl (stepCache dir0) emptyCache) = [] := by decide +kernel

end Verif.Sync
