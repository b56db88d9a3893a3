import Verif.Batch.BatchProps
import Verif.Batch.TopoProps

/-!
# Batches and sorting: concrete cases, and what goes wrong -/

namespace Verif.Batch

/-! ## A batch -/

/-- A ledger with the account blocks 100 and 200 and the snapshot block 900. -/
def exLedger : Ledger := ⟨fun k => k == 100 || k == 200, fun k => k == 900⟩

/-- A block of account 1, a block of account 2 that receives from it, a snapshot block of both, and one more block of account 1. -/
def exA : Item := ⟨some 1, 101, 100, [101], [100], none⟩
def exB : Item := ⟨some 2, 201, 200, [201], [200, 101], none⟩
def exS : Item := ⟨none, 901, 900, [901], [101, 201], some 900⟩
def exC : Item := ⟨some 1, 102, 101, [102], [101], none⟩
/-- A block that refers to a block nobody has. -/
def exD : Item := ⟨some 3, 301, 300, [301], [300], none⟩

example : takenOf exLedger 50 [exA, exD, exB, exS, exC] = [exA, exB, exS, exC] := by decide +kernel
example : panicsOf exLedger 50 [exA, exD, exB, exS, exC] = false := by decide +kernel
example : (batchOf exLedger 50 [exA, exD, exB, exS, exC]).ls =
    [⟨false, true, [(some 1, [exA])]⟩, ⟨false, true, [(some 2, [exB])]⟩, ⟨true, false, [(none, [exS])]⟩, ⟨false, false, [(some 1, [exC])]⟩] := by decide +kernel

theorem one_bucket (x : Item) : ∃ m, Works (startLevel [[x]]) m ∧ m.over ∧ m.err = false ∧ m.done = [x] := by
  refine ⟨⟨[], [], 1, 0, false, [x]⟩, ?_, ⟨rfl, rfl, Or.inl rfl⟩, rfl, rfl⟩
  have h0 : Works (startLevel [[x]]) ⟨[[x]], [], 1, 0, false, []⟩ := Works.refl
  have h1 := Works.step h0 Work.take
  have h2 := Works.step h1 (Work.insert (bs₁ := []))
  exact Works.step h2 (Work.finish (bs₁ := []))

/-- A run of this batch that is through. -/
theorem ex_run : Run (batchOf exLedger 50 [exA, exD, exB, exS, exC]).ls [exA, exB, exS, exC] .through := by
  have hls : (batchOf exLedger 50 [exA, exD, exB, exS, exC]).ls =
      [⟨false, true, [(some 1, [exA])]⟩, ⟨false, true, [(some 2, [exB])]⟩, ⟨true, false, [(none, [exS])]⟩, ⟨false, false, [(some 1, [exC])]⟩] := by decide +kernel
  rw [hls]
  obtain ⟨m1, w1, o1, e1, d1⟩ := one_bucket exA
  obtain ⟨m2, w2, o2, e2, d2⟩ := one_bucket exB
  obtain ⟨m4, w4, o4, e4, d4⟩ := one_bucket exC
  have r4 := Run.accAll (l := ⟨false, false, [(some 1, [exC])]⟩) rfl (List.Perm.refl _) w4 o4 e4 Run.nil
  have r3 := Run.snapAll (l := ⟨true, false, [(none, [exS])]⟩) rfl rfl r4
  have r2 := Run.accAll (l := ⟨false, true, [(some 2, [exB])]⟩) rfl (List.Perm.refl _) w2 o2 e2 r3
  have r1 := Run.accAll (l := ⟨false, true, [(some 1, [exA])]⟩) rfl (List.Perm.refl _) w1 o1 e1 r2
  rw [d1, d2, d4] at r1
  exact r1

example : ∀ k ∈ exB.refs, exLedger.acc k = true ∨ ∃ y ∈ [exA], k ∈ y.keys := (refs_first exLedger (by decide) _ ex_run (pre := [exA]) (post := [exS, exC]) rfl).1
example : ∃ T₁ T₂, [exA, exB, exS, exC] = T₁ ++ exS :: T₂ ∧ T₁.Perm [exA, exB] ∧ T₂.Perm [exC] :=
  snapshots_cut exLedger (by decide) _ ex_run (A₁ := [exA, exB]) (A₂ := [exC]) (by decide +kernel) rfl

/-- Without room the block that must go higher is refused, and the batch stays. -/
example : (batchOf exLedger 1 [exA]).add exLedger exB = (batchOf exLedger 1 [exA], .full) := by decide +kernel
/-- A block that does not follow the last one of its account. -/
example : ((batchOf exLedger 50 [exA]).add exLedger ⟨some 1, 103, 100, [103], [100], none⟩).2 = .badLink := by decide +kernel

/-- An account block that gives the hash of a snapshot block of the same batch as the block it receives brings the program down, whatever the ledger has and however many levels
there are: the snapshot block has no owner to compare with (`batch_impl.go:192`). Nothing that was checked before the batch is made rules this out. -/
theorem snapshot_ref_panics (L : Ledger) {cap : Nat} (hcap : 0 < cap) {z x : Item} (hz : z.owner = none) (hzr : z.refs = []) (hzs : ∀ r, z.sref = some r → L.snap r = true)
    {k : Nat} {rs : List Nat} (hk : k ∈ z.keys) (hx : x.owner ≠ none) (hxr : x.refs = k :: rs) : panicsOf L cap [z, x] = true := by
  obtain ⟨zo, zh, zp, zk, zr, zs⟩ := z
  obtain ⟨xo, xh, xp, xk, xr, xs⟩ := x
  dsimp only at *
  subst hz hzr hxr
  obtain ⟨a, rfl⟩ := Option.ne_none_iff_exists'.1 hx
  have hS : St.knownS L (newBatch cap) zs = true := by
    cases zs with
    | none => rfl
    | some r => simp [St.knownS, hzs r rfl]
  have h1 : (newBatch cap).add L ⟨none, zh, zp, zk, [], zs⟩ =
      (⟨cap, [⟨true, false, [(none, [⟨none, zh, zp, zk, [], zs⟩])]⟩], 1, zk.map fun k => (k, (none, 0))⟩, .ok) := by
    unfold St.add
    dsimp only
    unfold St.addS
    rw [if_neg (by simp [St.known]), if_neg (by simp [hS])]
    simp [newBatch, newLevel, St.put, closeUp, closeFrom, bucketsAdd, bucketAdd, Nat.ne_of_gt hcap]
  have hf : St.find ⟨cap, [⟨true, false, [(none, [⟨none, zh, zp, zk, [], zs⟩])]⟩], 1, zk.map fun k => (k, ((none : Option Nat), 0))⟩ k = some (none, 0) := by
    unfold St.find
    rw [Option.map_eq_some_iff]
    refine ⟨(k, (none, 0)), ?_, rfl⟩
    dsimp only
    clear h1
    induction zk with
    | nil => cases hk
    | cons b zk ih =>
      by_cases hb : b = k
      · subst hb; simp
      · rw [List.map_cons, List.find?_cons_of_neg (by simpa using hb)]
        exact ih (by rcases List.mem_cons.1 hk with h | h; exact absurd h.symm hb; exact h)
  unfold panicsOf addAll
  rw [h1]
  dsimp only
  unfold addAll St.add
  dsimp only
  unfold St.addA St.lowest
  dsimp only
  rw [hf]
  simp

/-- Such a pair. -/
example : panicsOf exLedger 50 [⟨none, 901, 900, [901], [], some 900⟩, ⟨some 1, 101, 100, [101], [901, 100], none⟩] = true := by decide +kernel

/-! ## Sorting -/

/-- Three blocks in the wrong order: the first refers to the other two, the second to the third; 50 is a block that is not among them. -/
def exNodes : List Node := [⟨1, [1], [21, 3, 50]⟩, ⟨2, [2, 21], [3]⟩, ⟨3, [3], [50]⟩]

theorem exNodes_graph : graphOf exNodes = [⟨1, 2, []⟩, ⟨2, 1, [1]⟩, ⟨3, 0, [1, 2]⟩] := by decide +kernel
example : topoSort exNodes = .done [⟨3, [3], [50]⟩, ⟨2, [2, 21], [3]⟩, ⟨1, [1], [21, 3, 50]⟩] := by decide +kernel
example : (exNodes.map (·.id)).Nodup := by decide
/-- Two blocks that refer to each other. -/
example : topoSort [⟨1, [1], [2]⟩, ⟨2, [2], [1]⟩] = .cycle := by decide +kernel

/-- The same block twice among the blocks of a chunk brings the program down: its count goes to 0 too early, and then the count of a block that is there no more goes down
(`topsort.go:65-66`). -/
theorem topo_twice_panics : topoSort [⟨1, [1], []⟩, ⟨2, [2], [1, 3]⟩, ⟨2, [2], [1, 3]⟩, ⟨3, [3], [1]⟩] = .panic := by decide +kernel

/-- Or its count goes below 0, and a cycle is reported where there is none. -/
theorem topo_twice_cycle : topoSort [⟨1, [1], []⟩, ⟨2, [2], [1]⟩, ⟨2, [2], [1]⟩] = .cycle := by decide +kernel

end Verif.Batch
