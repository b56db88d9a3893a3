import Verif.Store.NodeProps

/-!
# Examples for the stores of a node, and what goes wrong

A history with a crash in the middle of a commit, which meets the hypotheses of the theorems; a store that is switched off
between a crash and the recovery; a loss of power.
-/

namespace Verif.Store
open Verif.Bytes

/-- Two key-value stores, files of four bytes. -/
def twoCfg : Cfg := ⟨2, fun i => List.replicate 32 (UInt8.ofNat (i + 1)), List.replicate 32 9, List.replicate 32 255, 4, 10⟩

theorem twoCfg_good : twoCfg.Good where
  S0 := by decide
  S32 := by decide
  flag := by decide
  fid := by decide
  fidF := by decide +kernel
  ids := by decide +kernel
  inj := by decide +kernel

def run (cfg : Cfg) : Node → List NOp → Option Node
  | nd, [] => some nd
  | nd, op :: ops => match nd.step cfg op with
    | none => none
    | some nd' => run cfg nd' ops

def firstNode : Node := ⟨fun _ => Kv.fresh (fun _ => none), ⟨(FM.start []).getD ⟨[], ⟨0, 0⟩, ⟨0, 0⟩⟩, [], none⟩, [], .idle⟩

/-- An account block is written and confirmed, and flushed; then more is written, and the next flush begins: its log is written, the
first store has committed. -/
def someOps : List NOp :=
  [.kv 0 (.direct [⟨[1], some [10]⟩]), .kv 1 (.block [7] [⟨[5], some [50]⟩]), .kv 1 (.block [8] [⟨[6], some [60]⟩]), .write [1, 2, 3],
   .kv 1 (.snapshot [⟨[4], some [40]⟩] [[8]]), .prepare, .log, .commit (some 0), .commit none, .kv 0 (.direct [⟨[1], some [11]⟩]),
   .commit (some 1), .finish, .write [4, 5, 6], .kv 1 (.snapshot [⟨[4], some [41]⟩] [[7]]), .prepare, .log, .commit (some 0)]

/-- What the second flush writes to the key-value stores. -/
def someBatches (i : Nat) : Batch := if i = 0 then [⟨[1], some [11]⟩] else [⟨[5], some [50]⟩, ⟨[4], some [41]⟩]

theorem someBatches_small : SmallLog twoCfg ⟨⟨1, 3⟩, ⟨2, 2⟩, [4, 5, 6]⟩ someBatches := by
  refine ⟨by decide +kernel, ?_, by decide, by decide⟩
  intro i hi
  have : i = 0 ∨ i = 1 := by have : i < 2 := hi; omega
  rcases this with rfl | rfl <;> decide +kernel

/-- The steps taken so far, with what they should do. -/
theorem someHist : ∃ nd x, NHist twoCfg nd x ∧ run twoCfg firstNode someOps = some nd ∧ nd.phase = .logged [none, some 1] ∧
    (nd.kv 0).disk [1] = some [11] ∧ (nd.kv 1).disk [4] = some [40] ∧ x.str = [1, 2, 3, 4, 5, 6] ∧ x.saved.2 = [1, 2, 3] ∧
    x.saved.1 0 [1] = some [10] ∧ x.coming.map (fun c => (c.1 0 [1], c.1 1 [4], c.1 1 [5])) = some (some [11], some [41], some [50]) ∧
    x.coming.map (·.2) = some [1, 2, 3, 4, 5, 6] ∧ nd.fs.fly = some ⟨⟨1, 3⟩, ⟨2, 2⟩, [4, 5, 6]⟩ ∧ nd.fs.files = [(1, [1, 2, 3])] ∧
    (∃ fm, nd.fs.fm.flush 4 nd.fs.files ⟨1, 3⟩ ⟨2, 2⟩ [4, 5, 6] = some (fm, [.write 1 3 [4], .create 2, .write 2 0 [5, 6]])) ∧
    nd.log = redoLog twoCfg ⟨⟨1, 3⟩, ⟨2, 2⟩, [4, 5, 6]⟩ someBatches := by
  have hsmall : ∀ (nd : Node) (st : Node) (F : Fly), nd.step twoCfg .prepare = some st → st.fs.fly = some F →
      SmallLog twoCfg F (fun i => (st.kv i).fly.getD []) → ∀ nd' fly, nd.step twoCfg .prepare = some nd' → nd'.fs.fly = some fly →
      SmallLog twoCfg fly (fun i => (nd'.kv i).fly.getD []) := by
    intro nd st F h1 h2 h3 nd' fly h4 h5
    rw [h1] at h4
    injection h4 with h4
    subst h4
    rw [h2] at h5
    injection h5 with h5
    subst h5
    exact h3
  have h0 : NHist twoCfg firstNode _ := NHist.init _ rfl
  have h1 := NHist.step (.kv 0 (.direct [⟨[1], some [10]⟩])) h0 ⟨by decide, by intro e he; cases he⟩ rfl
  have h2 := NHist.step (.kv 1 (.block [7] [⟨[5], some [50]⟩])) h1 ⟨by decide, trivial⟩ rfl
  have h3 := NHist.step (.kv 1 (.block [8] [⟨[6], some [60]⟩])) h2 ⟨by decide, trivial⟩ rfl
  have h4 := NHist.step (.write [1, 2, 3]) h3 (by intro fly hf; cases hf) rfl
  have h5 := NHist.step (.kv 1 (.snapshot [⟨[4], some [40]⟩] [[8]])) h4 ⟨by decide, by
    refine ⟨⟨_, rfl, ?_⟩, ?_⟩
    · show ∀ e ∈ ([(some [7], [⟨[5], some [50]⟩])] : Pending), Apart e.2 [⟨[6], some [60]⟩]
      unfold Apart; decide
    · show ∀ e ∈ ([(some [7], [⟨[5], some [50]⟩])] : Pending), Apart e.2 [⟨[4], some [40]⟩]
      unfold Apart; decide⟩ rfl
  have h6 := NHist.step .prepare h5 ⟨rfl, hsmall _ _ ⟨⟨1, 0⟩, ⟨1, 3⟩, [1, 2, 3]⟩ rfl rfl (by
    refine ⟨by decide +kernel, ?_, by decide, by decide⟩
    intro i hi
    have : i = 0 ∨ i = 1 := by have : i < 2 := hi; omega
    rcases this with rfl | rfl <;> decide +kernel)⟩ rfl
  have h7 := NHist.step .log h6 rfl rfl
  have h8 := NHist.step (.commit (some 0)) h7 ⟨_, rfl, by decide⟩ rfl
  have h9 := NHist.step (.commit none) h8 ⟨_, rfl, by decide⟩ rfl
  have h10 := NHist.step (.kv 0 (.direct [⟨[1], some [11]⟩])) h9 ⟨by decide, by intro e he; cases he⟩ rfl
  have h11 := NHist.step (.commit (some 1)) h10 ⟨_, rfl, by decide⟩ rfl
  have h12 := NHist.step .finish h11 rfl rfl
  have h13 := NHist.step (.write [4, 5, 6]) h12 (by intro fly hf; cases hf) rfl
  have h14 := NHist.step (.kv 1 (.snapshot [⟨[4], some [41]⟩] [[7]])) h13 ⟨by decide, by
    refine ⟨⟨_, rfl, ?_⟩, ?_⟩
    · intro e he; cases he
    · intro e he; cases he⟩ rfl
  have h15 := NHist.step .prepare h14 ⟨rfl, hsmall _ _ ⟨⟨1, 3⟩, ⟨2, 2⟩, [4, 5, 6]⟩ rfl rfl (by
    refine ⟨by decide +kernel, ?_, by decide, by decide⟩
    intro i hi
    have : i = 0 ∨ i = 1 := by have : i < 2 := hi; omega
    rcases this with rfl | rfl <;> decide +kernel)⟩ rfl
  have h16 := NHist.step .log h15 rfl rfl
  have h17 := NHist.step (.commit (some 0)) h16 ⟨_, rfl, by decide⟩ rfl
  refine ⟨_, _, h17, rfl, rfl, rfl, rfl, rfl, rfl, rfl, rfl, rfl, rfl, rfl, ⟨_, rfl⟩, rfl⟩

/-- The hypotheses of `crash_atomic` are met: the node stops within the commit of the block files, between the stores, and recovers. -/
example : ∃ nd x torn nd', NHist twoCfg nd x ∧ CanTear twoCfg nd torn ∧ torn ≠ [] ∧ Spans twoCfg (nd.stop twoCfg 0 torn) ∧
    (nd.stop twoCfg 0 torn).kv 0 [1] = some [11] ∧ (nd.stop twoCfg 0 torn).kv 1 [4] = some [40] ∧
    (nd.stop twoCfg 0 torn).files = [(1, [1, 2, 3, 4]), (2, [5])] ∧ (nd.stop twoCfg 0 torn).recover twoCfg = some nd' ∧
    (nd'.kv 0).get [1] = some [11] ∧ (nd'.kv 1).get [4] = some [41] := by
  obtain ⟨nd, x, h1, h2, h3, h4, h5, h6, h7, h8, h9, h10, h11, h12, ⟨fm, h13⟩, h14⟩ := someHist
  have hl : (nd.stop twoCfg 0 [.write 1 3 [4], .create 2, .write 2 0 [5]]).log = redoLog twoCfg ⟨⟨1, 3⟩, ⟨2, 2⟩, [4, 5, 6]⟩ someBatches := by
    simp only [Node.stop, h3]; exact h14
  have hf : (nd.stop twoCfg 0 [.write 1 3 [4], .create 2, .write 2 0 [5]]).files = [(1, [1, 2, 3, 4]), (2, [5])] := by
    simp only [Node.stop, h12]; decide +kernel
  have ht : CanTear twoCfg nd [.write 1 3 [4], .create 2, .write 2 0 [5]] := by
    refine Or.inr ⟨_, _, fm, _, h3, by simp, h11, h13, ?_⟩
    intro t ht
    simp only [List.mem_cons, List.not_mem_nil, or_false] at ht
    rcases ht with rfl | rfl | rfl
    · exact ⟨_, by simp, .whole _⟩
    · exact ⟨_, by simp, .whole _⟩
    · exact ⟨.write 2 0 [5, 6], by simp, .part 2 0 1 [5, 6]⟩
  have hsp : Spans twoCfg (nd.stop twoCfg 0 [.write 1 3 [4], .create 2, .write 2 0 [5]]) := by
    refine spans_of_log twoCfg_good hl someBatches_small ⟨by decide, by decide⟩ ⟨by decide, by decide⟩ (by decide) ?_
    intro g hg
    rw [hf]
    have hg : 2 < g := hg
    have h1 : ¬ (1 = g) := by omega
    have h2 : ¬ (2 = g) := by omega
    simp [Table.get, h1, h2]
  obtain ⟨nd', hn⟩ := recovery_succeeds_partial twoCfg_good h1 0 _ ht hsp (.refl _)
  obtain ⟨c, c1, c2, c3⟩ := crash_atomic twoCfg_good h1 0 _ ht (.refl _) hn
  have hc := commit_not_lost h3 c1
  rw [hc] at h9
  simp only [Option.map_some, Option.some.injEq, Prod.mk.injEq] at h9
  exact ⟨nd, x, _, nd', h1, ht, by simp, hsp, h4, h5, hf, hn, by rw [c2 0 (by decide)]; exact h9.1, by rw [c2 1 (by decide)]; exact h9.2.1⟩

/-! ### What goes wrong -/

/-- The same node with the last store switched off: the store of the plugins is only opened if the configuration says so, and it is
the last one (chain/chain.go:286-299). -/
def oneCfg : Cfg := { twoCfg with n := 1 }

/-- C38. **A store that is switched off between a crash and the restart tears the flush apart**: its id is found in the redo log and is
not known, the recovery takes this for an incomplete log and empties it without a word (flusher.go:155-159, 316-319). The store
that had already committed keeps the new content, the block files the old one. -/
theorem recovery_without_store_not_atomic : ∃ nd x nd', NHist twoCfg nd x ∧ LogComplete twoCfg nd 0 ∧ x.saved.2 = [1, 2, 3] ∧
    x.saved.1 0 [1] = some [10] ∧ x.coming.map (fun c => (c.1 0 [1], c.2)) = some (some [11], [1, 2, 3, 4, 5, 6]) ∧
    (nd.stop twoCfg 0 []).recover oneCfg = some nd' ∧ (nd'.kv 0).get [1] = some [11] ∧
    nd'.fs.fm.readRange 4 nd'.fs.files ⟨1, 0⟩ nd'.fs.fm.latest = some [1, 2, 3] ∧ nd'.log = [] := by
  obtain ⟨nd, x, h1, h2, h3, h4, h5, h6, h7, h8, h9, h10, h11, h12, ⟨fm, h13⟩, h14⟩ := someHist
  have hlog : loadLog oneCfg.flag oneCfg.known (redoLog twoCfg ⟨⟨1, 3⟩, ⟨2, 2⟩, [4, 5, 6]⟩ someBatches) = none := by decide +kernel
  have hst : FM.start [(1, [1, 2, 3])] = some ⟨[⟨1, [1, 2, 3], true⟩], ⟨1, 3⟩, ⟨1, 3⟩⟩ := by decide +kernel
  have hd : nd.stop twoCfg 0 [] = ⟨fun i => (nd.kv i).disk, [(1, [1, 2, 3])], redoLog twoCfg ⟨⟨1, 3⟩, ⟨2, 2⟩, [4, 5, 6]⟩ someBatches⟩ := by
    simp only [Node.stop, h3, h12, h14]; rfl
  have hr : (nd.stop twoCfg 0 []).recover oneCfg = some ⟨fun i => Kv.fresh (nd.kv i).disk, ⟨⟨[⟨1, [1, 2, 3], true⟩], ⟨1, 3⟩, ⟨1, 3⟩⟩, [(1, [1, 2, 3])], none⟩, [], .idle⟩ := by
    rw [hd]
    simp only [Disk.recover, Disk.begin, hst, hlog, patchAll, Option.map_some]
  refine ⟨nd, x, _, h1, by simp [LogComplete, h3], h7, h8, ?_, hr, ?_, rfl, rfl⟩
  · cases hx : x.coming with
    | none => rw [hx] at h9; cases h9
    | some c =>
      rw [hx] at h9 h10
      simp only [Option.map_some, Option.some.injEq, Prod.mk.injEq] at h9 h10 ⊢
      exact ⟨h9.1, h10⟩
  · rw [Kv.get_eq]
    exact h4

/-- The disk after a loss of power: the block files and the redo log are synced when they are written (file_manager/fd.go:122,
flusher.go:430-454), the writes of the key-value stores are not (`db.Write(batch, nil)`, db/flush.go:50; without options a write
is not synced, common/db/xleveldb/opt/options.go:671-676): they may be back at an earlier content `old`. -/
def Node.powerLoss (cfg : Cfg) (nd : Node) (old : Nat → KMap) : Disk := { nd.stop cfg 0 [] with kv := old }

/-- C38. **A loss of power after a flush can tear it apart**: the redo log is emptied although the key-value stores are not synced, and
after the restart they are behind the block files. -/
theorem power_loss_not_atomic : ∃ nd0 x0 nd x nd', NHist twoCfg nd0 x0 ∧ NHist twoCfg nd x ∧ nd.phase = .idle ∧ x.saved.2 = [1, 2, 3] ∧
    x.saved.1 0 [1] = some [10] ∧ (nd.powerLoss twoCfg (fun i => (nd0.kv i).disk)).recover twoCfg = some nd' ∧ (nd'.kv 0).get [1] = none ∧
    nd'.fs.fm.readRange 4 nd'.fs.files ⟨1, 0⟩ nd'.fs.fm.latest = some [1, 2, 3] := by
  have h0 : NHist twoCfg firstNode _ := NHist.init _ rfl
  have h1 := NHist.step (.kv 0 (.direct [⟨[1], some [10]⟩])) h0 ⟨by decide, by intro e he; cases he⟩ rfl
  have h4 := NHist.step (.write [1, 2, 3]) h1 (by intro fly hf; cases hf) rfl
  have h6 := NHist.step .prepare h4 ⟨rfl, by
    intro nd' fly h5 h6
    have e : nd' = _ := (Option.some.inj h5).symm
    subst e
    have e : fly = ⟨⟨1, 0⟩, ⟨1, 3⟩, [1, 2, 3]⟩ := (Option.some.inj h6).symm
    subst e
    refine ⟨by decide +kernel, ?_, by decide, by decide⟩
    intro i hi
    have : i = 0 ∨ i = 1 := by have : i < 2 := hi; omega
    rcases this with rfl | rfl <;> decide +kernel⟩ rfl
  have h7 := NHist.step .log h6 rfl rfl
  have h8 := NHist.step (.commit (some 0)) h7 ⟨_, rfl, by decide⟩ rfl
  have h9 := NHist.step (.commit none) h8 ⟨_, rfl, by decide⟩ rfl
  have h11 := NHist.step (.commit (some 1)) h9 ⟨_, rfl, by decide⟩ rfl
  have h12 := NHist.step .finish h11 rfl rfl
  exact ⟨firstNode, _, _, _, _, h0, h12, rfl, rfl, rfl, rfl, rfl, rfl⟩

end Verif.Store
