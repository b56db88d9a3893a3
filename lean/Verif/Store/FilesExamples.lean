import Verif.Store.FilesProps

/-! Concrete histories: the hypotheses of the theorems on block files can be met, and what happens when they are not. Files of two
bytes. -/

namespace Verif.Store
open Verif.Bytes

instance (S : Nat) (l : Loc) : Decidable (Valid S l) := by unfold Valid; infer_instance

def emptyFS : FS := ⟨⟨[⟨1, [], false⟩], ⟨1, 0⟩, ⟨1, 0⟩⟩, [], none⟩

theorem emptyFS_hist (S cap : Nat) : Hist S cap emptyFS ⟨[], [], none⟩ := Hist.init _ rfl

/-- Five bytes in three files, flushed, and three more written. -/
def someFS : FS := ⟨⟨[⟨1, [1, 2], true⟩, ⟨2, [3, 4], true⟩, ⟨3, [5, 6], true⟩, ⟨4, [7, 8], false⟩], ⟨3, 1⟩, ⟨3, 1⟩⟩,
  [(1, [1, 2]), (2, [3, 4]), (3, [5])], none⟩

theorem someFS_hist : Hist 2 10 someFS ⟨[1, 2, 3, 4, 5, 6, 7, 8], [1, 2, 3, 4, 5], none⟩ := by
  have h1 := Hist.step (S := 2) (cap := 10) (st' := ⟨⟨[⟨1, [1, 2], false⟩, ⟨2, [3, 4], false⟩, ⟨3, [5], false⟩], ⟨1, 0⟩, ⟨1, 0⟩⟩, [], none⟩)
    (.write [1, 2, 3, 4, 5]) (emptyFS_hist 2 10) (by intro fly hf; simp [emptyFS] at hf) (by decide +kernel)
  have h2 := Hist.step (st' := ⟨⟨[⟨1, [1, 2], false⟩, ⟨2, [3, 4], false⟩, ⟨3, [5], false⟩], ⟨3, 1⟩, ⟨1, 0⟩⟩, [],
    some ⟨⟨1, 0⟩, ⟨3, 1⟩, [1, 2, 3, 4, 5]⟩⟩) .prepare h1 rfl (by decide +kernel)
  have h3 := Hist.step (st' := ⟨⟨[⟨1, [1, 2], false⟩, ⟨2, [3, 4], false⟩, ⟨3, [5, 6], false⟩, ⟨4, [7, 8], false⟩], ⟨3, 1⟩, ⟨1, 0⟩⟩, [],
    some ⟨⟨1, 0⟩, ⟨3, 1⟩, [1, 2, 3, 4, 5]⟩⟩) (.write [6, 7, 8]) h2 (by intro fly hf; injection hf with hf; subst hf; decide +kernel) (by decide +kernel)
  exact Hist.step .commit h3 (by simp [Allowed]) (by decide +kernel)

/-- A block is read back across two files. -/
example : ∃ loc', someFS.fm.readRaw 2 someFS.files ⟨2, 1⟩ 3 = some (loc', [4, 5, 6]) ∧ pos 2 loc' = 3 + 3 ∧ Valid 2 loc' :=
  read_raw_exact (by decide) someFS_hist ⟨2, 1⟩ (by decide +kernel) 3 (by decide +kernel)

/-- A rollback that is allowed. -/
example : Allowed 2 10 someFS ⟨[1, 2, 3, 4, 5, 6, 7, 8], [1, 2, 3, 4, 5], none⟩ (.rollback ⟨1, 1⟩) := by
  exact ⟨by decide +kernel, by decide +kernel⟩

example : Roomy someFS (.rollback ⟨1, 1⟩) := by show someFS.fm.oldest ≤ 2; decide +kernel

/-- A restart: the three bytes that were not flushed are gone. -/
example : ∃ st', someFS.step 2 10 .restart = some st' ∧ Hist 2 10 st' ⟨[1, 2, 3, 4, 5], [1, 2, 3, 4, 5], none⟩ :=
  restart_exact (by decide) someFS_hist

/-- The same with an entry. -/
def entryFS : FS := ⟨⟨[⟨1, [0, 0], false⟩, ⟨2, [0, 2], false⟩, ⟨3, [7, 8], false⟩], ⟨1, 0⟩, ⟨1, 0⟩⟩, [], none⟩

theorem entryFS_hist : Hist 2 10 entryFS ⟨[0, 0, 0, 2, 7, 8], [], none⟩ :=
  Hist.step (.write [0, 0, 0, 2, 7, 8]) (emptyFS_hist 2 10) (by intro fly hf; simp [emptyFS] at hf) (by decide +kernel)

example : ∃ loc', entryFS.fm.read 2 entryFS.files ⟨1, 0⟩ = some ([7, 8], loc') ∧ pos 2 loc' = 0 + (4 + 2) ∧ Valid 2 loc' :=
  entry_read_back (by decide) entryFS_hist ⟨1, 0⟩ (by decide) [] [7, 8] [] (by decide +kernel) (by decide) (by decide)

/-- A flush over one border of files, in the middle of which the node stops: the second file is there, the first only in part. -/
def flyFS : FS := ⟨⟨[⟨1, [1, 2], false⟩, ⟨2, [3], false⟩], ⟨2, 1⟩, ⟨1, 0⟩⟩, [], some ⟨⟨1, 0⟩, ⟨2, 1⟩, [1, 2, 3]⟩⟩

theorem flyFS_hist : Hist 2 10 flyFS ⟨[1, 2, 3], [], some [1, 2, 3]⟩ := by
  have h1 := Hist.step (S := 2) (cap := 10) (st' := ⟨⟨[⟨1, [1, 2], false⟩, ⟨2, [3], false⟩], ⟨1, 0⟩, ⟨1, 0⟩⟩, [], none⟩)
    (.write [1, 2, 3]) (emptyFS_hist 2 10) (by intro fly hf; simp [emptyFS] at hf) (by decide +kernel)
  exact Hist.step .prepare h1 rfl (by decide +kernel)

def tornOps : List DiskOp := [.create 2, .write 2 0 [3], .create 1, .write 1 0 [1]]

theorem flyFS_torn : Allowed 2 10 flyFS ⟨[1, 2, 3], [], some [1, 2, 3]⟩ (.recover tornOps) := by
  refine ⟨⟨⟨1, 0⟩, ⟨2, 1⟩, [1, 2, 3]⟩, ⟨[⟨1, [1, 2], true⟩, ⟨2, [3], true⟩], ⟨2, 1⟩, ⟨2, 1⟩⟩, [.create 1, .write 1 0 [1, 2], .create 2, .write 2 0 [3]],
    rfl, by decide +kernel, ?_⟩
  intro d hd
  simp only [tornOps, List.mem_cons, List.not_mem_nil, or_false] at hd
  rcases hd with rfl | rfl | rfl | rfl
  · exact ⟨.create 2, by simp, .whole _⟩
  · exact ⟨.write 2 0 [3], by simp, .whole _⟩
  · exact ⟨.create 1, by simp, .whole _⟩
  · exact ⟨.write 1 0 [1, 2], by simp, .part 1 0 1 [1, 2]⟩

example : ∃ st', flyFS.step 2 10 (.recover tornOps) = some st' ∧ ∃ Q, some [1, 2, 3] = some Q ∧ Hist 2 10 st' ⟨Q, Q, none⟩ := by
  obtain ⟨st', hs⟩ := small_flush_recovers (by decide) flyFS_hist tornOps flyFS_torn (by
    intro fly hf; injection hf with hf; subst hf; exact ⟨by decide, by decide⟩)
  exact ⟨st', hs, recover_exact (by decide) flyFS_hist tornOps flyFS_torn hs⟩

/-! ### What goes wrong -/

/-- **A rollback after a restart panics** if it goes over two borders of files: three files, flushed; a restart; a rollback to the
first file. Nothing in it is unusual. -/
theorem rollback_after_restart_panics : ∃ st x, Hist 2 10 st x ∧ x.mem = [1, 2, 3, 4, 5] ∧ Valid 2 ⟨1, 1⟩ ∧ pos 2 ⟨1, 1⟩ ≤ x.mem.length ∧
    st.step 2 10 (.rollback ⟨1, 1⟩) = none := by
  have h1 := Hist.step (st' := ⟨⟨[⟨3, [5], true⟩], ⟨3, 1⟩, ⟨3, 1⟩⟩, [(1, [1, 2]), (2, [3, 4]), (3, [5])], none⟩) .restart someFS_hist trivial (by decide +kernel)
  exact ⟨_, _, h1, rfl, by decide, by decide, by decide +kernel⟩

/-- **A recovery can panic, and then at every start**: a flush over two borders, all of it on disk, the node stops before the redo
log is cleared. The disk and the log are unchanged by the panic, so the next start panics as well. -/
theorem recovery_panics : ∃ st x fly fm' ops, Hist 2 10 st x ∧ st.fly = some fly ∧ st.fm.flush 2 st.files fly.s fly.t fly.buf = some (fm', ops) ∧
    st.step 2 10 (.recover ops) = none := by
  have h1 := Hist.step (S := 2) (cap := 10) (st' := ⟨⟨[⟨1, [1, 2], false⟩, ⟨2, [3, 4], false⟩, ⟨3, [5], false⟩], ⟨1, 0⟩, ⟨1, 0⟩⟩, [], none⟩)
    (.write [1, 2, 3, 4, 5]) (emptyFS_hist 2 10) (by intro fly hf; simp [emptyFS] at hf) (by decide +kernel)
  have h2 := Hist.step (st' := ⟨⟨[⟨1, [1, 2], false⟩, ⟨2, [3, 4], false⟩, ⟨3, [5], false⟩], ⟨3, 1⟩, ⟨1, 0⟩⟩, [],
    some ⟨⟨1, 0⟩, ⟨3, 1⟩, [1, 2, 3, 4, 5]⟩⟩) .prepare h1 rfl (by decide +kernel)
  exact ⟨_, _, _, ⟨[⟨1, [1, 2], true⟩, ⟨2, [3, 4], true⟩, ⟨3, [5], true⟩], ⟨3, 1⟩, ⟨3, 1⟩⟩,
    [.create 1, .write 1 0 [1, 2], .create 2, .write 2 0 [3, 4], .create 3, .write 3 0 [5]], h2, rfl, by decide +kernel, by decide +kernel⟩

/-- **A file can leave the memory while it is being flushed**: with two files kept in memory, a flush of three files and a write
during it. The commit fails, and so does the second try from the redo log: the node panics. The code keeps ten files. -/
theorem evicted_flush_fails : ∃ st x, Hist 2 2 st x ∧ ∃ st', st.step 2 2 (.write [6, 7]) = some st' ∧ st'.step 2 2 .commit = none := by
  have h1 := Hist.step (S := 2) (cap := 2) (st' := ⟨⟨[⟨1, [1, 2], false⟩, ⟨2, [3, 4], false⟩, ⟨3, [5], false⟩], ⟨1, 0⟩, ⟨1, 0⟩⟩, [], none⟩)
    (.write [1, 2, 3, 4, 5]) (emptyFS_hist 2 2) (by intro fly hf; simp [emptyFS] at hf) (by decide +kernel)
  have h2 := Hist.step (st' := ⟨⟨[⟨1, [1, 2], false⟩, ⟨2, [3, 4], false⟩, ⟨3, [5], false⟩], ⟨3, 1⟩, ⟨1, 0⟩⟩, [],
    some ⟨⟨1, 0⟩, ⟨3, 1⟩, [1, 2, 3, 4, 5]⟩⟩) .prepare h1 rfl (by decide +kernel)
  exact ⟨_, _, h2, ⟨⟨[⟨3, [5, 6], false⟩, ⟨4, [7], false⟩], ⟨3, 1⟩, ⟨1, 0⟩⟩, [], some ⟨⟨1, 0⟩, ⟨3, 1⟩, [1, 2, 3, 4, 5]⟩⟩, by decide +kernel, by decide +kernel⟩

end Verif.Store
