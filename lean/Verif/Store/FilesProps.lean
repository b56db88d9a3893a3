import Verif.Store.FilesInv

/-!
# The block files are one string of bytes

C50, C51. Over all histories of writes, rollbacks, flushes, restarts and crashes.
-/

namespace Verif.Store
open Verif.Bytes

/-- What the user should see: the string of all that is written, the string that survives a restart, and, while a flush is under
way, the string that will survive when it is done. -/
structure Strings where
  mem : Bytes
  disk : Bytes
  coming : Option Bytes

/-- What each step should do. -/
def Strings.step (S : Nat) (x : Strings) : FOp → Strings
  | .write b => { x with mem := x.mem ++ b }
  | .rollback loc => { x with mem := x.mem.take (pos S loc) }
  | .prepare => { x with coming := some x.mem }
  | .cancel => { x with coming := none }
  | .commit => { x with disk := x.coming.getD [], coming := none }
  | .restart => { mem := x.disk, disk := x.disk, coming := none }
  | .recover _ => { mem := x.coming.getD [], disk := x.coming.getD [], coming := none }

/-- The steps that the ledger takes.

* A write during a flush does not follow a rollback to before the start of that flush (such a rollback waits for the flush to
  end: chain/delete.go:75-89), and stays within the files kept in memory: `cap` files from the start of the flush. `cap` is 10,
  the size of a file 10 MB (block/block_db.go:22, 51).
* A rollback goes to a location of the string.
* A crash during the commit leaves some of the operations of the commit, whole or in part, in any order. -/
def Allowed (S cap : Nat) (st : FS) (x : Strings) : FOp → Prop
  | .write b => ∀ fly, st.fly = some fly → st.fm.latest.lt fly.s = false ∧ (x.mem ++ b).length < (fly.s.file + cap - 1) * S
  | .rollback loc => Valid S loc ∧ pos S loc ≤ x.mem.length
  | .prepare => st.fly = none
  | .cancel => st.fly ≠ none
  | .commit => st.fly ≠ none
  | .restart => True
  | .recover done => ∃ fly fm' ops, st.fly = some fly ∧ st.fm.flush S st.files fly.s fly.t fly.buf = some (fm', ops) ∧
      ∀ d ∈ done, ∃ op ∈ ops, Torn op d

/-- What keeps a step from a panic: a rollback goes at most one file before those in memory; a recovery finds at most one file
after that in which the flush started. -/
def Roomy (st : FS) : FOp → Prop
  | .rollback loc => st.fm.oldest ≤ loc.file + 1
  | .recover done => ∀ fly, st.fly = some fly → ∀ g, fly.s.file + 1 < g → Table.get g (applyAll st.files done) = none
  | _ => True

/-- All histories of steps that did not end in a panic or an error, from an empty directory on. -/
inductive Hist (S cap : Nat) : FS → Strings → Prop
  | init (fm : FM) (h : FM.start [] = some fm) : Hist S cap ⟨fm, [], none⟩ ⟨[], [], none⟩
  | step {st st' : FS} {x : Strings} (op : FOp) (h : Hist S cap st x) (ha : Allowed S cap st x op) (hs : st.step S cap op = some st') :
      Hist S cap st' (x.step S op)

/-- The invariant. -/
def FInv (S : Nat) (st : FS) (x : Strings) : Prop :=
  match st.fly with
  | none => Idle S st.fm st.files x.mem x.disk ∧ x.coming = none
  | some fly => ∃ Q, Flying S st.fm st.files fly x.mem x.disk Q ∧ x.coming = some Q

theorem Torn.safe {S n : Nat} {op d : DiskOp} (h : Torn op d) (hs : Safe S n op) : Safe S n d := by
  cases h with
  | whole => exact hs
  | part f o k b =>
    obtain ⟨h1, h2, h3⟩ := hs
    exact ⟨h1, h2, by rw [List.length_take]; omega⟩

theorem Torn.low {m : Nat} {op d : DiskOp} (h : Torn op d) (hs : Low m op) : Low m d := by
  cases h with
  | whole => exact hs
  | part f o k b => exact hs

theorem Mem.oldest {S L a} {fm : FM} (h : Mem S fm.cache L a) : fm.oldest = a := by
  unfold FM.oldest
  have := h.ne
  have hc := h.cached
  cases hcc : fm.cache with
  | nil => exact absurd hcc this
  | cons it c => rw [hcc] at hc; simpa using hc.1

/-- Every allowed step with enough room succeeds and does what it should. -/
theorem FInv.step {S cap : Nat} (hS : 0 < S) {st : FS} {x : Strings} (h : FInv S st x) (op : FOp) (ha : Allowed S cap st x op)
    (hr : Roomy st op) :
    ∃ st', st.step S cap op = some st' ∧ FInv S st' (x.step S op) := by
  obtain ⟨fm, files, fly⟩ := st
  obtain ⟨mem, disk, coming⟩ := x
  unfold FInv at h
  cases op with
  | write b =>
    cases fly with
    | none =>
      obtain ⟨fm', k1, k2⟩ := h.1.write (cap := cap) hS b
      exact ⟨⟨fm', files, none⟩, by simp [FS.step, k1], k2, h.2⟩
    | some fly =>
      obtain ⟨Q, h1, h2⟩ := h
      obtain ⟨ha1, ha2⟩ := ha fly rfl
      obtain ⟨fm', k1, k2⟩ := h1.write (cap := cap) hS b ha1 ha2
      exact ⟨⟨fm', files, some fly⟩, by simp [FS.step, k1], Q, k2, h2⟩
  | rollback loc =>
    obtain ⟨ha1, ha2⟩ := ha
    simp only [Roomy] at hr
    cases fly with
    | none =>
      obtain ⟨a, hm, _⟩ := h.1.mem
      have := hm.oldest
      obtain ⟨fm', k1, k2⟩ := h.1.rollback (cap := cap) hS loc ha1 ha2 ⟨a, hm, by simp only at *; omega⟩
      exact ⟨⟨fm', files, none⟩, by simp [FS.step, k1], k2, h.2⟩
    | some fly =>
      obtain ⟨Q, h1, h2⟩ := h
      obtain ⟨a, hm, _⟩ := h1.mem
      have := hm.oldest
      obtain ⟨fm', k1, k2⟩ := h1.rollback (cap := cap) hS loc ha1 ha2 ⟨a, hm, by simp only at *; omega⟩
      exact ⟨⟨fm', files, some fly⟩, by simp [FS.step, k1], Q, k2, h2⟩
  | prepare =>
    simp only [Allowed] at ha
    subst ha
    obtain ⟨fly, fm', k1, k2⟩ := h.1.prepare hS
    exact ⟨⟨fm', files, some fly⟩, by simp [FS.step, k1], mem, k2, rfl⟩
  | cancel =>
    cases fly with
    | none => exact absurd rfl ha
    | some fly =>
      obtain ⟨Q, h1, h2⟩ := h
      exact ⟨⟨fm.cancel fly, files, none⟩, rfl, h1.cancel, rfl⟩
  | commit =>
    cases fly with
    | none => exact absurd rfl ha
    | some fly =>
      obtain ⟨Q, h1, h2⟩ := h
      obtain ⟨fm', ops, k1, k2, _, _⟩ := h1.commit hS
      simp only at h2 k1
      refine ⟨⟨fm', applyAll files ops, none⟩, by simp [FS.step, k1], ?_, rfl⟩
      show Idle S fm' (applyAll files ops) mem (coming.getD [])
      rw [h2]; exact k2
  | restart =>
    have : ∃ loc P, P = disk ∧ Valid S loc ∧ Has S files P ∧ Ends S files loc ∧ pos S loc = P.length := by
      cases fly with
      | none => exact ⟨fm.prev, disk, rfl, h.1.prevV, h.1.has, h.1.ends, h.1.prevP⟩
      | some fly =>
        obtain ⟨Q, h1, h2⟩ := h
        exact ⟨fm.prev, disk, rfl, h1.prevV, h1.has, h1.ends, h1.prevP⟩
    obtain ⟨loc, P, rfl, hv, hh, he, hp⟩ := this
    obtain ⟨fm', k1, k2⟩ := start_spec hS hv hh he hp
    exact ⟨⟨fm', files, none⟩, by simp [FS.step, k1], k2, rfl⟩
  | recover done =>
    obtain ⟨fl, fm', ops, hf, hfl, hd⟩ := ha
    simp only at hf hfl
    subst hf
    obtain ⟨Q, h1, h2⟩ := h
    simp only at h1 h2
    obtain ⟨fm'', ops', k1, k2, k3, k4⟩ := h1.commit hS
    rw [hfl] at k1
    injection k1 with k1
    injection k1 with e1 e2
    subst e1 e2
    have hsP := h1.sP
    have hRl : (disk.take (pos S fl.s)).length = pos S fl.s := by rw [List.length_take]; omega
    have hsafe : ∀ d ∈ done, Safe S (pos S fl.s) d := fun d hdd => by
      obtain ⟨op, ho, ht⟩ := hd d hdd
      exact ht.safe (k3 op ho)
    have hQ := congrArg List.length h1.q
    rw [List.length_append, ← h1.tQ] at hQ
    obtain ⟨fm0, fm1, fm2, ops2, g1, g2, g3, g4, _, _⟩ := recover_spec (cap := cap) hS h1.sV h1.tV h1.st
      ((h1.has.take (pos S fl.s)).applyAll done (by rw [hRl]; exact hsafe)) hRl ((ends_iff.mp h1.ends).1.applyAll done hsafe)
      (hr fl rfl) (by omega)
    refine ⟨⟨fm2, applyAll (applyAll files done) ops2, none⟩, by simp [FS.step, g1, g2, g3], ?_, rfl⟩
    show Idle S fm2 _ (coming.getD []) (coming.getD [])
    rw [h2]
    rw [← h1.q] at g4
    exact g4

/-- A step that succeeds had enough room. -/
theorem FInv.roomy {S cap : Nat} {st st' : FS} {x : Strings} (hS : 0 < S) (h : FInv S st x) (op : FOp) (ha : Allowed S cap st x op)
    (hs : st.step S cap op = some st') : Roomy st op := by
  obtain ⟨fm, files, fly⟩ := st
  obtain ⟨mem, disk, coming⟩ := x
  unfold FInv at h
  cases op with
  | rollback loc =>
    show fm.oldest ≤ loc.file + 1
    have hm : ∃ a, Mem S fm.cache mem a := by
      cases fly with
      | none => obtain ⟨a, hm, _⟩ := h.1.mem; exact ⟨a, hm⟩
      | some fly => obtain ⟨Q, h1, _⟩ := h; obtain ⟨a, hm, _⟩ := h1.mem; exact ⟨a, hm⟩
    obtain ⟨a, hm⟩ := hm
    rw [hm.oldest]
    by_contra hc
    simp [FS.step, deleteTo_panics (cap := cap) (files := files) hm loc (by omega)] at hs
  | recover done =>
    intro fl hfl g hg
    simp only at hfl
    subst hfl
    obtain ⟨Q, h1, h2⟩ := h
    obtain ⟨fl', fm', ops, hf, hfl, hd⟩ := ha
    simp only at hf
    injection hf with hf
    subst hf
    obtain ⟨fm'', ops', k1, k2, k3, k4⟩ := h1.commit hS
    simp only at hfl k1
    rw [hfl] at k1
    injection k1 with k1
    injection k1 with e1 e2
    subst e1 e2
    have hsane : Sane S (applyAll files done) := (ends_iff.mp h1.ends).1.applyAll done (fun d hdd => by
      obtain ⟨op, ho, ht⟩ := hd d hdd
      exact ht.safe (k3 op ho))
    obtain ⟨fm0, it, j1, j2, j3, j4, j5, j6, j7, j8, j9⟩ := start_gen hsane
    have hlat : fm0.latest = ⟨it.id, it.data.length⟩ := by unfold FM.latest; rw [j2]; rfl
    show Table.get g (applyAll files done) = none
    by_cases hid : it.id ≤ fl.s.file + 1
    · exact j8 g (by omega)
    · exfalso
      have hdel : fm0.deleteTo cap (applyAll files done) fl.s = none := by
        unfold FM.deleteTo
        rw [show fl.s.lt fm0.latest = true from by rw [hlat, lt_iff]; simp only; omega]
        simp only [Bool.not_true, Bool.false_eq_true, if_false]
        rw [if_neg (show ¬ fm0.latest.file - fl.s.file = 0 by rw [hlat]; simp only; omega),
          if_pos (show fm0.cache.length < fm0.latest.file - fl.s.file by rw [hlat, j2, List.length_singleton]; simp only; omega)]
        rfl
      simp [FS.step, j1, FM.beforeRecover, hdel] at hs
  | write b => trivial
  | prepare => trivial
  | cancel => trivial
  | commit => trivial
  | restart => trivial

theorem Hist.inv {S cap : Nat} (hS : 0 < S) {st : FS} {x : Strings} (h : Hist S cap st x) : FInv S st x := by
  induction h with
  | init fm h0 =>
    obtain ⟨fm', k1, k2⟩ := start_spec (S := S) (files := []) (P := []) (loc := ⟨1, 0⟩) hS ⟨Nat.le_refl _, Nat.zero_le _⟩ (fun f hf => by simp [chunk, Table.get])
      (by unfold Ends; simp [Table.get]) (by simp [pos])
    rw [h0] at k1; injection k1 with k1
    subst k1
    exact ⟨k2, rfl⟩
  | step op _ ha hs ih =>
    obtain ⟨st', k1, k2⟩ := ih.step hS op ha (ih.roomy hS op ha hs)
    rw [hs] at k1; injection k1 with k1
    subst k1
    exact k2

/-- Mem part of the invariant, in any phase. -/
theorem FInv.reading {S : Nat} (hS : 0 < S) {st : FS} {x : Strings} (h : FInv S st x) :
    ∃ a, Mem S st.fm.cache x.mem a ∧ ∀ f, 1 ≤ f → f < a → Table.get f st.files = some (chunk S x.mem f) := by
  unfold FInv at h
  cases hf : st.fly with
  | none =>
    rw [hf] at h
    obtain ⟨a, hm, ha⟩ := h.1.mem
    exact ⟨a, hm, h.1.old hS ha⟩
  | some fly =>
    rw [hf] at h
    obtain ⟨Q, h1, _⟩ := h
    obtain ⟨a, hm, ha, ha'⟩ := h1.mem
    exact ⟨a, hm, h1.old hS ha ha'⟩

/-- C51, as far as it holds: no step that the ledger takes fails, it neither panics nor ends in an error, as long as there is room.
Missing: rollbacks and recoveries without it, for which it is false (`rollback_after_restart_panics`, `recovery_panics`). -/
theorem files_never_fail_partial {S cap : Nat} (hS : 0 < S) {st : FS} {x : Strings} (h : Hist S cap st x) (op : FOp) (ha : Allowed S cap st x op)
    (hr : Roomy st op) : ∃ st', st.step S cap op = some st' := by
  obtain ⟨st', k, _⟩ := (h.inv hS).step hS op ha hr
  exact ⟨st', k⟩

/-- C51. Room is also necessary: without it the step always panics. -/
theorem no_room_fails {S cap : Nat} (hS : 0 < S) {st : FS} {x : Strings} (h : Hist S cap st x) (op : FOp) (ha : Allowed S cap st x op)
    (hr : ¬ Roomy st op) : st.step S cap op = none := by
  cases hs : st.step S cap op with
  | none => rfl
  | some st' => exact absurd ((h.inv hS).roomy hS op ha hs) hr

/-- C51. A recovery has room if the flush went over at most one border of files, and no rollback before it over more. -/
theorem small_flush_recovers {S cap : Nat} (hS : 0 < S) {st : FS} {x : Strings} (h : Hist S cap st x) (done : List DiskOp)
    (ha : Allowed S cap st x (.recover done)) (hb : ∀ fly, st.fly = some fly → fly.t.file ≤ fly.s.file + 1 ∧ st.fm.prev.file ≤ fly.s.file + 1) :
    ∃ st', st.step S cap (.recover done) = some st' := by
  refine files_never_fail_partial hS h _ ha ?_
  have hi := h.inv hS
  intro fly hf
  unfold FInv at hi
  rw [hf] at hi
  obtain ⟨Q, h1, _⟩ := hi
  obtain ⟨hb1, hb2⟩ := hb fly hf
  obtain ⟨fl', fm', ops, hf', hfl, hd⟩ := ha
  rw [hf] at hf'
  injection hf' with hf'
  subst hf'
  obtain ⟨fm'', ops', k1, k2, k3, k4⟩ := h1.commit hS
  rw [hfl] at k1
  injection k1 with k1
  injection k1 with e1 e2
  subst e1 e2
  refine none_above_all done (fun g hg => (ends_iff.mp h1.ends).2.1 g (by omega)) (fun d hdd => ?_)
  obtain ⟨op, ho, ht⟩ := hd d hdd
  refine ht.low ?_
  have := k4 op ho
  cases op <;> simp only [Low] at * <;> omega

/-- C50. Data is written at the end of the string: the location that `Write` returns is its end. -/
theorem write_location {S cap : Nat} (hS : 0 < S) {st : FS} {x : Strings} (h : Hist S cap st x) (b : Bytes) :
    ∃ loc fm', st.fm.write S cap st.files b = some (loc, fm') ∧ pos S loc = x.mem.length ∧ Valid S loc := by
  obtain ⟨a, hm, _⟩ := (h.inv hS).reading hS
  obtain ⟨fm', a', k1, _⟩ := write_spec (cap := cap) (files := st.files) hS hm b
  obtain ⟨_, _, h3, h4⟩ := hm.at
  exact ⟨st.fm.latest, fm', k1, h3, h4⟩

/-- C50. Reading gives what is in the string: at any moment of any history, `n` bytes from any location, also when they lie in
several files, in memory or on disk. -/
theorem read_raw_exact {S cap : Nat} (hS : 0 < S) {st : FS} {x : Strings} (h : Hist S cap st x) (loc : Loc) (hv : Valid S loc) (n : Nat)
    (hn : pos S loc + n ≤ x.mem.length) :
    ∃ loc', st.fm.readRaw S st.files loc n = some (loc', (x.mem.drop (pos S loc)).take n) ∧ pos S loc' = pos S loc + n ∧ Valid S loc' := by
  obtain ⟨a, hm, ho⟩ := (h.inv hS).reading hS
  exact readRaw_spec hS hm ho loc n hv hn

/-- C50. An entry, four bytes of length and the data, is read back wherever it is in the string. -/
theorem entry_read_back {S cap : Nat} (hS : 0 < S) {st : FS} {x : Strings} (h : Hist S cap st x) (loc : Loc) (hv : Valid S loc) (before data after : Bytes)
    (hx : x.mem = before ++ (be 4 data.length ++ data) ++ after) (hp : pos S loc = before.length) (hd : data.length < 2 ^ 32) :
    ∃ loc', st.fm.read S st.files loc = some (data, loc') ∧ pos S loc' = before.length + (4 + data.length) ∧ Valid S loc' := by
  have hb4 : (be 4 data.length).length = 4 := by simp [be_length]
  have hxl := congrArg List.length hx
  simp only [List.length_append] at hxl
  rw [hb4] at hxl
  obtain ⟨loc1, k1, k2, k3⟩ := read_raw_exact hS h loc hv 4 (by omega)
  have e1 : (x.mem.drop (pos S loc)).take 4 = be 4 data.length := by
    rw [hx, hp, List.append_assoc, List.append_assoc, List.drop_left, List.take_left' hb4]
  rw [e1] at k1
  have hnum : num (be 4 data.length) = data.length := by
    rw [num_be, Nat.mod_eq_of_lt (by simpa using hd)]
  obtain ⟨loc2, j1, j2, j3⟩ := read_raw_exact hS h loc1 k3 data.length (by omega)
  have e2 : (x.mem.drop (pos S loc1)).take data.length = data := by
    have : x.mem = (before ++ be 4 data.length) ++ (data ++ after) := by rw [hx]; simp only [List.append_assoc]
    rw [this, k2, hp, List.drop_left' (by rw [List.length_append, hb4]), List.take_left' rfl]
  rw [e2] at j1
  refine ⟨loc2, ?_, by omega, j3⟩
  unfold FM.read
  rw [k1]
  simp only
  rw [hnum, j1]
  rfl

/-- C50. What is copied for a flush is all of the string from where the last flush ended. -/
theorem read_range_exact {S cap : Nat} (hS : 0 < S) {st : FS} {x : Strings} (h : Hist S cap st x) (s : Loc) (hs : Valid S s)
    (hle : st.fm.latest.lt s = false) : st.fm.readRange S st.files s st.fm.latest = some (x.mem.drop (pos S s)) := by
  obtain ⟨a, hm, ho⟩ := (h.inv hS).reading hS
  exact readRange_spec hm ho s hs hle

/-- C50. A restart finds exactly the string of the last finished flush, whatever was written or rolled back since, and whether or
not a flush had been prepared. -/
theorem restart_exact {S cap : Nat} (hS : 0 < S) {st : FS} {x : Strings} (h : Hist S cap st x) :
    ∃ st', st.step S cap .restart = some st' ∧ Hist S cap st' ⟨x.disk, x.disk, none⟩ := by
  obtain ⟨st', k⟩ := files_never_fail_partial hS h .restart trivial trivial
  exact ⟨st', k, Hist.step .restart h trivial k⟩

/-- C50, C38. A crash in the middle of a commit, with any part of the operations on disk, and the recovery from the redo log leave
exactly the string that was to be flushed. -/
theorem recover_exact {S cap : Nat} (hS : 0 < S) {st st' : FS} {x : Strings} (h : Hist S cap st x) (done : List DiskOp)
    (ha : Allowed S cap st x (.recover done)) (hs : st.step S cap (.recover done) = some st') :
    ∃ Q, x.coming = some Q ∧ Hist S cap st' ⟨Q, Q, none⟩ := by
  have hi := h.inv hS
  have ha' := ha
  obtain ⟨fly, fm', ops, hf, _⟩ := ha'
  unfold FInv at hi
  rw [hf] at hi
  obtain ⟨Q, h1, h2⟩ := hi
  refine ⟨Q, h2, ?_⟩
  have := Hist.step (.recover done) h ha hs
  unfold Strings.step at this
  simp only [h2, Option.getD_some] at this
  exact this

end Verif.Store
