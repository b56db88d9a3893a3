import Verif.Store.NodeLemmas

/-!
# A flush is all or nothing, and nobody notices it

C38, C52. Over all histories of writes, rollbacks, flushes and crashes, also of crashes during recovery.
-/

namespace Verif.Store
open Verif.Bytes

/-- The flush takes the string `P` to the string `Q`. -/
structure FlyOk (S : Nat) (fly : Fly) (P Q : Bytes) : Prop where
  sV : Valid S fly.s
  tV : Valid S fly.t
  st : fly.t.lt fly.s = false
  sP : pos S fly.s ≤ P.length
  q : Q = P.take (pos S fly.s) ++ fly.buf
  tQ : pos S fly.t = Q.length

theorem Flying.ok {S : Nat} {fm : FM} {files : Files} {fly : Fly} {L P Q : Bytes} (h : Flying S fm files fly L P Q) : FlyOk S fly P Q :=
  ⟨h.sV, h.tV, h.st, h.sP, h.q, h.tQ⟩

/-- The invariant. -/
def NInv (cfg : Cfg) (nd : Node) (x : NSpec) : Prop :=
  (∀ i < cfg.n, KvInv (nd.kv i) (x.kv i)) ∧
  match nd.phase with
  | .idle => nd.log = [] ∧ x.coming = none ∧ (∀ i < cfg.n, (nd.kv i).fly = none ∧ (nd.kv i).disk = x.saved.1 i) ∧ nd.fs.fly = none ∧
      Idle cfg.S nd.fs.fm nd.fs.files x.str x.saved.2
  | .prepared => ∃ c fly, x.coming = some c ∧ SmallLog cfg fly (fun i => (nd.kv i).fly.getD []) ∧
      (∀ i < cfg.n, ∃ b, (nd.kv i).fly = some b ∧ (nd.kv i).disk = x.saved.1 i ∧ b.apply (x.saved.1 i) = c.1 i) ∧
      nd.fs.fly = some fly ∧ Flying cfg.S nd.fs.fm nd.fs.files fly x.str x.saved.2 c.2
  | .logged todo => ∃ c fly bs, x.coming = some c ∧ nd.log = redoLog cfg fly bs ∧ SmallLog cfg fly bs ∧
      (∀ i < cfg.n, (nd.kv i).fly = some (bs i) ∧ (bs i).apply (x.saved.1 i) = c.1 i ∧ (some i ∈ todo → (nd.kv i).disk = x.saved.1 i) ∧
        (some i ∉ todo → (nd.kv i).disk = c.1 i)) ∧
      FlyOk cfg.S fly x.saved.2 c.2 ∧
      (none ∈ todo → nd.fs.fly = some fly ∧ Flying cfg.S nd.fs.fm nd.fs.files fly x.str x.saved.2 c.2) ∧
      (none ∉ todo → nd.fs.fly = none ∧ Idle cfg.S nd.fs.fm nd.fs.files x.str c.2)

/-- The state of the block files of a node, in the words of the block files. -/
theorem NInv.files {cfg : Cfg} {nd : Node} {x : NSpec} (h : NInv cfg nd x) : ∃ P Q, FInv cfg.S nd.fs ⟨x.str, P, Q⟩ := by
  obtain ⟨kv, fs, log, phase⟩ := nd
  obtain ⟨_, h⟩ := h
  cases phase with
  | idle =>
    obtain ⟨h1, h2, h3, h4, h5⟩ := h
    refine ⟨x.saved.2, none, ?_⟩
    unfold FInv; simp only at h4 ⊢; rw [h4]; exact ⟨h5, trivial⟩
  | prepared =>
    obtain ⟨c, fly, h1, h2, h3, h4, h5⟩ := h
    refine ⟨x.saved.2, some c.2, ?_⟩
    unfold FInv; simp only at h4 ⊢; rw [h4]; exact ⟨c.2, h5, rfl⟩
  | logged todo =>
    obtain ⟨c, fly, bs, h1, h2, h3, h4, h5, h6, h7⟩ := h
    by_cases hn : none ∈ todo
    · obtain ⟨g1, g2⟩ := h6 hn
      refine ⟨x.saved.2, some c.2, ?_⟩
      unfold FInv; simp only at g1 ⊢; rw [g1]; exact ⟨c.2, g2, rfl⟩
    · obtain ⟨g1, g2⟩ := h7 hn
      refine ⟨c.2, none, ?_⟩
      unfold FInv; simp only at g1 ⊢; rw [g1]; exact ⟨g2, trivial⟩

theorem NInv.restart {cfg : Cfg} {kv : Nat → KMap} {fm : FM} {files : Files} {X : Content} (hk : ∀ i < cfg.n, kv i = X.1 i)
    (hi : Idle cfg.S fm files X.2 X.2) : NInv cfg ⟨fun i => Kv.fresh (kv i), ⟨fm, files, none⟩, [], .idle⟩ (NSpec.restart X) := by
  refine ⟨fun i hi' => ?_, rfl, rfl, fun i hi' => ⟨rfl, hk i hi'⟩, rfl, hi⟩
  show KvInv (Kv.fresh (kv i)) ⟨X.1 i, [], X.1 i⟩
  rw [hk i hi']
  exact KvInv.fresh _

/-- What keeps a rollback of the block files from a panic (see `Roomy`). -/
def NRoomy (nd : Node) : NOp → Prop
  | .rollback loc => nd.fs.fm.oldest ≤ loc.file + 1
  | _ => True

/-- The block files take a step while the rest of the node stays as it is. -/
theorem NInv.file_step {cfg : Cfg} (hg : cfg.Good) {nd : Node} {x : NSpec} (h : NInv cfg nd x) (op : FOp) (L : Bytes)
    (hw : (∃ b, op = .write b ∧ L = x.str ++ b) ∨ (∃ loc, op = .rollback loc ∧ L = x.str.take (pos cfg.S loc)))
    (ha : Allowed cfg.S cfg.cap nd.fs ⟨x.str, x.saved.2, none⟩ op) (hr : Roomy nd.fs op) :
    ∃ fs, nd.fs.step cfg.S cfg.cap op = some fs ∧ NInv cfg { nd with fs := fs } { x with str := L } := by
  have hstep : ∀ (P : Bytes) (Q : Option Bytes), FInv cfg.S nd.fs ⟨x.str, P, Q⟩ →
      ∃ fs, nd.fs.step cfg.S cfg.cap op = some fs ∧ FInv cfg.S fs ⟨L, P, Q⟩ ∧ fs.fly = nd.fs.fly := by
    intro P Q hf
    have ha' : Allowed cfg.S cfg.cap nd.fs ⟨x.str, P, Q⟩ op := by
      rcases hw with ⟨b, rfl, _⟩ | ⟨loc, rfl, _⟩ <;> exact ha
    obtain ⟨fs, k1, k2⟩ := hf.step hg.S0 op ha' hr
    refine ⟨fs, k1, ?_, ?_⟩
    · rcases hw with ⟨b, rfl, rfl⟩ | ⟨loc, rfl, rfl⟩ <;> exact k2
    · rcases hw with ⟨b, rfl, _⟩ | ⟨loc, rfl, _⟩
      · simp only [FS.step, Option.map_eq_some_iff] at k1
        obtain ⟨r, _, rfl⟩ := k1
        rfl
      · simp only [FS.step, Option.map_eq_some_iff] at k1
        obtain ⟨r, _, rfl⟩ := k1
        rfl
  obtain ⟨kv, fs, log, phase⟩ := nd
  obtain ⟨hk, h⟩ := h
  cases phase with
  | idle =>
    obtain ⟨h1, h2, h3, h4, h5⟩ := h
    simp only at h4
    obtain ⟨fs', k1, k2, k3⟩ := hstep x.saved.2 none (by unfold FInv; simp only; rw [h4]; exact ⟨h5, trivial⟩)
    refine ⟨fs', k1, hk, h1, h2, h3, ?_, ?_⟩
    · simp only; rw [k3]; exact h4
    · unfold FInv at k2; simp only at k3; rw [k3, h4] at k2; exact k2.1
  | prepared =>
    obtain ⟨c, fly, h1, h2, h3, h4, h5⟩ := h
    simp only at h4
    obtain ⟨fs', k1, k2, k3⟩ := hstep x.saved.2 (some c.2) (by unfold FInv; simp only; rw [h4]; exact ⟨c.2, h5, rfl⟩)
    refine ⟨fs', k1, hk, c, fly, h1, h2, h3, ?_, ?_⟩
    · simp only; rw [k3]; exact h4
    · unfold FInv at k2; simp only at k3; rw [k3, h4] at k2
      obtain ⟨Q, g1, g2⟩ := k2
      injection g2 with g2
      subst g2
      exact g1
  | logged todo =>
    obtain ⟨c, fly, bs, h1, h2, h3, h4, h5, h6, h7⟩ := h
    by_cases hn : none ∈ todo
    · obtain ⟨g1, g2⟩ := h6 hn
      simp only at g1
      obtain ⟨fs', k1, k2, k3⟩ := hstep x.saved.2 (some c.2) (by unfold FInv; simp only; rw [g1]; exact ⟨c.2, g2, rfl⟩)
      refine ⟨fs', k1, hk, c, fly, bs, h1, h2, h3, h4, h5, fun _ => ⟨?_, ?_⟩, fun hc => absurd hn hc⟩
      · simp only; rw [k3]; exact g1
      · unfold FInv at k2; simp only at k3; rw [k3, g1] at k2
        obtain ⟨Q, j1, j2⟩ := k2
        injection j2 with j2
        subst j2
        exact j1
    · obtain ⟨g1, g2⟩ := h7 hn
      simp only at g1
      obtain ⟨fs', k1, k2, k3⟩ := hstep c.2 none (by unfold FInv; simp only; rw [g1]; exact ⟨g2, trivial⟩)
      refine ⟨fs', k1, hk, c, fly, bs, h1, h2, h3, h4, h5, fun hc => absurd hc hn, fun _ => ⟨?_, ?_⟩⟩
      · simp only; rw [k3]; exact g1
      · unfold FInv at k2; simp only at k3; rw [k3, g1] at k2; exact k2.1

/-- Every allowed step with enough room succeeds and does what it should. -/
theorem NInv.step {cfg : Cfg} (hg : cfg.Good) {nd : Node} {x : NSpec} (h : NInv cfg nd x) (op : NOp) (ha : NAllowed cfg nd x op) (hr : NRoomy nd op) :
    ∃ nd', nd.step cfg op = some nd' ∧ NInv cfg nd' (x.step cfg op) := by
  cases op with
  | write b =>
    obtain ⟨fs, k1, k2⟩ := h.file_step hg (.write b) (x.str ++ b) (Or.inl ⟨b, rfl, rfl⟩) ha trivial
    exact ⟨{ nd with fs := fs }, by simp only [Node.step, k1, Option.map_some], k2⟩
  | rollback loc =>
    obtain ⟨fs, k1, k2⟩ := h.file_step hg (.rollback loc) (x.str.take (pos cfg.S loc)) (Or.inr ⟨loc, rfl, rfl⟩) ha hr
    exact ⟨{ nd with fs := fs }, by simp only [Node.step, k1, Option.map_some], k2⟩
  | kv i op =>
    obtain ⟨hi, ha⟩ := ha
    obtain ⟨hk, h⟩ := h
    obtain ⟨kv', k1, k2, k3, k4⟩ := (hk i hi).step op ha
    refine ⟨{ nd with kv := fun j => if j = i then kv' else nd.kv j }, by simp only [Node.step, k1, Option.map_some], ?_⟩
    have hkv : ∀ j, (if j = i then kv' else nd.kv j).fly = (nd.kv j).fly ∧ (if j = i then kv' else nd.kv j).disk = (nd.kv j).disk := by
      intro j
      split
      · rename_i hji; subst hji; exact ⟨k4, k3⟩
      · exact ⟨rfl, rfl⟩
    refine ⟨?_, ?_⟩
    · intro j hj
      simp only [NSpec.step]
      split
      · exact k2
      · exact hk j hj
    · obtain ⟨kv, fs, log, phase⟩ := nd
      simp only at hkv ⊢
      cases phase with
      | idle =>
        obtain ⟨h1, h2, h3, h4, h5⟩ := h
        exact ⟨h1, h2, fun j hj => by rw [(hkv j).1, (hkv j).2]; exact h3 j hj, h4, h5⟩
      | prepared =>
        obtain ⟨c, fly, h1, h2, h3, h4, h5⟩ := h
        refine ⟨c, fly, h1, ?_, fun j hj => ?_, h4, h5⟩
        · have : (fun j => (if j = i then kv' else kv j).fly.getD []) = (fun j => (kv j).fly.getD []) := by
            funext j; rw [(hkv j).1]
          rw [this]; exact h2
        · rw [(hkv j).1, (hkv j).2]; exact h3 j hj
      | logged todo =>
        obtain ⟨c, fly, bs, h1, h2, h3, h4, h5, h6, h7⟩ := h
        exact ⟨c, fly, bs, h1, h2, h3, fun j hj => by rw [(hkv j).1, (hkv j).2]; exact h4 j hj, h5, h6, h7⟩
  | prepare =>
    obtain ⟨hph, hsm⟩ := ha
    obtain ⟨kv, fs, log, phase⟩ := nd
    simp only at hph
    subst hph
    obtain ⟨hk, h1, h2, h3, h4, h5⟩ := h
    simp only at *
    have hp : ∀ i < cfg.n, ∃ kv' b, (kv i).prepare = some kv' ∧ KvInv kv' (x.kv i) ∧ kv'.fly = some b ∧ kv'.disk = x.saved.1 i ∧
        b.apply (x.saved.1 i) = (x.kv i).conf := by
      intro i hi
      obtain ⟨kv', b, p1, p2, p3, p4, p5⟩ := (hk i hi).prepare (h3 i hi).1
      exact ⟨kv', b, p1, p2, p3, by rw [p4, (h3 i hi).2], by rw [← (h3 i hi).2]; exact p5⟩
    have hall : allKv cfg.n Kv.prepare kv = some (fun i => if i < cfg.n then ((kv i).prepare).getD (kv i) else kv i) := by
      unfold allKv
      rw [if_pos]
      intro i hi
      obtain ⟨kv', b, p1, _⟩ := hp i hi
      rw [p1]; rfl
    obtain ⟨fly, fm', f1, f2⟩ := h5.prepare hg.S0
    have hfs : fs.step cfg.S cfg.cap .prepare = some { fs with fm := fm', fly := some fly } := by
      simp only [FS.step, h4, f1, Option.map_some]
    have hstep : Node.step cfg ⟨kv, fs, log, .idle⟩ .prepare =
        some ⟨fun i => if i < cfg.n then ((kv i).prepare).getD (kv i) else kv i, { fs with fm := fm', fly := some fly }, log, .prepared⟩ := by
      simp only [Node.step, hall, hfs]
    refine ⟨_, hstep, ?_, (fun i => (x.kv i).conf, x.str), fly, rfl, hsm _ fly hstep rfl, ?_, rfl, f2⟩
    · intro i hi
      obtain ⟨kv', b, p1, p2, _⟩ := hp i hi
      simp only [if_pos hi, p1, Option.getD_some]
      exact p2
    · intro i hi
      obtain ⟨kv', b, p1, p2, p3, p4, p5⟩ := hp i hi
      simp only [if_pos hi, p1, Option.getD_some]
      exact ⟨b, p3, p4, p5⟩
  | log =>
    obtain ⟨kv, fs, log, phase⟩ := nd
    have ha : phase = .prepared := ha
    subst ha
    obtain ⟨hk, c, fly, h1, h2, h3, h4, h5⟩ := h
    simp only at *
    refine ⟨_, rfl, hk, c, fly, (fun i => (kv i).fly.getD []), h1, ?_, h2, ?_, h5.ok, fun _ => ⟨h4, h5⟩, fun hc => absurd (List.mem_cons_self) hc⟩
    · simp only [Node.fullLog, h4]
    · intro i hi
      obtain ⟨b, b1, b2, b3⟩ := h3 i hi
      simp only [b1, Option.getD_some]
      refine ⟨trivial, b3, fun _ => b2, fun hc => absurd ?_ hc⟩
      exact List.mem_cons.mpr (Or.inr (List.mem_map.mpr ⟨i, List.mem_range.mpr hi, rfl⟩))
  | logFail k =>
    obtain ⟨kv, fs, log, phase⟩ := nd
    have ha : phase = .prepared := ha
    subst ha
    obtain ⟨hk, c, fly, h1, h2, h3, h4, h5⟩ := h
    exact ⟨_, rfl, hk, c, fly, h1, h2, h3, h4, h5⟩
  | syncFail =>
    obtain ⟨kv, fs, log, phase⟩ := nd
    have ha : phase = .prepared := ha
    subst ha
    obtain ⟨hk, c, fly, h1, h2, h3, h4, h5⟩ := h
    simp only at *
    refine ⟨⟨fun i => (kv i).cancel, { fs with fm := fs.fm.cancel fly, fly := none }, [], .idle⟩, by simp only [Node.step, FS.step, h4, Option.map_some],
      fun i hi => (hk i hi).cancel, rfl, rfl, fun i hi => ?_, rfl, h5.cancel⟩
    obtain ⟨b, b1, b2, b3⟩ := h3 i hi
    exact ⟨rfl, b2⟩
  | commit i =>
    obtain ⟨todo, hph, hi⟩ := ha
    obtain ⟨kv, fs, log, phase⟩ := nd
    simp only at hph
    subst hph
    obtain ⟨hk, c, fly, bs, h1, h2, h3, h4, h5, h6, h7⟩ := h
    simp only at *
    cases i with
    | none =>
      obtain ⟨g1, g2⟩ := h6 hi
      obtain ⟨fm', ops, k1, k2, _, _⟩ := g2.commit hg.S0
      refine ⟨⟨kv, ⟨fm', applyAll fs.files ops, none⟩, log, .logged (todo.filter (· ≠ none))⟩, ?_, hk, c, fly, bs, h1, h2, h3, ?_, h5, ?_, fun _ => ⟨rfl, k2⟩⟩
      · simp only [Node.step, if_pos hi, FS.step, g1, k1, Option.map_some]
      · intro j hj
        obtain ⟨j1, j2, j3, j4⟩ := h4 j hj
        refine ⟨j1, j2, fun hm => j3 (List.mem_filter.mp hm).1, fun hm => j4 (fun hc => hm (List.mem_filter.mpr ⟨hc, by simp⟩))⟩
      · intro hm
        have := (List.mem_filter.mp hm).2
        simp at this
    | some m =>
      refine ⟨⟨fun l => if l = m then (kv m).commit else kv l, fs, log, .logged (todo.filter (· ≠ some m))⟩, by simp only [Node.step, if_pos hi],
        ?_, c, fly, bs, h1, h2, h3, ?_, h5, ?_, ?_⟩
      · intro j hj
        simp only
        split
        · rename_i hjm; subst hjm; exact (hk j hj).commit
        · exact hk j hj
      · intro j hj
        obtain ⟨j1, j2, j3, j4⟩ := h4 j hj
        simp only
        by_cases hjm : j = m
        · subst hjm
          simp only [if_true]
          refine ⟨j1, j2, fun hm => ?_, fun _ => ?_⟩
          · have := (List.mem_filter.mp hm).2
            simp at this
          · show ((kv j).fly.getD []).apply (kv j).disk = c.1 j
            rw [j1, j3 hi]; exact j2
        · rw [if_neg hjm]
          refine ⟨j1, j2, fun hm => j3 (List.mem_filter.mp hm).1, fun hm => j4 (fun hc => hm (List.mem_filter.mpr ⟨hc, ?_⟩))⟩
          simp [hjm]
      · exact fun hm => h6 (List.mem_filter.mp hm).1
      · exact fun hm => h7 (fun hc => hm (List.mem_filter.mpr ⟨hc, by simp⟩))
  | finish =>
    obtain ⟨kv, fs, log, phase⟩ := nd
    have ha : phase = .logged [] := ha
    subst ha
    obtain ⟨hk, c, fly, bs, h1, h2, h3, h4, h5, h6, h7⟩ := h
    obtain ⟨g1, g2⟩ := h7 (by simp)
    simp only at *
    refine ⟨_, rfl, fun i hi => ?_, rfl, rfl, fun i hi => ?_, g1, ?_⟩
    · obtain ⟨j1, j2, j3, j4⟩ := h4 i hi
      refine (hk i hi).afterCommit ?_
      rw [j1, j4 (by simp), Option.getD_some, ← j2, Batch.apply_idem]
    · obtain ⟨j1, j2, j3, j4⟩ := h4 i hi
      refine ⟨rfl, ?_⟩
      show (kv i).disk = _
      rw [j4 (by simp)]
      simp only [NSpec.step, h1, Option.getD_some]
    · simp only [NSpec.step, h1, Option.getD_some]
      exact g2

/-- **A crash** leaves a disk from which the node recovers what should survive. -/
theorem NInv.stop {cfg : Cfg} (hg : cfg.Good) {nd : Node} {x : NSpec} (h : NInv cfg nd x) (k : Nat) (torn : List DiskOp) (ht : CanTear cfg nd torn)
    {c : Content} (hc : Survives cfg nd x k c) : Holds cfg (nd.stop cfg k torn) c := by
  obtain ⟨kv, fs, log, phase⟩ := nd
  obtain ⟨hk, h⟩ := h
  -- a flush that is not under way leaves nothing behind
  have hredo : ∀ (fly : Fly) (bs : Nat → Batch) (d : Disk), d.log = redoLog cfg fly bs → SmallLog cfg fly bs →
      (∀ i < cfg.n, (bs i).apply (d.kv i) = c.1 i) → FlyOk cfg.S fly x.saved.2 c.2 → Has cfg.S d.files (x.saved.2.take (pos cfg.S fly.s)) →
      Sane cfg.S d.files → Holds cfg d c := by
    intro fly bs d hl hs hkk ho hh hsa
    have hRl : (x.saved.2.take (pos cfg.S fly.s)).length = pos cfg.S fly.s := by rw [List.length_take]; have := ho.sP; omega
    have hq := congrArg List.length ho.q
    rw [List.length_append, hRl, ← ho.tQ] at hq
    exact .redo fly bs _ hl hs hkk ho.sV ho.tV ho.st hRl hh hsa ho.q (by omega)
  cases phase with
  | idle =>
    obtain ⟨h1, h2, h3, h4, h5⟩ := h
    simp only at *
    have htorn : torn = [] := by
      rcases ht with ht | ⟨todo, _, _, _, ht, _⟩
      · exact ht
      · simp at ht
    subst htorn
    rcases hc with ⟨hc, _⟩ | ⟨_, hc⟩
    · exact absurd hc (by simp [LogComplete])
    · subst hc
      exact Idle.holds (d := Node.stop cfg _ k []) (X := x.saved) h5 (by simp only [Node.stop]; rw [h1]; exact load_nil cfg) (fun i hi => (h3 i hi).2)
  | prepared =>
    obtain ⟨c', fly, h1, h2, h3, h4, h5⟩ := h
    simp only at *
    have htorn : torn = [] := by
      rcases ht with ht | ⟨todo, _, _, _, ht, _⟩
      · exact ht
      · simp at ht
    subst htorn
    have hfull : Node.fullLog cfg ⟨kv, fs, log, .prepared⟩ = redoLog cfg fly (fun i => (kv i).fly.getD []) := by simp only [Node.fullLog, h4]
    rcases hc with ⟨hc, hcc⟩ | ⟨hc, hcc⟩
    · rw [h1] at hcc
      injection hcc with hcc
      subst hcc
      simp only [LogComplete] at hc
      refine hredo fly (fun i => (kv i).fly.getD []) _ ?_ h2 ?_ h5.ok (h5.has.take _) (ends_iff.mp h5.ends).1
      · simp only [Node.stop]
        rw [List.take_of_length_le hc, hfull]
      · intro i hi
        obtain ⟨b, b1, b2, b3⟩ := h3 i hi
        show ((kv i).fly.getD []).apply (kv i).disk = c'.1 i
        rw [b1, b2]; exact b3
    · subst hcc
      simp only [LogComplete, Nat.not_le] at hc
      refine .clean ?_ ?_ fs.fm.prev h5.prevV h5.has h5.ends h5.prevP
      · simp only [Node.stop]
        rw [hfull] at hc ⊢
        exact load_cut hg h2 hc
      · intro i hi
        obtain ⟨b, b1, b2, b3⟩ := h3 i hi
        exact b2
  | logged todo =>
    obtain ⟨c', fly, bs, h1, h2, h3, h4, h5, h6, h7⟩ := h
    simp only at *
    rcases hc with ⟨_, hcc⟩ | ⟨hc, _⟩
    · rw [h1] at hcc
      injection hcc with hcc
      subst hcc
      have hkk : ∀ i < cfg.n, (bs i).apply (kv i).disk = c'.1 i := by
        intro i hi
        obtain ⟨j1, j2, j3, j4⟩ := h4 i hi
        by_cases hm : some i ∈ todo
        · rw [j3 hm]; exact j2
        · rw [j4 hm, ← j2, Batch.apply_idem]
      by_cases hn : none ∈ todo
      · obtain ⟨g1, g2⟩ := h6 hn
        obtain ⟨fm', ops, k1, k2, k3, k4⟩ := g2.commit hg.S0
        have hsafe : ∀ t ∈ torn, Safe cfg.S (pos cfg.S fly.s) t := by
          intro t htt
          rcases ht with ht | ⟨todo', fl, fm, ops', t1, t2, t3, t4, t5⟩
          · rw [ht] at htt; simp at htt
          · rw [g1] at t3
            injection t3 with t3
            subst t3
            simp only at t4 k1
            rw [k1] at t4
            injection t4 with t4
            injection t4 with e1 e2
            subst e2
            obtain ⟨op, ho, hto⟩ := t5 t htt
            exact hto.safe (k3 op ho)
        have hRl : (x.saved.2.take (pos cfg.S fly.s)).length = pos cfg.S fly.s := by rw [List.length_take]; have := h5.sP; omega
        refine hredo fly bs _ h2 h3 hkk h5 ?_ ?_
        · exact (g2.has.take (pos cfg.S fly.s)).applyAll torn (by rw [hRl]; exact hsafe)
        · exact (ends_iff.mp g2.ends).1.applyAll torn hsafe
      · obtain ⟨g1, g2⟩ := h7 hn
        have htorn : torn = [] := by
          rcases ht with ht | ⟨todo', _, _, _, ht, ht2, _⟩
          · exact ht
          · injection ht with ht
            subst ht
            exact absurd ht2 hn
        subst htorn
        refine hredo fly bs _ h2 h3 hkk h5 ?_ (ends_iff.mp g2.ends).1
        have hRl : (x.saved.2.take (pos cfg.S fly.s)).length = pos cfg.S fly.s := by rw [List.length_take]; have := h5.sP; omega
        have := g2.has.take (pos cfg.S fly.s)
        rw [h5.q] at this
        have e : (x.saved.2.take (pos cfg.S fly.s) ++ fly.buf).take (pos cfg.S fly.s) = x.saved.2.take (pos cfg.S fly.s) := by
          conv_lhs => rw [← hRl]
          rw [hRl, List.take_append_of_le_length (by omega), List.take_of_length_le (by omega)]
        rw [e] at this
        exact this
    · exact absurd trivial hc

/-- The recovery finds the log of this flush: whether it has room can be seen from the flush. -/
theorem spans_of_log {cfg : Cfg} (hg : cfg.Good) {d : Disk} {fly : Fly} {bs : Nat → Batch} (hl : d.log = redoLog cfg fly bs) (hs : SmallLog cfg fly bs)
    (hsV : Valid cfg.S fly.s) (htV : Valid cfg.S fly.t) (h1 : fly.t.file ≤ fly.s.file + 1) (h2 : ∀ g, fly.s.file + 1 < g → Table.get g d.files = none) :
    Spans cfg d := by
  intro es b fl e1 e2 e3
  rw [hl, load_full hg hs] at e1
  injection e1 with e1
  subst e1
  rcases List.mem_cons.mp e2 with e2 | e2
  · injection e2 with _ e2
    subst e2
    rw [decodeFly_encode hg.S32 hs.2.2.1 hs.2.2.2 hsV htV] at e3
    injection e3 with e3
    subst e3
    exact ⟨h1, h2⟩
  · obtain ⟨i, hi, he⟩ := kvEntries_mem _ e2
    exact absurd (congrArg Prod.fst he).symm (hg.ids i hi).2.2

theorem NAllowed.roomy {cfg : Cfg} (hg : cfg.Good) {nd nd' : Node} {x : NSpec} (h : NInv cfg nd x) (op : NOp) (ha : NAllowed cfg nd x op)
    (hs : nd.step cfg op = some nd') : NRoomy nd op := by
  cases op with
  | rollback loc =>
    obtain ⟨P, Q, hf⟩ := h.files
    simp only [Node.step, Option.map_eq_some_iff] at hs
    obtain ⟨fs, hs, _⟩ := hs
    exact hf.roomy (cap := cfg.cap) hg.S0 (.rollback loc) ha hs
  | _ => trivial

theorem recover_begins {cfg : Cfg} {d : Disk} {nd : Node} (h : d.recover cfg = some nd) : ∃ r, d.begin cfg = some r := by
  unfold Disk.recover at h
  cases hb : d.begin cfg with
  | none => rw [hb] at h; cases h
  | some r => exact ⟨r, rfl⟩

theorem NHist.inv {cfg : Cfg} (hg : cfg.Good) {nd : Node} {x : NSpec} (h : NHist cfg nd x) : NInv cfg nd x := by
  induction h with
  | init fm hfm =>
    obtain ⟨fm', k1, k2⟩ := start_spec (S := cfg.S) (files := []) (P := []) (loc := ⟨1, 0⟩) hg.S0 ⟨Nat.le_refl _, Nat.zero_le _⟩
      (by intro f _; simp [chunk]) (by refine ⟨rfl, fun _ _ => rfl, by simp [Table.get], by simp [Table.get]⟩) (by simp [pos])
    rw [hfm] at k1
    injection k1 with k1
    subst k1
    exact NInv.restart (X := (fun _ _ => none, [])) (kv := fun _ _ => none) (fun _ _ => rfl) k2
  | step op h ha hs ih =>
    obtain ⟨nd', k1, k2⟩ := ih.step hg op ha (NAllowed.roomy hg ih op ha hs)
    rw [hs] at k1
    injection k1 with k1
    subst k1
    exact k2
  | crash k torn c h ht hd hc hn ih =>
    have hh := (ih.stop hg k torn ht hc).agains hg hd
    obtain ⟨r, hb⟩ := recover_begins hn
    obtain ⟨kv, fm, files, r1, r2, r3⟩ := hh.recover hg (hh.room hg hb)
    rw [hn] at r1
    injection r1 with r1
    subst r1
    exact NInv.restart r2 r3

/-! ### The properties -/

/-- C52. **Nobody notices a flush**: at every moment, in whatever part of a flush, a reader of each key-value store sees what it
should, whatever the flush has already written to disk. In the specification a flush changes nothing that is read. -/
theorem reads_exact {cfg : Cfg} (hg : cfg.Good) {nd : Node} {x : NSpec} (h : NHist cfg nd x) {i : Nat} (hi : i < cfg.n) (key : Bytes) :
    (nd.kv i).get key = (x.kv i).view key := by
  rw [Kv.get_eq, ((h.inv hg).1 i hi).view]

/-- C52. The reader sees what is confirmed, with the changes of the blocks that are not confirmed yet, one after the other. -/
theorem view_is_confirmed_and_pending {cfg : Cfg} (hg : cfg.Good) {nd : Node} {x : NSpec} (h : NHist cfg nd x) {i : Nat} (hi : i < cfg.n) :
    (x.kv i).view = ((x.kv i).pend.all).apply (x.kv i).conf := ((h.inv hg).1 i hi).sum

/-- C52. The bytes of the block files, likewise. -/
theorem string_exact {cfg : Cfg} (hg : cfg.Good) {nd : Node} {x : NSpec} (h : NHist cfg nd x) :
    nd.fs.fm.readRange cfg.S nd.fs.files ⟨1, 0⟩ nd.fs.fm.latest = some x.str := by
  obtain ⟨P, Q, hf⟩ := (h.inv hg).files
  have hv : Valid cfg.S ⟨1, 0⟩ := ⟨Nat.le_refl _, Nat.zero_le _⟩
  have h0 : pos cfg.S ⟨1, 0⟩ = 0 := by simp [pos]
  have key : ∀ a, Mem cfg.S nd.fs.fm.cache x.str a → (∀ f, 1 ≤ f → f < a → Table.get f nd.fs.files = some (chunk cfg.S x.str f)) →
      nd.fs.fm.readRange cfg.S nd.fs.files ⟨1, 0⟩ nd.fs.fm.latest = some x.str := by
    intro a hm ho
    have hl := hm.at.2.2.2
    have := readRange_spec hm ho ⟨1, 0⟩ hv (by rw [lt_false_iff]; have := hl.1; simp only; omega)
    rw [this, h0]; rfl
  unfold FInv at hf
  cases hfl : nd.fs.fly with
  | none =>
    rw [hfl] at hf
    obtain ⟨a, hm, ha⟩ := hf.1.mem
    exact key a hm (hf.1.old hg.S0 ha)
  | some fly =>
    rw [hfl] at hf
    obtain ⟨Q', h1, _⟩ := hf
    obtain ⟨a, hm, ha, hs⟩ := h1.mem
    exact key a hm (h1.old hg.S0 ha hs)

/-- There is one content that should survive a crash. -/
theorem survives_exists {cfg : Cfg} (hg : cfg.Good) {nd : Node} {x : NSpec} (h : NHist cfg nd x) (k : Nat) : ∃ c, Survives cfg nd x k c := by
  have hi := h.inv hg
  by_cases hc : LogComplete cfg nd k
  · obtain ⟨kv, fs, log, phase⟩ := nd
    obtain ⟨_, hi⟩ := hi
    cases phase with
    | idle => exact absurd hc (by simp [LogComplete])
    | prepared => obtain ⟨c, fly, h1, _⟩ := hi; exact ⟨c, Or.inl ⟨hc, h1⟩⟩
    | logged todo => obtain ⟨c, fly, bs, h1, _⟩ := hi; exact ⟨c, Or.inl ⟨hc, h1⟩⟩
  · exact ⟨x.saved, Or.inr ⟨hc, rfl⟩⟩

/-- C38. **A crash loses a flush as a whole or not at all**: whenever the node stops, and however often it stops again while it
recovers, when it has recovered all key-value stores and the block files have the content of one and the same moment: that of the
last flush if its log was complete, otherwise that of the flush before. -/
theorem crash_atomic {cfg : Cfg} (hg : cfg.Good) {nd : Node} {x : NSpec} (h : NHist cfg nd x) (k : Nat) (torn : List DiskOp) (ht : CanTear cfg nd torn)
    {d : Disk} (hd : Agains cfg (nd.stop cfg k torn) d) {nd' : Node} (hn : d.recover cfg = some nd') :
    ∃ c, Survives cfg nd x k c ∧ (∀ i < cfg.n, (nd'.kv i).get = c.1 i) ∧
      nd'.fs.fm.readRange cfg.S nd'.fs.files ⟨1, 0⟩ nd'.fs.fm.latest = some c.2 := by
  obtain ⟨c, hc⟩ := survives_exists hg h k
  have hh : NHist cfg nd' (NSpec.restart c) := .crash k torn c h ht hd hc hn
  refine ⟨c, hc, ?_, string_exact hg hh⟩
  intro i hi'
  funext key
  exact reads_exact hg hh hi' key

/-- C38, C51. The recovery succeeds, and goes on to do so however often the node stops while it recovers, if the interrupted flush
spans at most two block files. Missing: longer flushes, for which it can be false (`recovery_panics`). -/
theorem recovery_succeeds_partial {cfg : Cfg} (hg : cfg.Good) {nd : Node} {x : NSpec} (h : NHist cfg nd x) (k : Nat) (torn : List DiskOp)
    (ht : CanTear cfg nd torn) (hr : Spans cfg (nd.stop cfg k torn)) {d : Disk} (hd : Agains cfg (nd.stop cfg k torn) d) :
    ∃ nd', d.recover cfg = some nd' := by
  obtain ⟨c, hc⟩ := survives_exists hg h k
  have h1 := (h.inv hg).stop hg k torn ht hc
  have h2 := hr.agains hg h1 hd
  obtain ⟨kv, fm, files, r1, _⟩ := (h1.agains hg hd).recover hg (fun es b fly e1 e2 e3 => (h2 es b fly e1 e2 e3).2)
  exact ⟨_, r1⟩

/-- C38. A flush that has begun to change the stores is never lost. -/
theorem commit_not_lost {cfg : Cfg} {nd : Node} {x : NSpec} {k : Nat} {c : Content} {todo : List (Option Nat)} (hp : nd.phase = .logged todo)
    (hc : Survives cfg nd x k c) : x.coming = some c := by
  rcases hc with ⟨_, h⟩ | ⟨h, _⟩
  · exact h
  · unfold LogComplete at h
    rw [hp] at h
    exact absurd trivial h

/-- C38. No step of the ledger fails, with enough room for the rollbacks of the block files. -/
theorem node_never_fails {cfg : Cfg} (hg : cfg.Good) {nd : Node} {x : NSpec} (h : NHist cfg nd x) (op : NOp) (ha : NAllowed cfg nd x op)
    (hr : NRoomy nd op) : ∃ nd', nd.step cfg op = some nd' := by
  obtain ⟨nd', k1, _⟩ := (h.inv hg).step hg op ha hr
  exact ⟨nd', k1⟩

/-- C38. **After a failure to write the redo log the next flush panics**, whatever happens in between. The flush returns without
taking back the preparation (flusher.go:209-211): the node stays prepared. The next preparation is then refused
(db/flush.go:23-25). -/
theorem log_failure_panics {cfg : Cfg} (hg : cfg.Good) (hn : 0 < cfg.n) {nd : Node} {x : NSpec} (h : NHist cfg nd x) (hp : nd.phase = .prepared) (k : Nat) :
    (∃ nd', nd.step cfg (.logFail k) = some nd' ∧ nd'.phase = .prepared) ∧ nd.step cfg .prepare = none := by
  obtain ⟨kv, fs, log, phase⟩ := nd
  simp only at hp
  subst hp
  refine ⟨⟨_, rfl, rfl⟩, ?_⟩
  obtain ⟨_, c, fly, h1, h2, h3, h4, h5⟩ := h.inv hg
  obtain ⟨b, b1, _⟩ := h3 0 hn
  have : allKv cfg.n Kv.prepare kv = none := by
    unfold allKv
    rw [if_neg]
    intro hc
    have := hc 0 hn
    simp only at b1
    simp [Kv.prepare, b1] at this
  simp only [Node.step, this]

end Verif.Store
