import Verif.Store.NodeSpec
import Verif.Store.BatchProps

namespace Verif.Store
open Verif.Bytes

/-! ### Reading the redo log -/

theorem Loc.encode_length (l : Loc) : l.encode.length = 12 := by simp [Loc.encode, be_length]

theorem Loc.decode_encode {l : Loc} (h1 : l.file < 2 ^ 64) (h2 : l.off < 2 ^ 32) : Loc.decode l.encode = l := by
  obtain ⟨f, o⟩ := l
  have hb : (be 8 f).length = 8 := be_length _ _
  have e1 : num (be 8 f) = f := by rw [num_be]; exact Nat.mod_eq_of_lt (by simpa using h1)
  have e2 : num (be 4 o) = o := by rw [num_be]; exact Nat.mod_eq_of_lt (by simpa using h2)
  unfold Loc.decode Loc.encode
  simp only at *
  rw [List.take_append_of_le_length (by omega), List.take_of_length_le (by omega), List.drop_append_of_le_length (by omega),
    List.drop_of_length_le (by omega), List.nil_append, e1, e2]

theorem decodeFly_encode {S : Nat} (hS : S < 2 ^ 32) {f : Fly} (h1 : f.s.file < 2 ^ 64) (h2 : f.t.file < 2 ^ 64) (hs : Valid S f.s) (ht : Valid S f.t) :
    decodeFly f.encode = some f := by
  obtain ⟨s, t, buf⟩ := f
  have l1 := s.encode_length
  have l2 := t.encode_length
  unfold decodeFly Fly.encode
  simp only at *
  rw [if_neg (by rw [List.length_append, List.length_append]; omega)]
  congr 1
  have e1 : (s.encode ++ t.encode ++ buf).take 12 = s.encode := by
    rw [List.append_assoc, List.take_append_of_le_length (by omega), List.take_of_length_le (by omega)]
  have e2 : ((s.encode ++ t.encode ++ buf).drop 12).take 12 = t.encode := by
    rw [List.append_assoc, List.drop_append_of_le_length (by omega), List.drop_of_length_le (by omega), List.nil_append,
      List.take_append_of_le_length (by omega), List.take_of_length_le (by omega)]
  have e3 : (s.encode ++ t.encode ++ buf).drop 24 = buf := by
    have : 24 = (s.encode ++ t.encode).length := by rw [List.length_append]; omega
    rw [this, List.drop_left]
  rw [e1, e2, e3, Loc.decode_encode h1 (by have := hs.2; omega), Loc.decode_encode h2 (by have := ht.2; omega)]

theorem Cfg.Good.index {cfg : Cfg} (h : cfg.Good) {i : Nat} (hi : i < cfg.n) : cfg.index (cfg.id i) = some i := by
  unfold Cfg.index
  cases hf : (List.range cfg.n).find? (fun j => cfg.id j == cfg.id i) with
  | none =>
    rw [List.find?_eq_none] at hf
    exact absurd (by simp) (hf i (List.mem_range.mpr hi))
  | some j =>
    have h1 := List.find?_some hf
    have h2 := List.mem_range.mp (List.mem_of_find?_eq_some hf)
    rw [h.inj j h2 i hi (by simpa using h1)]

/-- The entries of a log that are not empty. -/
def kvEntries (cfg : Cfg) (bs : Nat → Batch) : List (Bytes × Bytes) :=
  ((List.range cfg.n).map (fun i => (cfg.id i, (bs i).encode))).filter (fun e => e.2 ≠ [])

theorem SmallLog.good {cfg : Cfg} (h : cfg.Good) {fly : Fly} {bs : Nat → Batch} (hs : SmallLog cfg fly bs) :
    ∀ e ∈ (cfg.fid, fly.encode) :: (List.range cfg.n).map (fun i => (cfg.id i, (bs i).encode)), GoodEntry cfg.flag cfg.known e := by
  intro e he
  rcases List.mem_cons.mp he with rfl | he
  · exact ⟨h.fid, h.fidF, by simp [Cfg.known], hs.1⟩
  · obtain ⟨i, hi, rfl⟩ := List.mem_map.mp he
    rw [List.mem_range] at hi
    exact ⟨(h.ids i hi).1, (h.ids i hi).2.1, by simp [Cfg.known, h.index hi], hs.2.1 i hi⟩

theorem Fly.encode_length (f : Fly) : f.encode.length = 24 + f.buf.length := by
  unfold Fly.encode
  rw [List.length_append, List.length_append, Loc.encode_length, Loc.encode_length]

theorem Fly.encode_ne (f : Fly) : f.encode ≠ [] := by
  intro h
  have := f.encode_length
  rw [h] at this
  simp at this
  omega

theorem load_full {cfg : Cfg} (h : cfg.Good) {fly : Fly} {bs : Nat → Batch} (hs : SmallLog cfg fly bs) :
    loadLog cfg.flag cfg.known (redoLog cfg fly bs) = some ((cfg.fid, fly.encode) :: kvEntries cfg bs) := by
  unfold redoLog
  rw [log_read_back h.flag (hs.good h), List.filter_cons, if_pos (by simp [fly.encode_ne])]
  rfl

theorem load_cut {cfg : Cfg} (h : cfg.Good) {fly : Fly} {bs : Nat → Batch} (hs : SmallLog cfg fly bs) {k : Nat}
    (hk : k < (redoLog cfg fly bs).length) : loadLog cfg.flag cfg.known ((redoLog cfg fly bs).take k) = some [] :=
  log_cut h.flag (hs.good h) hk

theorem load_nil (cfg : Cfg) : loadLog cfg.flag cfg.known [] = some [] := by
  simp [loadLog, loadLoop]

/-! ### Patching -/

/-- The key-value stores after some of their logs are patched in. -/
theorem patch_kv {cfg : Cfg} (h : cfg.Good) {bs : Nat → Batch} (hb : ∀ i < cfg.n, (bs i).encode.length < 2 ^ 32) {X : Nat → KMap} :
    ∀ (es : List (Bytes × Bytes)) (p : Patch), (∀ e ∈ es, ∃ i < cfg.n, e = (cfg.id i, (bs i).encode)) → (∀ i < cfg.n, (bs i).apply (p.kv i) = X i) →
    ∃ kv, patchAll cfg p es = some ⟨kv, p.fm, p.files⟩ ∧ (∀ i < cfg.n, (bs i).apply (kv i) = X i) ∧
      ∀ i < cfg.n, p.kv i = X i ∨ (cfg.id i, (bs i).encode) ∈ es → kv i = X i
  | [], p, _, hx => ⟨p.kv, rfl, hx, fun i _ hk => by
      rcases hk with hk | hk
      · exact hk
      · simp at hk⟩
  | e :: es, p, he, hx => by
    obtain ⟨i, hi, rfl⟩ := he e (by simp)
    have hp : patch cfg p (cfg.id i, (bs i).encode) = some ⟨fun j => if j = i then (bs i).apply (p.kv i) else p.kv j, p.fm, p.files⟩ := by
      unfold patch
      simp only
      rw [if_neg (h.ids i hi).2.2, h.index hi, batch_read_back _ (Nat.le_of_lt (hb i hi))]
    obtain ⟨kv, k1, k2, k3⟩ := patch_kv h hb (X := X) es ⟨fun j => if j = i then (bs i).apply (p.kv i) else p.kv j, p.fm, p.files⟩
      (fun x hm => he x (by simp [hm])) (by
        intro j hj
        simp only
        split
        · rename_i hji; subst hji; rw [Batch.apply_idem]; exact hx j hj
        · exact hx j hj)
    refine ⟨kv, by unfold patchAll; rw [hp]; exact k1, k2, ?_⟩
    intro j hj hk
    apply k3 j hj
    simp only
    by_cases hji : j = i
    · left; rw [if_pos hji, hji]; exact hx i hi
    · rw [if_neg hji]
      rcases hk with hk | hk
      · exact Or.inl hk
      · rcases List.mem_cons.mp hk with hk | hk
        · exact absurd (h.inj j hj i hi (congrArg Prod.fst hk)) hji
        · exact Or.inr hk

theorem kvEntries_mem {cfg : Cfg} {bs : Nat → Batch} : ∀ e ∈ kvEntries cfg bs, ∃ i < cfg.n, e = (cfg.id i, (bs i).encode) := by
  intro e he
  obtain ⟨h1, _⟩ := List.mem_filter.mp he
  obtain ⟨i, hi, rfl⟩ := List.mem_map.mp h1
  exact ⟨i, List.mem_range.mp hi, rfl⟩

theorem beforeRecover_kv {cfg : Cfg} (h : cfg.Good) {bs : Nat → Batch} {files : Files} : ∀ (es : List (Bytes × Bytes)) (fm : FM),
    (∀ e ∈ es, ∃ i < cfg.n, e = (cfg.id i, (bs i).encode)) → beforeRecover cfg files fm es = some fm
  | [], _, _ => rfl
  | e :: es, fm, he => by
    obtain ⟨i, hi, rfl⟩ := he e (by simp)
    unfold beforeRecover
    simp only
    rw [if_neg (h.ids i hi).2.2]
    exact beforeRecover_kv h es fm (fun x hx => he x (by simp [hx]))

/-! ### Disks from which the node recovers -/

/-- From this disk the node recovers the content `X`. -/
inductive Holds (cfg : Cfg) (d : Disk) (X : Content) : Prop
  | clean (hl : loadLog cfg.flag cfg.known d.log = some []) (hk : ∀ i < cfg.n, d.kv i = X.1 i) (loc : Loc) (hv : Valid cfg.S loc)
      (hh : Has cfg.S d.files X.2) (he : Ends cfg.S d.files loc) (hp : pos cfg.S loc = X.2.length)
  | redo (fly : Fly) (bs : Nat → Batch) (R : Bytes) (hl : d.log = redoLog cfg fly bs) (hs : SmallLog cfg fly bs)
      (hk : ∀ i < cfg.n, (bs i).apply (d.kv i) = X.1 i) (hsV : Valid cfg.S fly.s) (htV : Valid cfg.S fly.t) (hst : fly.t.lt fly.s = false)
      (hR : R.length = pos cfg.S fly.s) (hh : Has cfg.S d.files R) (hsane : Sane cfg.S d.files) (hX : X.2 = R ++ fly.buf)
      (hb : fly.buf.length = pos cfg.S fly.t - pos cfg.S fly.s)

theorem patchAll_append {cfg : Cfg} : ∀ (a b : List (Bytes × Bytes)) (p : Patch),
    patchAll cfg p (a ++ b) = (patchAll cfg p a).bind (fun q => patchAll cfg q b)
  | [], _, _ => rfl
  | e :: a, b, p => by
    simp only [List.cons_append, patchAll]
    cases patch cfg p e with
    | none => rfl
    | some q => exact patchAll_append a b q

/-- All that recovery does from such a disk. -/
theorem Holds.begin_redo {cfg : Cfg} (h : cfg.Good) {d : Disk} {X : Content} {fly : Fly} {bs : Nat → Batch} {R : Bytes} (hl : d.log = redoLog cfg fly bs)
    (hs : SmallLog cfg fly bs) (hk : ∀ i < cfg.n, (bs i).apply (d.kv i) = X.1 i) (hsV : Valid cfg.S fly.s) (htV : Valid cfg.S fly.t)
    (hst : fly.t.lt fly.s = false) (hR : R.length = pos cfg.S fly.s) (hh : Has cfg.S d.files R) (hsane : Sane cfg.S d.files)
    (hb : fly.buf.length = pos cfg.S fly.t - pos cfg.S fly.s) (hab : ∀ g, fly.s.file + 1 < g → Table.get g d.files = none) :
    ∃ fm1 fm2 ops, d.begin cfg = some (⟨d.kv, fm1, d.files⟩, (cfg.fid, fly.encode) :: kvEntries cfg bs) ∧
      fm1.flush cfg.S d.files fly.s fly.t fly.buf = some (fm2, ops) ∧
      patch cfg ⟨d.kv, fm1, d.files⟩ (cfg.fid, fly.encode) = some ⟨d.kv, fm2, applyAll d.files ops⟩ ∧
      Idle cfg.S fm2 (applyAll d.files ops) (R ++ fly.buf) (R ++ fly.buf) ∧
      (∀ op ∈ ops, Safe cfg.S (pos cfg.S fly.s) op) ∧ (∀ op ∈ ops, Low fly.t.file op) := by
  obtain ⟨fm0, fm1, fm2, ops, g1, g2, g3, g4, g5, g6⟩ := recover_spec (cap := cfg.cap) h.S0 hsV htV hst hh hR hsane hab hb
  have hdec := decodeFly_encode h.S32 hs.2.2.1 hs.2.2.2 hsV htV
  refine ⟨fm1, fm2, ops, ?_, g3, ?_, g4, g5, g6⟩
  · unfold Disk.begin
    rw [g1, hl, load_full h hs]
    simp only [beforeRecover, if_true, hdec, g2]
    rw [beforeRecover_kv h _ _ kvEntries_mem]
    rfl
  · unfold patch
    simp only [if_true, hdec, g3, Option.map_some]

/-- A recovery that gets over its beginning had room. -/
theorem begin_room {cfg : Cfg} (h : cfg.Good) {d : Disk} {fly : Fly} {bs : Nat → Batch} (hl : d.log = redoLog cfg fly bs)
    (hs : SmallLog cfg fly bs) (hsV : Valid cfg.S fly.s) (htV : Valid cfg.S fly.t) (hsane : Sane cfg.S d.files) {r} (hb : d.begin cfg = some r) :
    ∀ g, fly.s.file + 1 < g → Table.get g d.files = none := by
  obtain ⟨fm0, it, j1, j2, j3, j4, j5, j6, j7, j8, j9⟩ := start_gen hsane
  have hlat : fm0.latest = ⟨it.id, it.data.length⟩ := by unfold FM.latest; rw [j2]; rfl
  intro g hg
  by_cases hid : it.id ≤ fly.s.file + 1
  · exact j8 g (by omega)
  · exfalso
    have hdel : fm0.deleteTo cfg.cap d.files fly.s = none := by
      unfold FM.deleteTo
      rw [show fly.s.lt fm0.latest = true from by rw [hlat, lt_iff]; simp only; omega]
      simp only [Bool.not_true, Bool.false_eq_true, if_false]
      rw [if_neg (show ¬ fm0.latest.file - fly.s.file = 0 by rw [hlat]; simp only; omega),
        if_pos (show fm0.cache.length < fm0.latest.file - fly.s.file by rw [hlat, j2, List.length_singleton]; simp only; omega)]
      rfl
    have hdec := decodeFly_encode h.S32 hs.2.2.1 hs.2.2.2 hsV htV
    unfold Disk.begin at hb
    rw [j1, hl, load_full h hs] at hb
    simp [beforeRecover, hdec, FM.beforeRecover, hdel] at hb

/-- Whether a recovery has room can be seen from the log and the files. -/
def Room (cfg : Cfg) (d : Disk) : Prop :=
  ∀ es b fly, loadLog cfg.flag cfg.known d.log = some es → (cfg.fid, b) ∈ es → decodeFly b = some fly →
    ∀ g, fly.s.file + 1 < g → Table.get g d.files = none

theorem room_of_log {cfg : Cfg} (hg : cfg.Good) {d : Disk} {fly : Fly} {bs : Nat → Batch} (hl : d.log = redoLog cfg fly bs) (hs : SmallLog cfg fly bs)
    (hsV : Valid cfg.S fly.s) (htV : Valid cfg.S fly.t) (hr : Room cfg d) : ∀ g, fly.s.file + 1 < g → Table.get g d.files = none :=
  hr _ _ fly (by rw [hl]; exact load_full hg hs) List.mem_cons_self (decodeFly_encode hg.S32 hs.2.2.1 hs.2.2.2 hsV htV)

/-- A recovery that succeeds had room. -/
theorem Holds.room {cfg : Cfg} (h : cfg.Good) {d : Disk} {X : Content} (hd : Holds cfg d X) {r} (hb : d.begin cfg = some r) : Room cfg d := by
  intro es b fly e1 e2 e3
  cases hd with
  | clean hl =>
    rw [hl] at e1
    injection e1 with e1
    subst e1
    cases e2
  | redo fl bs R hl hs hk hsV htV hst hR hh hsane =>
    rw [hl, load_full h hs] at e1
    injection e1 with e1
    subst e1
    rcases List.mem_cons.mp e2 with e2 | e2
    · injection e2 with _ e2
      subst e2
      rw [decodeFly_encode h.S32 hs.2.2.1 hs.2.2.2 hsV htV] at e3
      injection e3 with e3
      subst e3
      exact begin_room h hl hs hsV htV hsane hb
    · obtain ⟨i, hi, he⟩ := kvEntries_mem _ e2
      exact absurd (congrArg Prod.fst he).symm (h.ids i hi).2.2

/-- **Recovery** gives the content, as if it had been saved. -/
theorem Holds.recover {cfg : Cfg} (h : cfg.Good) {d : Disk} {X : Content} (hd : Holds cfg d X) (hroom : Room cfg d) :
    ∃ (kv : Nat → KMap) (fm : FM) (files : Files), d.recover cfg = some ⟨fun i => Kv.fresh (kv i), ⟨fm, files, none⟩, [], .idle⟩ ∧ (∀ i < cfg.n, kv i = X.1 i) ∧
      Idle cfg.S fm files X.2 X.2 := by
  cases hd with
  | clean hl hk loc hv hh he hp =>
    obtain ⟨fm, k1, k2⟩ := start_spec h.S0 hv hh he hp
    refine ⟨d.kv, fm, d.files, ?_, hk, k2⟩
    unfold Disk.recover Disk.begin
    rw [k1, hl]
    rfl
  | redo fly bs R hl hs hk hsV htV hst hR hh hsane hX hb =>
    have hab := room_of_log h hl hs hsV htV hroom
    obtain ⟨fm1, fm2, ops, b1, b2, b3, b4, b5, b6⟩ := Holds.begin_redo h hl hs hk hsV htV hst hR hh hsane hb hab
    obtain ⟨kv, k1, k2, k3⟩ := patch_kv h hs.2.1 (kvEntries cfg bs) ⟨d.kv, fm2, applyAll d.files ops⟩ kvEntries_mem hk
    refine ⟨kv, fm2, applyAll d.files ops, ?_, ?_, by rw [hX]; exact b4⟩
    · unfold Disk.recover
      rw [b1]
      simp only [patchAll, b3, k1, Option.map_some]
    · intro i hi
      apply k3 i hi
      by_cases he : (bs i).encode = []
      · left
        have := hk i hi
        rw [Batch.encode_nil he] at this
        exact this
      · right
        exact List.mem_filter.mpr ⟨List.mem_map.mpr ⟨i, List.mem_range.mpr hi, rfl⟩, by simp [he]⟩

theorem Idle.holds {cfg : Cfg} {fm : FM} {d : Disk} {X : Content} {L : Bytes} (hi : Idle cfg.S fm d.files L X.2)
    (hl : loadLog cfg.flag cfg.known d.log = some []) (hk : ∀ i < cfg.n, d.kv i = X.1 i) : Holds cfg d X :=
  .clean hl hk fm.prev hi.prevV hi.has hi.ends hi.prevP

/-- **A crash during recovery** leaves a disk from which the node recovers the same content. -/
theorem Holds.again {cfg : Cfg} (h : cfg.Good) {d d' : Disk} {X : Content} (hd : Holds cfg d X) (ha : Again cfg d d') : Holds cfg d' X := by
  cases hd with
  | clean hl hk loc hv hh he hp =>
    obtain ⟨fm, k1, k2⟩ := start_spec h.S0 hv hh he hp
    have hbeg : d.begin cfg = some (⟨d.kv, fm, d.files⟩, []) := by
      unfold Disk.begin
      rw [k1, hl]
      rfl
    cases ha with
    | between p p' es j hb hpp =>
      rw [hbeg] at hb
      injection hb with hb; injection hb with e1 e2
      subst e1 e2
      rw [List.take_nil] at hpp
      injection hpp with hpp
      subst hpp
      exact .clean hl hk loc hv hh he hp
    | within p p' es j hb hpp e fly fm' ops torn hj =>
      rw [hbeg] at hb
      injection hb with hb; injection hb with e1 e2
      subst e2
      simp at hj
    | after p p' es hb hpp =>
      rw [hbeg] at hb
      injection hb with hb; injection hb with e1 e2
      subst e1 e2
      injection hpp with hpp
      subst hpp
      exact .clean (load_nil cfg) hk loc hv hh he hp
  | redo fly bs R hl hs hk hsV htV hst hR hh hsane hX hb =>
    have hroom : Room cfg d := by
      have hw : Holds cfg d X := .redo fly bs R hl hs hk hsV htV hst hR hh hsane hX hb
      cases ha with
      | between p p' es j hbb hpp => exact hw.room h hbb
      | within p p' es j hbb hpp => exact hw.room h hbb
      | after p p' es hbb hpp => exact hw.room h hbb
    have hab := room_of_log h hl hs hsV htV hroom
    obtain ⟨fm1, fm2, ops, b1, b2, b3, b4, b5, b6⟩ := Holds.begin_redo h hl hs hk hsV htV hst hR hh hsane hb hab
    have hdec := decodeFly_encode h.S32 hs.2.2.1 hs.2.2.2 hsV htV
    -- the disk when part of the operations of the block files are done
    have hpart : ∀ (done : List DiskOp) (kv : Nat → KMap), (∀ op ∈ done, Safe cfg.S (pos cfg.S fly.s) op) →
        (∀ i < cfg.n, (bs i).apply (kv i) = X.1 i) → Holds cfg ⟨kv, applyAll d.files done, d.log⟩ X := by
      intro done kv s1 s3
      exact .redo fly bs R hl hs s3 hsV htV hst hR (hh.applyAll done (by rw [hR]; exact s1)) (hsane.applyAll done s1) hX hb
    cases ha with
    | between p p' es j hbb hpp =>
      rw [b1] at hbb
      injection hbb with hbb; injection hbb with e1 e2
      subst e1 e2
      cases j with
      | zero =>
        rw [List.take_zero] at hpp
        injection hpp with hpp
        subst hpp
        exact hpart [] d.kv (by simp) hk
      | succ j =>
        rw [List.take_succ_cons] at hpp
        obtain ⟨kv, k1, k2, k3⟩ := patch_kv h hs.2.1 ((kvEntries cfg bs).take j) ⟨d.kv, fm2, applyAll d.files ops⟩
          (fun e he => kvEntries_mem e (List.mem_of_mem_take he)) hk
        simp only [patchAll, b3, k1] at hpp
        injection hpp with hpp
        subst hpp
        exact hpart ops kv b5 k2
    | within p p' es j hbb hpp e fl fm' ops' torn hj he hf hfl ht =>
      rw [b1] at hbb
      injection hbb with hbb; injection hbb with e1 e2
      subst e1 e2
      cases j with
      | zero =>
        rw [List.take_zero] at hpp
        injection hpp with hpp
        subst hpp
        simp only [List.getElem?_cons_zero] at hj
        injection hj with hj
        subst hj
        rw [hdec] at hf
        injection hf with hf
        subst hf
        rw [b2] at hfl
        injection hfl with hfl; injection hfl with e3 e4
        subst e4
        refine hpart torn d.kv ?_ hk
        intro t htt
        obtain ⟨op, ho, hto⟩ := ht t htt
        exact hto.safe (b5 op ho)
      | succ j =>
        simp only [List.getElem?_cons_succ] at hj
        obtain ⟨i, hi, rfl⟩ := kvEntries_mem e (List.mem_of_getElem? hj)
        exact absurd he (h.ids i hi).2.2
    | after p p' es hbb hpp =>
      rw [b1] at hbb
      injection hbb with hbb; injection hbb with e1 e2
      subst e1 e2
      obtain ⟨kv, fm, files, r1, r2, r3⟩ := Holds.recover h (.redo fly bs R hl hs hk hsV htV hst hR hh hsane hX hb) hroom
      unfold Disk.recover at r1
      rw [b1] at r1
      simp only [hpp, Option.map_some] at r1
      injection r1 with r1
      injection r1 with e3 e4
      injection e4 with e5 e6
      have hkv : p'.kv = kv := by
        funext i
        have := congrFun e3 i
        unfold Kv.fresh at this
        injection this
      have r3' : Idle cfg.S fm p'.files X.2 X.2 := by rw [e6]; exact r3
      exact Idle.holds (d := ⟨p'.kv, p'.files, []⟩) (X := X) r3' (load_nil cfg) (by intro i hi; rw [hkv]; exact r2 i hi)

theorem Holds.agains {cfg : Cfg} (h : cfg.Good) {d d' : Disk} {X : Content} (hd : Holds cfg d X) (ha : Agains cfg d d') : Holds cfg d' X := by
  induction ha with
  | refl => exact hd
  | step h1 _ ih => exact ih (hd.again h h1)

/-- The files keep to the room that their log asks for. -/
theorem Spans.again {cfg : Cfg} (h : cfg.Good) {d d' : Disk} {X : Content} (hd : Holds cfg d X) (hsp : Spans cfg d) (ha : Again cfg d d') : Spans cfg d' := by
  have hroom : Room cfg d := fun es b fly e1 e2 e3 => (hsp es b fly e1 e2 e3).2
  -- only the entry of the block files changes the files
  have hkvp : ∀ (es : List (Bytes × Bytes)) (p p' : Patch), (∀ e ∈ es, e.1 ≠ cfg.fid) → patchAll cfg p es = some p' → p'.files = p.files := by
    intro es
    induction es with
    | nil => intro p p' _ h1; injection h1 with h1; rw [h1]
    | cons e es ih =>
      intro p p' h0 h1
      unfold patchAll at h1
      cases hp : patch cfg p e with
      | none => rw [hp] at h1; cases h1
      | some q =>
        rw [hp] at h1
        have e1 := ih q p' (fun e' he' => h0 e' (List.mem_cons_of_mem _ he')) h1
        rw [e1]
        unfold patch at hp
        rw [if_neg (h0 e List.mem_cons_self)] at hp
        split at hp
        · injection hp with hp; rw [← hp]
        · cases hp
  cases hd with
  | clean hl hk loc hv hh he hp =>
    intro es b fly e1 e2 e3
    have : d'.log = d.log ∨ d'.log = [] := by cases ha <;> simp
    rcases this with h1 | h1
    · rw [h1, hl] at e1
      injection e1 with e1
      subst e1
      cases e2
    · rw [h1, load_nil] at e1
      injection e1 with e1
      subst e1
      cases e2
  | redo fly bs R hl hs hk hsV htV hst hR hh hsane hX hb =>
    have hab := room_of_log h hl hs hsV htV hroom
    have hdec := decodeFly_encode h.S32 hs.2.2.1 hs.2.2.2 hsV htV
    have hts := (hsp _ _ fly (by rw [hl]; exact load_full h hs) List.mem_cons_self hdec).1
    obtain ⟨fm1, fm2, ops, b1, b2, b3, b4, b5, b6⟩ := Holds.begin_redo h hl hs hk hsV htV hst hR hh hsane hb hab
    have hlow : ∀ op ∈ ops, Low (fly.s.file + 1) op := fun op ho => by
      have := b6 op ho
      cases op <;> simp only [Low] at * <;> omega
    have hfin : ∀ (done : List DiskOp) (kv : Nat → KMap), (∀ op ∈ done, Low (fly.s.file + 1) op) → Spans cfg ⟨kv, applyAll d.files done, d.log⟩ := by
      intro done kv s2 es b fl e1 e2 e3
      rw [hl, load_full h hs] at e1
      injection e1 with e1
      subst e1
      rcases List.mem_cons.mp e2 with e2 | e2
      · injection e2 with _ e2
        subst e2
        rw [hdec] at e3
        injection e3 with e3
        subst e3
        exact ⟨hts, none_above_all done hab s2⟩
      · obtain ⟨i, hi, he⟩ := kvEntries_mem _ e2
        exact absurd (congrArg Prod.fst he).symm (h.ids i hi).2.2
    cases ha with
    | between p p' es j hbb hpp =>
      rw [b1] at hbb
      injection hbb with hbb; injection hbb with e1 e2
      subst e1 e2
      cases j with
      | zero =>
        rw [List.take_zero] at hpp
        injection hpp with hpp
        subst hpp
        exact hfin [] d.kv (by simp)
      | succ j =>
        rw [List.take_succ_cons] at hpp
        simp only [patchAll, b3] at hpp
        have hfi := hkvp _ _ _ (fun e he => by
          obtain ⟨i, hi, rfl⟩ := kvEntries_mem e (List.mem_of_mem_take he)
          exact (h.ids i hi).2.2) hpp
        rw [hfi]
        exact hfin ops p'.kv hlow
    | within p p' es j hbb hpp e fl fm' ops' torn hj he hf hfl ht =>
      rw [b1] at hbb
      injection hbb with hbb; injection hbb with e1 e2
      subst e1 e2
      cases j with
      | zero =>
        rw [List.take_zero] at hpp
        injection hpp with hpp
        subst hpp
        simp only [List.getElem?_cons_zero] at hj
        injection hj with hj
        subst hj
        rw [hdec] at hf
        injection hf with hf
        subst hf
        rw [b2] at hfl
        injection hfl with hfl; injection hfl with e3 e4
        subst e4
        refine hfin torn d.kv ?_
        intro t htt
        obtain ⟨op, ho, hto⟩ := ht t htt
        exact hto.low (hlow op ho)
      | succ j =>
        simp only [List.getElem?_cons_succ] at hj
        obtain ⟨i, hi, rfl⟩ := kvEntries_mem e (List.mem_of_getElem? hj)
        exact absurd he (h.ids i hi).2.2
    | after p p' es hbb hpp =>
      intro es' b fl e1 e2 e3
      rw [load_nil] at e1
      injection e1 with e1
      subst e1
      cases e2

theorem Spans.agains {cfg : Cfg} (h : cfg.Good) {d d' : Disk} {X : Content} (hd : Holds cfg d X) (hsp : Spans cfg d) (ha : Agains cfg d d') : Spans cfg d' := by
  induction ha with
  | refl => exact hsp
  | step h1 _ ih => exact ih (hd.again h h1) (hsp.again h hd h1)

end Verif.Store
