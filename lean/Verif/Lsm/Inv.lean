import Verif.Lsm.Build

/-! The invariant of the levelled database. -/

namespace Verif.Lsm

variable {K V : Type} [LinearOrder K]

/-- The entries of the frozen table, if there is one. -/
def frozenL (d : Db K V) : List (Entry K V) := d.frozen.getD []

/-- The database has an entry somewhere. -/
def Has (d : Db K V) (e : Entry K V) : Prop := e ∈ d.mem ∨ e ∈ frozenL d ∨ InLev d.lev e

/-- The `i`-th write (from 1) is the last one of the key at or before `s`. -/
def LastWrite (w : List (K × Option V)) (s : Nat) (k : K) (i : Nat) (v : Option V) : Prop :=
  1 ≤ i ∧ i ≤ s ∧ w[i - 1]? = some (k, v) ∧ ∀ j v', i < j → j ≤ s → w[j - 1]? ≠ some (k, v')

/-- What holds of a compaction on its way. -/
structure JobOk (d : Db K V) (j : Job K V) : Prop where
  t0_sub : ∀ f ∈ j.t0, f ∈ d.lev j.level
  t1_sub : ∀ f ∈ j.t1, f ∈ d.lev (j.level + 1)
  min_seq : j.minSeq ≤ d.seq
  min_snap : ∀ s ∈ d.snaps, j.minSeq ≤ s
  outs_ok : ∀ o ∈ j.outs, FileOk o
  outs_ord : Ordered j.outs
  outs_num : ∀ o ∈ j.outs, o.num < d.nextNum ∧ ∀ i, ∀ g ∈ d.lev i, g.num = o.num → g = o
  outs_nums : j.outs.Pairwise (fun f g => f.num ≠ g.num)
  outs_sub : ∀ e, InFiles j.outs e → InFiles (j.t0 ++ j.t1) e
  keep : ∀ e, InFiles (j.t0 ++ j.t1) e → InFiles j.outs e ∨
    (∃ e', InFiles (j.t0 ++ j.t1) e' ∧ e'.key = e.key ∧ e.seq < e'.seq ∧ e'.seq ≤ j.minSeq) ∨
    (e.val = none ∧ e.seq ≤ j.minSeq ∧
      (∀ i, j.level + 2 ≤ i → ∀ g ∈ d.lev i, ∀ x ∈ g.es, x.key ≠ e.key) ∧
      ∀ x, InFiles j.outs x → x.key = e.key → e.seq < x.seq)
  closed0 : ∀ g ∈ d.lev j.level, g ∉ j.t0 → ∀ f ∈ j.t0, ∀ x ∈ g.es, ∀ e ∈ f.es, x.key = e.key →
    e.seq < x.seq
  apart : ∃ a b, (∀ f ∈ j.t0 ++ j.t1, a ≤ f.lo.key ∧ f.hi.key ≤ b) ∧
    ∀ g ∈ d.lev (j.level + 1), g ∉ j.t1 → g.hi.key < a ∨ b < g.lo.key

/-- The invariant. -/
structure Inv (d : Db K V) : Prop where
  mem_sorted : Sorted d.mem
  fro_sorted : Sorted (frozenL d)
  lev_ok : LevOk d.lev
  depth_ok : ∀ i, d.depth ≤ i → d.lev i = []
  mem_new : ∀ e ∈ d.mem, ∀ x, x ∈ frozenL d ∨ InLev d.lev x → x.seq < e.seq
  fro_new : ∀ e ∈ frozenL d, ∀ x, InLev d.lev x → x.seq < e.seq
  uniq0 : (d.lev 0).Pairwise (fun f g => ∀ e ∈ f.es, ∀ x ∈ g.es, e.seq ≠ x.seq)
  nums : ∀ i, (d.lev i).Pairwise (fun f g => f.num ≠ g.num)
  num_inj : ∀ i j, ∀ f ∈ d.lev i, ∀ g ∈ d.lev j, f.num = g.num → f = g
  num_lt : ∀ i, ∀ f ∈ d.lev i, f.num < d.nextNum
  real : ∀ e, Has d e → 1 ≤ e.seq ∧ d.wrote[e.seq - 1]? = some (e.key, e.val)
  content : ∀ s, d.floor ≤ s → ∀ k i v, LastWrite d.wrote s k i v →
    Has d ⟨k, i, v⟩ ∨ (v = none ∧ Absent (Has d) k s)
  seq_le : d.seq ≤ d.wrote.length
  floor_le : d.floor ≤ d.seq
  snap_le : ∀ s ∈ d.snaps, d.floor ≤ s ∧ s ≤ d.seq
  snap_sorted : d.snaps.Pairwise (· ≤ ·)
  job_ok : ∀ j, d.job = some j → JobOk d j

theorem Inv.real_lt {d : Db K V} (h : Inv d) {e : Entry K V} (he : Has d e) :
    e.seq ≤ d.wrote.length := by
  have h1 := h.real e he
  have := (List.getElem?_eq_some_iff.1 h1.2).1
  omega

theorem Inv.real_eq {d : Db K V} (h : Inv d) {e x : Entry K V} (he : Has d e) (hx : Has d x)
    (hs : e.seq = x.seq) : e = x := by
  have h1 := (h.real e he).2
  have h2 := (h.real x hx).2
  rw [hs, h2] at h1
  cases e; cases x
  simp_all

theorem inv_init : Inv (Db.init K V) := by
  constructor <;> simp [Db.init, frozenL, Sorted, InLev, Has, LastWrite]
  constructor <;> simp [Ordered]

theorem insert_mem (e x : Entry K V) (es : List (Entry K V)) :
    x ∈ insert e es ↔ x = e ∨ x ∈ es := by
  induction es with
  | nil => simp [insert]
  | cons y es ih =>
    simp only [insert]
    split
    · simp only [List.mem_cons, ih]
      tauto
    · simp

theorem insert_sorted {e : Entry K V} {es : List (Entry K V)} (hs : Sorted es)
    (hne : ∀ x ∈ es, x.seq ≠ e.seq) : Sorted (insert e es) := by
  induction es with
  | nil => simp [insert, Sorted]
  | cons y es ih =>
    have hc := List.pairwise_cons.1 hs
    simp only [insert]
    split
    · rename_i hp
      refine List.pairwise_cons.2 ⟨fun x hx => ?_, ih hc.2 (fun x hx => hne x (by simp [hx]))⟩
      rcases (insert_mem e x es).1 hx with rfl | hx
      · exact hp
      · exact hc.1 x hx
    · rename_i hp
      have hey : prior e y = true := by
        have h1 := hne y (by simp)
        rw [prior_iff] at hp ⊢
        rcases lt_trichotomy e.key y.key with h | h | h <;> grind
      refine List.pairwise_cons.2 ⟨fun x hx => ?_, hs⟩
      rcases List.mem_cons.1 hx with rfl | hx
      · exact hey
      · exact prior_trans hey (hc.1 x hx)

/-! ### Writes -/

theorem inv_put {d : Db K V} (h : Inv d) (k : K) (v : Option V) :
    Inv { d with mem := insert ⟨k, d.wrote.length + 1, v⟩ d.mem, wrote := d.wrote ++ [(k, v)] } := by
  have hmem : ∀ x, Has { d with
        mem := insert ⟨k, d.wrote.length + 1, v⟩ d.mem, wrote := d.wrote ++ [(k, v)] } x ↔
      x = ⟨k, d.wrote.length + 1, v⟩ ∨ Has d x := by
    intro x
    simp only [Has, insert_mem, frozenL]
    tauto
  refine
    { mem_sorted := ?_, fro_sorted := h.fro_sorted, lev_ok := h.lev_ok, depth_ok := h.depth_ok,
      mem_new := ?_, fro_new := h.fro_new, uniq0 := h.uniq0, nums := h.nums,
      num_inj := h.num_inj, num_lt := h.num_lt, real := ?_, content := ?_,
      seq_le := ?_, floor_le := h.floor_le, snap_le := h.snap_le, snap_sorted := h.snap_sorted,
      job_ok := fun j hj => ?_ }
  · refine insert_sorted h.mem_sorted (fun x hx => ?_)
    have := h.real_lt (e := x) (.inl hx)
    simp only
    omega
  · intro e he x hx
    rcases (insert_mem _ _ _).1 he with rfl | he
    · have := h.real_lt (e := x) (.inr hx)
      simp only
      omega
    · exact h.mem_new e he x hx
  · intro e he
    rcases (hmem e).1 he with rfl | he
    · simp
    · have h1 := h.real e he
      have h2 := h.real_lt he
      exact ⟨h1.1, by
        show (d.wrote ++ [(k, v)])[e.seq - 1]? = _
        rw [List.getElem?_append_left (by omega)]
        exact h1.2⟩
  · intro s hs k' i v' hl
    obtain ⟨h1, h2, h3, h4⟩ := hl
    simp only at h3 h4
    by_cases hi : i = d.wrote.length + 1
    · subst hi
      simp only [Nat.add_sub_cancel, List.getElem?_concat_length, Option.some.injEq,
        Prod.mk.injEq] at h3
      left
      exact (hmem _).2 (.inl (by rw [h3.1, h3.2]))
    · have hlen : i - 1 < d.wrote.length := by
        have := (List.getElem?_eq_some_iff.1 h3).1
        simp at this
        omega
      rw [List.getElem?_append_left hlen] at h3
      have hlast : LastWrite d.wrote s k' i v' := by
        refine ⟨h1, h2, h3, fun j v'' hj hjs hw => h4 j v'' hj hjs ?_⟩
        have := (List.getElem?_eq_some_iff.1 hw).1
        rw [List.getElem?_append_left this]
        exact hw
      rcases h.content s hs k' i v' hlast with h5 | ⟨h5, h6⟩
      · exact .inl ((hmem _).2 (.inr h5))
      · refine .inr ⟨h5, fun x hx hk => ?_⟩
        rcases (hmem x).1 hx with rfl | hx
        · by_contra hlt
          simp only at hk hlt
          exact h4 (d.wrote.length + 1) v (by omega) (by omega) (by simp [hk])
        · exact h6 x hx hk
  · have := h.seq_le
    simp only [List.length_append, List.length_singleton]
    omega
  · have := h.job_ok j hj
    exact ⟨this.t0_sub, this.t1_sub, this.min_seq, this.min_snap, this.outs_ok, this.outs_ord,
      this.outs_num, this.outs_nums, this.outs_sub, this.keep, this.closed0, this.apart⟩

theorem inv_publish {d : Db K V} (h : Inv d) : Inv { d with seq := d.wrote.length } := by
  have hs := h.seq_le
  refine
    { mem_sorted := h.mem_sorted, fro_sorted := h.fro_sorted, lev_ok := h.lev_ok,
      depth_ok := h.depth_ok, mem_new := h.mem_new, fro_new := h.fro_new, uniq0 := h.uniq0,
      nums := h.nums, num_inj := h.num_inj, num_lt := h.num_lt, real := h.real,
      content := h.content, seq_le := le_refl _, floor_le := le_trans h.floor_le hs,
      snap_le := fun s hm => ⟨(h.snap_le s hm).1, le_trans (h.snap_le s hm).2 hs⟩,
      snap_sorted := h.snap_sorted, job_ok := fun j hj => ?_ }
  have := h.job_ok j hj
  exact ⟨this.t0_sub, this.t1_sub, le_trans this.min_seq hs, this.min_snap, this.outs_ok,
    this.outs_ord, this.outs_num, this.outs_nums, this.outs_sub, this.keep, this.closed0,
    this.apart⟩

/-! ### Memory tables -/

theorem inv_rotate {d : Db K V} (h : Inv d) (hf : d.frozen = none) :
    Inv { d with mem := [], frozen := some d.mem } := by
  have hmem : ∀ x, Has { d with mem := [], frozen := some d.mem } x ↔ Has d x := by
    intro x
    simp [Has, frozenL, hf]
  refine
    { mem_sorted := List.Pairwise.nil, fro_sorted := h.mem_sorted, lev_ok := h.lev_ok,
      depth_ok := h.depth_ok, mem_new := by simp,
      fro_new := fun e he x hx => h.mem_new e he x (.inr hx), uniq0 := h.uniq0,
      nums := h.nums, num_inj := h.num_inj, num_lt := h.num_lt,
      real := fun e he => h.real e ((hmem e).1 he),
      content := fun s hs k i v hl => ?_, seq_le := h.seq_le, floor_le := h.floor_le,
      snap_le := h.snap_le, snap_sorted := h.snap_sorted, job_ok := fun j hj => ?_ }
  · rcases h.content s hs k i v hl with h1 | ⟨h1, h2⟩
    · exact .inl ((hmem _).2 h1)
    · exact .inr ⟨h1, fun x hx => h2 x ((hmem x).1 hx)⟩
  · have := h.job_ok j hj
    exact ⟨this.t0_sub, this.t1_sub, this.min_seq, this.min_snap, this.outs_ok, this.outs_ord,
      this.outs_num, this.outs_nums, this.outs_sub, this.keep, this.closed0, this.apart⟩

theorem inv_flush {d : Db K V} (h : Inv d) (es : List (Entry K V)) (hf : d.frozen = some es) :
    Inv { d with
      frozen := none
      lev := fun i => if i = 0 then mkFile d.nextNum es ++ d.lev 0 else d.lev i
      depth := max d.depth 1
      nextNum := d.nextNum + 1 } := by
  have hfl : frozenL d = es := by simp [frozenL, hf]
  have hes : Sorted es := hfl ▸ h.fro_sorted
  have hmk := mkFile_ok (n := d.nextNum) hes
  have hlev : ∀ i f, f ∈ (if i = 0 then mkFile d.nextNum es ++ d.lev 0 else d.lev i) ↔
      (i = 0 ∧ f ∈ mkFile d.nextNum es) ∨ f ∈ d.lev i := by
    intro i f
    by_cases hi : i = 0
    · subst hi; simp
    · simp [hi]
  have hsingle : ∀ (R : File K V → File K V → Prop), (mkFile d.nextNum es).Pairwise R := by
    intro R
    cases es <;> simp [mkFile]
  have hfro : ∀ f ∈ mkFile d.nextNum es, ∀ e ∈ f.es, ∀ i, ∀ g ∈ d.lev i, ∀ x ∈ g.es,
      x.seq < e.seq := by
    intro f hf e he i g hg x hx
    exact h.fro_new e (by rw [hfl]; rwa [(hmk f hf).2.1] at he) x ⟨i, g, hg, hx⟩
  have hin : ∀ x, InLev (fun i => if i = 0 then mkFile d.nextNum es ++ d.lev 0 else d.lev i) x ↔
      x ∈ es ∨ InLev d.lev x := by
    intro x
    constructor
    · rintro ⟨i, f, hf, hx⟩
      rcases (hlev i f).1 hf with ⟨_, hf⟩ | hf
      · exact .inl ((mkFile_entries d.nextNum es x).1 ⟨f, hf, hx⟩)
      · exact .inr ⟨i, f, hf, hx⟩
    · rintro (hx | ⟨i, f, hf, hx⟩)
      · obtain ⟨f, hf, hx⟩ := (mkFile_entries d.nextNum es x).2 hx
        exact ⟨0, f, (hlev 0 f).2 (.inl ⟨rfl, hf⟩), hx⟩
      · exact ⟨i, f, (hlev i f).2 (.inr hf), hx⟩
  have hmem : ∀ x, Has { d with
      frozen := none
      lev := fun i => if i = 0 then mkFile d.nextNum es ++ d.lev 0 else d.lev i
      depth := max d.depth 1
      nextNum := d.nextNum + 1 } x ↔ Has d x := by
    intro x
    unfold Has
    rw [hfl]
    simp only [frozenL, Option.getD_none, List.not_mem_nil, false_or]
    rw [hin x]
  refine
    { mem_sorted := h.mem_sorted, fro_sorted := List.Pairwise.nil, lev_ok := ⟨?_, ?_, ?_⟩,
      depth_ok := ?_, mem_new := ?_, fro_new := by simp [frozenL], uniq0 := ?_,
      nums := ?_, num_inj := ?_, num_lt := ?_,
      real := fun e he => h.real e ((hmem e).1 he),
      content := fun s hs k i v hl => ?_, seq_le := h.seq_le, floor_le := h.floor_le,
      snap_le := h.snap_le, snap_sorted := h.snap_sorted, job_ok := fun j hj => ?_ }
  · intro i f hf
    rcases (hlev i f).1 hf with ⟨_, hf⟩ | hf
    · exact (hmk f hf).1
    · exact h.lev_ok.file_ok i f hf
  · intro i hi
    simp only [show i ≠ 0 by omega, if_false]
    exact h.lev_ok.ordered i hi
  · intro i j hij f hf g hg e he x hx hk
    rcases (hlev j g).1 hg with ⟨hj, _⟩ | hg
    · omega
    · rcases (hlev i f).1 hf with ⟨_, hf⟩ | hf
      · exact hfro f hf e he j g hg x hx
      · exact h.lev_ok.newer i j hij f hf g hg e he x hx hk
  · intro i hi
    have : 1 ≤ i := le_trans (Nat.le_max_right d.depth 1) hi
    simp only [show i ≠ 0 by omega, if_false]
    exact h.depth_ok i (le_trans (Nat.le_max_left _ _) hi)
  · intro e he x hx
    rcases hx with hx | hx
    · simp [frozenL] at hx
    · rcases (hin x).1 hx with hx | hx
      · exact h.mem_new e he x (.inl (by rw [hfl]; exact hx))
      · exact h.mem_new e he x (.inr hx)
  · simp only [if_true]
    refine List.pairwise_append.2 ⟨hsingle _, h.uniq0, fun f hf g hg e he x hx => ?_⟩
    have := hfro f hf e he 0 g hg x hx
    omega
  · intro i
    by_cases hi : i = 0
    · subst hi
      simp only [if_true]
      refine List.pairwise_append.2 ⟨hsingle _, h.nums 0, fun f hf g hg => ?_⟩
      have h1 := (hmk f hf).2.2
      have h2 := h.num_lt 0 g hg
      omega
    · simp only [hi, if_false]
      exact h.nums i
  · intro i j f hf g hg hn
    rcases (hlev i f).1 hf with ⟨_, hf⟩ | hf <;> rcases (hlev j g).1 hg with ⟨_, hg⟩ | hg
    · cases hes' : es with
      | nil => rw [hes'] at hf; simp [mkFile] at hf
      | cons a as =>
        rw [hes'] at hf hg
        simp only [mkFile, List.mem_singleton] at hf hg
        rw [hf, hg]
    · have h1 := (hmk f hf).2.2
      have h2 := h.num_lt j g hg
      omega
    · have h1 := (hmk g hg).2.2
      have h2 := h.num_lt i f hf
      omega
    · exact h.num_inj i j f hf g hg hn
  · intro i f hf
    rcases (hlev i f).1 hf with ⟨_, hf⟩ | hf
    · have h1 := (hmk f hf).2.2
      simp only
      omega
    · have := h.num_lt i f hf
      simp only
      omega
  · rcases h.content s hs k i v hl with h1 | ⟨h1, h2⟩
    · exact .inl ((hmem _).2 h1)
    · exact .inr ⟨h1, fun x hx => h2 x ((hmem x).1 hx)⟩
  · have hj' := h.job_ok j hj
    refine ⟨fun f hf => (hlev _ f).2 (.inr (hj'.t0_sub f hf)),
      fun f hf => (hlev _ f).2 (.inr (hj'.t1_sub f hf)), hj'.min_seq, hj'.min_snap, hj'.outs_ok,
      hj'.outs_ord, ?_, hj'.outs_nums, hj'.outs_sub, ?_, ?_, ?_⟩
    · intro o ho
      have := hj'.outs_num o ho
      refine ⟨by simp only; omega, fun i g hg hn => ?_⟩
      rcases (hlev i g).1 hg with ⟨_, hg⟩ | hg
      · have h1 := (hmk g hg).2.2
        omega
      · exact this.2 i g hg hn
    · intro e he
      rcases hj'.keep e he with h1 | h1 | ⟨h1, h2, h3, h4⟩
      · exact .inl h1
      · exact .inr (.inl h1)
      · refine .inr (.inr ⟨h1, h2, fun i hi g hg => h3 i hi g ?_, h4⟩)
        rcases (hlev i g).1 hg with ⟨hi0, _⟩ | hg
        · omega
        · exact hg
    · intro g hg hgt f hf x hx e he hk
      rcases (hlev _ g).1 hg with ⟨_, hg⟩ | hg
      · exact hfro g hg x hx _ f (hj'.t0_sub f hf) e he
      · exact hj'.closed0 g hg hgt f hf x hx e he hk
    · obtain ⟨a, b, h1, h2⟩ := hj'.apart
      refine ⟨a, b, h1, fun g hg hgt => h2 g ?_ hgt⟩
      rcases (hlev (j.level + 1) g).1 hg with ⟨h0, _⟩ | hg
      · omega
      · exact hg

/-! ### Snapshots -/

theorem inv_acquire {d : Db K V} (h : Inv d) : Inv { d with snaps := d.snaps ++ [d.seq] } := by
  refine
    { mem_sorted := h.mem_sorted, fro_sorted := h.fro_sorted, lev_ok := h.lev_ok,
      depth_ok := h.depth_ok, mem_new := h.mem_new, fro_new := h.fro_new, uniq0 := h.uniq0,
      nums := h.nums, num_inj := h.num_inj, num_lt := h.num_lt, real := h.real,
      content := h.content, seq_le := h.seq_le, floor_le := h.floor_le,
      snap_le := ?_, snap_sorted := ?_, job_ok := fun j hj => ?_ }
  · intro s hs
    rcases List.mem_append.1 hs with hs | hs
    · exact h.snap_le s hs
    · simp only [List.mem_singleton] at hs
      subst hs
      exact ⟨h.floor_le, le_refl _⟩
  · refine List.pairwise_append.2 ⟨h.snap_sorted, by simp, fun a ha b hb => ?_⟩
    simp only [List.mem_singleton] at hb
    subst hb
    exact (h.snap_le a ha).2
  · have := h.job_ok j hj
    refine ⟨this.t0_sub, this.t1_sub, this.min_seq, ?_, this.outs_ok, this.outs_ord,
      this.outs_num, this.outs_nums, this.outs_sub, this.keep, this.closed0, this.apart⟩
    intro s hs
    rcases List.mem_append.1 hs with hs | hs
    · exact this.min_snap s hs
    · simp only [List.mem_singleton] at hs
      subst hs
      exact this.min_seq

theorem inv_release {d : Db K V} (h : Inv d) (s : Nat) :
    Inv { d with snaps := d.snaps.erase s } := by
  have hsub : ∀ x ∈ d.snaps.erase s, x ∈ d.snaps := fun x hx => List.mem_of_mem_erase hx
  refine
    { mem_sorted := h.mem_sorted, fro_sorted := h.fro_sorted, lev_ok := h.lev_ok,
      depth_ok := h.depth_ok, mem_new := h.mem_new, fro_new := h.fro_new, uniq0 := h.uniq0,
      nums := h.nums, num_inj := h.num_inj, num_lt := h.num_lt, real := h.real,
      content := h.content, seq_le := h.seq_le, floor_le := h.floor_le,
      snap_le := fun x hx => h.snap_le x (hsub x hx),
      snap_sorted := h.snap_sorted.sublist List.erase_sublist, job_ok := fun j hj => ?_ }
  have := h.job_ok j hj
  exact ⟨this.t0_sub, this.t1_sub, this.min_seq, fun x hx => this.min_snap x (hsub x hx),
    this.outs_ok, this.outs_ord, this.outs_num, this.outs_nums, this.outs_sub, this.keep,
    this.closed0, this.apart⟩

theorem inv_abort {d : Db K V} (h : Inv d) : Inv { d with job := none } :=
  { mem_sorted := h.mem_sorted, fro_sorted := h.fro_sorted, lev_ok := h.lev_ok,
    depth_ok := h.depth_ok, mem_new := h.mem_new, fro_new := h.fro_new, uniq0 := h.uniq0,
    nums := h.nums, num_inj := h.num_inj, num_lt := h.num_lt, real := h.real,
    content := h.content, seq_le := h.seq_le, floor_le := h.floor_le,
    snap_le := h.snap_le, snap_sorted := h.snap_sorted, job_ok := by simp }

end Verif.Lsm
