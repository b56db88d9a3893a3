import Verif.Lsm.Inv

/-! Compactions keep the invariant. -/

namespace Verif.Lsm

variable {K V : Type} [LinearOrder K]

omit [LinearOrder K] in
theorem without_mem (fs gone : List (File K V)) (f : File K V) :
    f ∈ without fs gone ↔ f ∈ fs ∧ ∀ g ∈ gone, g.num ≠ f.num := by
  simp [without]

theorem sortByKey_mem (fs : List (File K V)) (f : File K V) : f ∈ sortByKey fs ↔ f ∈ fs := by
  simp [sortByKey, mem_sortBy]

theorem sortByKey_perm (fs : List (File K V)) : (sortByKey fs).Perm fs :=
  sortBy_perm _ _

theorem sortByKey_sorted (fs : List (File K V)) :
    (sortByKey fs).Pairwise (fun a b => a.lo.key ≤ b.lo.key) := by
  unfold sortByKey
  refine List.Pairwise.imp ?_ (pairwise_sortBy (le := fun a b : File K V =>
    prior a.lo b.lo || (decide (a.lo.key = b.lo.key ∧ a.lo.seq = b.lo.seq)
      && decide (a.num ≤ b.num))) ?_ ?_ fs)
  · intro a b h
    simp only [Bool.or_eq_true, Bool.and_eq_true, prior_iff, decide_eq_true_eq] at h
    grind
  · intro a b c h h'
    simp only [Bool.or_eq_true, Bool.and_eq_true, prior_iff, decide_eq_true_eq] at *
    grind
  · intro a b
    simp only [Bool.or_eq_true, Bool.and_eq_true, prior_iff, decide_eq_true_eq]
    rcases lt_trichotomy a.lo.key b.lo.key with h | h | h <;>
      rcases lt_trichotomy a.lo.seq b.lo.seq with h' | h' | h' <;>
      rcases Nat.le_total a.num b.num with h'' | h'' <;> grind

theorem sortByKey_ordered (fs : List (File K V)) (hok : ∀ f ∈ fs, FileOk f)
    (hd : fs.Pairwise (fun f g => f.hi.key < g.lo.key ∨ g.hi.key < f.lo.key)) :
    Ordered (sortByKey fs) := by
  have h1 := sortByKey_sorted fs
  have h2 := ((sortByKey_perm fs).pairwise_iff
    (R := fun f g : File K V => f.hi.key < g.lo.key ∨ g.hi.key < f.lo.key) (fun h => h.symm)).2 hd
  have h3 : (sortByKey fs).Pairwise (fun f g => FileOk f ∧ FileOk g) := by
    refine List.pairwise_of_forall_mem_list (fun f hf g hg => ?_)
    exact ⟨hok f ((sortByKey_mem fs f).1 hf), hok g ((sortByKey_mem fs g).1 hg)⟩
  refine List.Pairwise.imp₂ (fun f g ha hb => ?_) (List.pairwise_and_iff.2 ⟨h1, h3⟩) h2
  have hg := ha.2.2.lo_le_hi
  grind

theorem inv_commit {d : Db K V} (h : Inv d) (j : Job K V) (hj : d.job = some j) :
    Inv { d with
      job := none
      lev := commitLev d.lev j
      depth := max d.depth (j.level + 2)
      floor := max d.floor j.minSeq } := by
  have ok := h.job_ok j hj
  have hfwd : ∀ i f, f ∈ commitLev d.lev j i →
      (f ∈ d.lev i ∧ (i = j.level → f ∉ j.t0) ∧ (i = j.level + 1 → f ∉ j.t1)) ∨
      (i = j.level + 1 ∧ f ∈ j.outs) := by
    intro i f hf
    unfold commitLev at hf
    split at hf
    · rename_i hi
      obtain ⟨h1, h2⟩ := (without_mem _ _ _).1 hf
      exact .inl ⟨h1, fun _ hm => h2 f hm rfl, fun h' => by omega⟩
    · split at hf
      · rename_i hi
        rcases List.mem_append.1 ((sortByKey_mem _ _).1 hf) with hf | hf
        · obtain ⟨h1, _⟩ := (without_mem _ _ _).1 hf
          obtain ⟨h1, h2⟩ := (without_mem _ _ _).1 h1
          exact .inl ⟨h1, fun h' => by omega, fun _ hm => h2 f hm rfl⟩
        · exact .inr ⟨hi, hf⟩
      · rename_i h1 h2
        exact .inl ⟨hf, fun h' => absurd h' h1, fun h' => absurd h' h2⟩
  have hout : ∀ o ∈ j.outs, o ∈ commitLev d.lev j (j.level + 1) := by
    intro o ho
    unfold commitLev
    rw [if_neg (by omega), if_pos rfl]
    exact (sortByKey_mem _ _).2 (List.mem_append_right _ ho)
  have hstay : ∀ i f, f ∈ d.lev i → (i = j.level → f ∉ j.t0) → (i = j.level + 1 → f ∉ j.t1) →
      f ∈ commitLev d.lev j i := by
    intro i f hf h0 h1
    unfold commitLev
    split
    · rename_i hi
      refine (without_mem _ _ _).2 ⟨hf, fun g hg hn => h0 hi ?_⟩
      have := h.num_inj j.level i g (ok.t0_sub g hg) f hf hn
      exact this ▸ hg
    · split
      · rename_i hi
        refine (sortByKey_mem _ _).2 ?_
        by_cases ho : ∃ o ∈ j.outs, o.num = f.num
        · obtain ⟨o, ho, hn⟩ := ho
          have := (ok.outs_num o ho).2 i f hf hn.symm
          exact List.mem_append_right _ (this ▸ ho)
        · refine List.mem_append_left _ ((without_mem _ _ _).2 ⟨(without_mem _ _ _).2 ⟨hf, ?_⟩, ?_⟩)
          · intro g hg hn
            have := h.num_inj (j.level + 1) i g (ok.t1_sub g hg) f hf hn
            exact h1 hi (this ▸ hg)
          · intro o ho' hn
            exact ho ⟨o, ho', hn⟩
      · exact hf
  -- an entry of the new tables is one of the old
  have hinput : ∀ e, InFiles (j.t0 ++ j.t1) e → ∃ f, e ∈ f.es ∧
      ((f ∈ j.t0 ∧ f ∈ d.lev j.level) ∨ (f ∈ j.t1 ∧ f ∈ d.lev (j.level + 1))) := by
    rintro e ⟨f, hf, he⟩
    rcases List.mem_append.1 hf with hf | hf
    · exact ⟨f, he, .inl ⟨hf, ok.t0_sub f hf⟩⟩
    · exact ⟨f, he, .inr ⟨hf, ok.t1_sub f hf⟩⟩
  have hinlev : ∀ e, InLev (commitLev d.lev j) e → InLev d.lev e := by
    rintro e ⟨i, f, hf, he⟩
    rcases hfwd i f hf with ⟨h1, _⟩ | ⟨_, h1⟩
    · exact ⟨i, f, h1, he⟩
    · obtain ⟨f', he', h2 | h2⟩ := hinput e (ok.outs_sub e ⟨f, h1, he⟩)
      · exact ⟨_, f', h2.2, he'⟩
      · exact ⟨_, f', h2.2, he'⟩
  have hhas : ∀ e, Has { d with
      job := none
      lev := commitLev d.lev j
      depth := max d.depth (j.level + 2)
      floor := max d.floor j.minSeq } e → Has d e := by
    rintro e (he | he | he)
    · exact .inl he
    · exact .inr (.inl he)
    · exact .inr (.inr (hinlev e he))
  -- ranges of the new tables against those that stay in the level
  obtain ⟨a, b, hab, hap⟩ := ok.apart
  have hinp : ∀ e, InFiles (j.t0 ++ j.t1) e → a ≤ e.key ∧ e.key ≤ b := by
    rintro e ⟨f, hf, he⟩
    have hfo : FileOk f := by
      rcases List.mem_append.1 hf with hf' | hf'
      · exact h.lev_ok.file_ok _ f (ok.t0_sub f hf')
      · exact h.lev_ok.file_ok _ f (ok.t1_sub f hf')
    exact ⟨le_trans (hab f hf).1 (hfo.lo_le e he), le_trans (hfo.key_le he) (hab f hf).2⟩
  have hor : ∀ o ∈ j.outs, a ≤ o.lo.key ∧ o.hi.key ≤ b := by
    intro o ho
    have h1 := hinp _ (ok.outs_sub _ ⟨o, ho, (ok.outs_ok o ho).lo_mem⟩)
    have h2 := hinp _ (ok.outs_sub _ ⟨o, ho, (ok.outs_ok o ho).hi_mem⟩)
    exact ⟨h1.1, h2.2⟩
  have hfile : ∀ i, ∀ f ∈ commitLev d.lev j i, FileOk f := by
    intro i f hf
    rcases hfwd i f hf with ⟨h1, _⟩ | ⟨_, h1⟩
    · exact h.lev_ok.file_ok i f h1
    · exact ok.outs_ok f h1
  refine
    { mem_sorted := h.mem_sorted, fro_sorted := h.fro_sorted, lev_ok := ⟨hfile, ?_, ?_⟩,
      depth_ok := ?_,
      mem_new := fun e he x hx => h.mem_new e he x (hx.imp_right (hinlev x)),
      fro_new := fun e he x hx => h.fro_new e he x (hinlev x hx), uniq0 := ?_,
      nums := ?_, num_inj := ?_, num_lt := ?_,
      real := fun e he => h.real e (hhas e he),
      content := ?_, seq_le := h.seq_le, floor_le := max_le h.floor_le ok.min_seq,
      snap_le := fun s hs => ⟨max_le (h.snap_le s hs).1 (ok.min_snap s hs), (h.snap_le s hs).2⟩,
      snap_sorted := h.snap_sorted, job_ok := by simp }
  · -- order within a level
    intro i hi
    simp only
    unfold commitLev
    split
    · exact (h.lev_ok.ordered i hi).sublist List.filter_sublist
    · split
      · rename_i hi'
        have hold : ∀ f ∈ without (without (d.lev i) j.t1) j.outs, f ∈ d.lev i ∧ f ∉ j.t1 := by
          intro f hf
          obtain ⟨h1, _⟩ := (without_mem _ _ _).1 hf
          obtain ⟨h1, h2⟩ := (without_mem _ _ _).1 h1
          exact ⟨h1, fun hm => h2 f hm rfl⟩
        apply sortByKey_ordered
        · intro f hf
          rcases List.mem_append.1 hf with hf | hf
          · exact h.lev_ok.file_ok i f (hold f hf).1
          · exact ok.outs_ok f hf
        · refine List.pairwise_append.2 ⟨?_, ?_, ?_⟩
          · refine List.Pairwise.imp (fun hlt => .inl hlt) ?_
            exact ((h.lev_ok.ordered i hi).sublist List.filter_sublist).sublist
              List.filter_sublist
          · exact List.Pairwise.imp (fun hlt => .inl hlt) ok.outs_ord
          · intro f hf o ho
            have h1 := hold f hf
            have h2 := hor o ho
            rcases hap f (hi' ▸ h1.1) h1.2 with h3 | h3
            · exact .inl (lt_of_lt_of_le h3 h2.1)
            · exact .inr (lt_of_le_of_lt h2.2 h3)
      · exact h.lev_ok.ordered i hi
  · -- newer levels have newer entries
    intro i k hik f hf g hg e he x hx hkey
    rcases hfwd i f hf with ⟨hf1, hf2, hf3⟩ | ⟨hi, hf1⟩
    · rcases hfwd k g hg with ⟨hg1, _⟩ | ⟨hk, hg1⟩
      · exact h.lev_ok.newer i k hik f hf1 g hg1 e he x hx hkey
      · obtain ⟨f', hx', h2 | h2⟩ := hinput x (ok.outs_sub x ⟨g, hg1, hx⟩)
        · by_cases hi : i = j.level
          · subst hi
            exact ok.closed0 f hf1 (hf2 rfl) f' h2.1 e he x hx' hkey
          · exact h.lev_ok.newer i j.level (by omega) f hf1 f' h2.2 e he x hx' hkey
        · exact h.lev_ok.newer i (j.level + 1) (by omega) f hf1 f' h2.2 e he x hx' hkey
    · rcases hfwd k g hg with ⟨hg1, _⟩ | ⟨hk, hg1⟩
      · obtain ⟨f', he', h2 | h2⟩ := hinput e (ok.outs_sub e ⟨f, hf1, he⟩)
        · exact h.lev_ok.newer j.level k (by omega) f' h2.2 g hg1 e he' x hx hkey
        · exact h.lev_ok.newer (j.level + 1) k (by omega) f' h2.2 g hg1 e he' x hx hkey
      · omega
  · -- nothing beyond the depth
    intro i hi
    have h1 : j.level + 2 ≤ i := le_trans (Nat.le_max_right _ _) hi
    simp only [commitLev]
    rw [if_neg (by omega), if_neg (by omega)]
    exact h.depth_ok i (le_trans (Nat.le_max_left _ _) hi)
  · -- level 0
    simp only [commitLev]
    split
    · exact h.uniq0.sublist List.filter_sublist
    · rw [if_neg (by omega)]
      exact h.uniq0
  · intro i
    simp only [commitLev]
    split
    · exact (h.nums i).sublist List.filter_sublist
    · split
      · refine ((sortByKey_perm _).pairwise_iff
          (R := fun f g : File K V => f.num ≠ g.num) (fun h => h.symm)).2 ?_
        refine List.pairwise_append.2 ⟨?_, ok.outs_nums, ?_⟩
        · exact ((h.nums i).sublist List.filter_sublist).sublist List.filter_sublist
        · intro f hf o ho
          exact (((without_mem _ _ _).1 hf).2 o ho).symm
      · exact h.nums i
  · intro i k f hf g hg hn
    rcases hfwd i f hf with ⟨hf1, _⟩ | ⟨_, hf1⟩ <;> rcases hfwd k g hg with ⟨hg1, _⟩ | ⟨_, hg1⟩
    · exact h.num_inj i k f hf1 g hg1 hn
    · exact (ok.outs_num g hg1).2 i f hf1 hn
    · exact ((ok.outs_num f hf1).2 k g hg1 hn.symm).symm
    · by_contra hne
      have key : ∀ l : List (File K V), l.Pairwise (fun f g => f.num ≠ g.num) →
          f ∈ l → g ∈ l → False := by
        intro l hp
        induction l with
        | nil => simp
        | cons y l ih =>
          have hc := List.pairwise_cons.1 hp
          intro ha hb
          rcases List.mem_cons.1 ha with ha' | ha' <;> rcases List.mem_cons.1 hb with hb' | hb'
          · exact hne (ha'.trans hb'.symm)
          · exact hc.1 g hb' (ha' ▸ hn)
          · exact hc.1 f ha' (hb' ▸ hn.symm)
          · exact ih hc.2 ha' hb'
      exact key _ ok.outs_nums hf1 hg1
  · intro i f hf
    rcases hfwd i f hf with ⟨hf1, _⟩ | ⟨_, hf1⟩
    · exact h.num_lt i f hf1
    · exact (ok.outs_num f hf1).1
  · -- what is read
    intro s hs k i v hl
    have hs1 : d.floor ≤ s := le_trans (Nat.le_max_left _ _) hs
    have hs2 : j.minSeq ≤ s := le_trans (Nat.le_max_right _ _) hs
    rcases h.content s hs1 k i v hl with h1 | ⟨h1, h2⟩
    · rcases h1 with h1 | h1 | ⟨m, f, hf, he⟩
      · exact .inl (.inl h1)
      · exact .inl (.inr (.inl h1))
      · by_cases hin : (m = j.level ∧ f ∈ j.t0) ∨ (m = j.level + 1 ∧ f ∈ j.t1)
        · have hinf : InFiles (j.t0 ++ j.t1) (⟨k, i, v⟩ : Entry K V) := by
            rcases hin with h3 | h3
            · exact ⟨f, List.mem_append_left _ h3.2, he⟩
            · exact ⟨f, List.mem_append_right _ h3.2, he⟩
          rcases ok.keep _ hinf with ⟨o, ho, heo⟩ | ⟨e', h3, h4, h5, h6⟩ | ⟨h3, h4, h5, h6⟩
          · exact .inl (.inr (.inr ⟨_, o, hout o ho, heo⟩))
          · exfalso
            obtain ⟨f', he', h7⟩ := hinput e' h3
            have hr := (h.real e' (.inr (.inr (by
              rcases h7 with h7 | h7
              · exact ⟨_, f', h7.2, he'⟩
              · exact ⟨_, f', h7.2, he'⟩)))).2
            simp only at h4 h5
            exact hl.2.2.2 e'.seq e'.val h5 (by omega) (by rw [hr, h4])
          · right
            simp only at h3 h4 h5 h6
            refine ⟨h3, fun x hx hk => ?_⟩
            by_contra hlt
            have hxle : x.seq ≤ i := by
              by_contra hgt
              have hr := (h.real x (hhas x hx)).2
              exact hl.2.2.2 x.seq x.val (by omega) (by omega) (by rw [hr, hk])
            have hlev : ∀ m', m' < m → ∀ g ∈ d.lev m', x ∈ g.es → False := by
              intro m' hm' g hg hxg
              have := h.lev_ok.newer m' m hm' g hg f hf x hxg ⟨k, i, v⟩ he hk
              simp only at this
              omega
            rcases hx with hx | hx | ⟨m', g, hg, hxg⟩
            · have := h.mem_new x hx ⟨k, i, v⟩ (.inr ⟨m, f, hf, he⟩)
              simp only at this
              omega
            · have := h.fro_new x hx ⟨k, i, v⟩ ⟨m, f, hf, he⟩
              simp only at this
              omega
            · rcases hfwd m' g hg with ⟨hg1, hg2, hg3⟩ | ⟨hm', hg1⟩
              · rcases Nat.lt_trichotomy m' (j.level + 1) with hm' | hm' | hm'
                · by_cases hml : m' < m
                  · exact hlev m' hml g hg1 hxg
                  · have : m' = j.level := by omega
                    subst this
                    rcases hin with h7 | h7
                    · have := ok.closed0 g hg1 (hg2 rfl) f h7.2 x hxg ⟨k, i, v⟩ he hk
                      simp only at this
                      omega
                    · omega
                · subst hm'
                  have h7 := hinp _ hinf
                  have h8 := h.lev_ok.file_ok _ g hg1
                  have h9 := h8.lo_le x hxg
                  have h10 := h8.key_le hxg
                  simp only at h7
                  rcases hap g hg1 (hg3 rfl) with h11 | h11
                  · rw [hk] at h10
                    exact absurd (lt_of_le_of_lt h10 h11) (not_lt_of_ge h7.1)
                  · rw [hk] at h9
                    exact absurd (lt_of_lt_of_le h11 h9) (not_lt_of_ge h7.2)
                · exact h5 m' (by omega) g hg1 x hxg hk
              · have := h6 x ⟨g, hg1, hxg⟩ hk
                omega
        · left
          refine .inr (.inr ⟨m, f, hstay m f hf ?_ ?_, he⟩)
          · intro hm hf0
            exact hin (.inl ⟨hm, hf0⟩)
          · intro hm hf1
            exact hin (.inr ⟨hm, hf1⟩)
    · exact .inr ⟨h1, fun x hx => h2 x (hhas x hx)⟩

theorem minSeq_le {d : Db K V} (h : Inv d) : minSeq d ≤ d.seq ∧ ∀ s ∈ d.snaps, minSeq d ≤ s := by
  unfold minSeq
  cases hs : d.snaps with
  | nil => simp
  | cons a as =>
    have h1 := h.snap_sorted
    have h2 := h.snap_le a (by simp [hs])
    rw [hs] at h1
    have h3 := List.pairwise_cons.1 h1
    refine ⟨h2.2, fun s hs' => ?_⟩
    rcases List.mem_cons.1 hs' with rfl | hs'
    · simp
    · simpa using h3.1 s hs'

theorem inv_pick {d : Db K V} (h : Inv d) (level : Nat) (nums : List Nat) (f : File K V)
    (fs : List (File K V)) (hf : (d.lev level).filter (fun g => nums.contains g.num) = f :: fs)
    (fits move : Bool) (stop : Nat → Bool) :
    Inv { d with
      job := some (pick d level f fs fits move stop)
      nextNum := d.nextNum + (pick d level f fs fits move stop).outs.length } := by
  have hsub : ∀ g ∈ f :: fs, g ∈ d.lev level := by
    intro g hg
    rw [← hf] at hg
    exact (List.mem_filter.1 hg).1
  have hnd : (f :: fs).Nodup := by
    rw [← hf]
    exact ((h.nums level).imp (fun hn he => hn (by rw [he]))).sublist List.filter_sublist
  have htk := expand_taken (zero := level == 0) (h.lev_ok.file_ok level)
    (h.lev_ok.file_ok (level + 1))
    (fun hz => h.lev_ok.ordered level (by
      have : level ≠ 0 := by simpa using hz
      omega))
    (h.lev_ok.ordered (level + 1) (by omega)) f fs hsub hnd fits
  generalize ht : expand (d.lev level) (d.lev (level + 1)) (level == 0) f fs fits = t at htk
  obtain ⟨⟨a0, b0, h0, h0'⟩, a1, b1, h1, h1'⟩ := htk
  have ht0 : ∀ g ∈ t.1, g ∈ d.lev level := by
    intro g hg
    rw [h0] at hg
    exact (List.mem_filter.1 hg).1
  have ht1 : ∀ g ∈ t.2, g ∈ d.lev (level + 1) := by
    intro g hg
    rw [h1] at hg
    exact (List.mem_filter.1 hg).1
  have hmin := minSeq_le h
  have hhas : ∀ e, InFiles (t.1 ++ t.2) e → Has d e := by
    rintro e ⟨g, hg, he⟩
    rcases List.mem_append.1 hg with hg | hg
    · exact .inr (.inr ⟨_, g, ht0 g hg, he⟩)
    · exact .inr (.inr ⟨_, g, ht1 g hg, he⟩)
  -- no sequence number twice among the inputs
  have huniq : ((t.1 ++ t.2).flatMap (·.es)).Pairwise (fun a b => a.seq ≠ b.seq) := by
    refine List.pairwise_flatMap.2 ⟨fun g hg => ?_, ?_⟩
    · have hgo : FileOk g := by
        rcases List.mem_append.1 hg with hg' | hg'
        · exact h.lev_ok.file_ok _ g (ht0 g hg')
        · exact h.lev_ok.file_ok _ g (ht1 g hg')
      refine List.Pairwise.imp_of_mem (fun {x y} hx hy hp he => ?_) hgo.sorted
      have := h.real_eq (hhas x ⟨g, hg, hx⟩) (hhas y ⟨g, hg, hy⟩) he
      subst this
      rw [prior_iff] at hp
      grind
    · have hord : ∀ i, 1 ≤ i → (d.lev i).Pairwise
          (fun f g => ∀ e ∈ f.es, ∀ x ∈ g.es, e.seq ≠ x.seq) := by
        intro i hi
        refine List.Pairwise.imp_of_mem (fun {x y} hx hy hlt e he e' he' hq => ?_)
          (h.lev_ok.ordered i hi)
        have := h.real_eq (.inr (.inr ⟨i, x, hx, he⟩)) (.inr (.inr ⟨i, y, hy, he'⟩)) hq
        subst this
        have h2 := (h.lev_ok.file_ok i x hx).key_le he
        have h3 := (h.lev_ok.file_ok i y hy).lo_le e he'
        exact absurd (lt_of_le_of_lt h2 hlt) (not_lt_of_ge h3)
      have hall : ∀ i, (d.lev i).Pairwise
          (fun f g => ∀ e ∈ f.es, ∀ x ∈ g.es, e.seq ≠ x.seq) := by
        intro i
        by_cases hi : i = 0
        · subst hi; exact h.uniq0
        · exact hord i (by omega)
      refine List.pairwise_append.2 ⟨?_, ?_, ?_⟩
      · rw [h0]; exact (hall level).sublist List.filter_sublist
      · rw [h1]; exact (hall (level + 1)).sublist List.filter_sublist
      · intro x hx y hy e he e' he' hq
        have := h.real_eq (.inr (.inr ⟨_, x, ht0 x hx, he⟩)) (.inr (.inr ⟨_, y, ht1 y hy, he'⟩)) hq
        subst this
        have := h.lev_ok.newer level (level + 1) (by omega) x (ht0 x hx) y (ht1 y hy) e he e he' rfl
        omega
  have hsorted := merged_sorted (t.1 ++ t.2) huniq
  -- the shared part
  have hclosed : ∀ g ∈ d.lev level, g ∉ t.1 → ∀ f ∈ t.1, ∀ x ∈ g.es, ∀ e ∈ f.es,
      x.key = e.key → e.seq < x.seq := by
    intro g hg hgt f' hf' x hx e he hk
    exfalso
    apply hgt
    rw [h0]
    refine List.mem_filter.2 ⟨hg, ?_⟩
    rw [meets_iff]
    have h2 := h0' f' hf'
    have h3 := h.lev_ok.file_ok _ f' (ht0 f' hf')
    have h4 := h.lev_ok.file_ok _ g hg
    have h5 := h3.lo_le e he
    have h6 := h3.key_le he
    have h7 := h4.lo_le x hx
    have h8 := h4.key_le hx
    rw [hk] at h7 h8
    exact ⟨le_trans h2.1 (le_trans h5 h8), le_trans h7 (le_trans h6 h2.2)⟩
  have hapart : ∃ a b, (∀ f ∈ t.1 ++ t.2, a ≤ f.lo.key ∧ f.hi.key ≤ b) ∧
      ∀ g ∈ d.lev (level + 1), g ∉ t.2 → g.hi.key < a ∨ b < g.lo.key := by
    refine ⟨a1, b1, h1', fun g hg hgt => ?_⟩
    have : ¬ g.meets a1 b1 = true := by
      intro hm
      apply hgt
      rw [h1]
      exact List.mem_filter.2 ⟨hg, hm⟩
    rw [meets_iff] at this
    by_cases h2 : a1 ≤ g.hi.key
    · right
      exact lt_of_not_ge (fun h3 => this ⟨h2, h3⟩)
    · left
      exact lt_of_not_ge h2
  refine
    { mem_sorted := h.mem_sorted, fro_sorted := h.fro_sorted, lev_ok := h.lev_ok,
      depth_ok := h.depth_ok, mem_new := h.mem_new, fro_new := h.fro_new, uniq0 := h.uniq0,
      nums := h.nums, num_inj := h.num_inj,
      num_lt := fun i g hg => lt_of_lt_of_le (h.num_lt i g hg) (Nat.le_add_right _ _),
      real := h.real,
      content := h.content, seq_le := h.seq_le, floor_le := h.floor_le,
      snap_le := h.snap_le, snap_sorted := h.snap_sorted, job_ok := fun j hj => ?_ }
  simp only [Option.some.injEq] at hj
  subst hj
  unfold pick
  simp only [ht]
  by_cases hmove : move = true ∧ t.1.length = 1 ∧ t.2 = []
  · rw [if_pos hmove]
    have hone : ∀ (R : File K V → File K V → Prop), t.1.Pairwise R := by
      intro R
      have h2 := hmove.2.1
      generalize t.1 = l at h2
      match l, h2 with
      | [x], _ => simp
    refine ⟨ht0, ht1, hmin.1, hmin.2, fun o ho => h.lev_ok.file_ok _ o (ht0 o ho), hone _, ?_,
      hone _, ?_, fun e he => .inl ?_, hclosed, hapart⟩
    · intro o ho
      have := h.num_lt _ o (ht0 o ho)
      refine ⟨by simp only; omega, fun i g hg hn => h.num_inj i level g hg o (ht0 o ho) hn⟩
    · rintro e ⟨o, ho, he⟩
      exact ⟨o, List.mem_append_left _ ho, he⟩
    · simpa only [hmove.2.2, List.append_nil] using he
  · rw [if_neg hmove]
    generalize hL : build (minSeq d) (baseLevel d.lev d.depth level) stop
      (mergedEntries (t.1 ++ t.2)) 0 none [] = L
    have hflat : L.flatten = kept (minSeq d) (baseLevel d.lev d.depth level) none
        (mergedEntries (t.1 ++ t.2)) := by
      rw [← hL, build_flatten]
      simp
    have hapt := build_apart (minSeq d) (baseLevel d.lev d.depth level) stop
      (mergedEntries (t.1 ++ t.2)) 0 none [] (by simpa using hsorted) (by simp)
    rw [hL] at hapt
    have hLs : ∀ l ∈ L, Sorted l := by
      have : Sorted L.flatten := by
        rw [hflat]
        exact List.Pairwise.sublist (kept_sub _ _ _ _) hsorted
      exact (List.pairwise_flatten.1 this).1
    have hmkf : ∀ o ∈ mkFiles d.nextNum L, FileOk o ∧ d.nextNum ≤ o.num ∧
        o.num < d.nextNum + L.length := by
      intro o ho
      obtain ⟨l, hl, m, hm1, hm2, ho'⟩ := mkFiles_mem ho
      obtain ⟨h2, _, h3⟩ := mkFile_ok (hLs l hl) o ho'
      exact ⟨h2, by omega, by omega⟩
    have hmo := mkFiles_ordered d.nextNum L hLs hapt.1
    have hent : ∀ e, InFiles (mkFiles d.nextNum L) e ↔
        e ∈ kept (minSeq d) (baseLevel d.lev d.depth level) none (mergedEntries (t.1 ++ t.2)) := by
      intro e
      rw [mkFiles_entries, hflat]
    have hlen := mkFiles_length d.nextNum L hapt.2
    refine ⟨ht0, ht1, hmin.1, hmin.2, fun o ho => (hmkf o ho).1, hmo.1, ?_, hmo.2, ?_, ?_, hclosed,
      hapart⟩
    · intro o ho
      have h2 := hmkf o ho
      refine ⟨by simp only; rw [hlen]; exact h2.2.2, fun i g hg hn => ?_⟩
      have := h.num_lt i g hg
      omega
    · intro e he
      exact (merged_mem _ _).1 ((kept_sub _ _ _ _).subset ((hent e).1 he))
    · intro e he
      rcases kept_all (minSeq d) (baseLevel d.lev d.depth level) _ hsorted e
        ((merged_mem _ _).2 he) with h2 | ⟨e', h2, h3⟩ | ⟨h2, h3, h4, h5⟩
      · exact .inl ((hent e).2 h2)
      · exact .inr (.inl ⟨e', (merged_mem _ _).1 h2, h3⟩)
      · exact .inr (.inr ⟨h2, h3, base_none h.lev_ok h.depth_ok h4,
          fun x hx hk => h5 x ((hent x).1 hx) hk⟩)

theorem inv_step {d d' : Db K V} (h : Inv d) (op : Op K V) (hs : step d op = some d') : Inv d' := by
  cases op with
  | put k v => simp only [step, Option.some.injEq] at hs; subst hs; exact inv_put h k v
  | publish => simp only [step, Option.some.injEq] at hs; subst hs; exact inv_publish h
  | rotate =>
    simp only [step] at hs
    split at hs
    · rename_i hc
      simp only [Option.some.injEq] at hs
      subst hs
      exact inv_rotate h (by simpa using hc.1)
    · simp at hs
  | flush =>
    simp only [step] at hs
    split at hs
    · simp at hs
    · rename_i es hf
      simp only [Option.some.injEq] at hs
      subst hs
      exact inv_flush h es hf
  | acquire => simp only [step, Option.some.injEq] at hs; subst hs; exact inv_acquire h
  | release s =>
    simp only [step] at hs
    split at hs
    · simp only [Option.some.injEq] at hs
      subst hs
      exact inv_release h s
    · simp at hs
  | pick level nums fits move stop =>
    simp only [step] at hs
    split at hs
    · rename_i f fs _ hf
      simp only [Option.some.injEq] at hs
      subst hs
      exact inv_pick h level nums f fs hf fits move stop
    · simp at hs
  | commit =>
    simp only [step] at hs
    split at hs
    · simp at hs
    · rename_i j hj
      simp only [Option.some.injEq] at hs
      subst hs
      exact inv_commit h j hj
  | abort => simp only [step, Option.some.injEq] at hs; subst hs; exact inv_abort h

theorem inv_run {d d' : Db K V} (h : Inv d) (ops : List (Op K V)) (hs : run d ops = some d') :
    Inv d' := by
  induction ops generalizing d with
  | nil => simp only [run, Option.some.injEq] at hs; exact hs ▸ h
  | cons op ops ih =>
    simp only [run, Option.bind_eq_some_iff] at hs
    obtain ⟨d1, h1, h2⟩ := hs
    exact ih (inv_step h op h1) h2

end Verif.Lsm
