import Verif.Tactics
import Verif.Vm.QuotaModel

/-! C11, C12: quota from stake and proof of work. -/

namespace Verif.Vm.Quota

/-- A table in order: 3572 entries, the first one zero, each larger than the one before. -/
structure Ordered (l : List Nat) : Prop where
  first : l.getD 0 0 = 0
  step : ∀ i, i < sectionLen → l.getD i 0 < l.getD (i + 1) 0

/-- Adjacent entries increase. -/
def increasing : List Nat → Bool
  | a :: b :: l => decide (a < b) && increasing (b :: l)
  | _ => true

theorem increasing_step : ∀ (l : List Nat), increasing l = true → ∀ i, i + 1 < l.length → l.getD i 0 < l.getD (i + 1) 0
  | [], _, i, hi => by simp at hi
  | [_], _, i, hi => by simp at hi
  | a :: b :: l, h, i, hi => by
    simp only [increasing, Bool.and_eq_true, decide_eq_true_eq] at h
    cases i with
    | zero => simpa using h.1
    | succ i =>
      have := increasing_step (b :: l) h.2 i (by simpa using hi)
      simpa using this

theorem ordered_of {l : List Nat} (h0 : l.head? = some 0) (hl : l.length = sectionLen + 1) (h : increasing l = true) : Ordered l :=
  ⟨by cases l <;> simp_all, fun i hi => increasing_step l h i (by omega)⟩

/-- The tables of the main net are in order. -/
theorem stakesMainnet_ordered : Ordered stakesMainnet := ordered_of (by decide +kernel) (by decide +kernel) (by decide +kernel)
theorem difficultiesMainnet_ordered : Ordered difficultiesMainnet := ordered_of (by decide +kernel) (by decide +kernel) (by decide +kernel)
theorem difficultiesTestnet_ordered : Ordered difficultiesTestnet := ordered_of (by decide +kernel) (by decide +kernel) (by decide +kernel)

theorem ordered_lt {l : List Nat} (h : Ordered l) {i j : Nat} (hij : i < j) (hj : j ≤ sectionLen) : l.getD i 0 < l.getD j 0 := by
  obtain ⟨m, rfl⟩ := Nat.exists_eq_add_of_lt hij
  clear hij
  induction m with
  | zero => exact h.step i (by omega)
  | succ m ih =>
    have h1 := ih (by omega)
    have h2 := h.step (i + m + 1) (by omega)
    have e : i + (m + 1) + 1 = i + m + 1 + 1 := by omega
    rw [e]; omega

theorem ordered_le {l : List Nat} (h : Ordered l) {i j : Nat} (hij : i ≤ j) (hj : j ≤ sectionLen) : l.getD i 0 ≤ l.getD j 0 := by
  rcases Nat.lt_or_ge i j with q | q
  · exact le_of_lt (ordered_lt h q hj)
  · rw [Nat.le_antisymm hij q]

/-- `i` is the last entry of the table that is not above `x`. -/
def IsLast (l : List Nat) (x i : Nat) : Prop :=
  i ≤ sectionLen ∧ l.getD i 0 ≤ x ∧ ∀ j, j ≤ sectionLen → l.getD j 0 ≤ x → j ≤ i

theorem isLast_of {l : List Nat} (h : Ordered l) {x i : Nat} (h1 : i ≤ sectionLen) (h2 : l.getD i 0 ≤ x)
    (h3 : i < sectionLen → x < l.getD (i + 1) 0) : IsLast l x i := by
  refine ⟨h1, h2, fun j hj hx => ?_⟩
  by_contra hc
  have h4 := h3 (by omega)
  have h5 := ordered_le h (show i + 1 ≤ j by omega) hj
  omega

theorem getIndex_spec {l : List Nat} (h : Ordered l) (x : Nat) : ∀ (fuel left right : Nat), left ≤ right → right ≤ sectionLen →
    right - left ≤ fuel → l.getD left 0 ≤ x → (right < sectionLen → x < l.getD (right + 1) 0) → IsLast l x (getIndex x l fuel left right)
  | 0, left, right, h1, h2, h3, h4, h5 => by
    have : left = right := by omega
    subst this
    unfold getIndex getExactIndex
    simp only [h4, or_true, if_true]
    exact isLast_of h h2 h4 h5
  | fuel + 1, left, right, h1, h2, h3, h4, h5 => by
    unfold getIndex
    by_cases hlr : left = right
    · subst hlr
      simp only [if_true]
      unfold getExactIndex
      simp only [h4, or_true, if_true]
      exact isLast_of h h2 h4 h5
    · simp only [hlr, if_false]
      have hm1 : left < (left + right + 1) / 2 := by omega
      have hm2 : (left + right + 1) / 2 ≤ right := by omega
      generalize (left + right + 1) / 2 = mid at hm1 hm2
      by_cases he : l.getD mid 0 = x
      · simp only [he, if_true]
        refine isLast_of h (by omega) (le_of_eq he) (fun hlt => ?_)
        rw [← he]; exact h.step mid hlt
      · simp only [he, if_false]
        by_cases hg : l.getD mid 0 > x
        · simp only [hg, if_true]
          refine getIndex_spec h x fuel left (mid - 1) (by omega) (by omega) (by omega) h4 (fun _ => ?_)
          have : mid - 1 + 1 = mid := by omega
          rw [this]; exact hg
        · simp only [hg, if_false]
          exact getIndex_spec h x fuel mid right hm2 h2 (by omega) (by omega) h5

theorem indexOf_spec {l : List Nat} (h : Ordered l) (x : Nat) : IsLast l x (indexOf x l) :=
  getIndex_spec h x sectionLen 0 sectionLen (Nat.zero_le _) (le_refl _) (by omega) (by rw [h.first]; exact Nat.zero_le _) (fun q => absurd q (lt_irrefl _))

theorem indexOf_eq {l : List Nat} (h : Ordered l) {x i : Nat} (hi : IsLast l x i) : indexOf x l = i := by
  obtain ⟨h1, h2, h3⟩ := indexOf_spec h x
  exact Nat.le_antisymm (hi.2.2 _ h1 h2) (h3 _ hi.1 hi.2.1)

theorem indexOf_mono {l : List Nat} (h : Ordered l) {x y : Nat} (hxy : x ≤ y) : indexOf x l ≤ indexOf y l := by
  obtain ⟨h1, h2, _⟩ := indexOf_spec h x
  exact (indexOf_spec h y).2.2 _ h1 (le_trans h2 hxy)

/-! ### What a stake gives -/

/-- The quota an entry of a table gives, and 0 for nothing at all. -/
theorem quota_zero {l : List Nat} (h : Ordered l) (qc : Nat × Bool) : calcQuotaByIndex (indexOf (calcStakeParam qc 0) l) = 0 := by
  have h0 : calcStakeParam qc 0 = 0 := by unfold calcStakeParam; split <;> simp
  have : indexOf 0 l = 0 := by
    refine indexOf_eq h ⟨Nat.zero_le _, by rw [h.first], fun j hj hx => ?_⟩
    by_contra hc
    have := ordered_lt h (show 0 < j by omega) hj
    omega
  rw [h0, this]; rfl

/-- Both calculations in one form. -/
theorem stakeQuota_eq {cfg : Config} (h : Ordered cfg.stakes) (qc : Nat × Bool) (s : Nat) :
    calcStakeQuota cfg qc s = indexOf (calcStakeParam qc s) cfg.stakes * 280 := by
  unfold calcStakeQuota
  have e : ∀ x, calcQuotaByIndex (indexOf x cfg.stakes) = indexOf x cfg.stakes * 280 := fun x => by
    unfold calcQuotaByIndex; rw [if_pos (indexOf_spec h x).1]; rfl
  by_cases hs : s = 0
  · subst hs; rw [if_pos rfl, ← e, quota_zero h]
  · rw [if_neg hs, e]

theorem powQuota_eq {cfg : Config} (h : Ordered cfg.difficulties) (qc : Nat × Bool) (s : Nat) :
    calcPoWQuota cfg qc s = indexOf (calcStakeParam qc s) cfg.difficulties * 280 := by
  unfold calcPoWQuota
  have e : ∀ x, calcQuotaByIndex (indexOf x cfg.difficulties) = indexOf x cfg.difficulties * 280 := fun x => by
    unfold calcQuotaByIndex; rw [if_pos (indexOf_spec h x).1]; rfl
  by_cases hs : s = 0
  · subst hs; rw [if_pos rfl, ← e, quota_zero h]
  · rw [if_neg hs, e]

theorem param_mono (qc : Nat × Bool) {s s' : Nat} (h : s ≤ s') : calcStakeParam qc s ≤ calcStakeParam qc s' := by
  unfold calcStakeParam
  split
  · exact Nat.div_le_div_right (Nat.mul_le_mul_right _ h)
  · exact h

/-- **C11**: more stake never gives less quota, congestion or not. -/
theorem stake_quota_mono {cfg : Config} (h : Ordered cfg.stakes) (qc : Nat × Bool) {s s' : Nat} (hs : s ≤ s') :
    calcStakeQuota cfg qc s ≤ calcStakeQuota cfg qc s' := by
  rw [stakeQuota_eq h, stakeQuota_eq h]
  exact Nat.mul_le_mul_right _ (indexOf_mono h (param_mono qc hs))

/-- **C11**: more work never gives less quota. -/
theorem pow_quota_mono {cfg : Config} (h : Ordered cfg.difficulties) (qc : Nat × Bool) {s s' : Nat} (hs : s ≤ s') :
    calcPoWQuota cfg qc s ≤ calcPoWQuota cfg qc s' := by
  rw [powQuota_eq h, powQuota_eq h]
  exact Nat.mul_le_mul_right _ (indexOf_mono h (param_mono qc hs))

/-- **C11**: a higher ratio (less congestion) never gives less quota. -/
theorem stake_quota_mono_qc {cfg : Config} (h : Ordered cfg.stakes) {q q' : Nat} (hq : q ≤ q') (s : Nat) :
    calcStakeQuota cfg (q, true) s ≤ calcStakeQuota cfg (q', true) s := by
  rw [stakeQuota_eq h, stakeQuota_eq h]
  refine Nat.mul_le_mul_right _ (indexOf_mono h ?_)
  simp only [calcStakeParam, if_true]
  exact Nat.div_le_div_right (Nat.mul_le_mul_left _ hq)

/-- A table entry is reached exactly from its amount on. -/
theorem index_reached {l : List Nat} (h : Ordered l) {i : Nat} (hi : i ≤ sectionLen) (x : Nat) : i ≤ indexOf x l ↔ l.getD i 0 ≤ x := by
  obtain ⟨h1, h2, h3⟩ := indexOf_spec h x
  exact ⟨fun q => le_trans (ordered_le h q h1) h2, fun q => h3 i hi q⟩

theorem ceil_spec (q : Nat) : ∀ i, q ≤ i * 280 ↔ (q + 280 - 1) / 280 ≤ i := by
  intro i; omega

/-- **C11**: the stake the node names for a quota gives at least that quota without congestion, and any smaller stake gives
less. -/
theorem stake_for_quota_exact {cfg : Config} (h : Ordered cfg.stakes) {q a : Nat} (ha : calcStakeAmountByQuota cfg q = some a) :
    ∀ s qc, q ≤ calcStakeQuota cfg (qc, false) s ↔ a ≤ s := by
  intro s qc
  unfold calcStakeAmountByQuota at ha
  by_cases h1 : q > sectionLen * quotaForSection
  · simp [h1] at ha
  · by_cases h2 : q = 0
    · subst h2
      rw [if_neg h1, if_pos rfl, Option.some.injEq] at ha
      omega
    · simp only [h1, h2, if_false, Option.some.injEq] at ha
      unfold sectionLen quotaForSection at h1
      rw [stakeQuota_eq h, ceil_spec, index_reached h (by unfold sectionLen; omega), ← ha]
      rfl

/-- **C11**: every quota up to 999,880 per snapshot has such a stake. -/
theorem stake_for_quota_exists (cfg : Config) (q : Nat) : (calcStakeAmountByQuota cfg q).isSome = true ↔ q ≤ 999880 := by
  unfold calcStakeAmountByQuota sectionLen quotaForSection
  split
  · simp; omega
  · split <;> simp <;> omega

/-! ### Proof of work under congestion -/

theorem loop_spec {q : Nat} (hq : 0 < q) (hq1 : q ≤ qcDivision) (target : Nat) :
    ∃ n, (targetLoop (q, true) target 2 (target * qcDivision / q) = some n) ∧ ∀ m, target ≤ calcStakeParam (q, true) m ↔ n ≤ m := by
  have hD : 0 < qcDivision := by decide
  have key : ∀ m, target ≤ calcStakeParam (q, true) m ↔ target * qcDivision ≤ m * q := by
    intro m
    simp only [calcStakeParam, if_true]
    exact Nat.le_div_iff_mul_le hD
  have h1 : target * qcDivision / q * q ≤ target * qcDivision := Nat.div_mul_le_self _ _
  have h2 : target * qcDivision < (target * qcDivision / q + 1) * q := by
    have := Nat.lt_div_mul_add hq (a := target * qcDivision)
    rw [Nat.add_mul]; omega
  generalize target * qcDivision / q = n at h1 h2
  have mono : ∀ m, m < n → ¬ target ≤ calcStakeParam (q, true) m := by
    intro m hm
    rw [key]
    have : (m + 1) * q ≤ n * q := Nat.mul_le_mul_right _ hm
    rw [Nat.add_mul] at this
    omega
  by_cases hc : target ≤ calcStakeParam (q, true) n
  · refine ⟨n, by simp [targetLoop, hc], fun m => ⟨fun hm => ?_, fun hm => le_trans hc (param_mono _ hm)⟩⟩
    by_contra hlt
    exact mono m (by omega) hm
  · have hc1 : target ≤ calcStakeParam (q, true) (n + 1) := by rw [key]; omega
    refine ⟨n + 1, by simp [targetLoop, hc, hc1], fun m => ⟨fun hm => ?_, fun hm => le_trans hc1 (param_mono _ hm)⟩⟩
    by_contra hlt
    have : m ≤ n := by omega
    exact hc (le_trans hm (param_mono _ this))

/-- More fuel changes nothing once the loop has ended. -/
theorem loop_fuel (qc : Nat × Bool) (target : Nat) : ∀ (f g : Nat), f ≤ g → ∀ a n, targetLoop qc target f a = some n → targetLoop qc target g a = some n
  | 0, _, _, a, n, h => by simp [targetLoop] at h
  | f + 1, 0, hg, _, _, _ => by omega
  | f + 1, g + 1, hg, a, n, h => by
    unfold targetLoop at h ⊢
    by_cases hc : calcStakeParam qc a ≥ target
    · simpa [hc] using h
    · simp only [hc, if_false] at h ⊢
      exact loop_fuel qc target f g (by omega) (a + 1) n h

/-- **C11**: the loop that looks for a difficulty under congestion ends in its second round at the latest. -/
theorem target_loop_ends {q : Nat} (hq : 0 < q) (hq1 : q ≤ qcDivision) (target fuel : Nat) (hf : 2 ≤ fuel) :
    calcTarget fuel (q, true) target = calcTarget 2 (q, true) target := by
  obtain ⟨n, h1, _⟩ := loop_spec hq hq1 target
  unfold calcTarget
  rw [h1, loop_fuel _ _ 2 fuel hf _ _ h1]

/-- A ratio as the node uses it: no congestion, or between 0 and 1. -/
def Ratio (qc : Nat × Bool) : Prop := qc.2 = true → 0 < qc.1 ∧ qc.1 ≤ qcDivision

/-- **C11**: the difficulty the node names for a block that needs `required` gives at least that much, and any smaller one
gives less. -/
theorem pow_difficulty_exact {cfg : Config} (h : Ordered cfg.difficulties) {qc : Nat × Bool} (hqc : Ratio qc) {required current d : Nat}
    (hd : calcPoWDifficulty 2 cfg qc required current = some d) (hc : current < required) :
    ∀ s, required ≤ calcPoWQuota cfg qc s ↔ d ≤ s := by
  intro s
  unfold calcPoWDifficulty at hd
  by_cases h1 : required > quotaLimitForBlock
  · simp [h1] at hd
  · have h2 : ¬ current ≥ required := by omega
    simp only [h1, h2, if_false] at hd
    obtain ⟨i, hi, ht⟩ := Option.bind_eq_some_iff.mp hd
    unfold getIndexByQuota at hi
    by_cases h3 : (required + quotaForSection - 1) / quotaForSection > sectionLen ∨ (required + quotaForSection - 1) / quotaForSection * quotaForSection < required
    · simp [h3] at hi
    · simp only [h3, if_false, Option.some.injEq] at hi
      push Not at h3
      rw [hi] at h3
      have hi' : (required + 280 - 1) / 280 = i := hi
      rw [powQuota_eq h, ceil_spec, hi', index_reached h h3.1]
      unfold calcTarget at ht
      cases hb : qc.2 with
      | false =>
        simp only [hb, if_true, Option.some.injEq] at ht
        rw [ht]; simp [calcStakeParam, hb]
      | true =>
        obtain ⟨hq0, hq1⟩ := hqc hb
        have hqe : qc = (qc.1, true) := Prod.ext rfl hb
        simp only [hb, Bool.true_eq_false, if_false] at ht
        obtain ⟨n, h4, h5⟩ := loop_spec hq0 hq1 (cfg.difficulties.getD i 0)
        rw [hqe] at ht
        simp only at ht
        rw [h4] at ht
        simp only [Option.bind_some] at ht
        split at ht
        · obtain rfl := Option.some.inj ht
          rw [hqe]; exact h5 s
        · cases ht

/-- The ratios of the main net are between 0 and 1, and fall. -/
def qcGood : Bool := (List.range 450).all (fun i => decide (0 < qcMainnet.getD i 0 ∧ qcMainnet.getD i 0 ≤ qcDivision ∧ qcMainnet.getD (i + 1) 0 ≤ qcMainnet.getD i 0))

theorem qcMainnet_good : qcGood = true := by decide +kernel

theorem qcMainnet_entry {i : Nat} (hi : i < 450) : 0 < qcMainnet.getD i 0 ∧ qcMainnet.getD i 0 ≤ qcDivision ∧ qcMainnet.getD (i + 1) 0 ≤ qcMainnet.getD i 0 := by
  have h := qcMainnet_good
  unfold qcGood at h
  rw [List.all_eq_true] at h
  simpa using h i (by simpa using hi)

/-- **C11**: whatever the load, the ratio is one of these. -/
theorem ratio_mainnet (dex : Bool) (g : Nat) : Ratio (calcQc mainnet dex g) := by
  unfold calcQc
  by_cases h1 : dex = false
  · simp [h1, Ratio]
  · simp only [h1, if_false]
    by_cases h2 : (g + qcGap - 1) / qcGap < mainnet.qcMin
    · simp [h2, Ratio]
    · simp only [h2, if_false]
      have h2' : 51 ≤ (g + qcGap - 1) / qcGap := by simpa [mainnet] using h2
      by_cases h3 : (g + qcGap - 1) / qcGap ≥ mainnet.qcMax
      · simp only [h3, if_true]
        intro _
        have := qcMainnet_entry (i := 449) (by omega)
        exact ⟨this.1, this.2.1⟩
      · simp only [h3, if_false]
        have h3' : (g + qcGap - 1) / qcGap < 500 := by simpa [mainnet] using h3
        intro _
        have := qcMainnet_entry (i := (g + qcGap - 1) / qcGap - 51) (by omega)
        exact ⟨this.1, this.2.1⟩

theorem qc_antitone {i j : Nat} (hij : i ≤ j) (hj : j < 450) : qcMainnet.getD j 0 ≤ qcMainnet.getD i 0 := by
  obtain ⟨m, rfl⟩ := Nat.exists_eq_add_of_le hij
  clear hij
  induction m with
  | zero => exact le_refl _
  | succ m ih =>
    have := (qcMainnet_entry (i := i + m) (by omega)).2.2
    exact le_trans this (ih (by omega))

/-- **C11**: more load on the network never gives anybody more quota for the same stake. -/
theorem congestion_lowers_quota {g g' : Nat} (hg : g ≤ g') (s : Nat) :
    calcStakeQuota mainnet (calcQc mainnet true g') s ≤ calcStakeQuota mainnet (calcQc mainnet true g) s := by
  have ho : Ordered mainnet.stakes := stakesMainnet_ordered
  rw [stakeQuota_eq ho, stakeQuota_eq ho]
  refine Nat.mul_le_mul_right _ (indexOf_mono ho ?_)
  have hi : (g + qcGap - 1) / qcGap ≤ (g' + qcGap - 1) / qcGap := Nat.div_le_div_right (by omega)
  have hr := ratio_mainnet true g'
  unfold calcQc at hr ⊢
  simp only [Bool.true_eq_false, if_false] at hr ⊢
  generalize (g + qcGap - 1) / qcGap = i at hi
  generalize (g' + qcGap - 1) / qcGap = j at hi hr
  have e1 : mainnet.qcMin = 51 := rfl
  have e2 : mainnet.qcMax = 500 := rfl
  have e3 : ∀ k, mainnet.qc k = qcMainnet.getD (k - 51) 0 := fun _ => rfl
  simp only [e1, e2, e3] at hr ⊢
  by_cases hj : j < 51
  · have hi' : i < 51 := by omega
    simp [hj, hi', calcStakeParam]
  · by_cases hi' : i < 51
    · rw [if_neg hj] at hr ⊢
      rw [if_pos hi']
      generalize (if j ≥ 500 then (qcMainnet.getD (500 - 51) 0, true) else (qcMainnet.getD (j - 51) 0, true)) = qc at hr ⊢
      unfold calcStakeParam
      split
      · obtain ⟨_, h2⟩ := hr (by assumption)
        simp only [Bool.false_eq_true, if_false]
        exact Nat.div_le_of_le_mul (by rw [Nat.mul_comm qcDivision]; exact Nat.mul_le_mul_left _ h2)
      · simp
    · rw [if_neg hj, if_neg hi']
      have hle : (if j ≥ 500 then (qcMainnet.getD (500 - 51) 0, true) else (qcMainnet.getD (j - 51) 0, true)).1 ≤
          (if i ≥ 500 then (qcMainnet.getD (500 - 51) 0, true) else (qcMainnet.getD (i - 51) 0, true)).1 := by
        by_cases h5 : i ≥ 500
        · have : j ≥ 500 := by omega
          simp [h5, this]
        · by_cases h6 : j ≥ 500
          · simp only [h5, h6, if_true, if_false]; exact qc_antitone (by omega) (by omega)
          · simp only [h5, h6, if_false]; exact qc_antitone (by omega) (by omega)
      have t1 : (if j ≥ 500 then (qcMainnet.getD (500 - 51) 0, true) else (qcMainnet.getD (j - 51) 0, true)).2 = true := by split <;> rfl
      have t2 : (if i ≥ 500 then (qcMainnet.getD (500 - 51) 0, true) else (qcMainnet.getD (i - 51) 0, true)).2 = true := by split <;> rfl
      unfold calcStakeParam
      rw [if_pos t1, if_pos t2]
      exact Nat.div_le_div_right (Nat.mul_le_mul_left _ hle)

/-! ### C12: what a block gets -/

theorem quota_le {cfg : Config} (h : Ordered cfg.stakes) (qc : Nat × Bool) (s : Nat) : calcStakeQuota cfg qc s ≤ 999880 := by
  rw [stakeQuota_eq h]
  have := (indexOf_spec h (calcStakeParam qc s)).1
  unfold sectionLen at this
  omega

theorem powQuota_le {cfg : Config} (h : Ordered cfg.difficulties) (qc : Nat × Bool) (s : Nat) : calcPoWQuota cfg qc s ≤ 999880 := by
  rw [powQuota_eq h]
  have := (indexOf_spec h (calcStakeParam qc s)).1
  unfold sectionLen at this
  omega

/-- **C12**: no block gets more than 1,000,000, of which at most all is from work. -/
theorem block_quota_limit {cfg : Config} {v : View} {stake difficulty : Nat} {r : Nat × Nat}
    (h : getQuotaForBlock cfg v stake difficulty = some r) : r.1 ≤ 1000000 ∧ r.2 ≤ r.1 := by
  unfold getQuotaForBlock calcQuota at h
  by_cases h1 : difficulty > 0 ∧ canPoW v = false
  · simp [h1] at h
  · simp only [h1, if_false] at h
    generalize calcStakeQuota cfg (calcQc cfg v.dex v.globalQuota) stake = sq at h
    generalize calcPoWQuota cfg (calcQc cfg v.dex v.globalQuota) difficulty = pq at h
    have ha : (calcTotal sq pq v.list (isBlocked v.isContract v.last)).addition ≤ (calcTotal sq pq v.list (isBlocked v.isContract v.last)).total := by
      unfold calcTotal
      by_cases c1 : snapshotCurrent sq v.list < unconfirmedQuota v.list
      · simp [c1]
      · by_cases c2 : (isBlocked v.isContract v.last).1 = true
        · simp [c1, c2]
        · simp [c1, c2]
    generalize calcTotal sq pq v.list (isBlocked v.isContract v.last) = a at h ha
    unfold quotaLimitForBlock at h
    by_cases h2 : a.invalid = true
    · simp [h2] at h
    · rw [if_neg h2] at h
      by_cases h3 : a.total > 1000000
      · simp only [h3, if_true] at h
        by_cases h4 : a.addition > 1000000
        · simp only [h4, if_true] at h
          obtain rfl := Option.some.inj h
          exact ⟨le_refl _, le_refl _⟩
        · simp only [h4, if_false] at h
          obtain rfl := Option.some.inj h
          exact ⟨le_refl _, by omega⟩
      · simp only [h3, if_false] at h
        obtain rfl := Option.some.inj h
        exact ⟨by omega, ha⟩

/-- **C12**: one proof of work per account between two snapshots. -/
theorem no_second_pow {cfg : Config} {v : View} {stake difficulty : Nat} {r : Nat × Nat}
    (h : getQuotaForBlock cfg v stake difficulty = some r) (hd : 0 < difficulty) : ∀ pow ∈ v.unconfirmed, pow = false := by
  have hc : canPoW v = true := by
    by_contra hc
    have h1 : difficulty > 0 ∧ canPoW v = false := ⟨hd, by simpa using hc⟩
    unfold getQuotaForBlock calcQuota at h
    simp [h1] at h
  intro pow hp
  unfold canPoW at hc
  have := List.all_eq_true.mp hc pow hp
  simpa using this

/-- **C12**: a contract whose last block is a failed receive gets nothing until that block is 75 times confirmed. -/
theorem failed_contract_waits {cfg : Config} {v : View} {stake difficulty n : Nat} {r : Nat × Nat}
    (h : getQuotaForBlock cfg v stake difficulty = some r) (hc : v.isContract = true) (hl : v.last = some (true, n)) (hn : n < 75) :
    r = (0, 0) := by
  have hb : isBlocked v.isContract v.last = (true, 75 - n) := by
    unfold isBlocked outOfQuotaBlockTime
    rw [hc, hl]
    simp [hn]
  unfold getQuotaForBlock calcQuota at h
  by_cases h1 : difficulty > 0 ∧ canPoW v = false
  · simp [h1] at h
  · simp only [h1, if_false, hb] at h
    unfold calcTotal at h
    by_cases c1 : snapshotCurrent (calcStakeQuota cfg (calcQc cfg v.dex v.globalQuota) stake) v.list < unconfirmedQuota v.list
    · simp [c1] at h
    · simp [c1, quotaLimitForBlock] at h; exact h.symm

/-- What the stake alone gives a block: the window's accumulation and the current snapshot, less the unconfirmed blocks. -/
def granted (stakeQuota : Nat) (confirmed : List Nat) (unconfirmed : Nat) : Nat := confirmedQuota stakeQuota confirmed + stakeQuota - unconfirmed

/-- **C12**: a block without work gets exactly what the stake has accumulated in the window, less what was used since, up
to the limit; if more has been used it is refused. -/
theorem block_quota_exact {cfg : Config} {v : View} {stake : Nat} (confirmed : List Info) (last : Info) (hv : v.list = confirmed ++ [last])
    (hb : (isBlocked v.isContract v.last).1 = false) :
    getQuotaForBlock cfg v stake 0 =
      let sq := calcStakeQuota cfg (calcQc cfg v.dex v.globalQuota) stake
      if confirmedQuota sq (confirmed.map (·.quotaTotal)) + sq < last.quotaTotal then none
      else some (min 1000000 (granted sq (confirmed.map (·.quotaTotal)) last.quotaTotal), 0) := by
  have hp : calcPoWQuota cfg (calcQc cfg v.dex v.globalQuota) 0 = 0 := by simp [calcPoWQuota]
  have hne : confirmed ++ [last] ≠ [] := by simp
  unfold getQuotaForBlock calcQuota
  rw [hp, hv]
  generalize calcStakeQuota cfg (calcQc cfg v.dex v.globalQuota) stake = sq
  simp only [Nat.lt_irrefl, gt_iff_lt, false_and, if_false]
  unfold calcTotal granted quotaLimitForBlock snapshotCurrent unconfirmedQuota
  simp only [hne, if_false, List.dropLast_concat, List.getLast?_append, List.getLast?_singleton, Option.some_or, Option.map_some, Option.getD_some, hb]
  by_cases hc : confirmedQuota sq (confirmed.map (·.quotaTotal)) + sq < last.quotaTotal
  · simp [hc]
  · simp only [hc, if_false, Bool.false_eq_true, Nat.add_zero]
    by_cases h2 : 1000000 < confirmedQuota sq (confirmed.map (·.quotaTotal)) + sq - last.quotaTotal
    · simp only [h2, if_true, Nat.not_lt_zero, if_false]
      rw [Nat.min_eq_left (by omega)]
    · simp only [h2, if_false]
      rw [Nat.min_eq_right (by omega)]

/-! #### The window as a bucket -/

theorem foldl_mono (s : Nat) : ∀ (l : List Nat) {a b : Nat}, a ≤ b → l.foldl (accumulate s) a ≤ l.foldl (accumulate s) b
  | [], _, _, h => h
  | x :: l, a, b, h => by
    simp only [List.foldl_cons]
    exact foldl_mono s l (by unfold accumulate; omega)

theorem foldl_le (s : Nat) : ∀ (l : List Nat) (a : Nat), l.foldl (accumulate s) a ≤ a + l.length * s
  | [], a => by simp
  | x :: l, a => by
    simp only [List.foldl_cons, List.length_cons]
    have := foldl_le s l (accumulate s a x)
    unfold accumulate at *
    rw [Nat.add_mul]; omega

/-- **C12**: the accumulation is bounded by the window: a stake gives at most one share for each entry of the window. -/
theorem accumulation_le (s : Nat) (l : List Nat) : confirmedQuota s l ≤ l.length * s := by
  have := foldl_le s l 0
  unfold confirmedQuota; omega

/-- The last (at most 74) entries of a history of used quota, oldest first. -/
def window (used : List Nat) : List Nat := used.drop (used.length - 74)

/-- The quota at the start of a snapshot period, given the use in all earlier ones. -/
def atStart (s : Nat) (used : List Nat) : Nat := confirmedQuota s (window used) + s

/-- A history of use in which the use of every period stays within the quota at its start. -/
def Within (s : Nat) : List Nat → List Nat → Prop
  | _, [] => True
  | before, u :: us => u ≤ atStart s before ∧ Within s (before ++ [u]) us

theorem window_snoc (used : List Nat) (u : Nat) : ∃ l, window (used ++ [u]) = l ++ [u] ∧ ∃ p, window used = p ++ l := by
  unfold window
  simp only [List.length_append, List.length_singleton]
  have h1 : used.length + 1 - 74 ≤ used.length := by omega
  refine ⟨used.drop (used.length + 1 - 74), by rw [List.drop_append_of_le_length h1], (used.drop (used.length - 74)).take (used.length + 1 - 74 - (used.length - 74)), ?_⟩
  have : used.drop (used.length + 1 - 74) = (used.drop (used.length - 74)).drop (used.length + 1 - 74 - (used.length - 74)) := by
    rw [List.drop_drop]; congr 1; omega
  rw [this, List.take_append_drop]

theorem atStart_step (s : Nat) (used : List Nat) (u : Nat) (hu : u ≤ atStart s used) : atStart s (used ++ [u]) + u ≤ atStart s used + s := by
  obtain ⟨l, h1, p, h2⟩ := window_snoc used u
  unfold atStart at *
  rw [h1]
  rw [h2] at hu ⊢
  unfold confirmedQuota at *
  rw [List.foldl_append] at hu
  rw [List.foldl_append, List.foldl_append]
  simp only [List.foldl_cons, List.foldl_nil]
  have := foldl_mono s l (Nat.zero_le (p.foldl (accumulate s) 0))
  generalize l.foldl (accumulate s) (p.foldl (accumulate s) 0) = B at this hu ⊢
  generalize l.foldl (accumulate s) 0 = A at this ⊢
  unfold accumulate
  omega

/-- **C12**: with a constant stake share `s` per snapshot, the use of any number of consecutive periods is at most the 75
shares of a full window and one share for each further period: an account cannot use more than its stake yields. -/
theorem use_bounded (s : Nat) : ∀ (us before : List Nat), Within s before us → us.sum ≤ (74 + us.length) * s
  | [], _, _ => by simp
  | [u], before, h => by
    have h1 := accumulation_le s (window before)
    have h2 : (window before).length ≤ 74 := by unfold window; rw [List.length_drop]; omega
    have h3 : (window before).length * s ≤ 74 * s := Nat.mul_le_mul_right _ h2
    have h4 := h.1
    unfold atStart at h4
    simp only [List.sum_cons, List.sum_nil, List.length_cons, List.length_nil, Nat.add_zero, Nat.zero_add]
    rw [Nat.add_mul]; omega
  | u :: v :: us, before, h => by
    -- strengthen: the sum is bounded by the quota at the start
    have key : ∀ (us before : List Nat), us ≠ [] → Within s before us → us.sum ≤ atStart s before + (us.length - 1) * s := by
      intro us
      induction us with
      | nil => intro _ h; exact absurd rfl h
      | cons u us ih =>
        intro before _ h
        have h1 := h.1
        cases us with
        | nil => simpa using h1
        | cons v us =>
          have h2 := ih (before ++ [u]) (by simp) h.2
          have h3 := atStart_step s before u h1
          simp only [List.sum_cons, List.length_cons] at h2 ⊢
          simp only [Nat.add_sub_cancel] at h2 ⊢
          rw [Nat.add_mul, Nat.one_mul]
          omega
    have h1 := key (u :: v :: us) before (by simp) h
    have h2 := accumulation_le s (window before)
    have h3 : (window before).length ≤ 74 := by unfold window; rw [List.length_drop]; omega
    have h4 : (window before).length * s ≤ 74 * s := Nat.mul_le_mul_right _ h3
    unfold atStart at h1
    simp only [List.length_cons] at h1 ⊢
    have e : (74 + (us.length + 1 + 1)) * s = 74 * s + s + (us.length + 1) * s := by ring
    rw [e]
    simp only [Nat.add_sub_cancel] at h1
    omega

/-- **C12**: the sums stay far below 2^64: with at most 75 entries whose use is itself a granted quota, every value the
calculation forms is less than 2^64. -/
theorem total_fits {cfg : Config} (h1 : Ordered cfg.stakes) (h2 : Ordered cfg.difficulties) (qc : Nat × Bool) (stake difficulty : Nat)
    (l : List Nat) (hl : l.length ≤ 75) (n : Nat) :
    (l.take n).foldl (accumulate (calcStakeQuota cfg qc stake)) 0 + calcStakeQuota cfg qc stake + calcPoWQuota cfg qc difficulty < 2 ^ 64 := by
  have ha := foldl_le (calcStakeQuota cfg qc stake) (l.take n) 0
  have hb : (l.take n).length ≤ 75 := by rw [List.length_take]; omega
  have hc := quota_le h1 qc stake
  have hd := powQuota_le h2 qc difficulty
  have he : (l.take n).length * calcStakeQuota cfg qc stake ≤ 75 * 999880 := Nat.mul_le_mul hb hc
  omega

/-- **C12**: the stake quota and the work quota of a block add up to what it used: what `CalcQuotaUsed` books against the
stake, plus at most the work's share, is the use. -/
theorem used_split (total addition left : Nat) (h1 : left ≤ total) : 
    (calcQuotaUsed total addition left).2 + left = total ∧
    (calcQuotaUsed total addition left).1 ≤ (calcQuotaUsed total addition left).2 ∧
    (calcQuotaUsed total addition left).2 ≤ (calcQuotaUsed total addition left).1 + addition := by
  unfold calcQuotaUsed; simp only; omega

/-- **C12**: a block's stake use never exceeds the stake part of its grant, so a next block finds what is left of it. -/
theorem stake_use_le_grant (total addition left : Nat) :
    (calcQuotaUsed total addition left).1 ≤ total - addition := by
  unfold calcQuotaUsed; simp only; omega

/-! ### Scheduling of contracts -/

/-- How many more confirmations a contract has to wait for: only after a failed receive, until it is 75 times confirmed. -/
def waiting (v : View) : Nat :=
  match v.isContract, v.last with
  | true, some (true, n) => 75 - n
  | _, _ => 0

theorem isBlocked_eq (v : View) : isBlocked v.isContract v.last = (decide (0 < waiting v), waiting v) := by
  unfold isBlocked waiting outOfQuotaBlockTime
  rcases v.isContract with _ | _
  · simp
  · rcases v.last with _ | ⟨_ | _, n⟩
    · simp
    · simp
    · by_cases h : n < 75
      · simp [h]
      · simp [h]; omega

/-- **C12**: an account that need not wait gets exactly what its stake has accumulated. -/
theorem not_waiting_gets_quota {cfg : Config} {v : View} {stake : Nat} (confirmed : List Info) (last : Info)
    (hv : v.list = confirmed ++ [last]) (hw : v.isContract = false ∨ ∀ n, v.last = some (true, n) → 75 ≤ n) :
    getQuotaForBlock cfg v stake 0 =
      let sq := calcStakeQuota cfg (calcQc cfg v.dex v.globalQuota) stake
      if confirmedQuota sq (confirmed.map (·.quotaTotal)) + sq < last.quotaTotal then none
      else some (min 1000000 (granted sq (confirmed.map (·.quotaTotal)) last.quotaTotal), 0) := by
  apply block_quota_exact confirmed last hv
  rw [isBlocked_eq]
  unfold waiting
  rcases hw with hw | hw
  · simp [hw]
  · split
    · rename_i n _ hl
      have := hw n hl
      simp; omega
    · simp

/-- **C12**: a contract is scheduled to receive exactly when it need not wait after a failure and its quota reaches the mean
use of its recent blocks; otherwise it is told how long to wait. -/
theorem receive_scheduled_iff {cfg : Config} {v : View} {stake difficulty : Nat} {a : Answer}
    (h : calcQuota cfg v stake difficulty = some a) :
    ((checkQuota a).1 = true ↔ waiting v = 0 ∧
      (v.list.map (·.quotaUsedTotal)).sum / (v.list.map (·.blockCount)).sum ≤ a.total) ∧
    ((checkQuota a).2 = if 0 < waiting v then waiting v else if (checkQuota a).1 then 0 else 1) := by
  unfold calcQuota at h
  split at h
  · simp at h
  · simp only [Option.some.injEq] at h
    have hb : a.blocked = decide (0 < waiting v) ∧ a.release = waiting v ∧ a.avg = average v.list := by
      rw [← h, isBlocked_eq]
      unfold calcTotal
      split
      · exact ⟨rfl, rfl, rfl⟩
      · split <;> exact ⟨rfl, rfl, rfl⟩
    have havg : average v.list = (v.list.map (·.quotaUsedTotal)).sum / (v.list.map (·.blockCount)).sum := by
      unfold average
      split
      · rfl
      · rename_i h0
        have : (v.list.map (·.blockCount)).sum = 0 := by omega
        rw [this, Nat.div_zero]
    obtain ⟨h1, h2, h3⟩ := hb
    unfold checkQuota
    rw [h1, h2, h3, havg]
    by_cases hw : 0 < waiting v
    · simp [hw]; omega
    · have hw0 : waiting v = 0 := by omega
      simp only [hw, decide_false, Bool.false_eq_true, if_false]
      split
      · rename_i hge
        simp [hw0]; omega
      · rename_i hge
        simp [hw0]; omega

/-- **C12**: of the quota a confirmed block used, the stake pays what the work did not; nothing is paid twice. -/
theorem work_pays_first (cfg : Config) (qc : Nat × Bool) (pow : Bool) (used difficulty : Nat) :
    (pow = false → calcBlockQuotaUsed cfg qc pow used difficulty = used) ∧
    (pow = true → calcBlockQuotaUsed cfg qc pow used difficulty + min used (calcPoWQuota cfg qc difficulty) = used) := by
  unfold calcBlockQuotaUsed
  constructor
  · intro h; simp [h]
  · intro h; simp only [h, Bool.true_eq_false, if_false]; omega

/-- **C12**: a block that ends with quota left used what it was granted less what is left, and of this the work pays first. -/
theorem quota_used_exact {total addition left : Nat} (h : left ≤ total) :
    (calcQuotaUsed total addition left).2 + left = total ∧
    (calcQuotaUsed total addition left).1 + min addition (total - left) = total - left := by
  unfold calcQuotaUsed
  dsimp only
  omega

end Verif.Vm.Quota
