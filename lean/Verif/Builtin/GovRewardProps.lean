import Verif.Builtin.GovProps

/-! C40: a name is paid once for a cycle, and all rewards together stay within the emission. -/

namespace Verif.Builtin.Gov
open Verif.Vm Verif.Builtin.Reward Spec

/-! ### Cycles -/

theorem index_lt (ti : TimeIndex) (hI : 0 < ti.interval) (t : Int) (i : Nat) (ht : ti.genesis ≤ t) :
    i < ti.index t ↔ ti.finish i ≤ t := by
  unfold TimeIndex.index TimeIndex.finish
  rw [← Nat.succ_le_iff, Nat.le_div_iff_mul_le hI]
  have h1 : (((t - ti.genesis).toNat : Nat) : Int) = t - ti.genesis := Int.toNat_of_nonneg (by omega)
  have h2 : (i.succ * ti.interval : Nat) = ti.interval * (i + 1) := by rw [Nat.succ_eq_add_one, Nat.mul_comm]
  rw [h2]
  generalize ti.interval * (i + 1) = m
  omega

theorem finish_eq (ti : TimeIndex) (i : Nat) : ti.finish i = ti.start (i + 1) := rfl

theorem start_mono (ti : TimeIndex) {i j : Nat} (h : i ≤ j) : ti.start i ≤ ti.start j := by
  unfold TimeIndex.start
  have := Nat.mul_le_mul_left ti.interval h
  omega

theorem start_lt (ti : TimeIndex) (hI : 0 < ti.interval) {i j : Nat} (h : i < j) : ti.start i < ti.start j := by
  unfold TimeIndex.start
  have := Nat.mul_lt_mul_of_pos_left h hI
  omega

theorem genesis_le_start (ti : TimeIndex) (i : Nat) : ti.genesis ≤ ti.start i := by
  unfold TimeIndex.start; omega

/-- The first cycle that a reward time lets through is the first one that starts at or after it. -/
theorem startIndex_spec (ti : TimeIndex) (hI : 0 < ti.interval) {t : Int} {a : Nat} (h : startIndex ti t = some a) (i : Nat) :
    a ≤ i ↔ t ≤ ti.start i := by
  unfold startIndex at h
  by_cases h1 : t < 0
  · simp [h1] at h
  · by_cases h2 : t ≤ ti.genesis
    · simp only [h1, h2, if_true, if_false, Option.some.injEq] at h
      have := genesis_le_start ti i
      constructor <;> intro <;> omega
    · simp only [h1, h2, if_false, Option.some.injEq] at h
      subst h
      have key := index_lt ti hI (t - 1) i (by omega)
      have h3 := index_lt ti hI (t - 1) (i - 1) (by omega)
      cases i with
      | zero =>
        have : ti.start 0 = ti.genesis := by simp [TimeIndex.start]
        rw [this]
        constructor <;> intro <;> omega
      | succ j =>
        simp only [Nat.add_sub_cancel] at h3
        rw [finish_eq] at h3 key
        have h4 := index_lt ti hI (t - 1) j (by omega)
        rw [finish_eq] at h4
        constructor
        · intro q
          by_contra hc
          have : ti.start (j + 1) ≤ t - 1 := by omega
          have := h4.mpr this
          omega
        · intro q
          by_contra hc
          have : j < ti.index (t - 1) := by omega
          have := h4.mp this
          omega

/-- The last cycle before a time: it has finished, and no later one has. -/
theorem endIndex_spec (ti : TimeIndex) (hI : 0 < ti.interval) (t : Int) (i : Nat) :
    (ti.finish i ≤ t ↔ (endIndex ti t).2.2 = false ∧ i ≤ (endIndex ti t).1) := by
  unfold endIndex
  by_cases h1 : t < ti.genesis
  · have := genesis_le_start ti (i + 1)
    rw [finish_eq]
    simp only [h1, if_true]
    simp; omega
  · have h2 := index_lt ti hI t i (by omega)
    by_cases h3 : ti.index t = 0
    · simp only [h1, h3, if_true, if_false]
      rw [h3] at h2
      simp; omega
    · simp only [h1, h3, if_false]
      rw [← h2]
      simp; omega

theorem endIndex_time (ti : TimeIndex) (t : Int) : (endIndex ti t).2.2 = false → (endIndex ti t).2.1 = ti.finish (endIndex ti t).1 := by
  unfold endIndex
  by_cases h1 : t < ti.genesis
  · simp [h1]
  · by_cases h3 : ti.index t = 0
    · simp [h1, h3]
    · simp [h1, h3]

theorem endIndex_first (ti : TimeIndex) (t : Int) : (endIndex ti t).2.2 = true → (endIndex ti t).2.1 = ti.genesis := by
  unfold endIndex
  by_cases h1 : t < ti.genesis
  · simp [h1]
  · by_cases h3 : ti.index t = 0
    · simp [h1, h3]
    · simp [h1, h3]

/-! ### What one withdrawal pays -/

/-- The cycles a withdrawal pays for: those that start at or after the reward time, finished an hour before now, and before
the registration was revoked if it was. -/
def payable (ti : TimeIndex) (x : Times) (now : Int) (i : Nat) : Prop :=
  x.rewardTime ≤ ti.start i ∧ ti.finish i ≤ now - rewardTimeLimit ∧ (x.revokeTime ≠ 0 → ti.finish i ≤ x.revokeTime)

instance (ti : TimeIndex) (x : Times) (now : Int) (i : Nat) : Decidable (payable ti x now i) := by
  unfold payable; infer_instance

theorem rewardEnd_spec (ti : TimeIndex) (hI : 0 < ti.interval) (x : Times) (limit : Int) (i : Nat) :
    ((rewardEnd ti x limit).1.2.2 = false ∧ i ≤ (rewardEnd ti x limit).1.1) ↔
      ti.finish i ≤ limit ∧ (x.revokeTime ≠ 0 → ti.finish i ≤ x.revokeTime) := by
  unfold rewardEnd
  by_cases h1 : x.revokeTime ≠ 0
  · simp only [h1, ne_eq, not_false_eq_true, if_true, true_imp_iff]
    by_cases h2 : (endIndex ti x.revokeTime).2.1 ≤ limit
    · simp only [h2, if_true]
      rw [← endIndex_spec ti hI]
      constructor
      · intro h
        refine ⟨?_, h⟩
        have h3 := (endIndex_spec ti hI x.revokeTime i).mp h
        rw [endIndex_time ti _ h3.1] at h2
        have := start_mono ti (Nat.succ_le_succ h3.2)
        rw [finish_eq] at h2 ⊢
        exact le_trans this h2
      · exact fun h => h.2
    · simp only [h2, if_false]
      rw [← endIndex_spec ti hI]
      constructor
      · intro h
        refine ⟨h, ?_⟩
        cases hf : (endIndex ti x.revokeTime).2.2 with
        | true =>
          have := endIndex_first ti _ hf
          rw [this] at h2
          have := genesis_le_start ti (i + 1)
          rw [finish_eq] at h
          omega
        | false =>
          have h3 := endIndex_time ti _ hf
          rw [h3] at h2
          have h4 := (endIndex_spec ti hI x.revokeTime (endIndex ti x.revokeTime).1).mpr ⟨hf, le_refl _⟩
          omega
      · exact fun h => h.1
  · simp only [h1, if_false, false_imp_iff, and_true]
    rw [← endIndex_spec ti hI]

/-- What cycles `0 .. k-1` have earned a name, as far as they are allowed. -/
def earnedWhere (src : Source) (name : Name) (p : Nat → Prop) [DecidablePred p] (k : Nat) : Nat :=
  ((List.range k).map (fun i => if p i then earned src name i else 0)).sum

theorem sumDays_eq (src : Source) (name : Name) (a b k : Nat) (hk : b < k) :
    sumDays src name (days a b) = earnedWhere src name (fun i => a ≤ i ∧ i ≤ b) k := by
  have h1 : ∀ l : List Nat, ((l.filter (fun i => decide (a ≤ i))).map (earned src name)).sum =
      (l.map (fun i => if a ≤ i then earned src name i else 0)).sum := by
    intro l
    induction l with
    | nil => rfl
    | cons x xs ih =>
      by_cases hx : a ≤ x <;> simp [hx, ih]
  have h2 : sumDays src name (days a b) = ((List.range (b + 1)).map (fun i => if a ≤ i then earned src name i else 0)).sum := by
    unfold sumDays days
    exact h1 _
  have h3 : ∀ m, ((List.range (b + 1 + m)).map (fun i => if a ≤ i ∧ i ≤ b then earned src name i else 0)).sum =
      ((List.range (b + 1)).map (fun i => if a ≤ i then earned src name i else 0)).sum := by
    intro m
    induction m with
    | zero =>
      congr 1
      apply List.map_congr_left
      intro i hi
      have : i ≤ b := by simpa [Nat.lt_succ_iff] using hi
      simp [this]
    | succ m ih =>
      rw [← Nat.add_assoc, List.range_succ, List.map_append, List.sum_append, ih]
      simp; omega
  obtain ⟨m, rfl⟩ := Nat.exists_eq_add_of_le hk
  rw [h2, earnedWhere]
  exact (h3 m).symm

theorem earnedWhere_congr (src : Source) (name : Name) (p q : Nat → Prop) [DecidablePred p] [DecidablePred q] (k : Nat)
    (h : ∀ i, i < k → (p i ↔ q i)) : earnedWhere src name p k = earnedWhere src name q k := by
  unfold earnedWhere
  congr 1
  apply List.map_congr_left
  intro i hi
  have := h i (by simpa using hi)
  by_cases hp : p i
  · simp [hp, this.mp hp]
  · have hq : ¬ q i := fun x => hp (this.mpr x)
    simp [hp, hq]

theorem earnedWhere_zero (src : Source) (name : Name) (p : Nat → Prop) [DecidablePred p] (k : Nat) (h : ∀ i, ¬ p i) :
    earnedWhere src name p k = 0 := by
  unfold earnedWhere
  induction k with
  | zero => rfl
  | succ k ih => rw [List.range_succ, List.map_append, List.sum_append, ih]; simp [h k]

/-- **C40**: a withdrawal pays exactly the cycles that start at or after the reward time and finished an hour before the
snapshot block (and before the revoke): the sum over any number `k` of cycles that has them all. -/
theorem withdrawal_pays_payable (src : Source) (name : Name) (x : Times) (now : Int) (hI : 0 < src.ti.interval)
    (hx : 0 ≤ x.rewardTime) (k : Nat) (hk : ∀ i, payable src.ti x now i → i < k) :
    (calcReward false src name x now).reward = some (earnedWhere src name (payable src.ti x now) k) := by
  unfold calcReward
  cases hs : startIndex src.ti x.rewardTime with
  | none => unfold startIndex at hs; split at hs <;> [omega; (split at hs <;> cases hs)]
  | some a =>
    have h1 := startIndex_spec src.ti hI hs
    have h2 := rewardEnd_spec src.ti hI x (now - rewardTimeLimit)
    simp only
    generalize he : rewardEnd src.ti x (now - rewardTimeLimit) = e at h2
    have hp : ∀ i, payable src.ti x now i ↔ a ≤ i ∧ e.1.2.2 = false ∧ i ≤ e.1.1 := by
      intro i
      unfold payable
      rw [← h1 i, h2 i]
    by_cases hc : e.1.2.2 = true ∨ a > e.1.1
    · simp only [hc, if_true, Option.some.injEq]
      symm
      apply earnedWhere_zero
      intro i q
      obtain ⟨q1, q2, q3⟩ := (hp i).mp q
      rcases hc with hc | hc
      · rw [q2] at hc; cases hc
      · omega
    · simp only [hc, if_false]
      push Not at hc
      have hf : e.1.2.2 = false := by simpa using hc.1
      have hmem : payable src.ti x now e.1.1 := (hp _).mpr ⟨hc.2, hf, le_refl _⟩
      rw [sumDays_eq src name a e.1.1 k (hk _ hmem)]
      simp only [Option.some.injEq, Bool.false_eq_true, if_false]
      apply earnedWhere_congr
      intro i _
      rw [hp i]
      constructor
      · exact fun q => ⟨q.1, hf, q.2⟩
      · exact fun q => ⟨q.1, q.2.2⟩

/-! ### Histories -/

/-- What cycles `0 .. k-1` have earned a name. -/
def earnedUpTo (src : Source) (name : Name) (k : Nat) : Nat := ((List.range k).map (earned src name)).sum

theorem earnedUpTo_mono (src : Source) (name : Name) {k k' : Nat} (h : k ≤ k') : earnedUpTo src name k ≤ earnedUpTo src name k' := by
  obtain ⟨m, rfl⟩ := Nat.exists_eq_add_of_le h
  clear h
  induction m with
  | zero => exact le_refl _
  | succ m ih =>
    rw [← Nat.add_assoc]
    refine le_trans ih ?_
    unfold earnedUpTo
    rw [List.range_succ, List.map_append, List.sum_append]
    exact Nat.le_add_right _ _

/-- Paying from cycle `a` on adds to what lies before `a`. -/
theorem earnedUpTo_add (src : Source) (name : Name) (a b k : Nat) (hk : k ≤ a) (hab : a ≤ b) :
    earnedUpTo src name k + sumDays src name (days a b) ≤ earnedUpTo src name (b + 1) := by
  have h1 : sumDays src name (days a b) = earnedWhere src name (fun i => a ≤ i ∧ i ≤ b) (b + 1) := sumDays_eq src name a b _ (by omega)
  refine le_trans (Nat.add_le_add_right (earnedUpTo_mono src name hk) _) ?_
  rw [h1]
  clear h1 hk
  have key : ∀ m, earnedUpTo src name a + earnedWhere src name (fun i => a ≤ i ∧ i ≤ b) (a + m) ≤ earnedUpTo src name (a + m) := by
    intro m
    induction m with
    | zero =>
      have : earnedWhere src name (fun i => a ≤ i ∧ i ≤ b) a = 0 := by
        rw [earnedWhere_congr src name _ (fun _ => False) a (fun i hi => by
          constructor
          · intro q; have := q.1; omega
          · exact False.elim)]
        exact earnedWhere_zero src name _ a (fun _ => id)
      simp [this]
    | succ m ih =>
      rw [← Nat.add_assoc]
      unfold earnedUpTo earnedWhere at *
      rw [List.range_succ, List.map_append, List.sum_append, List.map_append, List.sum_append]
      simp only [List.map_cons, List.map_nil, List.sum_cons, List.sum_nil] at ih ⊢
      split <;> omega
  obtain ⟨m, hm⟩ := Nat.exists_eq_add_of_le (show a ≤ b + 1 by omega)
  rw [hm]
  exact key m

/-- The calls read the same statistics, without a panic, and time does not go back. -/
def Timed (src : Source) : Int → List Call → Prop
  | _, [] => True
  | t, x :: xs => x.ctx.src = src ∧ x.ctx.panics = false ∧ t ≤ x.ctx.now ∧ Timed src x.ctx.now xs

/-- The time of the last call. -/
def lastTime : Int → List Call → Int
  | t, [] => t
  | _, x :: xs => lastTime x.ctx.now xs

/-- A name has been paid `paid`, for cycles before the ones it can still ask for. -/
def PaidOk (src : Source) (t : Int) (name : Name) (st : State) (paid : Nat) : Prop :=
  ∃ k, paid ≤ earnedUpTo src name k ∧ (∀ i, i < k → src.ti.finish i ≤ t - rewardTimeLimit) ∧
    ∀ r a, reg st snapshotGid name = some r → startIndex src.ti r.rewardTime = some a → k ≤ a

theorem rewardEnd_open {ti : TimeIndex} {x : Times} {limit : Int} (h : (rewardEnd ti x limit).2 = false) :
    (rewardEnd ti x limit).1 = endIndex ti limit := by
  unfold rewardEnd at h ⊢
  by_cases h1 : x.revokeTime ≠ 0
  · by_cases h2 : (endIndex ti x.revokeTime).2.1 ≤ limit
    · simp [h1, h2] at h
    · simp [h1, h2]
  · simp [h1]

/-- One withdrawal keeps `PaidOk`. -/
theorem paid_reward {src : Source} (hI : 0 < src.ti.interval) {t now : Int} (hle : t ≤ now) {name : Name} {x : Times} {k : Nat} {paid : Nat}
    (h1 : paid ≤ earnedUpTo src name k) (h2 : ∀ i, i < k → src.ti.finish i ≤ t - rewardTimeLimit)
    (h3 : ∀ a, startIndex src.ti x.rewardTime = some a → k ≤ a) :
    ∃ k', paid + (calcReward false src name x now).reward.getD 0 ≤ earnedUpTo src name k' ∧
      (∀ i, i < k' → src.ti.finish i ≤ now - rewardTimeLimit) ∧
      ∀ a, startIndex src.ti (newRewardTime (calcReward false src name x now)) = some a → k' ≤ a := by
  have hm1 : startIndex src.ti (-1) = none := by simp [startIndex]
  have h2' : ∀ i, i < k → src.ti.finish i ≤ now - rewardTimeLimit := fun i hi => by have := h2 i hi; omega
  unfold calcReward
  cases hs : startIndex src.ti x.rewardTime with
  | none => exact ⟨k, by simpa using h1, h2', by simp [newRewardTime, hm1]⟩
  | some a =>
    have hka := h3 a hs
    have hend := rewardEnd_spec src.ti hI x (now - rewardTimeLimit)
    have hopen := @rewardEnd_open src.ti x (now - rewardTimeLimit)
    simp only
    generalize he : rewardEnd src.ti x (now - rewardTimeLimit) = e at hend hopen
    cases hd : e.2 with
    | true =>
      by_cases hc : e.1.2.2 = true ∨ a > e.1.1
      · simp only [hc, if_true]
        exact ⟨k, by simpa using h1, h2', by simp [newRewardTime, hm1]⟩
      · simp only [hc, if_false]
        push Not at hc
        have hf : e.1.2.2 = false := by simpa using hc.1
        refine ⟨e.1.1 + 1, ?_, ?_, by simp [newRewardTime, hm1]⟩
        · have := earnedUpTo_add src name a e.1.1 k hka hc.2
          simp only [Bool.false_eq_true, if_false, Option.getD_some]
          omega
        · intro i hi
          exact ((hend i).mp ⟨hf, by omega⟩).1
    | false =>
      have heq := hopen hd
      have hspec := endIndex_spec src.ti hI (now - rewardTimeLimit)
      rw [← heq] at hspec
      cases hf : e.1.2.2 with
      | true =>
        have hk0 : k = 0 := by
          by_contra hk
          have := (hspec 0).mp (h2' 0 (by omega))
          rw [hf] at this
          cases this.1
        simp only [true_or, if_true]
        exact ⟨k, by simpa using h1, h2', by intro a' _; omega⟩
      | false =>
        have htime := endIndex_time src.ti (now - rewardTimeLimit)
        rw [← heq] at htime
        have ht := htime hf
        have hke : k ≤ e.1.1 + 1 := by
          by_contra hk
          have := (hspec (e.1.1 + 1)).mp (h2' _ (by omega))
          omega
        have hfin : ∀ i, i < e.1.1 + 1 → src.ti.finish i ≤ now - rewardTimeLimit := fun i hi => (hspec i).mpr ⟨hf, by omega⟩
        have hnew : ∀ a', startIndex src.ti e.1.2.1 = some a' → e.1.1 + 1 ≤ a' := by
          intro a' ha'
          have := (startIndex_spec src.ti hI ha' a').mp (le_refl _)
          rw [ht, finish_eq] at this
          by_contra hlt
          have := start_lt src.ti hI (show a' < e.1.1 + 1 by omega)
          omega
        by_cases hc : a > e.1.1
        · simp only [Bool.false_eq_true, hc, false_or, if_true]
          exact ⟨e.1.1 + 1, by simpa using le_trans h1 (earnedUpTo_mono src name hke), hfin, by simpa [newRewardTime] using hnew⟩
        · simp only [Bool.false_eq_true, hc, or_self, if_false]
          refine ⟨e.1.1 + 1, ?_, hfin, by simpa [newRewardTime] using hnew⟩
          have := earnedUpTo_add src name a e.1.1 k hka (by omega)
          simp only [Option.getD_some]
          omega

theorem paid_result {src : Source} (hI : 0 < src.ti.interval) {t : Int} {name : Name} {st : State} {paid : Nat} {x : Call} {res : Result}
    (hp : PaidOk src t name st paid) (hsrc : x.ctx.src = src) (hpan : x.ctx.panics = false) (hle : t ≤ x.ctx.now)
    (h : x.result st = some res) :
    PaidOk src x.ctx.now name res.st (paid + if isReward name x.method then (res.mints.map (·.2)).sum else 0) := by
  obtain ⟨k, h1, h2, h3⟩ := hp
  have h2' : ∀ i, i < k → src.ti.finish i ≤ x.ctx.now - rewardTimeLimit := fun i hi => by have := h2 i hi; omega
  -- a call that writes a registration with the same reward time, or -1
  have same : ∀ g n (old r : Reg), res.st.regs = Table.put (g, n) r st.regs → reg st g n = some old →
      (r.rewardTime = old.rewardTime ∨ r.rewardTime = -1) → isReward name x.method = false →
      PaidOk src x.ctx.now name res.st (paid + if isReward name x.method then (res.mints.map (·.2)).sum else 0) := by
    intro g n old r hput ho hrt hm
    refine ⟨k, by simp [hm, h1], h2', fun r' a hr' ha => ?_⟩
    rw [reg_put res.st _ _ r _ hput] at hr'
    by_cases hn : snapshotGid = g ∧ name = n
    · obtain ⟨rfl, rfl⟩ := hn
      simp only [and_self, if_true, Option.some.injEq] at hr'
      subst hr'
      rcases hrt with hrt | hrt
      · rw [hrt] at ha; exact h3 old a ho ha
      · rw [hrt] at ha; simp [startIndex] at ha
    · simp only [hn, if_false] at hr'
      exact h3 r' a hr' ha
  cases result_change h with
  | register gid n producing withdraw o q lock hm hp ht ha ho hc hl hr =>
    have hput : res.st.regs = Table.put (gid, n) ⟨producing, withdraw, x.sender, x.amount, x.ctx.height + lock,
              if gid = snapshotGid then x.ctx.now else 0, 0, q.2⟩ st.regs := by rw [hr]
    have hnr : isReward name x.method = false := by rcases hm with ⟨hm, _⟩ | ⟨hm, _⟩ <;> simp [hm, isReward]
    refine ⟨k, by simp [hnr, h1], h2', fun r' a hr' ha' => ?_⟩
    rw [reg_put res.st _ _ _ _ hput] at hr'
    by_cases hn : snapshotGid = gid ∧ name = n
    · obtain ⟨rfl, rfl⟩ := hn
      simp only [and_self, if_true, Option.some.injEq] at hr'
      subst hr'
      simp only at ha'
      have hst := (startIndex_spec src.ti hI ha' a).mp (le_refl _)
      by_contra hlt
      have hfin := h2' a (by omega)
      have hs2 := start_lt src.ti hI (Nat.lt_succ_self a)
      rw [finish_eq] at hfin
      unfold rewardTimeLimit at hfin
      simp only [Nat.succ_eq_add_one] at hs2
      omega
    · simp only [hn, if_false] at hr'
      exact h3 r' a hr' ha'
  | revoke gid n old hm ha ho hact how hex hr =>
    refine same gid n old _ (by rw [hr]) ho ?_ (by simp [hm, isReward])
    simp only
    by_cases hdr : drained x.ctx n old = true
    · right; simp [hdr]
    · left; simp [hdr]
  | reward n receive old hm ha ho ht how hne hr =>
    have hput := congrArg (fun r : Result => r.st.regs) hr
    simp only at hput
    have hmints : (res.mints.map (·.2)).sum = (calcReward x.ctx.panics x.ctx.src n old.times x.ctx.now).reward.getD 0 := by
      rw [hr]
      simp only
      split
      · simp
      · simp; omega
    by_cases hn : n = name
    · subst hn
      obtain ⟨k', q1, q2, q3⟩ := paid_reward hI hle (x := old.times) h1 h2 (fun a ha => h3 old a ho ha)
      refine ⟨k', ?_, q2, fun r' a hr' ha' => ?_⟩
      · have : isReward n x.method = true := by simp [hm, isReward]
        rw [this, if_pos rfl, hmints, hpan, hsrc]
        exact q1
      · rw [reg_put res.st _ _ _ _ hput] at hr'
        simp only [and_self, if_true, Option.some.injEq] at hr'
        subst hr'
        simp only at ha'
        rw [hpan, hsrc] at ha'
        exact q3 a ha'
    · have hnr : isReward name x.method = false := by simp [hm, isReward, hn]
      refine ⟨k, by simp [hnr, h1], h2', fun r' a hr' ha' => ?_⟩
      rw [reg_put res.st _ _ _ _ hput] at hr'
      have hn' : ¬ (snapshotGid = snapshotGid ∧ name = n) := fun q => hn q.2.symm
      rw [if_neg hn'] at hr'
      exact h3 r' a hr' ha'
  | noReward n receive hm ha hr =>
    subst hr
    exact ⟨k, by simpa using h1, h2', h3⟩
  | producing gid n addr old q hm hp ha ho hact how hc hr =>
    exact same gid n old _ (congrArg (fun r : Result => r.st.regs) hr) ho (.inl rfl) (by simp [hm, isReward])
  | withdraw n addr old hm hp ha ho hact how hne hr =>
    exact same snapshotGid n old _ (congrArg (fun r : Result => r.st.regs) hr) ho (.inl rfl) (by simp [hm, isReward])
  | vote gid v hm ha hact hr =>
    have hnr : isReward name x.method = false := by rcases hm with ⟨m, hm, _⟩ | ⟨hm, _⟩ <;> simp [hm, isReward]
    subst hr
    exact ⟨k, by simp [hnr, h1], h2', h3⟩

theorem paid_history {src : Source} (hI : 0 < src.ti.interval) (name : Name) : ∀ (xs : List Call) (t : Int) (st : State) (paid : Nat),
    Timed src t xs → PaidOk src t name st paid →
    PaidOk src (lastTime t xs) name (runAll st xs) (paid + rewarded name st xs)
  | [], t, st, paid, _, h => by simpa [rewarded, sumCalls, runAll, lastTime] using h
  | x :: xs, t, st, paid, ⟨h1, h2, h3, h4⟩, h => by
    have key : PaidOk src x.ctx.now name (apply st x) (paid + (x.result st).elim 0 (fun res => if isReward name x.method then (res.mints.map (·.2)).sum else 0)) := by
      cases hr : x.result st with
      | none =>
        rw [apply_none hr]
        obtain ⟨k, q1, q2, q3⟩ := h
        exact ⟨k, by simpa using q1, fun i hi => by have := q2 i hi; omega, q3⟩
      | some res =>
        rw [apply_some hr]
        exact paid_result hI h h1 h2 h3 hr
    have ih := paid_history hI name xs x.ctx.now (apply st x) _ h4 key
    have e : runAll st (x :: xs) = runAll (apply st x) xs := rfl
    rw [e]
    unfold rewarded at ih ⊢
    simp only [sumCalls, lastTime]
    rw [← Nat.add_assoc]
    exact ih

/-- **C40**: over every history in which time does not go back, a name gets at most what it earned in the cycles finished an
hour before the last call, each cycle counted once: no cycle is paid twice, whatever the withdrawals, revokes and new
registrations in between. -/
theorem cycles_paid_once {src : Source} (hI : 0 < src.ti.interval) (name : Name) (xs : List Call) (t : Int) (st : State)
    (ht : Timed src t xs) (K : Nat) (hK : ∀ i, src.ti.finish i ≤ lastTime t xs - rewardTimeLimit → i < K) :
    rewarded name st xs ≤ earnedUpTo src name K := by
  obtain ⟨k, h1, h2, _⟩ := paid_history hI name xs t st 0 ht ⟨0, Nat.zero_le _, fun i hi => absurd hi (Nat.not_lt_zero i), fun _ _ _ _ => Nat.zero_le _⟩
  have hkK : k ≤ K := by
    by_contra hc
    have := hK K (h2 K (by omega))
    omega
  simpa using le_trans h1 (earnedUpTo_mono src name hkK)

/-! ### All names together -/

/-- The statistics of a day are in order: distinct names, the votes and blocks of the names are part of the totals, and
nobody has more blocks than planned. `rewards_of_point_bounded` shows where they come from. -/
structure GoodDay (d : DayStats) : Prop where
  names : (d.stats.map (·.name)).Nodup
  votes : Reward.Spec.sumOver (·.votes) d ≤ d.voteSum
  blocks : Reward.Spec.sumOver (·.blockNum) d ≤ d.blockTotal
  planned : ∀ s ∈ d.stats, s.blockNum ≤ s.expected

theorem sum_one_le (f : Name → Nat) (m : Name) : ∀ (N : List Name), N.Nodup → (N.map (fun n => if m = n then f m else 0)).sum ≤ f m
  | [], _ => by simp
  | x :: xs, h => by
    simp only [List.nodup_cons] at h
    have ih := sum_one_le f m xs h.2
    simp only [List.map_cons, List.sum_cons]
    by_cases hx : m = x
    · subst hx
      have : (xs.map (fun n => if m = n then f m else 0)).sum = 0 := by
        have : ∀ n ∈ xs, (if m = n then f m else 0) = 0 := fun n hn => by
          have : m ≠ n := fun q => h.1 (q ▸ hn)
          simp [this]
        rw [List.map_congr_left this]
        simp
      simp [this]
    · simp [hx, ih]

theorem names_le_stats (d : DayStats) (f : Name → Nat) (hf : ∀ n, n ∉ d.stats.map (·.name) → f n = 0) (N : List Name) (hN : N.Nodup) :
    (N.map f).sum ≤ (d.stats.map (fun s => f s.name)).sum := by
  have h1 : ∀ n, f n ≤ (d.stats.map (fun s => if s.name = n then f s.name else 0)).sum := by
    intro n
    by_cases hn : n ∈ d.stats.map (·.name)
    · obtain ⟨s, hs, rfl⟩ := List.mem_map.mp hn
      clear hn hf
      generalize d.stats = l at *
      induction l with
      | nil => simp at hs
      | cons y ys ih =>
        simp only [List.map_cons, List.sum_cons]
        rcases List.mem_cons.mp hs with q | q
        · subst q; simp
        · have := ih q; omega
    · rw [hf n hn]; exact Nat.zero_le _
  refine le_trans (sum_le_sum f _ N (fun n _ => h1 n)) ?_
  clear h1 hf
  generalize d.stats = l
  induction l with
  | nil => rw [List.map_congr_left (g := fun _ => 0) (fun n _ => by simp)]; simp
  | cons y ys ih =>
    have e : (N.map (fun n => ((y :: ys).map (fun s => if s.name = n then f s.name else 0)).sum)).sum =
        (N.map (fun n => if y.name = n then f y.name else 0)).sum + (N.map (fun n => (ys.map (fun s => if s.name = n then f s.name else 0)).sum)).sum := by
      rw [← sum_add]; simp
    rw [e]
    have := sum_one_le f y.name N hN
    simp only [List.map_cons, List.sum_cons]
    omega

theorem dayReward_absent (d : DayStats) (n : Name) (stake : Nat) (h : n ∉ d.stats.map (·.name)) : dayReward d n stake = 0 := by
  unfold dayReward
  have : d.stats.find? (fun s => s.name = n) = none := by
    rw [List.find?_eq_none]
    intro s hs q
    simp only [decide_eq_true_eq] at q
    exact h (q ▸ List.mem_map_of_mem hs)
  rw [this]

theorem rewarded_split : ∀ (xs : List Call) (st : State) (N : List Name), N.Nodup →
    (∀ x ∈ xs, ∀ n, isReward n x.method = true → n ∈ N) →
    allRewarded st xs = (N.map (fun n => rewarded n st xs)).sum
  | [], st, N, _, _ => by
    have : ∀ n ∈ N, rewarded n st [] = (fun _ => 0) n := fun n _ => rfl
    rw [List.map_congr_left this]
    simp [allRewarded, sumCalls]
  | x :: xs, st, N, hN, hmem => by
    have ih := rewarded_split xs (apply st x) N hN (fun y hy => hmem y (List.mem_cons_of_mem _ hy))
    unfold allRewarded rewarded at ih ⊢
    simp only [sumCalls]
    rw [ih, sum_add]
    congr 1
    cases hr : x.result st with
    | none =>
      have : ∀ n ∈ N, (fun n => (none : Option Result).elim 0 (fun res => if isReward n x.method = true then (res.mints.map (·.2)).sum else 0)) n = (fun _ => 0) n := fun n _ => rfl
      rw [List.map_congr_left this]; simp
    | some res =>
      simp only [Option.elim_some]
      have hone : ∀ (m : Name) (v : Nat) (l : List Name), l.Nodup → m ∈ l → (l.map (fun n => if m = n then v else 0)).sum = v := by
        intro m v l
        induction l with
        | nil => simp
        | cons y ys ihl =>
          intro h1 h2
          simp only [List.nodup_cons] at h1
          simp only [List.map_cons, List.sum_cons]
          by_cases hy : m = y
          · subst hy
            have h0 : ∀ n ∈ ys, (if m = n then v else 0) = (fun _ => 0) n := fun n hn => by
              have : m ≠ n := fun q => h1.1 (q ▸ hn)
              simp [this]
            rw [List.map_congr_left h0]; simp
          · simp [hy, ihl h1.2 ((List.mem_cons.mp h2).resolve_left hy)]
      have hnon : (∀ n, isReward n x.method = false) → (res.mints.map (·.2)).sum = 0 := by
        intro hno
        cases result_change hr with
        | register gid name producing withdraw o q lock hm hp ht ha ho hc hl hr => subst hr; rfl
        | revoke gid name old hm ha ho hact how hex hr => subst hr; rfl
        | reward name receive old hm ha ho ht how hne hr => have := hno name; simp [hm, isReward] at this
        | noReward name receive hm ha hr => subst hr; rfl
        | producing gid name addr old q hm hp ha ho hact how hc hr => subst hr; rfl
        | withdraw name addr old hm hp ha ho hact how hne hr => subst hr; rfl
        | vote gid v hm ha hact hr => subst hr; rfl
      by_cases hex : ∃ m, isReward m x.method = true
      · obtain ⟨m, hm⟩ := hex
        have hiff : ∀ n, isReward n x.method = true ↔ m = n := by
          intro n
          cases hx : x.method <;> simp [hx, isReward] at hm ⊢
          subst hm
          rfl
        have h1 : ∀ n ∈ N, (if isReward n x.method = true then (res.mints.map (·.2)).sum else 0) = (fun n => if m = n then (res.mints.map (·.2)).sum else 0) n := by
          intro n _
          simp only [hiff n]
        rw [List.map_congr_left h1]
        exact (hone m _ N hN (hmem x List.mem_cons_self m hm)).symm
      · have hno : ∀ n, isReward n x.method = false := fun n => by
          cases hb : isReward n x.method with
          | false => rfl
          | true => exact absurd ⟨n, hb⟩ hex
        have h1 : ∀ n ∈ N, (if isReward n x.method = true then (res.mints.map (·.2)).sum else 0) = (fun _ => 0) n := by
          intro n _; simp [hno n]
        rw [List.map_congr_left h1, hnon hno]; simp

/-- The name a call asks the reward of. -/
def rewardName : Method → Option Name
  | .withdrawReward _ n _ => some n
  | _ => none

/-- The blocks of a cycle. -/
def blocksOf (src : Source) (i : Nat) : Nat := (src.day i).elim 0 (·.blockTotal)

/-- **C40**: over every history in which time does not go back, the rewards of all names together are at most the emission
of the blocks of the finished cycles. -/
theorem emission_bounded {src : Source} (hI : 0 < src.ti.interval) (hday : ∀ i d, src.day i = some d → GoodDay d)
    (hst : ∀ i, 0 < src.stake i) (xs : List Call) (t : Int) (st : State) (ht : Timed src t xs) (K : Nat)
    (hK : ∀ i, src.ti.finish i ≤ lastTime t xs - rewardTimeLimit → i < K) :
    allRewarded st xs ≤ ((List.range K).map (blocksOf src)).sum * rewardPerBlock := by
  let N : List Name := (xs.filterMap (fun x => rewardName x.method)).dedup
  have hN : N.Nodup := List.nodup_dedup _
  have hmem : ∀ x ∈ xs, ∀ n, isReward n x.method = true → n ∈ N := by
    intro x hx n hn
    refine List.mem_dedup.mpr (List.mem_filterMap.mpr ⟨x, hx, ?_⟩)
    cases hm : x.method <;> simp [hm, isReward] at hn
    simp [rewardName, hn]
  rw [rewarded_split xs st N hN hmem]
  refine le_trans (sum_le_sum _ (fun n => earnedUpTo src n K) N (fun n _ => cycles_paid_once hI n xs t st ht K hK)) ?_
  clear hmem hK ht
  have hone : ∀ i, (N.map (fun n => earned src n i)).sum ≤ blocksOf src i * rewardPerBlock := by
    intro i
    unfold earned blocksOf
    cases hd : src.day i with
    | none =>
      have : ∀ n ∈ N, (fun _ : Name => 0) n = (fun _ => 0) n := fun _ _ => rfl
      simp
    | some d =>
      have hg := hday i d hd
      simp only [Option.elim_some]
      refine le_trans (names_le_stats d (fun n => dayReward d n (src.stake i)) (fun n hn => dayReward_absent d n _ hn) N hN) ?_
      exact day_rewards_bounded d (src.stake i) (hst i) hg.names hg.votes hg.blocks hg.planned
  unfold earnedUpTo
  clear_value N
  induction K with
  | zero => simp
  | succ K ih =>
    have e : (N.map (fun n => ((List.range (K + 1)).map (earned src n)).sum)).sum =
        (N.map (fun n => ((List.range K).map (earned src n)).sum)).sum + (N.map (fun n => earned src n K)).sum := by
      rw [← sum_add]
      congr 1
      apply List.map_congr_left
      intro n _
      rw [List.range_succ, List.map_append, List.sum_append]; simp
    rw [e, List.range_succ, List.map_append, List.sum_append, Nat.add_mul]
    have := hone K
    simp only [List.map_cons, List.map_nil, List.sum_cons, List.sum_nil, Nat.add_zero]
    omega

end Verif.Builtin.Gov
