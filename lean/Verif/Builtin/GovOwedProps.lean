import Verif.Builtin.GovRewardProps

/-! C40, the other direction: no cycle of a registration goes unpaid. -/

namespace Verif.Builtin.Gov
open Verif.Vm Verif.Builtin.Reward Spec

theorem earnedWhere_mono (src : Source) (name : Name) (p : Nat → Prop) [DecidablePred p] {k k' : Nat} (h : k ≤ k') :
    earnedWhere src name p k ≤ earnedWhere src name p k' := by
  obtain ⟨m, rfl⟩ := Nat.exists_eq_add_of_le h
  clear h
  induction m with
  | zero => exact le_refl _
  | succ m ih =>
    rw [← Nat.add_assoc]
    refine le_trans ih ?_
    unfold earnedWhere
    rw [List.range_succ, List.map_append, List.sum_append]
    exact Nat.le_add_right _ _

theorem earnedWhere_cover (src : Source) (name : Name) (p q r : Nat → Prop) [DecidablePred p] [DecidablePred q] [DecidablePred r] (k : Nat)
    (h : ∀ i, i < k → p i → q i ∨ r i) : earnedWhere src name p k ≤ earnedWhere src name q k + earnedWhere src name r k := by
  unfold earnedWhere
  induction k with
  | zero => simp
  | succ k ih =>
    have := ih (fun i hi => h i (by omega))
    have hk := h k (by omega)
    rw [List.range_succ, List.map_append, List.sum_append, List.map_append, List.sum_append, List.map_append, List.sum_append]
    simp only [List.map_cons, List.map_nil, List.sum_cons, List.sum_nil]
    by_cases hp : p k
    · rcases hk hp with q1 | q1
      · simp only [hp, q1, if_true]; omega
      · simp only [hp, q1, if_true]; omega
    · simp only [hp, if_false]; omega

theorem earnedWhere_below (src : Source) (name : Name) (p : Nat → Prop) [DecidablePred p] (k K : Nat) :
    earnedWhere src name (fun i => p i ∧ i < k) K ≤ earnedWhere src name p k := by
  by_cases h : K ≤ k
  · rw [earnedWhere_congr src name (fun i => p i ∧ i < k) p K (fun i hi => ⟨fun q => q.1, fun q => ⟨q, by omega⟩⟩)]
    exact earnedWhere_mono src name p h
  · obtain ⟨m, rfl⟩ := Nat.exists_eq_add_of_le (show k ≤ K by omega)
    clear h
    induction m with
    | zero =>
      rw [Nat.add_zero, earnedWhere_congr src name (fun i => p i ∧ i < k) p k (fun i hi => ⟨fun q => q.1, fun q => ⟨q, by omega⟩⟩)]
    | succ m ih =>
      refine le_trans (le_of_eq ?_) ih
      rw [← Nat.add_assoc]
      unfold earnedWhere
      rw [List.range_succ, List.map_append, List.sum_append]
      simp

/-- A name that has been paid `paid` since its reward time was `t0` has not lost a cycle: cycles before `k` are paid, the
others can still be asked for. -/
def Kept (src : Source) (t0 : Int) (name : Name) (st : State) (paid : Nat) : Prop :=
  ∃ k r, reg st snapshotGid name = some r ∧ earnedWhere src name (fun i => t0 ≤ src.ti.start i) k ≤ paid ∧
    ((0 ≤ r.rewardTime ∧ r.rewardTime ≤ src.ti.start k) ∨
      (r.rewardTime = -1 ∧ r.revokeTime ≠ 0 ∧ ∀ i, src.ti.finish i ≤ r.revokeTime → i < k))

theorem startIndex_pos {ti : TimeIndex} {t : Int} (h : 0 ≤ t) : ∃ a, startIndex ti t = some a := by
  unfold startIndex
  split
  · omega
  · split <;> exact ⟨_, rfl⟩

theorem kept_start {src : Source} (hI : 0 < src.ti.interval) {name : Name} {st : State} {r : Reg} (h : reg st snapshotGid name = some r)
    (h0 : 0 ≤ r.rewardTime) : Kept src r.rewardTime name st 0 := by
  obtain ⟨a, ha⟩ := startIndex_pos (ti := src.ti) h0
  have hs := startIndex_spec src.ti hI ha
  refine ⟨a, r, h, ?_, .inl ⟨h0, (hs a).mp (le_refl _)⟩⟩
  rw [earnedWhere_congr src name _ (fun _ => False) a (fun i hi => by rw [← hs i]; simp; omega)]
  exact le_of_eq (earnedWhere_zero src name _ a (fun _ => id))

/-- A revoked registration whose reward is drained up to the time `limit` has all its cycles before it. -/
theorem rewardEnd_closed {ti : TimeIndex} (hI : 0 < ti.interval) {x : Times} {limit : Int} (h : (rewardEnd ti x limit).2 = true) :
    x.revokeTime ≠ 0 ∧ ∀ i, ti.finish i ≤ x.revokeTime → ti.finish i ≤ limit := by
  unfold rewardEnd at h
  by_cases h1 : x.revokeTime ≠ 0
  · refine ⟨h1, fun i hi => ?_⟩
    by_cases h2 : (endIndex ti x.revokeTime).2.1 ≤ limit
    · have h3 := (endIndex_spec ti hI x.revokeTime i).mp hi
      rw [endIndex_time ti _ h3.1] at h2
      have := start_mono ti (Nat.succ_le_succ h3.2)
      rw [finish_eq] at h2 ⊢
      exact le_trans this h2
    · simp [h1, h2] at h
  · simp [h1] at h

theorem rewardEnd_time {ti : TimeIndex} {x : Times} {limit : Int} :
    ((rewardEnd ti x limit).1.2.2 = false → (rewardEnd ti x limit).1.2.1 = ti.finish (rewardEnd ti x limit).1.1) ∧
    ((rewardEnd ti x limit).1.2.2 = true → (rewardEnd ti x limit).1.2.1 = ti.genesis) := by
  unfold rewardEnd
  split
  · split <;> exact ⟨endIndex_time ti _, endIndex_first ti _⟩
  · exact ⟨endIndex_time ti _, endIndex_first ti _⟩

/-- One withdrawal loses nothing. -/
theorem kept_reward {src : Source} (hI : 0 < src.ti.interval) (hg : 0 ≤ src.ti.genesis) {t0 now : Int} {name : Name} {x : Times} {k paid : Nat}
    (h1 : earnedWhere src name (fun i => t0 ≤ src.ti.start i) k ≤ paid) (h2 : 0 ≤ x.rewardTime) (h3 : x.rewardTime ≤ src.ti.start k) :
    ∃ k', earnedWhere src name (fun i => t0 ≤ src.ti.start i) k' ≤ paid + (calcReward false src name x now).reward.getD 0 ∧
      ((0 ≤ newRewardTime (calcReward false src name x now) ∧ newRewardTime (calcReward false src name x now) ≤ src.ti.start k') ∨
        (newRewardTime (calcReward false src name x now) = -1 ∧ x.revokeTime ≠ 0 ∧ ∀ i, src.ti.finish i ≤ x.revokeTime → i < k')) := by
  obtain ⟨a, ha⟩ := startIndex_pos (ti := src.ti) h2
  have hs := startIndex_spec src.ti hI ha
  have hak : a ≤ k := (hs k).mpr h3
  have hend := rewardEnd_spec src.ti hI x (now - rewardTimeLimit)
  have htime := @rewardEnd_time src.ti x (now - rewardTimeLimit)
  have hclosed := @rewardEnd_closed src.ti hI x (now - rewardTimeLimit)
  unfold calcReward
  simp only [ha]
  generalize he : rewardEnd src.ti x (now - rewardTimeLimit) = e at hend htime hclosed
  by_cases hc : e.1.2.2 = true ∨ a > e.1.1
  · simp only [hc, if_true, Option.getD_some, Nat.add_zero]
    refine ⟨k, h1, ?_⟩
    cases hd : e.2 with
    | true =>
      refine .inr ⟨by simp [newRewardTime], (hclosed hd).1, fun i hi => ?_⟩
      have := (hend i).mpr ⟨(hclosed hd).2 i hi, fun _ => hi⟩
      rcases hc with hc | hc
      · rw [this.1] at hc; cases hc
      · omega
    | false =>
      left
      simp only [newRewardTime, Bool.false_eq_true, if_false]
      cases hf : e.1.2.2 with
      | true => rw [htime.2 hf]; exact ⟨hg, genesis_le_start _ _⟩
      | false =>
        rw [htime.1 hf, finish_eq]
        have h4 : a > e.1.1 := hc.resolve_left (by simp [hf])
        have := genesis_le_start src.ti (e.1.1 + 1)
        exact ⟨by omega, start_mono _ (by omega)⟩
  · simp only [hc, if_false, Bool.false_eq_true, Option.getD_some]
    push Not at hc
    have hf : e.1.2.2 = false := by simpa using hc.1
    refine ⟨max k (e.1.1 + 1), ?_, ?_⟩
    · rw [sumDays_eq src name a e.1.1 (max k (e.1.1 + 1)) (by omega)]
      refine le_trans (earnedWhere_cover src name _ (fun i => t0 ≤ src.ti.start i ∧ i < k) (fun i => a ≤ i ∧ i ≤ e.1.1) _ ?_) ?_
      · intro i hi hp
        by_cases hik : i < k
        · exact .inl ⟨hp, hik⟩
        · exact .inr ⟨by omega, by omega⟩
      · have := earnedWhere_below src name (fun i => t0 ≤ src.ti.start i) k (max k (e.1.1 + 1))
        omega
    · cases hd : e.2 with
      | true =>
        refine .inr ⟨by simp [newRewardTime], (hclosed hd).1, fun i hi => ?_⟩
        have := (hend i).mpr ⟨(hclosed hd).2 i hi, fun _ => hi⟩
        omega
      | false =>
        left
        simp only [newRewardTime, Bool.false_eq_true, if_false]
        rw [htime.1 hf, finish_eq]
        have := genesis_le_start src.ti (e.1.1 + 1)
        exact ⟨by omega, start_mono _ (by omega)⟩

theorem active_not_drained {c : Ctx} {name : Name} {r : Reg} (h0 : 0 ≤ r.rewardTime) (ha : r.active = true) : drained c name r = false := by
  obtain ⟨a, hs⟩ := startIndex_pos (ti := c.src.ti) h0
  have hr : r.revokeTime = 0 := by simpa [Reg.active] using ha
  have he : (rewardEnd c.src.ti r.times (c.now - rewardTimeLimit)).2 = false := by simp [rewardEnd, Reg.times, hr]
  have hs' : startIndex c.src.ti r.times.rewardTime = some a := hs
  unfold drained rewardDrained calcReward
  simp only [hs']
  split
  · simp [he]
  · split
    · rfl
    · simp [he]

theorem kept_result {src : Source} (hI : 0 < src.ti.interval) (hg : 0 ≤ src.ti.genesis) {t0 : Int} {name : Name} {st : State} {paid : Nat}
    {x : Call} {res : Result} (hk : Kept src t0 name st paid) (hsrc : x.ctx.src = src) (hpan : x.ctx.panics = false)
    (hno : isRegister snapshotGid name x.method = false) (h : x.result st = some res) :
    Kept src t0 name res.st (paid + if isReward name x.method then (res.mints.map (·.2)).sum else 0) := by
  obtain ⟨k, r, h0, h1, h2⟩ := hk
  -- the registration of another name or group
  have other : ∀ g n (r' : Reg), res.st.regs = Table.put (g, n) r' st.regs → ¬ (snapshotGid = g ∧ name = n) →
      Kept src t0 name res.st (paid + if isReward name x.method then (res.mints.map (·.2)).sum else 0) := by
    intro g n r' hput hn
    refine ⟨k, r, ?_, by omega, h2⟩
    rw [reg_put res.st _ _ r' _ hput, if_neg hn]; exact h0
  -- the same times
  have same : ∀ g n (old r' : Reg), res.st.regs = Table.put (g, n) r' st.regs → reg st g n = some old →
      r'.rewardTime = old.rewardTime → r'.revokeTime = old.revokeTime →
      Kept src t0 name res.st (paid + if isReward name x.method then (res.mints.map (·.2)).sum else 0) := by
    intro g n old r' hput ho e1 e2
    by_cases hn : snapshotGid = g ∧ name = n
    · have hro : r = old := by
        obtain ⟨rfl, rfl⟩ := hn
        rw [h0] at ho; exact Option.some.inj ho
      refine ⟨k, r', ?_, by omega, ?_⟩
      · rw [reg_put res.st _ _ r' _ hput, if_pos hn]
      · rw [e1, e2, ← hro]; exact h2
    · exact other g n r' hput hn
  cases result_change h with
  | register gid n producing withdraw o q lock hm hp ht ha ho hc hl hr =>
    refine other gid n _ (congrArg (fun r : Result => r.st.regs) hr) ?_
    rintro ⟨rfl, rfl⟩
    rcases hm with ⟨hm, _⟩ | ⟨hm, _⟩ <;> simp [hm, isRegister] at hno
  | revoke gid n old hm ha ho hact how hex hr =>
    have hput := congrArg (fun r : Result => r.st.regs) hr
    simp only at hput
    by_cases hn : snapshotGid = gid ∧ name = n
    · obtain ⟨rfl, rfl⟩ := hn
      have hro : r = old := by rw [h0] at ho; exact Option.some.inj ho
      subst hro
      rcases h2 with ⟨p1, p2⟩ | ⟨_, p1, _⟩
      · rw [active_not_drained p1 hact] at hput
        have hnew := reg_put res.st _ _ _ _ hput snapshotGid name
        rw [if_pos ⟨rfl, rfl⟩] at hnew
        exact ⟨k, _, hnew, by omega, .inl ⟨p1, p2⟩⟩
      · simp [Reg.active] at hact; exact absurd hact p1
    · exact other gid n _ hput hn
  | reward n receive old hm ha ho ht how hne hr =>
    have hput := congrArg (fun r : Result => r.st.regs) hr
    simp only at hput
    by_cases hn : name = n
    · subst hn
      have hro : r = old := by rw [h0] at ho; exact Option.some.inj ho
      subst hro
      have hmints : (res.mints.map (·.2)).sum = (calcReward x.ctx.panics x.ctx.src name r.times x.ctx.now).reward.getD 0 := by
        rw [hr]
        simp only
        split
        · simp
        · simp; omega
      rcases h2 with ⟨p1, p2⟩ | ⟨p1, _⟩
      · obtain ⟨k', q1, q2⟩ := kept_reward hI hg (x := r.times) (now := x.ctx.now) h1 p1 p2
        have hir : isReward name x.method = true := by simp [hm, isReward]
        refine ⟨k', { r with rewardTime := newRewardTime (calcReward x.ctx.panics x.ctx.src name r.times x.ctx.now) }, ?_, ?_, ?_⟩
        · rw [reg_put res.st _ _ _ _ hput, if_pos ⟨rfl, rfl⟩]
        · rw [hir, if_pos rfl, hmints, hpan, hsrc]; exact q1
        · simp only [hpan, hsrc]; exact q2
      · exact absurd p1 ht
    · exact other _ n _ hput (fun q => hn q.2)
  | noReward n receive hm ha hr => subst hr; exact ⟨k, r, h0, by omega, h2⟩
  | producing gid n addr old q hm hp ha ho hact how hc hr => exact same gid n old _ (congrArg (fun r : Result => r.st.regs) hr) ho rfl rfl
  | withdraw n addr old hm hp ha ho hact how hne hr => exact same snapshotGid n old _ (congrArg (fun r : Result => r.st.regs) hr) ho rfl rfl
  | vote gid v hm ha hact hr => subst hr; exact ⟨k, r, h0, by omega, h2⟩

theorem kept_history {src : Source} (hI : 0 < src.ti.interval) (hg : 0 ≤ src.ti.genesis) (t0 : Int) (name : Name) :
    ∀ (xs : List Call) (t : Int) (st : State) (paid : Nat), Timed src t xs → (∀ x ∈ xs, isRegister snapshotGid name x.method = false) →
    Kept src t0 name st paid → Kept src t0 name (runAll st xs) (paid + rewarded name st xs)
  | [], _, st, paid, _, _, h => by simpa [rewarded, sumCalls, runAll] using h
  | x :: xs, t, st, paid, ⟨h1, h2, _, h4⟩, hno, h => by
    have key : Kept src t0 name (apply st x) (paid + (x.result st).elim 0 (fun res => if isReward name x.method then (res.mints.map (·.2)).sum else 0)) := by
      cases hr : x.result st with
      | none => rw [apply_none hr]; simpa using h
      | some res =>
        rw [apply_some hr]
        exact kept_result hI hg h h1 h2 (hno x List.mem_cons_self) hr
    have ih := kept_history hI hg t0 name xs x.ctx.now (apply st x) _ h4 (fun y hy => hno y (List.mem_cons_of_mem _ hy)) key
    have e : runAll st (x :: xs) = runAll (apply st x) xs := rfl
    rw [e]
    unfold rewarded at ih ⊢
    simp only [sumCalls]
    rw [← Nat.add_assoc]
    exact ih

/-- The cycles a registration owes its producer at a time: those that start at or after `t0`, finished an hour ago, and
before the revoke if there was one. -/
def owed (ti : TimeIndex) (t0 revokeTime now : Int) (i : Nat) : Prop :=
  t0 ≤ ti.start i ∧ ti.finish i ≤ now - rewardTimeLimit ∧ (revokeTime ≠ 0 → ti.finish i ≤ revokeTime)

instance (ti : TimeIndex) (t0 revokeTime now : Int) (i : Nat) : Decidable (owed ti t0 revokeTime now i) := by
  unfold owed; infer_instance

/-- **C40**: no cycle is lost. From the time `t0` of a registration on, over every history that does not register the name
anew, what was paid and what a withdrawal at `now` would pay (`withdrawal_pays_payable`) together cover all cycles that are
owed at `now`. -/
theorem nothing_lost {src : Source} (hI : 0 < src.ti.interval) (hg : 0 ≤ src.ti.genesis) (name : Name) (xs : List Call) (t now : Int) (st : State)
    (r : Reg) (h : reg st snapshotGid name = some r) (h0 : 0 ≤ r.rewardTime) (ht : Timed src t xs)
    (hno : ∀ x ∈ xs, isRegister snapshotGid name x.method = false) (K : Nat) :
    ∃ r', reg (runAll st xs) snapshotGid name = some r' ∧
      earnedWhere src name (owed src.ti r.rewardTime r'.revokeTime now) K ≤
        rewarded name st xs + if r'.rewardTime = -1 then 0 else earnedWhere src name (payable src.ti r'.times now) K := by
  obtain ⟨k, r', h1, h2, h3⟩ := kept_history hI hg r.rewardTime name xs t st 0 ht hno (kept_start hI h h0)
  refine ⟨r', h1, ?_⟩
  rw [Nat.zero_add] at h2
  refine le_trans ?_ (Nat.add_le_add_right h2 _)
  have hb := earnedWhere_below src name (fun i => r.rewardTime ≤ src.ti.start i) k K
  rcases h3 with ⟨p1, p2⟩ | ⟨p1, p2, p3⟩
  · have hne : ¬ r'.rewardTime = -1 := by omega
    rw [if_neg hne]
    refine le_trans (earnedWhere_cover src name _ (fun i => r.rewardTime ≤ src.ti.start i ∧ i < k) (payable src.ti r'.times now) _ ?_) (Nat.add_le_add_right hb _)
    intro i hi ho
    by_cases hik : i < k
    · exact .inl ⟨ho.1, hik⟩
    · refine .inr ⟨?_, ho.2⟩
      have := start_mono src.ti (show k ≤ i by omega)
      exact le_trans p2 this
  · rw [if_pos p1]
    refine le_trans (earnedWhere_cover src name _ (fun i => r.rewardTime ≤ src.ti.start i ∧ i < k) (fun _ => False) _ ?_) ?_
    · intro i hi ho
      exact .inl ⟨ho.1, p3 i (ho.2.2 p2)⟩
    · rw [earnedWhere_zero src name (fun _ => False) K (fun _ => id)]; omega

/-- **C40**: a name can be registered anew only when all its cycles up to the revoke have been paid. -/
theorem reregister_needs_all_paid {src : Source} (hI : 0 < src.ti.interval) (hg : 0 ≤ src.ti.genesis) (name : Name) (xs : List Call) (t : Int)
    (st : State) (r : Reg) (h : reg st snapshotGid name = some r) (h0 : 0 ≤ r.rewardTime) (ht : Timed src t xs)
    (hno : ∀ x ∈ xs, isRegister snapshotGid name x.method = false) (y : Call) (hsrc : y.ctx.src = src) (hpan : y.ctx.panics = false) (res : Result)
    (hy : y.result (runAll st xs) = some res) (hm : isRegister snapshotGid name y.method = true) (K : Nat) :
    ∃ r', reg (runAll st xs) snapshotGid name = some r' ∧ r'.active = false ∧
      earnedWhere src name (fun i => r.rewardTime ≤ src.ti.start i ∧ src.ti.finish i ≤ r'.revokeTime) K ≤ rewarded name st xs := by
  obtain ⟨k, r', h1, h2, h3⟩ := kept_history hI hg r.rewardTime name xs t st 0 ht hno (kept_start hI h h0)
  rw [Nat.zero_add] at h2
  have hb := earnedWhere_below src name (fun i => r.rewardTime ≤ src.ti.start i) k K
  have hdr : r'.active = false ∧ drained y.ctx name r' = true := by
    cases result_change hy with
    | register gid n producing withdraw o q lock hm' hp ht' ha ho hc hl hr =>
      have hgn : gid = snapshotGid ∧ n = name := by
        rcases hm' with ⟨hm', _⟩ | ⟨hm', hgid⟩
        · simpa [hm', isRegister] using hm
        · exact ⟨hgid, by simpa [hm', isRegister] using hm⟩
      obtain ⟨rfl, rfl⟩ := hgn
      rcases takeOver_his ho with ⟨q1, _⟩ | ⟨r2, q1, q2, _, q3, _⟩
      · rw [h1] at q1; cases q1
      · rw [h1] at q1
        obtain rfl := Option.some.inj q1
        exact ⟨q2, q3⟩
    | revoke gid n old hm' ha ho hact how hex hr => simp [hm', isRegister] at hm
    | reward n receive old hm' ha ho ht how hne hr => simp [hm', isRegister] at hm
    | noReward n receive hm' ha hr => simp [hm', isRegister] at hm
    | producing gid n addr old q hm' hp ha ho hact how hc hr => simp [hm', isRegister] at hm
    | withdraw n addr old hm' hp ha ho hact how hne hr => simp [hm', isRegister] at hm
    | vote gid v hm' ha hact hr => rcases hm' with ⟨m, hm', _⟩ | ⟨hm', _⟩ <;> simp [hm', isRegister] at hm
  refine ⟨r', h1, hdr.1, ?_⟩
  rcases h3 with ⟨p1, p2⟩ | ⟨p1, p2, p3⟩
  · -- drained: the reward is zero and all cycles have finished
    obtain ⟨a, ha⟩ := startIndex_pos (ti := src.ti) p1
    have ha' : startIndex src.ti r'.times.rewardTime = some a := ha
    have hd := hdr.2
    unfold drained at hd
    rw [hsrc, hpan] at hd
    have hfin : (rewardEnd src.ti r'.times (y.ctx.now - rewardTimeLimit)).2 = true := by
      unfold rewardDrained calcReward at hd
      simp only [ha', Bool.false_eq_true, if_false] at hd
      split at hd <;> simp_all
    have hpay := withdrawal_pays_payable src name r'.times y.ctx.now hI p1
    have hz : ∀ K', (∀ i, payable src.ti r'.times y.ctx.now i → i < K') → earnedWhere src name (payable src.ti r'.times y.ctx.now) K' = 0 := by
      intro K' hK'
      have := hpay K' hK'
      unfold rewardDrained at hd
      rw [this] at hd
      simpa using (Bool.and_eq_true_iff.mp hd).2
    have hcl := rewardEnd_closed hI hfin
    have hbound : ∀ i, payable src.ti r'.times y.ctx.now i → i < max K ((rewardEnd src.ti r'.times (y.ctx.now - rewardTimeLimit)).1.1 + 1) := by
      intro i hi
      have := ((rewardEnd_spec src.ti hI r'.times (y.ctx.now - rewardTimeLimit) i).mpr hi.2).2
      omega
    have hzero := hz _ hbound
    have hzK : earnedWhere src name (payable src.ti r'.times y.ctx.now) K = 0 := by
      have := earnedWhere_mono src name (payable src.ti r'.times y.ctx.now) (Nat.le_max_left K ((rewardEnd src.ti r'.times (y.ctx.now - rewardTimeLimit)).1.1 + 1))
      omega
    refine le_trans (earnedWhere_cover src name _ (fun i => r.rewardTime ≤ src.ti.start i ∧ i < k) (payable src.ti r'.times y.ctx.now) _ ?_) (by omega)
    intro i hi ho
    by_cases hik : i < k
    · exact .inl ⟨ho.1, hik⟩
    · refine .inr ⟨le_trans p2 (start_mono src.ti (show k ≤ i by omega)), hcl.2 i ho.2, fun _ => ho.2⟩
  · refine le_trans (earnedWhere_cover src name _ (fun i => r.rewardTime ≤ src.ti.start i ∧ i < k) (fun _ => False) _ ?_) ?_
    · intro i hi ho
      exact .inl ⟨ho.1, p3 i ho.2⟩
    · rw [earnedWhere_zero src name (fun _ => False) K (fun _ => id)]; omega

end Verif.Builtin.Gov
