import Verif.Dex.ExInv

/-! The jobs keep the invariant. -/

namespace Verif.Dex
open Spec

/-- What `jobOk` says. -/
theorem jobOk_iff {s : Ex} {b : Biz} {P : Nat} : s.jobOk b P = true ↔ P < s.now ∧ (s.jobs b = 0 ∨ P = s.jobs b + 1) := by
  simp [Ex.jobOk]

theorem lo_le {lo j P : Nat} (h : lo ≤ j + 1 ∧ (j = 0 → lo = 0)) (hj : j = 0 ∨ P = j + 1) : lo ≤ P := by
  rcases hj with hj | hj
  · rw [h.2 hj]; omega
  · omega

theorem jobDone_jobs (s : Ex) (b b' : Biz) (P : Nat) : (s.jobDone b P).jobs b' = if b' = b then P else s.jobs b' := rfl

theorem VxOk.done {s : Ex} (h : VxOk s) {b : Biz} {P : Nat} (hb : s.jobs b = 0 ∨ P = s.jobs b + 1) : VxOk (s.jobDone b P) := by
  obtain ⟨lo, h1, h2⟩ := h
  refine ⟨lo, h1, ?_⟩
  rw [jobDone_jobs]
  split
  · rename_i e; subst e
    have := lo_le h2 hb
    omega
  · exact h2

theorem StkOk.done {s : Ex} (h : StkOk s) {b : Biz} {P : Nat} (hb : s.jobs b = 0 ∨ P = s.jobs b + 1) : StkOk (s.jobDone b P) := by
  obtain ⟨lo, h1, h2⟩ := h
  refine ⟨lo, h1, ?_⟩
  rw [jobDone_jobs]
  split
  · rename_i e; subst e
    have := lo_le h2 hb
    omega
  · exact h2

theorem jobs_done {s : Ex} (h : ∀ b, s.jobs b < s.now) {b : Biz} {P : Nat} (hP : P < s.now) : ∀ b', (s.jobDone b P).jobs b' < s.now := by
  intro b'
  rw [jobDone_jobs]
  split
  · exact hP
  · exact h b'

/-- A job that changes none of the schedules nor the makers' pools. -/
theorem ExInv.done {mk : Nat → Option MarketInfo} {s : Ex} (I : ExInv mk s) {b : Biz} {P : Nat} (hok : s.jobOk b P = true)
    (h1 : b ≠ .finishUnlock) (h2 : b ≠ .finishCancel) (h3 : b ≠ .mineMaker) : ExInv mk (s.jobDone b P) := by
  obtain ⟨hP, hb⟩ := jobOk_iff.mp hok
  have e1 : (s.jobDone b P).jobs .finishUnlock = s.jobs .finishUnlock := by rw [jobDone_jobs, if_neg (fun e => h1 e.symm)]
  have e2 : (s.jobDone b P).jobs .finishCancel = s.jobs .finishCancel := by rw [jobDone_jobs, if_neg (fun e => h2 e.symm)]
  have e3 : (s.jobDone b P).jobs .mineMaker = s.jobs .mineMaker := by rw [jobDone_jobs, if_neg (fun e => h3 e.symm)]
  refine ⟨⟨I.books.core, I.books.fee, I.books.roll, I.books.pool, I.books.op, I.books.books⟩, I.vx.done hb, I.stk.done hb, ?_, ?_,
    ⟨I.stakes.proper, I.stakes.staked, I.stakes.owners⟩, ⟨I.maker.proper, ?_, ?_⟩, jobs_done I.jobs hP, I.vips⟩
  · rw [e1]; exact I.unlocks
  · rw [e2]; exact I.cancels
  · rw [e3]; exact I.maker.upto
  · rw [e3]; exact I.maker.empty

/-! ### Dividends -/

/-- What is in the pot of a token. -/
def potOf (s : Ex) (P t : Nat) : Nat := (Table.get t (s.potsOf P)).getD 0

theorem potOf_eq (s : Ex) (P t : Nat) : potOf s P t = recParts t (notDivided s.fees P) := by
  have := (allPots_spec t (notDivided s.fees P) [] (by simp [Table.Proper])).2
  unfold potOf Ex.potsOf
  rw [this]; simp [Table.get]

theorem potsOf_proper (s : Ex) (P : Nat) : Table.Proper (s.potsOf P) := (allPots_spec 0 (notDivided s.fees P) [] (by simp [Table.Proper])).1

theorem leftOf_new (t : Nat) : ∀ m : Table Nat Nat, Table.Proper m → leftOf t (m.map (fun x => Pot.new x.1 x.2)) = (Table.get t m).getD 0
  | [], _ => rfl
  | (u, n) :: m, hp => by
    obtain ⟨h1, h2⟩ := proper_cons.mp hp
    have ih := leftOf_new t m h2
    simp only [leftOf, List.map_cons, List.sum_cons, Pot.new] at ih ⊢
    by_cases e : u = t
    · subst e
      have : Table.get u m = none := Table.get_none h1
      rw [this] at ih
      simp only [if_true, Table.get, Option.getD_some]
      simp only [Option.getD_none] at ih
      omega
    · simp only [e, if_false, Table.get]; omega

/-- What is left for the holders: everything but VITE, which is burnt. -/
theorem leftOf_fresh (s : Ex) (P t : Nat) :
    leftOf t (freshPots (s.potsOf P)) = if t = viteToken then 0 else potOf s P t := by
  have hp := potsOf_proper s P
  unfold freshPots
  by_cases h0 : burnt (s.potsOf P) = 0
  · rw [if_pos h0, leftOf_new t _ hp]
    split
    · rename_i e; rw [e]; exact h0
    · rfl
  · rw [if_neg h0, leftOf_new t _ (Table.proper_del _ hp)]
    split
    · rename_i e; rw [e, Table.get_del_self _ hp]; rfl
    · rename_i e; rw [Table.get_del_ne e]; rfl

theorem fresh_new (s : Ex) (P : Nat) : ∀ q ∈ freshPots (s.potsOf P), q.done = false ∧ q.divided = 0 ∧ q.left = q.pool := by
  intro q hq
  unfold freshPots at hq
  obtain ⟨x, -, rfl⟩ := List.mem_map.mp hq
  exact ⟨rfl, rfl, rfl⟩

theorem fresh_nodup (s : Ex) (P : Nat) : ((freshPots (s.potsOf P)).map (·.token)).Nodup := by
  unfold freshPots
  rw [List.map_map]
  have : ((fun q : Pot => q.token) ∘ fun x : Nat × Nat => Pot.new x.1 x.2) = Prod.fst := rfl
  rw [this]
  split
  · exact potsOf_proper s P
  · exact Table.proper_del _ (potsOf_proper s P)

theorem leftOf_zero {pots : List Pot} (h : ∀ q ∈ pots, q.done = true ∧ q.left = 0) (t : Nat) : leftOf t pots = 0 := by
  unfold leftOf
  apply List.sum_eq_zero
  intro x hx
  obtain ⟨q, hq, rfl⟩ := List.mem_map.mp hx
  rw [(h q hq).2]; split <;> rfl

theorem goods {thr n lo : Nat} {t : Table Nat Hist} {sum : Hist} {amt : Nat → Nat} {past : Nat → Nat → Nat} (I : ShareInv thr n lo t sum amt past) :
    ∀ x ∈ t, Good n x.2 := by
  intro x hx
  have := I.good x.1
  unfold histOf at this
  rw [Table.mem_get I.proper (v := x.2) hx] at this
  exact this

/-- The payments of a dividend use up every pot. -/
theorem dividend_paid {mk : Nat → Option MarketInfo} {s : Ex} (I : ExInv mk s) {P total : Nat} {sum' : Hist} (hok : s.jobOk .dividend P = true)
    (hm : matchByPeriod s.vxSum P = some (total, sum')) (t : Nat) :
    paidOf t (divide vxDividendThreshold P total s.vx (freshPots (s.potsOf P))).2.2 = if t = viteToken then 0 else potOf s P t := by
  obtain ⟨hP, hb⟩ := jobOk_iff.mp hok
  obtain ⟨lo, hv, hlo⟩ := I.vx
  obtain ⟨e1, e2, -⟩ := matchByPeriod_some hv.goodSum hm
  have hsum := hv.sum P (lo_le hlo hb)
  have hc := divide_conserves vxDividendThreshold P total t s.vx (freshPots (s.potsOf P))
  have he := divide_exhausts vxDividendThreshold P total s.now s.vx (goods hv) (freshPots (s.potsOf P)) (by
    intro q hq
    obtain ⟨q1, q2, -⟩ := fresh_new s P q hq
    right
    refine ⟨q1, ?_, ?_⟩ <;> omega)
  rw [leftOf_zero he, leftOf_fresh] at hc
  omega

/-- When there is something to divide and somebody to divide it among. -/
theorem dividend_eq {s : Ex} {P total : Nat} {sum' : Hist} (hne : notDivided s.fees P ≠ []) (hm : matchByPeriod s.vxSum P = some (total, sum')) :
    s.dividend P = { s with
        fees := (notDivided s.fees P).foldl markDivided s.fees
        vx := (divide vxDividendThreshold P total s.vx (freshPots (s.potsOf P))).1, vxSum := sum'
        sent := bump s.sent viteToken (burnt (s.potsOf P))
        core := { s.core with
          funds := payAll s.core.funds (divide vxDividendThreshold P total s.vx (freshPots (s.potsOf P))).2.2
          withdrawn := bump s.core.withdrawn viteToken (burnt (s.potsOf P))
          dividendPool := fun t => s.core.dividendPool t - (Table.get t (s.potsOf P)).getD 0 } } := by
  unfold Ex.dividend
  rw [if_neg hne]
  simp only [hm]

/-- Records begin at period 1. -/
theorem match_pos {n P x : Nat} {h h' : Hist} (g : Good n h) (hm : matchByPeriod h P = some (x, h')) : P ≠ 0 := by
  intro h0
  obtain ⟨e1, e2, -⟩ := matchByPeriod_some g hm
  have : recorded h 0 = 0 := by
    unfold recorded
    rw [List.filter_eq_nil_iff.mpr]
    · rfl
    · intro e he
      have := (g.upto e he).1
      simp only [decide_eq_true_eq]; omega
  rw [h0] at e1; omega

theorem dividend_inv {mk : Nat → Option MarketInfo} {s : Ex} (I : ExInv mk s) {P : Nat} (hok : s.jobOk .dividend P = true) :
    ExInv mk ((s.dividend P).jobDone .dividend P) := by
  obtain ⟨hP, hb⟩ := jobOk_iff.mp hok
  by_cases hne : notDivided s.fees P = []
  · have : s.dividend P = s := by unfold Ex.dividend; rw [if_pos hne]
    rw [this]; exact I.done hok (by simp) (by simp) (by simp)
  · rcases hm : matchByPeriod s.vxSum P with _ | ⟨total, sum'⟩
    · have : s.dividend P = s := by unfold Ex.dividend; rw [if_neg hne]; simp only [hm]
      rw [this]; exact I.done hok (by simp) (by simp) (by simp)
    · rw [dividend_eq hne hm]
      have hpaid := dividend_paid I hok hm
      obtain ⟨lo, hv, hlo⟩ := I.vx
      obtain ⟨nw, ol, hfee⟩ := I.books.fee
      obtain ⟨⟨nw', ol', f1⟩, f2, -⟩ := hfee.divided hP
      have hpot : ∀ t, potOf s P t ≤ s.core.dividendPool t := by
        intro t; rw [potOf_eq, ← I.books.pool t]; have := f2 t; omega
      have S := payAll_same (divide vxDividendThreshold P total s.vx (freshPots (s.potsOf P))).2.2 s.core.funds
      have M := payAll_moves (divide vxDividendThreshold P total s.vx (freshPots (s.potsOf P))).2.2 s.core.funds
      generalize hr : divide vxDividendThreshold P total s.vx (freshPots (s.potsOf P)) = r at *
      have B : Books mk { s with
          fees := (notDivided s.fees P).foldl markDivided s.fees
          sent := bump s.sent viteToken (burnt (s.potsOf P))
          core := { s.core with
            funds := payAll s.core.funds r.2.2
            withdrawn := bump s.core.withdrawn viteToken (burnt (s.potsOf P))
            dividendPool := fun t => s.core.dividendPool t - (Table.get t (s.potsOf P)).getD 0 } } := by
        refine ⟨?_, ⟨nw', ol', f1⟩, I.books.roll, ?_, I.books.op, ?_⟩
        · refine I.books.core.moves (op := s.core.operatorPool) (de := s.core.deposited) M ?_
          intro t
          have h1 := hpot t
          have h2 := hpaid t
          rw [h2, bump_apply]
          show _ = s.core.deposited t + (if t = viteToken then 0 else potOf s P t) + (s.core.dividendPool t - potOf s P t) + s.core.operatorPool t + _
          by_cases ht : t = viteToken
          · have : burnt (s.potsOf P) = potOf s P t := by rw [ht]; rfl
            rw [if_pos ht, if_pos ht, this]; omega
          · rw [if_neg ht, if_neg ht]; omega
        · intro t
          have h1 := f2 t
          rw [I.books.pool] at h1
          show feesHeld s.now t ((notDivided s.fees P).foldl markDivided s.fees) = s.core.dividendPool t - potOf s P t
          rw [potOf_eq]; omega
        · intro t
          have := I.books.books t
          simp only [bump_apply, Ex.makerSum] at this ⊢
          omega
      have J := I.same (c := { s.core with
            funds := payAll s.core.funds r.2.2
            withdrawn := bump s.core.withdrawn viteToken (burnt (s.potsOf P))
            dividendPool := fun t => s.core.dividendPool t - (Table.get t (s.potsOf P)).getD 0 })
          (lr := s.lastRoll) (ops := s.opFees) (rc := s.received) (vp := s.vxPool) S B
      refine ⟨⟨J.books.core, J.books.fee, J.books.roll, J.books.pool, J.books.op, J.books.books⟩, ?_, J.stk, J.unlocks, J.cancels,
        ⟨J.stakes.proper, J.stakes.staked, J.stakes.owners⟩, ⟨J.maker.proper, J.maker.upto, J.maker.empty⟩, jobs_done I.jobs hP, J.vips⟩
      have hT := divide_trims vxDividendThreshold P total s.now s.vx hv.proper (goods hv) (freshPots (s.potsOf P))
      rw [hr] at hT
      have hv' := hv.trim (lo_le hlo hb) hP hm hT
      have hP0 := match_pos hv.goodSum hm
      refine ⟨P + 1, ?_, ?_⟩
      · have : s.vxOf = fun a => (getAcct a vxToken (payAll s.core.funds r.2.2)).vxLocked := funext fun a => (S.vx a vxToken).symm
        show ShareInv _ _ _ _ _ (fun a => (getAcct a vxToken (payAll s.core.funds r.2.2)).vxLocked) _
        rw [← this]; exact hv'
      · rw [jobDone_jobs, if_pos rfl]
        exact ⟨le_refl _, fun h => absurd h hP0⟩

/-! ### Operators -/

theorem opSum_split (t P : Nat) : ∀ l : List OpFee,
    opSum t (l.filter (fun x => decide (x.period = P))) + opSum t (l.filter (fun x => decide (x.period ≠ P))) = opSum t l
  | [] => rfl
  | x :: l => by
    have ih := opSum_split t P l
    unfold opSum at ih ⊢
    by_cases h : x.period = P
    · simp only [List.filter_cons, h, decide_true, if_true, ne_eq, not_true_eq_false, decide_false, Bool.false_eq_true, if_false, List.map_cons,
        List.sum_cons] at ih ⊢
      omega
    · simp only [List.filter_cons, h, decide_false, Bool.false_eq_true, if_false, ne_eq, not_false_eq_true, decide_true, if_true, List.map_cons,
        List.sum_cons] at ih ⊢
      omega

theorem paidOf_opPays (t P : Nat) (l : List OpFee) : paidOf t (opPays P l) = opSum t (l.filter (fun x => decide (x.period = P))) := by
  unfold paidOf opPays opSum
  rw [List.map_map]; rfl

theorem payOperators_inv {mk : Nat → Option MarketInfo} {s : Ex} (I : ExInv mk s) (P : Nat) : ExInv mk (s.payOperators P) := by
  have S := payAll_same (opPays P s.opFees) s.core.funds
  have M := payAll_moves (opPays P s.opFees) s.core.funds
  refine I.same (c := { s.core with
      funds := payAll s.core.funds (opPays P s.opFees)
      operatorPool := fun t => s.core.operatorPool t - opSum t (s.opFees.filter (fun x => decide (x.period = P))) })
    (fees := s.fees) (lr := s.lastRoll) (rc := s.received) (se := s.sent) (vp := s.vxPool) S ?_
  refine ⟨?_, I.books.fee, I.books.roll, I.books.pool, ?_, I.books.books⟩
  · refine I.books.core.moves (dp := s.core.dividendPool) (de := s.core.deposited) (wi := s.core.withdrawn) M ?_
    intro t
    have h1 := opSum_split t P s.opFees
    have h2 := I.books.op t
    rw [paidOf_opPays]; omega
  · intro t
    have h1 := opSum_split t P s.opFees
    have h2 := I.books.op t
    show opSum t (s.opFees.filter (fun x => decide (x.period ≠ P))) =
      s.core.operatorPool t - opSum t (s.opFees.filter (fun x => decide (x.period = P)))
    omega

/-! ### Mining -/

/-- After the job counter is set and the payments are made. -/
theorem mined_done {mk : Nat → Option MarketInfo} {s : Ex} {l : List (Nat × Nat)} {b : Biz} {P : Nat}
    (O : Owing mk (paidSum l + 0) (s.jobDone b P)) : ∃ s', s.mineTo l = some s' ∧ ExInv mk (s'.jobDone b P) ∧ PaysAll s s' (fun a => gets a l) := by
  obtain ⟨s', e, O', PA⟩ := mineTo_spec (M := s.maker) (J := (s.jobDone b P).jobs) l O
  refine ⟨s', e, ?_, PA⟩
  have h : s'.over s.maker (s.jobDone b P).jobs = s'.jobDone b P := by rw [PA.rest]; rfl
  rw [h] at O'
  exact O'.zero

/-- What a mining job for stakes does when there is something to mine and somebody who staked. -/
theorem mineStaking_run {mk : Nat → Option MarketInfo} {s : Ex} (I : ExInv mk s) {P want total : Nat} {sum' : Hist}
    (hok : s.jobOk .mineStaking P = true) (hpool : s.vxPool ≠ 0) (hm : matchByPeriod s.stkSum P = some (total, sum')) :
    ∃ s1, s.mineStaking P want = some s1 ∧ ExInv mk (s1.jobDone .mineStaking P) ∧
      s1.vxPool = (amountToMine want s.vxPool).2 +
        potsLeft (divide miningThreshold P total s.stk [Pot.new vxToken (amountToMine want s.vxPool).1]).2.1 ∧
      ∀ a, s1.vxOf a + free s1 a vxToken = s.vxOf a + free s a vxToken +
        gets a ((divide miningThreshold P total s.stk [Pot.new vxToken (amountToMine want s.vxPool).1]).2.2.map (fun x => (x.1, x.2.2))) := by
  obtain ⟨hP, hb⟩ := jobOk_iff.mp hok
  unfold Ex.mineStaking
  rw [if_neg hpool]
  simp only [hm]
  have hdt := divide_total miningThreshold P total s.stk [Pot.new vxToken (amountToMine want s.vxPool).1]
  have ham := amountToMine_sum want s.vxPool
  obtain ⟨lo, hv, hlo⟩ := I.stk
  have hT := divide_trims miningThreshold P total s.now s.stk hv.proper (goods hv) [Pot.new vxToken (amountToMine want s.vxPool).1]
  generalize hr : divide miningThreshold P total s.stk [Pot.new vxToken (amountToMine want s.vxPool).1] = r at *
  have hv' := hv.trim (lo_le hlo hb) hP hm hT
  have hP0 := match_pos hv.goodSum hm
  have hps : paidSum (r.2.2.map (fun x => (x.1, x.2.2))) = (r.2.2.map (·.2.2)).sum := by
    unfold paidSum; rw [List.map_map]; rfl
  have hl : potsLeft [Pot.new vxToken (amountToMine want s.vxPool).1] = (amountToMine want s.vxPool).1 := by
    simp [potsLeft, Pot.new]
  have K := I.done hok (by simp) (by simp) (by simp)
  have O : Owing mk (paidSum (r.2.2.map (fun x => (x.1, x.2.2))) + 0) (Ex.jobDone { s with
      stk := r.1, stkSum := sum', vxPool := (amountToMine want s.vxPool).2 + (r.2.1.map Pot.left).sum } .mineStaking P) := by
    refine ⟨?_⟩
    have hvp : (amountToMine want s.vxPool).2 + (r.2.1.map Pot.left).sum + (paidSum (r.2.2.map (fun x => (x.1, x.2.2))) + 0) = s.vxPool := by
      rw [hps]
      have : potsLeft r.2.1 = (r.2.1.map Pot.left).sum := rfl
      omega
    show ExInv mk (Ex.jobDone { s with stk := r.1, stkSum := sum', vxPool := (amountToMine want s.vxPool).2 + (r.2.1.map Pot.left).sum + (paidSum (r.2.2.map (fun x => (x.1, x.2.2))) + 0) } .mineStaking P)
    rw [hvp]
    refine ⟨⟨K.books.core, K.books.fee, K.books.roll, K.books.pool, K.books.op, K.books.books⟩, K.vx, ?_, K.unlocks, K.cancels,
      ⟨K.stakes.proper, K.stakes.staked, K.stakes.owners⟩, ⟨K.maker.proper, K.maker.upto, K.maker.empty⟩, K.jobs, K.vips⟩
    refine ⟨P + 1, hv', ?_⟩
    rw [jobDone_jobs, if_pos rfl]
    exact ⟨le_refl _, fun h => absurd h hP0⟩
  obtain ⟨s1, e, J, PA⟩ := mined_done O
  refine ⟨s1, e, J, ?_, ?_⟩
  · rw [PA.rest]; rfl
  · intro a; exact PA.get a

theorem mineStaking_inv {mk : Nat → Option MarketInfo} {s s' : Ex} (I : ExInv mk s) {P want : Nat} (hok : s.jobOk .mineStaking P = true)
    (h : s.mineStaking P want = some s') : ExInv mk (s'.jobDone .mineStaking P) := by
  by_cases hpool : s.vxPool = 0
  · unfold Ex.mineStaking at h; rw [if_pos hpool] at h; simp at h
  · rcases hm : matchByPeriod s.stkSum P with _ | ⟨total, sum'⟩
    · unfold Ex.mineStaking at h
      rw [if_neg hpool] at h
      simp only [hm] at h
      rw [← Option.some.inj h]
      exact I.done hok (by simp) (by simp) (by simp)
    · obtain ⟨s1, e, J, -⟩ := mineStaking_run I hok hpool hm (want := want)
      rw [e] at h
      rw [← Option.some.inj h]; exact J

theorem mineFee_inv {mk : Nat → Option MarketInfo} {s s' : Ex} (I : ExInv mk s) {P want total r0 : Nat} {rates : List Nat}
    {users : List (Nat × List (Nat × Nat × Nat × Nat))} (hok : s.jobOk .mineFee P = true)
    (h : s.mineFee P want total r0 rates users = some s') : ExInv mk (s'.jobDone .mineFee P) := by
  have K := I.done hok (by simp) (by simp) (by simp)
  unfold Ex.mineFee at h
  split at h
  · simp at h
  · split at h
    · rw [← Option.some.inj h]; exact K
    · simp only at h
      have ham := amountsForItems_sum want s.vxPool total r0 rates
      generalize amountsForItems want s.vxPool total r0 rates = am at *
      have hmf := mineForFees_left users ((am.1 :: am.2.1).zipIdx.map (fun x => Pot.new x.2 x.1))
      rw [potsLeft_new, List.sum_cons] at hmf
      generalize mineForFees users ((am.1 :: am.2.1).zipIdx.map (fun x => Pot.new x.2 x.1)) = r at *
      obtain ⟨nw, ol, hfee⟩ := I.books.fee
      obtain ⟨f1, f2⟩ := hfee.mined (P + 1) P
      have O : Owing mk (paidSum r.2 + 0) (Ex.jobDone { s with
          fees := markMined (P + 1) P s.fees, vxPool := am.2.2 + (r.1.map Pot.left).sum } .mineFee P) := by
        refine ⟨?_⟩
        have hvp : am.2.2 + (r.1.map Pot.left).sum + (paidSum r.2 + 0) = s.vxPool := by
          have : potsLeft r.1 = (r.1.map Pot.left).sum := rfl
          omega
        show ExInv mk (Ex.jobDone { s with fees := markMined (P + 1) P s.fees, vxPool := am.2.2 + (r.1.map Pot.left).sum + (paidSum r.2 + 0) } .mineFee P)
        rw [hvp]
        exact ⟨⟨K.books.core, ⟨nw, ol, f1⟩, K.books.roll, fun t => (f2 t).trans (I.books.pool t), K.books.op, K.books.books⟩, K.vx, K.stk, K.unlocks, K.cancels,
          ⟨K.stakes.proper, K.stakes.staked, K.stakes.owners⟩, ⟨K.maker.proper, K.maker.upto, K.maker.empty⟩, K.jobs, K.vips⟩
      obtain ⟨s1, e, J, -⟩ := mined_done O
      rw [e] at h
      rw [← Option.some.inj h]; exact J

theorem mineMaker_inv {mk : Nat → Option MarketInfo} {s s' : Ex} (I : ExInv mk s) {P want total r0 r1 m : Nat} (hok : s.jobOk .mineMaker P = true)
    (hP1 : 1 ≤ P) (h : s.mineMaker P want total r0 r1 m = some s') : ExInv mk (s'.jobDone .mineMaker P) := by
  obtain ⟨hP, hb⟩ := jobOk_iff.mp hok
  unfold Ex.mineMaker at h
  split at h
  · simp at h
  · simp only at h
    have ham := amountsForItems_sum want s.vxPool total r0 [r1]
    generalize amountsForItems want s.vxPool total r0 [r1] = am at *
    have hnone : Table.get P s.maker = none := by
      rcases hb with hb | hb
      · rw [I.maker.empty hb]; rfl
      · cases hg : Table.get P s.maker with
        | none => rfl
        | some v =>
          have := I.maker.upto _ (Table.get_mem hg)
          simp only at this; omega
    have hps : paidSum (am.2.1.map (fun x => (m, x))) = am.2.1.sum := by
      unfold paidSum; rw [List.map_map]
      have : ((fun x : Nat × Nat => x.2) ∘ fun x => (m, x)) = id := rfl
      rw [this, List.map_id]
    have hM : Table.Proper (if am.1 = 0 then s.maker else Table.put P am.1 s.maker) ∧
        Table.total (fun _ n => n) (if am.1 = 0 then s.maker else Table.put P am.1 s.maker) = s.makerSum + am.1 ∧
        ∀ x ∈ (if am.1 = 0 then s.maker else Table.put P am.1 s.maker), x.1 ≤ P := by
      have hle : ∀ x ∈ s.maker, x.1 ≤ P := by
        intro x hx
        rcases hb with hb | hb
        · rw [I.maker.empty hb] at hx; simp at hx
        · have := I.maker.upto x hx; omega
      split
      · rename_i h0; exact ⟨I.maker.proper, by rw [h0]; rfl, hle⟩
      · refine ⟨Table.proper_put _ _ I.maker.proper, ?_, ?_⟩
        · have := Table.total_put (fun _ n : Nat => n) P am.1 s.maker
          rw [hnone] at this; simpa [Ex.makerSum] using this
        · intro x hx
          rcases table_mem_put hx with rfl | hx
          · exact le_refl _
          · exact hle x hx
    generalize (if am.1 = 0 then s.maker else Table.put P am.1 s.maker) = M at *
    have O : Owing mk (paidSum (am.2.1.map (fun x => (m, x))) + 0) (Ex.jobDone { s with vxPool := am.2.2, maker := M } .mineMaker P) := by
      refine ⟨?_⟩
      show ExInv mk (Ex.jobDone { s with vxPool := am.2.2 + (paidSum (am.2.1.map (fun x => (m, x))) + 0), maker := M } .mineMaker P)
      have B := I.books.makers (M := M) (vp := am.2.2 + (paidSum (am.2.1.map (fun x => (m, x))) + 0)) (J := (s.jobDone .mineMaker P).jobs)
        (by rw [hps, hM.2.1]; omega)
      have hne : (s.jobDone .mineMaker P).jobs .mineMaker = P := by rw [jobDone_jobs, if_pos rfl]
      refine ⟨⟨B.core, B.fee, B.roll, B.pool, B.op, B.books⟩, I.vx.done hb, I.stk.done hb, I.unlocks, I.cancels,
        ⟨I.stakes.proper, I.stakes.staked, I.stakes.owners⟩, ⟨hM.1, ?_, ?_⟩, jobs_done I.jobs hP, I.vips⟩
      · intro x hx
        show x.1 ≤ (s.jobDone .mineMaker P).jobs .mineMaker
        rw [hne]; exact hM.2.2 x hx
      · intro h0
        have : P = 0 := by rw [← hne]; exact h0
        omega
    obtain ⟨s1, e, J, -⟩ := mined_done O
    rw [e] at h
    rw [← Option.some.inj h]; exact J

/-! ### Releases -/

/-- What a finish job for unlocked VX does. -/
theorem finishUnlock_spec {mk : Nat → Option MarketInfo} {s : Ex} (I : ExInv mk s) {P : Nat} (hok : s.jobOk .finishUnlock P = true) :
    ∃ s', s.finishUnlock P = some s' ∧ ExInv mk (s'.jobDone .finishUnlock P) ∧
      s' = { s with unlocks := s'.unlocks, core := { s.core with funds := s'.core.funds } } ∧
      ∀ a t, getAcct a t s'.core.funds = if t = vxToken then relVx (dueSum P (histOf a s.unlocks)) (getAcct a vxToken s.core.funds)
        else getAcct a t s.core.funds := by
  obtain ⟨hP, hb⟩ := jobOk_iff.mp hok
  obtain ⟨t', fs', e, r1, r2, r3, r4, r5, r6⟩ := releaseAll_spec releases_vx P s.unlocks s.core.funds I.unlocks.proper I.unlocks.asc
    (fun a => le_of_eq (I.unlocks.col a).symm)
  unfold Ex.finishUnlock
  rw [e]
  refine ⟨_, rfl, ?_, rfl, r5⟩
  have B := I.books.funds r4 (un := t') (log := s.unlockLog)
  refine ⟨⟨B.core, B.fee, B.roll, B.pool, B.op, B.books⟩, ?_, I.stk.done hb, ?_, I.cancels.amt ?_,
    ⟨I.stakes.proper, I.stakes.staked, fun x hx => ⟨r6 _ _ (I.stakes.owners x hx).1, (I.stakes.owners x hx).2⟩⟩, ⟨I.maker.proper, I.maker.upto, I.maker.empty⟩, jobs_done I.jobs hP, I.vips⟩
  · obtain ⟨lo, h, h'⟩ := I.vx
    refine ⟨lo, ?_, h'⟩
    have : s.vxOf = fun a => (getAcct a vxToken fs').vxLocked := by
      funext a; rw [r5, if_pos rfl]; rfl
    show ShareInv _ _ _ _ _ (fun a => (getAcct a vxToken fs').vxLocked) _
    rw [← this]; exact h
  · show SchedInv _ ((Ex.jobDone _ .finishUnlock P).jobs .finishUnlock) _ _ _
    rw [jobDone_jobs, if_pos rfl]
    refine I.unlocks.release (by omega) r1 r2 r3 ?_
    intro a
    show (getAcct a vxToken fs').vxUnlocking = _
    rw [r5, if_pos rfl]; rfl
  · intro a
    show (getAcct a viteToken fs').cancellingStake = _
    rw [r5, if_neg (by decide)]; rfl

/-- What a finish job for cancelled stakes does. -/
theorem finishCancels_spec {mk : Nat → Option MarketInfo} {s : Ex} (I : ExInv mk s) {P : Nat} (hok : s.jobOk .finishCancel P = true) :
    ∃ s', s.finishCancels P = some s' ∧ ExInv mk (s'.jobDone .finishCancel P) ∧
      s' = { s with cancels := s'.cancels, core := { s.core with funds := s'.core.funds } } ∧
      ∀ a t, getAcct a t s'.core.funds = if t = viteToken then relStake (dueSum P (histOf a s.cancels)) (getAcct a viteToken s.core.funds)
        else getAcct a t s.core.funds := by
  obtain ⟨hP, hb⟩ := jobOk_iff.mp hok
  obtain ⟨t', fs', e, r1, r2, r3, r4, r5, r6⟩ := releaseAll_spec releases_stake P s.cancels s.core.funds I.cancels.proper I.cancels.asc
    (fun a => le_of_eq (I.cancels.col a).symm)
  unfold Ex.finishCancels
  rw [e]
  refine ⟨_, rfl, ?_, rfl, r5⟩
  have B := I.books.funds r4 (un := s.unlocks) (log := s.unlockLog)
  refine ⟨⟨B.core, B.fee, B.roll, B.pool, B.op, B.books⟩, ?_, I.stk.done hb, I.unlocks.amt ?_, ?_,
    ⟨I.stakes.proper, I.stakes.staked, fun x hx => ⟨r6 _ _ (I.stakes.owners x hx).1, (I.stakes.owners x hx).2⟩⟩, ⟨I.maker.proper, I.maker.upto, I.maker.empty⟩, jobs_done I.jobs hP, I.vips⟩
  · obtain ⟨lo, h, h'⟩ := I.vx
    refine ⟨lo, ?_, h'⟩
    have : s.vxOf = fun a => (getAcct a vxToken fs').vxLocked := by
      funext a; rw [r5, if_neg (by decide)]; rfl
    show ShareInv _ _ _ _ _ (fun a => (getAcct a vxToken fs').vxLocked) _
    rw [← this]; exact h
  · intro a
    show (getAcct a vxToken fs').vxUnlocking = _
    rw [r5, if_neg (by decide)]; rfl
  · show SchedInv _ ((Ex.jobDone _ .finishCancel P).jobs .finishCancel) _ _ _
    rw [jobDone_jobs, if_pos rfl]
    refine I.cancels.release (by omega) r1 r2 r3 ?_
    intro a
    show (getAcct a viteToken fs').cancellingStake = _
    rw [r5, if_pos rfl]; rfl

/-! ### Every step -/

theorem job_inv {f : Forks} {mk : Nat → Option MarketInfo} {s : Ex} (I : ExInv mk s) (j : Job) (P : Nat) (ha : Allowed f (.job j P)) :
    ExInv mk (s.job j P) := by
  unfold Ex.job
  split
  · rename_i hok
    cases j with
    | dividend => exact dividend_inv I hok
    | operator => exact (payOperators_inv I P).done hok (by simp [Job.biz]) (by simp [Job.biz]) (by simp [Job.biz])
    | mineFee want total r0 rates users =>
      simp only [Ex.work]
      cases h : s.mineFee P want total r0 rates users with
      | none => exact I
      | some s' => exact mineFee_inv I hok h
    | mineStaking want =>
      simp only [Ex.work]
      cases h : s.mineStaking P want with
      | none => exact I
      | some s' => exact mineStaking_inv I hok h
    | mineMaker want total r0 r1 m =>
      simp only [Ex.work]
      cases h : s.mineMaker P want total r0 r1 m with
      | none => exact I
      | some s' => exact mineMaker_inv I hok ha h
    | finishUnlock =>
      obtain ⟨s', e, J, -⟩ := finishUnlock_spec I hok
      simp only [Ex.work, e]; exact J
    | finishCancel =>
      obtain ⟨s', e, J, -⟩ := finishCancels_spec I hok
      simp only [Ex.work, e]; exact J
  · exact I

theorem exStep_inv {f : Forks} (hf : f.dexFee = true) {mk : Nat → Option MarketInfo} (hmk : MarketsOk mk) {s : Ex} (I : ExInv mk s)
    (op : ExOp) (ha : Allowed f op) : ExInv mk (s.step f mk op) := by
  cases op with
  | core owner op => exact coreStep_inv hf hmk I owner op ha
  | tick n => exact tick_inv I n
  | lockVx a n => exact lockVx_inv I a n
  | unlockVx a n => exact unlockVx_inv I a n
  | setAuto a b =>
    exact ⟨⟨I.books.core, I.books.fee, I.books.roll, I.books.pool, I.books.op, I.books.books⟩, I.vx, I.stk, I.unlocks, I.cancels,
      ⟨I.stakes.proper, I.stakes.staked, I.stakes.owners⟩, ⟨I.maker.proper, I.maker.upto, I.maker.empty⟩, I.jobs, I.vips⟩
  | stake id a k n => exact stake_inv I id a k n
  | stakeOk id => exact stakeOk_inv I id
  | stakeFail id v => exact stakeFail_inv I id v
  | cancelOk id => exact cancelOk_inv I id
  | endorse n => exact endorse_inv I n
  | settleMaker P page acts => exact settleMaker_inv I P page acts
  | job j P => exact job_inv I j P ha

theorem exRun_inv {f : Forks} (hf : f.dexFee = true) {mk : Nat → Option MarketInfo} (hmk : MarketsOk mk) {n : Nat} (hn : 1 ≤ n)
    (ops : List ExOp) (ha : ∀ op ∈ ops, Allowed f op) : ExInv mk (Ex.run f mk n ops) := by
  unfold Ex.run
  suffices h : ∀ (ops : List ExOp) (s : Ex), (∀ op ∈ ops, Allowed f op) → ExInv mk s → ExInv mk (ops.foldl (Ex.step f mk) s) from
    h ops _ ha (ExInv.init mk hn)
  intro ops
  induction ops with
  | nil => intro s _ I; exact I
  | cons op ops ih =>
    intro s h I
    exact ih _ (fun o ho => h o (List.mem_cons_of_mem _ ho)) (exStep_inv hf hmk I op (h op (List.mem_cons_self ..)))

end Verif.Dex
