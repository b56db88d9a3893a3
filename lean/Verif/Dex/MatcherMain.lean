import Verif.Dex.MatcherStore

/-! The whole match: lemmas that lead to the theorems of `MatcherProps`. -/

namespace Verif.Dex
open Spec

abbrev Resets (r : Reason) : Prop :=
  r = .cancelledByFillOrKillNotFilled ∨ r = .cancelledByExceedMarketOrderAmtThreshold

theorem calcTx_reason (f mi taker maker) :
    (calculateOrderAndTx f mi taker maker).1.cancelReason = taker.cancelReason := by
  unfold calculateOrderAndTx
  simp only
  obtain ⟨s, _, e⟩ := upd_eq f taker _ _ _ _ _ maker.price
  rw [e]

theorem takeLoop_reason (f mi now) (makers : List Order) : ∀ (taker : Order) (mods txs), ¬ Resets taker.cancelReason →
    ¬ Resets (takeLoop f mi now taker makers mods txs).1.cancelReason := by
  induction makers with
  | nil => intro taker mods txs h; simpa [takeLoop] using h
  | cons maker rest ih =>
    intro taker mods txs h
    unfold takeLoop
    split
    · split
      · exact h
      · exact ih _ _ _ h
    · split
      · split
        · simp [Resets]
        · simp only
          have hr := calcTx_reason f mi taker maker
          generalize calculateOrderAndTx f mi taker maker = c at hr
          generalize ht2 : (if c.1.status = Status.partialExecuted ∧ (txs ++ [c.2.2]).length ≥ maxTxsCountPerTaker then _
            else _ : Order) = t2
          have h2 : ¬ Resets t2.cancelReason := by
            rw [← ht2]; split
            · simp [Resets]
            · rw [hr]; exact h
          split
          · exact h2
          · exact ih _ _ _ h2
      · exact h

theorem killUnfilled_key (t : Order) : SameKey t (killUnfilled t) := by
  unfold killUnfilled
  split
  · exact .status _ _ _
  · split
    · constructor <;> rfl
    · exact .refl _

/-- What settling the taker does: either it is reset and gets everything back, or what it still ties up is split between
the book and a refund. -/
structure TakerSpec (M : Nat) (mc : Mc) (t0 t1 : Order) (mc' : Mc) (t2 : Order) : Prop where
  ok : BookOk mc'.store
  inc : ∀ a t, settled Settle.incAvailable a t mc'.settles = settled Settle.incAvailable a t mc.settles
  reduce : ∀ a t, settled Settle.reduceLocked a t mc'.settles = settled Settle.reduceLocked a t mc.settles
  incAll : ∀ t, settledAll Settle.incAvailable t mc'.settles = settledAll Settle.incAvailable t mc.settles
  reduceAll : ∀ t, settledAll Settle.reduceLocked t mc'.settles = settledAll Settle.reduceLocked t mc.settles
  fees : mc'.fees = mc.fees
  key : SameKey t0 t2
  lim : WithinLimits t2
  events : mc'.events = mc.events ++ [.newOrder t2]
  tied : ∀ m a t, tiedUpFor m a t mc'.store + (if m = M then settled Settle.releaseLocked a t mc'.settles else 0) =
    tiedUpFor m a t mc.store + (if m = M then settled Settle.releaseLocked a t mc.settles else 0) +
      (if Resets t2.cancelReason then tiedUpFor m a t [t0] else tiedUpFor m a t [t1])
  keep : ∀ x ∈ mc.store, x ∈ mc'.store
  gone : Final t2 → mc'.store = mc.store
  rest : ¬ Final t2 → mc'.store = put t2 mc.store
  reset : Resets t2.cancelReason → Final t2 ∧ t2.executedQuantity = 0 ∧ t2.executedAmount = 0 ∧
    t2.executedBaseFee = 0 ∧ t2.executedOperatorFee = 0
  noreset : ¬ Resets t2.cancelReason → t2.executedQuantity = t1.executedQuantity ∧ t2.executedAmount = t1.executedAmount ∧
    t2.executedBaseFee = t1.executedBaseFee ∧ t2.executedOperatorFee = t1.executedOperatorFee

/-- A refund of finished order `t`, as a way to settle the taker. -/
theorem taker_refund {M : Nat} {mc : Mc} {t0 t1 t : Order} (hb : BookOk mc.store)
    (hM : t0.marketId = M) (hk : SameKey t0 t) (hl : WithinLimits t) (hfin : Final t)
    (htied : ∀ m a x, tiedUpFor m a x [t] =
      if Resets t.cancelReason then tiedUpFor m a x [t0] else tiedUpFor m a x [t1])
    (hreset : Resets t.cancelReason → t.executedQuantity = 0 ∧ t.executedAmount = 0 ∧
      t.executedBaseFee = 0 ∧ t.executedOperatorFee = 0)
    (hno : ¬ Resets t.cancelReason → t.executedQuantity = t1.executedQuantity ∧ t.executedAmount = t1.executedAmount ∧
      t.executedBaseFee = t1.executedBaseFee ∧ t.executedOperatorFee = t1.executedOperatorFee) :
    TakerSpec M mc t0 t1
      { (handleRefund mc t).1 with events := (handleRefund mc t).1.events ++ [.newOrder (handleRefund mc t).2] }
      (handleRefund mc t).2 := by
  have R := handleRefund_spec mc t hl hfin
  generalize handleRefund mc t = r at R ⊢
  obtain ⟨mc', o'⟩ := r
  simp only at R ⊢
  have ho := R.order
  subst ho
  exact
    { ok := R.store ▸ hb
      inc := R.inc, reduce := R.reduce, incAll := R.incAll, reduceAll := R.reduceAll, fees := R.fees
      key := ⟨hk.id, hk.marketId, hk.address, hk.side, hk.type, hk.price, hk.quantity, hk.amount, hk.lockedBuyFee,
        hk.tb, hk.mb, hk.tp, hk.mp, hk.timestamp⟩
      lim := ⟨hl.quantity, hl.amount, hl.fee⟩
      events := by simp [R.events]
      tied := by
        intro m a x
        have h1 := htied m a x
        have h2 := R.release a x
        have e : t.marketId = M := by rw [hk.marketId, hM]
        rw [e] at h2
        simp only [R.store]
        rw [← h1]
        by_cases hm : m = M
        · simp only [hm, if_true]; omega
        · have := tiedUpFor_other hm e a x
          simp only [hm, if_false]; omega
      keep := fun x hx => by simpa [R.store] using hx
      gone := fun _ => R.store
      rest := fun h => absurd hfin h
      reset := fun h => ⟨hfin, hreset h⟩
      noreset := hno }

theorem tiedUpFor_reset {t0 t : Order} (hk : SameKey t0 t) (hq : t.executedQuantity = t0.executedQuantity)
    (ha : t.executedAmount = t0.executedAmount) (hb : t.executedBaseFee = t0.executedBaseFee)
    (hp : t.executedOperatorFee = t0.executedOperatorFee)
    (m a x) : tiedUpFor m a x [t] = tiedUpFor m a x [t0] := by
  simp only [tiedUpFor_one, tiedUp, hk.marketId, hk.address, hk.side, hk.quantity, hk.amount, hk.lockedBuyFee, hq, ha, hb, hp]

theorem handleTakerRes_spec {M : Nat} {mc : Mc} {t0 t1 : Order} (hb : BookOk mc.store) (hfresh : Fresh t0)
    (hr : RatesOk t0) (hM : t0.marketId = M) (hk : SameKey t0 t1) (hl : WithinLimits t1)
    (hre : ¬ Resets t1.cancelReason) (hid : ∀ x ∈ mc.store, x.id ≠ t0.id) :
    TakerSpec M mc t0 t1 (handleTakerRes mc t1).1 (handleTakerRes mc t1).2 := by
  unfold handleTakerRes settleTaker checkMarketOrderAmtThreshold
  simp only
  have hlim0 : ∀ t : Order, t.executedQuantity = 0 → t.executedAmount = 0 → t.executedBaseFee = 0 →
      t.executedOperatorFee = 0 → WithinLimits t := by
    intro t h1 h2 h3 h4
    constructor <;> simp [h1, h2, h3, h4]
  by_cases hthr : t1.type = OType.market ∧
      t1.executedAmount + t1.executedBaseFee + t1.executedOperatorFee > t1.marketOrderAmtThreshold
  · rw [if_pos hthr]
    refine taker_refund hb hM (hk.trans (by constructor <;> rfl)) (hlim0 _ rfl rfl rfl rfl) (.inr rfl) ?_ ?_ ?_
    · intro m a x
      rw [if_pos (.inr rfl)]
      exact tiedUpFor_reset (hk.trans (by constructor <;> rfl)) hfresh.quantity.symm hfresh.amount.symm
        hfresh.base.symm hfresh.operator.symm m a x
    · intro _; simp
    · intro h; exact absurd (.inr rfl) h
  · rw [if_neg hthr]
    simp only
    by_cases hst : t1.status = .partialExecuted ∨ t1.status = .pending
    · rw [if_pos hst]
      have hkk := hk.trans (killUnfilled_key t1)
      by_cases hc : (killUnfilled t1).status = .cancelled
      · rw [if_pos hc]
        by_cases hfok : Resets (killUnfilled t1).cancelReason
        · have he : (killUnfilled t1).executedQuantity = 0 ∧ (killUnfilled t1).executedAmount = 0 ∧
              (killUnfilled t1).executedBaseFee = 0 ∧ (killUnfilled t1).executedOperatorFee = 0 := by
            revert hfok
            unfold killUnfilled
            split
            · simp [Resets]
            · split
              · simp
              · intro h; exact absurd h hre
          refine taker_refund hb hM hkk (hlim0 _ he.1 he.2.1 he.2.2.1 he.2.2.2) (.inr hc) ?_ (fun _ => he)
            (fun h => absurd hfok h)
          intro m a x
          rw [if_pos hfok]
          exact tiedUpFor_reset hkk (by rw [he.1, hfresh.quantity]) (by rw [he.2.1, hfresh.amount])
            (by rw [he.2.2.1, hfresh.base]) (by rw [he.2.2.2, hfresh.operator]) m a x
        · have he : (killUnfilled t1).executedQuantity = t1.executedQuantity ∧
              (killUnfilled t1).executedAmount = t1.executedAmount ∧
              (killUnfilled t1).executedBaseFee = t1.executedBaseFee ∧
              (killUnfilled t1).executedOperatorFee = t1.executedOperatorFee := by
            revert hfok
            unfold killUnfilled
            split
            · simp
            · split
              · simp [Resets]
              · simp
          have hw : WithinLimits (killUnfilled t1) := by
            have k := killUnfilled_key t1
            constructor
            · rw [he.1, k.quantity]; exact hl.quantity
            · rw [he.2.1, k.amount, k.side]; exact hl.amount
            · rw [he.2.2.1, he.2.2.2, k.lockedBuyFee, k.side]; exact hl.fee
          refine taker_refund hb hM hkk hw (.inr hc) ?_ (fun h => absurd h hfok) (fun _ => he)
          intro m a x
          rw [if_neg hfok]
          exact tiedUpFor_reset (killUnfilled_key t1) he.1 he.2.1 he.2.2.1 he.2.2.2 m a x
      · rw [if_neg hc]
        have hkeep : killUnfilled t1 = t1 ∧ (t1.type = .limited ∨ t1.type = .postOnly) := by
          revert hc
          unfold killUnfilled
          split
          · simp
          · split
            · simp
            · intro _
              refine ⟨rfl, ?_⟩
              cases h : t1.type <;> simp_all
        rw [hkeep.1]
        have hnf : ¬ Final t1 := by rcases hst with h | h <;> simp [Final, h]
        exact
          { ok := hb.put hl (hk.rates hr) (by tauto) hkeep.2
            inc := fun _ _ => rfl, reduce := fun _ _ => rfl, incAll := fun _ => rfl, reduceAll := fun _ => rfl
            fees := rfl, key := hk, lim := hl, events := rfl
            tied := by
              intro m a x
              have := tied_put_new (l := mc.store) t1 (by rw [hk.id]; exact hid) m a x
              rw [if_neg hre]
              simp only; omega
            keep := fun x hx => (mem_put hb.sorted t1 x).2 (.inr ⟨hx, by rw [hk.id]; exact hid x hx⟩)
            gone := fun h => absurd h hnf
            rest := fun _ => rfl
            reset := fun h => absurd h hre
            noreset := fun _ => ⟨rfl, rfl, rfl, rfl⟩ }
    · rw [if_neg hst]
      have hfin : Final t1 := by cases h : t1.status <;> simp_all [Final]
      refine taker_refund hb hM hk hl hfin ?_ (fun h => absurd h hre) (fun _ => ⟨rfl, rfl, rfl, rfl⟩)
      intro m a x
      rw [if_neg hre]

/-- Everything about a match that the property theorems need. -/
structure MatchSpec (f : Forks) (mi : MarketInfo) (now : Nat) (store : List Order) (taker : Order) (mc : Mc) (t : Order) :
    Prop where
  ok : BookOk mc.store
  lim : WithinLimits t
  key : SameKey taker t
  tied : ∀ m a x, tiedUpFor m a x store + tiedUpFor m a x [taker] = tiedUpFor m a x mc.store +
    if m = mi.marketId then settled Settle.reduceLocked a x mc.settles + settled Settle.releaseLocked a x mc.settles else 0
  trade : settledAll Settle.incAvailable true mc.settles = settledAll Settle.reduceLocked true mc.settles
  quote : settledAll Settle.incAvailable false mc.settles + feesAll mc.fees = settledAll Settle.reduceLocked false mc.settles
  updates : ∀ o, .orderUpdate o ∈ mc.events → WithinLimits o
  new : ∀ o, .newOrder o ∈ mc.events → o = t
  ids : ∀ x ∈ mc.store, (∃ y ∈ store, y.id = x.id) ∨ x.id = taker.id

theorem matchOrder_spec {f : Forks} (hf : f.dexFee = true) {mi : MarketInfo} {now : Nat} {store : List Order} {taker : Order}
    (hb : BookOk store) (hfresh : Fresh taker) (hr : RatesOk taker) (hM : taker.marketId = mi.marketId)
    (hid : ∀ x ∈ store, x.id ≠ taker.id) :
    MatchSpec f mi now store taker (matchOrder f mi now store taker).1 (matchOrder f mi now store taker).2 := by
  have hl : WithinLimits taker := by
    constructor <;> simp [hfresh.quantity, hfresh.amount, hfresh.base, hfresh.operator]
  have hre : ¬ Resets taker.cancelReason := by rw [hfresh.reason]; simp [Resets]
  have plain : ∀ t1, SameKey taker t1 → WithinLimits t1 → ¬ Resets t1.cancelReason →
      (¬ Resets (handleTakerRes ⟨store, [], [], []⟩ t1).2.cancelReason → t1 = taker) →
      MatchSpec f mi now store taker (handleTakerRes ⟨store, [], [], []⟩ t1).1 (handleTakerRes ⟨store, [], [], []⟩ t1).2 := by
    intro t1 hk hl1 hre1 hcase
    have T := handleTakerRes_spec (M := mi.marketId) (mc := ⟨store, [], [], []⟩) hb hfresh hr hM hk hl1 hre1 hid
    generalize handleTakerRes ⟨store, [], [], []⟩ t1 = h at T hcase ⊢
    obtain ⟨mc, t⟩ := h
    simp only at T hcase ⊢
    exact
      { ok := T.ok, lim := T.lim, key := T.key
        tied := by
          intro m a x
          have h1 := T.tied m a x
          have h2 := T.reduce a x
          simp only [settled_nil, ite_self, Nat.add_zero] at h1 h2
          have h3 : (if Resets t.cancelReason then tiedUpFor m a x [taker] else tiedUpFor m a x [t1]) =
              tiedUpFor m a x [taker] := by
            split
            · rfl
            · rename_i h; rw [hcase h]
          rw [h2]
          split at h1 <;> simp_all
        trade := by rw [T.incAll, T.reduceAll]; rfl
        quote := by rw [T.incAll, T.reduceAll, T.fees]; rfl
        updates := by intro o ho; rw [T.events] at ho; simp at ho
        new := by intro o ho; rw [T.events] at ho; simpa using ho
        ids := by
          intro x hx
          by_cases hfin : Final t
          · rw [T.gone hfin] at hx; exact .inl ⟨x, hx, rfl⟩
          · rw [T.rest hfin] at hx
            rcases (mem_put hb.sorted t x).1 hx with rfl | ⟨hx, _⟩
            · exact .inr T.key.id
            · exact .inl ⟨x, hx, rfl⟩ }
  unfold matchOrder
  simp only
  split
  · exact plain taker (.refl _) hl hre (fun _ => rfl)
  · rename_i hmk
    have hbook : ∀ o ∈ makerBook store mi.marketId (!taker.side), WithinLimits o ∧ RatesOk o ∧ o.marketId = mi.marketId ∧
        o.side = !taker.side := by
      intro o ho
      unfold makerBook at ho
      rw [List.mem_filter, decide_eq_true_eq] at ho
      exact ⟨hb.limits o ho.1, hb.rates o ho.1, ho.2.1, ho.2.2⟩
    obtain ⟨used, rest, mods, txs, e1, e2, L⟩ := takeLoop_spec hf mi now _ taker [] [] hl hr hM hbook
    have hre1 := takeLoop_reason f mi now (makerBook store mi.marketId (!taker.side)) taker [] [] hre
    generalize hlo : takeLoop f mi now taker (makerBook store mi.marketId (!taker.side)) [] [] = lo at e2 L hre1
    obtain ⟨t1, mods', txs'⟩ := lo
    simp only [List.nil_append, Prod.mk.injEq] at e2
    obtain ⟨rfl, rfl⟩ := e2
    simp only at L hre1 ⊢
    by_cases hres : Resets (handleTakerRes ⟨store, [], [], []⟩ t1).2.cancelReason
    · rw [if_neg (by unfold Resets at hres; tauto)]
      exact plain t1 L.key L.lim hre1 (fun h => absurd hres h)
    · rw [if_pos (by unfold Resets at hres; tauto)]
      have T := handleTakerRes_spec (M := mi.marketId) (mc := ⟨store, [], [], []⟩) hb hfresh hr hM L.key L.lim hre1 hid
      generalize handleTakerRes ⟨store, [], [], []⟩ t1 = h at T hres ⊢
      obtain ⟨mc, t⟩ := h
      simp only at T hres ⊢
      have hused : ∀ o ∈ used, o ∈ makerBook store mi.marketId (!taker.side) := by
        intro o ho; rw [e1]; simp [ho]
      have hus : Sorted used := by
        have : Sorted (makerBook store mi.marketId (!taker.side)) := hb.sorted.filter _
        rw [e1] at this
        exact (List.pairwise_append.1 this).1
      have hmem : ∀ o ∈ used, o ∈ store := fun o ho => (List.mem_filter.1 (hused o ho)).1
      obtain ⟨S, ST, SK, SJ, SE⟩ := handleModifiedMakers_spec (M := mi.marketId) L.keys T.ok
        (fun o ho => ⟨T.keep o (hmem o ho), (hbook o (hused o ho)).2.2.1⟩) (hus.imp (fun h => Nat.ne_of_lt h)) L.lims
      obtain ⟨X1, X2, X3, X4, X5, X6⟩ := handleTxs_spec txs' (handleModifiedMakers mc mods') L.bal
      have z1 : ∀ a x, settled Settle.reduceLocked a x (handleModifiedMakers mc mods').settles = 0 := by
        intro a x; rw [S.reduce, T.reduce]; rfl
      have z2 : ∀ x, settledAll Settle.reduceLocked x (handleModifiedMakers mc mods').settles = 0 := by
        intro x; rw [S.reduceAll, T.reduceAll]; rfl
      have z3 : ∀ x, settledAll Settle.incAvailable x (handleModifiedMakers mc mods').settles = 0 := by
        intro x; rw [S.incAll, T.incAll]; rfl
      have z4 : (handleModifiedMakers mc mods').fees = [] := by rw [S.fees, T.fees]
      exact
        { ok := X1 ▸ S.ok
          lim := T.lim, key := T.key
          tied := by
            intro m a x
            have h1 := T.tied m a x
            have h2 := ST m a x
            have h3 := L.tied a x
            rw [if_neg hres] at h1
            rw [X1, X2 _ column_reduce, X2 _ column_release, txSettles_release, z1]
            simp only [settled_nil, ite_self, Nat.add_zero] at h1
            by_cases hm : m = mi.marketId
            · subst hm
              simp only [if_true] at *
              omega
            · have o1 := tiedUpFor_other hm hM a x
              have o2 := tiedUpFor_other hm (L.key.marketId.trans hM) a x
              have o3 : ∀ l : List Order, (∀ o ∈ l, o.marketId = mi.marketId) → tiedUpFor m a x l = 0 := by
                intro l hl
                induction l with
                | nil => rfl
                | cons y ys ih =>
                  rw [tiedUpFor_cons, tiedUpFor_other hm (hl y (by simp)), ih (fun o ho => hl o (by simp [ho]))]
              have o4 := o3 used (fun o ho => (hbook o (hused o ho)).2.2.1)
              have o5 : tiedUpFor m a x mods' = 0 := by
                apply o3
                have : ∀ (u v : List Order), List.Forall₂ SameKey u v → (∀ o ∈ u, o.marketId = mi.marketId) →
                    ∀ o ∈ v, o.marketId = mi.marketId := by
                  intro u v huv
                  induction huv with
                  | nil => simp
                  | cons h _ ih =>
                    intro hu o ho
                    rcases List.mem_cons.1 ho with rfl | ho
                    · rw [h.marketId]; exact hu _ (by simp)
                    · exact ih (fun o ho => hu o (by simp [ho])) o ho
                exact this _ _ L.keys (fun o ho => (hbook o (hused o ho)).2.2.1)
              simp only [hm, if_false] at *
              omega
          trade := by rw [z2, z3] at X4; omega
          quote := by rw [z2, z3, z4] at X5; simp only [feesAll, List.map_nil, List.sum_nil] at X5 ⊢; omega
          updates := by
            intro o ho
            rw [X6] at ho
            rcases List.mem_append.1 ho with ho | ho
            · rcases SE _ ho with h | ⟨p, hp, e, h⟩
              · rw [T.events] at h; simp at h
              · simp only [Event.orderUpdate.injEq] at h
                subst h
                exact ⟨(L.lims p hp).quantity, (L.lims p hp).amount, (L.lims p hp).fee⟩
            · simp at ho
          new := by
            intro o ho
            rw [X6] at ho
            rcases List.mem_append.1 ho with ho | ho
            · rcases SE _ ho with h | ⟨p, hp, e, h⟩
              · rw [T.events] at h; simpa using h
              · simp at h
            · simp at ho
          ids := by
            intro x hx
            rw [X1] at hx
            obtain ⟨y, hy, ey⟩ := SJ x hx
            by_cases hfin : Final t
            · rw [T.gone hfin] at hy; exact .inl ⟨y, hy, ey⟩
            · rw [T.rest hfin] at hy
              rcases (mem_put hb.sorted t y).1 hy with rfl | ⟨hy, _⟩
              · exact .inr (by rw [← ey, T.key.id])
              · exact .inl ⟨y, hy, ey⟩ }

end Verif.Dex
