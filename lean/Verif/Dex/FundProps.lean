import Verif.Dex.FundInv

/-!
# Properties of the exchange over whole histories: C24, C27
-/

namespace Verif.Dex
open Spec

/-- What placing an order does: the order is fresh, and exactly what it ties up moves from available to locked. -/
theorem lockForOrder_spec {fs fs' : List Acct} {mi : MarketInfo} {p : OrderReq} {o0 o : Order}
    (h0 : renderOrder mi p = some o0) (h : lockForOrder fs mi p o0 = some (fs', o)) (hr : ratesOkB p = true)
    (hk : Keyed fs) :
    Fresh o ∧ RatesOk o ∧ o.id = p.id ∧ o.marketId = mi.marketId ∧ Keyed fs' ∧
    (∀ a t, heldBy Acct.locked a t fs' = heldBy Acct.locked a t fs +
      if o.address = a ∧ (if o.side then mi.tradeToken else mi.quoteToken) = t then tiedUp o else 0) ∧
    (∀ t, held owes t fs' = held owes t fs) := by
  -- the rendered order
  have R : Fresh o0 ∧ RatesOk o0 ∧ o0.id = p.id ∧ o0.marketId = mi.marketId ∧ (o0.type = .market → o0.lockedBuyFee = 0) := by
    have hr' : p.takerFeeRate ≤ 200 ∧ p.makerFeeRate ≤ 200 ∧ p.takerOperatorFeeRate ≤ 200 ∧
        p.makerOperatorFeeRate ≤ 200 := by
      simp only [ratesOkB, Bool.and_eq_true, decide_eq_true_eq] at hr; tauto
    unfold renderOrder at h0
    simp only at h0
    split at h0
    · rename_i ht
      split at h0
      · simp at h0
      · obtain rfl := Option.some.inj h0
        exact ⟨⟨rfl, rfl, rfl, rfl, rfl, rfl⟩, ⟨hr'.1, hr'.2.1, hr'.2.2.1, hr'.2.2.2⟩, rfl, rfl, fun e => absurd e ht⟩
    · obtain rfl := Option.some.inj h0
      exact ⟨⟨rfl, rfl, rfl, rfl, rfl, rfl⟩, ⟨hr'.1, hr'.2.1, hr'.2.2.1, hr'.2.2.2⟩, rfl, rfl, fun _ => rfl⟩
  obtain ⟨F, Q, hid, hmk, hmf⟩ := R
  unfold lockForOrder at h
  simp only at h
  generalize ho1 : (if o0.type = OType.market then { o0 with marketOrderAmtThreshold := p.marketOrderAmtThreshold } else o0)
    = o1 at h
  have F1 : Fresh o1 ∧ RatesOk o1 ∧ o1.id = p.id ∧ o1.marketId = mi.marketId ∧ (o1.type = .market → o1.lockedBuyFee = 0) ∧
      o1.address = o0.address ∧ o1.side = o0.side := by
    rw [← ho1]
    split
    · exact ⟨⟨F.status, F.reason, F.quantity, F.amount, F.base, F.operator⟩, ⟨Q.tb, Q.mb, Q.tp, Q.mp⟩, hid, hmk, hmf, rfl, rfl⟩
    · exact ⟨F, Q, hid, hmk, hmf, rfl, rfl⟩
  clear ho1
  obtain ⟨F1, Q1, hid1, hmk1, hmf1, ha1, hs1⟩ := F1
  rw [← ha1, ← hs1] at h
  have key := getAcct_key o1.address (lockToken mi o1.side) fs
  have hpay : lockToken mi o1.side = (if o1.side then mi.tradeToken else mi.quoteToken) := rfl
  have ht : tiedUp o1 = lockAmount o1 := by
    unfold tiedUp lockAmount
    rw [F1.amount, F1.base, F1.operator, F1.quantity]
    cases o1.side <;> simp
  have hl := fun a t v => heldBy_update Acct.locked a t o1.address (lockToken mi o1.side) fs v
  have ho := fun t v => held_update owes t o1.address (lockToken mi o1.side) fs v
  generalize getAcct o1.address (lockToken mi o1.side) fs = x at h key hl ho
  -- moving `n` from available to locked
  have move : ∀ n, n ≤ x.available →
      Keyed (setAcct { x with available := x.available - n, locked := x.locked + n } fs) ∧
      (∀ a t, heldBy Acct.locked a t (setAcct { x with available := x.available - n, locked := x.locked + n } fs) =
        heldBy Acct.locked a t fs +
        if o1.address = a ∧ (if o1.side then mi.tradeToken else mi.quoteToken) = t then n else 0) ∧
      (∀ t, held owes t (setAcct { x with available := x.available - n, locked := x.locked + n } fs) = held owes t fs) := by
    intro n hn
    refine ⟨keyed_setAcct _ hk, ?_, ?_⟩
    · intro a t
      have := hl a t { x with available := x.available - n, locked := x.locked + n } key.1 key.2 rfl
      rw [← hpay]
      simp only at this
      by_cases hc : o1.address = a ∧ lockToken mi o1.side = t
      · simp only [hc, and_self, if_true] at this ⊢; omega
      · simp only [hc, if_false] at this ⊢; omega
    · intro t
      have := ho t { x with available := x.available - n, locked := x.locked + n } key.1 key.2 rfl
      have e : owes { x with available := x.available - n, locked := x.locked + n } = owes x := by simp only [owes]; omega
      rw [e] at this
      omega
  split at h
  · rename_i hcase
    split at h
    · simp at h
    · rename_i hlt
      have h := Option.some.inj h
      obtain ⟨rfl, rfl⟩ := Prod.mk.inj h
      obtain ⟨m1, m2, m3⟩ := move (lockAmount o1) (by omega)
      refine ⟨F1, Q1, hid1, hmk1, m1, ?_, m3⟩
      rw [ht]; exact m2
  · rename_i hcase
    split at h
    · simp at h
    · have h := Option.some.inj h
      obtain ⟨rfl, rfl⟩ := Prod.mk.inj h
      have hside : o1.side = false := by
        cases hs : o1.side
        · rfl
        · exact absurd (.inl hs) hcase
      have hmarket : o1.type = .market := by
        by_contra hne; exact hcase (.inr hne)
      have hq : Fresh (renderMarketBuy { o1 with amount := x.available }) ∧
          RatesOk (renderMarketBuy { o1 with amount := x.available }) ∧
          (renderMarketBuy { o1 with amount := x.available }).id = p.id ∧
          (renderMarketBuy { o1 with amount := x.available }).marketId = mi.marketId ∧
          (renderMarketBuy { o1 with amount := x.available }).address = o1.address ∧
          (renderMarketBuy { o1 with amount := x.available }).side = o1.side ∧
          tiedUp (renderMarketBuy { o1 with amount := x.available }) = x.available := by
        unfold renderMarketBuy
        split
        · refine ⟨⟨F1.status, F1.reason, F1.quantity, F1.amount, F1.base, F1.operator⟩, ⟨Q1.tb, Q1.mb, Q1.tp, Q1.mp⟩,
            hid1, hmk1, rfl, rfl, ?_⟩
          have hrate : maxTotalFeeRate { o1 with amount := x.available } ≤ 400 := by
            have := Q1.tb; have := Q1.mb; have := Q1.tp; have := Q1.mp
            unfold maxTotalFeeRate
            split <;> simp only <;> omega
          have hadj := adjustedFeeRate_le (maxTotalFeeRate { o1 with amount := x.available })
          have hfee := fee_le x.available (adjustedFeeRate (maxTotalFeeRate { o1 with amount := x.available })) (by omega)
          generalize maxTotalFeeRate { o1 with amount := x.available } = r at hfee ⊢
          simp only [tiedUp, hside, F1.amount, F1.base, F1.operator, if_true]
          rw [subAbs_le hfee]
          omega
        · refine ⟨⟨F1.status, F1.reason, F1.quantity, F1.amount, F1.base, F1.operator⟩, ⟨Q1.tb, Q1.mb, Q1.tp, Q1.mp⟩,
            hid1, hmk1, rfl, rfl, ?_⟩
          simp only [tiedUp, hside, F1.amount, F1.base, F1.operator, hmf1 hmarket, if_true]
          omega
      obtain ⟨q1, q2, q3, q4, q5, q6, q7⟩ := hq
      obtain ⟨m1, m2, m3⟩ := move x.available (le_refl _)
      rw [Nat.sub_self] at m1 m2 m3
      refine ⟨q1, q2, q3, q4, m1, ?_, m3⟩
      rw [q5, q6, q7]; exact m2

theorem eraseIdx_ids {l : List Order} {i : Nat} {o : Order} (h : l[i]? = some o) (hn : (l.map Order.id).Nodup) :
    ∀ x ∈ l.eraseIdx i, x.id ≠ o.id := by
  induction l generalizing i with
  | nil => simp at h
  | cons y ys ih =>
    rw [List.map_cons, List.nodup_cons] at hn
    cases i with
    | zero =>
      simp at h; subst h
      intro x hx e
      exact hn.1 (List.mem_map.2 ⟨x, by simpa using hx, e⟩)
    | succ i =>
      have h' : ys[i]? = some o := by simpa using h
      intro x hx
      simp only [List.eraseIdx_cons_succ, List.mem_cons] at hx
      rcases hx with rfl | hx
      · intro e
        exact hn.1 (List.mem_map.2 ⟨o, List.mem_of_getElem? h', e.symm⟩)
      · exact ih h' hn.2 x hx

/-- Every step keeps the invariant. -/
theorem step_inv {f : Forks} (hf : f.dexFee = true) {mk : Nat → Option MarketInfo} (hmk : MarketsOk mk) {s : Sys}
    (h : Inv mk s) (op : Op) (hop : f.v11 = true ∨ NoRepeats op) : Inv mk (step f mk s op) := by
  have hn := h.ids
  rw [List.map_append, List.nodup_append'] at hn
  cases op with
  | deposit a t n =>
    refine h.moves (deposit_moves s.funds a t n) (de := bump s.deposited t n) (fun x => ?_)
    rw [bump_apply]; omega
  | withdraw a t n =>
    simp only [step]
    split
    · exact h
    · rename_i fs e
      refine h.moves (reduce_moves e) (wi := bump s.withdrawn t n) (fun x => ?_)
      rw [bump_apply]; omega
  | transfer a b t n =>
    simp only [step]
    split
    · exact h
    · rename_i fs e
      have M1 := reduce_moves e
      have M2 := deposit_moves fs b t n
      have M : Moves s.funds (depositAccount fs b t n) (fun _ => 0) (fun _ => 0) :=
        ⟨fun k => M2.keyed (M1.keyed k), fun a t => by rw [M2.locked, M1.locked], fun x => by
          have := M1.total x; have := M2.total x; omega⟩
      exact h.moves M (fun x => by omega)
  | payFee a n =>
    simp only [step]
    split
    · exact h
    · rename_i fs e
      refine h.moves (reduce_moves e) (dp := bump s.dividendPool viteToken n) (fun x => ?_)
      rw [bump_apply]; omega
  | lockVx a n =>
    simp only [step]
    split
    · exact h
    · rename_i fs e; exact h.moves (lockVx_moves e) (fun x => by omega)
  | unlockVx a n =>
    simp only [step]
    split
    · exact h
    · rename_i fs e; exact h.moves (scheduleVx_moves e) (fun x => by omega)
  | finishUnlock a n =>
    simp only [step]
    split
    · exact h
    · rename_i fs e; exact h.moves (finishVx_moves e) (fun x => by omega)
  | place p =>
    simp only [step]
    split
    · exact h
    · rename_i mi hmi
      split
      · exact h
      · rename_i hg
        push Not at hg
        split
        · exact h
        · rename_i r hr
          obtain ⟨o0, e0, e1⟩ := Option.bind_eq_some_iff.1 hr
          obtain ⟨fs, o⟩ := r
          obtain ⟨F, Q, hid, hm, K, L, T⟩ := lockForOrder_spec e0 e1 (by simpa using hg.2.1) h.keyed
          have hpay : paysWith mk o = some (if o.side then mi.tradeToken else mi.quoteToken) := by
            have : mi.marketId = p.marketId := hmk _ _ hmi
            rw [paysWith, hm, this, hmi]; rfl
          refine ⟨K, h.book, ?_, ?_, ?_, h.msgs, ?_, h.exceeded, h.events⟩
          · intro x hx
            rcases List.mem_append.1 hx with hx | hx
            · exact h.fresh x hx
            · simp at hx; subst hx; exact ⟨F, Q⟩
          · simp only
            rw [← List.append_assoc, List.map_append, List.nodup_append']
            refine ⟨h.ids, by simp, ?_⟩
            intro i h1 h2
            simp only [List.map_cons, List.map_nil, List.mem_singleton] at h2
            subst h2
            rw [hid] at h1
            exact hg.2.2 h1
          · intro a t
            simp only
            rw [L, h.locked, promised_append]
            have : promised mk a t [o] =
                if o.address = a ∧ (if o.side then mi.tradeToken else mi.quoteToken) = t then tiedUp o else 0 := by
              simp only [promised, List.map_cons, List.map_nil, List.sum_cons, List.sum_nil, Nat.add_zero, hpay,
                Option.some.injEq]
            rw [this]; omega
          · intro t
            have := h.total t
            simp only [T]; exact this
  | receiveOrder i now =>
    simp only [step]
    split
    · exact h
    · rename_i o ho
      split
      · exact h
      · rename_i mi hmi
        have hM : mi.marketId = o.marketId := hmk _ _ hmi
        have hmem := List.mem_of_getElem? ho
        refine h.tradeStep (taken := [o]) (by rw [hM]; exact hmi)
          (tradeStep_match hf h.book (h.fresh o hmem).1 (h.fresh o hmem).2 hM.symm ?_) (List.eraseIdx_sublist _ _) ?_ ?_
        · intro x hx e
          exact hn.2.2 (List.mem_map.2 ⟨x, hx, rfl⟩) (List.mem_map.2 ⟨o, hmem, e.symm⟩)
        · intro a t
          have := sum_eraseIdx (fun o => if o.address = a ∧ paysWith mk o = some t then tiedUp o else 0) s.orders i o ho
          simp only [promised, List.map_cons, List.map_nil, List.sum_cons, List.sum_nil]
          omega
        · intro y hy
          simp at hy; subst hy
          exact ⟨hmem, eraseIdx_ids ho hn.2.1⟩
  | placeFailed i =>
    simp only [step]
    split
    · exact h
    · rename_i o ho
      split
      · exact h
      · rename_i mi hmi
        have hM : mi.marketId = o.marketId := hmk _ _ hmi
        have hmem := List.mem_of_getElem? ho
        have F := (h.fresh o hmem).1
        refine ⟨h.keyed, h.book, fun x hx => h.fresh x ((List.eraseIdx_sublist _ _).subset hx), ?_, ?_, ?_, h.total,
          h.exceeded, h.events⟩
        · exact (((List.Sublist.refl s.store).append (List.eraseIdx_sublist _ _)).map _).nodup h.ids
        · intro a t
          have h1 := h.locked a t
          have h2 := sum_eraseIdx (fun o => if o.address = a ∧ paysWith mk o = some t then tiedUp o else 0) s.orders i o ho
          have h3 : msgDebit a t (placeFailedMsg mi o) = if o.address = a ∧ paysWith mk o = some t then tiedUp o else 0 := by
            have hpay : paysWith mk o = some (if o.side then mi.tradeToken else mi.quoteToken) := by
              rw [paysWith, hmi]; rfl
            rw [hpay]
            simp only [msgDebit, placeFailedMsg, List.map_cons, List.map_nil, List.sum_cons, List.sum_nil, Nat.add_zero,
              Nat.zero_add, Option.some.injEq]
            congr 1
            unfold tiedUp lockAmount
            rw [F.amount, F.base, F.operator, F.quantity]
            cases o.side <;> simp
          simp only [debits_append]
          rw [show debits a t [placeFailedMsg mi o] = msgDebit a t (placeFailedMsg mi o) from by simp [debits], h3]
          simp only [promised] at *
          omega
        · intro m hm
          rcases List.mem_append.1 hm with hm | hm
          · exact h.msgs m hm
          · simp at hm; subst hm
            intro t
            simp [placeFailedMsg, col, feesAll]
  | cancel operator id =>
    simp only [step]
    split
    · exact h
    · rename_i o ho
      split
      · exact h
      · rename_i mi hmi
        split
        · have hM : mi.marketId = o.marketId := hmk _ _ hmi
          refine h.tradeStep (taken := []) (rest := s.orders) (by rw [hM]; exact hmi)
            (tradeStep_cancel h.book (mem_orderById ho).1 hM.symm) (List.Sublist.refl _) ?_ ?_
          · intro a t; simp [promised]
          · simp
        · exact h
  | clearExpired now ids =>
    simp only [step]
    split
    · exact h
    · rename_i hg
      split
      · exact h
      · rename_i m hm
        split
        · exact h
        · rename_i mi hmi
          have hM : mi.marketId = m := hmk _ _ hmi
          refine h.tradeStep (taken := []) (rest := s.orders) (by rw [hM]; exact hmi)
            (tradeStep_clear h.book (by rw [hM]; exact hm) ?_) (List.Sublist.refl _) ?_ ?_
          · rcases hop with hop | hop
            · exact absurd (.inl hop) hg
            · exact hop
          · intro a t; simp [promised]
          · simp
  | settle i =>
    simp only [step]
    split
    · exact h
    · rename_i m hm
      have hmem := List.mem_of_getElem? hm
      have hd := fun a t => sum_eraseIdx (msgDebit a t) s.msgs i m hm
      obtain ⟨k1, k2, k3, k4⟩ := settleFunds_spec m.market m.funds s.funds s.exceeded h.keyed (by
        intro a t
        have h1 := h.locked a t
        have h2 := hd a t
        rw [← msgDebit_eq]
        simp only [debits] at h1
        omega)
      refine ⟨k1, h.book, h.fresh, h.ids, ?_, ?_, ?_, ?_, h.events⟩
      · intro a t
        have h1 := h.locked a t
        have h2 := hd a t
        have h3 := k3 a t
        rw [← msgDebit_eq] at h3
        simp only [debits, settleMsg] at *
        omega
      · intro x hx
        exact h.msgs x ((List.eraseIdx_sublist _ _).subset hx)
      · intro t
        have h1 := h.total t
        have h2 := k4 t
        have h3 := h.msgs m hmem t
        have h4 := fees_split m.fees
        simp only [settleMsg, bump_apply]
        by_cases ht : t = m.market.quoteToken
        · rw [if_pos ht.symm] at h3
          simp only [ht, if_true] at *
          omega
        · rw [if_neg (fun e => ht e.symm)] at h3
          simp only [ht, if_false]
          omega
      · simp only [settleMsg]; rw [k2]; exact h.exceeded

theorem run_inv {f : Forks} (hf : f.dexFee = true) {mk : Nat → Option MarketInfo} (hmk : MarketsOk mk) (ops : List Op)
    (hops : f.v11 = true ∨ ∀ op ∈ ops, NoRepeats op) : Inv mk (run f mk ops) := by
  have : ∀ (ops : List Op) (s : Sys), Inv mk s → (f.v11 = true ∨ ∀ op ∈ ops, NoRepeats op) →
      Inv mk (ops.foldl (step f mk) s) := by
    intro ops
    induction ops with
    | nil => intro s h _; exact h
    | cons op ops ih =>
      intro s h hops
      refine ih _ (step_inv hf hmk h op ?_) ?_
      · exact hops.imp id (fun k => k op (by simp))
      · exact hops.imp id (fun k o ho => k o (by simp [ho]))
  exact this ops _ (Inv.init mk) hops

/-! ### C27 -/

/-- **C27.** In every history of deposits, withdrawals, transfers, fees, VX locking, order placement, matching,
cancellation, expiry and settlement, with messages received in any order: per token, everything the exchange owes its
users plus the fee pools is exactly what was deposited minus what was withdrawn. -/
theorem exchange_conserves_funds (f : Forks) (hf : f.dexFee = true) (mk : Nat → Option MarketInfo) (hmk : MarketsOk mk)
    (ops : List Op) (hops : f.v11 = true ∨ ∀ op ∈ ops, NoRepeats op) (t : Nat) :
    let s := run f mk ops
    held owes t s.funds + s.dividendPool t + s.operatorPool t + s.withdrawn t = s.deposited t :=
  (run_inv hf hmk ops hops).total t

/-- **C24, C27.** In every such history, what is locked for an address in a token is exactly what its resting orders, its
orders on the way to the matcher and the settlements on the way back account for; so settling never asks for more than is
locked. -/
theorem locked_backs_orders (f : Forks) (hf : f.dexFee = true) (mk : Nat → Option MarketInfo) (hmk : MarketsOk mk)
    (ops : List Op) (hops : f.v11 = true ∨ ∀ op ∈ ops, NoRepeats op) :
    let s := run f mk ops
    (∀ a t, heldBy Acct.locked a t s.funds =
      promised mk a t s.store + promised mk a t s.orders + debits a t s.msgs) ∧ s.exceeded = false :=
  ⟨(run_inv hf hmk ops hops).locked, (run_inv hf hmk ops hops).exceeded⟩

/-- **C24.** In every such history every order record ever logged, and every resting order, is within its size, its amount
and its fee allowance. -/
theorem orders_never_overfilled (f : Forks) (hf : f.dexFee = true) (mk : Nat → Option MarketInfo) (hmk : MarketsOk mk)
    (ops : List Op) (hops : f.v11 = true ∨ ∀ op ∈ ops, NoRepeats op) :
    let s := run f mk ops
    (∀ o, (.newOrder o ∈ s.events ∨ .orderUpdate o ∈ s.events) → WithinLimits o) ∧ ∀ o ∈ s.store, WithinLimits o := by
  have I := run_inv hf hmk ops hops
  refine ⟨?_, I.book.limits⟩
  rintro o (h | h)
  · exact I.events _ h
  · exact I.events _ h

end Verif.Dex
