import Verif.Dex.MatcherMain

/-! Which makers a taker meets, in which order and at which price. -/

namespace Verif.Dex
open Spec

/-- The takers whose quantity is limited by their money: market buys under version 12. -/
abbrev MoneyBound (f : Forks) (t : Order) : Prop := f.v12 = true ∧ t.type = .market ∧ t.side = false

structure TradeFacts (f : Forks) (mi : MarketInfo) (taker maker : Order) (r : Order × Order × Tx) : Prop where
  tkey : SameKey taker r.1
  mkey : SameKey maker r.2.1
  mid : r.2.2.makerId = maker.id
  tid : r.2.2.takerId = taker.id
  price : r.2.2.price = maker.price
  amount : r.2.2.amount ≤ calculateRawAmount r.2.2.quantity r.2.2.price (mi.tradeTokenDecimals - mi.quoteTokenDecimals)
  tqty : r.1.executedQuantity ≤ r.1.quantity
  mqty : r.2.1.executedQuantity ≤ r.2.1.quantity
  tstat : r.1.status = .fullyExecuted ∨ r.1.status = .partialExecuted
  mstat : r.2.1.status = .fullyExecuted ∨ r.2.1.status = .partialExecuted
  progress : ¬ MoneyBound f taker → r.1.status = .fullyExecuted ∨ r.2.1.status = .fullyExecuted
  filled : taker.type ≠ .market → r.1.status = .fullyExecuted →
    Filled (mi.tradeTokenDecimals - mi.quoteTokenDecimals) r.1
  balanced : Balanced r.2.2

theorem upd_status (f : Forks) (o : Order) (q a b p : Nat) (d : Int) (e : Nat) :
    (subAbs o.quantity o.executedQuantity = q →
      ((if f.v12 then updateOrderAfterUpgrade12 else updateOrderBeforeUpgrade12) o q a b p d e).status = .fullyExecuted) ∧
    (o.type ≠ .market →
      ((if f.v12 then updateOrderAfterUpgrade12 else updateOrderBeforeUpgrade12) o q a b p d e).status = .fullyExecuted →
      subAbs o.quantity o.executedQuantity = q ∨ isOrderDustForPrice o q d o.price = true) := by
  constructor
  · intro h
    split
    · simp [updateOrderAfterUpgrade12, h]
    · simp [updateOrderBeforeUpgrade12, h]
  · intro ht hst
    have key : ∀ c : Prop, [Decidable c] → (if c then Status.fullyExecuted else Status.partialExecuted) = .fullyExecuted →
        c := by
      intro c _ h; by_contra hc; rw [if_neg hc] at h; simp at h
    split at hst
    · unfold updateOrderAfterUpgrade12 at hst
      rcases key _ hst with h | h | h
      · exact .inl h
      · exact absurd h.1 ht
      · unfold isDustOrderAfterUpgrade12 at h; rw [if_pos ht] at h; exact .inr h
    · unfold updateOrderBeforeUpgrade12 at hst
      rcases key _ hst with h | h | h
      · exact .inl h
      · exact absurd h.1 ht
      · unfold isDustOrder at h; rw [if_pos ht] at h; exact .inr h

theorem mem_dropLast_cons {α} {x m : α} {l : List α} (h : m ∈ (x :: l).dropLast) : m = x ∨ m ∈ l.dropLast := by
  cases l with
  | nil => simp at h
  | cons y ys => simpa using h

theorem calculateOrderAmount_le_raw {o : Order} {q p : Nat} {d : Int} (h : o.side = false → o.executedAmount ≤ o.amount) :
    calculateOrderAmount o q p d ≤ calculateRawAmount q p d := by
  unfold calculateOrderAmount
  simp only
  split
  · rename_i hh
    rw [subAbs_le (h hh.1)]; omega
  · exact le_refl _

/-- A seller's amount is never cut. -/
theorem calculateOrderAmount_sell {o : Order} {q p : Nat} {d : Int} (h : o.side = true) :
    calculateOrderAmount o q p d = calculateRawAmount q p d := by
  unfold calculateOrderAmount
  simp [h]

theorem calcTx_facts (f : Forks) (mi : MarketInfo) {taker maker : Order} (rt : RatesOk taker) (rm : RatesOk maker)
    (qt : taker.executedQuantity ≤ taker.quantity) (qm : maker.executedQuantity ≤ maker.quantity)
    (hs : maker.side = !taker.side) : TradeFacts f mi taker maker (calculateOrderAndTx f mi taker maker) := by
  unfold calculateOrderAndTx
  simp only [subAbs_le qt, subAbs_le qm]
  generalize hQ : (if f.v12 = true ∧ taker.type = OType.market ∧ taker.side = false then _ else _ : Nat) = Q
  have hQ' : Q ≤ taker.quantity - taker.executedQuantity := by
    rw [← hQ]; split <;> omega
  have hQ2 : ¬ MoneyBound f taker → Q = taker.quantity - taker.executedQuantity := by
    intro h; rw [← hQ, if_neg h]
  clear hQ
  generalize hq : min Q (maker.quantity - maker.executedQuantity) = q
  generalize hA : min (calculateOrderAmount taker q maker.price (mi.tradeTokenDecimals - mi.quoteTokenDecimals))
    (calculateOrderAmount maker q maker.price (mi.tradeTokenDecimals - mi.quoteTokenDecimals)) = A
  have hA' : A ≤ calculateRawAmount q maker.price (mi.tradeTokenDecimals - mi.quoteTokenDecimals) := by
    rw [← hA]
    cases h : taker.side
    · have := calculateOrderAmount_sell (o := maker) (q := q) (p := maker.price)
        (d := mi.tradeTokenDecimals - mi.quoteTokenDecimals) (by simp [hs, h])
      omega
    · have := calculateOrderAmount_sell (o := taker) (q := q) (p := maker.price)
        (d := mi.tradeTokenDecimals - mi.quoteTokenDecimals) h
      omega
  have ft2 := fun h => fee_sell (f := f) taker A taker.takerFeeRate taker.takerOperatorFeeRate h rt.tb rt.tp
  have fm2 := fun h => fee_sell (f := f) maker A maker.makerFeeRate maker.makerOperatorFeeRate h rm.mb rm.mp
  generalize calculateFeeAndExecutedFee f taker A taker.takerFeeRate taker.takerOperatorFeeRate = tf at ft2
  generalize calculateFeeAndExecutedFee f maker A maker.makerFeeRate maker.makerOperatorFeeRate = mf at fm2
  simp only at ft2 fm2
  obtain ⟨s1, hs1, e1⟩ := upd_eq f taker q A tf.2.1 tf.2.2.2 (mi.tradeTokenDecimals - mi.quoteTokenDecimals) maker.price
  obtain ⟨s2, hs2, e2⟩ := upd_eq f maker q A mf.2.1 mf.2.2.2 (mi.tradeTokenDecimals - mi.quoteTokenDecimals) maker.price
  have u1 := upd_status f taker q A tf.2.1 tf.2.2.2 (mi.tradeTokenDecimals - mi.quoteTokenDecimals) maker.price
  have u2 := upd_status f maker q A mf.2.1 mf.2.2.2 (mi.tradeTokenDecimals - mi.quoteTokenDecimals) maker.price
  rw [e1] at u1
  rw [e2] at u2
  rw [e1, e2]
  rw [subAbs_le qt] at u1
  rw [subAbs_le qm] at u2
  simp only at u1 u2
  exact
    { tkey := by constructor <;> rfl
      mkey := by constructor <;> rfl
      mid := rfl, tid := rfl, price := rfl, amount := hA'
      tqty := by simp only; omega
      mqty := by simp only; omega
      tstat := hs1, mstat := hs2
      progress := by
        intro h
        have := hQ2 h
        by_cases hle : taker.quantity - taker.executedQuantity ≤ maker.quantity - maker.executedQuantity
        · exact .inl (u1.1 (by omega))
        · exact .inr (u2.1 (by omega))
      filled := by
        intro ht hst
        rcases u1.2 ht hst with h | h
        · left; simp only; omega
        · right
          unfold isOrderDustForPrice at h
          have hle : q ≤ taker.quantity - taker.executedQuantity := by omega
          rw [subAbs_le qt, subAbs_le hle, decide_eq_true_eq] at h
          simp only
          rw [← Nat.sub_sub]
          exact h
      balanced := by
        cases hts : taker.side <;> simp only [hts, Bool.not_false, Bool.not_true] at hs <;>
          simp only [hts, hs, forall_true_left, reduceCtorEq, false_implies] at ft2 fm2
        · have := subAbs_le fm2.2.2
          constructor <;> simp [settledAll, txSettles, hts, this] <;> omega
        · have := subAbs_le ft2.2.2
          constructor <;> simp [settledAll, txSettles, hts, this] <;> omega }

theorem matchPrice_accepts {taker maker : Order} (h : matchPrice taker maker = true) : Accepts taker maker.price := by
  unfold matchPrice at h
  split at h
  · rename_i hh
    rcases hh with hh | hh
    · exact .inl hh
    · cases hs : taker.side
      · exact .inr (.inl ⟨hs, by omega⟩)
      · exact .inr (.inr ⟨hs, by omega⟩)
  · cases hs : taker.side <;> simp only [hs, decide_eq_true_eq] at h
    · exact .inr (.inl ⟨hs, h⟩)
    · exact .inr (.inr ⟨hs, h⟩)

/-- What the loop did, for any upgrade flags. -/
structure LoopTrace (f : Forks) (mi : MarketInfo) (n : Nat) (taker : Order) (used : List Order) (taker' : Order)
    (mods : List Order) (txs : List Tx) : Prop where
  key : SameKey taker taker'
  keys : List.Forall₂ SameKey used mods
  qty : taker'.executedQuantity ≤ taker'.quantity
  bound : n + txs.length ≤ 100
  status : taker'.status = .pending ∨ taker'.status = .partialExecuted ∨
    (taker'.status = .fullyExecuted ∧
      (taker.type ≠ .market → Filled (mi.tradeTokenDecimals - mi.quoteTokenDecimals) taker')) ∨
    (taker'.status = .cancelled ∧ taker.type = .postOnly) ∨
    (taker'.status = .cancelled ∧ n + txs.length = 100)
  txok : ∀ tx ∈ txs, ∃ maker ∈ used, tx.makerId = maker.id ∧ tx.takerId = taker.id ∧ tx.price = maker.price ∧
    Accepts taker tx.price ∧
    tx.amount ≤ calculateRawAmount tx.quantity tx.price (mi.tradeTokenDecimals - mi.quoteTokenDecimals)
  fin : ¬ MoneyBound f taker → ∀ m ∈ mods.dropLast, Final m
  touched : ∀ m ∈ mods, Final m ∨ ∃ tx ∈ txs, tx.makerId = m.id
  bal : ∀ tx ∈ txs, Balanced tx
  postOnly : taker.type = .postOnly → txs = []

theorem takeLoop_trace (f : Forks) (mi : MarketInfo) (now : Nat) (makers : List Order) :
    ∀ (taker : Order) (mods : List Order) (txs : List Tx), RatesOk taker → taker.executedQuantity ≤ taker.quantity →
      (taker.status = .pending ∨ taker.status = .partialExecuted) → txs.length < 100 →
      (∀ o ∈ makers, RatesOk o ∧ o.executedQuantity ≤ o.quantity ∧ o.side = !taker.side) →
      ∃ used rest mods' txs', makers = used ++ rest ∧
        (takeLoop f mi now taker makers mods txs).2 = (mods ++ mods', txs ++ txs') ∧
        LoopTrace f mi txs.length taker used (takeLoop f mi now taker makers mods txs).1 mods' txs' := by
  have stop : ∀ (taker : Order) (txs : List Tx), taker.executedQuantity ≤ taker.quantity →
      (taker.status = .pending ∨ taker.status = .partialExecuted) → txs.length < 100 →
      LoopTrace f mi txs.length taker [] taker [] [] := by
    intro taker txs h1 h2 h3
    exact
      { key := .refl _, keys := .nil, qty := h1, bound := by simp; omega
        status := by tauto
        txok := by simp, fin := by simp, touched := by simp, bal := by simp, postOnly := by simp }
  induction makers with
  | nil =>
    intro taker mods txs _ qt st hn _
    exact ⟨[], [], [], [], rfl, by simp [takeLoop], by simpa [takeLoop] using stop taker txs qt st hn⟩
  | cons maker rest ih =>
    intro taker mods txs rt qt st hn hmk
    obtain ⟨rm, qm, sm⟩ := hmk maker (by simp)
    have hrest := fun o ho => hmk o (List.mem_cons_of_mem _ ho)
    have hnf : ¬ (taker.status = .fullyExecuted ∨ taker.status = .cancelled) := by
      rcases st with h | h <;> simp [h]
    unfold takeLoop
    split
    · rename_i maker' hto
      obtain ⟨r, rfl⟩ := filterTimeout_spec hto
      rw [if_neg hnf]
      obtain ⟨used, rest', mods', txs', e1, e2, L⟩ := ih taker (mods ++ [_]) txs rt qt st hn hrest
      refine ⟨maker :: used, rest', { maker with status := .cancelled, cancelReason := r } :: mods', txs', by simp [e1],
        by rw [e2]; simp, ?_⟩
      exact
        { key := L.key, keys := .cons (.status _ _ _) L.keys, qty := L.qty, bound := L.bound, status := L.status
          txok := by
            intro tx htx
            obtain ⟨m, hm, h⟩ := L.txok tx htx
            exact ⟨m, by simp [hm], h⟩
          fin := by
            intro h m hm
            rcases mem_dropLast_cons hm with rfl | hm
            · exact .inr rfl
            · exact L.fin h m hm
          touched := by
            intro m hm
            rcases List.mem_cons.1 hm with rfl | hm
            · exact .inl (.inr rfl)
            · exact L.touched m hm
          bal := L.bal, postOnly := L.postOnly }
    · split
      · rename_i hmp
        have hacc := matchPrice_accepts hmp
        split
        · rename_i hpo
          refine ⟨[], maker :: rest, [], [], rfl, by simp, ?_⟩
          exact
            { key := .status _ _ _, keys := .nil, qty := qt, bound := by simp; omega
              status := .inr (.inr (.inr (.inl ⟨rfl, hpo⟩)))
              txok := by simp, fin := by simp, touched := by simp, bal := by simp, postOnly := by simp }
        · rename_i hpo
          have T := calcTx_facts f mi rt rm qt qm sm
          generalize calculateOrderAndTx f mi taker maker = c at T
          obtain ⟨t1, m1, tx⟩ := c
          simp only at T ⊢
          have hone : ∃ mk ∈ [maker], tx.makerId = mk.id ∧ tx.takerId = taker.id ∧ tx.price = mk.price ∧
              Accepts taker tx.price ∧
              tx.amount ≤ calculateRawAmount tx.quantity tx.price (mi.tradeTokenDecimals - mi.quoteTokenDecimals) :=
            ⟨maker, by simp, T.mid, T.tid, T.price, by rw [T.price]; exact hacc, T.amount⟩
          have hmidm : tx.makerId = m1.id := T.mid.trans T.mkey.id.symm
          by_cases hcap : t1.status = Status.partialExecuted ∧ (txs ++ [tx]).length ≥ maxTxsCountPerTaker
          · rw [if_pos hcap, if_pos (by simp)]
            have h100 : txs.length + 1 = 100 := by
              have := hcap.2; simp [maxTxsCountPerTaker] at this; omega
            refine ⟨[maker], rest, [m1], [tx], rfl, rfl, ?_⟩
            exact
              { key := T.tkey.trans (.status _ _ _), keys := .cons T.mkey .nil, qty := T.tqty, bound := by simp; omega
                status := .inr (.inr (.inr (.inr ⟨rfl, by simp; omega⟩)))
                txok := by intro x hx; rw [List.mem_singleton] at hx; subst hx; exact hone
                fin := by simp
                touched := by simp [hmidm]
                bal := by simpa using T.balanced
                postOnly := fun h => absurd h hpo }
          · rw [if_neg hcap]
            by_cases hfin : t1.status = .fullyExecuted ∨ t1.status = .cancelled
            · rw [if_pos hfin]
              refine ⟨[maker], rest, [m1], [tx], rfl, rfl, ?_⟩
              have hfe : t1.status = .fullyExecuted := by
                rcases T.tstat with h | h
                · exact h
                · rw [h] at hfin; simp at hfin
              exact
                { key := T.tkey, keys := .cons T.mkey .nil, qty := T.tqty, bound := by simp; omega
                  status := .inr (.inr (.inl ⟨hfe, fun h => T.filled h hfe⟩))
                  txok := by intro x hx; rw [List.mem_singleton] at hx; subst hx; exact hone
                  fin := by simp
                  touched := by simp [hmidm]
                  bal := by simpa using T.balanced
                  postOnly := fun h => absurd h hpo }
            · rw [if_neg hfin]
              have hpart : t1.status = .partialExecuted := by
                rcases T.tstat with h | h
                · exact absurd (.inl h) hfin
                · exact h
              have hlen : (txs ++ [tx]).length < 100 := by
                have : ¬ (txs ++ [tx]).length ≥ maxTxsCountPerTaker := fun h => hcap ⟨hpart, h⟩
                simp [maxTxsCountPerTaker] at this ⊢; omega
              obtain ⟨used, rest', mods', txs', e1, e2, L⟩ := ih t1 (mods ++ [m1]) (txs ++ [tx])
                (T.tkey.rates rt) T.tqty (.inr hpart) hlen (by rw [T.tkey.side]; exact hrest)
              have hb := L.bound
              have hstt := L.status
              simp only [List.length_append, List.length_cons, List.length_nil] at hb hstt
              have hacceq : ∀ p, Accepts t1 p ↔ Accepts taker p := by
                intro p; unfold Accepts; rw [T.tkey.type, T.tkey.side, T.tkey.price]
              have hmb : MoneyBound f t1 ↔ MoneyBound f taker := by
                unfold MoneyBound; rw [T.tkey.type, T.tkey.side]
              refine ⟨maker :: used, rest', m1 :: mods', tx :: txs', by simp [e1], by rw [e2]; simp, ?_⟩
              exact
                { key := T.tkey.trans L.key, keys := .cons T.mkey L.keys, qty := L.qty
                  bound := by simp only [List.length_cons]; omega
                  status := by
                    rw [T.tkey.type] at hstt
                    simp only [List.length_cons]
                    rcases hstt with h | h | h | h | h
                    · exact .inl h
                    · exact .inr (.inl h)
                    · exact .inr (.inr (.inl h))
                    · exact .inr (.inr (.inr (.inl h)))
                    · exact .inr (.inr (.inr (.inr ⟨h.1, by omega⟩)))
                  txok := by
                    intro x hx
                    rcases List.mem_cons.1 hx with rfl | hx
                    · obtain ⟨mk, h1, h2⟩ := hone
                      exact ⟨mk, by simp at h1; simp [h1], h2⟩
                    · obtain ⟨mk, h1, h2, h3, h4, h5, h6⟩ := L.txok x hx
                      exact ⟨mk, by simp [h1], h2, by rw [h3, T.tkey.id], h4, (hacceq _).1 h5, h6⟩
                  fin := by
                    intro h m hm
                    rcases mem_dropLast_cons hm with rfl | hm
                    · rcases T.progress h with h1 | h1
                      · rw [hpart] at h1; simp at h1
                      · exact .inl h1
                    · exact L.fin (fun hh => h (hmb.1 hh)) m hm
                  touched := by
                    intro m hm
                    rcases List.mem_cons.1 hm with rfl | hm
                    · exact .inr ⟨tx, by simp, by rw [T.mid, T.mkey.id]⟩
                    · rcases L.touched m hm with h | ⟨x, hx, h⟩
                      · exact .inl h
                      · exact .inr ⟨x, by simp [hx], h⟩
                  bal := by
                    intro x hx
                    rcases List.mem_cons.1 hx with rfl | hx
                    · exact T.balanced
                    · exact L.bal x hx
                  postOnly := fun h => absurd h hpo }
      · exact ⟨[], maker :: rest, [], [], rfl, by simp, stop taker txs qt st hn⟩

end Verif.Dex
