import Verif.Tactics
import Verif.Dex.MatcherSpec

namespace Verif.Dex
open Spec

theorem subAbs_le {a b : Nat} (h : b ≤ a) : subAbs a b = a - b := by unfold subAbs; omega

/-- Fields no match ever changes. -/
structure SameKey (o o' : Order) : Prop where
  id : o'.id = o.id
  marketId : o'.marketId = o.marketId
  address : o'.address = o.address
  side : o'.side = o.side
  type : o'.type = o.type
  price : o'.price = o.price
  quantity : o'.quantity = o.quantity
  amount : o'.amount = o.amount
  lockedBuyFee : o'.lockedBuyFee = o.lockedBuyFee
  tb : o'.takerFeeRate = o.takerFeeRate
  mb : o'.makerFeeRate = o.makerFeeRate
  tp : o'.takerOperatorFeeRate = o.takerOperatorFeeRate
  mp : o'.makerOperatorFeeRate = o.makerOperatorFeeRate
  timestamp : o'.timestamp = o.timestamp

theorem SameKey.refl (o : Order) : SameKey o o := by constructor <;> rfl

theorem SameKey.trans {a b c : Order} (h : SameKey a b) (k : SameKey b c) : SameKey a c := by
  constructor
  · rw [k.id, h.id]
  · rw [k.marketId, h.marketId]
  · rw [k.address, h.address]
  · rw [k.side, h.side]
  · rw [k.type, h.type]
  · rw [k.price, h.price]
  · rw [k.quantity, h.quantity]
  · rw [k.amount, h.amount]
  · rw [k.lockedBuyFee, h.lockedBuyFee]
  · rw [k.tb, h.tb]
  · rw [k.mb, h.mb]
  · rw [k.tp, h.tp]
  · rw [k.mp, h.mp]
  · rw [k.timestamp, h.timestamp]

theorem SameKey.rates {o o' : Order} (h : SameKey o o') (k : RatesOk o) : RatesOk o' :=
  ⟨h.tb ▸ k.tb, h.mb ▸ k.mb, h.tp ▸ k.tp, h.mp ▸ k.mp⟩

/-! ### One transaction -/

theorem calculateExecutedFee_buy (amount rate origin locked used : Nat) (hu : used ≤ locked) :
    let r := calculateExecutedFee amount rate false origin locked used
    r.2.1 = origin + r.1 ∧ used + r.1 ≤ locked := by
  unfold calculateExecutedFee
  split
  · simp; omega
  · simp only
    split
    · simp; omega
    · split
      · simp [subAbs_le hu]; omega
      · simp; omega

theorem calculateExecutedFee_sell (amount rate origin locked used : Nat) :
    let r := calculateExecutedFee amount rate true origin locked used
    r.2.1 = origin + r.1 ∧ r.2.2 = true ∧ (r.1 = 0 ∨ r.1 = calculateAmountForRate amount rate) := by
  unfold calculateExecutedFee
  split <;> simp

theorem fee_buy {f : Forks} (hf : f.dexFee = true) (o : Order) (amount r₁ r₂ : Nat) (hs : o.side = false)
    (h : o.executedBaseFee + o.executedOperatorFee ≤ o.lockedBuyFee) :
    let x := calculateFeeAndExecutedFee f o amount r₁ r₂
    x.2.1 = o.executedBaseFee + x.1 ∧ x.2.2.2 = o.executedOperatorFee + x.2.2.1 ∧
      x.2.1 + x.2.2.2 ≤ o.lockedBuyFee := by
  unfold calculateFeeAndExecutedFee
  have h1 := calculateExecutedFee_buy amount r₁ o.executedBaseFee o.lockedBuyFee _ h
  rw [hs]
  generalize calculateExecutedFee amount r₁ false o.executedBaseFee o.lockedBuyFee
    (o.executedBaseFee + o.executedOperatorFee) = b at h1 ⊢
  obtain ⟨b1, b2, b3⟩ := b
  simp only at h1 ⊢
  cases b3
  · simp [hf]; omega
  · have h2 := calculateExecutedFee_buy amount r₂ o.executedOperatorFee o.lockedBuyFee (b2 + o.executedOperatorFee)
      (by omega)
    generalize calculateExecutedFee amount r₂ false o.executedOperatorFee o.lockedBuyFee
      (b2 + o.executedOperatorFee) = p at h2 ⊢
    obtain ⟨p1, p2, p3⟩ := p
    simp only at h2 ⊢
    simp; omega

theorem fee_sell {f : Forks} (o : Order) (amount r₁ r₂ : Nat) (hs : o.side = true) (h₁ : r₁ ≤ 200) (h₂ : r₂ ≤ 200) :
    let x := calculateFeeAndExecutedFee f o amount r₁ r₂
    x.2.1 = o.executedBaseFee + x.1 ∧ x.2.2.2 = o.executedOperatorFee + x.2.2.1 ∧ x.1 + x.2.2.1 ≤ amount := by
  unfold calculateFeeAndExecutedFee
  have h1 := calculateExecutedFee_sell amount r₁ o.executedBaseFee o.lockedBuyFee
    (o.executedBaseFee + o.executedOperatorFee)
  have h2 := calculateExecutedFee_sell amount r₂ o.executedOperatorFee o.lockedBuyFee
  have h3 := two_fees_le amount r₁ r₂ h₁ h₂
  rw [hs]
  generalize calculateExecutedFee amount r₁ true o.executedBaseFee o.lockedBuyFee
    (o.executedBaseFee + o.executedOperatorFee) = b at h1 ⊢
  obtain ⟨b1, b2, b3⟩ := b
  simp only at h1 ⊢
  rw [if_pos h1.2.1]
  have h2 := h2 (b2 + o.executedOperatorFee)
  generalize calculateExecutedFee amount r₂ true o.executedOperatorFee o.lockedBuyFee
      (b2 + o.executedOperatorFee) = p at h2 ⊢
  obtain ⟨p1, p2, p3⟩ := p
  simp only at h2 ⊢
  omega

theorem calculateOrderAmount_le (o : Order) (q p : Nat) (d : Int) (hs : o.side = false) (h : o.executedAmount ≤ o.amount) :
    calculateOrderAmount o q p d ≤ o.amount - o.executedAmount := by
  unfold calculateOrderAmount
  simp only [hs, true_and]
  split
  · rw [subAbs_le h]
  · omega

/-- What one trade does, as the settlement sees it. -/
structure TxSpec (taker maker taker' maker' : Order) (tx : Tx) : Prop where
  tkey : SameKey taker taker'
  mkey : SameKey maker maker'
  tlim : WithinLimits taker'
  mlim : WithinLimits maker'
  tqty : taker'.executedQuantity = taker.executedQuantity + tx.quantity
  mqty : maker'.executedQuantity = maker.executedQuantity + tx.quantity
  tamt : taker'.executedAmount = taker.executedAmount + tx.amount
  mamt : maker'.executedAmount = maker.executedAmount + tx.amount
  tbase : taker'.executedBaseFee = taker.executedBaseFee + tx.takerFee
  mbase : maker'.executedBaseFee = maker.executedBaseFee + tx.makerFee
  top : taker'.executedOperatorFee = taker.executedOperatorFee + tx.takerOperatorFee
  mop : maker'.executedOperatorFee = maker.executedOperatorFee + tx.makerOperatorFee
  seller : if tx.takerSide = true then tx.takerFee + tx.takerOperatorFee ≤ tx.amount
    else tx.makerFee + tx.makerOperatorFee ≤ tx.amount
  side : tx.takerSide = taker.side
  taddr : tx.takerAddress = taker.address
  maddr : tx.makerAddress = maker.address
  tid : tx.takerId = taker.id
  mid : tx.makerId = maker.id
  price : tx.price = maker.price
  tstat : taker'.status = .fullyExecuted ∨ taker'.status = .partialExecuted
  mstat : maker'.status = .fullyExecuted ∨ maker'.status = .partialExecuted
  treason : taker'.cancelReason = taker.cancelReason
  mreason : maker'.cancelReason = maker.cancelReason

/-- The two versions of `updateOrder` differ only in the status they compute. -/
theorem upd_eq (f : Forks) (o : Order) (q a b p : Nat) (d : Int) (e : Nat) :
    ∃ s, (s = .fullyExecuted ∨ s = .partialExecuted) ∧
    (if f.v12 then updateOrderAfterUpgrade12 else updateOrderBeforeUpgrade12) o q a b p d e =
      { o with status := s, executedAmount := o.executedAmount + a, executedBaseFee := b, executedOperatorFee := p,
               executedQuantity := o.executedQuantity + q } := by
  split
  · refine ⟨_, ?_, rfl⟩; split <;> simp
  · refine ⟨_, ?_, rfl⟩; split <;> simp

theorem calcTx_spec {f : Forks} (hf : f.dexFee = true) (mi : MarketInfo) {taker maker : Order}
    (ht : WithinLimits taker) (hm : WithinLimits maker) (rt : RatesOk taker) (rm : RatesOk maker)
    (hs : maker.side = !taker.side) :
    TxSpec taker maker (calculateOrderAndTx f mi taker maker).1 (calculateOrderAndTx f mi taker maker).2.1
      (calculateOrderAndTx f mi taker maker).2.2 := by
  have hq1 := ht.quantity
  have hq2 := hm.quantity
  unfold calculateOrderAndTx
  simp only [subAbs_le hq1, subAbs_le hq2]
  generalize hQ : (if f.v12 = true ∧ taker.type = OType.market ∧ taker.side = false then _ else _ : Nat) = Q
  have hQ' : Q ≤ taker.quantity - taker.executedQuantity := by
    rw [← hQ]; split <;> omega
  clear hQ
  have hE1 : min Q (maker.quantity - maker.executedQuantity) ≤ taker.quantity - taker.executedQuantity := by omega
  have hE2 : min Q (maker.quantity - maker.executedQuantity) ≤ maker.quantity - maker.executedQuantity := by omega
  generalize min Q (maker.quantity - maker.executedQuantity) = q at hE1 hE2
  have hA1 := calculateOrderAmount_le taker q maker.price (mi.tradeTokenDecimals - mi.quoteTokenDecimals)
  have hA2 := calculateOrderAmount_le maker q maker.price (mi.tradeTokenDecimals - mi.quoteTokenDecimals)
  generalize hAA : min (calculateOrderAmount taker q maker.price (mi.tradeTokenDecimals - mi.quoteTokenDecimals))
    (calculateOrderAmount maker q maker.price (mi.tradeTokenDecimals - mi.quoteTokenDecimals)) = A
  have hAt : taker.side = false → A ≤ taker.amount - taker.executedAmount := fun h => by
    have := hA1 h (ht.amount h); omega
  have hAm : maker.side = false → A ≤ maker.amount - maker.executedAmount := fun h => by
    have := hA2 h (hm.amount h); omega
  clear hA1 hA2 hAA
  have ft1 := fun h => fee_buy hf taker A taker.takerFeeRate taker.takerOperatorFeeRate h (ht.fee h)
  have ft2 := fun h => fee_sell (f := f) taker A taker.takerFeeRate taker.takerOperatorFeeRate h rt.tb rt.tp
  have fm1 := fun h => fee_buy hf maker A maker.makerFeeRate maker.makerOperatorFeeRate h (hm.fee h)
  have fm2 := fun h => fee_sell (f := f) maker A maker.makerFeeRate maker.makerOperatorFeeRate h rm.mb rm.mp
  generalize calculateFeeAndExecutedFee f taker A taker.takerFeeRate taker.takerOperatorFeeRate = tf at ft1 ft2
  generalize calculateFeeAndExecutedFee f maker A maker.makerFeeRate maker.makerOperatorFeeRate = mf at fm1 fm2
  simp only at ft1 ft2 fm1 fm2
  obtain ⟨s1, hs1, e1⟩ := upd_eq f taker q A tf.2.1 tf.2.2.2 (mi.tradeTokenDecimals - mi.quoteTokenDecimals) maker.price
  obtain ⟨s2, hs2, e2⟩ := upd_eq f maker q A mf.2.1 mf.2.2.2 (mi.tradeTokenDecimals - mi.quoteTokenDecimals) maker.price
  rw [e1, e2]
  have ta := ht.amount
  have ma := hm.amount
  cases hts : taker.side <;> simp only [hts, Bool.not_false, Bool.not_true] at hs <;>
    simp only [hts, hs, forall_true_left, reduceCtorEq, false_implies] at hAt hAm ft1 ft2 fm1 fm2 ta ma <;>
    constructor <;> first
      | rfl
      | assumption
      | (constructor <;> rfl)
      | (constructor <;> simp [hts, hs] <;> omega)
      | (simp [hts]; done)
      | (simp [hts]; omega)

/-! ### Sums -/

theorem tiedUpFor_nil (m a t) : tiedUpFor m a t [] = 0 := rfl

theorem tiedUpFor_cons (m a t) (o : Order) (l : List Order) :
    tiedUpFor m a t (o :: l) = tiedUpFor m a t [o] + tiedUpFor m a t l := by simp [tiedUpFor]

theorem tiedUpFor_append (m a t) (l l' : List Order) :
    tiedUpFor m a t (l ++ l') = tiedUpFor m a t l + tiedUpFor m a t l' := by simp [tiedUpFor]

theorem tiedUpFor_one (m a t) (o : Order) :
    tiedUpFor m a t [o] = if o.marketId = m ∧ o.address = a ∧ o.side = t then tiedUp o else 0 := by simp [tiedUpFor]

/-- The settlements of a list of trades. -/
def allTxSettles (txs : List Tx) : List Settle := txs.flatMap txSettles

theorem settled_append (g a t) (l l' : List Settle) : settled g a t (l ++ l') = settled g a t l + settled g a t l' := by
  simp [settled]

theorem settledAll_append (g t) (l l' : List Settle) :
    settledAll g t (l ++ l') = settledAll g t l + settledAll g t l' := by simp [settledAll]

theorem settled_nil (g a t) : settled g a t [] = 0 := rfl
theorem settledAll_nil (g t) : settledAll g t [] = 0 := rfl

/-- The three columns of a settlement add up under merging. -/
def Column (g : Settle → Nat) : Prop :=
  ∀ x s : Settle, g { x with
        incAvailable := x.incAvailable + s.incAvailable
        releaseLocked := x.releaseLocked + s.releaseLocked
        reduceLocked := x.reduceLocked + s.reduceLocked } = g x + g s

theorem column_inc : Column Settle.incAvailable := fun _ _ => rfl
theorem column_release : Column Settle.releaseLocked := fun _ _ => rfl
theorem column_reduce : Column Settle.reduceLocked := fun _ _ => rfl

theorem settled_update {g} (hg : Column g) (a t) (s : Settle) (l : List Settle) :
    settled g a t (updateFundSettle s l) = settled g a t l + settled g a t [s] := by
  induction l with
  | nil => simp [updateFundSettle, settled]
  | cons x xs ih =>
    unfold updateFundSettle
    split
    · rename_i h
      have := hg x s
      simp only [settled, List.map_cons, List.sum_cons, List.map_nil, List.sum_nil] at *
      rw [this, ← h.1, ← h.2]
      split <;> omega
    · simp only [settled, List.map_cons, List.sum_cons, List.map_nil, List.sum_nil] at *
      omega

theorem settledAll_update {g} (hg : Column g) (t) (s : Settle) (l : List Settle) :
    settledAll g t (updateFundSettle s l) = settledAll g t l + settledAll g t [s] := by
  induction l with
  | nil => simp [updateFundSettle, settledAll]
  | cons x xs ih =>
    unfold updateFundSettle
    split
    · rename_i h
      have := hg x s
      simp only [settledAll, List.map_cons, List.sum_cons, List.map_nil, List.sum_nil] at *
      rw [this, ← h.2]
      split <;> omega
    · simp only [settledAll, List.map_cons, List.sum_cons, List.map_nil, List.sum_nil] at *
      omega

theorem feesAll_update (s : FeeSettle) (l : List FeeSettle) :
    feesAll (updateFee s l) = feesAll l + (s.baseFee + s.operatorFee) := by
  induction l with
  | nil => simp [updateFee, feesAll]
  | cons x xs ih =>
    unfold updateFee
    split <;> simp only [feesAll, List.map_cons, List.sum_cons] at * <;> omega

theorem settled_foldl {g} (hg : Column g) (a t) (ss l : List Settle) :
    settled g a t (ss.foldl (fun l s => updateFundSettle s l) l) = settled g a t l + settled g a t ss := by
  induction ss generalizing l with
  | nil => simp [settled]
  | cons s ss ih =>
    rw [List.foldl_cons, ih, settled_update hg]
    have := settled_append g a t [s] ss
    simp only [List.singleton_append] at this
    omega

theorem settledAll_foldl {g} (hg : Column g) (t) (ss l : List Settle) :
    settledAll g t (ss.foldl (fun l s => updateFundSettle s l) l) = settledAll g t l + settledAll g t ss := by
  induction ss generalizing l with
  | nil => simp [settledAll]
  | cons s ss ih =>
    rw [List.foldl_cons, ih, settledAll_update hg]
    have := settledAll_append g t [s] ss
    simp only [List.singleton_append] at this
    omega

/-! ### The loop -/

/-- A trade is balanced: what the two sides give is what they get, fees included. -/
structure Balanced (tx : Tx) : Prop where
  trade : settledAll Settle.incAvailable true (txSettles tx) = settledAll Settle.reduceLocked true (txSettles tx)
  quote : settledAll Settle.incAvailable false (txSettles tx) +
      (tx.takerFee + tx.takerOperatorFee + (tx.makerFee + tx.makerOperatorFee)) =
    settledAll Settle.reduceLocked false (txSettles tx)

theorem TxSpec.balanced {taker maker taker' maker' tx} (h : TxSpec taker maker taker' maker' tx) : Balanced tx := by
  have hs := h.seller
  cases hts : tx.takerSide <;> simp only [hts, reduceCtorEq, if_true, if_false] at hs <;>
    constructor <;> simp [settledAll, txSettles, hts, subAbs_le hs] <;> omega

theorem TxSpec.tied {taker maker taker' maker' tx} (h : TxSpec taker maker taker' maker' tx) {m : Nat}
    (hs : maker.side = !taker.side) (hm : maker.marketId = m) (ht : taker.marketId = m) (a : Nat) (t : Bool) :
    tiedUpFor m a t [taker] + tiedUpFor m a t [maker] =
      tiedUpFor m a t [taker'] + tiedUpFor m a t [maker'] + settled Settle.reduceLocked a t (txSettles tx) := by
  have h1 := h.tlim.quantity
  have h2 := h.mlim.quantity
  have h3 := h.tlim.amount
  have h4 := h.mlim.amount
  have h5 := h.tlim.fee
  have h6 := h.mlim.fee
  have k1 := h.tkey
  have k2 := h.mkey
  simp only [tiedUpFor_one, tiedUp, k1.marketId, k1.address, k1.side, k2.marketId, k2.address, k2.side, ht, hm,
    k1.quantity, k1.amount, k1.lockedBuyFee, k2.quantity, k2.amount, k2.lockedBuyFee, h.tqty, h.mqty, h.tamt, h.mamt,
    h.tbase, h.mbase, h.top, h.mop, true_and] at *
  cases hts : taker.side <;> simp only [hts, Bool.not_false, Bool.not_true] at hs <;>
    cases t <;> by_cases e1 : taker.address = a <;> by_cases e2 : maker.address = a <;>
    simp [settled, txSettles, h.side, hts, hs, h.taddr, h.maddr, e1, e2] at h3 h4 h5 h6 ⊢ <;> omega

/-- What a run of the matching loop from `taker` over the prefix `used` of the book did. -/
structure LoopSpec (m : Nat) (taker : Order) (used : List Order) (taker' : Order) (mods : List Order) (txs : List Tx) :
    Prop where
  key : SameKey taker taker'
  lim : WithinLimits taker'
  keys : List.Forall₂ SameKey used mods
  lims : ∀ o ∈ mods, WithinLimits o
  tied : ∀ a t, tiedUpFor m a t [taker] + tiedUpFor m a t used =
    tiedUpFor m a t [taker'] + tiedUpFor m a t mods + settled Settle.reduceLocked a t (allTxSettles txs)
  bal : ∀ tx ∈ txs, Balanced tx

theorem tiedUpFor_status (m a t) (o : Order) (s r) :
    tiedUpFor m a t [{ o with status := s, cancelReason := r }] = tiedUpFor m a t [o] := by
  simp [tiedUpFor_one, tiedUp]

theorem SameKey.status (o : Order) (s r) : SameKey o { o with status := s, cancelReason := r } := by
  constructor <;> rfl

theorem filterTimeout_spec {f now maker maker'} (h : filterTimeout f now maker = some maker') :
    ∃ r, maker' = { maker with status := .cancelled, cancelReason := r } := by
  unfold filterTimeout at h
  split at h
  · simp at h
  · split at h
    · simp only [Option.some.injEq] at h
      exact ⟨_, h.symm⟩
    · simp at h

theorem Spec.WithinLimits.status {o : Order} (h : WithinLimits o) (s r) :
    WithinLimits { o with status := s, cancelReason := r } := ⟨h.quantity, h.amount, h.fee⟩

theorem LoopSpec.nil {m taker} (h : WithinLimits taker) : LoopSpec m taker [] taker [] [] where
  key := .refl _
  lim := h
  keys := .nil
  lims := by simp
  tied := by intro a t; simp [allTxSettles, settled]
  bal := by simp

/-- The loop is a run over a prefix of the book. -/
theorem takeLoop_spec {f : Forks} (hf : f.dexFee = true) (mi : MarketInfo) (now : Nat) (makers : List Order) :
    ∀ (taker : Order) (mods : List Order) (txs : List Tx), WithinLimits taker → RatesOk taker →
      taker.marketId = mi.marketId →
      (∀ o ∈ makers, WithinLimits o ∧ RatesOk o ∧ o.marketId = mi.marketId ∧ o.side = !taker.side) →
      ∃ used rest mods' txs', makers = used ++ rest ∧
        (takeLoop f mi now taker makers mods txs).2 = (mods ++ mods', txs ++ txs') ∧
        LoopSpec mi.marketId taker used (takeLoop f mi now taker makers mods txs).1 mods' txs' := by
  induction makers with
  | nil =>
    intro taker mods txs ht _ _ _
    exact ⟨[], [], [], [], rfl, by simp [takeLoop], by simpa [takeLoop] using LoopSpec.nil ht⟩
  | cons maker rest ih =>
    intro taker mods txs ht rt mt hmk
    obtain ⟨hm, rm, mm, sm⟩ := hmk maker (by simp)
    have hrest := fun o ho => hmk o (List.mem_cons_of_mem _ ho)
    unfold takeLoop
    split
    · rename_i maker' hto
      obtain ⟨r, rfl⟩ := filterTimeout_spec hto
      split
      · refine ⟨[maker], rest, [_], [], rfl, by simp; rfl, ?_⟩
        exact
          { key := .refl _, lim := ht, keys := .cons (.status _ _ _) .nil
            lims := by simp; exact hm.status _ _
            tied := by
              intro a t
              have := tiedUpFor_status mi.marketId a t maker .cancelled r
              simp only [allTxSettles, settled, List.flatMap_nil, List.map_nil, List.sum_nil]
              omega
            bal := by simp }
      · obtain ⟨used, rest', mods', txs', e1, e2, L⟩ := ih taker (mods ++ [_]) txs ht rt mt hrest
        refine ⟨maker :: used, rest', _ :: mods', txs', by simp [e1], by rw [e2]; simp; rfl, ?_⟩
        exact
          { key := L.key, lim := L.lim, keys := .cons (.status _ _ _) L.keys
            lims := by
              intro o ho
              rcases List.mem_cons.1 ho with rfl | ho
              · exact hm.status _ _
              · exact L.lims o ho
            tied := by
              intro a t
              have := L.tied a t
              have h2 := tiedUpFor_status mi.marketId a t maker .cancelled r
              rw [tiedUpFor_cons _ _ _ maker, tiedUpFor_cons _ _ _ _ mods', h2]
              omega
            bal := L.bal }
    · split
      · split
        · refine ⟨[], maker :: rest, [], [], rfl, by simp, ?_⟩
          exact
            { key := .status _ _ _, lim := ht.status _ _, keys := .nil, lims := by simp
              tied := by
                intro a t
                have := tiedUpFor_status mi.marketId a t taker .cancelled .cancelledByPostOnlyMatched
                simp only [allTxSettles, settled, List.flatMap_nil, List.map_nil, List.sum_nil, tiedUpFor_nil]
                omega
              bal := by simp }
        · have T := calcTx_spec hf mi ht hm rt rm sm
          generalize calculateOrderAndTx f mi taker maker = c at T
          obtain ⟨t1, m1, tx⟩ := c
          simp only at T ⊢
          generalize ht2 : (if t1.status = Status.partialExecuted ∧ (txs ++ [tx]).length ≥ maxTxsCountPerTaker then _
            else _ : Order) = t2
          have hk : SameKey t1 t2 := by
            rw [← ht2]; split
            · exact .status _ _ _
            · exact .refl _
          have hl : WithinLimits t2 := by
            rw [← ht2]; split
            · exact T.tlim.status _ _
            · exact T.tlim
          have hti : ∀ a t, tiedUpFor mi.marketId a t [t2] = tiedUpFor mi.marketId a t [t1] := by
            intro a t
            rw [← ht2]; split
            · exact tiedUpFor_status _ _ _ _ _ _
            · rfl
          have hT := T.tied sm mm mt
          split
          · refine ⟨[maker], rest, [m1], [tx], rfl, rfl, ?_⟩
            exact
              { key := T.tkey.trans hk, lim := hl, keys := .cons T.mkey .nil
                lims := by simp; exact T.mlim
                tied := by
                  intro a t
                  rw [hti]
                  simpa [allTxSettles] using hT a t
                bal := by simpa using T.balanced }
          · obtain ⟨used, rest', mods', txs', e1, e2, L⟩ := ih t2 (mods ++ [m1]) (txs ++ [tx]) hl
              (hk.rates (T.tkey.rates rt)) (by rw [hk.marketId, T.tkey.marketId, mt])
              (by rw [hk.side, T.tkey.side]; exact hrest)
            refine ⟨maker :: used, rest', m1 :: mods', tx :: txs', by simp [e1], by rw [e2]; simp, ?_⟩
            exact
              { key := (T.tkey.trans hk).trans L.key, lim := L.lim, keys := .cons T.mkey L.keys
                lims := by
                  intro o ho
                  rcases List.mem_cons.1 ho with rfl | ho
                  · exact T.mlim
                  · exact L.lims o ho
                tied := by
                  intro a t
                  have h1 := L.tied a t
                  have h2 := hT a t
                  rw [hti] at h1
                  rw [tiedUpFor_cons _ _ _ maker, tiedUpFor_cons _ _ _ _ mods']
                  simp only [allTxSettles, List.flatMap_cons, settled_append] at *
                  omega
                bal := by
                  intro x hx
                  rcases List.mem_cons.1 hx with rfl | hx
                  · exact T.balanced
                  · exact L.bal x hx }
      · exact ⟨[], maker :: rest, [], [], rfl, by simp, LoopSpec.nil ht⟩

end Verif.Dex
