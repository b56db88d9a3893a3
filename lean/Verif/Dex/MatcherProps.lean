import Verif.Dex.MatcherTrace
import Verif.Dex.BigFloatErr
import Verif.Dex.OrderIdProps

/-!
# Properties of the matching engine: C23, C24, C25, C26
-/

namespace Verif.Dex
open Spec

/-! ### Lemmas that hold whatever the upgrade flags -/

theorem handleRefund_cols (mc : Mc) (o : Order) :
    (handleRefund mc o).1.store = mc.store ∧ (handleRefund mc o).1.fees = mc.fees ∧
    (handleRefund mc o).1.events = mc.events ∧
    (∀ t, settledAll Settle.incAvailable t (handleRefund mc o).1.settles = settledAll Settle.incAvailable t mc.settles) ∧
    (∀ t, settledAll Settle.reduceLocked t (handleRefund mc o).1.settles = settledAll Settle.reduceLocked t mc.settles) := by
  unfold handleRefund
  split
  · simp only
    split
    · refine ⟨rfl, rfl, rfl, ?_, ?_⟩ <;> intro t
      · simp only; rw [settledAll_update column_inc]; simp [settledAll]
      · simp only; rw [settledAll_update column_reduce]; simp [settledAll]
    · simp
  · simp

theorem handleRefund_status (mc : Mc) (o : Order) :
    (handleRefund mc o).2.status = o.status ∧ (handleRefund mc o).2.cancelReason = o.cancelReason ∧
    (handleRefund mc o).2.id = o.id ∧ (handleRefund mc o).2.executedQuantity = o.executedQuantity ∧
    (handleRefund mc o).2.quantity = o.quantity ∧ (handleRefund mc o).2.price = o.price := by
  unfold handleRefund
  split
  · simp only
    split <;> simp
  · simp

theorem mem_put_weak {o x : Order} {l : List Order} (h : x ∈ put o l) : x = o ∨ x ∈ l := by
  induction l with
  | nil => simpa [put] using h
  | cons z zs ih =>
    unfold put at h
    split at h
    · simpa using h
    · split at h
      · simp at h ⊢; tauto
      · simp at h ⊢; rcases h with h | h
        · tauto
        · have := ih h; tauto

/-- Settling the taker moves no money between accounts; it leaves the table alone except for resting the taker. -/
theorem handleTakerRes_cols (mc : Mc) (t1 : Order) :
    (handleTakerRes mc t1).1.fees = mc.fees ∧
    (handleTakerRes mc t1).1.events = mc.events ++ [.newOrder (handleTakerRes mc t1).2] ∧
    (∀ t, settledAll Settle.incAvailable t (handleTakerRes mc t1).1.settles = settledAll Settle.incAvailable t mc.settles) ∧
    (∀ t, settledAll Settle.reduceLocked t (handleTakerRes mc t1).1.settles = settledAll Settle.reduceLocked t mc.settles) ∧
    (∀ x ∈ (handleTakerRes mc t1).1.store, x ∈ mc.store ∨ x.id = t1.id) := by
  have ref : ∀ t, (handleRefund mc t).1.fees = mc.fees ∧
      (handleRefund mc t).1.events = mc.events ∧
      (∀ x, settledAll Settle.incAvailable x (handleRefund mc t).1.settles = settledAll Settle.incAvailable x mc.settles) ∧
      (∀ x, settledAll Settle.reduceLocked x (handleRefund mc t).1.settles = settledAll Settle.reduceLocked x mc.settles) ∧
      (∀ x ∈ (handleRefund mc t).1.store, x ∈ mc.store ∨ x.id = t1.id) := by
    intro t
    obtain ⟨h1, h2, h3, h4, h5⟩ := handleRefund_cols mc t
    exact ⟨h2, h3, h4, h5, fun x hx => .inl (h1 ▸ hx)⟩
  have key : (settleTaker mc t1).1.fees = mc.fees ∧ (settleTaker mc t1).1.events = mc.events ∧
      (∀ x, settledAll Settle.incAvailable x (settleTaker mc t1).1.settles = settledAll Settle.incAvailable x mc.settles) ∧
      (∀ x, settledAll Settle.reduceLocked x (settleTaker mc t1).1.settles = settledAll Settle.reduceLocked x mc.settles) ∧
      (∀ x ∈ (settleTaker mc t1).1.store, x ∈ mc.store ∨ x.id = t1.id) := by
    unfold settleTaker
    split
    · exact ref _
    · split
      · split
        · exact ref _
        · refine ⟨rfl, rfl, fun _ => rfl, fun _ => rfl, fun x hx => ?_⟩
          rcases mem_put_weak hx with rfl | hx
          · exact .inr (killUnfilled_key t1).id
          · exact .inl hx
      · exact ref _
  unfold handleTakerRes
  simp only
  exact ⟨key.1, by rw [key.2.1], key.2.2.1, key.2.2.2.1, key.2.2.2.2⟩

theorem handleModifiedMakers_cols (mods : List Order) : ∀ mc : Mc,
    (handleModifiedMakers mc mods).fees = mc.fees ∧
    (∀ tx, .transaction tx ∈ (handleModifiedMakers mc mods).events → .transaction tx ∈ mc.events) ∧
    (∀ t, settledAll Settle.incAvailable t (handleModifiedMakers mc mods).settles = settledAll Settle.incAvailable t mc.settles) ∧
    (∀ t, settledAll Settle.reduceLocked t (handleModifiedMakers mc mods).settles = settledAll Settle.reduceLocked t mc.settles) ∧
    (∀ i, (∀ x ∈ mc.store, x.id ≠ i) → (∀ m ∈ mods, m.id ≠ i) → ∀ x ∈ (handleModifiedMakers mc mods).store, x.id ≠ i) := by
  induction mods with
  | nil => intro mc; exact ⟨rfl, fun _ h => h, fun _ => rfl, fun _ => rfl, fun i h _ => h⟩
  | cons m ms ih =>
    intro mc
    obtain ⟨i1, i2, i3, i4, i5⟩ := ih (handleModifiedMaker mc m)
    have e : handleModifiedMakers mc (m :: ms) = handleModifiedMakers (handleModifiedMaker mc m) ms := rfl
    have key : (handleModifiedMaker mc m).fees = mc.fees ∧
        (∀ tx, .transaction tx ∈ (handleModifiedMaker mc m).events → .transaction tx ∈ mc.events) ∧
        (∀ t, settledAll Settle.incAvailable t (handleModifiedMaker mc m).settles = settledAll Settle.incAvailable t mc.settles) ∧
        (∀ t, settledAll Settle.reduceLocked t (handleModifiedMaker mc m).settles = settledAll Settle.reduceLocked t mc.settles) ∧
        (∀ i, (∀ x ∈ mc.store, x.id ≠ i) → m.id ≠ i → ∀ x ∈ (handleModifiedMaker mc m).store, x.id ≠ i) := by
      unfold handleModifiedMaker
      split
      · obtain ⟨h1, h2, h3, h4, h5⟩ := handleRefund_cols mc m
        refine ⟨h2, ?_, h4, h5, ?_⟩
        · intro tx htx; simp only [List.mem_append, List.mem_singleton, reduceCtorEq, or_false] at htx; rw [h3] at htx; exact htx
        · intro i hi _ x hx; simp only at hx; rw [h1] at hx; exact hi x (mem_del.1 hx).1
      · refine ⟨rfl, ?_, fun _ => rfl, fun _ => rfl, ?_⟩
        · intro tx htx; simpa using htx
        · intro i hi hm x hx
          rcases mem_put_weak hx with rfl | hx
          · exact hm
          · exact hi x hx
    rw [e]
    refine ⟨by rw [i1, key.1], fun tx h => key.2.1 tx (i2 tx h), fun t => by rw [i3, key.2.2.1],
      fun t => by rw [i4, key.2.2.2.1], ?_⟩
    intro i hi hm
    exact i5 i (key.2.2.2.2 i hi (hm m (by simp))) (fun y hy => hm y (by simp [hy]))

/-- A finished maker leaves the table. -/
theorem handleModifiedMakers_final (mods : List Order) (hnd : (mods.map Order.id).Nodup) : ∀ (mc : Mc) (m : Order),
    m ∈ mods → Final m → ∀ x ∈ (handleModifiedMakers mc mods).store, x.id ≠ m.id := by
  induction mods with
  | nil => intro mc m hm; simp at hm
  | cons o ms ih =>
    intro mc m hm hf
    have e : handleModifiedMakers mc (o :: ms) = handleModifiedMakers (handleModifiedMaker mc o) ms := rfl
    rw [List.map_cons, List.nodup_cons] at hnd
    rw [e]
    rcases List.mem_cons.1 hm with rfl | hm
    · apply (handleModifiedMakers_cols ms _).2.2.2.2
      · unfold handleModifiedMaker
        rw [if_pos hf]
        intro x hx
        exact (mem_del.1 hx).2
      · intro y hy hey
        exact hnd.1 (List.mem_map.2 ⟨y, hy, hey⟩)
    · exact ih hnd.2 _ m hm hf

/-- The two ways a match can end: nothing but the taker's own record changes, or the loop's result is carried out. -/
inductive MatchOutcome (f : Forks) (mi : MarketInfo) (store : List Order) (taker : Order) (mc : Mc) (t : Order) : Prop
  | plain (t1 : Order) (h : (mc, t) = handleTakerRes ⟨store, [], [], []⟩ t1) (key : SameKey taker t1)
      (reason : ¬ Resets t1.cancelReason)
      (why : (t1 = taker ∧ makerBook store mi.marketId (!taker.side) = []) ∨ Resets t.cancelReason)
  | traded (t1 : Order) (used rest mods : List Order) (txs : List Tx)
      (book : makerBook store mi.marketId (!taker.side) = used ++ rest)
      (trace : LoopTrace f mi 0 taker used t1 mods txs)
      (hno : ¬ Resets t.cancelReason)
      (ht : t = (handleTakerRes ⟨store, [], [], []⟩ t1).2)
      (h : mc = handleTxs (handleModifiedMakers (handleTakerRes ⟨store, [], [], []⟩ t1).1 mods) txs)

theorem matchOrder_outcome (f : Forks) (mi : MarketInfo) (now : Nat) {store : List Order} {taker : Order}
    (hb : BookOk store) (hfresh : Fresh taker) (hr : RatesOk taker) :
    MatchOutcome f mi store taker (matchOrder f mi now store taker).1 (matchOrder f mi now store taker).2 := by
  unfold matchOrder
  simp only
  have hq : taker.executedQuantity ≤ taker.quantity := by rw [hfresh.quantity]; omega
  have hre : ¬ Resets taker.cancelReason := by rw [hfresh.reason]; simp [Resets]
  split
  · rename_i h
    exact .plain taker rfl (.refl _) hre (.inl ⟨rfl, h⟩)
  · have hbook : ∀ o ∈ makerBook store mi.marketId (!taker.side), RatesOk o ∧ o.executedQuantity ≤ o.quantity ∧
        o.side = !taker.side := by
      intro o ho
      unfold makerBook at ho
      rw [List.mem_filter, decide_eq_true_eq] at ho
      exact ⟨hb.rates o ho.1, (hb.limits o ho.1).quantity, ho.2.2⟩
    obtain ⟨used, rest, mods, txs, e1, e2, L⟩ := takeLoop_trace f mi now _ taker [] [] hr hq (.inl hfresh.status)
      (by simp) hbook
    have hre1 := takeLoop_reason f mi now (makerBook store mi.marketId (!taker.side)) taker [] [] hre
    generalize takeLoop f mi now taker (makerBook store mi.marketId (!taker.side)) [] [] = lo at e2 L hre1
    obtain ⟨t1, mods', txs'⟩ := lo
    simp only [List.nil_append, Prod.mk.injEq] at e2
    obtain ⟨rfl, rfl⟩ := e2
    simp only at L ⊢
    by_cases hres : Resets (handleTakerRes ⟨store, [], [], []⟩ t1).2.cancelReason
    · rw [if_neg (by unfold Resets at hres; tauto)]
      exact .plain t1 rfl L.key hre1 (.inr hres)
    · rw [if_pos (by unfold Resets at hres; tauto)]
      exact .traded t1 used rest mods' txs' e1 L hres rfl rfl

theorem handleTxs_events (txs : List Tx) : ∀ mc : Mc, (handleTxs mc txs).events = mc.events ++ txs.map .transaction := by
  induction txs with
  | nil => intro mc; simp [handleTxs]
  | cons tx txs ih =>
    intro mc
    have e : handleTxs mc (tx :: txs) = handleTxs (handleTx mc tx) txs := rfl
    rw [e, ih]; simp [handleTx]

/-- The trades reported are those of the loop. -/
theorem mem_trades {store mods txs t1 tx} :
    Event.transaction tx ∈ (handleTxs (handleModifiedMakers (handleTakerRes ⟨store, [], [], []⟩ t1).1 mods) txs).events →
      tx ∈ txs := by
  intro h
  rw [handleTxs_events] at h
  rcases List.mem_append.1 h with h | h
  · have := (handleModifiedMakers_cols mods _).2.1 tx h
    rw [(handleTakerRes_cols _ _).2.1] at this
    simp at this
  · simpa using h

/-! ### C23 -/

/-- **C23.** For every book, taker and upgrade state, a match creates and destroys nothing: per token, what is taken out of
locked funds is what counterparties are credited plus, for the quote token, the fees collected. -/
theorem match_conserves_value (f : Forks) (mi : MarketInfo) (now : Nat) (store : List Order) (taker : Order)
    (hb : BookOk store) (hfresh : Fresh taker) (hr : RatesOk taker) :
    let mc := (matchOrder f mi now store taker).1
    settledAll Settle.incAvailable true mc.settles = settledAll Settle.reduceLocked true mc.settles ∧
    settledAll Settle.incAvailable false mc.settles + feesAll mc.fees = settledAll Settle.reduceLocked false mc.settles := by
  intro mc
  rcases matchOrder_outcome f mi now hb hfresh hr with ⟨t1, h, _, _, _⟩ | ⟨t1, used, rest, mods, txs, _, L, _, _, h⟩
  · obtain ⟨h1, h2, h3, h4, h5⟩ := handleTakerRes_cols ⟨store, [], [], []⟩ t1
    have e : mc = (handleTakerRes ⟨store, [], [], []⟩ t1).1 := congrArg Prod.fst h
    rw [e, h3, h3, h4, h4, h1]
    simp [settledAll, feesAll]
  · obtain ⟨h1, h2, h3, h4, h5⟩ := handleTakerRes_cols ⟨store, [], [], []⟩ t1
    obtain ⟨m1, m2, m3, m4, m5⟩ := handleModifiedMakers_cols mods (handleTakerRes ⟨store, [], [], []⟩ t1).1
    obtain ⟨X1, X2, X3, X4, X5, X6⟩ := handleTxs_spec txs (handleModifiedMakers (handleTakerRes ⟨store, [], [], []⟩ t1).1 mods)
      L.bal
    rw [← h] at X4 X5
    rw [m3, m4, h3, h4] at X4
    rw [m3, m4, h3, h4, m1, h1] at X5
    simp only [settledAll_nil, feesAll, List.map_nil, List.sum_nil] at X4 X5 ⊢
    have e : mc = (matchOrder f mi now store taker).1 := rfl
    rw [e]
    omega

/-! ### C24 -/

/-- **C24.** After any match (under the fee upgrade) every order ever reported — the taker, every updated maker, and every
resting order — is within its size, its amount and its fee allowance. -/
theorem match_within_limits (f : Forks) (hf : f.dexFee = true) (mi : MarketInfo) (now : Nat) (store : List Order)
    (taker : Order) (hb : BookOk store) (hfresh : Fresh taker) (hr : RatesOk taker) (hM : taker.marketId = mi.marketId)
    (hid : ¬ Resting store taker.id) :
    let r := matchOrder f mi now store taker
    BookOk r.1.store ∧ WithinLimits r.2 ∧ ∀ o, (.orderUpdate o ∈ r.1.events ∨ .newOrder o ∈ r.1.events) → WithinLimits o := by
  have S := matchOrder_spec hf (now := now) hb hfresh hr hM (fun x hx e => hid ⟨x, hx, e⟩)
  refine ⟨S.ok, S.lim, ?_⟩
  rintro o (h | h)
  · exact S.updates o h
  · rw [S.new o h]; exact S.lim

/-- **C24.** For every account, market and token: what the orders tied up before the match (the taker's included) is what
the orders still tie up afterwards plus what the settlements use (`reduceLocked`) and give back (`releaseLocked`). -/
theorem match_accounts_for_locked (f : Forks) (hf : f.dexFee = true) (mi : MarketInfo) (now : Nat) (store : List Order)
    (taker : Order) (hb : BookOk store) (hfresh : Fresh taker) (hr : RatesOk taker) (hM : taker.marketId = mi.marketId)
    (hid : ¬ Resting store taker.id) (m account : Nat) (token : Bool) :
    let mc := (matchOrder f mi now store taker).1
    tiedUpFor m account token (taker :: store) = tiedUpFor m account token mc.store +
      if m = mi.marketId then settled Settle.reduceLocked account token mc.settles +
        settled Settle.releaseLocked account token mc.settles else 0 := by
  have S := matchOrder_spec hf (now := now) hb hfresh hr hM (fun x hx e => hid ⟨x, hx, e⟩)
  have := S.tied m account token
  rw [tiedUpFor_cons]
  simp only at *
  omega

/-- **C24.** Cancelling a resting order removes it and releases exactly what it tied up, to its owner. -/
theorem cancel_releases_locked (store : List Order) (o : Order) (hb : BookOk store) (ho : o ∈ store)
    (m account : Nat) (token : Bool) :
    let r := cancelOrder store o
    BookOk r.1.store ∧ ¬ Resting r.1.store o.id ∧ r.1.fees = [] ∧
    settled Settle.incAvailable account token r.1.settles = 0 ∧ settled Settle.reduceLocked account token r.1.settles = 0 ∧
    tiedUpFor m account token store = tiedUpFor m account token r.1.store +
      (if m = o.marketId then settled Settle.releaseLocked account token r.1.settles else 0) ∧
    settled Settle.releaseLocked account token r.1.settles = tiedUpFor o.marketId account token [o] := by
  simp only
  unfold cancelOrder
  simp only
  generalize userCancelReason o = r
  have R := handleRefund_spec ⟨store, [], [], []⟩ { o with status := .cancelled, cancelReason := r }
    ((hb.limits o ho).status .cancelled r) (.inr rfl)
  have hst := fun a t => tiedUpFor_status o.marketId a t o .cancelled r
  generalize handleRefund ⟨store, [], [], []⟩ { o with status := .cancelled, cancelReason := r } = c at R ⊢
  obtain ⟨mc, o'⟩ := c
  simp only at R ⊢
  have hrel := R.release account token
  have hrel' : settled Settle.releaseLocked account token mc.settles = tiedUpFor o.marketId account token [o] := by
    rw [hrel]
    simp only [settled_nil, Nat.zero_add]
    exact hst account token
  refine ⟨by rw [R.store]; exact hb.del _, ?_, R.fees, R.inc _ _, R.reduce _ _, ?_, hrel'⟩
  · rintro ⟨x, hx, hxe⟩
    exact (mem_del.1 hx).2 hxe
  · rw [R.store]
    have := tied_del hb.sorted ho m account token
    by_cases hm : m = o.marketId
    · rw [if_pos hm, hrel', ← hm]; simp only; omega
    · have h0 := tiedUpFor_other hm rfl (o := o) account token
      rw [if_neg hm]; simp only; omega

/-! ### C25 -/

/-- **C25.** Every trade of a match is with a resting order of the other side of the taker's market, at that order's price,
and the taker accepts the price; the amount paid exceeds quantity times price by no more than rounding. -/
theorem trades_at_acceptable_maker_price (f : Forks) (mi : MarketInfo) (now : Nat) (store : List Order) (taker : Order)
    (hb : BookOk store) (hfresh : Fresh taker) (hr : RatesOk taker) (tx : Tx)
    (htx : .transaction tx ∈ (matchOrder f mi now store taker).1.events) :
    ∃ maker ∈ store, maker.marketId = mi.marketId ∧ maker.side = !taker.side ∧ tx.makerId = maker.id ∧
      tx.takerId = taker.id ∧ tx.price = maker.price ∧ Accepts taker tx.price ∧
      (tx.amount : ℚ) ≤
        (exactAmount tx.quantity tx.price (mi.tradeTokenDecimals - mi.quoteTokenDecimals) + 1 / 2) * (1 + 1 / 2 ^ 115) := by
  rcases matchOrder_outcome f mi now hb hfresh hr with ⟨t1, h, _, _, _⟩ | ⟨t1, used, rest, mods, txs, hbk, L, _, _, h⟩
  · rw [congrArg Prod.fst h, (handleTakerRes_cols _ _).2.1] at htx
    simp at htx
  · rw [h] at htx
    obtain ⟨maker, hm, h1, h2, h3, h4, h5⟩ := L.txok tx (mem_trades htx)
    have hmem : maker ∈ makerBook store mi.marketId (!taker.side) := by rw [hbk]; simp [hm]
    unfold makerBook at hmem
    rw [List.mem_filter, decide_eq_true_eq] at hmem
    refine ⟨maker, hmem.1, hmem.2.1, hmem.2.2, h1, h2, h3, h4, ?_⟩
    refine le_trans ?_ (rawAmount_le _ _ _)
    exact_mod_cast h5

theorem forall₂_ids {u v : List Order} (h : List.Forall₂ SameKey u v) : v.map Order.id = u.map Order.id := by
  induction h with
  | nil => rfl
  | cons h _ ih => simp [h.id, ih]

/-- The facts behind priority: every order ahead of a traded one was reached by the loop. -/
theorem priority_core (f : Forks) (mi : MarketInfo) (now : Nat) (store : List Order) (taker : Order)
    (hb : BookOk store) (hfresh : Fresh taker) (hr : RatesOk taker) (hid : ¬ Resting store taker.id) (tx : Tx)
    (htx : .transaction tx ∈ (matchOrder f mi now store taker).1.events) (better : Order) (hbs : better ∈ store)
    (hbm : better.marketId = mi.marketId) (hbside : better.side = !taker.side) (hlt : better.id < tx.makerId) :
    (¬ MoneyBound f taker → ¬ Resting (matchOrder f mi now store taker).1.store better.id) ∧
    (¬ Resting (matchOrder f mi now store taker).1.store better.id ∨
      ∃ tx', .transaction tx' ∈ (matchOrder f mi now store taker).1.events ∧ tx'.makerId = better.id) := by
  rcases matchOrder_outcome f mi now hb hfresh hr with ⟨t1, h, _, _, _⟩ | ⟨t1, used, rest, mods, txs, hbk, L, _, _, h⟩
  · rw [congrArg Prod.fst h, (handleTakerRes_cols _ _).2.1] at htx
    simp at htx
  · rw [h] at htx ⊢
    obtain ⟨maker, hm, h1, -⟩ := L.txok tx (mem_trades htx)
    have hsorted : Sorted (used ++ rest) := hbk ▸ hb.sorted.filter _
    have hbmem : better ∈ used ++ rest := by
      rw [← hbk]; unfold makerBook
      rw [List.mem_filter, decide_eq_true_eq]
      exact ⟨hbs, hbm, hbside⟩
    have hp := List.pairwise_append.1 hsorted
    have hbu : better ∈ used := by
      rcases List.mem_append.1 hbmem with h | h
      · exact h
      · have := hp.2.2 maker hm better h; omega
    have hids := forall₂_ids L.keys
    have hnd : (mods.map Order.id).Nodup := by
      rw [hids]
      unfold List.Nodup
      rw [List.pairwise_map]
      exact hp.1.imp (fun h => by omega)
    have hbi : better.id ∈ mods.map Order.id := by rw [hids]; exact List.mem_map.2 ⟨better, hbu, rfl⟩
    obtain ⟨m, hmm, hme⟩ := List.mem_map.1 hbi
    have hgone : Final m → ¬ Resting (handleTxs (handleModifiedMakers
        (handleTakerRes ⟨store, [], [], []⟩ t1).1 mods) txs).store better.id := by
      rintro hfm ⟨x, hx, hxe⟩
      have hst : (handleTxs (handleModifiedMakers (handleTakerRes ⟨store, [], [], []⟩ t1).1 mods) txs).store =
          (handleModifiedMakers (handleTakerRes ⟨store, [], [], []⟩ t1).1 mods).store := (handleTxs_spec txs _ L.bal).1
      rw [hst] at hx
      exact handleModifiedMakers_final mods hnd _ m hmm hfm x hx (by omega)
    refine ⟨fun hmb => hgone (L.fin hmb m ?_), ?_⟩
    · -- not the last one: the traded maker comes after it
      have hne : mods ≠ [] := fun e => by rw [e] at hmm; simp at hmm
      have hsplit := List.dropLast_append_getLast hne
      by_contra hnot
      have hlast : m = mods.getLast hne := by
        rw [← hsplit] at hmm
        rcases List.mem_append.1 hmm with h | h
        · exact absurd h hnot
        · simpa using h
      have hmi : tx.makerId ∈ mods.map Order.id := by rw [hids, h1]; exact List.mem_map.2 ⟨maker, hm, rfl⟩
      have hsm : (mods.map Order.id).Pairwise (· < ·) := by
        rw [hids, List.pairwise_map]; exact hp.1
      rw [← hsplit, List.map_append, List.pairwise_append] at hsm
      rw [← hsplit, List.map_append, List.mem_append] at hmi
      rcases hmi with hmi | hmi
      · have := hsm.2.2 _ hmi (mods.getLast hne).id (by simp)
        rw [← hlast] at this; omega
      · have : tx.makerId = (mods.getLast hne).id := by simpa using hmi
        rw [← hlast] at this; omega
    · rcases L.touched m hmm with h | ⟨tx', htx', he⟩
      · exact .inl (hgone h)
      · right
        refine ⟨tx', ?_, by omega⟩
        rw [handleTxs_events]
        exact List.mem_append_right _ (List.mem_map.2 ⟨tx', htx', rfl⟩)

/-- **C25 (part).** Book order is respected: if a match trades with a resting order, every order ahead of it in the book
(smaller id, see `id_order_is_priority`) is gone from the book afterwards. Missing: market buy orders under version 12,
for which `market_buy_skips` below shows the claim false; they satisfy `market_buy_priority`. -/
theorem better_orders_consumed_partial (f : Forks) (mi : MarketInfo) (now : Nat) (store : List Order) (taker : Order)
    (hb : BookOk store) (hfresh : Fresh taker) (hr : RatesOk taker) (hid : ¬ Resting store taker.id)
    (htype : ¬ (f.v12 = true ∧ taker.type = .market ∧ taker.side = false)) (tx : Tx)
    (htx : .transaction tx ∈ (matchOrder f mi now store taker).1.events) (better : Order) (hbs : better ∈ store)
    (hbm : better.marketId = mi.marketId) (hbside : better.side = !taker.side) (hlt : better.id < tx.makerId) :
    ¬ Resting (matchOrder f mi now store taker).1.store better.id :=
  (priority_core f mi now store taker hb hfresh hr hid tx htx better hbs hbm hbside hlt).1 htype

/-- **C25.** For every taker, market buys included: if a match trades with a resting order, every order ahead of it was
traded with or removed. -/
theorem market_buy_priority (f : Forks) (mi : MarketInfo) (now : Nat) (store : List Order) (taker : Order)
    (hb : BookOk store) (hfresh : Fresh taker) (hr : RatesOk taker) (hid : ¬ Resting store taker.id) (tx : Tx)
    (htx : .transaction tx ∈ (matchOrder f mi now store taker).1.events) (better : Order) (hbs : better ∈ store)
    (hbm : better.marketId = mi.marketId) (hbside : better.side = !taker.side) (hlt : better.id < tx.makerId) :
    ¬ Resting (matchOrder f mi now store taker).1.store better.id ∨
      ∃ tx', .transaction tx' ∈ (matchOrder f mi now store taker).1.events ∧ tx'.makerId = better.id :=
  (priority_core f mi now store taker hb hfresh hr hid tx htx better hbs hbm hbside hlt).2

/-! ### C26 -/

/-- **C26.** A post-only order never trades on arrival: no trade is reported, nothing is used or credited and no fee is
charged. -/
theorem post_only_never_takes (f : Forks) (mi : MarketInfo) (now : Nat) (store : List Order) (taker : Order)
    (hb : BookOk store) (hfresh : Fresh taker) (hr : RatesOk taker) (hpo : taker.type = .postOnly) :
    let mc := (matchOrder f mi now store taker).1
    (∀ tx, .transaction tx ∉ mc.events) ∧ feesAll mc.fees = 0 ∧
    ∀ token, settledAll Settle.incAvailable token mc.settles = 0 ∧ settledAll Settle.reduceLocked token mc.settles = 0 := by
  intro mc
  rcases matchOrder_outcome f mi now hb hfresh hr with ⟨t1, h, _, _, _⟩ | ⟨t1, used, rest, mods, txs, _, L, _, _, h⟩
  · obtain ⟨h1, h2, h3, h4, h5⟩ := handleTakerRes_cols ⟨store, [], [], []⟩ t1
    have e : mc = (handleTakerRes ⟨store, [], [], []⟩ t1).1 := congrArg Prod.fst h
    rw [e, h2, h1]
    refine ⟨by simp, rfl, fun t => ?_⟩
    rw [h3, h4]; exact ⟨rfl, rfl⟩
  · obtain ⟨h1, h2, h3, h4, h5⟩ := handleTakerRes_cols ⟨store, [], [], []⟩ t1
    obtain ⟨m1, m2, m3, m4, m5⟩ := handleModifiedMakers_cols mods (handleTakerRes ⟨store, [], [], []⟩ t1).1
    have e0 := L.postOnly hpo
    have e : mc = handleModifiedMakers (handleTakerRes ⟨store, [], [], []⟩ t1).1 mods := by
      show (matchOrder f mi now store taker).1 = _
      rw [h, e0]; rfl
    rw [e, m1, h1]
    refine ⟨?_, rfl, fun t => ?_⟩
    · intro tx htx
      have := m2 tx htx
      rw [h2] at this; simp at this
    · rw [m3, m4, h3, h4]; exact ⟨rfl, rfl⟩

theorem handleTakerRes_fok {mc : Mc} {t1 : Order} (hty : t1.type = .fillOrKill) :
    ((t1.status = .partialExecuted ∨ t1.status = .pending) → Resets (handleTakerRes mc t1).2.cancelReason ∧
      (handleTakerRes mc t1).1.store = mc.store ∧ (handleTakerRes mc t1).2.executedQuantity = 0) ∧
    (Final t1 → (handleTakerRes mc t1).2.status = t1.status ∧ (handleTakerRes mc t1).2.executedQuantity = t1.executedQuantity ∧
      (handleTakerRes mc t1).2.quantity = t1.quantity ∧ (handleTakerRes mc t1).2.price = t1.price) := by
  have hk : killUnfilled t1 = { t1 with
      status := .cancelled, cancelReason := .cancelledByFillOrKillNotFilled
      executedAmount := 0, executedBaseFee := 0, executedOperatorFee := 0, executedQuantity := 0 } := by
    unfold killUnfilled; simp [hty]
  have hth : checkMarketOrderAmtThreshold t1 = none := by
    unfold checkMarketOrderAmtThreshold; simp [hty]
  unfold handleTakerRes settleTaker
  simp only [hth]
  constructor
  · intro h
    rw [if_pos h, hk, if_pos rfl]
    have := handleRefund_status mc { t1 with
      status := .cancelled, cancelReason := .cancelledByFillOrKillNotFilled
      executedAmount := 0, executedBaseFee := 0, executedOperatorFee := 0, executedQuantity := 0 }
    refine ⟨?_, (handleRefund_cols _ _).1, this.2.2.2.1⟩
    rw [this.2.1]; exact .inl rfl
  · intro h
    have hn : ¬ (t1.status = .partialExecuted ∨ t1.status = .pending) := by
      rcases h with h | h <;> simp [h]
    rw [if_neg hn]
    have := handleRefund_status mc t1
    exact ⟨this.1, this.2.2.2.1, this.2.2.2.2.1, this.2.2.2.2.2⟩

/-- **C26 (part).** A fill-or-kill order is executed completely, or changes nothing (no trade, the same resting orders, no
money moved), or ran into the limit of 100 trades per match. Missing: the last case, in which it is executed in part;
`fill_or_kill_partially_filled` below shows that this happens. -/
theorem fill_or_kill_all_or_nothing_partial (f : Forks) (mi : MarketInfo) (now : Nat) (store : List Order) (taker : Order)
    (hb : BookOk store) (hfresh : Fresh taker) (hr : RatesOk taker) (hty : taker.type = .fillOrKill) :
    let r := matchOrder f mi now store taker
    (r.2.status = .fullyExecuted ∧ Filled (mi.tradeTokenDecimals - mi.quoteTokenDecimals) r.2) ∨
    (r.1.store = store ∧ r.2.executedQuantity = 0 ∧ (∀ tx, .transaction tx ∉ r.1.events) ∧ feesAll r.1.fees = 0 ∧
      ∀ token, settledAll Settle.incAvailable token r.1.settles = 0 ∧ settledAll Settle.reduceLocked token r.1.settles = 0) ∨
    (∃ txs : List Tx, txs.length = 100 ∧ ∀ tx ∈ txs, .transaction tx ∈ r.1.events) := by
  intro r
  rcases matchOrder_outcome f mi now hb hfresh hr with
    ⟨t1, h, hk, hq, hw⟩ | ⟨t1, used, rest, mods, txs, _, L, hno, ht, h⟩
  · obtain ⟨h1, h2, h3, h4, h5⟩ := handleTakerRes_cols ⟨store, [], [], []⟩ t1
    have e : r.1 = (handleTakerRes ⟨store, [], [], []⟩ t1).1 := congrArg Prod.fst h
    have e2 : r.2 = (handleTakerRes ⟨store, [], [], []⟩ t1).2 := congrArg Prod.snd h
    have F := handleTakerRes_fok (mc := ⟨store, [], [], []⟩) (t1 := t1) (by rw [hk.type, hty])
    right; left
    have hopen : t1.status = .partialExecuted ∨ t1.status = .pending := by
      rcases hw with ⟨rfl, _⟩ | hres
      · exact .inr hfresh.status
      · by_contra hn
        have hf : Final t1 := by
          cases hs : t1.status <;> simp_all [Final]
        have hst := (F.2 hf).1
        have hth : checkMarketOrderAmtThreshold t1 = none := by
          unfold checkMarketOrderAmtThreshold; simp [hk.type, hty]
        have : (handleTakerRes ⟨store, [], [], []⟩ t1).2.cancelReason = t1.cancelReason := by
          unfold handleTakerRes settleTaker
          simp only [hth]
          rw [if_neg hn]
          exact (handleRefund_status _ _).2.1
        exact hq (by rw [← this, ← e2]; exact hres)
    refine ⟨by rw [e]; exact (F.1 hopen).2.1, by rw [e2]; exact (F.1 hopen).2.2, ?_, by rw [e, h1]; rfl, ?_⟩
    · intro tx; rw [e, h2]; simp
    · intro t; rw [e, h3, h4]; exact ⟨rfl, rfl⟩
  · have F := handleTakerRes_fok (mc := ⟨store, [], [], []⟩) (t1 := t1) (by rw [L.key.type, hty])
    have hopen : ¬ (t1.status = .partialExecuted ∨ t1.status = .pending) := by
      intro ho
      exact hno (ht ▸ (F.1 ho).1)
    rcases L.status with hs | hs | ⟨hs, hfl⟩ | ⟨hs, hpo⟩ | ⟨hs, hlen⟩
    · exact absurd (.inr hs) hopen
    · exact absurd (.inl hs) hopen
    · left
      obtain ⟨g1, g2, g3, g4⟩ := F.2 (.inl hs)
      have hfl := hfl (by rw [hty]; simp)
      have e2 : r.2 = (handleTakerRes ⟨store, [], [], []⟩ t1).2 := ht
      rw [e2]
      refine ⟨by rw [g1, hs], ?_⟩
      unfold Filled at hfl ⊢
      rw [g2, g3, g4]; exact hfl
    · rw [hty] at hpo; simp at hpo
    · right; right
      refine ⟨txs, by omega, fun tx htx => ?_⟩
      have e : r.1 = _ := h
      rw [e, handleTxs_events]
      exact List.mem_append_right _ (List.mem_map.2 ⟨tx, htx, rfl⟩)

end Verif.Dex
