import Verif.Dex.FundProps

/-! C39: only the owner of an exchange account spends it, and only its owner, a trade or (before version 11) its expiry takes
an order out of the book. -/

namespace Verif.Dex.Spec
open Verif.Dex

/-- Who signs the block behind a step; `none` when it is not an account holder spending. -/
def spender : Op → Option Nat
  | .withdraw a _ _ => some a
  | .transfer a _ _ _ => some a
  | .payFee a _ => some a
  | .lockVx a _ => some a
  | .place p => some p.address
  | _ => none

/-- The order has outlived its time to live. -/
def OutOfTime (now : Nat) (o : Order) : Prop := o.timestamp + timeoutSecond < now

end Verif.Dex.Spec

namespace Verif.Dex
open Spec

theorem getAcct_setAcct (a t : Nat) (v : Acct) (fs : List Acct) :
    getAcct a t (setAcct v fs) = if v.address = a ∧ v.token = t then v else getAcct a t fs := by
  induction fs with
  | nil => simp only [setAcct, getAcct]
  | cons x xs ih =>
    unfold setAcct
    split
    · rename_i h
      simp only [getAcct, h.1, h.2]
      split <;> rfl
    · rename_i h
      simp only [getAcct, ih]
      by_cases h1 : x.address = a ∧ x.token = t
      · simp only [h1, and_self, if_true]
        have : ¬ (v.address = a ∧ v.token = t) := fun q => h ⟨h1.1.trans q.1.symm, h1.2.trans q.2.symm⟩
        simp only [this, if_false]
      · simp only [h1, if_false]

/-- Settling never lowers what is available. -/
theorem settle_available (mi : MarketInfo) (ss : List Settle) : ∀ (p : List Acct × Bool) (a t : Nat),
    (getAcct a t p.1).available ≤ (getAcct a t (settleFunds mi ss p).1).available := by
  induction ss with
  | nil => intro p a t; exact le_refl _
  | cons s ss ih =>
    intro p a t
    unfold settleFunds
    refine le_trans ?_ (ih _ a t)
    simp only [getAcct_setAcct]
    split
    · rename_i h
      have k := getAcct_key s.address (settleToken mi s) p.1
      have h1 : s.address = a := by simpa [settleAccount, k.1] using h.1
      have h2 : settleToken mi s = t := by simpa [settleAccount, k.2] using h.2
      rw [← h1, ← h2]
      simp only [settleAccount]
      omega
    · exact le_refl _

theorem lockForOrder_others {fs fs' : List Acct} {mi : MarketInfo} {p : OrderReq} {o o' : Order}
    (h : lockForOrder fs mi p o = some (fs', o')) (a t : Nat) (ha : o.address ≠ a) : getAcct a t fs' = getAcct a t fs := by
  unfold lockForOrder at h
  simp only at h
  have k := getAcct_key o.address (lockToken mi o.side) fs
  have e : ∀ v : Acct, v.address = o.address → getAcct a t (setAcct v fs) = getAcct a t fs := by
    intro v hv
    rw [getAcct_setAcct, if_neg]
    rintro ⟨q, _⟩
    exact ha (hv.symm.trans q)
  repeat' split at h
  all_goals first
    | (obtain ⟨q, _⟩ := Prod.mk.inj (Option.some.inj h); rw [← q]; exact e _ k.1)
    | cases h

theorem renderOrder_address {mi : MarketInfo} {p : OrderReq} {o : Order} (h : renderOrder mi p = some o) :
    o.address = p.address := by
  unfold renderOrder at h
  simp only at h
  split at h
  · split at h
    · simp at h
    · obtain rfl := by simpa using h
      rfl
  · obtain rfl := by simpa using h
    rfl

theorem reduce_others {fs fs' : List Acct} {a t n : Nat} (h : reduceAccount fs a t n = some fs') (a' t' : Nat) :
    (getAcct a' t' fs').available =
      (if a = a' ∧ t = t' then (getAcct a' t' fs).available - n else (getAcct a' t' fs).available) ∧
    n ≤ (getAcct a t fs).available := by
  unfold reduceAccount at h
  simp only at h
  split at h
  · simp at h
  · obtain rfl := by simpa using h
    have k := getAcct_key a t fs
    rw [getAcct_setAcct]
    simp only [k.1, k.2]
    refine ⟨?_, by omega⟩
    split
    · rename_i q; rw [← q.1, ← q.2]
    · rfl

theorem deposit_available (fs : List Acct) (a t n a' t' : Nat) :
    (getAcct a' t' (depositAccount fs a t n)).available =
      (getAcct a' t' fs).available + (if a = a' ∧ t = t' then n else 0) := by
  unfold depositAccount
  have k := getAcct_key a t fs
  rw [getAcct_setAcct]
  simp only [k.1, k.2]
  split
  · rename_i q; rw [← q.1, ← q.2]
  · rfl

/-- **C39.** Whatever the state and the block: if an account's available funds go down, the block is a withdrawal, a
transfer, a fee payment, a lock or an order of that account's own holder. -/
theorem available_spent_only_by_owner (f : Forks) (mk : Nat → Option MarketInfo) (s : Sys) (op : Op) (a t : Nat)
    (h : (getAcct a t (step f mk s op).funds).available < (getAcct a t s.funds).available) : spender op = some a := by
  cases op with
  | deposit x y n =>
    simp only [step, deposit_available] at h
    omega
  | withdraw x y n =>
    simp only [step] at h
    cases hr : reduceAccount s.funds x y n with
    | none => simp [hr] at h
    | some fs =>
      simp only [hr, (reduce_others hr a t).1] at h
      split at h
      · rename_i q; simp [spender, q.1]
      · omega
  | transfer x z y n =>
    simp only [step] at h
    cases hr : reduceAccount s.funds x y n with
    | none => simp [hr] at h
    | some fs =>
      simp only [hr, deposit_available, (reduce_others hr a t).1] at h
      by_cases q : x = a ∧ y = t
      · simp [spender, q.1]
      · simp only [q, if_false] at h; omega
  | payFee x n =>
    simp only [step] at h
    cases hr : reduceAccount s.funds x viteToken n with
    | none => simp [hr] at h
    | some fs =>
      simp only [hr, (reduce_others hr a t).1] at h
      split at h
      · rename_i q; simp [spender, q.1]
      · omega
  | lockVx x n =>
    simp only [step] at h
    cases hr : lockVxForDividend s.funds x n with
    | none => simp [hr] at h
    | some fs =>
      simp only [hr] at h
      unfold lockVxForDividend at hr
      simp only at hr
      split at hr
      · simp at hr
      · obtain rfl := by simpa using hr
        have k := getAcct_key x vxToken s.funds
        rw [getAcct_setAcct] at h
        simp only [k.1, k.2] at h
        split at h
        · rename_i q; simp [spender, q.1]
        · omega
  | unlockVx x n =>
    simp only [step] at h
    cases hr : scheduleVxUnlock s.funds x n with
    | none => simp [hr] at h
    | some fs =>
      simp only [hr] at h
      unfold scheduleVxUnlock at hr
      simp only at hr
      split at hr
      · simp at hr
      · split at hr
        · simp at hr
        · obtain rfl := by simpa using hr
          have k := getAcct_key x vxToken s.funds
          rw [getAcct_setAcct] at h
          simp only [k.1, k.2] at h
          split at h
          · rename_i q; rw [← q.1, ← q.2] at h; simp at h
          · omega
  | finishUnlock x n =>
    simp only [step] at h
    cases hr : finishVxUnlock s.funds x n with
    | none => simp [hr] at h
    | some fs =>
      simp only [hr] at h
      unfold finishVxUnlock at hr
      simp only at hr
      split at hr
      · simp at hr
      · obtain rfl := by simpa using hr
        have k := getAcct_key x vxToken s.funds
        rw [getAcct_setAcct] at h
        simp only [k.1, k.2] at h
        split at h
        · rename_i q; rw [← q.1, ← q.2] at h; simp at h
        · omega
  | place p =>
    simp only [step] at h
    cases hm : mk p.marketId with
    | none => simp [hm] at h
    | some mi =>
      simp only [hm] at h
      split at h
      · omega
      · cases hr : (renderOrder mi p).bind (lockForOrder s.funds mi p) with
        | none => simp [hr] at h
        | some r =>
          simp only [hr] at h
          obtain ⟨o, h1, h2⟩ := Option.bind_eq_some_iff.mp hr
          by_contra hn
          have : o.address ≠ a := by
            rw [renderOrder_address h1]
            intro q; exact hn (by simp [spender, q])
          rw [lockForOrder_others h2 a t this] at h
          omega
  | receiveOrder i now =>
    simp only [step] at h
    cases hi : s.orders[i]? with
    | none => simp [hi] at h
    | some o =>
      cases hm : mk o.marketId with
      | none => simp [hi, hm] at h
      | some mi => simp [hi, hm, receiveOrder] at h
  | placeFailed i =>
    simp only [step] at h
    cases hi : s.orders[i]? with
    | none => simp [hi] at h
    | some o =>
      cases hm : mk o.marketId with
      | none => simp [hi, hm] at h
      | some mi => simp [hi, hm] at h
  | cancel x id =>
    simp only [step] at h
    cases hi : orderById s.store id with
    | none => simp [hi] at h
    | some o =>
      cases hm : mk o.marketId with
      | none => simp [hi, hm] at h
      | some mi =>
        simp only [hi, hm] at h
        split at h <;> simp [cancelById] at h
  | clearExpired now ids =>
    simp only [step] at h
    split at h
    · omega
    · cases hi : oneMarket s.store ids with
      | none => simp [hi] at h
      | some m =>
        cases hm : mk m with
        | none => simp [hi, hm] at h
        | some mi => simp [hi, hm, clearExpired] at h
  | settle i =>
    simp only [step] at h
    cases hi : s.msgs[i]? with
    | none => simp [hi] at h
    | some m =>
      simp only [hi, settleMsg] at h
      have := settle_available m.market m.funds (s.funds, s.exceeded) a t
      simp only at this
      omega

/-- **C39.** A transfer the sender can afford takes the amount from the sender and gives it to the receiver, and touches
nobody else. -/
theorem transfer_delivers (f : Forks) (mk : Nat → Option MarketInfo) (s : Sys) (x z t n : Nat)
    (hn : n ≤ (getAcct x t s.funds).available) (a t' : Nat) :
    (getAcct a t' (step f mk s (.transfer x z t n)).funds).available =
      (getAcct a t' s.funds).available - (if x = a ∧ t = t' then n else 0) + (if z = a ∧ t = t' then n else 0) := by
  simp only [step]
  cases hr : reduceAccount s.funds x t n with
  | none =>
    unfold reduceAccount at hr
    simp only at hr
    rw [if_neg (by omega)] at hr
    simp at hr
  | some fs =>
    simp only [deposit_available, (reduce_others hr a t').1]
    split <;> simp

/-! ### Orders in the book -/

theorem mem_put_keep {o x : Order} {l : List Order} (h : x ∈ l) (hne : x.id ≠ o.id) : x ∈ put o l := by
  induction l with
  | nil => simp at h
  | cons y ys ih =>
    unfold put
    split
    · exact List.mem_cons_of_mem _ h
    · split
      · rename_i q
        rcases List.mem_cons.1 h with rfl | h
        · exact absurd q.symm hne
        · exact List.mem_cons_of_mem _ h
      · rcases List.mem_cons.1 h with rfl | h
        · exact List.mem_cons_self
        · exact List.mem_cons_of_mem _ (ih h)

theorem handleModifiedMakers_keep (mods : List Order) : ∀ (mc : Mc) (x : Order), x ∈ mc.store →
    (∀ m ∈ mods, m.id ≠ x.id) → x ∈ (handleModifiedMakers mc mods).store := by
  induction mods with
  | nil => intro mc x h _; exact h
  | cons m ms ih =>
    intro mc x h hm
    have e : handleModifiedMakers mc (m :: ms) = handleModifiedMakers (handleModifiedMaker mc m) ms := rfl
    rw [e]
    refine ih _ x ?_ (fun y hy => hm y (List.mem_cons_of_mem _ hy))
    have hne := hm m List.mem_cons_self
    unfold handleModifiedMaker
    split
    · simp only
      rw [(handleRefund_cols mc m).1]
      exact mem_del.2 ⟨h, fun q => hne q.symm⟩
    · exact mem_put_keep h (fun q => hne q.symm)

theorem handleTakerRes_keep (mc : Mc) (t : Order) (x : Order) (h : x ∈ mc.store) (hne : x.id ≠ t.id) :
    x ∈ (handleTakerRes mc t).1.store := by
  unfold handleTakerRes settleTaker
  simp only
  split
  · rw [(handleRefund_cols mc _).1]; exact h
  · split
    · split
      · rw [(handleRefund_cols mc _).1]; exact h
      · exact mem_put_keep h (by rw [(killUnfilled_key t).id]; exact hne)
    · rw [(handleRefund_cols mc _).1]; exact h

theorem handleTxs_store (txs : List Tx) : ∀ mc : Mc, (handleTxs mc txs).store = mc.store := by
  induction txs with
  | nil => intro mc; rfl
  | cons t ts ih =>
    intro mc
    have e : handleTxs mc (t :: ts) = handleTxs (handleTx mc t) ts := rfl
    rw [e, ih]; rfl

theorem filterTimeout_some {f : Forks} {now : Nat} {m m' : Order} (h : filterTimeout f now m = some m') :
    m'.id = m.id ∧ f.v11 = false ∧ OutOfTime now m ∧ m'.timestamp = m.timestamp := by
  unfold filterTimeout at h
  split at h
  · simp at h
  · split at h
    · rename_i q
      obtain rfl := by simpa using h
      exact ⟨rfl, q.2, q.1, rfl⟩
    · simp at h

theorem calcTx_ids (f : Forks) (mi : MarketInfo) (taker maker : Order) :
    (calculateOrderAndTx f mi taker maker).2.1.id = maker.id ∧
    (calculateOrderAndTx f mi taker maker).2.2.makerId = maker.id := by
  unfold calculateOrderAndTx
  simp only
  obtain ⟨s, _, e⟩ := upd_eq f maker _ _ _ _ _ maker.price
  rw [e]
  exact ⟨rfl, trivial⟩

theorem calcTx_taker_id (f : Forks) (mi : MarketInfo) (taker maker : Order) :
    (calculateOrderAndTx f mi taker maker).1.id = taker.id := by
  unfold calculateOrderAndTx
  simp only
  obtain ⟨s, _, e⟩ := upd_eq f taker _ _ _ _ _ maker.price
  rw [e]

/-- One round of the loop that trades. -/
theorem takeLoop_trade {f : Forks} {mi : MarketInfo} {now : Nat} {taker maker : Order} (rest mods : List Order)
    (txs : List Tx) (h1 : filterTimeout f now maker = none) (h2 : matchPrice taker maker = true)
    (h3 : taker.type ≠ .postOnly) :
    ∃ tk : Order, tk.id = taker.id ∧ takeLoop f mi now taker (maker :: rest) mods txs =
      if tk.status = .fullyExecuted ∨ tk.status = .cancelled then
        (tk, mods ++ [(calculateOrderAndTx f mi taker maker).2.1], txs ++ [(calculateOrderAndTx f mi taker maker).2.2])
      else takeLoop f mi now tk rest (mods ++ [(calculateOrderAndTx f mi taker maker).2.1])
        (txs ++ [(calculateOrderAndTx f mi taker maker).2.2]) := by
  refine ⟨if (calculateOrderAndTx f mi taker maker).1.status = .partialExecuted ∧
      (txs ++ [(calculateOrderAndTx f mi taker maker).2.2]).length ≥ maxTxsCountPerTaker then
      { (calculateOrderAndTx f mi taker maker).1 with status := .cancelled, cancelReason := .partialExecutedCancelledByMarket }
      else (calculateOrderAndTx f mi taker maker).1, ?_, ?_⟩
  · split <;> exact calcTx_taker_id f mi taker maker
  · conv_lhs => unfold takeLoop
    simp only [h1, h2, h3, if_true, if_false]

theorem takeLoop_post {f : Forks} {mi : MarketInfo} {now : Nat} {taker maker : Order} (rest mods : List Order)
    (txs : List Tx) (h1 : filterTimeout f now maker = none) (h : ¬ matchPrice taker maker = true ∨ taker.type = .postOnly) :
    (takeLoop f mi now taker (maker :: rest) mods txs).2 = (mods, txs) ∧
    (takeLoop f mi now taker (maker :: rest) mods txs).1.id = taker.id := by
  conv in (occs := *) takeLoop _ _ _ _ _ _ _ => all_goals unfold takeLoop
  simp only [h1]
  by_cases h2 : matchPrice taker maker = true
  · have h3 : taker.type = .postOnly := by tauto
    simp [h2, h3]
  · simp [h2]

theorem takeLoop_timeout {f : Forks} {mi : MarketInfo} {now : Nat} {taker maker maker' : Order} (rest mods : List Order)
    (txs : List Tx) (h1 : filterTimeout f now maker = some maker') :
    takeLoop f mi now taker (maker :: rest) mods txs =
      if taker.status = .fullyExecuted ∨ taker.status = .cancelled then (taker, mods ++ [maker'], txs)
      else takeLoop f mi now taker rest (mods ++ [maker']) txs := by
  conv_lhs => unfold takeLoop
  simp only [h1]

theorem takeLoop_id (f : Forks) (mi : MarketInfo) (now : Nat) (makers : List Order) :
    ∀ (taker : Order) (mods : List Order) (txs : List Tx), (takeLoop f mi now taker makers mods txs).1.id = taker.id := by
  induction makers with
  | nil => intro taker mods txs; rfl
  | cons o os ih =>
    intro taker mods txs
    cases hf : filterTimeout f now o with
    | some o' =>
      rw [takeLoop_timeout os mods txs hf]
      split
      · rfl
      · exact ih _ _ _
    | none =>
      by_cases hc : matchPrice taker o = true ∧ taker.type ≠ .postOnly
      · obtain ⟨tk, e1, e2⟩ := takeLoop_trade (mi := mi) os mods txs hf hc.1 hc.2
        rw [e2]
        split
        · exact e1
        · rw [ih]; exact e1
      · exact (takeLoop_post os mods txs hf (by tauto)).2

/-- Why an order is among the modified ones. -/
theorem takeLoop_mods (f : Forks) (mi : MarketInfo) (now : Nat) (makers : List Order) :
    ∀ (taker : Order) (mods : List Order) (txs : List Tx) (m : Order), m ∈ (takeLoop f mi now taker makers mods txs).2.1 →
      m ∈ mods ∨ (∃ o ∈ makers, o.id = m.id ∧ f.v11 = false ∧ OutOfTime now o) ∨
      (∃ tx ∈ (takeLoop f mi now taker makers mods txs).2.2, tx.makerId = m.id) := by
  have grow : ∀ (makers : List Order) (taker : Order) (mods : List Order) (txs : List Tx) (tx : Tx), tx ∈ txs →
      tx ∈ (takeLoop f mi now taker makers mods txs).2.2 := by
    intro makers
    induction makers with
    | nil => intro taker mods txs tx h; exact h
    | cons o os ih =>
      intro taker mods txs tx h
      cases hf : filterTimeout f now o with
      | some o' =>
        rw [takeLoop_timeout os mods txs hf]
        split
        · exact h
        · exact ih _ _ _ _ h
      | none =>
        by_cases hc : matchPrice taker o = true ∧ taker.type ≠ .postOnly
        · obtain ⟨tk, e1, e2⟩ := takeLoop_trade (mi := mi) os mods txs hf hc.1 hc.2
          rw [e2]
          split
          · exact List.mem_append_left _ h
          · exact ih _ _ _ _ (List.mem_append_left _ h)
        · rw [(takeLoop_post os mods txs hf (by tauto)).1]
          exact h
  induction makers with
  | nil => intro taker mods txs m h; exact .inl h
  | cons o os ih =>
    intro taker mods txs m h
    have lift : ∀ {P : Prop}, (∃ o ∈ os, o.id = m.id ∧ f.v11 = false ∧ OutOfTime now o) →
        (∃ x ∈ o :: os, x.id = m.id ∧ f.v11 = false ∧ OutOfTime now x) ∨ P := by
      rintro P ⟨x, hx, q⟩
      exact .inl ⟨x, List.mem_cons_of_mem _ hx, q⟩
    cases hf : filterTimeout f now o with
    | some o' =>
      obtain ⟨t1, t2, t3, _⟩ := filterTimeout_some hf
      have self : m = o' → (∃ x ∈ o :: os, x.id = m.id ∧ f.v11 = false ∧ OutOfTime now x) := by
        rintro rfl; exact ⟨o, List.mem_cons_self, t1.symm, t2, t3⟩
      rw [takeLoop_timeout os mods txs hf] at h ⊢
      split at h
      · rename_i hc
        rw [if_pos hc]
        rcases List.mem_append.1 h with h | h
        · exact .inl h
        · exact .inr (.inl (self (by simpa using h)))
      · rename_i hc
        rw [if_neg hc]
        rcases ih _ _ _ _ h with h | h | h
        · rcases List.mem_append.1 h with h | h
          · exact .inl h
          · exact .inr (.inl (self (by simpa using h)))
        · exact .inr (lift h)
        · exact .inr (.inr h)
    | none =>
      by_cases hc : matchPrice taker o = true ∧ taker.type ≠ .postOnly
      · obtain ⟨tk, e1, e2⟩ := takeLoop_trade (mi := mi) os mods txs hf hc.1 hc.2
        obtain ⟨c1, c2⟩ := calcTx_ids f mi taker o
        rw [e2] at h ⊢
        split at h
        · rename_i hd
          rw [if_pos hd]
          rcases List.mem_append.1 h with h | h
          · exact .inl h
          · right; right
            obtain rfl := by simpa using h
            exact ⟨_, List.mem_append_right _ (List.mem_singleton.2 rfl), by rw [c1, c2]⟩
        · rename_i hd
          rw [if_neg hd]
          rcases ih _ _ _ _ h with h | h | h
          · rcases List.mem_append.1 h with h | h
            · exact .inl h
            · right; right
              obtain rfl := by simpa using h
              exact ⟨_, grow _ _ _ _ _ (List.mem_append_right _ (List.mem_singleton.2 rfl)), by rw [c1, c2]⟩
          · exact .inr (lift h)
          · exact .inr (.inr h)
      · rw [(takeLoop_post os mods txs hf (by tauto)).1] at h
        exact .inl h

/-- A match leaves every resting order alone that it neither trades with nor finds out of time. -/
theorem match_keeps (f : Forks) (mi : MarketInfo) (now : Nat) (store : List Order) (taker o : Order) (ho : o ∈ store)
    (hne : o.id ≠ taker.id) (hs : store.Pairwise (fun x y => x.id < y.id))
    (hg : o ∉ (matchOrder f mi now store taker).1.store) :
    (∃ tx, .transaction tx ∈ (matchOrder f mi now store taker).1.events ∧ tx.makerId = o.id) ∨
    (f.v11 = false ∧ OutOfTime now o) := by
  unfold matchOrder at hg ⊢
  simp only at hg ⊢
  split at hg
  · exact absurd (handleTakerRes_keep ⟨store, [], [], []⟩ taker o ho hne) hg
  · have hid : (takeLoop f mi now taker (makerBook store mi.marketId (!taker.side)) [] []).1.id = taker.id :=
      takeLoop_id f mi now _ taker [] []
    have hk := handleTakerRes_keep ⟨store, [], [], []⟩
      (takeLoop f mi now taker (makerBook store mi.marketId (!taker.side)) [] []).1 o ho (by rw [hid]; exact hne)
    split at hg
    · rename_i hc
      rw [handleTxs_store] at hg
      have : ∃ m ∈ (takeLoop f mi now taker (makerBook store mi.marketId (!taker.side)) [] []).2.1, m.id = o.id := by
        by_contra hn
        push Not at hn
        exact hg (handleModifiedMakers_keep _ _ o hk hn)
      obtain ⟨m, hm, hmo⟩ := this
      rcases takeLoop_mods f mi now _ taker [] [] m hm with q | ⟨x, hx, q1, q2, q3⟩ | ⟨tx, htx, q⟩
      · simp at q
      · right
        have hx' : x ∈ store := (List.mem_filter.1 hx).1
        have : x = o := Sorted.inj hs hx' ho (by omega)
        exact ⟨q2, this ▸ q3⟩
      · left
        refine ⟨tx, ?_, by omega⟩
        rw [if_pos hc, handleTxs_events]
        exact List.mem_append_right _ (List.mem_map.2 ⟨tx, htx, rfl⟩)
    · exact absurd hk hg

/-- **C39.** In every history, an order that has been in the book is touched by the next block only if the block is a
cancellation by the order's own holder, or the order traded, or, before version 11, its time was up. -/
theorem order_touched_only_by_owner_or_trade (f : Forks) (hf : f.dexFee = true) (mk : Nat → Option MarketInfo)
    (hmk : MarketsOk mk) (ops : List Op) (hops : f.v11 = true ∨ ∀ op ∈ ops, NoRepeats op) (op : Op) (o : Order) :
    let s := run f mk ops
    let s' := step f mk s op
    o ∈ s.store → o ∉ s'.store →
      op = .cancel o.address o.id ∨
      (∃ i now tx, op = .receiveOrder i now ∧ .transaction tx ∈ s'.events ∧ tx.makerId = o.id) ∨
      (f.v11 = false ∧ ∃ now, OutOfTime now o ∧
        ((∃ i, op = .receiveOrder i now) ∨ ∃ ids, op = .clearExpired now ids ∧ o.id ∈ ids)) := by
  intro s s' ho hg
  have I : Inv mk s := run_inv hf hmk ops hops
  have hs := I.book.sorted
  simp only [s'] at hg ⊢
  clear_value s
  cases op with
  | deposit x y n => exact absurd ho hg
  | withdraw x y n => simp only [step] at hg; split at hg <;> exact absurd ho hg
  | transfer x z y n => simp only [step] at hg; split at hg <;> exact absurd ho hg
  | payFee x n => simp only [step] at hg; split at hg <;> exact absurd ho hg
  | lockVx x n => simp only [step] at hg; split at hg <;> exact absurd ho hg
  | unlockVx x n => simp only [step] at hg; split at hg <;> exact absurd ho hg
  | finishUnlock x n => simp only [step] at hg; split at hg <;> exact absurd ho hg
  | place p =>
    simp only [step] at hg
    repeat' split at hg
    all_goals exact absurd ho hg
  | receiveOrder i now =>
    simp only [step] at hg ⊢
    cases hi : s.orders[i]? with
    | none => simp only [hi] at hg; exact absurd ho hg
    | some t =>
      cases hm : mk t.marketId with
      | none => simp only [hi, hm] at hg; exact absurd ho hg
      | some mi =>
        simp only [hi, hm, receiveOrder] at hg ⊢
        have hn := I.ids
        rw [List.map_append, List.nodup_append'] at hn
        have hne : o.id ≠ t.id := by
          intro q
          exact hn.2.2 (List.mem_map.2 ⟨o, ho, rfl⟩) (q ▸ List.mem_map.2 ⟨t, List.mem_of_getElem? hi, rfl⟩)
        rcases match_keeps f mi now s.store t o ho hne hs hg with ⟨tx, h1, h2⟩ | ⟨h1, h2⟩
        · exact .inr (.inl ⟨i, now, tx, rfl, List.mem_append_right _ h1, h2⟩)
        · exact .inr (.inr ⟨h1, now, h2, .inl ⟨i, rfl⟩⟩)
  | placeFailed i =>
    simp only [step] at hg
    repeat' split at hg
    all_goals exact absurd ho hg
  | cancel x id =>
    simp only [step] at hg
    cases hi : orderById s.store id with
    | none => simp only [hi] at hg; exact absurd ho hg
    | some y =>
      cases hm : mk y.marketId with
      | none => simp only [hi, hm] at hg; exact absurd ho hg
      | some mi =>
        simp only [hi, hm] at hg
        split at hg
        · rename_i hc
          unfold orderById at hi
          have hy := List.mem_of_find?_eq_some hi
          have hyi : y.id = id := by simpa using List.find?_some hi
          by_cases hoy : o.id = y.id
          · have : o = y := Sorted.inj hs ho hy hoy
            subst this
            exact .inl (by rw [hc.1, hyi])
          · exfalso
            refine hg ?_
            simp only [cancelById, cancelOrder]
            rw [(handleRefund_cols _ _).1]
            exact mem_del.2 ⟨ho, hoy⟩
        · exact absurd ho hg
  | clearExpired now ids =>
    simp only [step] at hg
    split at hg
    · exact absurd ho hg
    · rename_i hv
      cases hi : oneMarket s.store ids with
      | none => simp only [hi] at hg; exact absurd ho hg
      | some m =>
        cases hm : mk m with
        | none => simp only [hi, hm] at hg; exact absurd ho hg
        | some mi =>
          simp only [hi, hm, clearExpired] at hg
          have : ∃ x ∈ expiredOf f now s.store ids, x.id = o.id := by
            by_contra hn
            push Not at hn
            exact hg (handleModifiedMakers_keep _ ⟨s.store, [], [], []⟩ o ho hn)
          obtain ⟨x, hx, hxo⟩ := this
          unfold expiredOf at hx
          obtain ⟨id, hid, hb⟩ := List.mem_filterMap.1 hx
          obtain ⟨y, hy1, hy2⟩ := Option.bind_eq_some_iff.mp hb
          obtain ⟨t1, t2, t3, _⟩ := filterTimeout_some hy2
          unfold orderById at hy1
          have hy := List.mem_of_find?_eq_some hy1
          have hyi : y.id = id := by simpa using List.find?_some hy1
          have : y = o := Sorted.inj hs hy ho (by omega)
          subst this
          exact .inr (.inr ⟨t2, now, t3, .inr ⟨ids, rfl, hyi ▸ hid⟩⟩)
  | settle i =>
    simp only [step] at hg
    split at hg
    · exact absurd ho hg
    · simp only [settleMsg] at hg; exact absurd ho hg

end Verif.Dex
