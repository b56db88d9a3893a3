import Verif.Dex.FundLemmas

/-! The invariant of the exchange and its preservation by every step. -/

namespace Verif.Dex
open Spec

/-! ### The `float32` fee rate -/

theorem rnd24_err {x : ℚ} (hx : 0 ≤ x) : |rnd24 x - x| ≤ x / 2 ^ 24 := by
  unfold rnd24
  split
  · have : x = 0 := le_antisymm (by assumption) hx
    subst this; simp
  · rename_i h
    have hx : 0 < x := not_le.1 h
    obtain ⟨h1, -⟩ := expo_spec hx
    simp only
    have hu : (0:ℚ) < (2:ℚ) ^ (expo x - 23) := by positivity
    have e : x = x / (2:ℚ) ^ (expo x - 23) * (2:ℚ) ^ (expo x - 23) := by field_simp
    have h3 := halfEven_err (x / (2:ℚ) ^ (expo x - 23))
    have h4 : (halfEven (x / (2:ℚ) ^ (expo x - 23)) : ℚ) * (2:ℚ) ^ (expo x - 23) - x =
        ((halfEven (x / (2:ℚ) ^ (expo x - 23)) : ℚ) - x / (2:ℚ) ^ (expo x - 23)) * (2:ℚ) ^ (expo x - 23) := by
      rw [sub_mul]; rw [← e]
    rw [h4, abs_mul, abs_of_pos hu]
    have h5 : (2:ℚ) ^ (expo x - 23) = (2:ℚ) ^ expo x / 2 ^ 23 := by
      rw [zpow_sub₀ (by norm_num)]; norm_cast
    rw [h5] at h3 ⊢
    have h6 : (0:ℚ) ≤ (2:ℚ) ^ expo x / 2 ^ 23 := by positivity
    calc _ ≤ 1 / 2 * ((2:ℚ) ^ expo x / 2 ^ 23) := mul_le_mul_of_nonneg_right h3 h6
      _ ≤ 1 / 2 * (x / 2 ^ 23) := by
          apply mul_le_mul_of_nonneg_left _ (by norm_num)
          exact div_le_div_of_nonneg_right h1 (by norm_num)
      _ = x / 2 ^ 24 := by ring

theorem rnd24_le {x : ℚ} (hx : 0 ≤ x) : rnd24 x ≤ x * (1 + 1 / 2 ^ 24) := by
  have := (abs_le.1 (rnd24_err hx)).2
  linarith

theorem rnd24_nonneg {x : ℚ} (hx : 0 ≤ x) : 0 ≤ rnd24 x := by
  have := abs_le.1 (rnd24_err hx)
  have h : x / 2 ^ 24 ≤ x := by
    rw [div_le_iff₀ (by norm_num)]; nlinarith
  linarith [this.1]

/-- The adjusted rate is at most one above the plain rate. -/
theorem adjustedFeeRate_le (r : Nat) : adjustedFeeRate r ≤ r + 1 := by
  unfold adjustedFeeRate
  have hr : (0:ℚ) ≤ r := Nat.cast_nonneg r
  have hx : (0:ℚ) ≤ (r:ℚ) / (100000 + r) := by positivity
  have h1 := rnd24_le hx
  have h0 := rnd24_nonneg hx
  have h2 := rnd24_le (x := rnd24 ((r : ℚ) / (100000 + r)) * 100000) (by positivity)
  have h3 : (r:ℚ) / (100000 + r) * 100000 ≤ r * (100000 / 100001) ∨ r = 0 := by
    rcases Nat.eq_zero_or_pos r with h | h
    · exact .inr h
    · left
      have : (1:ℚ) ≤ r := by exact_mod_cast h
      rw [div_mul_eq_mul_div, div_le_iff₀ (by positivity)]
      have : (100000:ℚ) ≤ 100000 / 100001 * (100000 + r) := by
        rw [div_mul_eq_mul_div, le_div_iff₀ (by norm_num)]; nlinarith
      nlinarith
  have h4 : rnd24 (rnd24 ((r : ℚ) / (100000 + r)) * 100000) ≤ r := by
    rcases h3 with h3 | h3
    · nlinarith
    · subst h3; simp [rnd24]
  have h5 : ⌊rnd24 (rnd24 ((r : ℚ) / (100000 + r)) * 100000)⌋ ≤ (r : ℤ) := by
    rw [← Int.cast_le (R := ℚ)]
    exact le_trans (Int.floor_le _) (by exact_mod_cast h4)
  omega

/-! ### What a step of the trade contract does -/

structure TradeStep (mi : MarketInfo) (store taken : List Order) (mc : Mc) : Prop where
  ok : BookOk mc.store
  tied : ∀ m a x, tiedUpFor m a x store + tiedUpFor m a x taken = tiedUpFor m a x mc.store +
    if m = mi.marketId then settled Settle.reduceLocked a x mc.settles + settled Settle.releaseLocked a x mc.settles else 0
  trade : settledAll Settle.incAvailable true mc.settles = settledAll Settle.reduceLocked true mc.settles
  quote : settledAll Settle.incAvailable false mc.settles + feesAll mc.fees = settledAll Settle.reduceLocked false mc.settles
  events : ∀ ev ∈ mc.events, EventOk ev
  ids : ∀ x ∈ mc.store, (∃ y ∈ store, y.id = x.id) ∨ ∃ y ∈ taken, y.id = x.id

def okey (o : Order) : (Nat × Nat × Bool) × Nat := ((o.marketId, o.address, o.side), tiedUp o)
def skey (m : Nat) (s : Settle) : (Nat × Nat × Bool) × Nat := ((m, s.address, s.isTradeToken), debit s)

theorem ksum_orders (m a x) (os : List Order) : ksum (m, a, x) (os.map okey) = tiedUpFor m a x os := by
  simp only [ksum, tiedUpFor, List.map_map, Function.comp_def, okey, Prod.mk.injEq]

theorem ksum_settles (M m a x) (ss : List Settle) : ksum (m, a, x) (ss.map (skey M)) =
    if m = M then settled Settle.reduceLocked a x ss + settled Settle.releaseLocked a x ss else 0 := by
  induction ss with
  | nil => simp [ksum, settled]
  | cons s ss ih =>
    have e : ksum (m, a, x) ((s :: ss).map (skey M)) =
      (if M = m ∧ s.address = a ∧ s.isTradeToken = x then debit s else 0) + ksum (m, a, x) (ss.map (skey M)) := by
      simp [ksum, skey]
    have e' : ∀ g, settled g a x (s :: ss) = (if s.address = a ∧ s.isTradeToken = x then g s else 0) + settled g a x ss := by
      intro g; simp [settled]
    rw [e, ih, e', e']
    by_cases hm : m = M
    · subst hm
      simp only [true_and, if_true]
      by_cases hc : s.address = a ∧ s.isTradeToken = x
      · simp only [hc, and_self, if_true, debit]; omega
      · simp only [hc, if_false]; omega
    · rw [if_neg hm, if_neg (fun h => hm h.1.symm), if_neg hm]

def tokenTest (mk : Nat → Option MarketInfo) (a t : Nat) (k : Nat × Nat × Bool) : Bool :=
  decide (k.2.1 = a) && decide ((mk k.1).map (fun mi => if k.2.2 then mi.tradeToken else mi.quoteToken) = some t)

theorem psum_orders (mk a t) (os : List Order) : psum (tokenTest mk a t) (os.map okey) = promised mk a t os := by
  unfold psum promised
  rw [List.map_map]
  congr 1
  apply List.map_congr_left
  intro o _
  by_cases h : o.address = a ∧ paysWith mk o = some t
  · have : tokenTest mk a t (okey o).1 = true := by
      unfold tokenTest; rw [Bool.and_eq_true]; exact ⟨decide_eq_true h.1, decide_eq_true h.2⟩
    rw [if_pos h, Function.comp, if_pos this]; rfl
  · have : ¬ tokenTest mk a t (okey o).1 = true := by
      intro hh; unfold tokenTest at hh; rw [Bool.and_eq_true] at hh
      exact h ⟨of_decide_eq_true hh.1, of_decide_eq_true hh.2⟩
    rw [if_neg h, Function.comp, if_neg this]

theorem psum_settles {mk : Nat → Option MarketInfo} {mi : MarketInfo} (h : mk mi.marketId = some mi) (a t) (ss : List Settle) :
    psum (tokenTest mk a t) (ss.map (skey mi.marketId)) = colBy mi debit a t ss := by
  unfold psum colBy
  rw [List.map_map]
  congr 1
  apply List.map_congr_left
  intro o _
  by_cases hc : o.address = a ∧ settleToken mi o = t
  · have : tokenTest mk a t (skey mi.marketId o).1 = true := by
      unfold tokenTest; rw [Bool.and_eq_true]
      exact ⟨decide_eq_true hc.1, decide_eq_true (by simp only [skey, h, Option.map_some]; exact congrArg some hc.2)⟩
    rw [if_pos hc, Function.comp, if_pos this]; rfl
  · have : ¬ tokenTest mk a t (skey mi.marketId o).1 = true := by
      intro hh; unfold tokenTest at hh; rw [Bool.and_eq_true] at hh
      have h2 := of_decide_eq_true hh.2
      simp only [skey, h, Option.map_some, Option.some.injEq] at h2
      exact hc ⟨of_decide_eq_true hh.1, h2⟩
    rw [if_neg hc, Function.comp, if_neg this]

theorem TradeStep.promised {mi store taken mc} (h : TradeStep mi store taken mc) {mk : Nat → Option MarketInfo}
    (hm : mk mi.marketId = some mi) (a t : Nat) :
    promised mk a t store + promised mk a t taken = promised mk a t mc.store + colBy mi debit a t mc.settles := by
  have := psum_congr (store.map okey ++ taken.map okey) (mc.store.map okey ++ mc.settles.map (skey mi.marketId))
    (fun k => by
      obtain ⟨m, a, x⟩ := k
      rw [ksum_append, ksum_append, ksum_orders, ksum_orders, ksum_orders, ksum_settles, h.tied]) (tokenTest mk a t)
  rwa [psum_append, psum_append, psum_orders, psum_orders, psum_orders, psum_settles hm] at this

theorem col_eq (mi : MarketInfo) (g t) (ss : List Settle) : col mi g t ss =
    (if mi.tradeToken = t then settledAll g true ss else 0) + (if mi.quoteToken = t then settledAll g false ss else 0) := by
  induction ss with
  | nil => simp [col, settledAll]
  | cons s ss ih =>
    have e : col mi g t (s :: ss) = (if settleToken mi s = t then g s else 0) + col mi g t ss := by simp [col]
    have e' : ∀ b, settledAll g b (s :: ss) = (if s.isTradeToken = b then g s else 0) + settledAll g b ss := by
      intro b; simp [settledAll]
    rw [e, ih, e', e']
    cases hs : s.isTradeToken <;> simp only [settleToken, hs, if_true, if_false, Bool.false_eq_true,
      Bool.true_eq_false] <;> split_ifs <;> omega

/-- Messages move no money in or out. -/
def MsgOk (m : SettleMsg) : Prop := ∀ t, col m.market Settle.incAvailable t m.funds +
  (if m.market.quoteToken = t then feesAll m.fees else 0) = col m.market Settle.reduceLocked t m.funds

theorem TradeStep.msg {mi store taken mc} (h : TradeStep mi store taken mc) : MsgOk ⟨mi, mc.settles, mc.fees⟩ := by
  intro t
  simp only [col_eq]
  have h1 := h.trade
  have h2 := h.quote
  split_ifs <;> omega

theorem fees_split (fs : List FeeSettle) : feesAll fs = baseFees fs + operatorFees fs := by
  induction fs with
  | nil => rfl
  | cons x xs ih => simp only [feesAll, baseFees, operatorFees, List.map_cons, List.sum_cons] at *; omega

/-! ### The invariant -/

structure Inv (mk : Nat → Option MarketInfo) (s : Sys) : Prop where
  keyed : Keyed s.funds
  book : BookOk s.store
  fresh : ∀ o ∈ s.orders, Fresh o ∧ RatesOk o
  ids : ((s.store ++ s.orders).map Order.id).Nodup
  locked : ∀ a t, heldBy Acct.locked a t s.funds =
    promised mk a t s.store + promised mk a t s.orders + debits a t s.msgs
  msgs : ∀ m ∈ s.msgs, MsgOk m
  total : ∀ t, held owes t s.funds + s.dividendPool t + s.operatorPool t + s.withdrawn t = s.deposited t
  exceeded : s.exceeded = false
  events : ∀ ev ∈ s.events, EventOk ev

theorem Inv.init (mk) : Inv mk Sys.init where
  keyed := List.Pairwise.nil
  book := ⟨List.Pairwise.nil, by simp [Sys.init], by simp [Sys.init], by simp [Sys.init], by simp [Sys.init]⟩
  fresh := by simp [Sys.init]
  ids := by simp [Sys.init]
  locked := fun _ _ => rfl
  msgs := by simp [Sys.init]
  total := fun _ => rfl
  exceeded := rfl
  events := by simp [Sys.init]

theorem bump_apply (f : Nat → Nat) (t n x : Nat) : bump f t n x = f x + (if x = t then n else 0) := by
  unfold bump; split <;> rfl

/-- A change of the fund table that leaves the locked column alone. -/
theorem Inv.moves {mk s} (h : Inv mk s) {fs : List Acct} {plus minus : Nat → Nat} (M : Moves s.funds fs plus minus)
    {dp op de wi : Nat → Nat}
    (hb : ∀ t, de t + minus t + s.dividendPool t + s.operatorPool t + s.withdrawn t =
      s.deposited t + plus t + dp t + op t + wi t) :
    Inv mk { s with funds := fs, dividendPool := dp, operatorPool := op, deposited := de, withdrawn := wi } where
  keyed := M.keyed h.keyed
  book := h.book
  fresh := h.fresh
  ids := h.ids
  locked := fun a t => by simp only [M.locked]; exact h.locked a t
  msgs := h.msgs
  total := fun t => by
    have h1 := M.total t
    have h2 := h.total t
    have h3 := hb t
    simp only; omega
  exceeded := h.exceeded
  events := h.events

theorem promised_append (mk a t) (l l' : List Order) : promised mk a t (l ++ l') = promised mk a t l + promised mk a t l' := by
  simp [promised]

theorem debits_append (a t) (l l' : List SettleMsg) : debits a t (l ++ l') = debits a t l + debits a t l' := by
  simp [debits]

theorem msgDebit_eq (a t) (m : SettleMsg) : msgDebit a t m = colBy m.market debit a t m.funds := rfl

theorem debits_settleMsgOf (mi : MarketInfo) (mc : Mc) (a t : Nat) :
    debits a t (settleMsgOf mi mc) = colBy mi debit a t mc.settles := by
  unfold settleMsgOf
  split
  · rename_i h; rw [h.1]; rfl
  · simp [debits, msgDebit_eq]

theorem sum_eraseIdx {α : Type} (g : α → Nat) : ∀ (l : List α) (i : Nat) (x : α), l[i]? = some x →
    (l.map g).sum = ((l.eraseIdx i).map g).sum + g x := by
  intro l
  induction l with
  | nil => intro i x h; simp at h
  | cons y ys ih =>
    intro i x h
    cases i with
    | zero =>
      simp at h; subst h
      simp; omega
    | succ i =>
      have := ih i x (by simpa using h)
      simp only [List.eraseIdx_cons_succ, List.map_cons, List.sum_cons]; omega

/-- A step of the trade contract that consumes the orders `taken` of the queue. -/
theorem Inv.tradeStep {mk s} (h : Inv mk s) {mi : MarketInfo} (hm : mk mi.marketId = some mi) {taken rest : List Order}
    {mc : Mc} (T : TradeStep mi s.store taken mc) (hsub : rest.Sublist s.orders)
    (hsplit : ∀ a t, promised mk a t s.orders = promised mk a t taken + promised mk a t rest)
    (hdis : ∀ y ∈ taken, y ∈ s.orders ∧ ∀ x ∈ rest, x.id ≠ y.id) :
    Inv mk
      { s with store := mc.store, orders := rest, msgs := s.msgs ++ settleMsgOf mi mc, events := s.events ++ mc.events }
    where
  keyed := h.keyed
  book := T.ok
  fresh := fun o ho => h.fresh o (hsub.subset ho)
  ids := by
    simp only
    have hn := h.ids
    rw [List.map_append, List.nodup_append'] at hn ⊢
    refine ⟨?_, (hsub.map _).nodup hn.2.1, ?_⟩
    · have := T.ok.sorted
      rw [List.Nodup, List.pairwise_map]
      exact this.imp (fun h => Nat.ne_of_lt h)
    · intro i h1 h2
      obtain ⟨x, hx, rfl⟩ := List.mem_map.1 h1
      obtain ⟨y, hy, e⟩ := List.mem_map.1 h2
      rcases T.ids x hx with ⟨z, hz, ez⟩ | ⟨z, hz, ez⟩
      · exact hn.2.2 (List.mem_map.2 ⟨z, hz, ez⟩) (List.mem_map.2 ⟨y, hsub.subset hy, e⟩)
      · exact (hdis z hz).2 y hy (by rw [ez, e])
  locked := fun a t => by
    have h1 := h.locked a t
    have h2 := T.promised hm a t
    have h3 := hsplit a t
    simp only [debits_append, debits_settleMsgOf]
    omega
  msgs := by
    intro m hm'
    simp only [List.mem_append] at hm'
    rcases hm' with hm' | hm'
    · exact h.msgs m hm'
    · unfold settleMsgOf at hm'
      split at hm'
      · simp at hm'
      · simp at hm'; subst hm'; exact T.msg
  total := h.total
  exceeded := h.exceeded
  events := by
    intro ev hev
    simp only [List.mem_append] at hev
    rcases hev with hev | hev
    · exact h.events ev hev
    · exact T.events ev hev

/-! ### The three ways the trade contract changes its table -/

theorem tradeStep_match {f : Forks} (hf : f.dexFee = true) {mi : MarketInfo} {now : Nat} {store : List Order} {o : Order}
    (hb : BookOk store) (hfresh : Fresh o) (hr : RatesOk o) (hM : o.marketId = mi.marketId)
    (hid : ∀ x ∈ store, x.id ≠ o.id) : TradeStep mi store [o] (matchOrder f mi now store o).1 := by
  have S := matchOrder_spec hf (now := now) hb hfresh hr hM hid
  refine ⟨S.ok, S.tied, S.trade, S.quote, ?_, ?_⟩
  · intro ev hev
    cases ev with
    | newOrder o' => rw [EventOk, S.new o' hev]; exact S.lim
    | orderUpdate o' => exact S.updates o' hev
    | transaction _ => trivial
  · intro x hx
    rcases S.ids x hx with h | h
    · exact .inl h
    · exact .inr ⟨o, by simp, h.symm⟩

theorem tradeStep_cancel {mi : MarketInfo} {store : List Order} {o : Order} (hb : BookOk store) (ho : o ∈ store)
    (hM : o.marketId = mi.marketId) : TradeStep mi store [] (cancelOrder store o).1 := by
  have C := fun m a t => cancel_releases_locked store o hb ho m a t
  have key : (cancelOrder store o).1.store = del o.id store ∧
      (∀ ev ∈ (cancelOrder store o).1.events, EventOk ev) ∧
      (∀ t, settledAll Settle.incAvailable t (cancelOrder store o).1.settles = 0) ∧
      (∀ t, settledAll Settle.reduceLocked t (cancelOrder store o).1.settles = 0) := by
    unfold cancelOrder
    generalize userCancelReason o = r
    have hl := (hb.limits o ho).status .cancelled r
    have R := handleRefund_spec ⟨store, [], [], []⟩ { o with status := .cancelled, cancelReason := r } hl (.inr rfl)
    generalize handleRefund ⟨store, [], [], []⟩ { o with status := .cancelled, cancelReason := r } = c at R ⊢
    obtain ⟨mc, o'⟩ := c
    simp only at R ⊢
    refine ⟨by rw [R.store], ?_, R.incAll, R.reduceAll⟩
    intro ev hev
    rw [R.events] at hev
    simp at hev
    subst hev
    rw [R.order]
    exact ⟨hl.quantity, hl.amount, hl.fee⟩
  refine ⟨(C 0 0 true).1, ?_, ?_, ?_, key.2.1, ?_⟩
  · intro m a x
    obtain ⟨-, -, -, c1, c2, c3, -⟩ := C m a x
    rw [tiedUpFor_nil, c3, hM, c2]; simp
  · rw [key.2.2.1, key.2.2.2]
  · rw [key.2.2.1, key.2.2.2, (C 0 0 true).2.2.1]; rfl
  · intro x hx
    rw [key.1] at hx
    exact .inl ⟨x, (mem_del.1 hx).1, rfl⟩

theorem mem_orderById {store : List Order} {id : Nat} {o : Order} (h : orderById store id = some o) : o ∈ store ∧ o.id = id := by
  unfold orderById at h
  exact ⟨List.mem_of_find?_eq_some h, by simpa using List.find?_some h⟩

theorem tradeStep_clear {f : Forks} {mi : MarketInfo} {now : Nat} {store : List Order} {ids : List Nat} (hb : BookOk store)
    (hm : oneMarket store ids = some mi.marketId) (hn : ids.Nodup) :
    TradeStep mi store [] (handleModifiedMakers ⟨store, [], [], []⟩ (expiredOf f now store ids)) := by
  have hmk : ∀ i ∈ ids, ∀ o, orderById store i = some o → o.marketId = mi.marketId := by
    unfold oneMarket at hm
    intro i hi o ho
    have hmem : o.marketId ∈ ids.filterMap (fun i => (orderById store i).map Order.marketId) :=
      List.mem_filterMap.2 ⟨i, hi, by simp [ho]⟩
    generalize ids.filterMap (fun i => (orderById store i).map Order.marketId) = l at hm hmem
    cases l with
    | nil => simp at hm
    | cons m ms =>
      simp only at hm
      split at hm
      · rename_i hall
        simp only [Option.some.injEq] at hm
        rcases List.mem_cons.1 hmem with h | h
        · rw [h, hm]
        · have := List.all_eq_true.1 hall _ h
          simp at this; rw [this, hm]
      · simp at hm
  -- the makers as they were, next to the makers as they become
  have pair : ∃ used, List.Forall₂ SameKey used (expiredOf f now store ids) ∧
      (∀ o ∈ used, o ∈ store ∧ o.marketId = mi.marketId ∧ o.id ∈ ids) ∧ used.Pairwise (fun x y => x.id ≠ y.id) ∧
      (∀ o ∈ expiredOf f now store ids, WithinLimits o) ∧
      (∀ m a t, tiedUpFor m a t (expiredOf f now store ids) = tiedUpFor m a t used) := by
    clear hm
    induction ids with
    | nil => exact ⟨[], by simp [expiredOf], by simp, by simp, by simp [expiredOf], by simp [expiredOf]⟩
    | cons i is ih =>
      rw [List.nodup_cons] at hn
      obtain ⟨used, u1, u2, u3, u4, u5⟩ := ih hn.2 (fun j hj => hmk j (by simp [hj]))
      cases hx : (orderById store i).bind (filterTimeout f now) with
      | none =>
        have e : expiredOf f now store (i :: is) = expiredOf f now store is := by
          unfold expiredOf; exact List.filterMap_cons_none (f := fun i => (orderById store i).bind (filterTimeout f now)) hx
        rw [e]
        exact ⟨used, u1, fun o ho => ⟨(u2 o ho).1, (u2 o ho).2.1, by simp [(u2 o ho).2.2]⟩, u3, u4, u5⟩
      | some o' =>
        have e : expiredOf f now store (i :: is) = o' :: expiredOf f now store is := by
          unfold expiredOf; exact List.filterMap_cons_some (f := fun i => (orderById store i).bind (filterTimeout f now)) hx
        obtain ⟨o, ho, ht⟩ := Option.bind_eq_some_iff.1 hx
        obtain ⟨hos, hoi⟩ := mem_orderById ho
        obtain ⟨s, r, e'⟩ : ∃ s r, o' = { o with status := s, cancelReason := r } := by
          unfold filterTimeout at ht
          split at ht
          · simp at ht
          · split at ht
            · exact ⟨_, _, (Option.some.inj ht).symm⟩
            · simp at ht
        rw [e]
        refine ⟨o :: used, .cons (by rw [e']; exact .status _ _ _) u1, ?_, ?_, ?_, ?_⟩
        · intro x hx
          rcases List.mem_cons.1 hx with rfl | hx
          · exact ⟨hos, hmk i (by simp) _ ho, by simp [hoi]⟩
          · exact ⟨(u2 x hx).1, (u2 x hx).2.1, by simp [(u2 x hx).2.2]⟩
        · refine List.pairwise_cons.2 ⟨?_, u3⟩
          intro y hy e2
          exact hn.1 (by rw [← hoi, e2]; exact (u2 y hy).2.2)
        · intro x hx
          rcases List.mem_cons.1 hx with rfl | hx
          · rw [e']; exact (hb.limits o hos).status _ _
          · exact u4 x hx
        · intro m a t
          rw [tiedUpFor_cons, tiedUpFor_cons _ _ _ o used, u5, e', tiedUpFor_status]
  obtain ⟨used, u1, u2, u3, u4, u5⟩ := pair
  obtain ⟨S, T, K, J, E⟩ := handleModifiedMakers_spec (M := mi.marketId) u1 (mc := ⟨store, [], [], []⟩) hb
    (fun o ho => ⟨(u2 o ho).1, (u2 o ho).2.1⟩) u3 u4
  refine ⟨S.ok, ?_, ?_, ?_, ?_, ?_⟩
  · intro m a x
    have := T m a x
    rw [u5] at this
    rw [tiedUpFor_nil, S.reduce]
    simp only [settled_nil, ite_self, Nat.add_zero, Nat.zero_add] at this ⊢
    omega
  · rw [S.incAll, S.reduceAll]; rfl
  · rw [S.incAll, S.reduceAll, S.fees]; rfl
  · intro ev hev
    rcases E ev hev with h | ⟨o, ho, e, rfl⟩
    · simp at h
    · have := u4 o ho; exact ⟨this.quantity, this.amount, this.fee⟩
  · intro x hx
    exact .inl (J x hx)

end Verif.Dex
