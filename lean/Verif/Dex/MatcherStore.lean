import Verif.Dex.MatcherLemmas

/-! Storage updates and settlement bookkeeping of a match. -/

namespace Verif.Dex
open Spec

abbrev Sorted (l : List Order) : Prop := l.Pairwise (fun x y => x.id < y.id)

theorem Sorted.inj {l : List Order} (h : Sorted l) {x y : Order} (hx : x ∈ l) (hy : y ∈ l) (e : x.id = y.id) : x = y := by
  induction l with
  | nil => simp at hx
  | cons z zs ih =>
    have hz := List.pairwise_cons.1 h
    rcases List.mem_cons.1 hx with rfl | hx' <;> rcases List.mem_cons.1 hy with rfl | hy'
    · rfl
    · have := hz.1 y hy'; omega
    · have := hz.1 x hx'; omega
    · exact ih hz.2 hx' hy'

theorem mem_put {l : List Order} (h : Sorted l) (o x : Order) :
    x ∈ put o l ↔ x = o ∨ (x ∈ l ∧ x.id ≠ o.id) := by
  induction l with
  | nil => simp [put]
  | cons z zs ih =>
    have hz := List.pairwise_cons.1 h
    unfold put
    split
    · rename_i hlt
      simp only [List.mem_cons]
      constructor
      · rintro (rfl | rfl | hx)
        · exact .inl rfl
        · exact .inr ⟨.inl rfl, by omega⟩
        · have := hz.1 x hx
          exact .inr ⟨.inr hx, by omega⟩
      · rintro (rfl | ⟨hx, _⟩)
        · exact .inl rfl
        · exact .inr hx
    · split
      · rename_i he
        simp only [List.mem_cons]
        constructor
        · rintro (rfl | hx)
          · exact .inl rfl
          · have := hz.1 x hx
            exact .inr ⟨.inr hx, by omega⟩
        · rintro (rfl | ⟨rfl | hx, h2⟩)
          · exact .inl rfl
          · omega
          · exact .inr hx
      · rename_i h1 h2
        simp only [List.mem_cons, ih hz.2]
        constructor
        · rintro (rfl | rfl | ⟨hx, h3⟩)
          · exact .inr ⟨.inl rfl, by omega⟩
          · exact .inl rfl
          · exact .inr ⟨.inr hx, h3⟩
        · rintro (rfl | ⟨rfl | hx, h3⟩)
          · exact .inr (.inl rfl)
          · exact .inl rfl
          · exact .inr (.inr ⟨hx, h3⟩)

theorem sorted_put {l : List Order} (h : Sorted l) (o : Order) : Sorted (put o l) := by
  induction l with
  | nil => simp [put]
  | cons z zs ih =>
    have hz := List.pairwise_cons.1 h
    unfold put
    split
    · refine List.pairwise_cons.2 ⟨?_, h⟩
      intro x hx
      rcases List.mem_cons.1 hx with rfl | hx
      · assumption
      · have := hz.1 x hx; omega
    · split
      · rename_i he
        refine List.pairwise_cons.2 ⟨?_, hz.2⟩
        intro x hx; have := hz.1 x hx; omega
      · refine List.pairwise_cons.2 ⟨?_, ih hz.2⟩
        intro x hx
        rcases (mem_put hz.2 o x).1 hx with rfl | ⟨hx, _⟩
        · omega
        · exact hz.1 x hx

theorem tied_put_new {l : List Order} (o : Order) (hn : ∀ x ∈ l, x.id ≠ o.id) (m a t) :
    tiedUpFor m a t (put o l) = tiedUpFor m a t l + tiedUpFor m a t [o] := by
  induction l with
  | nil => simp [put, tiedUpFor]
  | cons z zs ih =>
    have hz := hn z (by simp)
    have ih := ih (fun x hx => hn x (by simp [hx]))
    unfold put
    split
    · rw [tiedUpFor_cons]; omega
    · split
      · omega
      · rw [tiedUpFor_cons, tiedUpFor_cons _ _ _ z zs, ih]; omega

theorem tied_put_old {l : List Order} (h : Sorted l) {old o : Order} (ho : old ∈ l) (e : old.id = o.id) (m a t) :
    tiedUpFor m a t (put o l) + tiedUpFor m a t [old] = tiedUpFor m a t l + tiedUpFor m a t [o] := by
  induction l with
  | nil => simp at ho
  | cons z zs ih =>
    have hz := List.pairwise_cons.1 h
    unfold put
    rcases List.mem_cons.1 ho with rfl | ho'
    · have h1 := tiedUpFor_cons m a t old zs
      rw [if_neg (by omega), if_pos (by omega), tiedUpFor_cons]; omega
    · have h1 := hz.1 old ho'
      have := ih hz.2 ho'
      rw [if_neg (by omega), if_neg (by omega), tiedUpFor_cons, tiedUpFor_cons _ _ _ z zs]; omega

theorem tied_del {l : List Order} (h : Sorted l) {old : Order} (ho : old ∈ l) (m a t) :
    tiedUpFor m a t (del old.id l) + tiedUpFor m a t [old] = tiedUpFor m a t l := by
  induction l with
  | nil => simp at ho
  | cons z zs ih =>
    have hz := List.pairwise_cons.1 h
    unfold del at *
    rcases List.mem_cons.1 ho with rfl | ho'
    · have : zs.filter (fun x => decide (x.id ≠ old.id)) = zs := by
        rw [List.filter_eq_self]
        intro x hx; have := hz.1 x hx; simp; omega
      have h1 := tiedUpFor_cons m a t old zs
      rw [List.filter_cons_of_neg (by simp), this]; omega
    · have h1 := hz.1 old ho'
      have := ih hz.2 ho'
      rw [List.filter_cons_of_pos (by simp; omega), tiedUpFor_cons, tiedUpFor_cons _ _ _ z zs]; omega

theorem mem_del {l : List Order} {id : Nat} {x : Order} : x ∈ del id l ↔ x ∈ l ∧ x.id ≠ id := by simp [del]

theorem Spec.BookOk.del {l : List Order} (h : BookOk l) (id : Nat) : BookOk (del id l) where
  sorted := h.sorted.filter _
  limits := fun o ho => h.limits o (mem_del.1 ho).1
  rates := fun o ho => h.rates o (mem_del.1 ho).1
  isOpen := fun o ho => h.isOpen o (mem_del.1 ho).1
  kept := fun o ho => h.kept o (mem_del.1 ho).1

theorem Spec.BookOk.put {l : List Order} (h : BookOk l) {o : Order} (h1 : WithinLimits o) (h2 : RatesOk o)
    (h3 : o.status = .pending ∨ o.status = .partialExecuted) (h4 : o.type = .limited ∨ o.type = .postOnly) :
    BookOk (put o l) where
  sorted := sorted_put h.sorted o
  limits := fun x hx => by
    rcases (mem_put h.sorted o x).1 hx with rfl | ⟨hx, _⟩
    · exact h1
    · exact h.limits x hx
  rates := fun x hx => by
    rcases (mem_put h.sorted o x).1 hx with rfl | ⟨hx, _⟩
    · exact h2
    · exact h.rates x hx
  isOpen := fun x hx => by
    rcases (mem_put h.sorted o x).1 hx with rfl | ⟨hx, _⟩
    · exact h3
    · exact h.isOpen x hx
  kept := fun x hx => by
    rcases (mem_put h.sorted o x).1 hx with rfl | ⟨hx, _⟩
    · exact h4
    · exact h.kept x hx

/-! ### Refunds -/

abbrev Final (o : Order) : Prop := o.status = .fullyExecuted ∨ o.status = .cancelled

/-- A refund of a finished order frees exactly what it still tied up. -/
structure RefundSpec (mc : Mc) (o : Order) (mc' : Mc) (o' : Order) : Prop where
  store : mc'.store = mc.store
  fees : mc'.fees = mc.fees
  events : mc'.events = mc.events
  inc : ∀ a t, settled Settle.incAvailable a t mc'.settles = settled Settle.incAvailable a t mc.settles
  reduce : ∀ a t, settled Settle.reduceLocked a t mc'.settles = settled Settle.reduceLocked a t mc.settles
  incAll : ∀ t, settledAll Settle.incAvailable t mc'.settles = settledAll Settle.incAvailable t mc.settles
  reduceAll : ∀ t, settledAll Settle.reduceLocked t mc'.settles = settledAll Settle.reduceLocked t mc.settles
  release : ∀ a t, settled Settle.releaseLocked a t mc'.settles =
    settled Settle.releaseLocked a t mc.settles + tiedUpFor o.marketId a t [o]
  order : o' = { o with refundQuantity := tiedUp o }

theorem handleRefund_spec (mc : Mc) (o : Order) (h : WithinLimits o) (hf : Final o) :
    RefundSpec mc o (handleRefund mc o).1 (handleRefund mc o).2 := by
  unfold handleRefund
  rw [if_pos hf]
  have hq : refundOf o = tiedUp o := by
    have h1 := h.quantity
    have h2 := h.amount
    have h3 := h.fee
    unfold refundOf tiedUp
    cases hs : o.side <;> simp only [hs, forall_true_left, if_true, reduceCtorEq, if_false] at *
    · have h4 : o.executedBaseFee ≤ o.lockedBuyFee := by omega
      have h5 : o.executedOperatorFee ≤ o.lockedBuyFee - o.executedBaseFee := by omega
      rw [subAbs_le h2, subAbs_le h4, subAbs_le h5]; omega
    · rw [subAbs_le h1]
  simp only
  rw [hq]
  split
  · constructor <;> simp only [settled_update column_inc, settled_update column_reduce, settled_update column_release,
      settledAll_update column_inc, settledAll_update column_reduce] <;> intros <;>
      simp [settled, settledAll, tiedUpFor_one]
  · have : tiedUp o = 0 := by omega
    constructor <;> simp [tiedUpFor_one, this]

/-! ### Makers -/

/-- The accounts' view after `mc` became `mc'` while orders `old` became `new` (market `M`). -/
structure StepSpec (M : Nat) (mc mc' : Mc) : Prop where
  ok : BookOk mc'.store
  inc : ∀ a t, settled Settle.incAvailable a t mc'.settles = settled Settle.incAvailable a t mc.settles
  reduce : ∀ a t, settled Settle.reduceLocked a t mc'.settles = settled Settle.reduceLocked a t mc.settles
  incAll : ∀ t, settledAll Settle.incAvailable t mc'.settles = settledAll Settle.incAvailable t mc.settles
  reduceAll : ∀ t, settledAll Settle.reduceLocked t mc'.settles = settledAll Settle.reduceLocked t mc.settles
  fees : mc'.fees = mc.fees

theorem tiedUpFor_other {m M : Nat} (h : m ≠ M) {o : Order} (ho : o.marketId = M) (a t) : tiedUpFor m a t [o] = 0 := by
  rw [tiedUpFor_one, if_neg]; rintro ⟨e, _⟩; omega

theorem handleModifiedMaker_spec {M : Nat} {mc : Mc} (hb : BookOk mc.store) {old o : Order} (ho : old ∈ mc.store)
    (hk : SameKey old o) (hM : old.marketId = M) (hl : WithinLimits o) :
    StepSpec M mc (handleModifiedMaker mc o) ∧
    (∀ m a t, tiedUpFor m a t (handleModifiedMaker mc o).store +
        (if m = M then settled Settle.releaseLocked a t (handleModifiedMaker mc o).settles else 0) +
        tiedUpFor m a t [old] =
      tiedUpFor m a t mc.store + (if m = M then settled Settle.releaseLocked a t mc.settles else 0) +
        tiedUpFor m a t [o]) ∧
    (∀ x ∈ mc.store, x.id ≠ o.id → x ∈ (handleModifiedMaker mc o).store) ∧
    (∀ x ∈ (handleModifiedMaker mc o).store, ∃ y ∈ mc.store, y.id = x.id) ∧
    (∃ e, (handleModifiedMaker mc o).events = mc.events ++ [.orderUpdate { o with refundQuantity := e }]) := by
  unfold handleModifiedMaker
  split
  · rename_i hf
    have R := handleRefund_spec mc o hl hf
    generalize handleRefund mc o = r at R ⊢
    obtain ⟨mc', o'⟩ := r
    simp only at R ⊢
    rw [R.store, hk.id]
    refine ⟨⟨hb.del _, R.inc, R.reduce, R.incAll, R.reduceAll, R.fees⟩, ?_, ?_, ?_, ?_⟩
    · intro m a t
      have h1 := tied_del hb.sorted ho m a t
      have h2 := R.release a t
      have hoM : o.marketId = M := by rw [hk.marketId, hM]
      rw [hoM] at h2
      by_cases hm : m = M
      · simp only [hm, if_true] at *; omega
      · have := tiedUpFor_other hm hoM a t
        simp only [hm, if_false]; omega
    · intro x hx hne; rw [mem_del]; exact ⟨hx, hne⟩
    · intro x hx; exact ⟨x, (mem_del.1 hx).1, rfl⟩
    · exact ⟨tiedUp o, by rw [R.events, R.order, ← hk.id]⟩
  · rename_i hf
    have hst : o.status = .pending ∨ o.status = .partialExecuted := by
      cases h : o.status <;> simp_all
    refine ⟨⟨hb.put hl (hk.rates (hb.rates _ ho)) hst (by rw [hk.type]; exact hb.kept _ ho), ?_, ?_, ?_, ?_, rfl⟩,
      ?_, ?_, ?_, ⟨o.refundQuantity, rfl⟩⟩
    · exact fun _ _ => rfl
    · exact fun _ _ => rfl
    · exact fun _ => rfl
    · exact fun _ => rfl
    · intro m a t
      have := tied_put_old hb.sorted ho hk.id.symm m a t
      simp only; omega
    · intro x hx hne
      exact (mem_put hb.sorted o x).2 (.inr ⟨hx, hne⟩)
    · intro x hx
      rcases (mem_put hb.sorted o x).1 hx with rfl | ⟨hx, _⟩
      · exact ⟨old, ho, hk.id.symm⟩
      · exact ⟨x, hx, rfl⟩

theorem handleModifiedMakers_spec {M : Nat} {used mods : List Order} (hk : List.Forall₂ SameKey used mods) :
    ∀ {mc : Mc}, BookOk mc.store → (∀ o ∈ used, o ∈ mc.store ∧ o.marketId = M) → used.Pairwise (fun x y => x.id ≠ y.id) →
    (∀ o ∈ mods, WithinLimits o) →
    StepSpec M mc (handleModifiedMakers mc mods) ∧
    (∀ m a t, tiedUpFor m a t (handleModifiedMakers mc mods).store +
        (if m = M then settled Settle.releaseLocked a t (handleModifiedMakers mc mods).settles else 0) +
        tiedUpFor m a t used =
      tiedUpFor m a t mc.store + (if m = M then settled Settle.releaseLocked a t mc.settles else 0) +
        tiedUpFor m a t mods) ∧
    (∀ x ∈ mc.store, (∀ o ∈ mods, x.id ≠ o.id) → x ∈ (handleModifiedMakers mc mods).store) ∧
    (∀ x ∈ (handleModifiedMakers mc mods).store, ∃ y ∈ mc.store, y.id = x.id) ∧
    (∀ ev ∈ (handleModifiedMakers mc mods).events, ev ∈ mc.events ∨ ∃ o ∈ mods, ∃ e,
      ev = .orderUpdate { o with refundQuantity := e }) := by
  induction hk with
  | nil =>
    intro mc hb _ _ _
    refine ⟨⟨hb, fun _ _ => rfl, fun _ _ => rfl, fun _ => rfl, fun _ => rfl, rfl⟩, fun _ _ _ => rfl, ?_, ?_, ?_⟩
    · intro x hx _; exact hx
    · intro x hx; exact ⟨x, hx, rfl⟩
    · intro x hx; exact .inl hx
  | @cons old o used mods hk1 hk ih =>
    intro mc hb hu hs hl
    obtain ⟨ho, hM⟩ := hu old (by simp)
    have hs' := List.pairwise_cons.1 hs
    obtain ⟨S, T, K, J, ⟨e, E⟩⟩ := handleModifiedMaker_spec hb ho hk1 hM (hl o (by simp))
    have hu' : ∀ x ∈ used, x ∈ (handleModifiedMaker mc o).store ∧ x.marketId = M := by
      intro x hx
      have hx' := hu x (by simp [hx])
      refine ⟨K x hx'.1 ?_, hx'.2⟩
      have := hs'.1 x hx
      rw [hk1.id]; omega
    obtain ⟨S2, T2, K2, J2, E2⟩ := ih S.ok hu' hs'.2 (fun x hx => hl x (by simp [hx]))
    show StepSpec M mc (handleModifiedMakers (handleModifiedMaker mc o) mods) ∧
      (∀ m a t, tiedUpFor m a t (handleModifiedMakers (handleModifiedMaker mc o) mods).store +
        (if m = M then settled Settle.releaseLocked a t (handleModifiedMakers (handleModifiedMaker mc o) mods).settles else 0) +
        tiedUpFor m a t (old :: used) = _) ∧
      (∀ x ∈ mc.store, _ → x ∈ (handleModifiedMakers (handleModifiedMaker mc o) mods).store) ∧
      (∀ x ∈ (handleModifiedMakers (handleModifiedMaker mc o) mods).store, _) ∧
      (∀ ev ∈ (handleModifiedMakers (handleModifiedMaker mc o) mods).events, _)
    refine ⟨⟨S2.ok, ?_, ?_, ?_, ?_, ?_⟩, ?_, ?_, ?_, ?_⟩
    · intro a t; rw [S2.inc, S.inc]
    · intro a t; rw [S2.reduce, S.reduce]
    · intro t; rw [S2.incAll, S.incAll]
    · intro t; rw [S2.reduceAll, S.reduceAll]
    · rw [S2.fees, S.fees]
    · intro m a t
      have h1 := T m a t
      have h2 := T2 m a t
      rw [tiedUpFor_cons _ _ _ old, tiedUpFor_cons _ _ _ o]
      omega
    · intro x hx hne
      exact K2 x (K x hx (hne o (by simp))) (fun y hy => hne y (by simp [hy]))
    · intro x hx
      obtain ⟨y, hy, e1⟩ := J2 x hx
      obtain ⟨z, hz, e2⟩ := J y hy
      exact ⟨z, hz, by omega⟩
    · intro ev hev
      rcases E2 ev hev with h | ⟨p, hp, e', h⟩
      · rw [E] at h
        rcases List.mem_append.1 h with h | h
        · exact .inl h
        · exact .inr ⟨o, by simp, e, by simpa using h⟩
      · exact .inr ⟨p, by simp [hp], e', h⟩

/-! ### Transactions -/

theorem handleTxs_spec (txs : List Tx) : ∀ (mc : Mc), (∀ tx ∈ txs, Balanced tx) →
    (handleTxs mc txs).store = mc.store ∧
    (∀ g, Column g → ∀ a t, settled g a t (handleTxs mc txs).settles =
      settled g a t mc.settles + settled g a t (allTxSettles txs)) ∧
    (∀ g, Column g → ∀ t, settledAll g t (handleTxs mc txs).settles =
      settledAll g t mc.settles + settledAll g t (allTxSettles txs)) ∧
    settledAll Settle.incAvailable true (handleTxs mc txs).settles + settledAll Settle.reduceLocked true mc.settles =
      settledAll Settle.incAvailable true mc.settles + settledAll Settle.reduceLocked true (handleTxs mc txs).settles ∧
    settledAll Settle.incAvailable false (handleTxs mc txs).settles + feesAll (handleTxs mc txs).fees +
        settledAll Settle.reduceLocked false mc.settles =
      settledAll Settle.incAvailable false mc.settles + feesAll mc.fees +
        settledAll Settle.reduceLocked false (handleTxs mc txs).settles ∧
    (handleTxs mc txs).events = mc.events ++ txs.map .transaction := by
  induction txs with
  | nil => intro mc _; simp [handleTxs, allTxSettles, settled, settledAll]
  | cons tx txs ih =>
    intro mc hb
    obtain ⟨i1, i2, i3, i4, i5, i6⟩ := ih (handleTx mc tx) (fun x hx => hb x (by simp [hx]))
    have e : handleTxs mc (tx :: txs) = handleTxs (handleTx mc tx) txs := rfl
    have s : ∀ g, Column g → ∀ a t, settled g a t (handleTx mc tx).settles =
        settled g a t mc.settles + settled g a t (txSettles tx) := fun g hg a t => settled_foldl hg a t _ _
    have sA : ∀ g, Column g → ∀ t, settledAll g t (handleTx mc tx).settles =
        settledAll g t mc.settles + settledAll g t (txSettles tx) := fun g hg t => settledAll_foldl hg t _ _
    have B := hb tx (by simp)
    have b1 := B.trade
    have b2 := B.quote
    have fe : feesAll (handleTx mc tx).fees = feesAll mc.fees + (tx.takerFee + tx.takerOperatorFee) +
        (tx.makerFee + tx.makerOperatorFee) := by
      simp only [handleTx, feesAll_update]
    rw [e]
    refine ⟨i1, ?_, ?_, ?_, ?_, ?_⟩
    · intro g hg a t
      rw [i2 g hg, s g hg]
      simp only [allTxSettles, List.flatMap_cons, settled_append]; omega
    · intro g hg t
      rw [i3 g hg, sA g hg]
      simp only [allTxSettles, List.flatMap_cons, settledAll_append]; omega
    · have h1 := sA _ column_inc true
      have h2 := sA _ column_reduce true
      omega
    · have h1 := sA _ column_inc false
      have h2 := sA _ column_reduce false
      omega
    · rw [i6]; simp [handleTx]

theorem txSettles_release (txs : List Tx) (a t) : settled Settle.releaseLocked a t (allTxSettles txs) = 0 := by
  induction txs with
  | nil => rfl
  | cons tx txs ih =>
    simp only [allTxSettles, List.flatMap_cons, settled_append] at *
    rw [ih]
    cases h : tx.takerSide <;> simp [txSettles, h, settled]

end Verif.Dex
