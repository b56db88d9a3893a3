import Verif.State.DbTarget

/-! Rollbacks without redo log. -/

namespace Verif.State
open Verif.Bytes

/-! ### Byte order -/

theorem bytesLt_nil_right (x : Bytes) : bytesLt x [] = false := by cases x <;> rfl

theorem bytesLt_cons (x y : UInt8) (xs ys : Bytes) :
    bytesLt (x :: xs) (y :: ys) = if x < y then true else if y < x then false else bytesLt xs ys := rfl

theorem bytesLt_asymm {x y : Bytes} (h : bytesLt x y = true) : bytesLt y x = false := by
  induction x generalizing y with
  | nil => exact bytesLt_nil_right y
  | cons a x ih =>
    cases y with
    | nil => simp [bytesLt_nil_right] at h
    | cons b y =>
      rw [bytesLt_cons] at h ⊢
      by_cases h1 : a < b
      · have h2 : ¬ b < a := by simp only [UInt8.lt_iff_toNat_lt] at *; omega
        simp [h1, h2]
      · by_cases h2 : b < a
        · simp [h1, h2] at h
        · simp only [h1, h2, if_false] at h ⊢
          exact ih h

theorem bytesLt_trans_not {x y z : Bytes} (h1 : bytesLt x y = false) (h2 : bytesLt y z = false) : bytesLt x z = false := by
  induction x generalizing y z with
  | nil =>
    cases z with
    | nil => rfl
    | cons c z =>
      cases y with
      | nil => simp [bytesLt] at h2
      | cons b y => simp [bytesLt] at h1
  | cons a x ih =>
    cases z with
    | nil => rfl
    | cons c z =>
      cases y with
      | nil => simp [bytesLt] at h2
      | cons b y =>
        rw [bytesLt_cons] at h1 h2 ⊢
        by_cases q1 : a < b
        · simp [q1] at h1
        · by_cases q2 : b < c
          · simp [q2] at h2
          · simp only [q1, q2, if_false] at h1 h2
            have q3 : ¬ a < c := by simp only [UInt8.lt_iff_toNat_lt] at *; omega
            simp only [q3, if_false]
            by_cases q4 : c < a
            · simp [q4]
            · simp only [q4, if_false]
              have q5 : ¬ b < a := by simp only [UInt8.lt_iff_toNat_lt] at *; omega
              have q6 : ¬ c < b := by simp only [UInt8.lt_iff_toNat_lt] at *; omega
              simp only [q5, q6, if_false] at h1 h2
              exact ih h1 h2

theorem bytesLt_irrefl (x : Bytes) : bytesLt x x = false := by
  by_cases h : bytesLt x x = true
  · exact bytesLt_asymm h
  · simpa using h

theorem leastKey_none {ks : List Bytes} (h : leastKey ks = none) : ks = [] := by
  cases ks with
  | nil => rfl
  | cons k ks =>
    unfold leastKey at h
    split at h
    · simp at h
    · split at h <;> simp at h

theorem leastKey_some {ks : List Bytes} {k : Bytes} (h : leastKey ks = some k) :
    k ∈ ks ∧ ∀ k' ∈ ks, bytesLt (keyBytes k') (keyBytes k) = false := by
  induction ks generalizing k with
  | nil => simp [leastKey] at h
  | cons x ks ih =>
    have hc : leastKey (x :: ks) = match leastKey ks with
      | none => some x
      | some k' => if bytesLt (keyBytes k') (keyBytes x) then some k' else some x := rfl
    rw [hc] at h
    cases hk : leastKey ks with
    | none =>
      rw [hk] at h
      simp only [Option.some.injEq] at h
      have := leastKey_none hk
      subst this; subst h
      refine ⟨List.mem_cons_self, ?_⟩
      intro k' hk'
      simp only [List.mem_singleton] at hk'
      subst hk'
      exact bytesLt_irrefl _
    | some k1 =>
      rw [hk] at h
      obtain ⟨h1, h2⟩ := ih hk
      by_cases hl : bytesLt (keyBytes k1) (keyBytes x) = true
      · simp only [hl, if_true, Option.some.injEq] at h
        subst h
        refine ⟨List.mem_cons_of_mem _ h1, ?_⟩
        intro k' hk'
        rcases List.mem_cons.mp hk' with rfl | hk'
        · exact bytesLt_asymm hl
        · exact h2 k' hk'
      · simp only [hl] at h
        simp only [Bool.false_eq_true, if_false, Option.some.injEq] at h
        subst h
        refine ⟨List.mem_cons_self, ?_⟩
        intro k' hk'
        rcases List.mem_cons.mp hk' with rfl | hk'
        · exact bytesLt_irrefl _
        · exact bytesLt_trans_not (h2 k' hk') (by simpa using hl)

/-! ### The batch -/

variable {d : Db} {snaps : List (List Blk)} {unconf : List Blk}

theorem mem_histKeys (hv : d.view = target snaps unconf) (hdom : ∀ a f, slotAfter snaps.flatten a f ≠ none → (a, f) ∈ d.dom)
    {top : Nat} (ht : snaps.length ≤ top) {a : Addr} {k : Bytes} : k ∈ d.histKeys top a ↔ slotAfter snaps.flatten a (.stor k) ≠ none := by
  unfold Db.histKeys
  rw [List.mem_filterMap]
  have hh : ∀ k, histAt d.view a (.stor k) top = slotAfter snaps.flatten a (.stor k) := by
    intro k; rw [hv, histAt_target, List.take_of_length_le ht]
  constructor
  · rintro ⟨⟨a', f⟩, _, hx⟩
    cases f with
    | bal t => simp at hx
    | stor k' =>
      simp only [hh] at hx
      split at hx
      · rename_i hq
        simp only [Option.some.injEq] at hx
        subst hx
        intro hc; rw [hc] at hq; simp at hq
      · simp at hx
  · intro hs
    refine ⟨(a, .stor k), hdom _ _ hs, ?_⟩
    simp only [hh]
    rw [if_pos]
    exact ⟨trivial, by cases h : slotAfter snaps.flatten a (.stor k) with | none => exact absurd h hs | some v => rfl⟩

theorem mem_histTokens (hv : d.view = target snaps unconf) (hdom : ∀ a f, slotAfter snaps.flatten a f ≠ none → (a, f) ∈ d.dom)
    {top : Nat} (ht : snaps.length ≤ top) {a : Addr} {t : Bytes} : t ∈ d.histTokens top a ↔ slotAfter snaps.flatten a (.bal t) ≠ none := by
  unfold Db.histTokens
  rw [List.mem_filterMap]
  have hh : ∀ k, histAt d.view a (.bal k) top = slotAfter snaps.flatten a (.bal k) := by
    intro k; rw [hv, histAt_target, List.take_of_length_le ht]
  constructor
  · rintro ⟨⟨a', f⟩, _, hx⟩
    cases f with
    | stor t => simp at hx
    | bal k' =>
      simp only [hh] at hx
      split at hx
      · rename_i hq
        simp only [Option.some.injEq] at hx
        subst hx
        intro hc; rw [hc] at hq; simp at hq
      · simp at hx
  · intro hs
    refine ⟨(a, .bal t), hdom _ _ hs, ?_⟩
    simp only [hh]
    rw [if_pos]
    exact ⟨trivial, by cases h : slotAfter snaps.flatten a (.bal t) with | none => exact absurd h hs | some v => rfl⟩

theorem mem_dropHist {m : KMap} {a : Addr} {f : Field} {h top : Nat} {r : Rec} :
    r ∈ dropHist m a f h top ↔ ∃ j, h < j ∧ j ≤ top ∧ m (.hist a f j) ≠ none ∧ r = ⟨.hist a f j, none⟩ := by
  unfold dropHist
  simp only [List.mem_filterMap, List.mem_map, List.mem_range]
  constructor
  · rintro ⟨j, ⟨i, hi, rfl⟩, hr⟩
    split at hr
    · rename_i hq
      simp only [Option.some.injEq] at hr
      refine ⟨h + 1 + i, by omega, by omega, ?_, hr.symm⟩
      intro hc; rw [hc] at hq; simp at hq
    · simp at hr
  · rintro ⟨j, h1, h2, hm, rfl⟩
    refine ⟨j, ⟨j - h - 1, by omega, by omega⟩, ?_⟩
    rw [if_pos]
    cases hx : m (.hist a f j) with
    | none => exact absurd hx hm
    | some v => rfl

theorem mem_unconfKeys {log : SnapLog} (hl : LogOk log unconf) {a : Addr} {k : Bytes} :
    k ∈ unconfKeys log a ↔ slotAfter unconf a (.stor k) ≠ none := by
  unfold unconfKeys slotAfter
  rw [hl.items, writesOf_items, Ne, lastVal_none]
  push Not
  simp only [List.mem_flatMap, List.mem_filterMap]
  constructor
  · rintro ⟨i, hi, w, hw, hx⟩
    refine ⟨w, ⟨i, hi, hw⟩, ?_⟩
    cases hf : w.1 with
    | stor k' => rw [hf] at hx; simp at hx; rw [hx]
    | bal t => rw [hf] at hx; simp at hx
  · rintro ⟨w, ⟨i, hi, hw⟩, e⟩
    exact ⟨i, hi, w, hw, by rw [e]⟩

theorem mem_unconfTokens {log : SnapLog} (hl : LogOk log unconf) {a : Addr} {t : Bytes} :
    t ∈ unconfTokens log a ↔ slotAfter unconf a (.bal t) ≠ none := by
  unfold unconfTokens slotAfter
  rw [hl.items, writesOf_items, Ne, lastVal_none]
  push Not
  simp only [List.mem_flatMap, List.mem_filterMap]
  constructor
  · rintro ⟨i, hi, w, hw, hx⟩
    refine ⟨w, ⟨i, hi, hw⟩, ?_⟩
    cases hf : w.1 with
    | bal k' => rw [hf] at hx; simp at hx; rw [hx]
    | stor t => rw [hf] at hx; simp at hx
  · rintro ⟨w, ⟨i, hi, hw⟩, e⟩
    exact ⟨i, hi, w, hw, by rw [e]⟩

/-- What a rollback of one slot writes. -/
inductive DeepRec (snaps : List (List Blk)) (unconf : List Blk) (h top : Nat) (a : Addr) (f : Field) (r : Rec) : Prop
  | lat : slotAfter (snaps.flatten ++ unconf) a f ≠ none → r = ⟨.latest a f, (slotAfter (snaps.take h).flatten a f).bind (latestVal f)⟩ →
      DeepRec snaps unconf h top a f r
  | his (j : Nat) : h < j → j ≤ top → target snaps unconf (.hist a f j) ≠ none → r = ⟨.hist a f j, none⟩ → DeepRec snaps unconf h top a f r

theorem conf_none {h : Nat} {a : Addr} {f : Field} (hs : slotAfter snaps.flatten a f = none) : slotAfter (snaps.take h).flatten a f = none := by
  have hn := slotAfter_none.mp hs
  rw [slotAfter_none]
  intro b hb
  obtain ⟨l, hl, hb⟩ := List.mem_flatten.mp hb
  exact hn b (List.mem_flatten.mpr ⟨l, List.mem_of_mem_take hl, hb⟩)

theorem hist_conf {j : Nat} {a : Addr} {f : Field} (h : target snaps unconf (.hist a f j) ≠ none) :
    slotAfter snaps.flatten a f ≠ none := by
  intro hc
  apply h
  simp only [target]
  split
  · rfl
  · rw [slotAfter_none]
    intro b hb
    refine slotAfter_none.mp hc b ?_
    simp only [List.getD] at hb
    cases hx : snaps[j - 1]? with
    | none => rw [hx] at hb; simp at hb
    | some l =>
      rw [hx] at hb
      exact List.mem_flatten.mpr ⟨l, List.mem_of_getElem? hx, hb⟩

theorem mem_recoverStorage (hv : d.view = target snaps unconf) (hdom : ∀ a f, slotAfter snaps.flatten a f ≠ none → (a, f) ∈ d.dom)
    {log : SnapLog} (hl : LogOk log unconf) {h top : Nat} (ht : snaps.length ≤ top) {a : Addr}
    (hs : ∀ k, slotAfter snaps.flatten a (.stor k) ≠ none →
      (∀ k', slotAfter snaps.flatten a (.stor k') ≠ none → bytesLt (keyBytes k') (keyBytes k) = false) →
      slotAfter (snaps.take h).flatten a (.stor k) ≠ none) {r : Rec} :
    r ∈ d.recoverStorage h top a (unconfKeys log a) ↔ ∃ k, DeepRec snaps unconf h top a (.stor k) r := by
  have hk : ∀ k, k ∈ d.histKeys top a ↔ slotAfter snaps.flatten a (.stor k) ≠ none := fun k => mem_histKeys hv hdom ht
  have hh : ∀ k, histAt d.view a (.stor k) h = slotAfter (snaps.take h).flatten a (.stor k) := by
    intro k; rw [hv, histAt_target]
  have hor : ∀ k, slotAfter (snaps.flatten ++ unconf) a (.stor k) ≠ none ↔
      slotAfter snaps.flatten a (.stor k) ≠ none ∨ slotAfter unconf a (.stor k) ≠ none := by
    intro k
    rw [slotAfter_append]
    cases slotAfter unconf a (.stor k) <;> simp
  have key : r ∈ ((d.histKeys top a).flatMap (fun k => ⟨.latest a (.stor k), latestVal (.stor k) ((histAt d.view a (.stor k) h).getD [])⟩ ::
        dropHist d.view a (.stor k) h top) ++
      ((unconfKeys log a).filter (fun k => decide (k ∉ d.histKeys top a))).map (fun k => (⟨.latest a (.stor k), none⟩ : Rec))) ↔
      ∃ k, DeepRec snaps unconf h top a (.stor k) r := by
    rw [List.mem_append, List.mem_flatMap, List.mem_map]
    constructor
    · rintro (⟨k, hkm, hr⟩ | ⟨k, hkm, rfl⟩)
      · rcases List.mem_cons.mp hr with rfl | hr
        · refine ⟨k, .lat ((hor k).mpr (Or.inl ((hk k).mp hkm))) ?_⟩
          rw [hh, latestVal_getD]
        · obtain ⟨j, h1, h2, hm, rfl⟩ := mem_dropHist.mp hr
          exact ⟨k, .his j h1 h2 (by rw [hv] at hm; exact hm) rfl⟩
      · rw [List.mem_filter] at hkm
        have h1 := (mem_unconfKeys hl).mp hkm.1
        have h2 : slotAfter snaps.flatten a (.stor k) = none := by
          by_contra hc
          have := hkm.2
          simp only [decide_eq_true_eq] at this
          exact this ((hk k).mpr hc)
        refine ⟨k, .lat ((hor k).mpr (Or.inr h1)) ?_⟩
        rw [conf_none h2]; rfl
    · rintro ⟨k, hd⟩
      cases hd with
      | lat h1 h2 =>
        by_cases hc : slotAfter snaps.flatten a (.stor k) = none
        · right
          refine ⟨k, List.mem_filter.mpr ⟨(mem_unconfKeys hl).mpr ?_, ?_⟩, ?_⟩
          · rcases (hor k).mp h1 with q | q
            · exact absurd hc q
            · exact q
          · simp only [decide_eq_true_eq]
            exact fun q => (hk k).mp q hc
          · rw [h2, conf_none hc]; rfl
        · left
          refine ⟨k, (hk k).mpr hc, List.mem_cons.mpr (Or.inl ?_)⟩
          rw [h2, hh, latestVal_getD]
      | his j h1 h2 h3 h4 =>
        left
        exact ⟨k, (hk k).mpr (hist_conf h3), List.mem_cons.mpr (Or.inr (mem_dropHist.mpr ⟨j, h1, h2, by rw [hv]; exact h3, h4⟩))⟩
  unfold Db.recoverStorage
  simp only
  split
  · rename_i hn
    have hnil := leastKey_none hn
    rw [hnil] at key
    rw [← key]
    simp
  · rename_i k0 hk0
    obtain ⟨h1, h2⟩ := leastKey_some hk0
    rw [if_neg]
    · exact key
    · rw [hh]
      have := hs k0 ((hk k0).mp h1) (fun k' hk' => h2 k' ((hk k').mpr hk'))
      intro hc
      rw [Option.isNone_iff_eq_none] at hc
      exact this hc

theorem mem_recoverBalance (hv : d.view = target snaps unconf) (hdom : ∀ a f, slotAfter snaps.flatten a f ≠ none → (a, f) ∈ d.dom)
    {log : SnapLog} (hl : LogOk log unconf) {h top : Nat} (ht : snaps.length ≤ top) {a : Addr} {r : Rec} :
    r ∈ d.recoverBalance h top a (unconfTokens log a) ↔ ∃ t, DeepRec snaps unconf h top a (.bal t) r := by
  have hk : ∀ k, k ∈ d.histTokens top a ↔ slotAfter snaps.flatten a (.bal k) ≠ none := fun k => mem_histTokens hv hdom ht
  have hh : ∀ k, histAt d.view a (.bal k) h = (slotAfter (snaps.take h).flatten a (.bal k)).bind (latestVal (.bal k)) := by
    intro k; rw [hv, histAt_target]
    cases slotAfter (snaps.take h).flatten a (.bal k) <;> rfl
  have hor : ∀ k, slotAfter (snaps.flatten ++ unconf) a (.bal k) ≠ none ↔
      slotAfter snaps.flatten a (.bal k) ≠ none ∨ slotAfter unconf a (.bal k) ≠ none := by
    intro k
    rw [slotAfter_append]
    cases slotAfter unconf a (.bal k) <;> simp
  unfold Db.recoverBalance
  simp only
  rw [List.mem_append, List.mem_flatMap, List.mem_map]
  constructor
  · rintro (⟨k, hkm, hr⟩ | ⟨k, hkm, rfl⟩)
    · rcases List.mem_cons.mp hr with rfl | hr
      · refine ⟨k, .lat ((hor k).mpr (Or.inl ((hk k).mp hkm))) ?_⟩
        rw [hh]
      · obtain ⟨j, h1, h2, hm, rfl⟩ := mem_dropHist.mp hr
        exact ⟨k, .his j h1 h2 (by rw [hv] at hm; exact hm) rfl⟩
    · rw [List.mem_filter] at hkm
      have h1 := (mem_unconfTokens hl).mp hkm.1
      have h2 : slotAfter snaps.flatten a (.bal k) = none := by
        by_contra hc
        have := hkm.2
        simp only [decide_eq_true_eq] at this
        exact this ((hk k).mpr hc)
      refine ⟨k, .lat ((hor k).mpr (Or.inr h1)) ?_⟩
      rw [conf_none h2]; rfl
  · rintro ⟨k, hd⟩
    cases hd with
    | lat h1 h2 =>
      by_cases hc : slotAfter snaps.flatten a (.bal k) = none
      · right
        refine ⟨k, List.mem_filter.mpr ⟨(mem_unconfTokens hl).mpr ?_, ?_⟩, ?_⟩
        · rcases (hor k).mp h1 with q | q
          · exact absurd hc q
          · exact q
        · simp only [decide_eq_true_eq]
          exact fun q => (hk k).mp q hc
        · rw [h2, conf_none hc]; rfl
      · left
        refine ⟨k, (hk k).mpr hc, List.mem_cons.mpr (Or.inl ?_)⟩
        rw [h2, hh]
    | his j h1 h2 h3 h4 =>
      left
      exact ⟨k, (hk k).mpr (hist_conf h3), List.mem_cons.mpr (Or.inr (mem_dropHist.mpr ⟨j, h1, h2, by rw [hv]; exact h3, h4⟩))⟩

theorem mem_deepBatch (hv : d.view = target snaps unconf) (hdom : ∀ a f, slotAfter snaps.flatten a f ≠ none → (a, f) ∈ d.dom)
    {h : Nat} {cs : List Chunk} (hcs : cs.flatMap (·.blocks) = (snaps.drop h).flatten ++ unconf)
    (htop : snaps.length ≤ h + cs.length) (hl : LogOk (d.oldUnconfirmed h cs) unconf)
    (hs : Ledger.DeepSafe ⟨snaps, unconf⟩ h) (r : Rec) :
    r ∈ d.deepBatch h cs ↔ ∃ b ∈ (snaps.drop h).flatten ++ unconf,
      (∃ o ∈ b.once, r = ⟨.once o.1, none⟩) ∨ ∃ f, DeepRec snaps unconf h (h + cs.length) b.addr f r := by
  unfold Db.deepBatch
  simp only [hcs]
  rw [List.mem_append, List.mem_flatMap, List.mem_flatMap]
  constructor
  · rintro (⟨b, hb, hr⟩ | ⟨b, hb, hr⟩)
    · obtain ⟨o, ho, rfl⟩ := List.mem_map.mp hr
      exact ⟨b, hb, Or.inl ⟨o, ho, rfl⟩⟩
    · refine ⟨b, hb, Or.inr ?_⟩
      rcases List.mem_append.mp hr with hr | hr
      · obtain ⟨k, hk⟩ := (mem_recoverStorage hv hdom hl htop (fun k => hs b hb k)).mp hr
        exact ⟨_, hk⟩
      · obtain ⟨k, hk⟩ := (mem_recoverBalance hv hdom hl htop).mp hr
        exact ⟨_, hk⟩
  · rintro ⟨b, hb, ⟨o, ho, rfl⟩ | ⟨f, hf⟩⟩
    · exact Or.inl ⟨b, hb, List.mem_map.mpr ⟨o, ho, rfl⟩⟩
    · refine Or.inr ⟨b, hb, List.mem_append.mpr ?_⟩
      cases f with
      | stor k => exact Or.inl ((mem_recoverStorage hv hdom hl htop (fun k => hs b hb k)).mpr ⟨k, hf⟩)
      | bal t => exact Or.inr ((mem_recoverBalance hv hdom hl htop).mpr ⟨t, hf⟩)

/-- A rollback without redo log, where it is right. -/
theorem target_deep (hv : d.view = target snaps unconf) (hdom : ∀ a f, slotAfter snaps.flatten a f ≠ none → (a, f) ∈ d.dom)
    {h : Nat} (hh : h ≤ snaps.length) {cs : List Chunk} (hcs : cs.flatMap (·.blocks) = (snaps.drop h).flatten ++ unconf)
    (htop : snaps.length ≤ h + cs.length) (hl : LogOk (d.oldUnconfirmed h cs) unconf)
    (hs : Ledger.DeepSafe ⟨snaps, unconf⟩ h) (hn : ((snaps.flatten ++ unconf).flatMap (fun b => b.once.map (·.1))).Nodup) :
    (d.deepBatch h cs).apply (target snaps unconf) = target (snaps.take h) [] := by
  have hmem := mem_deepBatch hv hdom hcs htop hl hs
  funext k
  cases k with
  | latest a f =>
    have ht : target (snaps.take h) [] (.latest a f) = (slotAfter (snaps.take h).flatten a f).bind (latestVal f) := by
      simp only [target, List.append_nil]
    rw [ht]
    by_cases hc : Batch.Has (d.deepBatch h cs) (.latest a f)
    · apply Batch.apply_const hc
      intro r hr e
      obtain ⟨b, hb, ⟨o, _, rfl⟩ | ⟨f', hf⟩⟩ := (hmem r).mp hr
      · simp at e
      · cases hf with
        | lat _ h2 =>
          rw [h2] at e ⊢
          simp only [Key.latest.injEq] at e
          rw [← e.1, ← e.2]
        | his j _ _ _ h4 => rw [h4] at e; simp at e
    · rw [Batch.apply_not hc]
      have hno : slotAfter ((snaps.drop h).flatten ++ unconf) a f = none := by
        by_contra hx
        apply hc
        have hx' := hx
        rw [slotAfter_none] at hx
        push Not at hx
        obtain ⟨b, hb, rfl, _⟩ := hx
        refine ⟨_, (hmem _).mpr ⟨b, hb, Or.inr ⟨f, .lat ?_ rfl⟩⟩, rfl⟩
        rw [split_all snaps unconf h, slotAfter_append]
        cases hq : slotAfter ((snaps.drop h).flatten ++ unconf) b.addr f with
        | none => exact absurd hq hx'
        | some v => simp
      simp only [target]
      rw [split_all snaps unconf h, slotAfter_append, hno]
      rfl
  | hist a f j =>
    by_cases hc : Batch.Has (d.deepBatch h cs) (.hist a f j)
    · have hval : ∀ r ∈ d.deepBatch h cs, r.key = .hist a f j → r.val = none ∧ h < j := by
        intro r hr e
        obtain ⟨b, hb, ⟨o, _, rfl⟩ | ⟨f', hf⟩⟩ := (hmem r).mp hr
        · simp at e
        · cases hf with
          | lat _ h2 => rw [h2] at e; simp at e
          | his j' h1 _ _ h4 =>
            rw [h4] at e ⊢
            simp only [Key.hist.injEq] at e
            exact ⟨rfl, by omega⟩
      rw [Batch.apply_const hc (v := none) (fun r hr e => (hval r hr e).1)]
      obtain ⟨r, hr, e⟩ := hc
      have hj := (hval r hr e).2
      simp only [target]
      rw [if_neg (by omega)]
      have : (snaps.take h).getD (j - 1) [] = [] := by
        simp only [List.getD]; rw [List.getElem?_eq_none (by simp; omega)]; rfl
      rw [this]; rfl
    · rw [Batch.apply_not hc]
      by_cases h0 : j = 0
      · simp [h0, target]
      by_cases hj : j - 1 < h
      · simp only [target]
        rw [if_neg h0, if_neg h0]
        congr 1
        simp [List.getD, List.getElem?_take, hj]
      · have h2 : target (snaps.take h) [] (.hist a f j) = none := by
          simp only [target]
          rw [if_neg h0]
          have : (snaps.take h).getD (j - 1) [] = [] := by
            simp only [List.getD]; rw [List.getElem?_eq_none (by simp; omega)]; rfl
          rw [this]; rfl
        rw [h2]
        by_contra hx
        apply hc
        have hx' := hx
        simp only [target] at hx
        rw [if_neg h0, slotAfter_none] at hx
        push Not at hx
        obtain ⟨b, hb, rfl, _⟩ := hx
        by_cases hlt : j - 1 < snaps.length
        · refine ⟨_, (hmem _).mpr ⟨b, List.mem_append.mpr (Or.inl (mem_drop_flatten.mpr ⟨j - 1, by omega, hlt, hb⟩)), Or.inr ⟨f, .his j (by omega) (by omega) hx' rfl⟩⟩, rfl⟩
        · have : snaps.getD (j - 1) [] = [] := by
            simp only [List.getD]; rw [List.getElem?_eq_none (by omega)]; rfl
          rw [this] at hb; simp at hb
  | once i =>
    have hsplit : target snaps unconf (.once i) =
        (onceAfter ((snaps.drop h).flatten ++ unconf) i).or (onceAfter (snaps.take h).flatten i) := by
      simp only [target]
      rw [split_all snaps unconf h, onceAfter_append]
    have ht : target (snaps.take h) [] (.once i) = onceAfter (snaps.take h).flatten i := by
      simp only [target, List.append_nil]
    rw [ht]
    rw [split_all snaps unconf h] at hn
    by_cases hc : onceAfter ((snaps.drop h).flatten ++ unconf) i = none
    · rw [Batch.apply_not, hsplit, hc]
      · rfl
      · rintro ⟨r, hr, e⟩
        obtain ⟨b, hb, ⟨o, ho, rfl⟩ | ⟨f', hf⟩⟩ := (hmem r).mp hr
        · simp only [Key.once.injEq] at e
          exact onceAfter_none.mp hc b hb o ho e
        · cases hf with
          | lat _ h2 => rw [h2] at e; simp at e
          | his j' h1 _ _ h4 => rw [h4] at e; simp at e
    · rw [once_clash hn hc]
      apply Batch.apply_const
      · rw [onceAfter_none] at hc
        push Not at hc
        obtain ⟨b, hb, o, ho, rfl⟩ := hc
        exact ⟨⟨.once o.1, none⟩, (hmem _).mpr ⟨b, hb, Or.inl ⟨o, ho, rfl⟩⟩, rfl⟩
      · intro r hr e
        obtain ⟨b, hb, ⟨o, ho, rfl⟩ | ⟨f', hf⟩⟩ := (hmem r).mp hr
        · rfl
        · cases hf with
          | lat _ h2 => rw [h2] at e; simp at e
          | his j' h1 _ _ h4 => rw [h4]

end Verif.State
