import Verif.Dex.ExSpec
import Verif.Dex.OwnerProps
import Verif.Dex.ShareProps
import Verif.Dex.PeriodProps
import Mathlib.Data.List.TakeWhile

/-! Lemmas on the parts of the exchange with periods. -/

namespace Verif.Dex
open Spec

/-! ### Columns of the fund table -/

theorem hasAcct_iff (a t : Nat) (fs : List Acct) : hasAcct a t fs = true ↔ ∃ x ∈ fs, x.address = a ∧ x.token = t := by
  simp [hasAcct]

theorem hasAcct_set (v : Acct) (fs : List Acct) (a t : Nat) :
    hasAcct a t (setAcct v fs) = true ↔ (v.address = a ∧ v.token = t) ∨ hasAcct a t fs = true := by
  induction fs with
  | nil => simp [setAcct, hasAcct]
  | cons x xs ih =>
    unfold setAcct
    split
    · rename_i h
      simp only [hasAcct_iff, List.mem_cons, exists_eq_or_imp]
      constructor
      · rintro (h1 | h1)
        · exact .inl h1
        · exact .inr (.inr h1)
      · rintro (h1 | h1 | h1)
        · exact .inl h1
        · rw [h.1, h.2] at h1; exact .inl h1
        · exact .inr h1
    · simp only [hasAcct_iff, List.mem_cons, exists_eq_or_imp] at ih ⊢
      rw [ih]; tauto

/-- A change of the fund table that touches neither the VX columns nor the stakes being cancelled, and removes no account. -/
structure Same (fs fs' : List Acct) : Prop where
  vx : ∀ a t, (getAcct a t fs').vxLocked = (getAcct a t fs).vxLocked
  un : ∀ a t, (getAcct a t fs').vxUnlocking = (getAcct a t fs).vxUnlocking
  ca : ∀ a t, (getAcct a t fs').cancellingStake = (getAcct a t fs).cancellingStake
  has : ∀ a t, hasAcct a t fs = true → hasAcct a t fs' = true

theorem Same.refl (fs : List Acct) : Same fs fs := ⟨fun _ _ => rfl, fun _ _ => rfl, fun _ _ => rfl, fun _ _ h => h⟩

theorem Same.trans {fs fs' fs'' : List Acct} (h : Same fs fs') (h' : Same fs' fs'') : Same fs fs'' :=
  ⟨fun a t => (h'.vx a t).trans (h.vx a t), fun a t => (h'.un a t).trans (h.un a t), fun a t => (h'.ca a t).trans (h.ca a t),
    fun a t x => h'.has a t (h.has a t x)⟩

theorem Same.set (v : Acct) (fs : List Acct) (h1 : v.vxLocked = (getAcct v.address v.token fs).vxLocked)
    (h2 : v.vxUnlocking = (getAcct v.address v.token fs).vxUnlocking)
    (h3 : v.cancellingStake = (getAcct v.address v.token fs).cancellingStake) : Same fs (setAcct v fs) := by
  refine ⟨?_, ?_, ?_, fun a t h => (hasAcct_set v fs a t).mpr (.inr h)⟩ <;>
  · intro a t
    rw [getAcct_setAcct]
    split
    · rename_i h; obtain ⟨rfl, rfl⟩ := h; assumption
    · rfl

theorem same_deposit (fs : List Acct) (a t n : Nat) : Same fs (depositAccount fs a t n) := by
  have k := getAcct_key a t fs
  unfold depositAccount
  apply Same.set <;> simp [k.1, k.2]

theorem same_reduce {fs fs' : List Acct} {a t n : Nat} (h : reduceAccount fs a t n = some fs') : Same fs fs' := by
  have k := getAcct_key a t fs
  unfold reduceAccount at h
  simp only at h
  split at h
  · simp at h
  · obtain rfl := Option.some.inj h
    apply Same.set <;> simp [k.1, k.2]

theorem same_lock {fs fs' : List Acct} {mi : MarketInfo} {p : OrderReq} {o o' : Order} (h : lockForOrder fs mi p o = some (fs', o')) :
    Same fs fs' := by
  have k := getAcct_key o.address (lockToken mi o.side) fs
  have e : ∀ v : Acct, v.address = o.address → v.token = lockToken mi o.side →
      v.vxLocked = (getAcct o.address (lockToken mi o.side) fs).vxLocked →
      v.vxUnlocking = (getAcct o.address (lockToken mi o.side) fs).vxUnlocking →
      v.cancellingStake = (getAcct o.address (lockToken mi o.side) fs).cancellingStake → Same fs (setAcct v fs) := by
    intro v h1 h2 h3 h4 h5
    apply Same.set <;> rw [h1, h2] <;> assumption
  unfold lockForOrder at h
  simp only at h
  repeat' split at h
  all_goals first
    | (obtain ⟨q, _⟩ := Prod.mk.inj (Option.some.inj h); rw [← q]; exact e _ k.1 k.2 rfl rfl rfl)
    | cases h

theorem same_settle (mi : MarketInfo) (ss : List Settle) : ∀ p : List Acct × Bool, Same p.1 (settleFunds mi ss p).1 := by
  induction ss with
  | nil => intro p; exact Same.refl _
  | cons s ss ih =>
    intro p
    unfold settleFunds
    refine Same.trans ?_ (ih _)
    have k := getAcct_key s.address (settleToken mi s) p.1
    apply Same.set <;> simp [settleAccount, k.1, k.2]

/-- Operations of the core that do not lock or unlock VX. -/
def plain : Op → Bool
  | .lockVx _ _ => false
  | .unlockVx _ _ => false
  | .finishUnlock _ _ => false
  | _ => true

theorem core_same (f : Forks) (mk : Nat → Option MarketInfo) (s : Sys) (op : Op) (hp : plain op = true) :
    Same s.funds (step f mk s op).funds := by
  cases op with
  | deposit a t n => exact same_deposit _ _ _ _
  | withdraw a t n =>
    unfold step; simp only
    split
    · exact Same.refl _
    · rename_i h; exact same_reduce h
  | transfer a b t n =>
    unfold step; simp only
    split
    · exact Same.refl _
    · rename_i h; exact (same_reduce h).trans (same_deposit _ _ _ _)
  | payFee a n =>
    unfold step; simp only
    split
    · exact Same.refl _
    · rename_i h; exact same_reduce h
  | lockVx => simp [plain] at hp
  | unlockVx => simp [plain] at hp
  | finishUnlock => simp [plain] at hp
  | place p =>
    unfold step; simp only
    split
    · exact Same.refl _
    · split
      · exact Same.refl _
      · split
        · exact Same.refl _
        · rename_i r h
          obtain ⟨o, _, h2⟩ := Option.bind_eq_some_iff.mp h
          exact same_lock (o' := r.2) h2
  | receiveOrder i now =>
    unfold step; simp only
    split
    · exact Same.refl _
    · split <;> exact Same.refl _
  | placeFailed i =>
    unfold step; simp only
    split
    · exact Same.refl _
    · split <;> exact Same.refl _
  | cancel o id =>
    unfold step; simp only
    split
    · exact Same.refl _
    · split
      · exact Same.refl _
      · split <;> exact Same.refl _
  | clearExpired now ids =>
    unfold step; simp only
    split
    · exact Same.refl _
    · split
      · exact Same.refl _
      · split <;> exact Same.refl _
  | settle i =>
    unfold step; simp only
    split
    · exact Same.refl _
    · exact same_settle _ _ (s.funds, s.exceeded)

/-! ### Payments -/

theorem payAll_cons (fs : List Acct) (x : Nat × Nat × Nat) (l : List (Nat × Nat × Nat)) :
    payAll fs (x :: l) = payAll (depositAccount fs x.1 x.2.1 x.2.2) l := rfl

theorem Moves.trans {fs fs' fs'' : List Acct} {p m p' m' : Nat → Nat} (h : Moves fs fs' p m) (h' : Moves fs' fs'' p' m') :
    Moves fs fs'' (fun t => p t + p' t) (fun t => m t + m' t) :=
  ⟨fun k => h'.keyed (h.keyed k), fun a t => (h'.locked a t).trans (h.locked a t), fun t => by
    have := h.total t; have := h'.total t; omega⟩

theorem Moves.refl (fs : List Acct) : Moves fs fs (fun _ => 0) (fun _ => 0) := ⟨fun h => h, fun _ _ => rfl, fun _ => rfl⟩

theorem Moves.cast {fs fs' : List Acct} {p m p' m' : Nat → Nat} (h : Moves fs fs' p m) (hp : ∀ t, p' t = p t) (hm : ∀ t, m' t = m t) :
    Moves fs fs' p' m' := by
  rw [show p' = p from funext hp, show m' = m from funext hm]; exact h

theorem payAll_moves (l : List (Nat × Nat × Nat)) : ∀ fs, Moves fs (payAll fs l) (fun t => paidOf t l) (fun _ => 0) := by
  induction l with
  | nil => intro fs; exact Moves.refl fs
  | cons x l ih =>
    intro fs
    rw [payAll_cons]
    refine ((deposit_moves fs x.1 x.2.1 x.2.2).trans (ih _)).cast ?_ (fun _ => rfl)
    intro t
    simp only [paidOf, List.map_cons, List.sum_cons]
    by_cases h : x.2.1 = t
    · subst h; simp
    · rw [if_neg h, if_neg (fun e => h e.symm)]

theorem payAll_same (l : List (Nat × Nat × Nat)) : ∀ fs, Same fs (payAll fs l) := by
  induction l with
  | nil => intro fs; exact Same.refl fs
  | cons x l ih => intro fs; rw [payAll_cons]; exact (same_deposit _ _ _ _).trans (ih _)

theorem available_deposit (fs : List Acct) (a t n b u : Nat) :
    (getAcct b u (depositAccount fs a t n)).available = (getAcct b u fs).available + if a = b ∧ t = u then n else 0 := by
  have k := getAcct_key a t fs
  unfold depositAccount
  simp only [getAcct_setAcct, k.1, k.2]
  split
  · rename_i h; obtain ⟨rfl, rfl⟩ := h; rfl
  · rfl

/-- Everyone gets what the list says, nobody loses anything. -/
theorem payAll_available (l : List (Nat × Nat × Nat)) : ∀ fs a t,
    (getAcct a t (payAll fs l)).available = (getAcct a t fs).available + paidTo a t l := by
  induction l with
  | nil => intro fs a t; rfl
  | cons x l ih =>
    intro fs a t
    rw [payAll_cons, ih, available_deposit]
    simp only [paidTo, List.map_cons, List.sum_cons]; omega

/-! ### Scheduled releases -/

/-- The entries of a list that are not due at a period. -/
def later (P : Nat) (h : Hist) : Nat := ((h.filter (fun e => decide (P < e.period + schedulePeriods))).map (·.amount)).sum

/-- All entries of a list. -/
def entries (h : Hist) : Nat := (h.map (·.amount)).sum

/-- The scheduled releases agree with the accounts' column `amt` and with the log; `last` is the last finish job. -/
structure SchedInv (now last : Nat) (t : Table Nat Hist) (log : List (Nat × Nat × Nat)) (amt : Nat → Nat) : Prop where
  proper : Table.Proper t
  asc : ∀ x ∈ t, Asc x.2
  upto : ∀ x ∈ t, ∀ e ∈ x.2, e.period ≤ now
  fresh : ∀ x ∈ t, ∀ e ∈ x.2, last < e.period + schedulePeriods
  col : ∀ a, amt a = entries (histOf a t)
  log : ∀ a P, last ≤ P → later P (histOf a t) = notDue P a log

theorem SchedInv.init (now last : Nat) : SchedInv now last [] [] (fun _ => 0) :=
  ⟨by simp [Table.Proper], by simp, by simp, by simp, fun _ => rfl, fun _ _ _ => rfl⟩

theorem histOf_mem {a : Nat} {t : Table Nat Hist} (h : histOf a t ≠ []) : (a, histOf a t) ∈ t := by
  unfold histOf at h ⊢
  cases hg : Table.get a t with
  | none => rw [hg] at h; simp at h
  | some v => simpa using Table.get_mem hg

theorem table_mem_put {K V : Type} [DecidableEq K] {k : K} {v : V} {t : Table K V} {x : K × V} (h : x ∈ Table.put k v t) : x = (k, v) ∨ x ∈ t := by
  induction t with
  | nil => simpa [Table.put] using h
  | cons y ys ih =>
    unfold Table.put at h
    split at h
    · simp only [List.mem_cons] at h ⊢; tauto
    · simp only [List.mem_cons] at h ⊢
      rcases h with h | h
      · tauto
      · rcases ih h with h | h <;> tauto

theorem addEntry_cases (now n : Nat) (h : Hist) : (h = [] ∧ addEntry now n h = [⟨now, n⟩]) ∨
    (∃ d x, h = d ++ [⟨now, x⟩] ∧ addEntry now n h = d ++ [⟨now, x + n⟩]) ∨
    (∃ d e, h = d ++ [e] ∧ e.period ≠ now ∧ addEntry now n h = h ++ [⟨now, n⟩]) := by
  rcases snoc_cases h with rfl | ⟨d, e, rfl⟩
  · left; exact ⟨rfl, rfl⟩
  · right
    unfold addEntry
    simp only [List.getLast?_append, List.getLast?_singleton, Option.some_or, List.dropLast_concat]
    split
    · rename_i he; left; exact ⟨d, e.amount, by rw [← he], rfl⟩
    · rename_i he; right; exact ⟨d, e, rfl, he, rfl⟩

theorem entries_append (h h' : Hist) : entries (h ++ h') = entries h + entries h' := by simp [entries]
theorem later_append (P : Nat) (h h' : Hist) : later P (h ++ h') = later P h + later P h' := by simp [later]

theorem later_one (P p n : Nat) : later P [⟨p, n⟩] = if P < p + schedulePeriods then n else 0 := by
  unfold later
  by_cases h : P < p + schedulePeriods <;> simp [h]

theorem SchedInv.add {now last : Nat} {t : Table Nat Hist} {log : List (Nat × Nat × Nat)} {amt amt' : Nat → Nat}
    (I : SchedInv now last t log amt) (hl : last < now + schedulePeriods) (a n : Nat)
    (hamt : ∀ b, amt' b = if b = a then amt a + n else amt b) :
    SchedInv now last (schedule now a n t) (log ++ [(a, now, n)]) amt' := by
  have hh : (Table.get a t).getD [] = histOf a t := rfl
  unfold schedule
  rw [hh]
  have hsub : histOf a t ≠ [] → (a, histOf a t) ∈ t := histOf_mem
  have key : Asc (addEntry now n (histOf a t)) ∧ (∀ e ∈ addEntry now n (histOf a t), e.period ≤ now ∧ last < e.period + schedulePeriods) ∧
      entries (addEntry now n (histOf a t)) = entries (histOf a t) + n ∧
      ∀ P, later P (addEntry now n (histOf a t)) = later P (histOf a t) + if P < now + schedulePeriods then n else 0 := by
    rcases addEntry_cases now n (histOf a t) with ⟨h0, e⟩ | ⟨d, x, h0, e⟩ | ⟨d, x, h0, hne, e⟩
    · rw [e, h0]
      refine ⟨by simp [Asc], ?_, by simp [entries], fun P => by rw [later_one]; simp [later]⟩
      intro e he; simp only [List.mem_singleton] at he; subst he; exact ⟨le_refl _, hl⟩
    · have hm := hsub (by rw [h0]; simp)
      have h1 := I.asc _ hm; have h2 := I.upto _ hm; have h3 := I.fresh _ hm
      simp only at h1 h2 h3
      rw [e]; rw [h0] at h1 h2 h3 ⊢
      refine ⟨?_, ?_, ?_, ?_⟩
      · rw [sorted_snoc] at h1 ⊢; exact h1
      · intro y hy
        rcases List.mem_append.mp hy with hy | hy
        · exact ⟨h2 y (List.mem_append_left _ hy), h3 y (List.mem_append_left _ hy)⟩
        · simp only [List.mem_singleton] at hy; subst hy; exact ⟨le_refl _, hl⟩
      · simp only [entries_append]; simp [entries]; omega
      · intro P; simp only [later_append, later_one]; split <;> omega
    · have hm := hsub (by rw [h0]; simp)
      have h1 := I.asc _ hm; have h2 := I.upto _ hm; have h3 := I.fresh _ hm
      simp only at h1 h2 h3
      rw [e]
      refine ⟨?_, ?_, ?_, ?_⟩
      · rw [sorted_snoc]
        refine ⟨h1, fun y hy => ?_⟩
        rw [h0] at h1 h2 hy
        have hx : x.period ≤ now := h2 x (by simp)
        rw [sorted_snoc] at h1
        rcases List.mem_append.mp hy with hy | hy
        · have := h1.2 y hy; show y.period < now; omega
        · simp only [List.mem_singleton] at hy; subst hy; show y.period < now; omega
      · intro y hy
        rcases List.mem_append.mp hy with hy | hy
        · exact ⟨h2 y hy, h3 y hy⟩
        · simp only [List.mem_singleton] at hy; subst hy; exact ⟨le_refl _, hl⟩
      · rw [entries_append]; simp [entries]
      · intro P; rw [later_append, later_one]
  obtain ⟨k1, k2, k3, k4⟩ := key
  refine ⟨Table.proper_put _ _ I.proper, ?_, ?_, ?_, ?_, ?_⟩
  · intro x hx
    rcases table_mem_put hx with rfl | hx
    · exact k1
    · exact I.asc x hx
  · intro x hx
    rcases table_mem_put hx with rfl | hx
    · exact fun e he => (k2 e he).1
    · exact I.upto x hx
  · intro x hx
    rcases table_mem_put hx with rfl | hx
    · exact fun e he => (k2 e he).2
    · exact I.fresh x hx
  · intro b
    rw [hamt, histOf_put]
    split
    · rw [k3, I.col a]
    · exact I.col b
  · intro b P hP
    have hlog : notDue P b (log ++ [(a, now, n)]) = notDue P b log + if a = b ∧ P < now + 7 then n else 0 := by
      simp [notDue]
    rw [hlog, histOf_put, ← I.log b P hP]
    by_cases hb : b = a
    · subst hb
      rw [if_pos rfl, k4]
      by_cases hq : P < now + 7 <;> simp [schedulePeriods, hq]
    · rw [if_neg hb, if_neg (fun h => hb h.1.symm)]; rfl

theorem SchedInv.advance {now last m : Nat} {t : Table Nat Hist} {log : List (Nat × Nat × Nat)} {amt : Nat → Nat}
    (I : SchedInv now last t log amt) (h : now ≤ m) : SchedInv m last t log amt :=
  ⟨I.proper, I.asc, fun x hx e he => (I.upto x hx e he).trans h, I.fresh, I.col, I.log⟩

theorem SchedInv.amt {now last : Nat} {t : Table Nat Hist} {log : List (Nat × Nat × Nat)} {amt amt' : Nat → Nat}
    (I : SchedInv now last t log amt) (h : ∀ a, amt' a = amt a) : SchedInv now last t log amt' :=
  ⟨I.proper, I.asc, I.upto, I.fresh, fun a => (h a).trans (I.col a), I.log⟩

/-! What a finish job does to one list -/

theorem due_split {h : Hist} (hs : Asc h) (P : Nat) : due P h ++ h.drop (due P h).length = h ∧
    (∀ e ∈ due P h, e.period + schedulePeriods ≤ P) ∧ (∀ e ∈ h.drop (due P h).length, P < e.period + schedulePeriods) := by
  unfold due
  have e1 : h.drop (h.takeWhile (fun e => decide (e.period + schedulePeriods ≤ P))).length =
      h.dropWhile (fun e => decide (e.period + schedulePeriods ≤ P)) := by
    conv_lhs => rw [← List.takeWhile_append_dropWhile (p := fun e : Entry => decide (e.period + schedulePeriods ≤ P)) (l := h)]
    rw [List.takeWhile_append_of_pos (by
      intro x hx; exact List.mem_takeWhile_imp (p := fun e : Entry => decide (e.period + schedulePeriods ≤ P)) hx)]
    cases hd : h.dropWhile (fun e => decide (e.period + schedulePeriods ≤ P)) with
    | nil => simp
    | cons y ys =>
      have : (decide (y.period + schedulePeriods ≤ P)) = false := by
        have := List.head?_dropWhile_not (fun e : Entry => decide (e.period + schedulePeriods ≤ P)) h
        rw [hd] at this; simpa using this
      rw [List.takeWhile_cons_of_neg (by simp [this])]; simp
  rw [e1]
  refine ⟨List.takeWhile_append_dropWhile, fun e he => by simpa using List.mem_takeWhile_imp he, ?_⟩
  have hs' : Asc (h.dropWhile (fun e => decide (e.period + schedulePeriods ≤ P))) := hs.sublist (List.dropWhile_sublist _)
  cases hd : h.dropWhile (fun e => decide (e.period + schedulePeriods ≤ P)) with
  | nil => simp
  | cons y ys =>
    rw [hd] at hs'
    have hy : (decide (y.period + schedulePeriods ≤ P)) = false := by
      have := List.head?_dropWhile_not (fun e : Entry => decide (e.period + schedulePeriods ≤ P)) h
      rw [hd] at this; simpa using this
    have hy' : P < y.period + schedulePeriods := by simpa using hy
    intro e he
    rcases List.mem_cons.mp he with rfl | he
    · exact hy'
    · have := (List.pairwise_cons.mp hs').1 e he; omega

theorem later_eq_zero {h : Hist} {P : Nat} (hd : ∀ e ∈ h, e.period + schedulePeriods ≤ P) : later P h = 0 := by
  unfold later
  rw [List.filter_eq_nil_iff.mpr]
  · rfl
  · intro e he; have := hd e he; simp only [decide_eq_true_eq]; omega

theorem later_eq_entries {h : Hist} {P : Nat} (hd : ∀ e ∈ h, P < e.period + schedulePeriods) : later P h = entries h := by
  unfold later entries
  rw [List.filter_eq_self.mpr]
  intro e he; simp only [decide_eq_true_eq]; exact hd e he

theorem later_le_entries (P : Nat) (h : Hist) : later P h ≤ entries h := by
  unfold later entries
  induction h with
  | nil => simp
  | cons e h ih =>
    simp only [List.filter_cons]
    split
    · simp only [List.map_cons, List.sum_cons]; omega
    · simp only [List.map_cons, List.sum_cons]; omega

/-- What is due and what is not make up the list. -/
theorem due_sum {h : Hist} (hs : Asc h) (P : Nat) : dueSum P h + later P h = entries h ∧
    entries (h.drop (due P h).length) = later P h ∧
    ∀ P', P ≤ P' → later P' (h.drop (due P h).length) = later P' h := by
  obtain ⟨h1, h2, h3⟩ := due_split hs P
  have e : ∀ P', later P' h = later P' (due P h) + later P' (h.drop (due P h).length) := by
    intro P'; conv_lhs => rw [← h1]
    exact later_append _ _ _
  have e' : entries h = dueSum P h + entries (h.drop (due P h).length) := by
    conv_lhs => rw [← h1]
    exact entries_append _ _
  have e0 := later_eq_zero h2
  have e1 := later_eq_entries h3
  refine ⟨?_, ?_, ?_⟩
  · rw [e P, e0, e1, e']; omega
  · rw [e P, e0, e1]; omega
  · intro P' hP'
    rw [e P', later_eq_zero (fun x hx => (h2 x hx).trans hP')]; omega


/-! ### The finish jobs -/

/-- How the release of one amount changes an account. -/
def relVx (n : Nat) (x : Acct) : Acct := { x with vxUnlocking := x.vxUnlocking - n, available := x.available + n }
def relStake (n : Nat) (x : Acct) : Acct := { x with cancellingStake := x.cancellingStake - n, available := x.available + n }

/-- `fin` releases amounts up to the column `col` of the account of token `tok`. -/
structure Releases (fin : List Acct → Nat → Nat → Option (List Acct)) (tok : Nat) (col : Acct → Nat) (upd : Nat → Acct → Acct) : Prop where
  ok : ∀ fs a n, n ≤ col (getAcct a tok fs) → fin fs a n = some (setAcct (upd n (getAcct a tok fs)) fs)
  moves : ∀ fs a n, n ≤ col (getAcct a tok fs) →
    Moves fs (setAcct (upd n (getAcct a tok fs)) fs) (fun _ => 0) (fun _ => 0)
  key : ∀ n x, (upd n x).address = x.address ∧ (upd n x).token = x.token
  col : ∀ n x, col (upd n x) = col x - n
  zero : ∀ x, upd 0 x = x

theorem releases_vx : Releases finishVxUnlock vxToken Acct.vxUnlocking relVx where
  ok := fun fs a n h => by unfold finishVxUnlock; simp only; rw [if_neg (by omega)]; rfl
  moves := fun fs a n h => finishVx_moves (a := a) (n := n) (by unfold finishVxUnlock; simp only; rw [if_neg (by omega)]; rfl)
  key := fun _ _ => ⟨rfl, rfl⟩
  col := fun _ _ => rfl
  zero := fun _ => rfl

theorem releases_stake : Releases finishCancel viteToken Acct.cancellingStake relStake where
  ok := fun fs a n h => by unfold finishCancel; rw [if_neg (by omega)]; rfl
  moves := fun fs a n h => by
    have k := getAcct_key a viteToken fs
    have := moves_set a viteToken fs (relStake n (getAcct a viteToken fs)) k.1 k.2 rfl 0 0
      (by simp only [relStake, owes]; omega)
    exact this.cast (fun t => by split <;> rfl) (fun t => by split <;> rfl)
  key := fun _ _ => ⟨rfl, rfl⟩
  col := fun _ _ => rfl
  zero := fun _ => rfl

theorem histOf_cons (a b : Nat) (h : Hist) (r : Table Nat Hist) : histOf b ((a, h) :: r) = if a = b then h else histOf b r := by
  unfold histOf; rw [get_cons]; split <;> rfl

theorem histOf_absent {a : Nat} {t : Table Nat Hist} (h : a ∉ t.map (·.1)) : histOf a t = [] := by
  unfold histOf; rw [Table.get_none h]; rfl

theorem proper_cons {K V : Type} {a : K} {v : V} {t : Table K V} : Table.Proper ((a, v) :: t) ↔ a ∉ t.map (·.1) ∧ Table.Proper t := by
  unfold Table.Proper; rw [List.map_cons, List.nodup_cons]

/-- What the finish job does: every list loses what is due, the account gets it, and nothing else changes. -/
theorem releaseAll_spec {fin : List Acct → Nat → Nat → Option (List Acct)} {tok : Nat} {col : Acct → Nat} {upd : Nat → Acct → Acct}
    (R : Releases fin tok col upd) (P : Nat) : ∀ (t : Table Nat Hist) (fs : List Acct), Table.Proper t → (∀ x ∈ t, Asc x.2) →
    (∀ a, entries (histOf a t) ≤ col (getAcct a tok fs)) →
    ∃ t' fs', releaseAll fin P t fs = some (t', fs') ∧ (t'.map (·.1)).Sublist (t.map (·.1)) ∧
      (∀ x ∈ t', ∃ y ∈ t, x.2 = y.2.drop (due P y.2).length) ∧
      (∀ a, histOf a t' = (histOf a t).drop (due P (histOf a t)).length) ∧
      Moves fs fs' (fun _ => 0) (fun _ => 0) ∧
      (∀ b u, getAcct b u fs' = if u = tok then upd (dueSum P (histOf b t)) (getAcct b tok fs) else getAcct b u fs) ∧
      (∀ b u, hasAcct b u fs = true → hasAcct b u fs' = true) := by
  intro t
  induction t with
  | nil =>
    intro fs _ _ _
    refine ⟨[], fs, rfl, by simp, by simp, fun _ => rfl, Moves.refl fs, ?_, fun _ _ h => h⟩
    intro b u
    split
    · rename_i h; subst h; exact (R.zero _).symm
    · rfl
  | cons e rest ih =>
    obtain ⟨a, h⟩ := e
    intro fs hp hs hc
    obtain ⟨hna, hp'⟩ := proper_cons.mp hp
    have habs := histOf_absent hna
    have hs' : ∀ x ∈ rest, Asc x.2 := fun x hx => hs x (List.mem_cons_of_mem _ hx)
    have hsa : Asc h := hs _ (List.mem_cons_self ..)
    unfold releaseAll
    by_cases hd : due P h = []
    · rw [if_pos hd]
      obtain ⟨t', fs', e1, e2, e3, e4, e5, e6, e7⟩ := ih fs hp' hs' (by
        intro b
        by_cases hb : a = b
        · subst hb; rw [habs]; exact Nat.zero_le _
        · have := hc b; rw [histOf_cons, if_neg hb] at this; exact this)
      rw [e1]
      refine ⟨(a, h) :: t', fs', rfl, by simpa using e2, ?_, ?_, e5, ?_, e7⟩
      · intro x hx
        rcases List.mem_cons.mp hx with rfl | hx
        · exact ⟨(a, h), List.mem_cons_self .., by simp [hd]⟩
        · obtain ⟨y, hy, e⟩ := e3 x hx; exact ⟨y, List.mem_cons_of_mem _ hy, e⟩
      · intro b
        rw [histOf_cons, histOf_cons]
        split
        · simp [hd]
        · exact e4 b
      · intro b u
        rw [e6, histOf_cons]
        by_cases hb : a = b
        · subst hb
          rw [if_pos rfl, habs]
          have : dueSum P h = dueSum P [] := by unfold dueSum; rw [hd]; rfl
          rw [this]
        · rw [if_neg hb]
    · rw [if_neg hd]
      have hca : dueSum P h ≤ col (getAcct a tok fs) := by
        have h1 := hc a; rw [histOf_cons, if_pos rfl] at h1
        have h2 := (due_sum hsa P).1; omega
      rw [R.ok fs a _ hca, Option.bind_some]
      have k := getAcct_key a tok fs
      have hset : ∀ b u, getAcct b u (setAcct (upd (dueSum P h) (getAcct a tok fs)) fs) =
          if a = b ∧ tok = u then upd (dueSum P h) (getAcct a tok fs) else getAcct b u fs := by
        intro b u
        rw [getAcct_setAcct, (R.key _ _).1, (R.key _ _).2, k.1, k.2]
      obtain ⟨t', fs', e1, e2, e3, e4, e5, e6, e7⟩ := ih (setAcct (upd (dueSum P h) (getAcct a tok fs)) fs) hp' hs' (by
        intro b
        by_cases hb : a = b
        · subst hb; rw [habs]; exact Nat.zero_le _
        · have := hc b; rw [histOf_cons, if_neg hb] at this
          rw [hset, if_neg (fun e => hb e.1)]; exact this)
      rw [e1]
      have hat : histOf a t' = [] := by rw [e4, habs]; rfl
      refine ⟨keepEntries a (h.drop (due P h).length) ++ t', fs', rfl, ?_, ?_, ?_, ?_, ?_, ?_⟩
      · unfold keepEntries
        split
        · exact e2.trans (List.sublist_cons_self ..)
        · simpa using e2
      · intro x hx
        rcases List.mem_append.mp hx with hx | hx
        · unfold keepEntries at hx
          split at hx
          · simp at hx
          · simp only [List.mem_singleton] at hx; subst hx
            exact ⟨(a, h), List.mem_cons_self .., rfl⟩
        · obtain ⟨y, hy, e⟩ := e3 x hx; exact ⟨y, List.mem_cons_of_mem _ hy, e⟩
      · intro b
        rw [histOf_cons]
        unfold keepEntries
        split
        · rename_i h0
          rw [List.nil_append]
          by_cases hb : a = b
          · subst hb; rw [if_pos rfl, h0, hat]
          · rw [if_neg hb]; exact e4 b
        · rw [List.singleton_append, histOf_cons]
          split
          · rfl
          · exact e4 b
      · exact ((R.moves fs a _ hca).trans e5).cast (fun _ => rfl) (fun _ => rfl)
      · intro b u
        rw [e6, hset, hset, histOf_cons]
        by_cases hu : u = tok
        · subst hu
          rw [if_pos rfl, if_pos rfl]
          by_cases hb : a = b
          · subst hb
            rw [if_pos ⟨rfl, rfl⟩, if_pos rfl, habs]
            exact R.zero _
          · rw [if_neg (fun e => hb e.1), if_neg hb]
        · rw [if_neg hu, if_neg hu, if_neg (fun e => hu e.2.symm)]
      · intro b u hb
        exact e7 b u ((hasAcct_set _ _ _ _).mpr (.inr hb))

/-- The scheduled releases after a finish job for period `P`. -/
theorem SchedInv.release {now last P : Nat} {t t' : Table Nat Hist} {log : List (Nat × Nat × Nat)} {amt amt' : Nat → Nat}
    (I : SchedInv now last t log amt) (hl : last ≤ P)
    (hk : (t'.map (·.1)).Sublist (t.map (·.1))) (hm : ∀ x ∈ t', ∃ y ∈ t, x.2 = y.2.drop (due P y.2).length)
    (hh : ∀ a, histOf a t' = (histOf a t).drop (due P (histOf a t)).length)
    (ha : ∀ a, amt' a = amt a - dueSum P (histOf a t)) : SchedInv now P t' log amt' := by
  have asc : ∀ a, Asc (histOf a t) := by
    intro a
    by_cases h : histOf a t = []
    · rw [h]; exact List.Pairwise.nil
    · exact I.asc _ (histOf_mem h)
  refine ⟨hk.nodup I.proper, ?_, ?_, ?_, ?_, ?_⟩
  · intro x hx
    obtain ⟨y, hy, e⟩ := hm x hx
    rw [e]; exact (I.asc y hy).sublist (List.drop_sublist ..)
  · intro x hx en hen
    obtain ⟨y, hy, e⟩ := hm x hx
    rw [e] at hen; exact I.upto y hy en (List.mem_of_mem_drop hen)
  · intro x hx en hen
    obtain ⟨y, hy, e⟩ := hm x hx
    rw [e] at hen; exact (due_split (I.asc y hy) P).2.2 en hen
  · intro a
    obtain ⟨d1, d2, -⟩ := due_sum (asc a) P
    rw [ha, hh, d2, I.col]; omega
  · intro a P' hP'
    rw [hh, (due_sum (asc a) P).2.2 P' hP']
    exact I.log a P' (hl.trans hP')

/-! ### What the mining jobs take from the pool -/

theorem takeItems_sum (unit : Nat) : ∀ (rs : List Nat) (left : Nat), (takeItems unit rs left).1.sum + (takeItems unit rs left).2 = left
  | [], left => by simp [takeItems]
  | r :: rs, left => by
    have := takeItems_sum unit rs (left - min left (unit * r))
    simp only [takeItems, List.sum_cons]; omega

theorem amountsForItems_sum (want pool total r0 : Nat) (rates : List Nat) :
    (amountsForItems want pool total r0 rates).1 + (amountsForItems want pool total r0 rates).2.1.sum +
      (amountsForItems want pool total r0 rates).2.2 = pool := by
  have := takeItems_sum (min want pool / total) rates (pool - min pool (min want pool / total * r0))
  unfold amountsForItems
  simp only
  split <;> simp only <;> omega

theorem amountToMine_sum (want pool : Nat) : (amountToMine want pool).1 + (amountToMine want pool).2 = pool := by
  unfold amountToMine
  split <;> simp only <;> omega

/-- What is left in all pots. -/
def potsLeft (pots : List Pot) : Nat := (pots.map Pot.left).sum

theorem Pot.pay_left (total part : Nat) (q : Pot) : (q.pay total part).1.left + (q.pay total part).2 = q.left := by
  unfold Pot.pay
  split
  · simp
  · split
    · simp
    · rename_i h; push Not at h; simp only; omega

theorem Pot.payPart_left (total part : Nat) (q : Pot) : (q.payPart total part).1.left + (q.payPart total part).2 = q.left := by
  unfold Pot.payPart
  split
  · rfl
  · exact Pot.pay_left total part q

theorem payFeeItem_left (total kind base invite : Nat) : ∀ pots : List Pot,
    potsLeft (payFeeItem total kind base invite pots).1 + (payFeeItem total kind base invite pots).2 = potsLeft pots
  | [] => rfl
  | q :: qs => by
    unfold payFeeItem
    split
    · have h1 := Pot.payPart_left total base q
      have h2 := Pot.payPart_left total invite (q.payPart total base).1
      simp only [potsLeft, List.map_cons, List.sum_cons]; omega
    · have := payFeeItem_left total kind base invite qs
      simp only [potsLeft, List.map_cons, List.sum_cons] at this ⊢; omega

theorem payFeeItems_left : ∀ (l : List (Nat × Nat × Nat × Nat)) (pots : List Pot),
    potsLeft (payFeeItems l pots).1 + (payFeeItems l pots).2 = potsLeft pots
  | [], _ => rfl
  | x :: xs, pots => by
    have h1 := payFeeItem_left x.2.1 x.1 x.2.2.1 x.2.2.2 pots
    have h2 := payFeeItems_left xs (payFeeItem x.2.1 x.1 x.2.2.1 x.2.2.2 pots).1
    simp only [payFeeItems]; omega

/-- Sum of a list of amounts. -/
def paidSum (l : List (Nat × Nat)) : Nat := (l.map (·.2)).sum

theorem mineForFees_left : ∀ (us : List (Nat × List (Nat × Nat × Nat × Nat))) (pots : List Pot),
    potsLeft (mineForFees us pots).1 + paidSum (mineForFees us pots).2 = potsLeft pots
  | [], _ => rfl
  | u :: us, pots => by
    have h1 := payFeeItems_left u.2 pots
    have h2 := mineForFees_left us (payFeeItems u.2 pots).1
    simp only [mineForFees, paidSum, List.map_cons, List.sum_cons] at h2 ⊢; omega

theorem potsLeft_new (l : List Nat) : potsLeft (l.zipIdx.map (fun x => Pot.new x.2 x.1)) = l.sum := by
  unfold potsLeft
  rw [List.map_map]
  have : (Pot.left ∘ fun x : Nat × Nat => Pot.new x.2 x.1) = Prod.fst := rfl
  rw [this, List.zipIdx_map_fst]

theorem payPots_sum (total x a : Nat) (pots : List Pot) :
    potsLeft (pots.map (fun q => (q.pay total x).1)) + ((payPots total x a pots).map (·.2.2)).sum = potsLeft pots := by
  induction pots with
  | nil => rfl
  | cons q qs ih =>
    have h := Pot.pay_left total x q
    unfold payPots potsLeft at *
    by_cases hd : q.done = true
    · have : (q.pay total x).1 = q := by unfold Pot.pay; rw [if_pos hd]
      simp only [List.map_cons, List.sum_cons, List.filter_cons, hd, Bool.not_true, Bool.false_eq_true, if_false, this]; omega
    · simp only [List.map_cons, List.sum_cons, List.filter_cons, hd, Bool.not_false, if_true]; omega

theorem divide_total (thr p total : Nat) (t : Table Nat Hist) (pots : List Pot) :
    potsLeft (divide thr p total t pots).2.1 + ((divide thr p total t pots).2.2.map (·.2.2)).sum = potsLeft pots := by
  induction t generalizing pots with
  | nil => simp [divide]
  | cons e rest ih =>
    obtain ⟨a, h⟩ := e
    unfold divide
    split
    · simp
    · split
      · exact ih pots
      · rename_i x h' _
        split
        · exact ih pots
        · have h1 := ih (pots.map (fun q => (q.pay total x).1))
          have h2 := payPots_sum total x a pots
          simp only [List.map_append, List.sum_append]; omega

end Verif.Dex
