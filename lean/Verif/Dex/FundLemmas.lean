import Verif.Dex.FundSpec
import Verif.Dex.MatcherProps
import Mathlib.Algebra.BigOperators.Group.Finset.Piecewise

/-! Lemmas for the exchange model. -/

namespace Verif.Dex
open Spec

/-! ### Sums by key -/

def ksum {κ : Type} [DecidableEq κ] (k : κ) (l : List (κ × Nat)) : Nat := (l.map (fun x => if x.1 = k then x.2 else 0)).sum
def psum {κ : Type} (P : κ → Bool) (l : List (κ × Nat)) : Nat := (l.map (fun x => if P x.1 then x.2 else 0)).sum

theorem psum_eq {κ : Type} [DecidableEq κ] (P : κ → Bool) (l : List (κ × Nat)) (S : Finset κ) (h : ∀ x ∈ l, x.1 ∈ S) :
    psum P l = ∑ k ∈ S.filter (fun k => P k = true), ksum k l := by
  induction l with
  | nil => simp [psum, ksum]
  | cons x xs ih =>
    have ih := ih (fun y hy => h y (by simp [hy]))
    have hx := h x (by simp)
    have e : ∀ k, ksum k (x :: xs) = (if x.1 = k then x.2 else 0) + ksum k xs := fun k => by simp [ksum]
    have e' : psum P (x :: xs) = (if P x.1 then x.2 else 0) + psum P xs := by simp [psum]
    rw [e', Finset.sum_congr rfl (fun k _ => e k), Finset.sum_add_distrib, ih, Finset.sum_ite_eq]
    congr 1
    by_cases hp : P x.1 <;> simp [hp, hx]

/-- Two lists that agree key by key agree on every set of keys. -/
theorem psum_congr {κ : Type} [DecidableEq κ] (l l' : List (κ × Nat)) (h : ∀ k, ksum k l = ksum k l') (P : κ → Bool) :
    psum P l = psum P l' := by
  rw [psum_eq P l ((l ++ l').map Prod.fst).toFinset, psum_eq P l' ((l ++ l').map Prod.fst).toFinset]
  · exact Finset.sum_congr rfl (fun k _ => h k)
  · intro x hx; simp only [List.mem_toFinset, List.mem_map, List.mem_append]; exact ⟨x, .inr hx, rfl⟩
  · intro x hx; simp only [List.mem_toFinset, List.mem_map, List.mem_append]; exact ⟨x, .inl hx, rfl⟩

theorem psum_append {κ : Type} (P : κ → Bool) (l l' : List (κ × Nat)) : psum P (l ++ l') = psum P l + psum P l' := by
  simp [psum]
theorem ksum_append {κ : Type} [DecidableEq κ] (k : κ) (l l' : List (κ × Nat)) : ksum k (l ++ l') = ksum k l + ksum k l' := by
  simp [ksum]

/-! ### The fund table -/

def Keyed (fs : List Acct) : Prop := fs.Pairwise (fun x y => ¬ (x.address = y.address ∧ x.token = y.token))

theorem getAcct_key (a t : Nat) (fs : List Acct) : (getAcct a t fs).address = a ∧ (getAcct a t fs).token = t := by
  induction fs with
  | nil => simp [getAcct]
  | cons x xs ih => unfold getAcct; split <;> assumption

theorem mem_setAcct {v x : Acct} {fs : List Acct} (h : x ∈ setAcct v fs) : x = v ∨ x ∈ fs := by
  induction fs with
  | nil => simpa [setAcct] using h
  | cons z zs ih =>
    unfold setAcct at h
    split at h
    · simp at h ⊢; tauto
    · simp at h ⊢
      rcases h with h | h
      · tauto
      · have := ih h; tauto

theorem keyed_setAcct (v : Acct) {fs : List Acct} (h : Keyed fs) : Keyed (setAcct v fs) := by
  induction fs with
  | nil => simp [setAcct, Keyed]
  | cons z zs ih =>
    have hz := List.pairwise_cons.1 h
    unfold setAcct
    split
    · rename_i e
      refine List.pairwise_cons.2 ⟨?_, hz.2⟩
      intro y hy
      have := hz.1 y hy
      rw [← e.1, ← e.2]; exact this
    · rename_i e
      refine List.pairwise_cons.2 ⟨?_, ih hz.2⟩
      intro y hy
      rcases mem_setAcct hy with rfl | hy
      · exact e
      · exact hz.1 y hy

theorem heldBy_keyed (g : Acct → Nat) (a t : Nat) {fs : List Acct} (h : Keyed fs) (h0 : g ⟨a, t, 0, 0, 0, 0, 0⟩ = 0) :
    heldBy g a t fs = g (getAcct a t fs) := by
  induction fs with
  | nil => simp [heldBy, getAcct, h0]
  | cons z zs ih =>
    have hz := List.pairwise_cons.1 h
    have e : heldBy g a t (z :: zs) = (if z.address = a ∧ z.token = t then g z else 0) + heldBy g a t zs := by
      simp [heldBy]
    rw [e]
    unfold getAcct
    split
    · rename_i hk
      have : heldBy g a t zs = 0 := by
        unfold heldBy
        apply List.sum_eq_zero
        intro n hn
        obtain ⟨y, hy, rfl⟩ := List.mem_map.1 hn
        have := hz.1 y hy
        rw [if_neg]
        rintro ⟨h1, h2⟩
        exact this ⟨by rw [hk.1, h1], by rw [hk.2, h2]⟩
      rw [this]; rfl
    · rw [ih hz.2]; simp

theorem heldBy_setAcct (g : Acct → Nat) (a t : Nat) (v : Acct) (fs : List Acct)
    (h0 : g ⟨v.address, v.token, 0, 0, 0, 0, 0⟩ = 0) :
    heldBy g a t (setAcct v fs) + (if v.address = a ∧ v.token = t then g (getAcct v.address v.token fs) else 0) =
      heldBy g a t fs + (if v.address = a ∧ v.token = t then g v else 0) := by
  induction fs with
  | nil => simp [heldBy, setAcct, getAcct, h0]
  | cons z zs ih =>
    unfold setAcct getAcct
    split
    · rename_i e
      simp only [heldBy, List.map_cons, List.sum_cons, e.1, e.2]; omega
    · simp only [heldBy, List.map_cons, List.sum_cons] at *; omega

theorem held_setAcct (g : Acct → Nat) (t : Nat) (v : Acct) (fs : List Acct)
    (h0 : g ⟨v.address, v.token, 0, 0, 0, 0, 0⟩ = 0) :
    held g t (setAcct v fs) + (if v.token = t then g (getAcct v.address v.token fs) else 0) =
      held g t fs + (if v.token = t then g v else 0) := by
  induction fs with
  | nil => simp [held, setAcct, getAcct, h0]
  | cons z zs ih =>
    unfold setAcct getAcct
    split
    · rename_i e
      simp only [held, List.map_cons, List.sum_cons, e.2]; omega
    · simp only [held, List.map_cons, List.sum_cons] at *; omega

/-- Replacing an account by one with the same key: locked column. -/
theorem heldBy_update (g : Acct → Nat) (a t a' t' : Nat) (fs : List Acct) (v : Acct)
    (ha : v.address = a') (ht : v.token = t') (h0 : g ⟨a', t', 0, 0, 0, 0, 0⟩ = 0) :
    heldBy g a t (setAcct v fs) + (if a' = a ∧ t' = t then g (getAcct a' t' fs) else 0) =
      heldBy g a t fs + (if a' = a ∧ t' = t then g v else 0) := by
  subst ha ht; exact heldBy_setAcct g a t v fs h0

theorem held_update (g : Acct → Nat) (t a' t' : Nat) (fs : List Acct) (v : Acct)
    (ha : v.address = a') (ht : v.token = t') (h0 : g ⟨a', t', 0, 0, 0, 0, 0⟩ = 0) :
    held g t (setAcct v fs) + (if t' = t then g (getAcct a' t' fs) else 0) = held g t fs + (if t' = t then g v else 0) := by
  subst ha ht; exact held_setAcct g t v fs h0

/-- The effect of one fund-table change that leaves the locked column alone. -/
structure Moves (fs fs' : List Acct) (plus minus : Nat → Nat) : Prop where
  keyed : Keyed fs → Keyed fs'
  locked : ∀ a t, heldBy Acct.locked a t fs' = heldBy Acct.locked a t fs
  total : ∀ t, held owes t fs' + minus t = held owes t fs + plus t

theorem moves_set (a t : Nat) (fs : List Acct) (v : Acct) (ha : v.address = a) (ht : v.token = t)
    (hl : v.locked = (getAcct a t fs).locked) (p m : Nat) (ho : owes v + m = owes (getAcct a t fs) + p) :
    Moves fs (setAcct v fs) (fun x => if x = t then p else 0) (fun x => if x = t then m else 0) where
  keyed := keyed_setAcct v
  locked := by
    intro b u
    have := heldBy_update Acct.locked b u a t fs v ha ht rfl
    rw [hl] at this; omega
  total := by
    intro u
    have := held_update owes u a t fs v ha ht rfl
    by_cases h : u = t
    · subst h; simp only [if_true] at *; omega
    · rw [if_neg (fun e => h e.symm), if_neg (fun e => h e.symm)] at this
      simp only [h, if_false]; omega

theorem deposit_moves (fs : List Acct) (a t n : Nat) :
    Moves fs (depositAccount fs a t n) (fun x => if x = t then n else 0) (fun _ => 0) := by
  have k := getAcct_key a t fs
  have := moves_set a t fs { getAcct a t fs with available := (getAcct a t fs).available + n } k.1 k.2 rfl n 0
    (by simp only [owes]; omega)
  exact ⟨this.keyed, this.locked, fun x => by have := this.total x; simpa [depositAccount] using this⟩

theorem reduce_moves {fs fs' : List Acct} {a t n : Nat} (h : reduceAccount fs a t n = some fs') :
    Moves fs fs' (fun _ => 0) (fun x => if x = t then n else 0) := by
  unfold reduceAccount at h
  simp only at h
  split at h
  · simp at h
  · obtain rfl := Option.some.inj h
    have k := getAcct_key a t fs
    have := moves_set a t fs { getAcct a t fs with available := (getAcct a t fs).available - n } k.1 k.2 rfl 0 n
      (by simp only [owes]; omega)
    exact ⟨this.keyed, this.locked, fun x => by have := this.total x; simpa using this⟩

theorem lockVx_moves {fs fs' : List Acct} {a n : Nat} (h : lockVxForDividend fs a n = some fs') :
    Moves fs fs' (fun _ => 0) (fun _ => 0) := by
  unfold lockVxForDividend at h
  simp only at h
  split at h
  · simp at h
  · obtain rfl := Option.some.inj h
    have k := getAcct_key a vxToken fs
    have := moves_set a vxToken fs { getAcct a vxToken fs with
      available := (getAcct a vxToken fs).available - n, vxLocked := (getAcct a vxToken fs).vxLocked + n } k.1 k.2 rfl 0 0
      (by simp only [owes]; omega)
    exact ⟨this.keyed, this.locked, fun x => by have := this.total x; simpa using this⟩

theorem scheduleVx_moves {fs fs' : List Acct} {a n : Nat} (h : scheduleVxUnlock fs a n = some fs') :
    Moves fs fs' (fun _ => 0) (fun _ => 0) := by
  unfold scheduleVxUnlock at h
  simp only at h
  split at h
  · simp at h
  · split at h
    · simp at h
    · obtain rfl := Option.some.inj h
      have k := getAcct_key a vxToken fs
      have := moves_set a vxToken fs { getAcct a vxToken fs with
        vxLocked := (getAcct a vxToken fs).vxLocked - n, vxUnlocking := (getAcct a vxToken fs).vxUnlocking + n } k.1 k.2 rfl 0 0
        (by simp only [owes]; omega)
      exact ⟨this.keyed, this.locked, fun x => by have := this.total x; simpa using this⟩

theorem finishVx_moves {fs fs' : List Acct} {a n : Nat} (h : finishVxUnlock fs a n = some fs') :
    Moves fs fs' (fun _ => 0) (fun _ => 0) := by
  unfold finishVxUnlock at h
  simp only at h
  split at h
  · simp at h
  · obtain rfl := Option.some.inj h
    have k := getAcct_key a vxToken fs
    have := moves_set a vxToken fs { getAcct a vxToken fs with
      vxUnlocking := (getAcct a vxToken fs).vxUnlocking - n, available := (getAcct a vxToken fs).available + n } k.1 k.2 rfl 0 0
      (by simp only [owes]; omega)
    exact ⟨this.keyed, this.locked, fun x => by have := this.total x; simpa using this⟩

/-! ### Settling a message -/

/-- Column of a settlement list restricted to one address and token. -/
def colBy (mi : MarketInfo) (g : Settle → Nat) (a t : Nat) (ss : List Settle) : Nat :=
  (ss.map (fun s => if s.address = a ∧ settleToken mi s = t then g s else 0)).sum
def col (mi : MarketInfo) (g : Settle → Nat) (t : Nat) (ss : List Settle) : Nat :=
  (ss.map (fun s => if settleToken mi s = t then g s else 0)).sum
def debit (s : Settle) : Nat := s.reduceLocked + s.releaseLocked

theorem settleFunds_spec (mi : MarketInfo) (ss : List Settle) : ∀ (fs : List Acct) (e : Bool), Keyed fs →
    (∀ a t, colBy mi debit a t ss ≤ heldBy Acct.locked a t fs) →
    Keyed (settleFunds mi ss (fs, e)).1 ∧ (settleFunds mi ss (fs, e)).2 = e ∧
    (∀ a t, heldBy Acct.locked a t (settleFunds mi ss (fs, e)).1 + colBy mi debit a t ss = heldBy Acct.locked a t fs) ∧
    (∀ t, held owes t (settleFunds mi ss (fs, e)).1 + col mi Settle.reduceLocked t ss =
      held owes t fs + col mi Settle.incAvailable t ss) := by
  induction ss with
  | nil => intro fs e hk _; exact ⟨hk, rfl, fun _ _ => rfl, fun _ => rfl⟩
  | cons s ss ih =>
    intro fs e hk hle
    have cb : ∀ g a t, colBy mi g a t (s :: ss) =
        (if s.address = a ∧ settleToken mi s = t then g s else 0) + colBy mi g a t ss := by intros; simp [colBy]
    have cc : ∀ g t, col mi g t (s :: ss) = (if settleToken mi s = t then g s else 0) + col mi g t ss := by
      intros; simp [col]
    have key := getAcct_key s.address (settleToken mi s) fs
    have hx := heldBy_keyed Acct.locked s.address (settleToken mi s) hk rfl
    have h1 := hle s.address (settleToken mi s)
    rw [cb, if_pos ⟨rfl, rfl⟩, hx] at h1
    have hd : debit s ≤ (getAcct s.address (settleToken mi s) fs).locked := by omega
    unfold settleFunds
    simp only
    generalize hv : getAcct s.address (settleToken mi s) fs = x at *
    have hsa : settleAccount x s =
        ({ x with locked := x.locked - debit s, available := x.available + s.releaseLocked + s.incAvailable }, false) := by
      have e1 : safeSub x.locked s.reduceLocked = (x.locked - s.reduceLocked, s.reduceLocked, false) := by
        unfold safeSub; rw [if_neg (by unfold debit at hd; omega)]
      have e2 : safeSub (x.locked - s.reduceLocked) s.releaseLocked =
          (x.locked - s.reduceLocked - s.releaseLocked, s.releaseLocked, false) := by
        unfold safeSub; rw [if_neg (by unfold debit at hd; omega)]
      unfold settleAccount
      simp only [e1, e2, Bool.or_false, Nat.sub_sub, debit]
    rw [hsa]
    simp only [Bool.or_false]
    have u1 := fun a t => heldBy_update Acct.locked a t s.address (settleToken mi s) fs
      { x with locked := x.locked - debit s, available := x.available + s.releaseLocked + s.incAvailable } key.1 key.2 rfl
    have u2 := fun t => held_update owes t s.address (settleToken mi s) fs
      { x with locked := x.locked - debit s, available := x.available + s.releaseLocked + s.incAvailable } key.1 key.2 rfl
    rw [hv] at u1 u2
    simp only at u1 u2
    have hk' := keyed_setAcct
      { x with locked := x.locked - debit s, available := x.available + s.releaseLocked + s.incAvailable } hk
    generalize setAcct { x with locked := x.locked - debit s, available := x.available + s.releaseLocked + s.incAvailable }
      fs = fs' at *
    obtain ⟨i1, i2, i3, i4⟩ := ih fs' e hk' (by
      intro a t
      have a1 := hle a t
      have a2 := u1 a t
      rw [cb] at a1
      by_cases hc : s.address = a ∧ settleToken mi s = t
      · simp only [hc, and_self, if_true] at a1 a2; omega
      · simp only [hc, if_false] at a1 a2; omega)
    refine ⟨i1, i2, ?_, ?_⟩
    · intro a t
      have a1 := i3 a t
      have a2 := u1 a t
      rw [cb]
      by_cases hc : s.address = a ∧ settleToken mi s = t
      · simp only [hc, and_self, if_true] at a2 ⊢; omega
      · simp only [hc, if_false] at a2 ⊢; omega
    · intro t
      have a1 := i4 t
      have a2 := u2 t
      rw [cc, cc]
      by_cases hc : settleToken mi s = t
      · simp only [hc, if_true, owes, debit] at a2 hd ⊢
        omega
      · simp only [hc, if_false] at a2 ⊢; omega

end Verif.Dex
