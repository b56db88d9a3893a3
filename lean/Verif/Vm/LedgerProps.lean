import Verif.Vm.LedgerSpec
import Verif.Tactics

/-! C01-C04: value is conserved, balances stay non-negative, failed calls are refunded, only two contracts can mint. -/

namespace Verif.Vm
open Spec

/-! ### Balances -/

theorem getBal_setBal (a t a' t' : Nat) (v : Int) (b : Bal) :
    getBal a t (setBal a' t' v b) = if a' = a ∧ t' = t then v else getBal a t b := by
  induction b with
  | nil => simp [setBal, getBal, Prod.ext_iff]
  | cons e rest ih =>
    obtain ⟨⟨k1, k2⟩, w⟩ := e
    simp only [setBal]
    by_cases hk : (k1, k2) = (a', t')
    · simp only [hk, if_true, getBal]
      by_cases h : (a', t') = (a, t)
      · have : a' = a ∧ t' = t := Prod.ext_iff.mp h
        simp [h, this]
      · have : ¬ (a' = a ∧ t' = t) := fun q => h (Prod.ext q.1 q.2)
        simp [h, this]
    · simp only [hk, if_false, getBal, ih]
      by_cases h : (k1, k2) = (a, t)
      · have : ¬ (a' = a ∧ t' = t) := fun q => hk (by rw [h, q.1, q.2])
        simp [h, this]
      · simp [h]

theorem total_setBal (t a t' : Nat) (v : Int) (b : Bal) :
    total t (setBal a t' v b) = total t b + (if t' = t then v - getBal a t' b else 0) := by
  induction b with
  | nil => simp [setBal, getBal, total]
  | cons e rest ih =>
    obtain ⟨⟨k1, k2⟩, w⟩ := e
    simp only [setBal]
    by_cases hk : (k1, k2) = (a, t')
    · have h2 : k2 = t' := (Prod.ext_iff.mp hk).2
      simp only [hk, if_true, getBal, total, List.map_cons, List.sum_cons]
      by_cases h : t' = t <;> simp [h] <;> omega
    · simp only [hk, if_false, getBal]
      simp only [total, List.map_cons, List.sum_cons] at ih ⊢
      omega

theorem getBal_add (b : Bal) (a t n a' t' : Nat) :
    getBal a' t' (addBalance b a t n) = getBal a' t' b + (if a = a' ∧ t = t' then (n : Int) else 0) := by
  unfold addBalance
  rw [getBal_setBal]
  by_cases h : a = a' ∧ t = t'
  · simp [h]
  · simp [h]

theorem total_add (b : Bal) (a t n t' : Nat) :
    total t' (addBalance b a t n) = total t' b + (if t = t' then (n : Int) else 0) := by
  unfold addBalance
  rw [total_setBal]
  by_cases h : t = t' <;> simp [h]

theorem subBalance_some {b b' : Bal} {a t n : Nat} (h : subBalance b a t n = some b') :
    (n : Int) ≤ getBal a t b ∧
    (∀ a' t', getBal a' t' b' = getBal a' t' b - (if a = a' ∧ t = t' then (n : Int) else 0)) ∧
    ∀ t', total t' b' = total t' b - (if t = t' then (n : Int) else 0) := by
  unfold subBalance at h
  by_cases hc : getBal a t b ≥ n
  · simp only [hc, if_true, Option.some.injEq] at h
    subst h
    refine ⟨hc, fun a' t' => ?_, fun t' => ?_⟩
    · rw [getBal_setBal]
      by_cases h : a = a' ∧ t = t'
      · simp [h]
      · simp [h]
    · rw [total_setBal]
      by_cases h : t = t' <;> simp [h]; omega
  · simp [hc] at h

theorem subBalance_ok {b : Bal} {a t n : Nat} (h : (n : Int) ≤ getBal a t b) : ∃ b', subBalance b a t n = some b' :=
  ⟨_, if_pos h⟩

/-! ### One send -/

/-- No balance is negative. -/
def NonNeg (b : Bal) : Prop := ∀ a t, 0 ≤ getBal a t b

theorem subBalance_nonneg {b b' : Bal} {a t n : Nat} (h : subBalance b a t n = some b') (hb : NonNeg b) : NonNeg b' := by
  obtain ⟨h0, h1, _⟩ := subBalance_some h
  intro a' t'
  rw [h1]
  have := hb a' t'
  by_cases hc : a = a' ∧ t = t'
  · obtain ⟨rfl, rfl⟩ := hc; simp; omega
  · simp [hc]; exact this

theorem addBalance_nonneg {b : Bal} (a t n : Nat) (hb : NonNeg b) : NonNeg (addBalance b a t n) := by
  intro a' t'
  rw [getBal_add]
  have := hb a' t'
  by_cases hc : a = a' ∧ t = t' <;> simp [hc] <;> omega

/-- What a send does: the sender pays what the send carries, except that a reward costs nothing. -/
structure Paid (b b' : Bal) (a : Nat) (s : Send) : Prop where
  sender : s.from_ = a
  bal : ∀ a' t', getBal a' t' b' = getBal a' t' b - (if a = a' ∧ s.kind ≠ .reward then carried t' s else 0)
  total : ∀ t', total t' b' = total t' b - (if s.kind ≠ .reward then carried t' s else 0)
  nonneg : NonNeg b → NonNeg b'
  mints : s.kind = .reward → s.fee = 0 ∧ (a = governanceAddr ∨ a = assetAddr)

theorem canTransfer_iff (b : Bal) (a t amount fee : Nat) (hb : ∀ t, 0 ≤ getBal a t b) :
    canTransfer b a t amount fee = true ↔ Affordable b a t amount fee := by
  unfold canTransfer Affordable cost
  by_cases hf : fee = 0
  · simp only [hf, if_true, decide_eq_true_eq]
    constructor
    · intro h t'
      have := hb t'
      by_cases ht : t = t'
      · subst ht; simp; exact h
      · simp [ht]; exact this
    · intro h
      have := h t
      simpa using this
  · by_cases ht : t = vite
    · simp only [hf, if_false, ht, if_true, decide_eq_true_eq]
      constructor
      · intro h t'
        have := hb t'
        by_cases h2 : vite = t'
        · subst h2; simp; exact h
        · have : ¬ t' = vite := fun q => h2 q.symm
          simp [h2, this]; exact hb t'
      · intro h
        have := h vite
        simpa using this
    · simp only [hf, if_false, ht, Bool.and_eq_true, decide_eq_true_eq]
      constructor
      · rintro ⟨h1, h2⟩ t'
        have := hb t'
        by_cases h3 : t = t'
        · subst h3; simp [ht]; exact h1
        · by_cases h4 : t' = vite
          · subst h4; simp [h3]; exact h2
          · simp [h3, h4]; exact this
      · intro h
        have h1 := h t
        have h2 := h vite
        simp [ht] at h1 h2
        exact ⟨h1, h2⟩

theorem pay_some {b b' : Bal} {a t amount fee : Nat} (h : pay b a t amount fee = some b') :
    (∀ a' t', getBal a' t' b' = getBal a' t' b - (if a = a' then cost t amount fee t' else 0)) ∧
    (∀ t', total t' b' = total t' b - cost t amount fee t') ∧ canTransfer b a t amount fee = true := by
  unfold pay at h
  by_cases hc : canTransfer b a t amount fee = true
  · simp only [hc, if_true] at h
    obtain ⟨b1, h1, h2⟩ := Option.bind_eq_some_iff.mp h
    obtain ⟨_, p1, q1⟩ := subBalance_some h1
    obtain ⟨_, p2, q2⟩ := subBalance_some h2
    refine ⟨fun a' t' => ?_, fun t' => ?_, hc⟩
    · rw [p2, p1]
      unfold cost
      by_cases ha : a = a' <;> by_cases ht : t = t' <;> by_cases hv : vite = t' <;>
        simp [ha, ht, hv, eq_comm (a := t') (b := vite)] <;> omega
    · rw [q2, q1]
      unfold cost
      by_cases ht : t = t' <;> by_cases hv : vite = t' <;>
        simp [ht, hv, eq_comm (a := t') (b := vite)] <;> omega
  · simp [hc] at h

theorem pay_nonneg {b b' : Bal} {a t amount fee : Nat} (h : pay b a t amount fee = some b') (hb : NonNeg b) :
    NonNeg b' := by
  unfold pay at h
  by_cases hc : canTransfer b a t amount fee = true
  · simp only [hc, if_true] at h
    obtain ⟨b1, h1, h2⟩ := Option.bind_eq_some_iff.mp h
    exact subBalance_nonneg h2 (subBalance_nonneg h1 hb)
  · simp [hc] at h

theorem pay_ok {b : Bal} {a t amount fee : Nat} (hb : ∀ t, 0 ≤ getBal a t b) (h : Affordable b a t amount fee) :
    ∃ b', pay b a t amount fee = some b' := by
  unfold pay
  rw [if_pos ((canTransfer_iff b a t amount fee hb).mpr h)]
  have h1 : (amount : Int) ≤ getBal a t b := by
    have := h t
    unfold cost at this
    simp only [if_true] at this
    by_cases hv : t = vite <;> simp [hv] at this ⊢ <;> omega
  obtain ⟨b1, e1⟩ := subBalance_ok h1
  rw [e1]
  obtain ⟨_, p1, _⟩ := subBalance_some e1
  simp only [Option.bind_some]
  apply subBalance_ok
  rw [p1]
  have := h vite
  unfold cost at this
  by_cases hv : t = vite <;> simp [hv] at this ⊢ <;> omega

theorem carried_eq (t : Nat) (s : Send) : carried t s = cost s.token s.amount s.fee t := rfl

theorem cost_zero (token amount t : Nat) : cost token amount 0 t = if token = t then (amount : Int) else 0 := by
  unfold cost; simp

theorem cost_nonneg (token amount fee t : Nat) : 0 ≤ cost token amount fee t := by
  unfold cost
  split <;> split <;> omega

theorem sendPlain_some {b b' : Bal} {a : Nat} {s : Send} {kind : Kind} {dest token amount : Nat} (hk : kind ≠ .reward)
    (h : (if canTransfer b a token amount 0 then
      (subBalance b a token amount).map (fun b => (b, (⟨a, dest, kind, token, amount, 0⟩ : Send))) else none) =
      some (b', s)) : Paid b b' a s ∧ s = ⟨a, dest, kind, token, amount, 0⟩ := by
  by_cases hc : canTransfer b a token amount 0 = true
  · simp only [hc, if_true] at h
    obtain ⟨b1, h1, h2⟩ := Option.map_eq_some_iff.mp h
    obtain ⟨rfl, rfl⟩ := Prod.ext_iff.mp h2
    obtain ⟨p0, p1, q1⟩ := subBalance_some h1
    refine ⟨⟨rfl, fun a' t' => ?_, fun t' => ?_, subBalance_nonneg h1, fun h => absurd h hk⟩, rfl⟩
    · rw [p1, carried_eq, cost_zero]
      by_cases ha : a = a' <;> by_cases ht : token = t' <;> simp [ha, ht, hk]
    · rw [q1, carried_eq, cost_zero]
      by_cases ht : token = t' <;> simp [ht, hk]
  · simp [hc] at h

theorem paid_of_pay {b b' : Bal} {a dest token amount fee : Nat} {kind : Kind} (hk : kind ≠ .reward)
    (h : pay b a token amount fee = some b') : Paid b b' a ⟨a, dest, kind, token, amount, fee⟩ := by
  obtain ⟨p, q, _⟩ := pay_some h
  refine ⟨rfl, fun a' t' => ?_, fun t' => ?_, pay_nonneg h, fun h => absurd h hk⟩
  · rw [p, carried_eq]
    by_cases ha : a = a' <;> simp [ha, hk]
  · rw [q, carried_eq]
    simp [hk]

theorem sendCreate_paid {b b' : Bal} {a : Nat} {r : Request} {s : Send} (h : sendCreate b a r = some (b', s)) :
    Paid b b' a s := by
  unfold sendCreate at h
  obtain ⟨b1, h1, h2⟩ := Option.map_eq_some_iff.mp h
  obtain ⟨rfl, rfl⟩ := Prod.ext_iff.mp h2
  exact paid_of_pay (by decide) h1

theorem sendCall_paid {e : Env} {b b' : Bal} {a : Nat} {r : Request} {s : Send}
    (h : sendCall e b a r = some (b', s)) : Paid b b' a s := by
  unfold sendCall at h
  by_cases hb : e.builtin r.dest = true
  · simp only [hb, if_true] at h
    obtain ⟨fee, _, h1⟩ := Option.bind_eq_some_iff.mp h
    obtain ⟨b1, h3, h2⟩ := Option.map_eq_some_iff.mp h1
    obtain ⟨rfl, rfl⟩ := Prod.ext_iff.mp h2
    exact paid_of_pay (by decide) h3
  · simp only [hb, if_false] at h
    exact (sendPlain_some (by decide) h).1

theorem sendOne_paid {e : Env} {b b' : Bal} {a : Nat} {r : Request} {s : Send}
    (h : sendOne e b a r = some (b', s)) : Paid b b' a s := by
  unfold sendOne at h
  cases hk : r.kind with
  | call => simp only [hk] at h; exact sendCall_paid h
  | refund => simp only [hk] at h; exact (sendPlain_some (by decide) h).1
  | create => simp [hk] at h
  | reward =>
    simp only [hk, sendReward] at h
    by_cases hc : a ≠ governanceAddr ∧ a ≠ assetAddr
    · simp [hc] at h
    · simp only [hc, if_false, Option.some.injEq, Prod.ext_iff] at h
      obtain ⟨rfl, rfl⟩ := h
      refine ⟨rfl, by simp, by simp, id, fun _ => ⟨rfl, ?_⟩⟩
      by_cases h1 : a = governanceAddr
      · exact .inl h1
      · by_cases h2 : a = assetAddr
        · exact .inr h2
        · exact absurd ⟨h1, h2⟩ hc

/-- What a list of sends carries, rewards left out. -/
def paidFor (t : Nat) (ss : List Send) : Int := (ss.map (fun s => if s.kind ≠ .reward then carried t s else 0)).sum

theorem sendList_paid {e : Env} {a : Nat} : ∀ {rs : List Request} {b b' : Bal} {ss : List Send},
    sendList e a b rs = some (b', ss) →
    (∀ a' t', getBal a' t' b' = getBal a' t' b - (if a = a' then paidFor t' ss else 0)) ∧
    (∀ t', total t' b' = total t' b - paidFor t' ss) ∧ (∀ s ∈ ss, s.from_ = a) ∧ (NonNeg b → NonNeg b') ∧
    ∀ s ∈ ss, s.kind = .reward → s.fee = 0 ∧ (a = governanceAddr ∨ a = assetAddr)
  | [], b, b', ss, h => by
    simp only [sendList, Option.some.injEq, Prod.ext_iff] at h
    obtain ⟨rfl, rfl⟩ := h
    simp [paidFor]
  | r :: rs, b, b', ss, h => by
    simp only [sendList] at h
    cases h1 : sendOne e b a r with
    | none => simp [h1] at h
    | some q =>
      obtain ⟨b1, s⟩ := q
      simp only [h1] at h
      obtain ⟨⟨b2, ss'⟩, h2, h3⟩ := Option.map_eq_some_iff.mp h
      obtain ⟨rfl, rfl⟩ := Prod.ext_iff.mp h3
      have P := sendOne_paid h1
      obtain ⟨i1, i2, i3, i5, i4⟩ := sendList_paid h2
      refine ⟨fun a' t' => ?_, fun t' => ?_, ?_, fun hb => i5 (P.nonneg hb), ?_⟩
      · have := i1 a' t'
        rw [P.bal] at this
        simp only [paidFor, List.map_cons, List.sum_cons] at this ⊢
        by_cases ha : a = a' <;> by_cases hk : s.kind = .reward <;> simp [ha, hk] at this ⊢ <;> omega
      · have := i2 t'
        rw [P.total] at this
        simp only [paidFor, List.map_cons, List.sum_cons] at this ⊢
        by_cases hk : s.kind = .reward <;> simp [hk] at this ⊢ <;> omega
      · intro x hx
        rcases List.mem_cons.mp hx with rfl | hx
        · exact P.sender
        · exact i3 x hx
      · intro x hx
        rcases List.mem_cons.mp hx with rfl | hx
        · exact P.mints
        · exact i4 x hx

/-! ### The counters -/

theorem inFlight_append (t : Nat) (xs ys : List Send) : inFlight t (xs ++ ys) = inFlight t xs + inFlight t ys := by
  simp [inFlight]

theorem inFlight_erase (t : Nat) : ∀ (l : List Send) (i : Nat) (s : Send), l[i]? = some s →
    inFlight t l = inFlight t (l.eraseIdx i) + carried t s
  | x :: xs, 0, s, h => by
    simp only [List.getElem?_cons_zero, Option.some.injEq] at h
    subst h
    simp [inFlight]; omega
  | x :: xs, i + 1, s, h => by
    simp only [List.getElem?_cons_succ] at h
    have := inFlight_erase t xs i s h
    simp only [inFlight, List.eraseIdx_cons_succ, List.map_cons, List.sum_cons] at this ⊢
    omega
  | [], i, s, h => by simp at h

theorem mint_spec (t : Nat) : ∀ (ss : List Send) (f : Nat → Nat), (∀ s ∈ ss, s.kind = .reward → s.fee = 0) →
    (mint f ss t : Int) = f t + inFlight t ss - paidFor t ss
  | [], f, _ => by simp [mint, inFlight, paidFor]
  | s :: ss, f, h => by
    have ih := mint_spec t ss (if s.kind = .reward then bump f s.token s.amount else f)
      (fun x hx => h x (List.mem_cons_of_mem _ hx))
    have e : mint f (s :: ss) t = mint (if s.kind = .reward then bump f s.token s.amount else f) ss t := rfl
    rw [e, ih]
    simp only [inFlight, paidFor, List.map_cons, List.sum_cons]
    by_cases hk : s.kind = .reward
    · have hf := h s List.mem_cons_self hk
      simp only [hk, if_true, bump, carried, hf]
      by_cases ht : t = s.token <;> simp [ht, eq_comm (a := s.token) (b := t)] <;> omega
    · simp [hk]; omega

theorem bump_cast (f : Nat → Nat) (t n t' : Nat) : (bump f t n t' : Int) = f t' + (if t = t' then (n : Int) else 0) := by
  unfold bump
  by_cases h : t' = t
  · subst h; simp
  · have : ¬ t = t' := fun q => h q.symm
    simp [h, this]

/-! ### Steps -/

variable {D : Type}

/-- The balance sheet of one step. -/
structure Balanced (L L' : Ledger D) : Prop where
  sheet : ∀ t, wealth t L' + L'.burned t + L.minted t = wealth t L + L.burned t + L'.minted t
  nonneg : NonNeg L.bal → NonNeg L'.bal

theorem Balanced.refl (L : Ledger D) : Balanced L L := ⟨fun _ => rfl, id⟩

/-- The effect of replacing a taken-up send by new sends of its receiver. -/
theorem balanced_recv {L : Ledger D} {i : Nat} {s : Send} (hi : L.flight[i]? = some s) {b' : Bal} {ss : List Send}
    {d : Nat → D} {burned : Nat → Nat}
    (hsum : ∀ t, total t b' + paidFor t ss + burned t = total t L.bal + carried t s + L.burned t)
    (hr : ∀ s ∈ ss, s.kind = .reward → s.fee = 0) (hn : NonNeg L.bal → NonNeg b') :
    Balanced L ⟨b', d, L.flight.eraseIdx i ++ ss, mint L.minted ss, burned⟩ := by
  refine ⟨fun t => ?_, hn⟩
  simp only [wealth, inFlight_append]
  rw [inFlight_erase t _ _ _ hi, mint_spec t ss _ hr]
  have := hsum t
  omega

theorem balanced_credit {L : Ledger D} {i : Nat} {s : Send} (hi : L.flight[i]? = some s) :
    Balanced L (credit L (L.flight.eraseIdx i) s) := by
  have := balanced_recv (L := L) (d := L.data) hi (b' := addBalance L.bal s.dest s.token s.amount) (ss := [])
    (burned := bump L.burned vite s.fee)
    (fun t => by
      rw [total_add, bump_cast]
      simp only [paidFor, carried, List.map_nil, List.sum_nil, eq_comm (a := t) (b := vite)]
      omega)
    (by simp) (addBalance_nonneg _ _ _)
  simpa [credit, mint] using this

theorem refundCredit_spec (b : Bal) (a : Nat) (s : Send) :
    (∀ a' t', getBal a' t' (refundCredit b a s) = getBal a' t' b + (if a = a' then carried t' s else 0)) ∧
    (∀ t', total t' (refundCredit b a s) = total t' b + carried t' s) ∧ (NonNeg b → NonNeg (refundCredit b a s)) := by
  have g : ∀ t', carried t' s = (if s.token = t' then (s.amount : Int) else 0) + (if vite = t' then (s.fee : Int) else 0) := by
    intro t'; simp [carried, eq_comm (a := t') (b := vite)]
  unfold refundCredit
  by_cases hc : s.amount > 0 ∧ s.fee > 0 ∧ s.token = vite
  · simp only [hc, if_true, and_self]
    refine ⟨fun a' t' => ?_, fun t' => ?_, addBalance_nonneg _ _ _⟩
    · rw [getBal_add, g, hc.2.2]
      by_cases h1 : a = a' <;> by_cases h2 : vite = t' <;> simp [h1, h2]
    · rw [total_add, g, hc.2.2]
      by_cases h2 : vite = t' <;> simp [h2]
  · simp only [hc, if_false]
    by_cases ha : s.amount > 0 <;> by_cases hf : s.fee > 0
    · simp only [ha, hf, if_true]
      refine ⟨fun a' t' => ?_, fun t' => ?_, fun h => addBalance_nonneg _ _ _ (addBalance_nonneg _ _ _ h)⟩
      · rw [getBal_add, getBal_add, g]
        by_cases h1 : a = a' <;> simp [h1] <;> omega
      · rw [total_add, total_add, g]; omega
    · simp only [ha, hf, if_true, if_false]
      have h0 : s.fee = 0 := by omega
      refine ⟨fun a' t' => ?_, fun t' => ?_, addBalance_nonneg _ _ _⟩
      · rw [getBal_add, g, h0]
        by_cases h1 : a = a' <;> simp [h1]
      · rw [total_add, g, h0]; simp
    · simp only [ha, hf, if_true, if_false]
      have h0 : s.amount = 0 := by omega
      refine ⟨fun a' t' => ?_, fun t' => ?_, addBalance_nonneg _ _ _⟩
      · rw [getBal_add, g, h0]
        by_cases h1 : a = a' <;> simp [h1]
      · rw [total_add, g, h0]; simp
    · simp only [ha, hf, if_false]
      have h0 : s.amount = 0 := by omega
      have h1 : s.fee = 0 := by omega
      refine ⟨fun a' t' => ?_, fun t' => ?_, id⟩ <;> simp [g, h0, h1]

theorem balanced_giveBack {e : Env} {L : Ledger D} {i : Nat} {s : Send} (hi : L.flight[i]? = some s) (kind : Kind)
    (fee : Option Nat) (callback : Bool) : Balanced L (giveBack e L (L.flight.eraseIdx i) s kind fee callback) := by
  unfold giveBack
  cases h : refundAll e L.bal s.dest s kind fee callback with
  | none => exact .refl L
  | some q =>
    obtain ⟨b, ss⟩ := q
    obtain ⟨_, c2, c3⟩ := refundCredit_spec L.bal s.dest s
    obtain ⟨p1, p2, p3, p4, p5⟩ := sendList_paid h
    exact balanced_recv (d := L.data) hi (fun t => by rw [p2, c2]; omega) (fun x hx hk => (p5 x hx hk).1)
      (fun hb => p4 (c3 hb))

theorem runBody_spec {e : Env} {b b' : Bal} {a : Nat} {s : Send} {burn : Bool} {sends : List Request} {ss : List Send}
    (h : runBody e b a s burn sends = some (b', ss)) :
    (∀ t, total t b' + paidFor t ss + (if s.token = t then (burnOf a s burn : Int) else 0) =
      total t b + (if s.token = t then (s.amount : Int) else 0)) ∧
    (∀ x ∈ ss, x.from_ = a) ∧ (NonNeg b → NonNeg b') ∧
    (∀ x ∈ ss, x.kind = .reward → x.fee = 0 ∧ (a = governanceAddr ∨ a = assetAddr)) := by
  unfold runBody at h
  obtain ⟨b1, h1, h2⟩ := Option.bind_eq_some_iff.mp h
  obtain ⟨p1, p2, p3, p4, p5⟩ := sendList_paid h2
  unfold burnOf
  by_cases hc : burn = true ∧ a = assetAddr
  · simp only [hc, if_true, and_self] at h1 ⊢
    obtain ⟨_, q1, q2⟩ := subBalance_some h1
    rw [hc.2] at p3 p5
    refine ⟨fun t => ?_, p3, fun hb => p4 (subBalance_nonneg h1 (addBalance_nonneg _ _ _ hb)), by simpa using p5⟩
    rw [p2, q2, total_add]; omega
  · simp only [hc, if_false, Option.some.injEq] at h1 ⊢
    subst h1
    refine ⟨fun t => ?_, p3, fun hb => p4 (addBalance_nonneg _ _ _ hb), p5⟩
    rw [p2, total_add]; simp

theorem balanced_contract {e : Env} {L : Ledger D} {i : Nat} {s : Send} (hi : L.flight[i]? = some s) (o : Outcome D) :
    Balanced L (receiveContract e L (L.flight.eraseIdx i) s o) := by
  cases o with
  | later => exact .refl L
  | tooDeep => exact balanced_credit hi
  | failed fee callback => exact balanced_giveBack hi _ _ _
  | done data burn sends fee callback =>
    simp only [receiveContract]
    cases h : runBody e L.bal s.dest s burn sends with
    | none => exact balanced_giveBack hi _ _ _
    | some q =>
      obtain ⟨b, ss⟩ := q
      obtain ⟨r1, r2, r3, r4⟩ := runBody_spec h
      refine balanced_recv hi (fun t => ?_) (fun x hx hk => (r4 x hx hk).1) r3
      have := r1 t
      rw [bump_cast, bump_cast]
      simp only [carried, eq_comm (a := t) (b := vite)]
      omega

theorem balanced_giveBackAmount {e : Env} {L : Ledger D} {i : Nat} {s : Send} (hi : L.flight[i]? = some s) :
    Balanced L (giveBackAmount e L (L.flight.eraseIdx i) s) := by
  unfold giveBackAmount
  by_cases ha : s.amount > 0
  · simp only [ha, if_true]
    cases h : sendList e s.dest (addBalance L.bal s.dest s.token s.amount) [⟨.refund, s.from_, s.token, s.amount, none⟩] with
    | none => exact .refl L
    | some q =>
      obtain ⟨b, ss⟩ := q
      obtain ⟨p1, p2, p3, p4, p5⟩ := sendList_paid h
      have hk : ∀ x ∈ ss, x.kind ≠ .reward := by
        simp only [sendList, sendOne] at h
        cases h1 : sendRefund (addBalance L.bal s.dest s.token s.amount) s.dest ⟨.refund, s.from_, s.token, s.amount, none⟩ with
        | none => simp [h1] at h
        | some q =>
          obtain ⟨b1, s1⟩ := q
          obtain ⟨_, e1⟩ := sendPlain_some (kind := .refund) (by decide) h1
          simp only [h1, Option.map_some, Option.some.injEq, Prod.ext_iff] at h
          rw [← h.2, e1]
          simp
      have hm : mint L.minted ss = L.minted := by
        clear h p1 p2 p3 p4 p5
        induction ss with
        | nil => rfl
        | cons x xs ih =>
          have hx := hk x List.mem_cons_self
          have : mint L.minted (x :: xs) = mint L.minted xs := by simp [mint, hx]
          rw [this, ih (fun y hy => hk y (List.mem_cons_of_mem _ hy))]
      have := balanced_recv (L := L) (d := L.data) hi (b' := b) (ss := ss) (burned := bump L.burned vite s.fee)
        (fun t => by
          rw [p2, total_add, bump_cast]
          simp only [carried, eq_comm (a := t) (b := vite)]
          omega) (fun x hx hk' => absurd hk' (hk x hx)) (fun hb => p4 (addBalance_nonneg _ _ _ hb))
      rw [hm] at this
      exact this
  · simp only [ha, if_false, sendList]
    have h0 : s.amount = 0 := by omega
    have := balanced_recv (L := L) (d := L.data) hi (b' := L.bal) (ss := []) (burned := bump L.burned vite s.fee)
        (fun t => by
          rw [bump_cast]
          simp only [carried, paidFor, List.map_nil, List.sum_nil, h0, eq_comm (a := t) (b := vite)]
          simp; omega) (by simp) id
    simpa [mint] using this

theorem balanced_receive {e : Env} {L : Ledger D} {i : Nat} {s : Send} (hi : L.flight[i]? = some s) (o : Outcome D) :
    Balanced L (receive e L (L.flight.eraseIdx i) s o) := by
  have hcall : Balanced L (receiveCall e L (L.flight.eraseIdx i) s o) := by
    unfold receiveCall
    by_cases hc : e.builtin s.dest = true ∨ e.contract s.dest = true
    · simp only [hc, if_true]; exact balanced_contract hi o
    · simp only [hc, if_false]
      cases o <;> first | exact .refl L | exact balanced_credit hi
  have hplain : Balanced L (receivePlain L (L.flight.eraseIdx i) s o) := by
    unfold receivePlain
    cases o <;> first | exact .refl L | exact balanced_credit hi
  unfold receive
  cases s.kind with
  | call => exact hcall
  | refund => exact hplain
  | reward =>
    by_cases hs : e.seed = true
    · simp only [hs, if_true]; exact hplain
    · simp only [hs]; exact hcall
  | create =>
    simp only [receiveCreate]
    cases o with
    | later => exact .refl L
    | tooDeep => exact balanced_giveBackAmount hi
    | failed => exact balanced_giveBackAmount hi
    | done data burn sends fee callback =>
      simp only
      cases h : sendList e s.dest (addBalance L.bal s.dest s.token s.amount) sends with
      | none => exact balanced_giveBackAmount hi
      | some q =>
        obtain ⟨b, ss⟩ := q
        obtain ⟨p1, p2, p3, p4, p5⟩ := sendList_paid h
        refine balanced_recv hi (fun t => ?_) (fun x hx hk => (p5 x hx hk).1) (fun hb => p4 (addBalance_nonneg _ _ _ hb))
        rw [p2, total_add, bump_cast]
        simp only [carried, eq_comm (a := t) (b := vite)]
        omega

theorem userSend_paid {e : Env} {b b' : Bal} {a : Nat} {r : Request} {s : Send}
    (h : userSend e b a r = some (b', s)) : Paid b b' a s ∧ s.kind ≠ .reward := by
  unfold userSend at h
  cases hk : r.kind with
  | create =>
    simp only [hk] at h
    refine ⟨sendCreate_paid h, ?_⟩
    unfold sendCreate at h
    obtain ⟨b1, h1, h2⟩ := Option.map_eq_some_iff.mp h
    obtain ⟨rfl, rfl⟩ := Prod.ext_iff.mp h2
    simp
  | call =>
    simp only [hk] at h
    refine ⟨sendCall_paid h, ?_⟩
    unfold sendCall at h
    by_cases hb : e.builtin r.dest = true
    · simp only [hb, if_true] at h
      obtain ⟨fee, _, h1⟩ := Option.bind_eq_some_iff.mp h
      obtain ⟨b1, h3, h2⟩ := Option.map_eq_some_iff.mp h1
      obtain ⟨rfl, rfl⟩ := Prod.ext_iff.mp h2
      simp
    · simp only [hb] at h
      rw [(sendPlain_some (kind := .call) (by decide) h).2]
      simp
  | reward => simp [hk] at h
  | refund => simp [hk] at h

theorem balanced_step (e : Env) (L : Ledger D) (x : Step D) : Balanced L (step e L x) := by
  cases x with
  | send a r =>
    simp only [step]
    cases h : userSend e L.bal a r with
    | none => exact .refl L
    | some q =>
      obtain ⟨b, s⟩ := q
      obtain ⟨P, hk⟩ := userSend_paid h
      refine ⟨fun t => ?_, P.nonneg⟩
      simp only [wealth, inFlight_append]
      rw [P.total]
      simp only [ne_eq, hk, not_false_eq_true, if_true, inFlight, List.map_cons, List.map_nil, List.sum_cons, List.sum_nil]
      omega
  | recv i o =>
    simp only [step]
    cases h : L.flight[i]? with
    | none => exact .refl L
    | some s => exact balanced_receive h o

/-! ### C01, C02 -/

/-- **C01.** In every history of user sends, receives, contract runs, failures and refunds, starting from any ledger: the
sum of all balances and open sends plus what was burned, minus what was minted, stays the same, for every token. -/
theorem value_conserved (e : Env) (L : Ledger D) (steps : List (Step D)) (t : Nat) :
    wealth t (run e L steps) + (run e L steps).burned t - (run e L steps).minted t =
      wealth t L + L.burned t - L.minted t := by
  induction steps generalizing L with
  | nil => rfl
  | cons x xs ih =>
    have h1 := ih (step e L x)
    have h2 := (balanced_step e L x).sheet t
    have h3 : run e L (x :: xs) = run e (step e L x) xs := rfl
    rw [h3]
    omega

/-- **C02.** Balances never become negative. -/
theorem balances_nonneg (e : Env) (L : Ledger D) (h : ∀ a t, 0 ≤ getBal a t L.bal) (steps : List (Step D)) (a t : Nat) :
    0 ≤ getBal a t (run e L steps).bal := by
  have : ∀ (xs : List (Step D)) (L : Ledger D), NonNeg L.bal → NonNeg (run e L xs).bal := by
    intro xs
    induction xs with
    | nil => exact fun _ h => h
    | cons x xs ih => exact fun L h => ih _ ((balanced_step e L x).nonneg h)
  exact this steps L h a t

theorem step_send_of {e : Env} {L : Ledger D} {a : Nat} {r : Request} {fee : Nat} (hf : feeFor e r = some fee)
    (hb : NonNeg L.bal) :
    (¬ Affordable L.bal a r.token r.amount fee → userSend e L.bal a r = none) ∧
    (Affordable L.bal a r.token r.amount fee → ∃ b, userSend e L.bal a r =
      some (b, ⟨a, r.dest, r.kind, r.token, r.amount, fee⟩)) := by
  have key : ∀ f, (¬ Affordable L.bal a r.token r.amount f → pay L.bal a r.token r.amount f = none) := by
    intro f hn
    unfold pay
    rw [if_neg (fun h => hn ((canTransfer_iff _ _ _ _ _ (hb a)).mp h))]
  unfold userSend
  cases hk : r.kind with
  | create =>
    simp only [feeFor, hk, Option.some.injEq] at hf
    subst hf
    simp only [sendCreate]
    refine ⟨fun hn => by rw [key _ hn]; rfl, fun h => ?_⟩
    obtain ⟨b, e1⟩ := pay_ok (hb a) h
    exact ⟨b, by rw [e1]; rfl⟩
  | call =>
    simp only [feeFor, hk] at hf
    simp only [sendCall]
    by_cases hd : e.builtin r.dest = true
    · simp only [hd, if_true] at hf ⊢
      rw [hf]
      simp only [Option.bind_some]
      refine ⟨fun hn => by rw [key _ hn]; rfl, fun h => ?_⟩
      obtain ⟨b, e1⟩ := pay_ok (hb a) h
      exact ⟨b, by rw [e1]; rfl⟩
    · simp only [hd, Bool.false_eq_true, if_false, Option.some.injEq] at hf ⊢
      subst hf
      refine ⟨fun hn => if_neg (fun h => hn ((canTransfer_iff _ _ _ _ _ (hb a)).mp h)), fun h => ?_⟩
      rw [if_pos ((canTransfer_iff _ _ _ _ _ (hb a)).mpr h)]
      have := h r.token
      rw [cost_zero] at this
      obtain ⟨b, e1⟩ := subBalance_ok (b := L.bal) (a := a) (t := r.token) (n := r.amount) (by simpa using this)
      exact ⟨b, by rw [e1]; rfl⟩
  | reward => simp [feeFor, hk] at hf
  | refund => simp [feeFor, hk] at hf

/-- **C02.** A send whose amount and fee the sender cannot pay changes nothing. -/
theorem unaffordable_send_rejected (e : Env) (L : Ledger D) (hb : ∀ a t, 0 ≤ getBal a t L.bal) (a : Nat) (r : Request)
    (fee : Nat) (hf : feeFor e r = some fee) (h : ¬ Affordable L.bal a r.token r.amount fee) :
    step e L (.send a r) = L := by
  simp only [step, (step_send_of hf hb).1 h]

/-- **C02.** A send the sender can pay takes exactly amount and fee off the sender, leaves every other account alone, and
is on its way to its destination with that amount. -/
theorem affordable_send_accepted (e : Env) (L : Ledger D) (hb : ∀ a t, 0 ≤ getBal a t L.bal) (a : Nat) (r : Request)
    (fee : Nat) (hf : feeFor e r = some fee) (h : Affordable L.bal a r.token r.amount fee) :
    let L' := step e L (.send a r)
    (∀ a' t, getBal a' t L'.bal = getBal a' t L.bal - if a' = a then cost r.token r.amount fee t else 0) ∧
    L'.flight = L.flight ++ [⟨a, r.dest, r.kind, r.token, r.amount, fee⟩] ∧ L'.data = L.data := by
  obtain ⟨b, e1⟩ := (step_send_of hf hb).2 h
  obtain ⟨P, hk⟩ := userSend_paid e1
  simp only [step, e1, and_true]
  intro a' t
  rw [P.bal]
  simp only [ne_eq, hk, not_false_eq_true, and_true, carried_eq, eq_comm (a := a') (b := a)]

/-! ### C03 -/

theorem sendBack_ok {e : Env} {b : Bal} {a dest token amount : Nat} {kind : Kind} {fee : Option Nat} (hb : NonNeg b)
    (hk : kind = .refund ∨ kind = .call ∧ (e.builtin dest = true → fee = some 0)) (h : (amount : Int) ≤ getBal a token b) :
    ∃ b', sendOne e b a ⟨kind, dest, token, amount, fee⟩ = some (b', ⟨a, dest, kind, token, amount, 0⟩) := by
  have hc : canTransfer b a token amount 0 = true := by simp [canTransfer, h]
  obtain ⟨b1, e1⟩ := subBalance_ok h
  rcases hk with rfl | ⟨rfl, hf⟩
  · exact ⟨b1, by simp only [sendOne, sendRefund, hc, if_true, e1]; rfl⟩
  · simp only [sendOne, sendCall]
    by_cases hd : e.builtin dest = true
    · rw [hf hd]
      obtain ⟨b2, e2⟩ := pay_ok (b := b) (a := a) (t := token) (amount := amount) (fee := 0) (hb a) (by
        intro t
        rw [cost_zero]
        by_cases ht : token = t
        · subst ht; simp; exact h
        · simp [ht]; exact hb a t)
      exact ⟨b2, by simp only [hd, if_true, Option.bind_some, e2]; rfl⟩
    · exact ⟨b1, by simp only [hd, hc, if_true, e1]; rfl⟩

theorem sendList_one {e : Env} {b b' : Bal} {a : Nat} {r : Request} {s : Send} (h : sendOne e b a r = some (b', s)) :
    sendList e a b [r] = some (b', [s]) := by
  simp [sendList, h]

theorem refundAll_ok {e : Env} {b : Bal} {a : Nat} {s : Send} {kind : Kind} {fee : Option Nat} {callback : Bool}
    (hb : NonNeg b) (hk : kind = .refund ∧ callback = false ∨ kind = .call ∧ (e.builtin s.from_ = true → fee = some 0)) :
    ∃ b' ss, refundAll e b a s kind fee callback = some (b', ss) ∧
      (∀ r ∈ ss, r.from_ = a ∧ r.dest = s.from_ ∧ r.kind ≠ .reward ∧ r.kind ≠ .create) ∧
      ∀ t, inFlight t ss = carried t s := by
  have hk' : kind = .refund ∨ kind = .call ∧ (e.builtin s.from_ = true → fee = some 0) := hk.imp And.left id
  obtain ⟨c1, _, c3⟩ := refundCredit_spec b a s
  have hc := c3 hb
  have hkr : kind ≠ .reward ∧ kind ≠ .create := by rcases hk' with rfl | ⟨rfl, _⟩ <;> decide
  have have_ : ∀ t, carried t s ≤ getBal a t (refundCredit b a s) := by
    intro t; rw [c1]; have := hb a t; simp; omega
  have htok : (s.amount : Int) ≤ getBal a s.token (refundCredit b a s) := by
    have := have_ s.token
    unfold carried at this
    simp only [if_true] at this
    by_cases h : s.token = vite <;> simp [h] at this ⊢ <;> omega
  have hfee : (s.fee : Int) ≤ getBal a vite (refundCredit b a s) := by
    have := have_ vite
    unfold carried at this
    by_cases h : s.token = vite <;> simp [h] at this ⊢ <;> omega
  unfold refundAll refundRequests
  by_cases h1 : s.amount > 0 ∧ s.fee > 0 ∧ s.token = vite
  · simp only [h1, if_true, and_self]
    obtain ⟨b', e1⟩ := sendBack_ok (e := e) (a := a) (dest := s.from_) (token := vite) (amount := s.amount + s.fee)
      (kind := kind) (fee := fee) hc hk' (by
        have := have_ vite
        simp [carried, h1.2.2] at this
        push_cast; exact this)
    refine ⟨b', _, sendList_one e1, by simp [hkr], fun t => ?_⟩
    simp only [inFlight, carried, List.map_cons, List.map_nil, List.sum_cons, List.sum_nil, h1.2.2]
    by_cases ht : vite = t <;> simp [ht, eq_comm (a := t) (b := vite)]
  · simp only [h1, if_false]
    by_cases ha : s.amount > 0 <;> by_cases hf : s.fee > 0
    · have hv : s.token ≠ vite := fun q => h1 ⟨ha, hf, q⟩
      obtain ⟨b1, e1⟩ := sendBack_ok (e := e) (a := a) (dest := s.from_) (kind := kind) (fee := fee) hc hk' htok
      have P := sendOne_paid e1
      obtain ⟨b2, e2⟩ := sendBack_ok (e := e) (b := b1) (a := a) (dest := s.from_) (token := vite) (amount := s.fee)
        (kind := kind) (fee := fee) (P.nonneg hc) hk' (by
          rw [P.bal]
          simp [hkr, carried, hv]
          exact hfee)
      refine ⟨b2, [⟨a, s.from_, kind, s.token, s.amount, 0⟩, ⟨a, s.from_, kind, vite, s.fee, 0⟩], ?_, by simp [hkr], fun t => ?_⟩
      · simp [ha, hf, sendList, e1, e2]
      · simp only [inFlight, carried, List.map_cons, List.map_nil, List.sum_cons, List.sum_nil]
        simp [eq_comm (a := t) (b := vite)]
    · obtain ⟨b1, e1⟩ := sendBack_ok (e := e) (a := a) (dest := s.from_) (kind := kind) (fee := fee) hc hk' htok
      refine ⟨b1, _, by simp [ha, hf]; exact sendList_one e1, by simp [hkr], fun t => ?_⟩
      have h0 : s.fee = 0 := by omega
      simp [inFlight, carried, h0]
    · obtain ⟨b1, e1⟩ := sendBack_ok (e := e) (a := a) (dest := s.from_) (kind := kind) (fee := fee) hc hk' hfee
      refine ⟨b1, _, by simp [ha, hf]; exact sendList_one e1, by simp [hkr], fun t => ?_⟩
      have h0 : s.amount = 0 := by omega
      simp [inFlight, carried, h0, eq_comm (a := t) (b := vite)]
    · have h0 : s.fee = 0 := by omega
      have h2 : s.amount = 0 := by omega
      simp only [ha, hf, if_false, List.append_nil, true_and]
      by_cases hcb : callback = true
      · have hk2 : e.builtin s.from_ = true → fee = some 0 := by
          rcases hk with ⟨_, q⟩ | ⟨_, q⟩
          · simp [hcb] at q
          · exact q
        obtain ⟨b1, e1⟩ := sendBack_ok (e := e) (a := a) (dest := s.from_) (token := vite) (amount := 0)
          (kind := .call) (fee := fee) hc (.inr ⟨rfl, hk2⟩) (by have := hc a vite; simpa using this)
        refine ⟨b1, _, by simp [hcb]; exact sendList_one e1, by simp, fun t => ?_⟩
        simp [inFlight, carried, h0, h2]
      · refine ⟨_, [], by simp [hcb, sendList]; rfl, by simp, fun t => ?_⟩
        simp [inFlight, carried, h0, h2]

/-- **C03.** When the run of a called contract fails, in its code or because it cannot pay the sends it asked for, all
balances and all contract data are as before the call, nothing is minted or burned, and the only effect is that the call
is replaced by sends from the contract to the caller which carry exactly the amount and the fee of the call.
`hcb`: a built-in contract that is called by another built-in contract relies on that one to accept the refund. -/
theorem failed_call_refunded (e : Env) (L : Ledger D) (hb : ∀ a t, 0 ≤ getBal a t L.bal) (i : Nat) (s : Send)
    (hi : L.flight[i]? = some s) (hk : s.kind = .call) (hc : e.builtin s.dest = true ∨ e.contract s.dest = true)
    (o : Outcome D) (fee : Option Nat) (callback : Bool)
    (hfail : o = .failed fee callback ∨
      ∃ data burn sends, o = .done data burn sends fee callback ∧ runBody e L.bal s.dest s burn sends = none)
    (hcb : e.builtin s.dest = true → e.builtin s.from_ = true → fee = some 0) :
    let L' := step e L (.recv i o)
    (∀ a t, getBal a t L'.bal = getBal a t L.bal) ∧ L'.data = L.data ∧ L'.minted = L.minted ∧ L'.burned = L.burned ∧
    ∃ back, L'.flight = L.flight.eraseIdx i ++ back ∧ (∀ r ∈ back, r.from_ = s.dest ∧ r.dest = s.from_) ∧
      ∀ t, inFlight t back = carried t s := by
  obtain ⟨b', ss, h1, h2, h3⟩ := refundAll_ok (e := e) (b := L.bal) (a := s.dest) (s := s)
    (kind := if e.builtin s.dest then Kind.call else Kind.refund) (fee := fee) (callback := callback && e.builtin s.dest) hb
    (by
      by_cases hd : e.builtin s.dest = true
      · exact .inr ⟨by simp [hd], hcb hd⟩
      · exact .inl ⟨by simp [hd], by simp [hd]⟩)
  have hm : mint L.minted ss = L.minted := by
    have : ∀ (l : List Send) (f : Nat → Nat), (∀ r ∈ l, r.kind ≠ .reward) → mint f l = f := by
      intro l
      induction l with
      | nil => exact fun _ _ => rfl
      | cons x xs ih =>
        intro f hf
        have hx := hf x List.mem_cons_self
        have : mint f (x :: xs) = mint f xs := by simp [mint, hx]
        rw [this, ih f (fun y hy => hf y (List.mem_cons_of_mem _ hy))]
    exact this ss _ (fun r hr => (h2 r hr).2.2.1)
  have hstep : step e L (.recv i o) = { L with bal := b', flight := L.flight.eraseIdx i ++ ss, minted := mint L.minted ss } := by
    simp only [step, hi, receive, hk, receiveCall, hc, if_true]
    rcases hfail with rfl | ⟨data, burn, sends, rfl, hn⟩
    · simp only [receiveContract, giveBack, h1]
    · simp only [receiveContract, hn, giveBack, h1]
  obtain ⟨p1, _⟩ := sendList_paid h1
  have hpf : ∀ t, paidFor t ss = inFlight t ss := by
    intro t
    unfold paidFor inFlight
    congr 1
    apply List.map_congr_left
    intro r hr
    simp [(h2 r hr).2.2.1]
  simp only [hstep, hm, true_and]
  refine ⟨fun a t => ?_, ss, rfl, fun r hr => ⟨(h2 r hr).1, (h2 r hr).2.1⟩, h3⟩
  rw [p1, (refundCredit_spec L.bal s.dest s).1, hpf, h3]
  by_cases ha : s.dest = a <;> simp [ha]

/-- **C03.** Taking up a refund credits its receiver with what it carries and changes nothing else. -/
theorem refund_delivered (e : Env) (L : Ledger D) (i : Nat) (s : Send) (hi : L.flight[i]? = some s) (hk : s.kind = .refund)
    (o : Outcome D) (ho : o ≠ .later) :
    let L' := step e L (.recv i o)
    (∀ a t, getBal a t L'.bal = getBal a t L.bal + if a = s.dest ∧ s.token = t then (s.amount : Int) else 0) ∧
    L'.flight = L.flight.eraseIdx i ∧ L'.data = L.data ∧ L'.minted = L.minted := by
  have : step e L (.recv i o) = credit L (L.flight.eraseIdx i) s := by
    simp only [step, hi, receive, hk, receivePlain]
  rw [this]
  refine ⟨fun a t => ?_, rfl, rfl, rfl⟩
  simp only [credit]
  rw [getBal_add]
  simp [eq_comm (a := a) (b := s.dest)]

/-! ### C04 and the sources of burning -/

theorem mint_ne {f : Nat → Nat} : ∀ {ss : List Send}, mint f ss ≠ f → ∃ s ∈ ss, s.kind = .reward := by
  intro ss h
  by_contra hn
  push Not at hn
  apply h
  have : ∀ (l : List Send) (f : Nat → Nat), (∀ r ∈ l, r.kind ≠ .reward) → mint f l = f := by
    intro l
    induction l with
    | nil => exact fun _ _ => rfl
    | cons x xs ih =>
      intro f hf
      have hx := hf x List.mem_cons_self
      have : mint f (x :: xs) = mint f xs := by simp [mint, hx]
      rw [this, ih f (fun y hy => hf y (List.mem_cons_of_mem _ hy))]
  exact this ss f hn

/-- What a receive block may do to the counters: mint only at the two contracts, and burn at most the fee of the send,
plus, at the asset contract, its amount. `ss` are the sends it adds. -/
structure Sources (L L' : Ledger D) (s : Send) : Prop where
  mint : L'.minted ≠ L.minted → s.dest = governanceAddr ∨ s.dest = assetAddr
  burn : ∀ t, L'.burned t ≤ L.burned t + (if t = vite then s.fee else 0) +
    (if s.dest = assetAddr ∧ s.token = t then s.amount else 0)
  flight : ∀ x ∈ L'.flight, x ∈ L.flight ∨
    (x.from_ = s.dest ∧ (x.kind = .reward → s.dest = governanceAddr ∨ s.dest = assetAddr))

theorem bump_vite_le (f : Nat → Nat) (n t : Nat) : bump f vite n t ≤ f t + (if t = vite then n else 0) := by
  unfold bump
  by_cases h : t = vite <;> simp [h]

theorem sources_refl (L : Ledger D) (s : Send) : Sources L L s := ⟨by simp, fun t => by omega, fun x hx => .inl hx⟩

theorem sources_credit (L : Ledger D) (i : Nat) (s : Send) : Sources L (credit L (L.flight.eraseIdx i) s) s := by
  refine ⟨by simp [credit], fun t => ?_, fun x hx => .inl (List.mem_of_mem_eraseIdx hx)⟩
  have := bump_vite_le L.burned s.fee t
  simp only [credit]; omega

theorem sources_giveBack {e : Env} (L : Ledger D) (i : Nat) (s : Send) (kind : Kind) (fee : Option Nat) (callback : Bool) :
    Sources L (giveBack e L (L.flight.eraseIdx i) s kind fee callback) s := by
  unfold giveBack
  cases h : refundAll e L.bal s.dest s kind fee callback with
  | none => exact sources_refl L s
  | some q =>
    obtain ⟨b, ss⟩ := q
    obtain ⟨_, _, p3, _, p5⟩ := sendList_paid h
    refine ⟨fun hm => ?_, fun t => by simp only; omega, fun x hx => ?_⟩
    · obtain ⟨x, hx, hk⟩ := mint_ne hm
      exact (p5 x hx hk).2
    · rcases List.mem_append.mp hx with hx | hx
      · exact .inl (List.mem_of_mem_eraseIdx hx)
      · exact .inr ⟨p3 x hx, fun hk => (p5 x hx hk).2⟩

theorem sources_contract {e : Env} (L : Ledger D) (i : Nat) (s : Send) (o : Outcome D) :
    Sources L (receiveContract e L (L.flight.eraseIdx i) s o) s := by
  cases o with
  | later => exact sources_refl L s
  | tooDeep => exact sources_credit L i s
  | failed fee callback => exact sources_giveBack L i s _ _ _
  | done data burn sends fee callback =>
    simp only [receiveContract]
    cases h : runBody e L.bal s.dest s burn sends with
    | none => exact sources_giveBack L i s _ _ _
    | some q =>
      obtain ⟨b, ss⟩ := q
      obtain ⟨_, r2, _, r4⟩ := runBody_spec h
      refine ⟨fun hm => ?_, fun t => ?_, fun x hx => ?_⟩
      · obtain ⟨x, hx, hk⟩ := mint_ne hm
        exact (r4 x hx hk).2
      · have := bump_vite_le L.burned s.fee t
        simp only [burnOf]
        by_cases hc : burn = true ∧ s.dest = assetAddr
        · simp only [hc, and_self, if_true, true_and, bump] at this ⊢
          by_cases ht : t = s.token
          · subst ht; simp at this ⊢; omega
          · have : ¬ s.token = t := fun q => ht q.symm
            simp [ht, this]; omega
        · simp only [hc, if_false]
          have : bump (bump L.burned vite s.fee) s.token 0 t = bump L.burned vite s.fee t := by
            unfold bump; split <;> simp
          omega
      · rcases List.mem_append.mp hx with hx | hx
        · exact .inl (List.mem_of_mem_eraseIdx hx)
        · exact .inr ⟨r2 x hx, fun hk => (r4 x hx hk).2⟩

theorem sources_giveBackAmount {e : Env} (L : Ledger D) (i : Nat) (s : Send) :
    Sources L (giveBackAmount e L (L.flight.eraseIdx i) s) s := by
  unfold giveBackAmount
  cases h : sendList e s.dest (if s.amount > 0 then addBalance L.bal s.dest s.token s.amount else L.bal)
      (if s.amount > 0 then [⟨.refund, s.from_, s.token, s.amount, none⟩] else []) with
  | none => exact sources_refl L s
  | some q =>
    obtain ⟨b, ss⟩ := q
    obtain ⟨_, _, p3, _, p5⟩ := sendList_paid h
    refine ⟨fun hm => absurd rfl hm, fun t => ?_, fun x hx => ?_⟩
    · have := bump_vite_le L.burned s.fee t
      simp only; omega
    · rcases List.mem_append.mp hx with hx | hx
      · exact .inl (List.mem_of_mem_eraseIdx hx)
      · exact .inr ⟨p3 x hx, fun hk => (p5 x hx hk).2⟩

theorem sources_receive {e : Env} (L : Ledger D) (i : Nat) (s : Send) (o : Outcome D) :
    Sources L (receive e L (L.flight.eraseIdx i) s o) s := by
  have hcall : Sources L (receiveCall e L (L.flight.eraseIdx i) s o) s := by
    unfold receiveCall
    by_cases hc : e.builtin s.dest = true ∨ e.contract s.dest = true
    · simp only [hc, if_true]; exact sources_contract L i s o
    · simp only [hc, if_false]
      cases o <;> first | exact sources_refl L s | exact sources_credit L i s
  have hplain : Sources L (receivePlain L (L.flight.eraseIdx i) s o) s := by
    unfold receivePlain
    cases o <;> first | exact sources_refl L s | exact sources_credit L i s
  unfold receive
  cases s.kind with
  | call => exact hcall
  | refund => exact hplain
  | reward =>
    by_cases hs : e.seed = true
    · simp only [hs, if_true]; exact hplain
    · simp only [hs]; exact hcall
  | create =>
    simp only [receiveCreate]
    cases o with
    | later => exact sources_refl L s
    | tooDeep => exact sources_giveBackAmount L i s
    | failed => exact sources_giveBackAmount L i s
    | done data burn sends fee callback =>
      simp only
      cases h : sendList e s.dest (addBalance L.bal s.dest s.token s.amount) sends with
      | none => exact sources_giveBackAmount L i s
      | some q =>
        obtain ⟨b, ss⟩ := q
        obtain ⟨_, _, p3, _, p5⟩ := sendList_paid h
        refine ⟨fun hm => ?_, fun t => ?_, fun x hx => ?_⟩
        · obtain ⟨x, hx, hk⟩ := mint_ne hm
          exact (p5 x hx hk).2
        · have := bump_vite_le L.burned s.fee t
          simp only; omega
        · rcases List.mem_append.mp hx with hx | hx
          · exact .inl (List.mem_of_mem_eraseIdx hx)
          · exact .inr ⟨p3 x hx, fun hk => (p5 x hx hk).2⟩

/-- **C04.** A block that mints is a receive block of the governance or the asset contract. -/
theorem only_reward_senders_mint (e : Env) (L : Ledger D) (x : Step D) (h : (step e L x).minted ≠ L.minted) :
    ∃ i o s, x = .recv i o ∧ L.flight[i]? = some s ∧ (s.dest = governanceAddr ∨ s.dest = assetAddr) := by
  cases x with
  | send a r =>
    exfalso
    apply h
    simp only [step]
    cases userSend e L.bal a r with
    | none => rfl
    | some q => rfl
  | recv i o =>
    cases hi : L.flight[i]? with
    | none => exact absurd (by simp only [step, hi]) h
    | some s =>
      simp only [step, hi] at h
      exact ⟨i, o, s, rfl, hi, (sources_receive L i s o).mint h⟩

/-- **C04.** In every history that starts without open sends, every open reward send comes from the governance or the
asset contract. -/
theorem reward_sends_are_official (e : Env) (L : Ledger D) (h0 : L.flight = []) (steps : List (Step D)) :
    ∀ s ∈ (run e L steps).flight, s.kind = .reward → s.from_ = governanceAddr ∨ s.from_ = assetAddr := by
  have : ∀ (xs : List (Step D)) (L : Ledger D),
      (∀ s ∈ L.flight, s.kind = .reward → s.from_ = governanceAddr ∨ s.from_ = assetAddr) →
      ∀ s ∈ (run e L xs).flight, s.kind = .reward → s.from_ = governanceAddr ∨ s.from_ = assetAddr := by
    intro xs
    induction xs with
    | nil => exact fun _ h => h
    | cons x xs ih =>
      intro L h
      apply ih (step e L x)
      cases x with
      | send a r =>
        simp only [step]
        cases hu : userSend e L.bal a r with
        | none => exact h
        | some q =>
          obtain ⟨b, s⟩ := q
          intro y hy
          rcases List.mem_append.mp hy with hy | hy
          · exact h y hy
          · simp only [List.mem_singleton] at hy
            subst hy
            exact fun hk => absurd hk (userSend_paid hu).2
      | recv i o =>
        simp only [step]
        cases hi : L.flight[i]? with
        | none => exact h
        | some s =>
          intro y hy hk
          rcases (sources_receive L i s o).flight y hy with h1 | ⟨h1, h2⟩
          · exact h y h1 hk
          · rw [h1]; exact h2 hk
  exact this steps L (by simp [h0])

/-- **C01.** What one block burns: nothing for a send; for a receive at most the fee of the send it takes up and, at the
asset contract, its amount. -/
theorem burn_sources (e : Env) (L : Ledger D) (x : Step D) (t : Nat) :
    match x with
    | .send _ _ => (step e L x).burned = L.burned
    | .recv i _ => ∀ s, L.flight[i]? = some s → (step e L x).burned t ≤ L.burned t + (if t = vite then s.fee else 0) +
        (if s.dest = assetAddr ∧ s.token = t then s.amount else 0) := by
  cases x with
  | send a r =>
    simp only [step]
    cases userSend e L.bal a r with
    | none => rfl
    | some q => rfl
  | recv i o =>
    intro s hi
    simp only [step, hi]
    exact (sources_receive L i s o).burn t

end Verif.Vm
