import Verif.Vm.LedgerProps

/-! One block, seen from one contract: used for every built-in contract modelled in its own file. -/

namespace Verif.Vm
open Spec

variable {D : Type}

/-- What a list of requests asks the sender to pay of token `t`, fees and rewards left out. -/
def asked (t : Nat) (rs : List Request) : Int :=
  (rs.map (fun r => if r.kind ≠ .reward ∧ r.token = t then (r.amount : Int) else 0)).sum

/-- The answer to a refund call in an outcome. -/
def refundFee : Outcome D → Option Nat
  | .done _ _ _ fee _ => fee
  | .failed fee _ => fee
  | _ => none

/-- Nobody signs for the contract `c`, no contract is created at its address, and a built-in contract it calls asks no
fee of it: the calls that built-in contracts make to others are callbacks, and only the issue of a token costs a fee
(`GetFee`, contracts_asset.go:20). -/
def Closed (c : Nat) (L : Ledger D) : Step D → Prop
  | .send a _ => a ≠ c
  | .recv i o => ∀ s, L.flight[i]? = some s → s.dest = c → s.kind ≠ .create ∧ (refundFee o).getD 0 = 0 ∧
      ∀ data burn sends fee callback, o = .done data burn sends fee callback → ∀ r ∈ sends, r.fee.getD 0 = 0

/-- The contract `c` has run to its end on the `i`-th open send. -/
def RanAt (e : Env) (c : Nat) (L : Ledger D) (x : Step D) (L' : Ledger D) : Prop :=
  ∃ i s data burn sends fee callback b ss, x = .recv i (.done data burn sends fee callback) ∧ L.flight[i]? = some s ∧
    s.dest = c ∧ runBody e L.bal c s burn sends = some (b, ss) ∧
    L' = { bal := b, data := fun x => if x = c then data else L.data x, flight := L.flight.eraseIdx i ++ ss
           minted := mint L.minted ss
           burned := bump (bump L.burned vite s.fee) s.token (burnOf c s burn) }

/-- The contract `c` keeps its data and loses nothing. -/
def Untouched (c : Nat) (L L' : Ledger D) : Prop :=
  L'.data c = L.data c ∧ ∀ t, getBal c t L.bal ≤ getBal c t L'.bal

theorem Untouched.refl (c : Nat) (L : Ledger D) : Untouched c L L := ⟨rfl, fun _ => le_refl _⟩

theorem sendOne_asked {e : Env} {b b' : Bal} {a : Nat} {r : Request} {s : Send} (h : sendOne e b a r = some (b', s))
    (hf : r.fee.getD 0 = 0) (t : Nat) :
    (if s.kind ≠ .reward then carried t s else 0) = (if r.kind ≠ .reward ∧ r.token = t then (r.amount : Int) else 0) := by
  unfold sendOne at h
  cases hk : r.kind with
  | create => simp [hk] at h
  | refund =>
    simp only [hk] at h
    rw [(sendPlain_some (kind := .refund) (by decide) h).2, carried_eq, cost_zero]
    simp
  | call =>
    simp only [hk, sendCall] at h
    by_cases hb : e.builtin r.dest = true
    · simp only [hb, if_true] at h
      obtain ⟨fee, hfee, h1⟩ := Option.bind_eq_some_iff.mp h
      obtain ⟨b1, h3, h2⟩ := Option.map_eq_some_iff.mp h1
      obtain ⟨rfl, rfl⟩ := Prod.ext_iff.mp h2
      rw [hfee] at hf
      simp only [Option.getD_some] at hf
      subst hf
      simp [carried_eq, cost_zero]
    · simp only [hb] at h
      rw [(sendPlain_some (kind := .call) (by decide) h).2, carried_eq, cost_zero]
      simp
  | reward =>
    simp only [hk, sendReward] at h
    by_cases hc : a ≠ governanceAddr ∧ a ≠ assetAddr
    · simp [hc] at h
    · simp only [hc, if_false, Option.some.injEq, Prod.ext_iff] at h
      obtain ⟨rfl, rfl⟩ := h
      simp

theorem sendList_asked {e : Env} {a : Nat} (t : Nat) : ∀ {rs : List Request} {b b' : Bal} {ss : List Send},
    sendList e a b rs = some (b', ss) → (∀ r ∈ rs, r.fee.getD 0 = 0) → paidFor t ss = asked t rs
  | [], b, b', ss, h, _ => by
    simp only [sendList, Option.some.injEq, Prod.ext_iff] at h
    obtain ⟨rfl, rfl⟩ := h
    rfl
  | r :: rs, b, b', ss, h, hf => by
    simp only [sendList] at h
    cases h1 : sendOne e b a r with
    | none => simp [h1] at h
    | some q =>
      obtain ⟨b1, s⟩ := q
      simp only [h1] at h
      obtain ⟨⟨b2, ss'⟩, h2, h3⟩ := Option.map_eq_some_iff.mp h
      obtain ⟨rfl, rfl⟩ := Prod.ext_iff.mp h3
      have i1 := sendList_asked t h2 (fun r hr => hf r (List.mem_cons_of_mem _ hr))
      have i2 := sendOne_asked h1 (hf r List.mem_cons_self) t
      simp only [paidFor, asked, List.map_cons, List.sum_cons] at i1 i2 ⊢
      rw [i1, i2]

theorem refund_asked (s : Send) (kind : Kind) (hk : kind ≠ .reward) (fee : Option Nat) (cb : Bool) (b : Bal) (a t : Nat) :
    getBal a t (refundCredit b a s) = getBal a t b + asked t (refundRequests s kind fee cb) := by
  unfold refundCredit refundRequests
  by_cases h : s.amount > 0 ∧ s.fee > 0 ∧ s.token = vite
  · simp only [h]
    by_cases ht : vite = t <;> simp [getBal_add, asked, hk, ht]
  · simp only [h, if_false]
    by_cases h1 : s.amount > 0 <;> by_cases h2 : s.fee > 0 <;> cases cb <;> by_cases h3 : s.token = t <;>
      by_cases h4 : vite = t <;> simp [h1, h2, h3, h4, getBal_add, asked, hk] <;> omega

theorem refundRequests_fee (s : Send) (kind : Kind) (fee : Option Nat) (cb : Bool) (r : Request)
    (h : r ∈ refundRequests s kind fee cb) : r.fee = fee := by
  unfold refundRequests at h
  by_cases h0 : s.amount > 0 ∧ s.fee > 0 ∧ s.token = vite
  · simp only [h0] at h
    simp at h; simp [h]
  · simp only [h0, if_false] at h
    by_cases h1 : s.amount > 0 <;> by_cases h2 : s.fee > 0 <;> cases cb <;> simp [h1, h2] at h
    all_goals first | simp [h] | (rcases h with h | h <;> simp [h])

theorem refundCredit_other (b : Bal) (a c t : Nat) (s : Send) (h : a ≠ c) :
    getBal c t (refundCredit b a s) = getBal c t b := by
  unfold refundCredit
  by_cases h0 : s.amount > 0 ∧ s.fee > 0 ∧ s.token = vite
  · simp [h0, getBal_add, h]
  · simp only [h0, if_false]
    by_cases h1 : s.amount > 0 <;> by_cases h2 : s.fee > 0 <;> simp [h1, h2, getBal_add, h]

theorem untouched_credit (c : Nat) (L : Ledger D) (rest : List Send) (s : Send) : Untouched c L (credit L rest s) := by
  refine ⟨rfl, fun t => ?_⟩
  simp only [credit, getBal_add]
  split <;> omega

theorem untouched_giveBack (e : Env) (c : Nat) (L : Ledger D) (rest : List Send) (s : Send) (kind : Kind)
    (hk : kind ≠ .reward) (fee : Option Nat) (cb : Bool) (hf : s.dest = c → fee.getD 0 = 0) :
    Untouched c L (giveBack e L rest s kind fee cb) := by
  unfold giveBack
  cases h : refundAll e L.bal s.dest s kind fee cb with
  | none => exact .refl c L
  | some q =>
    obtain ⟨b, ss⟩ := q
    refine ⟨rfl, fun t => ?_⟩
    simp only
    unfold refundAll at h
    rw [(sendList_paid h).1 c t]
    by_cases hc : s.dest = c
    · simp only [hc, if_true]
      rw [hc] at h
      rw [sendList_asked t h (fun r hr => by rw [refundRequests_fee _ _ _ _ r hr]; exact hf hc),
        refund_asked s kind hk fee cb]
      omega
    · simp only [hc, if_false, refundCredit_other _ _ _ t s hc]
      omega

theorem untouched_giveBackAmount (e : Env) (c : Nat) (L : Ledger D) (rest : List Send) (s : Send) (hc : s.dest ≠ c) :
    Untouched c L (giveBackAmount e L rest s) := by
  unfold giveBackAmount
  cases h : sendList e s.dest (if s.amount > 0 then addBalance L.bal s.dest s.token s.amount else L.bal)
      (if s.amount > 0 then [⟨.refund, s.from_, s.token, s.amount, none⟩] else []) with
  | none => exact .refl c L
  | some q =>
    obtain ⟨b, ss⟩ := q
    refine ⟨rfl, fun t => ?_⟩
    simp only
    rw [(sendList_paid h).1 c t]
    simp only [hc, if_false]
    split <;> simp [getBal_add, hc]

theorem contract_cases (e : Env) (c : Nat) (L : Ledger D) (i : Nat) (s : Send) (hi : L.flight[i]? = some s)
    (o : Outcome D) (hg : Closed c L (.recv i o)) :
    Untouched c L (receiveContract e L (L.flight.eraseIdx i) s o) ∨
      RanAt e c L (.recv i o) (receiveContract e L (L.flight.eraseIdx i) s o) := by
  have hk : (if e.builtin s.dest = true then Kind.call else Kind.refund) ≠ .reward := by split <;> decide
  unfold receiveContract
  cases o with
  | later => exact .inl (.refl c L)
  | tooDeep => exact .inl (untouched_credit c L _ s)
  | failed fee cb => exact .inl (untouched_giveBack e c L _ s _ hk fee _ (fun h => (hg s hi h).2.1))
  | done data burn sends fee cb =>
    simp only
    cases hr : runBody e L.bal s.dest s burn sends with
    | none => exact .inl (untouched_giveBack e c L _ s _ hk fee _ (fun h => (hg s hi h).2.1))
    | some q =>
      obtain ⟨b, ss⟩ := q
      simp only
      by_cases hc : s.dest = c
      · right
        subst hc
        exact ⟨i, s, data, burn, sends, fee, cb, b, ss, rfl, hi, rfl, hr, rfl⟩
      · left
        refine ⟨by simp [Ne.symm hc], fun t => ?_⟩
        simp only [runBody] at hr
        obtain ⟨b1, h1, h2⟩ := Option.bind_eq_some_iff.mp hr
        simp only
        rw [(sendList_paid h2).1 c t]
        simp only [hc, if_false]
        have hb1 : getBal c t b1 = getBal c t L.bal := by
          by_cases hq : burn = true ∧ s.dest = assetAddr
          · simp only [hq, and_self, if_true] at h1
            have hc' : ¬ assetAddr = c := fun q => hc (hq.2.trans q)
            rw [(subBalance_some h1).2.1, getBal_add]
            simp [hc']
          · simp only [hq, if_false, Option.some.injEq] at h1
            rw [← h1, getBal_add]
            simp [hc]
        rw [hb1]
        omega

theorem receive_cases (e : Env) (c : Nat) (L : Ledger D) (i : Nat) (s : Send) (hi : L.flight[i]? = some s)
    (o : Outcome D) (hg : Closed c L (.recv i o)) :
    Untouched c L (receive e L (L.flight.eraseIdx i) s o) ∨
      RanAt e c L (.recv i o) (receive e L (L.flight.eraseIdx i) s o) := by
  have hcall : Untouched c L (receiveCall e L (L.flight.eraseIdx i) s o) ∨
      RanAt e c L (.recv i o) (receiveCall e L (L.flight.eraseIdx i) s o) := by
    unfold receiveCall
    by_cases hb : e.builtin s.dest = true ∨ e.contract s.dest = true
    · simp only [hb, if_true]; exact contract_cases e c L i s hi o hg
    · simp only [hb, if_false]
      left
      cases o <;> first | exact .refl c L | exact untouched_credit c L _ s
  have hplain : Untouched c L (receivePlain L (L.flight.eraseIdx i) s o) := by
    unfold receivePlain
    cases o <;> first | exact .refl c L | exact untouched_credit c L _ s
  unfold receive
  cases hk : s.kind with
  | call => exact hcall
  | refund => exact .inl hplain
  | reward =>
    simp only
    by_cases hs : e.seed = true
    · simp only [hs, if_true]; exact .inl hplain
    · simp only [hs]; exact hcall
  | create =>
    simp only
    have hc : s.dest ≠ c := fun h => (hg s hi h).1 hk
    left
    unfold receiveCreate
    cases o with
    | later => exact .refl c L
    | tooDeep => exact untouched_giveBackAmount e c L _ s hc
    | failed _ _ => exact untouched_giveBackAmount e c L _ s hc
    | done data burn sends fee cb =>
      simp only
      cases h : sendList e s.dest (addBalance L.bal s.dest s.token s.amount) sends with
      | none => exact untouched_giveBackAmount e c L _ s hc
      | some q =>
        obtain ⟨b, ss⟩ := q
        refine ⟨by simp [Ne.symm hc], fun t => ?_⟩
        simp only
        rw [(sendList_paid h).1 c t, getBal_add]
        simp [hc]

/-- Every block leaves a contract its data and its money, or is a finished run of the contract. -/
theorem contract_step (e : Env) (c : Nat) (L : Ledger D) (x : Step D) (hg : Closed c L x) :
    Untouched c L (step e L x) ∨ RanAt e c L x (step e L x) := by
  cases x with
  | send a r =>
    left
    simp only [step]
    cases h : userSend e L.bal a r with
    | none => exact .refl c L
    | some q =>
      obtain ⟨b, s⟩ := q
      refine ⟨rfl, fun t => ?_⟩
      have hp : Paid L.bal b a s := by
        unfold userSend at h
        cases hk : r.kind <;> simp only [hk] at h
        · exact sendCreate_paid h
        · exact sendCall_paid h
        · cases h
        · cases h
      have ha : a ≠ c := hg
      simp only
      rw [hp.bal]
      simp [ha]
  | recv i o =>
    simp only [step]
    cases hi : L.flight[i]? with
    | none => exact .inl (.refl c L)
    | some s => exact receive_cases e c L i s hi o hg

/-- The money of a contract other than the asset contract after a finished run. -/
theorem runBody_balance {e : Env} {b b' : Bal} {c : Nat} {s : Send} {burn : Bool} {sends : List Request} {ss : List Send}
    (hc : c ≠ assetAddr) (h : runBody e b c s burn sends = some (b', ss)) (hf : ∀ r ∈ sends, r.fee.getD 0 = 0) (t : Nat) :
    getBal c t b' = getBal c t b + (if s.token = t then (s.amount : Int) else 0) - asked t sends := by
  simp only [runBody, hc, and_false, if_false, Option.bind_some] at h
  rw [(sendList_paid h).1 c t, sendList_asked t h hf, getBal_add]
  simp

end Verif.Vm
