import Verif.Builtin.AssetSpec
import Verif.Vm.LedgerProps

/-! C16, C17: token supply and token ownership. -/

namespace Verif.Builtin.Asset
open Verif.Vm Verif.Vm.Spec Spec

variable {E : Type}

/-! ### What the sends of a run mint -/

/-- Reward requests for token `t`. -/
def rewardsOf (t : Nat) (rs : List Request) : Nat := (rs.map (fun r => if r.kind = .reward ∧ r.token = t then r.amount else 0)).sum

theorem sendOne_reward {e : Env} {b b' : Bal} {a : Nat} {r : Request} {s : Send} (h : sendOne e b a r = some (b', s))
    (f : Nat → Nat) (t : Nat) : (if s.kind = .reward then bump f s.token s.amount else f) t =
      f t + (if r.kind = .reward ∧ r.token = t then r.amount else 0) := by
  unfold sendOne at h
  cases hk : r.kind with
  | create => simp [hk] at h
  | refund =>
    simp only [hk] at h
    rw [(sendPlain_some (kind := .refund) (by decide) h).2]
    simp
  | call =>
    simp only [hk, sendCall] at h
    by_cases hb : e.builtin r.dest = true
    · simp only [hb, if_true] at h
      obtain ⟨fee, _, h1⟩ := Option.bind_eq_some_iff.mp h
      obtain ⟨b1, h3, h2⟩ := Option.map_eq_some_iff.mp h1
      obtain ⟨rfl, rfl⟩ := Prod.ext_iff.mp h2
      simp
    · simp only [hb] at h
      rw [(sendPlain_some (kind := .call) (by decide) h).2]
      simp
  | reward =>
    simp only [hk, sendReward] at h
    by_cases hc : a ≠ governanceAddr ∧ a ≠ assetAddr
    · simp [hc] at h
    · simp only [hc, if_false, Option.some.injEq, Prod.ext_iff] at h
      obtain ⟨rfl, rfl⟩ := h
      simp only [if_true, bump, true_and]
      by_cases ht : t = r.token
      · subst ht; simp
      · have : ¬ r.token = t := fun q => ht q.symm
        simp [ht, this]

theorem sendList_mint {e : Env} {a : Nat} (t : Nat) : ∀ {rs : List Request} {b b' : Bal} {ss : List Send} (f : Nat → Nat),
    sendList e a b rs = some (b', ss) → mint f ss t = f t + rewardsOf t rs
  | [], b, b', ss, f, h => by
    simp only [sendList, Option.some.injEq, Prod.ext_iff] at h
    obtain ⟨rfl, rfl⟩ := h
    simp [mint, rewardsOf]
  | r :: rs, b, b', ss, f, h => by
    simp only [sendList] at h
    cases h1 : sendOne e b a r with
    | none => simp [h1] at h
    | some q =>
      obtain ⟨b1, s⟩ := q
      simp only [h1] at h
      obtain ⟨⟨b2, ss'⟩, h2, h3⟩ := Option.map_eq_some_iff.mp h
      obtain ⟨rfl, rfl⟩ := Prod.ext_iff.mp h3
      have e1 : mint f (s :: ss') = mint (if s.kind = .reward then bump f s.token s.amount else f) ss' := rfl
      simp only [e1]
      rw [sendList_mint t _ h2, sendOne_reward h1]
      simp only [rewardsOf, List.map_cons, List.sum_cons]
      omega

theorem refund_no_rewards (s : Send) (kind : Kind) (hk : kind ≠ .reward) (fee : Option Nat) (cb : Bool) (t : Nat) :
    rewardsOf t (refundRequests s kind fee cb) = 0 := by
  unfold refundRequests
  split
  · simp [rewardsOf, hk]
  · simp only
    by_cases h1 : s.amount > 0 <;> by_cases h2 : s.fee > 0 <;> cases cb <;> simp [rewardsOf, h1, h2, hk]

/-! ### One step of the ledger, seen from the asset contract -/

/-- One of the methods has run. -/
def Ran (L L' : Ledger (State × E)) : Prop :=
  ∃ (i : Nat) (s : Send) (m : Method) (fee : Option Nat) (res : Result), L.flight[i]? = some s ∧ s.dest = assetAddr ∧
    doSend s.from_ s.amount m = true ∧
    doReceive (storage L) s.from_ s.token s.amount fee m = some res ∧ storage L' = res.st ∧
    (∀ t, L'.minted t = L.minted t + rewardsOf t res.sends) ∧
    (∀ t, L'.burned t = L.burned t + (if t = vite then s.fee else 0) + (if res.burn = true ∧ s.token = t then s.amount else 0))

/-- The quiet alternative. -/
def Quiet (L L' : Ledger (State × E)) : Prop :=
  (∀ t, L'.minted t = L.minted t) ∧ (∀ t, t ≠ vite → L'.burned t = L.burned t) ∧ L.burned vite ≤ L'.burned vite ∧
      storage L' = storage L

theorem Quiet.refl (L : Ledger (State × E)) : Quiet L L := ⟨fun _ => rfl, fun _ _ => rfl, le_refl _, rfl⟩

theorem bump_vite_ne (f : Nat → Nat) (n : Nat) (t : Nat) (h : t ≠ vite) : bump f vite n t = f t := by simp [bump, h]
theorem bump_vite_ge (f : Nat → Nat) (n : Nat) : f vite ≤ bump f vite n vite := by simp [bump]

theorem quiet_credit (L : Ledger (State × E)) (rest : List Send) (s : Send) : Quiet L (credit L rest s) :=
  ⟨fun _ => rfl, fun t h => bump_vite_ne _ _ t h, bump_vite_ge _ _, rfl⟩

theorem quiet_giveBack (e : Env) (L : Ledger (State × E)) (rest : List Send) (s : Send) (kind : Kind) (hk : kind ≠ .reward)
    (fee : Option Nat) (cb : Bool) : Quiet L (giveBack e L rest s kind fee cb) := by
  unfold giveBack
  cases h : refundAll e L.bal s.dest s kind fee cb with
  | none => exact .refl L
  | some q =>
    obtain ⟨b, ss⟩ := q
    refine ⟨fun t => ?_, fun _ _ => rfl, le_refl _, rfl⟩
    have := sendList_mint t L.minted h
    rw [refund_no_rewards s kind hk] at this
    simpa using this

theorem quiet_giveBackAmount (e : Env) (L : Ledger (State × E)) (rest : List Send) (s : Send) :
    Quiet L (giveBackAmount e L rest s) := by
  unfold giveBackAmount
  cases h : sendList e s.dest (if s.amount > 0 then addBalance L.bal s.dest s.token s.amount else L.bal)
      (if s.amount > 0 then [⟨.refund, s.from_, s.token, s.amount, none⟩] else []) with
  | none => exact .refl L
  | some q => exact ⟨fun _ => rfl, fun t h => bump_vite_ne _ _ t h, bump_vite_ge _ _, rfl⟩

theorem rewards_zero {rs : List Request} (h : ∀ r ∈ rs, r.kind ≠ .reward) (t : Nat) : rewardsOf t rs = 0 := by
  unfold rewardsOf
  induction rs with
  | nil => rfl
  | cons r rs ih =>
    have h1 := h r List.mem_cons_self
    have h2 := ih (fun x hx => h x (List.mem_cons_of_mem _ hx))
    simp [h1, h2]

/-- A contract other than the asset and governance contracts cannot have sent rewards. -/
theorem mint_elsewhere {e : Env} {a : Nat} {rs : List Request} {b b' : Bal} {ss : List Send} (f : Nat → Nat)
    (h : sendList e a b rs = some (b', ss)) (ha : a ≠ governanceAddr ∧ a ≠ assetAddr) : mint f ss = f := by
  by_contra hn
  obtain ⟨x, hx, hk⟩ := mint_ne hn
  obtain ⟨_, _, _, _, p5⟩ := sendList_paid h
  rcases (p5 x hx hk).2 with q | q
  · exact ha.1 q
  · exact ha.2 q

theorem mint_quiet {e : Env} {a : Nat} {rs : List Request} {b b' : Bal} {ss : List Send} (f : Nat → Nat)
    (h : sendList e a b rs = some (b', ss)) (ha : a ≠ assetAddr)
    (hg : a = governanceAddr → ∀ r ∈ rs, r.kind ≠ .reward) (t : Nat) : mint f ss t = f t := by
  by_cases h1 : a = governanceAddr
  · rw [sendList_mint t f h, rewards_zero (hg h1)]; simp
  · rw [mint_elsewhere f h ⟨h1, ha⟩]

theorem asset_ne_governance : assetAddr ≠ governanceAddr := by decide

theorem contract_cases {e : Env} {L : Ledger (State × E)} {i : Nat} {s : Send} (hi : L.flight[i]? = some s)
    (o : Outcome (State × E)) (hg : Genuine L (.recv i o)) (rest : List Send) :
    Quiet L (receiveContract e L rest s o) ∨ Ran L (receiveContract e L rest s o) := by
  have hk : (if e.builtin s.dest = true then Kind.call else Kind.refund) ≠ .reward := by split <;> decide
  unfold receiveContract
  cases o with
  | later => exact .inl (.refl L)
  | tooDeep => exact .inl (quiet_credit L rest s)
  | failed fee cb => exact .inl (quiet_giveBack e L rest s _ hk fee _)
  | done data burn sends fee cb =>
    obtain ⟨g1, g2, g3⟩ := hg s hi data burn sends fee cb rfl
    simp only
    cases hr : runBody e L.bal s.dest s burn sends with
    | none => exact .inl (quiet_giveBack e L rest s _ hk fee _)
    | some q =>
      obtain ⟨b, ss⟩ := q
      simp only
      have hr' := hr
      simp only [runBody] at hr
      obtain ⟨b1, _, h2⟩ := Option.bind_eq_some_iff.mp hr
      by_cases ha : s.dest = assetAddr
      · right
        obtain ⟨m, fa, res, k1, k2, k3, k4, k5⟩ := g1 ha
        refine ⟨i, s, m, fa, res, hi, ha, k1, k2, ?_, fun t => ?_, fun t => ?_⟩
        · simp [storage, ha, k3]
        · simp only [sendList_mint t L.minted h2, k5]
        · simp only [bump, burnOf, ha, k4, and_true]
          simp only [eq_comm (a := s.token) (b := t)]
          by_cases t2 : t = s.token <;> by_cases hb : res.burn = true <;> by_cases t1 : t = vite <;>
            simp only [t1, t2, hb, if_true, if_false, and_true, and_false, true_and, false_and, Nat.add_zero] <;>
            simp_all
      · left
        refine ⟨fun t => mint_quiet L.minted h2 ha g2 t, fun t ht => ?_, ?_, ?_⟩
        · simp [bump, burnOf, ha, ht]
        · simp only [bump, burnOf, ha]; simp
        · simp [storage, Ne.symm ha]

theorem step_cases (e : Env) (L : Ledger (State × E)) (x : Step (State × E)) (hg : Genuine L x) :
    Quiet L (step e L x) ∨ Ran L (step e L x) := by
  cases x with
  | send a r =>
    left
    simp only [step]
    cases h : userSend e L.bal a r with
    | none => exact .refl L
    | some q => exact ⟨fun _ => rfl, fun _ _ => rfl, le_refl _, rfl⟩
  | recv i o =>
    simp only [step]
    cases hi : L.flight[i]? with
    | none => exact .inl (.refl L)
    | some s =>
      simp only
      have hcall : Quiet L (receiveCall e L (L.flight.eraseIdx i) s o) ∨ Ran L (receiveCall e L (L.flight.eraseIdx i) s o) := by
        unfold receiveCall
        split
        · exact contract_cases hi o hg _
        · left; cases o <;> first | exact .refl L | exact quiet_credit L _ s
      have hplain : Quiet L (receivePlain L (L.flight.eraseIdx i) s o) := by
        unfold receivePlain
        cases o <;> first | exact .refl L | exact quiet_credit L _ s
      unfold receive
      cases hk : s.kind with
      | call => exact hcall
      | refund => exact .inl hplain
      | reward =>
        simp only
        split
        · exact .inl hplain
        · exact hcall
      | create =>
        left
        simp only [receiveCreate]
        cases o with
        | later => exact .refl L
        | tooDeep => exact quiet_giveBackAmount e L _ s
        | failed _ _ => exact quiet_giveBackAmount e L _ s
        | done data burn sends fee cb =>
          obtain ⟨_, g2, g3⟩ := hg s hi data burn sends fee cb rfl
          simp only
          cases h : sendList e s.dest (addBalance L.bal s.dest s.token s.amount) sends with
          | none => exact quiet_giveBackAmount e L _ s
          | some q =>
            obtain ⟨b, ss⟩ := q
            exact ⟨fun t => mint_quiet L.minted h (g3 hk) g2 t, fun t ht => bump_vite_ne _ _ t ht, bump_vite_ge _ _,
              by simp [storage, Ne.symm (g3 hk)]⟩

/-! ### What a method does to the recorded supply -/

theorem supply_upd (st : State) (f : Nat → List Nat) (g : Nat → Nat) (id : Nat) (x : Info) (t : Nat) :
    supply ⟨upd st.info id (some x), f, g⟩ t = if t = id then x.totalSupply else supply st t := by
  unfold supply upd
  by_cases h : t = id <;> simp [h]

theorem supply_receive {st : State} {sender token amount : Nat} {fee : Option Nat} {m : Method} {res : Result}
    (h : doReceive st sender token amount fee m = some res) (t : Nat) :
    supply res.st t = supply st t + rewardsOf t res.sends - (if res.burn = true ∧ token = t then (amount : Int) else 0) := by
  cases m with
  | issue id symbol total re max ob =>
    simp only [doReceive, issue] at h
    by_cases h1 : (st.info id).isSome = true
    · simp [h1] at h
    by_cases h2 : st.nextIndex symbol = tokenNameIndexMax
    · simp [h1, h2] at h
    simp only [h1, h2] at h
    obtain rfl := by simpa using h
    simp only [supply_upd, rewardsOf]
    by_cases ht : t = id
    · subst ht
      have : supply st t = 0 := by
        unfold supply
        cases h3 : st.info t with
        | none => rfl
        | some x => simp [h3] at h1
      simp [this]
    · have : ¬ id = t := fun q => ht q.symm
      simp [ht, this]
  | reIssue id n receiver =>
    simp only [doReceive, reIssue] at h
    cases h1 : st.info id with
    | none => simp [h1] at h
    | some x =>
      simp only [h1] at h
      split at h
      · simp at h
      · obtain rfl := by simpa using h
        simp only [supply_upd, rewardsOf]
        by_cases ht : t = id
        · subst ht
          simp [supply, h1]
        · have : ¬ id = t := fun q => ht q.symm
          simp [ht, this]
  | burn =>
    simp only [doReceive, burn] at h
    cases h1 : st.info token with
    | none => simp [h1] at h
    | some x =>
      simp only [h1] at h
      split at h
      · simp at h
      · obtain rfl := by simpa using h
        simp only [supply_upd, rewardsOf]
        by_cases ht : t = token
        · subst ht
          simp [supply, h1]
        · have : ¬ token = t := fun q => ht q.symm
          simp [ht, this]
  | transferOwnership id newOwner =>
    simp only [doReceive, transferOwnership] at h
    cases h1 : st.info id with
    | none => simp [h1] at h
    | some x =>
      simp only [h1] at h
      split at h
      · simp at h
      · obtain rfl := by simpa using h
        simp only [supply_upd, rewardsOf]
        by_cases ht : t = id
        · subst ht; simp [supply, h1]
        · simp [ht]
  | disableReIssue id =>
    simp only [doReceive, disableReIssue] at h
    cases h1 : st.info id with
    | none => simp [h1] at h
    | some x =>
      simp only [h1] at h
      split at h
      · simp at h
      · obtain rfl := by simpa using h
        simp only [supply_upd, rewardsOf]
        by_cases ht : t = id
        · subst ht; simp [supply, h1]
        · simp [ht]
  | getTokenInfo id =>
    obtain rfl := by simpa [doReceive] using h
    simp [rewardsOf]

theorem supplyOk_step (e : Env) (L : Ledger (State × E)) (x : Step (State × E)) (hg : Genuine L x) (h : SupplyOk L) :
    SupplyOk (step e L x) := by
  have hb := (balanced_step e L x).sheet
  obtain ⟨h1, h2⟩ := h
  rcases step_cases e L x hg with ⟨q1, q2, q3, q4⟩ | ⟨i, s, m, fee, res, _, _, _, k2, k3, k4, k5⟩
  · refine ⟨fun t ht => ?_, ?_⟩
    · have := hb t; have a1 := q1 t; have a2 := q2 t ht; have a3 := h1 t ht
      rw [q4]; omega
    · have := hb vite; have a1 := q1 vite
      rw [q4]; omega
  · refine ⟨fun t ht => ?_, ?_⟩
    · have a0 := hb t; have a1 := k4 t; have a2 := k5 t; have a3 := h1 t ht
      have a4 := supply_receive k2 t
      rw [← k3] at a4
      simp only [ht, if_false] at a2
      split at a2 <;> split at a4 <;> simp_all <;> omega
    · have a0 := hb vite; have a1 := k4 vite; have a2 := k5 vite
      have a4 := supply_receive k2 vite
      rw [← k3] at a4
      simp only [if_true] at a2
      split at a2 <;> split at a4 <;> simp_all <;> omega

/-- **C16.** The recorded supply of a token is what exists of it, in balances and on the way, after any history in which
the asset contract runs its code; fees leave the records of VITE behind. -/
theorem supply_matches_ledger (e : Env) (L : Ledger (State × E)) (h : SupplyOk L) (steps : List (Step (State × E)))
    (hg : GenuineRun e L steps) : SupplyOk (run e L steps) := by
  induction steps generalizing L with
  | nil => exact h
  | cons x xs ih => exact ih (step e L x) (supplyOk_step e L x hg.1 h) hg.2

/-! ### The records -/

/-- Replacing a record by one with the same symbol, owner and index. -/
theorem recordsOk_same {st : State} (ok : RecordsOk st) {id : Nat} {x0 x1 : Info} (h1 : st.info id = some x0)
    (es : x1.symbol = x0.symbol) (eo : x1.owner = x0.owner) (ei : x1.index = x0.index)
    (hw : x1.totalSupply ≤ maxWord ∧ x1.maxSupply ≤ maxWord)
    (hc : x1.isReIssuable = true → x1.totalSupply ≤ x1.maxSupply) :
    RecordsOk ⟨upd st.info id (some x1), st.owned, st.nextIndex⟩ := by
  have key : ∀ t x, upd st.info id (some x1) t = some x →
      (t = id ∧ x = x1) ∨ (t ≠ id ∧ st.info t = some x) := by
    intro t x hx
    simp only [upd] at hx
    split at hx
    · left; rename_i q; exact ⟨q, by simpa using hx.symm⟩
    · right; rename_i q; exact ⟨q, hx⟩
  constructor
  · intro t x hx
    rcases key t x hx with ⟨_, rfl⟩ | ⟨_, q⟩
    · exact hw
    · exact ok.word t x q
  · intro t x hx
    rcases key t x hx with ⟨_, rfl⟩ | ⟨_, q⟩
    · exact hc
    · exact ok.capped t x q
  · intro t x hx
    rcases key t x hx with ⟨_, rfl⟩ | ⟨_, q⟩
    · simp only [es, ei]; exact ok.index id x0 h1
    · exact ok.index t x q
  · exact ok.limit
  · intro t u x y hx hy e1 e2
    rcases key t x hx with ⟨rfl, rfl⟩ | ⟨_, q⟩ <;> rcases key u y hy with ⟨rfl, rfl⟩ | ⟨_, q'⟩
    · rfl
    · exact ok.unique _ _ x0 y h1 q' (es ▸ e1) (ei ▸ e2)
    · exact ok.unique _ _ x x0 q h1 (e1.trans es) (e2.trans ei)
    · exact ok.unique t u x y q q' e1 e2
  · intro o t
    rw [ok.owners o t]
    simp only [upd]
    by_cases ht : t = id
    · subst ht; simp [h1, eo]
    · simp [ht]
  · exact ok.nodup

theorem recordsOk_receive {st : State} {sender token amount : Nat} {fee : Option Nat} {m : Method} {res : Result}
    (hs : doSend sender amount m = true) (h : doReceive st sender token amount fee m = some res) (ok : RecordsOk st) :
    RecordsOk res.st := by
  cases m with
  | issue id symbol total re max ob =>
    simp only [doReceive, issue] at h
    by_cases h1 : (st.info id).isSome = true
    · simp [h1] at h
    by_cases h2 : st.nextIndex symbol = tokenNameIndexMax
    · simp [h1, h2] at h
    simp only [h1, h2] at h
    obtain rfl := by simpa using h
    have hn : st.info id = none := by simpa using h1
    have hc : checkToken total re max ob = true := by simp [doSend] at hs; exact hs.2
    have hl := ok.limit symbol
    have hw : (total : Int) ≤ maxWord ∧ (max : Int) ≤ maxWord ∧ (re = true → (total : Int) ≤ max) := by
      unfold checkToken at hc
      by_cases c1 : (total : Int) > maxWord
      · simp [c1] at hc
      by_cases c2 : (!re) = true ∧ total = 0
      · simp [c1, c2] at hc
      by_cases c3 : re = true
      · simp [c1, c3] at hc
        exact ⟨by omega, hc.2, fun _ => by exact_mod_cast hc.1⟩
      · simp [c1, c2, c3] at hc
        refine ⟨by omega, ?_, fun h => absurd h c3⟩
        simp [hc.2.1, maxWord]
    constructor
    · intro t x hx
      simp only [upd] at hx
      split at hx
      · obtain rfl := by simpa using hx
        exact ⟨hw.1, hw.2.1⟩
      · exact ok.word t x hx
    · intro t x hx hr
      simp only [upd] at hx
      split at hx
      · obtain rfl := by simpa using hx
        exact hw.2.2 hr
      · exact ok.capped t x hx hr
    · intro t x hx
      simp only [upd] at hx ⊢
      split at hx
      · obtain rfl := by simpa using hx
        simp
      · have := ok.index t x hx
        split
        · rename_i q; rw [q] at this; omega
        · exact this
    · intro y
      simp only [upd]
      split
      · omega
      · exact ok.limit y
    · intro t u x y hx hy e1 e2
      simp only [upd] at hx hy
      split at hx <;> split at hy
      · rename_i q1 q2; rw [q1, q2]
      · obtain rfl := by simpa using hx
        have := ok.index u y hy
        simp only at e1 e2
        rw [← e1, ← e2] at this
        omega
      · obtain rfl := by simpa using hy
        have := ok.index t x hx
        simp only at e1 e2
        rw [e1, e2] at this
        omega
      · exact ok.unique t u x y hx hy e1 e2
    · intro o t
      have := ok.owners o t
      simp only [upd]
      by_cases ho : o = sender <;> by_cases ht : t = id
      · subst ho ht; simp
      · subst ho; simp [ht, this]
      · subst ht
        simp only [ho, if_false, if_true, this, hn]
        simp
        exact fun q => ho q.symm
      · simp [ho, ht, this]
    · intro o
      simp only [upd]
      split
      · refine List.nodup_append.mpr ⟨ok.nodup _, by simp, ?_⟩
        intro a ha b hb
        obtain rfl := by simpa using hb
        rintro rfl
        obtain ⟨x, hx, _⟩ := (ok.owners _ _).mp ha
        simp [hn] at hx
      · exact ok.nodup o
  | reIssue id n receiver =>
    simp only [doReceive, reIssue] at h
    cases h1 : st.info id with
    | none => simp [h1] at h
    | some x0 =>
      simp only [h1] at h
      split at h
      · simp at h
      · rename_i hc
        obtain rfl := by simpa using h
        simp only [not_or] at hc
        have hw := ok.word id x0 h1
        exact recordsOk_same ok h1 rfl rfl rfl ⟨by simp only; omega, hw.2⟩ (fun _ => by simp only; omega)
  | burn =>
    simp only [doReceive, burn] at h
    cases h1 : st.info token with
    | none => simp [h1] at h
    | some x0 =>
      simp only [h1] at h
      split at h
      · simp at h
      · obtain rfl := by simpa using h
        have hw := ok.word token x0 h1
        have hc := ok.capped token x0 h1
        exact recordsOk_same ok h1 rfl rfl rfl ⟨by simp only; omega, hw.2⟩ (fun q => by have := hc q; simp only; omega)
  | disableReIssue id =>
    simp only [doReceive, disableReIssue] at h
    cases h1 : st.info id with
    | none => simp [h1] at h
    | some x0 =>
      simp only [h1] at h
      split at h
      · simp at h
      · obtain rfl := by simpa using h
        have hw := ok.word id x0 h1
        exact recordsOk_same ok h1 rfl rfl rfl ⟨hw.1, by simp [maxWord]⟩ (fun q => by simp at q)
  | transferOwnership id newOwner =>
    have hne : newOwner ≠ sender := by simp [doSend] at hs; exact hs.2
    simp only [doReceive, transferOwnership] at h
    cases h1 : st.info id with
    | none => simp [h1] at h
    | some x0 =>
      simp only [h1] at h
      split at h
      · simp at h
      · rename_i hc
        simp only [not_or, ne_eq, not_not] at hc
        obtain rfl := by simpa using h
        constructor
        · intro t x hx
          simp only [upd] at hx
          split at hx
          · obtain rfl := by simpa using hx
            exact ok.word id x0 h1
          · exact ok.word t x hx
        · intro t x hx hr
          simp only [upd] at hx
          split at hx
          · obtain rfl := by simpa using hx
            exact ok.capped id x0 h1 hr
          · exact ok.capped t x hx hr
        · intro t x hx
          simp only [upd] at hx
          split at hx
          · obtain rfl := by simpa using hx
            exact ok.index id x0 h1
          · exact ok.index t x hx
        · exact ok.limit
        · intro t u x y hx hy e1 e2
          simp only [upd] at hx hy
          split at hx <;> split at hy
          · rename_i q1 q2; rw [q1, q2]
          · obtain rfl := by simpa using hx
            rename_i q1 q2
            exact q1 ▸ ok.unique id u x0 y h1 hy e1 e2
          · obtain rfl := by simpa using hy
            rename_i q1 q2
            exact q2 ▸ ok.unique t id x x0 hx h1 e1 e2
          · exact ok.unique t u x y hx hy e1 e2
        · intro o t
          have ho := ok.owners o t
          have hs' := ok.owners sender t
          simp only [upd, deleteTokenID]
          by_cases o1 : o = newOwner
          · subst o1
            simp only [if_true, hne, if_false, List.mem_append, ho, List.mem_singleton]
            by_cases ht : t = id
            · simp [ht]
            · simp [ht]
          · by_cases o2 : o = sender
            · subst o2
              simp only [o1, if_false, if_true]
              by_cases ht : t = id
              · subst ht
                have : ¬ t ∈ (st.owned o).erase t := List.Nodup.not_mem_erase (ok.nodup o)
                simp only [this, if_true, Option.some.injEq, false_iff]
                rintro ⟨y, rfl, hy⟩
                exact hne hy
              · simp only [ht, if_false, List.mem_erase_of_ne ht, ho]
            · simp only [o1, o2, if_false, ho]
              by_cases ht : t = id
              · subst ht
                simp only [if_true, h1, Option.some.injEq]
                constructor
                · rintro ⟨y, rfl, hy⟩; exact absurd (hy.symm.trans hc.2) o2
                · rintro ⟨y, rfl, hy⟩; exact absurd hy.symm o1
              · simp [ht]
        · intro o
          simp only [upd, deleteTokenID]
          by_cases o1 : o = newOwner
          · subst o1
            simp only [if_true, hne, if_false]
            refine List.nodup_append.mpr ⟨ok.nodup _, by simp, ?_⟩
            intro a ha b hb
            obtain rfl := by simpa using hb
            rintro rfl
            obtain ⟨y, hy, q⟩ := (ok.owners _ _).mp ha
            rw [h1] at hy
            obtain rfl := by simpa using hy
            exact hne (q.symm.trans hc.2)
          · by_cases o2 : o = sender
            · subst o2
              simp only [o1, if_false, if_true]
              exact (ok.nodup o).erase _
            · simp only [o1, o2, if_false]
              exact ok.nodup o
  | getTokenInfo id =>
    obtain rfl := by simpa [doReceive] using h
    exact ok

/-- **C16.** The token records stay in order through every history. -/
theorem records_ok (e : Env) (L : Ledger (State × E)) (h : RecordsOk (storage L)) (steps : List (Step (State × E)))
    (hg : GenuineRun e L steps) : RecordsOk (storage (run e L steps)) := by
  induction steps generalizing L with
  | nil => exact h
  | cons x xs ih =>
    refine ih (step e L x) ?_ hg.2
    rcases step_cases e L x hg.1 with ⟨_, _, _, q4⟩ | ⟨i, s, m, fee, res, _, _, k1, k2, k3, _, _⟩
    · rw [q4]; exact h
    · rw [k3]; exact recordsOk_receive k1 k2 h

/-! ### Who changes a record -/

/-- What a method may do to an existing record. -/
theorem record_change {st : State} {sender token amount : Nat} {fee : Option Nat} {m : Method} {res : Result}
    (h : doReceive st sender token amount fee m = some res) (t : Nat) (x : Info) (hx : st.info t = some x) :
    ∃ y, res.st.info t = some y ∧ y.symbol = x.symbol ∧ y.index = x.index ∧
      (y = x ∨ (sender = x.owner ∧ x.isReIssuable = true) ∨
        ((x.ownerBurnOnly = true → sender = x.owner) ∧ token = t ∧ res.burn = true ∧
          y = { x with totalSupply := x.totalSupply - amount })) := by
  cases m with
  | issue id symbol total re max ob =>
    simp only [doReceive, issue] at h
    by_cases h1 : (st.info id).isSome = true
    · simp [h1] at h
    by_cases h2 : st.nextIndex symbol = tokenNameIndexMax
    · simp [h1, h2] at h
    simp only [h1, h2] at h
    obtain rfl := by simpa using h
    have hn : st.info id = none := by simpa using h1
    have ht : t ≠ id := by rintro rfl; simp [hn] at hx
    exact ⟨x, by simp [upd, ht, hx], rfl, rfl, .inl rfl⟩
  | reIssue id n receiver =>
    simp only [doReceive, reIssue] at h
    cases h1 : st.info id with
    | none => simp [h1] at h
    | some x0 =>
      simp only [h1] at h
      split at h
      · simp at h
      · rename_i hc
        simp only [not_or, ne_eq, not_not] at hc
        obtain rfl := by simpa using h
        by_cases ht : t = id
        · subst ht
          obtain rfl : x0 = x := by simpa [h1] using hx
          exact ⟨_, if_pos rfl, rfl, rfl, .inr (.inl ⟨hc.2.1.symm, by simpa using hc.1⟩)⟩
        · exact ⟨x, by simp [upd, ht, hx], rfl, rfl, .inl rfl⟩
  | burn =>
    simp only [doReceive, burn] at h
    cases h1 : st.info token with
    | none => simp [h1] at h
    | some x0 =>
      simp only [h1] at h
      split at h
      · simp at h
      · rename_i hc
        obtain rfl := by simpa using h
        by_cases ht : t = token
        · subst ht
          obtain rfl : x0 = x := by simpa [h1] using hx
          refine ⟨_, if_pos rfl, rfl, rfl, .inr (.inr ⟨fun q => ?_, rfl, rfl, rfl⟩)⟩
          by_contra hn
          exact hc ⟨q, fun w => hn w.symm⟩
        · exact ⟨x, by simp [upd, ht, hx], rfl, rfl, .inl rfl⟩
  | transferOwnership id newOwner =>
    simp only [doReceive, transferOwnership] at h
    cases h1 : st.info id with
    | none => simp [h1] at h
    | some x0 =>
      simp only [h1] at h
      split at h
      · simp at h
      · rename_i hc
        simp only [not_or, ne_eq, not_not] at hc
        obtain rfl := by simpa using h
        by_cases ht : t = id
        · subst ht
          obtain rfl : x0 = x := by simpa [h1] using hx
          exact ⟨_, if_pos rfl, rfl, rfl, .inr (.inl ⟨hc.2.symm, by simpa using hc.1⟩)⟩
        · exact ⟨x, by simp [upd, ht, hx], rfl, rfl, .inl rfl⟩
  | disableReIssue id =>
    simp only [doReceive, disableReIssue] at h
    cases h1 : st.info id with
    | none => simp [h1] at h
    | some x0 =>
      simp only [h1] at h
      split at h
      · simp at h
      · rename_i hc
        simp only [not_or, ne_eq, not_not] at hc
        obtain rfl := by simpa using h
        by_cases ht : t = id
        · subst ht
          obtain rfl : x0 = x := by simpa [h1] using hx
          exact ⟨_, if_pos rfl, rfl, rfl, .inr (.inl ⟨hc.2.symm, by simpa using hc.1⟩)⟩
        · exact ⟨x, by simp [upd, ht, hx], rfl, rfl, .inl rfl⟩
  | getTokenInfo id =>
    obtain rfl := by simpa [doReceive] using h
    exact ⟨x, hx, rfl, rfl, .inl rfl⟩

/-- **C17.** A token record changes only in a step that receives a call at the asset contract, and then either the caller
is the recorded owner and the token is re-issuable, or the call destroyed the amount it carried of this very token, with
the supply lowered by just that, and the caller is the owner if only the owner may burn. Symbol and index never change and
no record is lost. -/
theorem only_owner_changes_token (e : Env) (L : Ledger (State × E)) (x : Step (State × E)) (hg : Genuine L x) (t : Nat)
    (a : Info) (ha : (storage L).info t = some a) :
    ∃ b, (storage (step e L x)).info t = some b ∧ b.symbol = a.symbol ∧ b.index = a.index ∧
      (b ≠ a → ∃ (i : Nat) (s : Send), L.flight[i]? = some s ∧ s.dest = assetAddr ∧
        ((s.from_ = a.owner ∧ a.isReIssuable = true) ∨
         ((a.ownerBurnOnly = true → s.from_ = a.owner) ∧ s.token = t ∧
           b = { a with totalSupply := a.totalSupply - s.amount }))) := by
  rcases step_cases e L x hg with ⟨_, _, _, q4⟩ | ⟨i, s, m, fee, res, k0, k0', k1, k2, k3, _, _⟩
  · exact ⟨a, by rw [q4]; exact ha, rfl, rfl, fun h => absurd rfl h⟩
  · obtain ⟨y, y1, y2, y3, y4⟩ := record_change k2 t a ha
    refine ⟨y, by rw [k3]; exact y1, y2, y3, fun hne => ⟨i, s, k0, k0', ?_⟩⟩
    rcases y4 with q | q | ⟨q1, q2, _, q4⟩
    · exact absurd q hne
    · exact .inl q
    · exact .inr ⟨q1, q2, q4⟩

/-- **C17.** Once a token is not re-issuable it stays so, its owner stays, and its supply never grows again. -/
theorem frozen_token_stays (e : Env) (L : Ledger (State × E)) (steps : List (Step (State × E))) (hg : GenuineRun e L steps)
    (t : Nat) (a : Info) (ha : (storage L).info t = some a) (hf : a.isReIssuable = false) :
    ∃ b, (storage (run e L steps)).info t = some b ∧ b.isReIssuable = false ∧ b.owner = a.owner ∧
      b.totalSupply ≤ a.totalSupply := by
  induction steps generalizing L a with
  | nil => exact ⟨a, ha, hf, rfl, le_refl _⟩
  | cons x xs ih =>
    obtain ⟨b, b1, _, _, b4⟩ := only_owner_changes_token e L x hg.1 t a ha
    by_cases hb : b = a
    · subst hb
      exact ih (step e L x) hg.2 b b1 hf
    · obtain ⟨i, s, _, _, q | ⟨_, _, rfl⟩⟩ := b4 hb
      · simp [hf] at q
      · obtain ⟨c, c1, c2, c3, c4⟩ := ih (step e L x) hg.2 _ b1 hf
        exact ⟨c, c1, c2, c3, by simp only at c4; omega⟩

/-- **C16.** With balances that are not negative a recorded supply is not negative either, nor above a word; so nothing
the contract computes wraps. -/
theorem supply_in_range (e : Env) (L : Ledger (State × E)) (h : SupplyOk L) (hr : RecordsOk (storage L))
    (steps : List (Step (State × E))) (hg : GenuineRun e L steps) (hn : ∀ t, 0 ≤ wealth t (run e L steps)) (t : Nat) :
    0 ≤ supply (storage (run e L steps)) t ∧ supply (storage (run e L steps)) t ≤ maxWord := by
  have h1 := supply_matches_ledger e L h steps hg
  have h2 := records_ok e L hr steps hg
  constructor
  · by_cases ht : t = vite
    · subst ht; exact le_trans (hn vite) h1.2
    · rw [h1.1 t ht]; exact hn t
  · unfold supply
    cases hi : (storage (run e L steps)).info t with
    | none => simp [maxWord]
    | some x => exact (h2.word t x hi).1

end Verif.Builtin.Asset
