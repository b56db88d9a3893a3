import Verif.Builtin.AssetProps

/-! A history of the asset contract that meets the hypotheses of `AssetProps`. -/

namespace Verif.Builtin.Asset
open Verif.Vm Verif.Vm.Spec Spec

/-- 1 and 2 are the built-in contracts, 5 and 6 people. VITE (token 0) was issued at genesis to 5. -/
def exEnv : Env := ⟨fun a => a = 2 ∨ a = 1, fun _ => false, true⟩
def exState : State :=
  ⟨fun t => if t = 0 then some ⟨100, 1000, 1, true, 5000, false, 0⟩ else none, fun a => if a = 1 then [0] else [],
   fun y => if y = 100 then 1 else 0⟩
def exLedger : Ledger (State × Unit) := ⟨[((5, 0), 1000)], fun _ => (exState, ()), [], fun _ => 0, fun _ => 0⟩

/-- The receive step that runs method `m` on the `i`-th open send. -/
def exRecv (L : Ledger (State × Unit)) (i : Nat) (m : Method) : Step (State × Unit) :=
  match L.flight[i]? with
  | none => .recv i .later
  | some s =>
    match doReceive (L.data assetAddr).1 s.from_ s.token s.amount none m with
    | none => .recv i (.failed none false)
    | some r => .recv i (.done (r.st, ()) r.burn r.sends none false)

theorem exRecv_genuine (L : Ledger (State × Unit)) (i : Nat) (m : Method) (s : Send) (hi : L.flight[i]? = some s)
    (hd : s.dest = assetAddr) (hk : s.kind = .call) (hs : doSend s.from_ s.amount m = true) : Genuine L (exRecv L i m) := by
  unfold exRecv
  simp only [hi]
  cases h : doReceive (L.data assetAddr).1 s.from_ s.token s.amount none m with
  | none => intro s' _ _ _ _ _ _ q; cases q
  | some r =>
    intro s' hs' data burn sends fee cb q
    rw [hi] at hs'
    obtain rfl := by simpa using hs'
    cases q
    exact ⟨fun _ => ⟨m, none, r, hs, h, rfl, rfl, rfl⟩, fun q => by rw [hd] at q; exact absurd q asset_ne_governance,
      fun q => by rw [hk] at q; cases q⟩

/-- Requests to play: a call with an amount and a fee, received at once with the given method, after which the reward is
taken up as well. -/
def exRun (L : Ledger (State × Unit)) (a t n fee : Nat) (m : Method) : Ledger (State × Unit) :=
  let L1 := step exEnv L (.send a ⟨.call, assetAddr, t, n, some fee⟩)
  let L2 := step exEnv L1 (exRecv L1 0 m)
  step exEnv L2 (.recv 0 .tooDeep)

/-- 5 issues a re-issuable token 77 of 300 out of at most 500, re-issues 150 to 6, 6 fails to re-issue and to burn as the token is
for the owner to burn, 5 burns 40, hands the token to 6, who closes it; then anybody may burn. -/
def exL1 := exRun exLedger 5 0 0 100 (.issue 77 100 300 true 500 true)
def exL2 := exRun exL1 5 0 0 0 (.reIssue 77 150 6)
def exL3 := exRun exL2 6 0 0 0 (.reIssue 77 10 6)
def exL4 := exRun exL3 6 77 10 0 .burn
def exL5 := exRun exL4 5 77 40 0 .burn
def exL6 := exRun exL5 5 0 0 0 (.transferOwnership 77 6)
def exL7 := exRun exL6 6 0 0 0 (.disableReIssue 77)
def exL8 := exRun exL7 5 77 60 0 .burn

example : (storage exL2).info 77 = some ⟨100, 450, 5, true, 500, true, 1⟩ ∧ wealth 77 exL2 = 450 ∧ getBal 6 77 exL2.bal = 150 ∧
    wealth 0 exL2 = 900 := by decide +kernel
example : (storage exL4).info 77 = some ⟨100, 450, 5, true, 500, true, 1⟩ ∧ getBal 6 77 exL4.bal = 150 := by decide +kernel
example : (storage exL5).info 77 = some ⟨100, 410, 5, true, 500, true, 1⟩ ∧ wealth 77 exL5 = 410 := by decide +kernel
example : (storage exL7).info 77 = some ⟨100, 410, 6, false, 0, false, 1⟩ ∧ (storage exL7).owned 5 = [] ∧
    (storage exL7).owned 6 = [77] := by decide +kernel
example : (storage exL8).info 77 = some ⟨100, 350, 6, false, 0, false, 1⟩ ∧ wealth 77 exL8 = 350 := by decide +kernel

theorem exLedger_supply : SupplyOk exLedger := by
  constructor
  · intro t ht
    simp only [vite] at ht
    have : ¬ (0 : Nat) = t := fun q => ht q.symm
    simp [supply, storage, exLedger, exState, wealth, Vm.Spec.total, Vm.Spec.inFlight, ht, this]
  · decide +kernel

theorem exState_records : RecordsOk exState := by
  have key : ∀ t x, exState.info t = some x → t = 0 ∧ x = ⟨100, 1000, 1, true, 5000, false, 0⟩ := by
    intro t x h
    simp only [exState] at h
    split at h
    · exact ⟨by assumption, by simpa using h.symm⟩
    · simp at h
  constructor
  · intro t x h; obtain ⟨_, rfl⟩ := key t x h; simp [maxWord]
  · intro t x h _; obtain ⟨_, rfl⟩ := key t x h; simp
  · intro t x h; obtain ⟨_, rfl⟩ := key t x h; simp [exState]
  · intro y; simp only [exState, tokenNameIndexMax]; split <;> omega
  · intro t u x y h h' _ _; rw [(key t x h).1, (key u y h').1]
  · intro o t
    constructor
    · intro h
      by_cases ho : o = 1
      · subst ho
        obtain rfl : t = 0 := by simpa [exState] using h
        exact ⟨_, rfl, rfl⟩
      · simp [exState, ho] at h
    · rintro ⟨x, hx, rfl⟩
      obtain ⟨rfl, rfl⟩ := key t x hx
      simp [exState]
  · intro o; simp only [exState]; split <;> simp

/-- The issue and the re-issue of the example are genuine steps. -/
example :
    let L1 := step exEnv exLedger (.send 5 ⟨.call, assetAddr, 0, 0, some 100⟩)
    GenuineRun exEnv exLedger
      [.send 5 ⟨.call, assetAddr, 0, 0, some 100⟩, exRecv L1 0 (.issue 77 100 300 true 500 true), .recv 0 .tooDeep] := by
  refine ⟨trivial, exRecv_genuine _ 0 _ ⟨5, assetAddr, .call, 0, 0, 100⟩ (by decide +kernel) rfl rfl (by decide +kernel), ?_, trivial⟩
  intro s _ _ _ _ _ _ q
  cases q

end Verif.Builtin.Asset
