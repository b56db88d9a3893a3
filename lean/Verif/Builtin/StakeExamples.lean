import Verif.Builtin.StakeProps

/-! Concrete cases of the staking theorems, and two findings about the mix of old and new calls. -/

namespace Verif.Builtin.Stake
open Verif.Vm Spec

/-- 200 VITE. -/
abbrev x200 : Nat := 200 * 10 ^ 18

/-- An empty contract. -/
def st0 : State := ⟨[], fun _ => 0, fun _ => none, 1⟩

theorem st0_ok : Ok st0 :=
  ⟨List.Pairwise.nil, by simp [st0], by simp [st0], by simp [st0], by simp [st0], fun b => by simp [st0, stakedFor, sumOf]⟩

/-- 10 stakes for 20, with an id. -/
def st1 : State := (stakeV3 ⟨2, 1000, 600, 77⟩ st0 10 x200 20 none none).st
/-- 30 stakes for 20 on behalf of 10. -/
def st2 : State := (delegateStake ⟨3, 1100, 600, 78⟩ st1 30 x200 10 20 0 700 none).st

theorem st1_ok : Ok st1 := by
  obtain ⟨_, h⟩ := receive_change (c := ⟨2, 1000, 600, 77⟩) (sender := 10) (amount := x200) (fee := none) (m := .stakeV3 20 none)
    (res := stakeV3 ⟨2, 1000, 600, 77⟩ st0 10 x200 20 none none) st0_ok (by decide) ⟨600, vite, by decide +kernel⟩ rfl
  exact ok_change st0_ok (by decide) rfl h

theorem st2_ok : Ok st2 := by
  obtain ⟨_, h⟩ := receive_change (c := ⟨3, 1100, 600, 78⟩) (sender := 30) (amount := x200) (fee := none)
    (m := .delegateStake 10 20 0 700) (res := delegateStake ⟨3, 1100, 600, 78⟩ st1 30 x200 10 20 0 700 none)
    st1_ok (by decide) ⟨600, vite, by decide +kernel⟩ rfl
  exact ok_change st1_ok (by decide) (by decide +kernel) h

/-- Two records of different payers under one stake address; the sum for the beneficiary is the sum of both. -/
example : st2.recs = [⟨10, 2, x200, 1600, 20, none, 0, some 77⟩, ⟨10, 3, x200, 1800, 20, some 30, 0, none⟩] ∧
    st2.beneficial 20 = 2 * x200 := by decide +kernel

/-- Due, the first goes back to 10; the delegated one goes back to 30 and not to 10, and not before 1800. -/
example : (doReceive ⟨4, 1600, 600, 79⟩ st2 10 0 none (.cancelStakeV3 77)).map (fun x => (x.st.recs.length, x.sends)) =
    some (1, [⟨.call, 10, vite, x200, none⟩]) := by decide +kernel
example : (doReceive ⟨4, 1599, 600, 79⟩ st2 10 0 none (.cancelStakeV3 77)).isNone = true := by decide +kernel
example : (doReceive ⟨4, 1800, 600, 79⟩ st2 30 0 none (.cancelDelegateStake 10 20 x200 0)).map (·.sends) =
    some [⟨.call, 30, vite, x200, none⟩] := by decide +kernel
example : (doReceive ⟨4, 1800, 600, 79⟩ st2 10 0 none (.cancelDelegateStake 10 20 x200 0)).isNone = true := by decide +kernel
example : (doReceive ⟨4, 1799, 600, 79⟩ st2 30 0 none (.cancelDelegateStake 10 20 x200 0)).isNone = true := by decide +kernel

/-! A history in the ledger. -/

def env : Env := ⟨fun a => a == quotaAddr || a == governanceAddr || a == assetAddr, fun _ => false, true⟩

def L0 : Ledger (State × Unit) := ⟨[((10, vite), 1000 * 10 ^ 18)], fun _ => (st0, ()), [], fun _ => 0, fun _ => 0⟩

/-- 10 sends 200 VITE and stakes them for 20, waits and cancels. -/
def history : List (Step (State × Unit)) :=
  [.send 10 ⟨.call, quotaAddr, vite, x200, some 0⟩,
   .recv 0 (.done (st1, ()) false [] none false),
   .send 10 ⟨.call, quotaAddr, vite, 0, some 0⟩,
   .recv 0 (.done ((cancelStakeV3 ⟨3, 1600, 600, 78⟩ st1 10 77 none).elim st0 (·.st), ()) false [⟨.call, 10, vite, x200, none⟩] none false),
   .recv 0 (.done (st0, ()) false [] none false)]

/-- After two blocks the stake is held and backed, after all of them the money is back. -/
example : getBal quotaAddr vite (run env L0 (history.take 2)).bal = x200 ∧ getBal 10 vite (run env L0 (history.take 2)).bal = 800 * 10 ^ 18 ∧
    staked (storage (run env L0 (history.take 2))).recs = x200 ∧
    getBal quotaAddr vite (run env L0 history).bal = 0 ∧ getBal 10 vite (run env L0 history).bal = 1000 * 10 ^ 18 := by
  decide +kernel

/-- Such a history satisfies the hypotheses of `stakes_backed`. -/
example : GenuineRun 600 env L0 (history.take 2) := by
  refine ⟨⟨trivial, show (10 : Nat) ≠ quotaAddr by decide⟩, ⟨?_, ?_⟩, trivial⟩
  · intro s hs hd data burn sends fee cb ho
    have hs' : s = ⟨10, quotaAddr, .call, vite, x200, 0⟩ := by
      have : (step env L0 (.send 10 ⟨.call, quotaAddr, vite, x200, some 0⟩)).flight[0]? = some ⟨10, quotaAddr, .call, vite, x200, 0⟩ := by
        decide +kernel
      rw [this] at hs
      exact (Option.some.inj hs).symm
    subst hs'
    cases ho
    exact ⟨⟨2, 1000, 600, 77⟩, .stakeV3 20 none, none, stakeV3 ⟨2, 1000, 600, 77⟩ st0 10 x200 20 none none, by decide +kernel, rfl,
      by decide +kernel, by decide +kernel, rfl, rfl, rfl⟩
  · intro s hs hd
    have hs' : s = ⟨10, quotaAddr, .call, vite, x200, 0⟩ := by
      have : (step env L0 (.send 10 ⟨.call, quotaAddr, vite, x200, some 0⟩)).flight[0]? = some ⟨10, quotaAddr, .call, vite, x200, 0⟩ := by
        decide +kernel
      rw [this] at hs
      exact (Option.some.inj hs).symm
    subst hs'
    exact ⟨by decide, rfl, by intro data burn sends fee cb ho; cases ho; simp⟩

example : Ok (storage L0) ∧ (staked (storage L0).recs : Int) ≤ funds L0 := ⟨st0_ok, by decide +kernel⟩

/-! ### Findings -/

/-- The old stake call merges into a record made by the new one and sets its due height anew, which brings it forward if
the record was made with a longer lock: contracts_quota.go:56-65 rewrites whatever record `getStakeInfo` finds. Here a
stake locked until 1000 + 10000 becomes due at 1001 + 600. -/
theorem restake_shortens_lock : ∃ (st : State) (c : Ctx) (r r' : Rec) (res : Result), Ok st ∧ st.seen < c.height ∧
    doReceive c st 10 x200 none (.stake 20) = some res ∧ r ∈ st.recs ∧ r' ∈ res.st.recs ∧ r'.key = r.key ∧
    r'.expiry < r.expiry := by
  refine ⟨(stakeV3 ⟨2, 1000, 600, 77⟩ st0 10 x200 20 (some 10000) none).st, ⟨3, 1001, 600, 78⟩,
    ⟨10, 2, x200, 11000, 20, none, 0, some 77⟩, ⟨10, 2, 2 * x200, 1601, 20, none, 0, none⟩,
    stake ⟨3, 1001, 600, 78⟩ (stakeV3 ⟨2, 1000, 600, 77⟩ st0 10 x200 20 (some 10000) none).st 10 x200 20, ?_, by decide +kernel,
    by simp only [doReceive], by decide +kernel, by decide +kernel, by decide +kernel, by decide +kernel⟩
  obtain ⟨_, h⟩ := receive_change (c := ⟨2, 1000, 600, 77⟩) (sender := 10) (amount := x200) (fee := none)
    (m := .stakeV3 20 (some 10000))
    (res := stakeV3 ⟨2, 1000, 600, 77⟩ st0 10 x200 20 (some 10000) none) st0_ok (by decide) ⟨600, vite, by decide +kernel⟩ rfl
  exact ok_change st0_ok (by decide) rfl h

/-- Storage as a genesis block may write it: ten stake records of address 10 with indexes 0 to 9
(ledger/chain/genesis/account_block.go:218-251), the contract's chain at height 1. The clause `indexes` of `Ok` fails. -/
def genesis : State :=
  ⟨(List.range 10).map (fun i => ⟨10, i, x200, 0, 100 + i, none, 0, none⟩),
   fun b => if 100 ≤ b ∧ b < 110 then x200 else 0, fun _ => none, 1⟩

/-- The calls of `genesis_index_reuse_loses_stake`: the storage before the last call, and its result. -/
def reuse : Option (State × Result) :=
  let a := (stakeV3 ⟨2, 1000, 600, 77⟩ genesis 10 x200 20 none none).st
  let b := (stake ⟨3, 1001, 600, 78⟩ a 10 x200 20).st
  (cancelStake ⟨4, 2000, 600, 79⟩ b 10 20 (2 * x200) none).bind (fun c =>
    let d := (delegateStake ⟨5, 2001, 600, 80⟩ c.st 30 x200 10 20 0 600 none).st
    (doReceive ⟨6, 3000, 600, 81⟩ d 10 0 none (.cancelStakeV3 77)).map (fun r => (d, r)))

/-- Without that clause ownership is lost: with more genesis records than blocks, an index is used twice. 10 stakes by
the new call (id 77), merges with the old call, cancels with the old call, which leaves the id behind; 30 then stakes on
behalf of 10 and gets the freed key; and 10 cancels id 77, which pays 30's money to 10. -/
theorem genesis_index_reuse_loses_stake :
    reuse.map (fun x => (stakedBy 30 x.1.recs, stakedBy 30 x.2.st.recs, x.2.sends)) =
      some (x200, 0, [⟨.call, 10, vite, x200, none⟩]) := by
  decide +kernel

end Verif.Builtin.Stake
