import Verif.Vm.LedgerProps

/-! Concrete histories: the hypotheses of `LedgerProps` are met, and where fees are lost. -/

namespace Verif.Vm
open Spec

/-- Address 2 is the asset contract, 9 a contract written by a user, 3 a built-in contract; 5 and 6 are people. -/
def exEnv : Env := ⟨fun a => a = 2 ∨ a = 1 ∨ a = 3, fun a => a = 9 ∨ a = 8, true⟩
def exLedger : Ledger Nat := ⟨[((5, 0), 1000), ((5, 7), 50), ((9, 7), 20)], fun _ => 0, [], fun _ => 0, fun _ => 0⟩

theorem exLedger_nonneg : ∀ a t, 0 ≤ getBal a t exLedger.bal := by
  intro a t
  simp only [exLedger, getBal]
  split <;> try split <;> try split
  all_goals omega

/-- A call with 30 of token 7 runs, the contract passes 45 on and writes its data; a second call fails in the sends and
is refunded; a call with a fee to the built-in contract 3 succeeds and its fee is gone; the asset contract mints. -/
example :
    let L := run exEnv exLedger
      [.send 5 ⟨.call, 9, 7, 30, none⟩, .recv 0 (.done 4 false [⟨.call, 6, 7, 45, none⟩] none false),
       .send 5 ⟨.call, 9, 7, 20, none⟩, .recv 1 (.done 8 false [⟨.call, 6, 7, 45, none⟩] none false),
       .send 5 ⟨.call, 3, 0, 100, some 10⟩, .recv 2 (.done 1 false [] none false),
       .send 6 ⟨.call, 2, 0, 0, some 0⟩, .send 5 ⟨.call, 2, 0, 0, some 0⟩,
       .recv 3 (.done 1 false [⟨.reward, 5, 77, 1000, none⟩] none false), .recv 0 .tooDeep, .recv 0 .tooDeep]
    L.data 9 = 4 ∧ getBal 9 7 L.bal = 5 ∧ getBal 6 7 L.bal = 45 ∧ getBal 5 7 L.bal = 20 ∧ getBal 5 0 L.bal = 890 ∧
    L.burned 0 = 10 ∧ L.minted 77 = 1000 ∧ L.flight.map Send.kind = [.call, .reward] ∧ getBal 3 0 L.bal = 100 := by
  decide +kernel

/-- The hypotheses of `failed_call_refunded` on a call with amount and fee in different tokens. -/
example :
    let L := step exEnv exLedger (.send 5 ⟨.call, 3, 7, 30, some 10⟩)
    L.flight[0]? = some ⟨5, 3, .call, 7, 30, 10⟩ ∧
    (step exEnv L (.recv 0 (.failed none false))).flight = [⟨3, 5, .call, 7, 30, 0⟩, ⟨3, 5, .call, 0, 10, 0⟩] := by
  decide +kernel

example : Affordable exLedger.bal 5 7 30 10 ∧ ¬ Affordable exLedger.bal 5 0 995 10 := by
  constructor
  · intro t
    by_cases h7 : t = 7
    · subst h7; decide
    · by_cases h0 : t = 0
      · subst h0; decide
      · have : (7 : Nat) ≠ t := fun q => h7 q.symm
        have : (0 : Nat) ≠ t := fun q => h0 q.symm
        simp [cost, exLedger, getBal, vite, *]
  · intro h
    have := h 0
    revert this
    decide

/-- **Limits of C03.** A failed contract creation refunds the amount but keeps the creation fee, whatever the reason. -/
theorem failed_creation_keeps_fee :
    let L : Ledger Nat := { exLedger with flight := [⟨5, 8, .create, 7, 30, createContractFee⟩] }
    let L' := step exEnv L (.recv 0 (.failed none false))
    L'.flight = [⟨8, 5, .refund, 7, 30, 0⟩] ∧ L'.burned vite = createContractFee := by
  decide +kernel

/-- **Limits of C03.** A call that is too deep is not run and not refunded: the contract keeps the amount, the fee is gone. -/
theorem too_deep_call_keeps_value :
    let L : Ledger Nat := { exLedger with flight := [⟨5, 3, .call, 7, 30, 10⟩] }
    let L' := step exEnv L (.recv 0 .tooDeep)
    L'.flight = [] ∧ getBal 3 7 L'.bal = 30 ∧ L'.burned vite = 10 ∧ L'.data = L.data := by
  refine ⟨by decide +kernel, by decide +kernel, by decide +kernel, rfl⟩

/-- **Limits of C03.** When a built-in contract calls a built-in contract and the caller does not accept the refund call,
the receive block can never be produced: the step changes nothing and the send stays open. -/
theorem refused_refund_blocks :
    let L : Ledger Nat := { exLedger with flight := [⟨3, 2, .call, 7, 30, 0⟩] }
    (step exEnv L (.recv 0 (.failed none false))).flight = L.flight ∧
    (step exEnv L (.recv 0 (.failed none false))).bal = L.bal := by
  refine ⟨by decide +kernel, by decide +kernel⟩

end Verif.Vm
