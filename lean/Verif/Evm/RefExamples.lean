import Verif.Evm.RefStep
import Verif.Evm.InterpQuota
import Verif.Evm.InterpPrice
import Verif.Evm.InterpExamples

/-!
# The reference machine: cases that meet the hypotheses, and the two differences

Code without the bytes of SAR and CALL2 cannot meet the known differences, so `run_refines` holds for it without exception.
-/

namespace Verif.Evm

open Verif.Bytes (Bytes num be)

theorem not_differs {e : Env} (h1 : (0x1d : UInt8) ∉ e.code) (h2 : (0xf2 : UInt8) ∉ e.code) (m : Machine) : ¬ Differs e m := by
  have key : ∀ b : UInt8, b ≠ 0 → b ∉ e.code → getOp e.code m.pc ≠ b.toNat := by
    intro b hb hn hc
    unfold getOp at hc
    rcases h : e.code[m.pc]? with _ | x
    · rw [h] at hc
      simp at hc
      exact hb (UInt8.toNat_inj.mp (by simpa using hc.symm))
    · rw [h] at hc
      simp only [Option.map_some, Option.getD_some] at hc
      have := UInt8.toNat_inj.mp hc
      subst this
      exact hn (List.mem_of_getElem? h)
  rintro (⟨h, -⟩ | ⟨h, -⟩)
  · exact key 0x1d (by decide) h1 h
  · exact key 0xf2 (by decide) h2 h

/-- **C43.** Code without the bytes of SAR and CALL2 does what the reference machine does. -/
theorem run_refines {e : Env} (ok : e.Ok) {q : Nat} (hq : q < 2 ^ 32) (h1 : (0x1d : UInt8) ∉ e.code)
    (h2 : (0xf2 : UInt8) ∉ e.code) {n : Nat} {m' : Machine} {ret : Bytes} :
    (run e n (init q) = some (m', .ok ret) → Ref.Eval e (Ref.start e) (.returned (abs e m') ret)) ∧
    (run e n (init q) = some (m', .reverted ret) → Ref.Eval e (Ref.start e) (.reverted ret)) :=
  run_refines_partial ok hq (fun m _ => not_differs h1 h2 m)

/-- The counting loop: the reference machine returns 42 too. -/
example : ∃ σ, Ref.Eval (sampleEnv loopCode []) (Ref.start (sampleEnv loopCode [])) (.returned σ (be 32 42)) := by
  have h : ((run (sampleEnv loopCode []) 200 (init 100000)).map (fun x => x.2)) = some (.ok (be 32 42)) := by decide +kernel
  obtain ⟨⟨m', r⟩, h1, h2⟩ := Option.map_eq_some_iff.mp h
  simp only at h2
  subst h2
  exact ⟨_, (run_refines (sampleEnv_ok _ _ (by decide) (by decide)) (by norm_num) (by decide) (by decide)).1 h1⟩

/-- A revert with data. -/
example : Ref.Eval (sampleEnv [0x60, 3, 0x60, 0, 0xfd] []) (Ref.start (sampleEnv [0x60, 3, 0x60, 0, 0xfd] [])) (.reverted [0, 0, 0]) := by
  have h : ((run (sampleEnv [0x60, 3, 0x60, 0, 0xfd] []) 9 (init 1000)).map (fun x => x.2)) = some (.reverted [0, 0, 0]) := by
    decide +kernel
  obtain ⟨⟨m', r⟩, h1, h2⟩ := Option.map_eq_some_iff.mp h
  simp only at h2
  subst h2
  exact (run_refines (sampleEnv_ok _ _ (by decide) (by decide)) (by norm_num) (by decide) (by decide)).2 h1

/-- **Defect (C08, C43).** `PUSH1 0 PUSH2 256 SAR PUSH1 0 MSTORE PUSH1 32 PUSH1 0 RETURN` returns minus one, although zero
shifted to the right is zero. -/
def sarCode : Bytes := [0x60, 0, 0x61, 1, 0, 0x1d, 0x60, 0, 0x52, 0x60, 32, 0x60, 0, 0xf3]

theorem sar_differs : ((run (sampleEnv sarCode []) 20 (init 1000)).map (·.2)) = some (.ok (List.replicate 32 255)) ∧
    Ref.binary .sar 256 0 = 0 := by decide +kernel

/-- The run that ends for want of quota is the only one that depends on it (C44): 500 is too little, 100000 and 200000 agree. -/
example : ((run (sampleEnv loopCode []) 200 (init 500)).map (·.2)) = some (.err .outOfQuota) ∧
    ((run (sampleEnv loopCode []) 200 (init 200000)).map (fun x => (x.2, x.1.quota))) =
      ((run (sampleEnv loopCode []) 200 (init 100000)).map (fun x => (x.2, x.1.quota + 100000))) := by decide +kernel

/-- Prices (C45): hashing 64 bytes costs the base price, two words, and the growth of the memory by two words. -/
def hashCode : Bytes := [0x60, 64, 0x60, 0, 0x20, 0]

example : ((steps (sampleEnv hashCode []) 2 (init 1000)).map (fun m => (m.quota, fee version10Table .sha3 m.stack))) =
      some (1000 - 2 * version10Table.push, version10Table.blake2b + version10Table.blake2bWord * 2) ∧
    ((steps (sampleEnv hashCode []) 3 (init 1000)).map (fun m => (m.quota, m.mem.store.length))) =
      some (1000 - 2 * version10Table.push - (version10Table.blake2b + version10Table.blake2bWord * 2) - memPrice version10Table 2, 64) := by
  refine ⟨?_, by decide +kernel⟩
  have h : ((steps (sampleEnv hashCode []) 2 (init 1000)).map (fun m => (m.quota, m.stack))) =
      some (1000 - 2 * version10Table.push, [0, 64]) := by decide +kernel
  obtain ⟨m, h1, h2⟩ := Option.map_eq_some_iff.mp h
  simp only [Prod.mk.injEq] at h2
  rw [h1]
  simp only [Option.map_some, h2.1, h2.2, fee]
  rfl

end Verif.Evm
