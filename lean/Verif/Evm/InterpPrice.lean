import Verif.Evm.InterpMem
import Mathlib.Data.Nat.Log

/-! # C45: the exact price of an instruction -/

namespace Verif.Evm

open Verif.Bytes (Bytes num be)
open Verif.Evm.Word

/-- Number of bytes of a number without leading zeros. -/
def byteCount (n : Nat) : Nat := if n = 0 then 0 else Nat.log 256 n + 1

/-- Number of whole words that hold `n` bytes. -/
def wordCount (n : Nat) : Nat := (n + 31) / 32

/-- The price of an instruction by its operands, without the growth of the memory; the calls and SSTORE are not in this list.
Copies and hashes pay by the word, logs by topic and byte, EXP by the byte of the exponent, the others a constant. -/
def fee (t : QuotaTable) (i : Instr) (s : List Int) : Nat :=
  match i, s with
  | .bin .exp, _ :: y :: _ => t.exp + t.expByte * byteCount y.toNat
  | .sha3, _ :: n :: _ => t.blake2b + t.blake2bWord * wordCount n.toNat
  | .blake2b, _ :: n :: _ => t.blake2b + t.blake2bWord * wordCount n.toNat
  | .calldatacopy, _ :: _ :: n :: _ => t.callDataCopy + t.memCopyWord * wordCount n.toNat
  | .codecopy, _ :: _ :: n :: _ => t.codeCopy + t.memCopyWord * wordCount n.toNat
  | .returndatacopy, _ :: _ :: n :: _ => t.returnDataCopy + t.memCopyWord * wordCount n.toNat
  | .mload, _ => t.mload
  | .mstore, _ => t.mstore
  | .mstore8, _ => t.mstore8
  | .log k, _ :: n :: _ => t.log + t.logTopic * k + t.logData * n.toNat
  | i, _ => constGas t i

theorem byteLen_eq (n : Nat) : byteLen n = byteCount n := by
  induction n using Nat.strong_induction_on with
  | _ n ih =>
    rw [byteLen]
    unfold byteCount
    split
    · rfl
    · rename_i h
      rw [ih (n / 256) (Nat.div_lt_self (by omega) (by norm_num))]
      unfold byteCount
      by_cases h2 : n < 256
      · rw [if_pos (by omega), Nat.log_of_lt h2]
      · rw [if_neg (by omega), Nat.log_of_one_lt_of_le (b := 256) (n := n) (by norm_num) (by omega)]

theorem gasWords_exact {t : QuotaTable} {m mem : Mem} {sz base per : Nat} {size : Int} {c : Nat} (h0 : 0 ≤ size)
    (h : gasWords t m sz base per size = some (c, mem)) (hc : c < 2 ^ 32) (hper : 1 ≤ per) :
    ∃ g, memoryGasCost t m sz = some (g, mem) ∧ c = g + (base + per * wordCount size.toNat) := by
  unfold gasWords at h
  obtain ⟨⟨g, mem'⟩, hg, h⟩ := Option.bind_eq_some_iff.mp h
  obtain ⟨a, ha, h⟩ := Option.bind_eq_some_iff.mp h
  split at h
  · simp at h
  · obtain ⟨w, hw, h⟩ := Option.bind_eq_some_iff.mp h
    obtain ⟨b, hb, h⟩ := Option.map_eq_some_iff.mp h
    simp only [Prod.mk.injEq] at h
    obtain ⟨rfl, rfl⟩ := h
    refine ⟨g, hg, ?_⟩
    unfold addChecked at ha hb
    unfold mulChecked at hw
    split at ha
    · simp at ha
    split at hb
    · simp at hb
    split at hw
    · simp at hw
    simp only [Option.some.injEq] at ha hb hw
    have hws : toWordSize size.toNat = wordCount size.toNat := by
      have hle : toWordSize size.toNat * 1 ≤ toWordSize size.toNat * per := Nat.mul_le_mul_left _ hper
      unfold toWordSize maxUint64 at *
      unfold wordCount
      split
      · rename_i hbig
        rw [if_pos hbig] at hle hw
        omega
      · omega
    rw [hws, Nat.mul_comm] at hw
    omega

theorem gasMem_exact {t : QuotaTable} {m mem : Mem} {sz base : Nat} {c : Nat}
    (h : gasMem t m sz base = some (c, mem)) : ∃ g, memoryGasCost t m sz = some (g, mem) ∧ c = g + base := by
  unfold gasMem at h
  obtain ⟨⟨g, mem'⟩, hg, h⟩ := Option.bind_eq_some_iff.mp h
  obtain ⟨b, hb, h⟩ := Option.map_eq_some_iff.mp h
  simp only [Prod.mk.injEq] at h
  obtain ⟨rfl, rfl⟩ := h
  refine ⟨g, hg, ?_⟩
  unfold addChecked at hb
  split at hb
  · simp at hb
  · simp only [Option.some.injEq] at hb; omega

theorem gasLog_exact {t : QuotaTable} {m mem : Mem} {sz n : Nat} {size : Int} {c : Nat}
    (h : gasLog t m sz n size = some (c, mem)) :
    ∃ g, memoryGasCost t m sz = some (g, mem) ∧ c = g + (t.log + t.logTopic * n + t.logData * size.toNat) := by
  unfold gasLog at h
  split at h
  · simp at h
  · obtain ⟨⟨g, mem'⟩, hg, h⟩ := Option.bind_eq_some_iff.mp h
    obtain ⟨a, ha, h⟩ := Option.bind_eq_some_iff.mp h
    obtain ⟨b, hb, h⟩ := Option.bind_eq_some_iff.mp h
    obtain ⟨w, hw, h⟩ := Option.bind_eq_some_iff.mp h
    obtain ⟨d, hd, h⟩ := Option.map_eq_some_iff.mp h
    simp only [Prod.mk.injEq] at h
    obtain ⟨rfl, rfl⟩ := h
    refine ⟨g, hg, ?_⟩
    unfold addChecked at ha hb hd
    unfold mulChecked at hw
    split at ha
    · simp at ha
    split at hb
    · simp at hb
    split at hd
    · simp at hd
    split at hw
    · simp at hw
    simp only [Option.some.injEq] at ha hb hd hw
    rw [Nat.mul_comm t.logTopic, Nat.mul_comm t.logData]
    omega

theorem gasCost_exact {e : Env} (ht : e.table ∈ quotaTables) {i : Instr} {m : Machine} {sz c : Nat} {flag : Bool} {mem : Mem}
    {touched : List Nat} (hw : ∀ x ∈ m.stack, IsWord x) (hp : i.pops ≤ m.stack.length)
    (hs : memorySize i m.stack = some sz) (h : gasCost e i m sz = .cost c flag mem touched) (hc : c < 2 ^ 32)
    (hi : i ≠ .sstore ∧ i ≠ .call ∧ i ≠ .call2) :
    ∃ g, memoryGasCost e.table m.mem sz = some (g, mem) ∧ c = g + fee e.table i m.stack := by
  have htab : ∀ t ∈ quotaTables, 1 ≤ t.blake2bWord ∧ 1 ≤ t.memCopyWord := by decide +kernel
  obtain ⟨t1, t2⟩ := htab e.table ht
  have none : ∀ {c'}, i.memSize m.stack = Option.none → Price.cost c' true m.mem m.touched = .cost c flag mem touched →
      fee e.table i m.stack = c' →
      ∃ g, memoryGasCost e.table m.mem sz = some (g, mem) ∧ c = g + fee e.table i m.stack := by
    intro c' hn hc hf
    have hz : sz = 0 := by
      rw [memorySize, hn] at hs
      exact (Option.some.inj hs).symm
    subst hz
    simp only [Price.cost.injEq] at hc
    obtain ⟨rfl, rfl, rfl, rfl⟩ := hc
    exact ⟨0, memoryGasCost_zero _ _, by omega⟩
  have words : ∀ {base per : Nat} {size : Int}, Price.of m (gasWords e.table m.mem sz base per size) = .cost c flag mem touched →
      0 ≤ size → 1 ≤ per → fee e.table i m.stack = base + per * wordCount size.toNat →
      ∃ g, memoryGasCost e.table m.mem sz = some (g, mem) ∧ c = g + fee e.table i m.stack := by
    intro base per size h h0 hper hf
    obtain ⟨h1, h2, h3⟩ := priceOf_some h
    obtain ⟨g, hg, hcc⟩ := gasWords_exact h0 h1 hc hper
    exact ⟨g, hg, by rw [hf]; exact hcc⟩
  have mems : ∀ {base : Nat}, Price.of m (gasMem e.table m.mem sz base) = .cost c flag mem touched →
      fee e.table i m.stack = base →
      ∃ g, memoryGasCost e.table m.mem sz = some (g, mem) ∧ c = g + fee e.table i m.stack := by
    intro base h hf
    obtain ⟨h1, h2, h3⟩ := priceOf_some h
    obtain ⟨g, hg, hcc⟩ := gasMem_exact h1
    exact ⟨g, hg, by rw [hf]; exact hcc⟩
  cases i with
  | sha3 =>
    obtain ⟨a, b, t, hss⟩ := cons2 hp
    exact words h (by rw [hss]; exact (hw b (by simp [hss])).1) t1 (by rw [hss]; rfl)
  | blake2b =>
    obtain ⟨a, b, t, hss⟩ := cons2 hp
    exact words h (by rw [hss]; exact (hw b (by simp [hss])).1) t1 (by rw [hss]; rfl)
  | calldatacopy =>
    obtain ⟨a, b, c, t, hss⟩ := cons3 hp
    exact words h (by rw [hss]; exact (hw c (by simp [hss])).1) t2 (by rw [hss]; rfl)
  | codecopy =>
    obtain ⟨a, b, c, t, hss⟩ := cons3 hp
    exact words h (by rw [hss]; exact (hw c (by simp [hss])).1) t2 (by rw [hss]; rfl)
  | returndatacopy =>
    obtain ⟨a, b, c, t, hss⟩ := cons3 hp
    exact words h (by rw [hss]; exact (hw c (by simp [hss])).1) t2 (by rw [hss]; rfl)
  | mload => exact mems h rfl
  | mstore => exact mems h rfl
  | mstore8 => exact mems h rfl
  | log n =>
    obtain ⟨a, b, t, hss⟩ := cons2 (le_trans (by simp [Instr.pops]) hp : 2 ≤ m.stack.length)
    obtain ⟨h1, h2, h3⟩ := priceOf_some h
    obtain ⟨g, hg, hcc⟩ := gasLog_exact h1
    refine ⟨g, hg, ?_⟩
    rw [hss] at hcc ⊢
    exact hcc
  | ret =>
    obtain ⟨h1, h2, h3⟩ := priceOf_some h
    exact ⟨c, h1, rfl⟩
  | revert =>
    obtain ⟨h1, h2, h3⟩ := priceOf_some h
    exact ⟨c, h1, rfl⟩
  | call => exact absurd rfl hi.2.1
  | call2 => exact absurd rfl hi.2.2
  | sstore => exact absurd rfl hi.1
  | bin b =>
    cases b with
    | exp =>
      obtain ⟨x, y, t, hss⟩ := cons2 hp
      have hy := (hw y (by simp [hss])).1
      refine none rfl h ?_
      rw [hss]
      simp only [fee, gasExp, back, List.getD_cons_succ, List.getD_cons_zero]
      rw [byteLen_eq, show y.natAbs = y.toNat by omega]
      ring
    | _ => exact none rfl h rfl
  | _ => exact none rfl h rfl

/-- **C45.** An instruction other than SSTORE and the calls costs exactly its fee and the price of the memory it adds. -/
theorem price_exact {e : Env} (ok : e.Ok) {q : Nat} (hq : q < 2 ^ 32) {m m' : Machine} (h : Reach e (init q) m)
    {i : Instr} (hi : decode e.set (getOp e.code m.pc) = some i) (hne : i ≠ .sstore ∧ i ≠ .call ∧ i ≠ .call2)
    (hs : step e m = .next m') :
    m'.quota + fee e.table i m.stack + memPrice e.table (m'.mem.store.length / 32) =
      m.quota + memPrice e.table (m.mem.store.length / 32) := by
  have inv := inv_reach ok hq h
  obtain ⟨i', sz, c, flag, mem, touched, m1, m2, hf, hx, hm⟩ := step_next hs
  have : i' = i := by have := hf.dec; rw [hi] at this; exact (Option.some.inj this).symm
  subst this
  have hch := fired_charged ok hq inv hf
  obtain ⟨hqq, -⟩ := hch.quota hne.1
  have hpaid := inv.paid
  obtain ⟨g, hg, hc⟩ := gasCost_exact ok.table inv.wide.words hf.pops hf.size hf.gas (by omega) hne
  obtain ⟨w, hw, hlast⟩ := inv.memory
  obtain ⟨w', hw', hlast'⟩ := hch.memory
  obtain ⟨-, -, h3, -, -⟩ := memory_charge ok.table hw hlast (memorySize_dvd hf.size) hg (by omega)
  have hk := execute_kept hx
  have hlg : m1.mem.lastGas = mem.lastGas := by
    rw [hf.stack.2.2.2.2.2.1]; split
    · exact (resize_facts e mem sz).2.1
    · rfl
  have e1 : m'.quota = m1.quota ∧ m'.mem.store.length = m1.mem.store.length := by
    rw [hm]; split <;> exact ⟨hk.quota, hk.memLen⟩
  rw [e1.1, e1.2, hw, hw', Nat.mul_div_cancel_left _ (by norm_num), Nat.mul_div_cancel_left _ (by norm_num), ← hlast, ← hlast']
  omega

end Verif.Evm
