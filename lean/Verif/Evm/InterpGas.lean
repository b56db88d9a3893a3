import Verif.Evm.InterpWords

/-! # What instructions cost -/

namespace Verif.Evm

open Verif.Bytes (Bytes num be)
open Verif.Evm.Word

theorem memoryGasCost_zero (t : QuotaTable) (m : Mem) : memoryGasCost t m 0 = some (0, m) := by simp [memoryGasCost]

theorem gasWords_fact {t : QuotaTable} {m mem : Mem} {sz base per : Nat} {size : Int} {c : Nat}
    (h : gasWords t m sz base per size = some (c, mem)) :
    ∃ g, memoryGasCost t m sz = some (g, mem) ∧ g + base ≤ c := by
  unfold gasWords at h
  obtain ⟨⟨g, mem'⟩, hg, h⟩ := Option.bind_eq_some_iff.mp h
  obtain ⟨a, ha, h⟩ := Option.bind_eq_some_iff.mp h
  split at h
  · simp at h
  · obtain ⟨w, hw, h⟩ := Option.bind_eq_some_iff.mp h
    obtain ⟨b, hb, h⟩ := Option.map_eq_some_iff.mp h
    simp only [Prod.mk.injEq] at h
    obtain ⟨rfl, rfl⟩ := h
    refine ⟨g, hg, ?_⟩
    unfold addChecked at ha hb
    split at ha
    · simp at ha
    · split at hb
      · simp at hb
      · simp only [Option.some.injEq] at ha hb; omega

theorem gasMem_fact {t : QuotaTable} {m mem : Mem} {sz base : Nat} {c : Nat}
    (h : gasMem t m sz base = some (c, mem)) : ∃ g, memoryGasCost t m sz = some (g, mem) ∧ g + base ≤ c := by
  unfold gasMem at h
  obtain ⟨⟨g, mem'⟩, hg, h⟩ := Option.bind_eq_some_iff.mp h
  obtain ⟨b, hb, h⟩ := Option.map_eq_some_iff.mp h
  simp only [Prod.mk.injEq] at h
  obtain ⟨rfl, rfl⟩ := h
  refine ⟨g, hg, ?_⟩
  unfold addChecked at hb
  split at hb
  · simp at hb
  · simp only [Option.some.injEq] at hb; omega

theorem gasLog_fact {t : QuotaTable} {m mem : Mem} {sz n : Nat} {size : Int} {c : Nat}
    (h : gasLog t m sz n size = some (c, mem)) :
    ∃ g, memoryGasCost t m sz = some (g, mem) ∧ g + t.log + size.toNat * t.logData ≤ c := by
  unfold gasLog at h
  split at h
  · simp at h
  · obtain ⟨⟨g, mem'⟩, hg, h⟩ := Option.bind_eq_some_iff.mp h
    obtain ⟨a, ha, h⟩ := Option.bind_eq_some_iff.mp h
    obtain ⟨b, hb, h⟩ := Option.bind_eq_some_iff.mp h
    obtain ⟨w, hw, h⟩ := Option.bind_eq_some_iff.mp h
    obtain ⟨d, hd, h⟩ := Option.map_eq_some_iff.mp h
    simp only [Prod.mk.injEq] at h
    obtain ⟨rfl, rfl⟩ := h
    refine ⟨g, hg, ?_⟩
    unfold addChecked at ha hb hd
    unfold mulChecked at hw
    split at ha
    · simp at ha
    split at hb
    · simp at hb
    split at hd
    · simp at hd
    split at hw
    · simp at hw
    simp only [Option.some.injEq] at ha hb hd hw; omega

/-- Gas-relevant facts of a price: the memory part, the flag and the touched locations. -/
structure Priced (e : Env) (i : Instr) (m : Machine) (sz c : Nat) (flag : Bool) (mem : Mem) (touched : List Nat) : Prop where
  memory : ∃ g, memoryGasCost e.table m.mem sz = some (g, mem) ∧ (flag = true → g ≤ c)
  flag : i ≠ .sstore → flag = true ∧ touched = m.touched

theorem gasCall_fact {e : Env} {m : Machine} {sz c : Nat} {flag : Bool} {mem : Mem} {touched : List Nat}
    (h : gasCall e m sz = .cost c flag mem touched) :
    (∃ g, memoryGasCost e.table m.mem sz = some (g, mem) ∧ g ≤ c) ∧ flag = true ∧ touched = m.touched ∧
      ∃ d, m.mem.get (toInt64 (back m.stack 3)) (toInt64 (back m.stack 4)) = some d := by
  unfold gasCall at h
  split at h
  · simp at h
  · rename_i g mem' hg
    split at h
    · simp at h
    · rename_i d hd
      split at h
      · simp at h
      · split at h
        · split at h
          · simp at h
          · rename_i ha
            simp only [Price.cost.injEq] at h
            obtain ⟨rfl, rfl, rfl, rfl⟩ := h
            refine ⟨⟨g, hg, ?_⟩, rfl, rfl, d, hd⟩
            unfold addChecked at ha
            split at ha
            · simp at ha
            · simp only [Option.some.injEq] at ha; omega
        · simp only [Price.cost.injEq] at h
          obtain ⟨rfl, rfl, rfl, rfl⟩ := h
          exact ⟨⟨g, hg, le_refl _⟩, rfl, rfl, d, hd⟩

/-- Everything about the price of a write. -/
theorem gasSStore_fact {e : Env} {m : Machine} {c : Nat} {flag : Bool} {mem : Mem} {touched : List Nat}
    (h : gasSStore e m = .cost c flag mem touched) :
    mem = m.mem ∧ touched = (if e.limit then touch m.touched (back m.stack 0).toNat else m.touched) ∧
      (e.limit = true → touched.length ≤ 100) ∧
      (c, flag) = sstorePrice e.table (e.orig (back m.stack 0).toNat)
        (getValue e.orig m.store (back m.stack 0).toNat) (bytesOf (back m.stack 1)) := by
  unfold gasSStore at h
  dsimp only at h
  generalize (if e.limit then touch m.touched (back m.stack 0).toNat else m.touched) = tt at h ⊢
  by_cases hc : e.limit = true ∧ tt.length > modifyStorageMax
  · rw [if_pos hc] at h; simp at h
  · rw [if_neg hc] at h
    simp only [Price.cost.injEq] at h
    obtain ⟨h1, h2, rfl, rfl⟩ := h
    refine ⟨rfl, rfl, fun hl => ?_, by rw [← h1, ← h2]⟩
    unfold modifyStorageMax at hc
    have : ¬ (tt.length > 100) := fun hh => hc ⟨hl, hh⟩
    omega

theorem priceOf_some {m : Machine} {o : Option (Nat × Mem)} {c : Nat} {flag : Bool} {mem : Mem} {touched : List Nat}
    (h : Price.of m o = .cost c flag mem touched) : o = some (c, mem) ∧ flag = true ∧ touched = m.touched := by
  unfold Price.of at h
  split at h
  · simp at h
  · simp only [Price.cost.injEq] at h
    obtain ⟨rfl, rfl, rfl, rfl⟩ := h
    exact ⟨rfl, rfl, rfl⟩

theorem gasCost_priced {e : Env} {i : Instr} {m : Machine} {sz c : Nat} {flag : Bool} {mem : Mem} {touched : List Nat}
    (hs : memorySize i m.stack = some sz) (h : gasCost e i m sz = .cost c flag mem touched) :
    Priced e i m sz c flag mem touched := by
  have words : ∀ {base per : Nat} {size : Int}, Price.of m (gasWords e.table m.mem sz base per size) = .cost c flag mem touched →
      Priced e i m sz c flag mem touched := by
    intro base per size h
    obtain ⟨h1, h2, h3⟩ := priceOf_some h
    obtain ⟨g, hg, hc⟩ := gasWords_fact h1
    exact ⟨⟨g, hg, fun _ => by omega⟩, fun _ => ⟨h2, h3⟩⟩
  have mems : ∀ {base : Nat}, Price.of m (gasMem e.table m.mem sz base) = .cost c flag mem touched →
      Priced e i m sz c flag mem touched := by
    intro base h
    obtain ⟨h1, h2, h3⟩ := priceOf_some h
    obtain ⟨g, hg, hc⟩ := gasMem_fact h1
    exact ⟨⟨g, hg, fun _ => by omega⟩, fun _ => ⟨h2, h3⟩⟩
  have none : ∀ {c'}, i.memSize m.stack = Option.none → Price.cost c' true m.mem m.touched = .cost c flag mem touched →
      Priced e i m sz c flag mem touched := by
    intro c' hn hc
    have hz : sz = 0 := by
      rw [memorySize, hn] at hs
      exact (Option.some.inj hs).symm
    subst hz
    simp only [Price.cost.injEq] at hc
    obtain ⟨rfl, rfl, rfl, rfl⟩ := hc
    exact ⟨⟨0, memoryGasCost_zero _ _, fun _ => by omega⟩, fun _ => ⟨rfl, rfl⟩⟩
  cases i with
  | sha3 => exact words h
  | blake2b => exact words h
  | calldatacopy => exact words h
  | codecopy => exact words h
  | returndatacopy => exact words h
  | mload => exact mems h
  | mstore => exact mems h
  | mstore8 => exact mems h
  | log n =>
    obtain ⟨h1, h2, h3⟩ := priceOf_some h
    obtain ⟨g, hg, hc⟩ := gasLog_fact h1
    exact ⟨⟨g, hg, fun _ => by omega⟩, fun _ => ⟨h2, h3⟩⟩
  | ret =>
    obtain ⟨h1, h2, h3⟩ := priceOf_some h
    exact ⟨⟨c, h1, fun _ => le_refl _⟩, fun _ => ⟨h2, h3⟩⟩
  | revert =>
    obtain ⟨h1, h2, h3⟩ := priceOf_some h
    exact ⟨⟨c, h1, fun _ => le_refl _⟩, fun _ => ⟨h2, h3⟩⟩
  | call =>
    obtain ⟨⟨g, hg, hc⟩, h2, h3, -⟩ := gasCall_fact h
    exact ⟨⟨g, hg, fun _ => hc⟩, fun _ => ⟨h2, h3⟩⟩
  | call2 =>
    obtain ⟨⟨g, hg, hc⟩, h2, h3, -⟩ := gasCall_fact h
    exact ⟨⟨g, hg, fun _ => hc⟩, fun _ => ⟨h2, h3⟩⟩
  | sstore =>
    refine ⟨?_, fun hn => absurd rfl hn⟩
    simp only [memorySize, Instr.memSize, Option.some.injEq] at hs
    subst hs
    simp only [gasCost] at h
    rw [(gasSStore_fact h).1]
    exact ⟨0, memoryGasCost_zero _ _, fun _ => by omega⟩
  | bin b => cases b <;> exact none rfl h
  | _ => exact none rfl h

/-- The only instructions that may be free: those that end the run, SSTORE (it may even be refunded) and the calls (the
first part of their price was paid in advance). -/
def Instr.mayBeFree : Instr → Bool
  | .stop | .ret | .revert | .sstore | .call | .call2 => true
  | _ => false

theorem constGas_pos {t : QuotaTable} (ht : t ∈ quotaTables) {i : Instr} (hf : i.mayBeFree = false)
    (hm : ∀ s, i.memSize s = none) (he : i ≠ .bin .exp) : 1 ≤ constGas t i := by
  simp only [quotaTables, List.mem_cons, List.not_mem_nil, or_false] at ht
  rcases ht with rfl | rfl | rfl
  all_goals
    cases i with
    | bin b => cases b <;> first | exact absurd rfl he | (simp only [constGas]; decide +kernel)
    | src s => cases s <;> (simp only [constGas]; decide +kernel)
    | stop => simp [Instr.mayBeFree] at hf
    | ret => simp [Instr.mayBeFree] at hf
    | revert => simp [Instr.mayBeFree] at hf
    | sstore => simp [Instr.mayBeFree] at hf
    | call => simp [Instr.mayBeFree] at hf
    | call2 => simp [Instr.mayBeFree] at hf
    | sha3 => simp [Instr.memSize] at hm
    | blake2b => simp [Instr.memSize] at hm
    | calldatacopy => simp [Instr.memSize] at hm
    | codecopy => simp [Instr.memSize] at hm
    | returndatacopy => simp [Instr.memSize] at hm
    | mload => simp [Instr.memSize] at hm
    | mstore => simp [Instr.memSize] at hm
    | mstore8 => simp [Instr.memSize] at hm
    | log n => simp [Instr.memSize] at hm
    | _ => (simp only [constGas]; decide +kernel)

/-- Base prices of the instructions with a computed price. -/
theorem base_pos {t : QuotaTable} (ht : t ∈ quotaTables) :
    1 ≤ t.exp ∧ 1 ≤ t.blake2b ∧ 1 ≤ t.callDataCopy ∧ 1 ≤ t.codeCopy ∧ 1 ≤ t.returnDataCopy ∧ 1 ≤ t.mload ∧
      1 ≤ t.mstore ∧ 1 ≤ t.mstore8 ∧ 1 ≤ t.log := by
  have : ∀ t ∈ quotaTables, 1 ≤ t.exp ∧ 1 ≤ t.blake2b ∧ 1 ≤ t.callDataCopy ∧ 1 ≤ t.codeCopy ∧ 1 ≤ t.returnDataCopy ∧
    1 ≤ t.mload ∧ 1 ≤ t.mstore ∧ 1 ≤ t.mstore8 ∧ 1 ≤ t.log := by decide +kernel
  exact this t ht

theorem gasCost_pos {e : Env} (ht : e.table ∈ quotaTables) {i : Instr} {m : Machine} {sz c : Nat} {flag : Bool} {mem : Mem}
    {touched : List Nat} (hf : i.mayBeFree = false) (h : gasCost e i m sz = .cost c flag mem touched) : 1 ≤ c := by
  obtain ⟨b1, b2, b3, b4, b5, b6, b7, b8, b9⟩ := base_pos ht
  have words : ∀ {base per : Nat} {size : Int}, 1 ≤ base →
      Price.of m (gasWords e.table m.mem sz base per size) = .cost c flag mem touched → 1 ≤ c := by
    intro base per size hb h
    obtain ⟨g, hg, hc⟩ := gasWords_fact (priceOf_some h).1
    omega
  have mems : ∀ {base : Nat}, 1 ≤ base → Price.of m (gasMem e.table m.mem sz base) = .cost c flag mem touched → 1 ≤ c := by
    intro base hb h
    obtain ⟨g, hg, hc⟩ := gasMem_fact (priceOf_some h).1
    omega
  have const : (∀ s, i.memSize s = none) → i ≠ .bin .exp →
      Price.cost (constGas e.table i) true m.mem m.touched = .cost c flag mem touched → 1 ≤ c := by
    intro hm he h
    simp only [Price.cost.injEq] at h
    rw [← h.1]
    exact constGas_pos ht hf hm he
  cases i with
  | sha3 => exact words b2 h
  | blake2b => exact words b2 h
  | calldatacopy => exact words b3 h
  | codecopy => exact words b4 h
  | returndatacopy => exact words b5 h
  | mload => exact mems b6 h
  | mstore => exact mems b7 h
  | mstore8 => exact mems b8 h
  | log n =>
    obtain ⟨g, hg, hc⟩ := gasLog_fact (priceOf_some h).1
    omega
  | stop => simp [Instr.mayBeFree] at hf
  | ret => simp [Instr.mayBeFree] at hf
  | revert => simp [Instr.mayBeFree] at hf
  | sstore => simp [Instr.mayBeFree] at hf
  | call => simp [Instr.mayBeFree] at hf
  | call2 => simp [Instr.mayBeFree] at hf
  | bin b =>
    cases b
    case exp =>
      simp only [gasCost, Price.cost.injEq] at h
      rw [← h.1]; unfold gasExp; omega
    all_goals exact const (fun _ => rfl) (by simp) h
  | _ => exact const (fun _ => rfl) (by simp) h

/-! ### Storage prices -/

/-- What a location that holds `cur`, with `o` saved, may still be refunded. -/
def claim (t : QuotaTable) (o cur : Bytes) : Nat :=
  if cur = o then 0
  else if o.length = 0 then t.sstoreInit - t.sstoreMem
  else if cur.length = 0 then 0
  else t.sstoreReset - t.sstoreMem

/-- A write charges at least what it makes refundable, and refunds at most what was refundable. -/
theorem sstorePrice_claim {t : QuotaTable} (ht : t ∈ quotaTables) (o cur new : Bytes) :
    if (sstorePrice t o cur new).2 then claim t o new ≤ claim t o cur + (sstorePrice t o cur new).1
    else claim t o new + (sstorePrice t o cur new).1 ≤ claim t o cur := by
  have hp : ∀ t ∈ quotaTables, t.sstoreMem = 200 ∧ t.sstoreNoop = 200 ∧ t.sstoreInit ≥ 400 ∧ t.sstoreReset ≥ 400 ∧
    t.sstoreClean ≤ 100 := by decide +kernel
  obtain ⟨h1, h2, h3, h4, h5⟩ := hp t ht
  unfold sstorePrice claim
  by_cases c1 : cur = new
  · subst c1
    rw [if_pos rfl]
    simp
  rw [if_neg c1]
  by_cases c2 : o = cur
  · subst c2
    rw [if_pos rfl, if_neg (Ne.symm c1), if_pos rfl]
    by_cases c3 : o.length = 0
    · rw [if_pos c3, if_pos c3]; simp
    · rw [if_neg c3, if_neg c3]
      by_cases c4 : new.length = 0
      · rw [if_pos c4, if_pos c4]; simp
      · rw [if_neg c4, if_neg c4]; simp
  rw [if_neg c2, if_neg (Ne.symm c2)]
  by_cases c3 : o = new
  · subst c3
    rw [if_pos rfl, if_pos rfl]
    by_cases c4 : o.length = 0
    · rw [if_pos c4, if_pos c4]; simp only [Bool.false_eq_true, if_false]; omega
    · rw [if_neg c4, if_neg c4]
      by_cases c5 : cur.length = 0
      · rw [if_pos c5, if_pos c5]; simp
      · rw [if_neg c5, if_neg c5]; simp only [Bool.false_eq_true, if_false]; omega
  rw [if_neg c3, if_neg (Ne.symm c3)]
  by_cases c4 : o.length = 0
  · have e1 : ¬ (o.length > 0 ∧ cur.length = 0 ∧ new.length > 0) := by omega
    have e2 : ¬ (o.length > 0 ∧ cur.length > 0 ∧ new.length = 0) := by omega
    rw [if_neg e1, if_neg e2, if_pos c4, if_pos c4]; simp
  · rw [if_neg c4, if_neg c4]
    by_cases c5 : cur.length = 0 <;> by_cases c6 : new.length = 0
    · have : cur = new := by rw [List.length_eq_zero_iff.mp c5, List.length_eq_zero_iff.mp c6]
      exact absurd this c1
    · have e1 : o.length > 0 ∧ cur.length = 0 ∧ new.length > 0 := by omega
      rw [if_pos e1, if_neg c6, if_pos c5]; simp; omega
    · have e1 : ¬ (o.length > 0 ∧ cur.length = 0 ∧ new.length > 0) := by omega
      have e2 : o.length > 0 ∧ cur.length > 0 ∧ new.length = 0 := by omega
      rw [if_neg e1, if_pos e2, if_pos c6, if_neg c5]; simp only [Bool.false_eq_true, if_false]; omega
    · have e1 : ¬ (o.length > 0 ∧ cur.length = 0 ∧ new.length > 0) := by omega
      have e2 : ¬ (o.length > 0 ∧ cur.length > 0 ∧ new.length = 0) := by omega
      rw [if_neg e1, if_neg e2, if_neg c6, if_neg c5]; simp

/-- What all written locations together may still be refunded. -/
def claims (t : QuotaTable) (orig : Nat → Bytes) : List (Nat × Bytes) → Nat
  | [] => 0
  | (k, v) :: rest => claim t (orig k) v + claims t orig rest

theorem claim_self (t : QuotaTable) (o : Bytes) : claim t o o = 0 := by simp [claim]

theorem claims_setValue (t : QuotaTable) (orig : Nat → Bytes) (store : List (Nat × Bytes)) (loc : Nat) (v : Bytes) :
    claims t orig (setValue store loc v) + claim t (orig loc) (getValue orig store loc) =
      claims t orig store + claim t (orig loc) v := by
  induction store with
  | nil => simp [setValue, getValue, claims, claim_self]
  | cons kw rest ih =>
    obtain ⟨k, w⟩ := kw
    unfold setValue getValue
    by_cases hk : k = loc
    · subst hk
      rw [if_pos rfl, if_pos rfl]
      simp only [claims]; omega
    · rw [if_neg hk, if_neg hk]
      simp only [claims]; omega

end Verif.Evm
