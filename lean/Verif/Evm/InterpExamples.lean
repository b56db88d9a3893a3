import Verif.Evm.InterpMem

/-!
# Runs of the interpreter: the hypotheses are met, and two defects

* `call_crashes`: CALL prices its data before the memory is grown. If the data begins inside the memory and ends beyond the
  room of the underlying slice, the interpreter crashes (a Go slice bounds panic) although the quota would have sufficed.
* `call_data_free`: if the data begins at the end of the memory, the price is computed for empty data while the request
  carries all of it.
* `call2_unpaid`: CALL2 has no `memorySize`: it reads memory beyond the length that was charged.
-/

namespace Verif.Evm

open Verif.Bytes (Bytes num be)

/-- An environment for the examples: code, input, no hashes of interest, exact slice growth. -/
def sampleEnv (code data : Bytes) : Env where
  code := code
  data := data
  set := .earth
  offchain := false
  limit := true
  table := version10Table
  word := fun _ => 7
  balance := fun _ => 1000
  orig := fun k => if k = 1 then [5] else []
  keccak := fun _ => List.replicate 32 1
  blake := fun _ => List.replicate 32 2
  builtin := fun _ => false
  builtinQuota := fun _ _ => none
  multiplier := fun _ => some 10
  callHash := fun _ => 9
  grow := fun _ n => n

theorem sampleEnv_ok (code data : Bytes) (hc : code.length < 2 ^ 62) (hd : data.length < 2 ^ 62) : (sampleEnv code data).Ok where
  word := fun _ => by constructor <;> norm_num [sampleEnv]
  balance := fun _ => by constructor <;> norm_num [sampleEnv]
  data := hd
  code := hc
  keccak := fun _ => by simp [sampleEnv]
  blake := fun _ => by simp [sampleEnv]
  orig := fun k => by simp only [sampleEnv]; split <;> simp
  callHash := fun _ => by constructor <;> norm_num [sampleEnv]
  grow := fun _ _ => le_refl _
  table := by simp [sampleEnv, quotaTables]

/-- A loop: counts the storage location 1 down to zero, then returns 32 bytes of memory.
`JUMPDEST PUSH1 1 SLOAD DUP1 ISZERO PUSH1 17 JUMPI PUSH1 1 SWAP1 SUB PUSH1 1 SSTORE PUSH1 0 JUMP; 17: JUMPDEST …` -/
def loopCode : Bytes :=
  [0x5b, 0x60, 1, 0x54, 0x80, 0x15, 0x60, 20, 0x57, 0x60, 1, 0x90, 0x03, 0x60, 1, 0x55, 0x60, 0, 0x56, 0x00,
   0x5b, 0x60, 42, 0x60, 0, 0x52, 0x60, 32, 0x60, 0, 0xf3]

/-- The loop runs, is charged for the writes, and returns the word 42. -/
example : ((run (sampleEnv loopCode []) 200 (init 100000)).map
    (fun x => (x.2, decide (x.1.quota < 100000), getValue (sampleEnv loopCode []).orig x.1.store 1, x.1.mem.store.length))) =
    some (.ok (be 32 42), true, [], 32) := by decide +kernel

/-- With too little quota it stops with an error instead. -/
example : ((run (sampleEnv loopCode []) 200 (init 500)).map (fun x => (x.2, x.1.quota))) =
    some (.err .outOfQuota, 0) := by decide +kernel

/-- An endless loop ends. -/
example : ((run (sampleEnv [0x5b, 0x60, 0, 0x56] []) 3000 (init 1000)).map (·.2)) = some (.err .outOfQuota) := by decide +kernel

/-- A jump into PUSH data is refused although the byte there is 0x5b, and the same byte as an instruction is accepted. -/
example : hasDest [0x60, 0x5b, 0x5b] 1 = some false ∧ hasDest [0x60, 0x5b, 0x5b] 2 = some true ∧
    ¬ IsDest [0x60, 0x5b, 0x5b] 1 ∧ IsDest [0x60, 0x5b, 0x5b] 2 := by
  refine ⟨by decide +kernel, by decide +kernel, ?_, ?_⟩
  · obtain ⟨b, h1, h2⟩ := hasDest_iff (code := [0x60, 0x5b, 0x5b]) (dest := 1) (by norm_num) (by simp)
    have : hasDest [0x60, 0x5b, 0x5b] 1 = some false := by decide +kernel
    rw [this] at h1
    simp only [Option.some.injEq] at h1
    subst h1
    intro hc; simpa using h2.mpr hc
  · obtain ⟨b, h1, h2⟩ := hasDest_iff (code := [0x60, 0x5b, 0x5b]) (dest := 2) (by norm_num) (by simp)
    have : hasDest [0x60, 0x5b, 0x5b] 2 = some true := by decide +kernel
    rw [this] at h1
    simp only [Option.some.injEq] at h1
    subst h1
    exact h2.mp rfl

/-- Stack limits abort. -/
example : ((run (sampleEnv [0x01] []) 5 (init 1000)).map (·.2)) = some (.err .underflow) := by decide +kernel
example : ((run (sampleEnv [0x5b, 0x60, 0, 0x80, 0x60, 0, 0x56] []) 6000 (init 100000)).map (·.2)) = some (.err .stackLimit) := by
  decide +kernel

/-- Writing the saved value back is refunded, and the sum stays below the charges. -/
example : billed viteTable (fun _ => []) [] [(3, [1]), (3, []), (4, [1]), (3, [2]), (3, [])] = (45000, 29200) := by decide +kernel
example : billed initTable (fun _ => [9]) [] [(3, [1]), (3, []), (3, [1]), (3, [9])] = (10100, 9300) := by decide +kernel

/-! ### Defects -/

/-- `PUSH1 1 PUSH1 0 MSTORE; PUSH1 size PUSH1 0 PUSH1 0 PUSH1 0 PUSH1 0 CALL; STOP` -/
def callCode (op size off : UInt8) : Bytes :=
  [0x60, 1, 0x60, 0, 0x52, 0x60, size, 0x60, off, 0x60, 0, 0x60, 0, 0x60, 0, op, 0x00]

/-- With 32 bytes of data inside the memory the call is made. -/
example : ((run (sampleEnv (callCode 0xf1 32 0) []) 20 (init 100000)).map (fun x => (x.2, x.1.sends))) =
    some (.ok [], [⟨0, 0, 0, be 32 1⟩]) := by decide +kernel

/-- **Defect (C06, C09).** With 64 bytes of data, 32 of which are in the memory, the interpreter crashes: the range is read
for its price before the memory is grown. The quota would have sufficed (the next theorem needs less). -/
theorem call_crashes :
    ((run (sampleEnv (callCode 0xf1 64 0) []) 20 (init 100000)).map (·.2)) = some .panic := by decide +kernel

/-- **Defect.** If the 64 bytes begin at the end of the memory there is no crash, and the bytes of the data are not paid: the
run costs exactly as much as a run that sends no data, up to the price of two words of memory. -/
theorem call_data_free :
    ((run (sampleEnv (callCode 0xf1 64 32) []) 20 (init 100000)).map
      (fun x => (x.2, x.1.quota, x.1.sends.map (fun r => r.data.length)))) = some (.ok [], 92489, [64]) ∧
    ((run (sampleEnv (callCode 0xf1 0 32) []) 20 (init 100000)).map
      (fun x => (x.2, x.1.quota, x.1.sends.map (fun r => r.data.length)))) = some (.ok [], 92491, [0]) := by decide +kernel

/-- With the data inside the memory the same 64 bytes do cost `64 * txData` (28 each). -/
example : (blockGasCost version10Table (List.replicate 64 0), blockGasCost version10Table []) = (some 22792, some 21000) := by
  decide +kernel

/-- **Defect (C09).** CALL2 reads beyond the memory that was charged: here 32 bytes were charged, the slice has room for 64,
and the data has 64 bytes. With less room it crashes. -/
theorem call2_unpaid :
    ((run { sampleEnv (callCode 0xf2 64 0) [] with grow := fun _ n => 2 * n } 20 (init 100000)).map
      (fun x => (x.2, x.1.mem.store.length, x.1.sends.map (fun r => r.data.length)))) = some (.ok [], 32, [64]) ∧
    ((run (sampleEnv (callCode 0xf2 64 0) []) 20 (init 100000)).map (·.2)) = some .panic := by decide +kernel

/-- The state after `n` rounds. -/
def steps (e : Env) : Nat → Machine → Option Machine
  | 0, m => some m
  | n + 1, m =>
    match step e m with
    | .next m' => steps e n m'
    | .stop _ _ => none

theorem steps_reach {e : Env} {start m m' : Machine} {n : Nat} (hr : Reach e start m) (h : steps e n m = some m') :
    Reach e start m' := by
  induction n generalizing m with
  | zero => simp only [steps, Option.some.injEq] at h; subst h; exact hr
  | succ n ih =>
    unfold steps at h
    split at h
    · rename_i hs; exact ih (hr.next hs) h
    · simp at h

/-- A CALL2 that reads outside the memory in use is reached: `memory_paid_partial` cannot hold for it. -/
theorem call2_not_covered : ∃ (e : Env) (m : Machine) (i : Instr) (sz c : Nat) (flag : Bool) (mem : Mem) (touched : List Nat)
    (m1 : Machine), e.Ok ∧ Reach e (init 100000) m ∧ Fired e m i sz c flag mem touched m1 ∧ i = .call2 ∧ ¬ Covered i m1 := by
  let e : Env := { sampleEnv (callCode 0xf2 64 0) [] with grow := fun _ n => 2 * n }
  have ok : e.Ok := { sampleEnv_ok (callCode 0xf2 64 0) [] (by decide) (by decide) with grow := fun c n => by simp only [e]; omega }
  have hr : (steps e 8 (init 100000)).map (fun m => (m.stack, m.pc, m.mem.store.length, (match step e m with
      | .next _ => true
      | .stop _ _ => false))) = some ([0, 0, 0, 0, 64], 15, 32, true) := by decide +kernel
  obtain ⟨m, h1, h2⟩ := Option.map_eq_some_iff.mp hr
  simp only [Prod.mk.injEq] at h2
  obtain ⟨hst, hpc, hm, hn⟩ := h2
  have hr := steps_reach .here h1
  obtain ⟨m3, hn⟩ : ∃ m3, step e m = .next m3 := by
    split at hn
    · exact ⟨_, by assumption⟩
    · simp at hn
  obtain ⟨i, sz, c, flag, mem, touched, m1, m2, hf, hx, -⟩ := step_next hn
  have hi : i = .call2 := by
    have := hf.dec
    rw [hpc] at this
    have h2 : decode e.set (getOp e.code 15) = some .call2 := by decide +kernel
    rw [h2] at this
    simpa using this.symm
  refine ⟨e, m, i, sz, c, flag, mem, touched, m1, ok, hr, hf, hi, ?_⟩
  have hch := fired_charged ok (by norm_num) (inv_reach ok (by norm_num) hr) hf
  subst hi
  have hz : sz = 0 := by simpa [memorySize, Instr.memSize] using hf.size.symm
  unfold Covered
  rw [hf.stack.1, hst, hch.size, hm, hz]
  simp [Instr.range]

/-- The theorems apply to the sample runs. -/
example : ∀ m, Reach (sampleEnv loopCode []) (init 100000) m → m.stack.length ≤ 1024 ∧ m.quota ≤ 100000 ∧
    InstrStart loopCode m.pc := fun _ h =>
  ⟨stack_limit h, quota_never_exceeds (by simp [sampleEnv, quotaTables]) h,
    executed_are_instructions (sampleEnv_ok _ _ (by decide) (by decide)) (by norm_num) h⟩

end Verif.Evm
