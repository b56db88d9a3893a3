import Verif.Evm.InterpInv

/-!
# C05, C06, C07, C09, C10: the properties of every run
-/

namespace Verif.Evm

open Verif.Bytes (Bytes num be)
open Verif.Evm.Word

/-! ### C05: every run ends within its quota -/

theorem step_measure {e : Env} (ht : e.table ∈ quotaTables) {m m' : Machine} (hoff : e.offchain = true → m.store = [])
    (h : step e m = .next m') :
    2 * (m'.quota + claims e.table e.orig m'.store) + m'.stack.length <
      2 * (m.quota + claims e.table e.orig m.store) + m.stack.length := by
  obtain ⟨i, sz, c, flag, mem, touched, m1, m2, hf, hx, hm⟩ := step_next h
  have ht := step_total ht hoff hf hx
  have hk := execute_kept hx
  have hlen := hk.len
  rw [hf.stack.1] at hlen
  have hfields : m'.stack = m2.stack ∧ m'.store = m2.store ∧ m'.quota = m2.quota := by
    rw [hm]; split <;> exact ⟨rfl, rfl, rfl⟩
  obtain ⟨f1, f2, f3⟩ := hfields
  rw [f1, f2, f3]
  have hpops := hf.pops
  cases i with
  | stop => simp [execute] at hx
  | ret =>
    simp only [execute, execReturn] at hx
    split at hx
    · split at hx <;> simp at hx
    · simp at hx
  | revert =>
    simp only [execute, execRevert, execReturn] at hx
    split at hx
    · split at hx <;> simp at hx
    · split at hx
      · split at hx <;> simp at hx
      · simp at hx
  | _ => simp only [Instr.mayBeFree, Instr.pops, Instr.pushes, if_true, Bool.false_eq_true, if_false] at ht hlen hpops ⊢; omega

theorem run_ends {e : Env} (ht : e.table ∈ quotaTables) {start : Machine}
    (hoff : e.offchain = true → ∀ m, Reach e start m → m.store = []) {n : Nat} {m : Machine} (hr : Reach e start m)
    (h : 2 * (m.quota + claims e.table e.orig m.store) + m.stack.length < n) :
    ∃ m' r, run e n m = some (m', r) ∧ ∃ m'', Reach e start m'' ∧ step e m'' = .stop m' r := by
  induction n generalizing m with
  | zero => omega
  | succ n ih =>
    unfold run
    cases hs : step e m with
    | stop m' r => exact ⟨m', r, rfl, m, hr, hs⟩
    | next m' =>
      dsimp only
      have := step_measure ht (fun ho => hoff ho m hr) hs
      exact ih (hr.next hs) (by omega)

/-- Quota and refundable quota never exceed what the run began with. -/
theorem reach_total {e : Env} (ht : e.table ∈ quotaTables) {q : Nat} {m : Machine} (h : Reach e (init q) m) :
    m.quota + claims e.table e.orig m.store ≤ q := by
  induction h with
  | here => simp [init, claims]
  | next hr hs ih =>
    obtain ⟨i, sz, c, flag, mem, touched, m1, m2, hf, hx, hm⟩ := step_next hs
    have ht := step_total ht (fun ho => offchain_store ho hr) hf hx
    rw [hm]
    split
    · omega
    · dsimp only; omega

theorem stop_quota {e : Env} (ht : e.table ∈ quotaTables) {q : Nat} {m m' : Machine} {r : Result} (h : Reach e (init q) m)
    (hs : step e m = .stop m' r) : m'.quota ≤ q := by
  have hle := reach_total ht h
  rcases step_fired (e := e) (m := m) with ⟨a, b, hc, -, hq⟩ | ⟨hc, -⟩ | ⟨i, sz, c, flag, mem, touched, m1, hf⟩
  · rw [hs] at hc; simp only [Step.stop.injEq] at hc; rw [hc.1]; omega
  · rw [hs] at hc; simp only [Step.stop.injEq] at hc; rw [hc.1]; omega
  · have hst := hf.stepEq
    rw [hs] at hst
    have hm1 : m1.quota ≤ q := by
      by_cases hi : i = .sstore
      · subst hi
        have hfact := gasSStore_fact (show gasSStore e m = .cost c flag mem touched by simpa [gasCost] using hf.gas)
        have hcl := sstorePrice_claim ht (e.orig (back m.stack 0).toNat) (getValue e.orig m.store (back m.stack 0).toNat)
          (bytesOf (back m.stack 1))
        rw [← hfact.2.2.2] at hcl
        dsimp only at hcl
        have hset := claims_setValue e.table e.orig m.store (back m.stack 0).toNat (bytesOf (back m.stack 1))
        have hu := hf.quota
        cases flag with
        | true => have := useQuota_charge hu; omega
        | false =>
          rw [if_neg (by simp)] at hcl
          unfold useQuota at hu
          rw [if_neg (by simp)] at hu
          simp only [Option.some.injEq] at hu
          have hle : m1.quota ≤ m.quota + c := by rw [← hu]; exact Nat.mod_le _ _
          omega
      · have hpr := (gasCost_priced hf.size hf.gas).flag hi
        have hu := hf.quota
        rw [hpr.1] at hu
        have := useQuota_charge hu
        omega
    cases hx : execute e i m1 with
    | panic => rw [hx] at hst; simp only [finish, Step.stop.injEq] at hst; rw [hst.1]; exact hm1
    | err x => rw [hx] at hst; simp only [finish, Step.stop.injEq] at hst; rw [hst.1]; exact hm1
    | next a => rw [hx] at hst; simp [finish] at hst
    | done a b =>
      rw [hx] at hst
      simp only [finish, Step.stop.injEq] at hst
      rw [hst.1]
      have : a.quota = m1.quota := by
        cases i <;> simp only [execute, execTop, execHash, execCopy, execReturnDataCopy, execMload, execMstore, execMstore8,
          execSload, execSstore, execPush, execDup, execSwap, execLog, execCall, execCall2, execJump, execJumpi, jumpTo,
          execReturn, execRevert] at hx
        all_goals (repeat' split at hx)
        all_goals first
          | (simp only [Exec.done.injEq] at hx; rw [← hx.1])
          | simp at hx
      rw [this]; exact hm1

/-- **C05.** Running any code with any quota `q` ends after at most `2 q + 1` instructions, and what is left of the quota
is at most `q`: nothing beyond `q` is ever charged. -/
theorem run_terminates {e : Env} (ht : e.table ∈ quotaTables) (q : Nat) :
    ∃ m r, run e (2 * q + 1) (init q) = some (m, r) ∧ m.quota ≤ q := by
  obtain ⟨m, r, h1, m'', h2, h3⟩ := run_ends ht (start := init q) (fun ho m hr => offchain_store ho hr) .here
    (n := 2 * q + 1) (by simp [init, claims])
  exact ⟨m, r, h1, stop_quota ht h2 h3⟩

/-- The result does not depend on how many rounds are allowed. -/
theorem run_mono {e : Env} {n k : Nat} {m : Machine} {x : Machine × Result} (h : run e n m = some x) (hk : n ≤ k) :
    run e k m = some x := by
  induction n generalizing m k with
  | zero => simp [run] at h
  | succ n ih =>
    obtain ⟨k, rfl⟩ : ∃ k', k = k' + 1 := ⟨k - 1, by omega⟩
    unfold run at h ⊢
    cases hs : step e m with
    | stop m' r => rw [hs] at h; exact h
    | next m' => rw [hs] at h; exact ih h (by omega)

/-! ### C06: the stack -/

/-- **C06.** In every state of every run the stack has at most 1024 entries. -/
theorem stack_limit {e : Env} {q : Nat} {m : Machine} (h : Reach e (init q) m) : m.stack.length ≤ 1024 := by
  cases h with
  | here => simp [init]
  | next hr hs =>
    obtain ⟨i, sz, c, flag, mem, touched, m1, m2, hf, hx, hm⟩ := step_next hs
    have hlen := (execute_kept hx).len
    rw [hf.stack.1] at hlen
    have := hf.limit; have := hf.pops
    rw [hm]; split
    · omega
    · dsimp only; omega

/-- **C06.** An instruction with too few operands aborts the run without effect. -/
theorem underflow_aborts {e : Env} {m : Machine} {i : Instr} (hd : decode e.set (getOp e.code m.pc) = some i)
    (h : m.stack.length < i.pops) : step e m = .stop m (.err .underflow) := by
  unfold step
  rw [hd]; dsimp only
  rw [if_pos h]

/-- **C06.** An instruction that would leave more than 1024 entries aborts the run without effect. -/
theorem overflow_aborts {e : Env} {m : Machine} {i : Instr} (hd : decode e.set (getOp e.code m.pc) = some i)
    (h0 : i.pops ≤ m.stack.length) (h : m.stack.length - i.pops + i.pushes > 1024) :
    step e m = .stop m (.err .stackLimit) := by
  unfold step
  rw [hd]; dsimp only
  rw [if_neg (by omega), if_pos (by unfold stackLimit; omega)]

/-- **C06.** An instruction that goes on had its operands, and left exactly its results in their place. -/
theorem step_stack {e : Env} {m m' : Machine} (h : step e m = .next m') :
    ∃ i, decode e.set (getOp e.code m.pc) = some i ∧ i.pops ≤ m.stack.length ∧
      m'.stack.length = m.stack.length - i.pops + i.pushes := by
  obtain ⟨i, sz, c, flag, mem, touched, m1, m2, hf, hx, hm⟩ := step_next h
  have hlen := (execute_kept hx).len
  rw [hf.stack.1] at hlen
  have := hf.pops
  refine ⟨i, hf.dec, this, ?_⟩
  rw [hm]; split
  · omega
  · dsimp only; omega

/-- **C06.** In every state of every run all stack entries are 256-bit words. -/
theorem stack_words {e : Env} (ok : e.Ok) {q : Nat} (hq : q < 2 ^ 32) {m : Machine} (h : Reach e (init q) m) :
    ∀ x ∈ m.stack, 0 ≤ x ∧ x < 2 ^ 256 := (inv_reach ok hq h).wide.words

/-! ### C07: positions -/

/-- **C07.** Every byte that is executed is the first byte of an instruction, never immediate data of a PUSH. -/
theorem executed_are_instructions {e : Env} (ok : e.Ok) {q : Nat} (hq : q < 2 ^ 32) {m : Machine} (h : Reach e (init q) m) :
    InstrStart e.code m.pc := (inv_reach ok hq h).start

/-- **C07.** A jump to anything but a JUMPDEST instruction ends the run, and a jump to one is made. -/
theorem jump_exact {e : Env} (ok : e.Ok) {q : Nat} (hq : q < 2 ^ 32) {m : Machine} (h : Reach e (init q) m)
    (hj : getOp e.code m.pc = 0x56 ∨ (getOp e.code m.pc = 0x57 ∧ m.stack.getD 1 0 ≠ 0))
    {i : Instr} {sz c : Nat} {flag : Bool} {mem : Mem} {touched : List Nat} {m1 : Machine}
    (hf : Fired e m i sz c flag mem touched m1) :
    (IsDest e.code (m.stack.getD 0 0).toNat ∧ ∃ m', step e m = .next m' ∧ (m'.pc : Int) = m.stack.getD 0 0) ∨
    (¬ IsDest e.code (m.stack.getD 0 0).toNat ∧ step e m = .stop m1 (.err .badJump)) := by
  have hw := (inv_reach ok hq h).wide.words
  obtain ⟨hst, -⟩ := hf.stack
  have hpops := hf.pops
  have hse := hf.stepEq
  have key : ∀ (pos : Int) (s : List Int), pos ∈ m.stack → finish e i m1 (jumpTo e m1 pos s) = step e m → i.jumps = true →
      (IsDest e.code pos.toNat ∧ ∃ m', step e m = .next m' ∧ (m'.pc : Int) = pos) ∨
      (¬ IsDest e.code pos.toNat ∧ step e m = .stop m1 (.err .badJump)) := by
    intro pos s hm hfin hjm
    have h0 := (hw pos hm).1
    obtain ⟨b, hb, hi⟩ := hasDest_iff (code := e.code) h0 ok.code
    unfold jumpTo at hfin
    rw [hb] at hfin
    cases b with
    | true =>
      dsimp only at hfin
      simp only [finish, hjm, if_true] at hfin
      refine Or.inl ⟨hi.mp rfl, _, hfin.symm, ?_⟩
      dsimp only
      rw [toUint64_of_dest h0 hb]
      exact Int.toNat_of_nonneg h0
    | false =>
      dsimp only at hfin
      simp only [finish] at hfin
      exact Or.inr ⟨fun hc => by simpa using hi.mpr hc, hfin.symm⟩
  rcases hj with hj | ⟨hj, hne⟩
  · have hd := hf.dec
    rw [hj] at hd
    simp [decode] at hd
    subst hd
    simp only [Instr.pops] at hpops
    obtain ⟨pos, s, hs⟩ : ∃ pos s, m.stack = pos :: s := by
      cases hh : m.stack with
      | nil => rw [hh] at hpops; simp at hpops
      | cons a b => exact ⟨a, b, rfl⟩
    simp only [execute, execJump, hst, hs] at hse
    rw [hs, List.getD_cons_zero]
    exact key pos s (by simp [hs]) hse.symm rfl
  · have hd := hf.dec
    rw [hj] at hd
    simp [decode] at hd
    subst hd
    simp only [Instr.pops] at hpops
    obtain ⟨pos, cond, s, hs⟩ : ∃ pos cond s, m.stack = pos :: cond :: s := by
      cases hh : m.stack with
      | nil => rw [hh] at hpops; simp at hpops
      | cons a b =>
        cases b with
        | nil => rw [hh] at hpops; simp at hpops
        | cons b c => exact ⟨a, b, c, rfl⟩
    rw [hs, List.getD_cons_succ, List.getD_cons_zero] at hne
    simp only [execute, execJumpi, hst, hs] at hse
    rw [if_pos hne] at hse
    rw [hs, List.getD_cons_zero]
    exact key pos s (by simp [hs]) hse.symm rfl

/-! ### C10: storage prices -/

/-- Quota charged and refunded for a list of writes of values to locations, all saved values given by `orig`. -/
def billed (t : QuotaTable) (orig : Nat → Bytes) : List (Nat × Bytes) → List (Nat × Bytes) → Nat × Nat
  | _, [] => (0, 0)
  | store, (loc, v) :: rest =>
    let p := sstorePrice t (orig loc) (getValue orig store loc) v
    let b := billed t orig (setValue store loc v) rest
    if p.2 then (b.1 + p.1, b.2) else (b.1, b.2 + p.1)

theorem billed_claims {t : QuotaTable} (ht : t ∈ quotaTables) (orig : Nat → Bytes) (writes : List (Nat × Bytes))
    (store : List (Nat × Bytes)) :
    (billed t orig store writes).2 ≤ (billed t orig store writes).1 + claims t orig store := by
  induction writes generalizing store with
  | nil => simp [billed]
  | cons w rest ih =>
    obtain ⟨loc, v⟩ := w
    unfold billed
    dsimp only
    have h1 := ih (setValue store loc v)
    have h2 := claims_setValue t orig store loc v
    have h3 := sstorePrice_claim ht (orig loc) (getValue orig store loc) v
    by_cases hp : (sstorePrice t (orig loc) (getValue orig store loc) v).2 = true
    · rw [if_pos hp] at h3 ⊢
      dsimp only; omega
    · rw [if_neg hp] at h3 ⊢
      dsimp only; omega

/-- **C10.** Whatever values a call writes to whatever locations in whatever order, it is refunded at most what it was
charged, at every moment (the list may be cut anywhere). -/
theorem refunds_le_charges {t : QuotaTable} (ht : t ∈ quotaTables) (orig : Nat → Bytes) (writes : List (Nat × Bytes)) :
    (billed t orig [] writes).2 ≤ (billed t orig [] writes).1 := by
  simpa [claims] using billed_claims ht orig writes []

/-- **C10.** In every state of every run the quota left is at most the quota the run began with, whatever was refunded. -/
theorem quota_never_exceeds {e : Env} (ht : e.table ∈ quotaTables) {q : Nat} {m : Machine} (h : Reach e (init q) m) :
    m.quota ≤ q := by
  have := reach_total ht h; omega

/-- At most 100 distinct locations are written by one call, once the limit is in force. -/
theorem storage_write_limit {e : Env} (ok : e.Ok) (hl : e.limit = true) {q : Nat} (hq : q < 2 ^ 32) {m : Machine}
    (h : Reach e (init q) m) : ∃ locs : List Nat, locs.length ≤ 100 ∧ ∀ kv ∈ m.store, kv.1 ∈ locs :=
  ⟨m.touched, (inv_reach ok hq h).limit hl, (inv_reach ok hq h).keys hl⟩

end Verif.Evm
