import Verif.Evm.InterpSpec
import Verif.Evm.WordProps

/-! # Lemmas about the interpreter model -/

namespace Verif.Evm

open Verif.Bytes (Bytes num be)
open Verif.Evm.Word

/-- Everything that happened in a step that did not stop before the execution function. -/
structure Fired (e : Env) (m : Machine) (i : Instr) (sz c : Nat) (flag : Bool) (mem : Mem) (touched : List Nat)
    (m1 : Machine) : Prop where
  dec : decode e.set (getOp e.code m.pc) = some i
  pops : i.pops ≤ m.stack.length
  limit : m.stack.length + i.pushes - i.pops ≤ 1024
  size : memorySize i m.stack = some sz
  gas : gasCost e i m sz = .cost c flag mem touched
  quota : useQuota m.quota c flag = some m1.quota
  m1eq : m1 = { m with mem := if sz > 0 then mem.resize e sz else mem, touched := touched, quota := m1.quota }
  stepEq : step e m = finish e i m1 (execute e i m1)

theorem step_fired {e : Env} {m : Machine} :
    (∃ m' x, step e m = .stop m' (.err x) ∧ (m'.store = m.store ∧ m'.sends = m.sends ∧ m'.logs = m.logs) ∧ m'.quota ≤ m.quota)
    ∨ (step e m = .stop m .panic ∧ ∃ i sz, decode e.set (getOp e.code m.pc) = some i ∧ i.pops ≤ m.stack.length
        ∧ memorySize i m.stack = some sz ∧ gasCost e i m sz = .panic)
    ∨ (∃ i sz c flag mem touched m1, Fired e m i sz c flag mem touched m1) := by
  unfold step
  cases hd : decode e.set (getOp e.code m.pc) with
  | none => exact Or.inl ⟨m, _, rfl, by simp⟩
  | some i =>
    dsimp only
    by_cases h1 : m.stack.length < i.pops
    · rw [if_pos h1]; exact Or.inl ⟨m, _, rfl, by simp⟩
    rw [if_neg h1]
    by_cases h2 : m.stack.length + i.pushes - i.pops > stackLimit
    · rw [if_pos h2]; exact Or.inl ⟨m, _, rfl, by simp⟩
    rw [if_neg h2]
    cases hs : memorySize i m.stack with
    | none => exact Or.inl ⟨m, _, rfl, by simp⟩
    | some sz =>
      dsimp only
      cases hg : gasCost e i m sz with
      | panic => exact Or.inr (Or.inl ⟨rfl, i, sz, rfl, by omega, hs, hg⟩)
      | err x => exact Or.inl ⟨m, _, rfl, by simp⟩
      | cost c flag mem touched =>
        dsimp only
        unfold charge
        cases hq : useQuota m.quota c flag with
        | none => exact Or.inl ⟨_, _, rfl, by simp⟩
        | some q =>
          refine Or.inr (Or.inr ⟨i, sz, c, flag, mem, touched,
            { m with mem := if sz > 0 then mem.resize e sz else mem, touched := touched, quota := q }, ?_⟩)
          refine ⟨hd, by omega, by unfold stackLimit at h2; omega, hs, hg, hq, rfl, ?_⟩
          unfold step
          rw [hd]; dsimp only
          rw [if_neg h1, if_neg h2, hs]; dsimp only
          rw [hg]; dsimp only
          unfold charge
          rw [hq]

/-- A step that goes on was fired and its execution function went on. -/
theorem step_next {e : Env} {m m' : Machine} (h : step e m = .next m') :
    ∃ i sz c flag mem touched m1 m2, Fired e m i sz c flag mem touched m1 ∧ execute e i m1 = .next m2 ∧
      m' = (if i.jumps then m2 else { m2 with pc := m2.pc + 1 }) := by
  rcases step_fired (e := e) (m := m) with ⟨a, b, hc, -⟩ | ⟨hc, -⟩ | ⟨i, sz, c, flag, mem, touched, m1, hf⟩
  · rw [h] at hc; exact absurd hc (by simp)
  · rw [h] at hc; exact absurd hc (by simp)
  · have hs := hf.stepEq
    rw [h] at hs
    cases hx : execute e i m1 with
    | panic => rw [hx] at hs; simp [finish] at hs
    | err x => rw [hx] at hs; simp [finish] at hs
    | done a b => rw [hx] at hs; simp [finish] at hs
    | next m2 =>
      rw [hx] at hs
      simp only [finish, Step.next.injEq] at hs
      exact ⟨i, sz, c, flag, mem, touched, m1, m2, hf, hx, hs⟩

theorem splice_length {s : Bytes} {o : Nat} {b : Bytes} (h : o + b.length ≤ s.length) :
    (splice s o b).length = s.length := by
  simp only [splice, List.length_append, List.length_take, List.length_drop]; omega

theorem set_facts {m m' : Mem} {o n : Nat} {v : Bytes} (h : m.set o n v = some m') :
    m'.store.length = m.store.length ∧ m'.cap = m.cap ∧ m'.lastGas = m.lastGas := by
  unfold Mem.set at h
  split at h
  · simp_all
  · split at h
    · simp at h
    · rename_i h1 h2
      simp only [Option.some.injEq] at h
      subst h
      refine ⟨splice_length ?_, rfl, rfl⟩
      have : (v.take n).length ≤ n := List.length_take_le n v
      omega

theorem set32_facts {m m' : Mem} {o : Nat} {v : Int} (h : m.set32 o v = some m') :
    m'.store.length = m.store.length ∧ m'.cap = m.cap ∧ m'.lastGas = m.lastGas := by
  unfold Mem.set32 at h
  split at h
  · simp at h
  · rename_i h1
    simp only [Option.some.injEq] at h
    subst h
    refine ⟨splice_length ?_, rfl, rfl⟩
    rw [Verif.Bytes.be_length]; omega

/-- What an execution function that goes on leaves alone, and the size of the stack it leaves. -/
structure Kept (i : Instr) (m m2 : Machine) : Prop where
  len : m2.stack.length + i.pops = m.stack.length + i.pushes
  quota : m2.quota = m.quota
  touched : m2.touched = m.touched
  memLen : m2.mem.store.length = m.mem.store.length
  cap : m2.mem.cap = m.mem.cap
  lastGas : m2.mem.lastGas = m.mem.lastGas
  store : i ≠ .sstore → m2.store = m.store

theorem execTop_kept {i : Instr} {m m2 : Machine} {n : Nat} {f : List Int → Int} (h : execTop m n f = .next m2)
    (hp : i.pops = n) (hq : i.pushes = 1) : Kept i m m2 := by
  unfold execTop at h
  split at h
  · simp at h
  · simp only [Exec.next.injEq] at h
    subst h
    refine ⟨?_, rfl, rfl, rfl, rfl, rfl, fun _ => rfl⟩
    simp only [List.length_cons, List.length_drop]; omega

theorem jumpTo_kept {e : Env} {m m2 : Machine} {pos : Int} {s : List Int} (h : jumpTo e m pos s = .next m2) :
    m2 = { m with stack := s, pc := toUint64 pos } ∧ hasDest e.code pos = some true := by
  unfold jumpTo at h
  split at h
  · simp at h
  · simp at h
  · rename_i hd
    exact ⟨by simpa using h.symm, hd⟩

theorem execute_kept {e : Env} {i : Instr} {m m2 : Machine} (h : execute e i m = .next m2) : Kept i m m2 := by
  cases i with
  | stop => simp [execute] at h
  | bin b => simp only [execute] at h; exact execTop_kept h rfl rfl
  | addmod => simp only [execute] at h; exact execTop_kept h rfl rfl
  | mulmod => simp only [execute] at h; exact execTop_kept h rfl rfl
  | iszero => simp only [execute] at h; exact execTop_kept h rfl rfl
  | not => simp only [execute] at h; exact execTop_kept h rfl rfl
  | src s => simp only [execute] at h; exact execTop_kept h rfl rfl
  | balance => simp only [execute] at h; exact execTop_kept h rfl rfl
  | calldataload => simp only [execute] at h; exact execTop_kept h rfl rfl
  | pc => simp only [execute] at h; exact execTop_kept h rfl rfl
  | msize => simp only [execute] at h; exact execTop_kept h rfl rfl
  | sha3 =>
    simp only [execute, execHash] at h
    split at h
    · split at h
      · simp at h
      · rename_i hs _ _ _
        simp only [Exec.next.injEq] at h; subst h
        exact ⟨by simp [hs, Instr.pops, Instr.pushes], rfl, rfl, rfl, rfl, rfl, fun _ => rfl⟩
    · simp at h
  | blake2b =>
    simp only [execute, execHash] at h
    split at h
    · split at h
      · simp at h
      · rename_i hs _ _ _
        simp only [Exec.next.injEq] at h; subst h
        exact ⟨by simp [hs, Instr.pops, Instr.pushes], rfl, rfl, rfl, rfl, rfl, fun _ => rfl⟩
    · simp at h
  | calldatacopy =>
    simp only [execute, execCopy] at h
    split at h
    · split at h
      · simp at h
      · rename_i hs _ _ hm
        simp only [Exec.next.injEq] at h; subst h
        have := set_facts hm
        exact ⟨by simp [hs, Instr.pops, Instr.pushes], rfl, rfl, this.1, this.2.1, this.2.2, fun _ => rfl⟩
    · simp at h
  | codecopy =>
    simp only [execute, execCopy] at h
    split at h
    · split at h
      · simp at h
      · rename_i hs _ _ hm
        simp only [Exec.next.injEq] at h; subst h
        have := set_facts hm
        exact ⟨by simp [hs, Instr.pops, Instr.pushes], rfl, rfl, this.1, this.2.1, this.2.2, fun _ => rfl⟩
    · simp at h
  | returndatacopy =>
    simp only [execute, execReturnDataCopy] at h
    split at h
    · split at h
      · simp at h
      · split at h
        · simp at h
        · rename_i hs _ _ _ hm
          simp only [Exec.next.injEq] at h; subst h
          have := set_facts hm
          exact ⟨by simp [hs, Instr.pops, Instr.pushes], rfl, rfl, this.1, this.2.1, this.2.2, fun _ => rfl⟩
    · simp at h
  | pop =>
    simp only [execute] at h
    split at h
    · rename_i hs
      simp only [Exec.next.injEq] at h; subst h
      exact ⟨by simp [hs, Instr.pops, Instr.pushes], rfl, rfl, rfl, rfl, rfl, fun _ => rfl⟩
    · simp at h
  | mload =>
    simp only [execute, execMload] at h
    split at h
    · split at h
      · simp at h
      · rename_i hs _ _ _
        simp only [Exec.next.injEq] at h; subst h
        exact ⟨by simp [hs, Instr.pops, Instr.pushes], rfl, rfl, rfl, rfl, rfl, fun _ => rfl⟩
    · simp at h
  | mstore =>
    simp only [execute, execMstore] at h
    split at h
    · split at h
      · simp at h
      · rename_i hs _ _ hm
        simp only [Exec.next.injEq] at h; subst h
        have := set32_facts hm
        exact ⟨by simp [hs, Instr.pops, Instr.pushes], rfl, rfl, this.1, this.2.1, this.2.2, fun _ => rfl⟩
    · simp at h
  | mstore8 =>
    simp only [execute, execMstore8] at h
    split at h
    · split at h
      · rename_i hs hr
        simp only [Exec.next.injEq] at h; subst h
        refine ⟨by simp [hs, Instr.pops, Instr.pushes], rfl, rfl, splice_length ?_, rfl, rfl, fun _ => rfl⟩
        simp only [List.length_cons, List.length_nil]; omega
      · simp at h
    · simp at h
  | sload =>
    simp only [execute, execSload] at h
    split at h
    · rename_i hs
      simp only [Exec.next.injEq] at h; subst h
      exact ⟨by simp [hs, Instr.pops, Instr.pushes], rfl, rfl, rfl, rfl, rfl, fun _ => rfl⟩
    · simp at h
  | sstore =>
    simp only [execute, execSstore] at h
    split at h
    · rename_i hs
      split at h
      · simp only [Exec.next.injEq] at h; subst h
        exact ⟨by simp [hs, Instr.pops, Instr.pushes], rfl, rfl, rfl, rfl, rfl, fun hc => absurd rfl hc⟩
      · simp only [Exec.next.injEq] at h; subst h
        exact ⟨by simp [hs, Instr.pops, Instr.pushes], rfl, rfl, rfl, rfl, rfl, fun hc => absurd rfl hc⟩
    · simp at h
  | jump =>
    simp only [execute, execJump] at h
    split at h
    · rename_i hs
      have := (jumpTo_kept h).1
      subst this
      exact ⟨by simp [hs, Instr.pops, Instr.pushes], rfl, rfl, rfl, rfl, rfl, fun _ => rfl⟩
    · simp at h
  | jumpi =>
    simp only [execute, execJumpi] at h
    split at h
    · rename_i hs
      split at h
      · have := (jumpTo_kept h).1
        subst this
        exact ⟨by simp [hs, Instr.pops, Instr.pushes], rfl, rfl, rfl, rfl, rfl, fun _ => rfl⟩
      · simp only [Exec.next.injEq] at h; subst h
        exact ⟨by simp [hs, Instr.pops, Instr.pushes], rfl, rfl, rfl, rfl, rfl, fun _ => rfl⟩
    · simp at h
  | jumpdest =>
    simp only [execute, Exec.next.injEq] at h; subst h
    exact ⟨by simp [Instr.pops, Instr.pushes], rfl, rfl, rfl, rfl, rfl, fun _ => rfl⟩
  | push n =>
    simp only [execute, execPush, Exec.next.injEq] at h; subst h
    exact ⟨by simp [Instr.pops, Instr.pushes], rfl, rfl, rfl, rfl, rfl, fun _ => rfl⟩
  | dup n =>
    simp only [execute, execDup] at h
    split at h
    · simp at h
    · split at h
      · simp at h
      · simp only [Exec.next.injEq] at h; subst h
        exact ⟨by simp [Instr.pops, Instr.pushes]; omega, rfl, rfl, rfl, rfl, rfl, fun _ => rfl⟩
  | swap n =>
    simp only [execute, execSwap] at h
    split at h
    · simp only [Exec.next.injEq] at h; subst h
      exact ⟨by simp [Instr.pops, Instr.pushes], rfl, rfl, rfl, rfl, rfl, fun _ => rfl⟩
    · simp at h
  | log n =>
    simp only [execute, execLog] at h
    split at h
    · rename_i hs
      split at h
      · simp at h
      · split at h
        · simp only [Exec.next.injEq] at h; subst h
          exact ⟨by simp [hs, Instr.pops, Instr.pushes]; omega, rfl, rfl, rfl, rfl, rfl, fun _ => rfl⟩
        · split at h
          · simp at h
          · simp only [Exec.next.injEq] at h; subst h
            exact ⟨by simp [hs, Instr.pops, Instr.pushes]; omega, rfl, rfl, rfl, rfl, rfl, fun _ => rfl⟩
    · simp at h
  | call =>
    simp only [execute, execCall] at h
    split at h
    · rename_i hs
      split at h
      · simp only [Exec.next.injEq] at h; subst h
        exact ⟨by simp [hs, Instr.pops, Instr.pushes], rfl, rfl, rfl, rfl, rfl, fun _ => rfl⟩
      · split at h
        · simp at h
        · simp only [Exec.next.injEq] at h; subst h
          exact ⟨by simp [hs, Instr.pops, Instr.pushes], rfl, rfl, rfl, rfl, rfl, fun _ => rfl⟩
    · simp at h
  | call2 =>
    simp only [execute, execCall2] at h
    split at h
    · rename_i m' hc
      simp only [Exec.next.injEq] at h; subst h
      simp only [execCall] at hc
      split at hc
      · rename_i hs
        split at hc
        · simp only [Exec.next.injEq] at hc; subst hc
          exact ⟨by simp [hs, Instr.pops, Instr.pushes], rfl, rfl, rfl, rfl, rfl, fun _ => rfl⟩
        · split at hc
          · simp at hc
          · simp only [Exec.next.injEq] at hc; subst hc
            exact ⟨by simp [hs, Instr.pops, Instr.pushes], rfl, rfl, rfl, rfl, rfl, fun _ => rfl⟩
      · simp at hc
    · rename_i hc
      exact absurd h (hc _)
  | ret =>
    simp only [execute, execReturn] at h
    split at h
    · split at h <;> simp at h
    · simp at h
  | revert =>
    simp only [execute, execRevert, execReturn] at h
    split at h
    · split at h <;> simp at h
    · split at h
      · split at h <;> simp at h
      · simp at h

end Verif.Evm
