import Verif.Evm.InterpMem

/-! # C44: more quota does not change what a run does -/

namespace Verif.Evm

open Verif.Bytes (Bytes num be)
open Verif.Evm.Word

/-- The same state with this quota left. -/
def Machine.fund (m : Machine) (x : Nat) : Machine := { m with quota := x }

/-- The same outcome with this quota left. -/
def Exec.fund (x : Nat) : Exec → Exec
  | .next m => .next (m.fund x)
  | .done m r => .done (m.fund x) r
  | .err e => .err e
  | .panic => .panic

theorem gasCost_fund (e : Env) (i : Instr) (m : Machine) (sz x : Nat) : gasCost e i (m.fund x) sz = gasCost e i m sz := by
  cases i with
  | bin b => cases b <;> rfl
  | _ => rfl

theorem execCall_fund (e : Env) (m : Machine) (x : Nat) : execCall e (m.fund x) = (execCall e m).fund x := by
  obtain ⟨pc, stack, mem, quota, store, touched, logs, sends⟩ := m
  simp only [execCall, Machine.fund]
  split
  · simp only [apply_ite (Exec.fund x)]
    split
    · rfl
    · split <;> rfl
  · rfl

theorem execute_fund (e : Env) (i : Instr) (m : Machine) (x : Nat) :
    execute e i (m.fund x) = (execute e i m).fund x := by
  cases i with
  | call => exact execCall_fund e m x
  | call2 =>
    simp only [execute, execCall2, execCall_fund]
    cases execCall e m <;> rfl
  | mstore8 =>
    obtain ⟨pc, stack, mem, quota, store, touched, logs, sends⟩ := m
    simp only [execute, execMstore8, Machine.fund]
    match stack with
    | [] => rfl
    | [_] => rfl
    | off :: v :: s =>
      dsimp only
      by_cases h : 0 ≤ toInt64 off ∧ toInt64 off < mem.store.length
      · refine (if_pos h).trans ?_
        rw [if_pos h]; rfl
      · refine (if_neg h).trans ?_
        rw [if_neg h]; rfl
  | _ =>
    obtain ⟨pc, stack, mem, quota, store, touched, logs, sends⟩ := m
    simp only [execute, execTop, execHash, execCopy, execReturnDataCopy, execMload, execMstore, execMstore8, execSload,
      execSstore, execJump, execJumpi, jumpTo, execPush, execDup, execSwap, execLog, execReturn, execRevert,
      Machine.fund]
    all_goals try simp only [apply_ite (Exec.fund x)]
    all_goals try rfl
    all_goals repeat' split
    all_goals first
      | rfl
      | simp only [apply_ite (Exec.fund x)]
    all_goals first
      | rfl
      | (repeat' split) <;> first | rfl | simp_all

theorem execute_done_quota {e : Env} {i : Instr} {m m2 : Machine} {r : Bytes} (h : execute e i m = .done m2 r) :
    m2.quota = m.quota := by
  cases i with
  | call2 =>
    simp only [execute, execCall2, execCall] at h
    repeat' split at h
    all_goals simp_all
  | _ =>
    simp only [execute, execTop, execHash, execCopy, execReturnDataCopy, execMload, execMstore, execMstore8, execSload,
      execSstore, execJump, execJumpi, jumpTo, execPush, execDup, execSwap, execLog, execCall, execReturn, execRevert] at h
    repeat' split at h
    all_goals first
      | (simp only [Exec.done.injEq] at h; rw [← h.1])
      | simp at h

theorem refund_small {t : QuotaTable} (ht : t ∈ quotaTables) (o c n : Bytes) :
    (sstorePrice t o c n).1 < 2 ^ 32 := by
  have htab : ∀ t ∈ quotaTables, t.sstoreNoop < 2 ^ 30 ∧ t.sstoreInit < 2 ^ 30 ∧ t.sstoreClean < 2 ^ 30 ∧ t.sstoreReset < 2 ^ 30 ∧
      t.sstoreMem < 2 ^ 30 := by decide +kernel
  have := htab t ht
  unfold sstorePrice
  repeat' split
  all_goals dsimp only; omega

/-- What a step does with `d` more quota. -/
def Step.fund (d : Nat) : Step → Step
  | .next m => .next (m.fund (m.quota + d))
  | .stop m r => .stop (m.fund (m.quota + d)) r

theorem step_fund {e : Env} (ht : e.table ∈ quotaTables) {m : Machine} {d : Nat} (hq : m.quota + d < 2 ^ 32)
    (h : ∀ m', step e m ≠ .stop m' (.err .outOfQuota)) : step e (m.fund (m.quota + d)) = (step e m).fund d := by
  unfold step at h ⊢
  have e1 : (m.fund (m.quota + d)).pc = m.pc := rfl
  have e2 : (m.fund (m.quota + d)).stack = m.stack := rfl
  rw [e1, e2]
  cases hd : decode e.set (getOp e.code m.pc) with
  | none => rfl
  | some i =>
    rw [hd] at h
    dsimp only at h ⊢
    by_cases h1 : m.stack.length < i.pops
    · rw [if_pos h1, if_pos h1]; rfl
    rw [if_neg h1] at h ⊢
    rw [if_neg h1]
    by_cases h2 : m.stack.length + i.pushes - i.pops > stackLimit
    · rw [if_pos h2, if_pos h2]; rfl
    rw [if_neg h2] at h ⊢
    rw [if_neg h2]
    cases hs : memorySize i m.stack with
    | none => rfl
    | some sz =>
      rw [hs] at h
      dsimp only at h ⊢
      rw [gasCost_fund]
      cases hg : gasCost e i m sz with
      | panic => rfl
      | err x => rfl
      | cost c flag mem touched =>
        rw [hg] at h
        dsimp only at h ⊢
        have hprice : flag = false → c < 2 ^ 32 := by
          intro hfl
          have hi : i = .sstore := by
            by_contra hi
            have := (gasCost_priced hs hg).flag hi
            rw [hfl] at this
            simp at this
          subst hi
          have := gasSStore_fact (show gasSStore e m = .cost c flag mem touched by simpa [gasCost] using hg)
          have h4 := refund_small ht (e.orig (back m.stack 0).toNat)
            (getValue e.orig m.store (back m.stack 0).toNat) (bytesOf (back m.stack 1))
          rw [← this.2.2.2] at h4
          exact h4
        unfold charge at h ⊢
        cases hu : useQuota m.quota c flag with
        | none =>
          rw [hu] at h
          exact absurd rfl (h _)
        | some qq =>
          rw [hu] at h
          have hu2 : useQuota (m.quota + d) c flag = some (qq + d) := by
            unfold useQuota at hu ⊢
            cases flag with
            | true =>
              simp only [if_true] at hu ⊢
              split at hu
              · simp at hu
              · simp only [Option.some.injEq] at hu
                rw [if_neg (by omega)]
                simp only [Option.some.injEq]; omega
            | false =>
              have := hprice rfl
              simp only [Bool.false_eq_true, if_false, Option.some.injEq] at hu ⊢
              omega
          have e3 : (({ m.fund (m.quota + d) with mem := mem, touched := touched } : Machine)).quota = m.quota + d := rfl
          rw [e3, hu2]
          dsimp only at h ⊢
          generalize hm1 : ({ m with quota := qq, mem := if sz > 0 then mem.resize e sz else mem, touched := touched } : Machine) = m1 at *
          have hm3 : ∀ z : Machine, z = m1.fund (m1.quota + d) →
              finish e i z (execute e i z) = (finish e i m1 (execute e i m1)).fund d := by
            rintro z rfl
            rw [execute_fund]
            cases hx : execute e i m1 with
            | panic => rfl
            | err x => rfl
            | done a b =>
              have hqa : a.quota = m1.quota := execute_done_quota hx
              simp only [finish, Exec.fund, Step.fund, hqa]
            | next a =>
              have hqa : a.quota = m1.quota := (execute_kept hx).quota
              simp only [finish, Exec.fund, Step.fund]
              cases i.jumps
              · simp only [Bool.false_eq_true, if_false, hqa]; rfl
              · simp only [if_true, hqa]
          exact hm3 _ (by rw [← hm1]; rfl)

/-- Same for many steps. -/
theorem run_fund {e : Env} (ok : e.Ok) {q : Nat} {d : Nat} (hqd : q + d < 2 ^ 32) (n : Nat) {m m' : Machine} {r : Result}
    (h : Reach e (init q) m) (hr : run e n m = some (m', r)) (hne : r ≠ .err .outOfQuota) :
    run e n (m.fund (m.quota + d)) = some (m'.fund (m'.quota + d), r) := by
  induction n generalizing m with
  | zero => simp [run] at hr
  | succ n ih =>
    have hle := reach_total ok.table h
    unfold run at hr ⊢
    have hs : step e (m.fund (m.quota + d)) = (step e m).fund d := by
      apply step_fund ok.table (by omega)
      intro m'' hc
      rw [hc] at hr
      simp only [Option.some.injEq, Prod.mk.injEq] at hr
      exact hne hr.2.symm
    rw [hs]
    cases hst : step e m with
    | stop a b =>
      rw [hst] at hr
      simp only [Option.some.injEq, Prod.mk.injEq] at hr
      obtain ⟨rfl, rfl⟩ := hr
      rfl
    | next a =>
      rw [hst] at hr
      exact ih (h.next hst) hr

/-- **C44.** A call that does not run out of quota does the same with any larger quota: same result, same storage writes,
logs and requests, same quota used. -/
theorem more_quota_same_run {e : Env} (ok : e.Ok) {q q' : Nat} (hle : q ≤ q') (hq' : q' < 2 ^ 32) {n : Nat} {m : Machine}
    {r : Result} (h : run e n (init q) = some (m, r)) (hr : r ≠ .err .outOfQuota) :
    ∃ m', run e n (init q') = some (m', r) ∧ m'.store = m.store ∧ m'.logs = m.logs ∧ m'.sends = m.sends ∧
      m'.quota + q = m.quota + q' := by
  have := run_fund ok (d := q' - q) (by omega) n .here h hr
  have e1 : (init q).fund ((init q).quota + (q' - q)) = init q' := by
    simp only [init, Machine.fund]
    congr 1
    omega
  rw [e1] at this
  exact ⟨_, this, rfl, rfl, rfl, by simp only [Machine.fund]; omega⟩

/-- **C44.** Two calls of the same code on the same state that both complete return the same, whatever their quotas. -/
theorem result_independent_of_quota {e : Env} (ok : e.Ok) {q q' : Nat} (hq : q < 2 ^ 32) (hq' : q' < 2 ^ 32) {n n' : Nat}
    {m m' : Machine} {r r' : Result} (h : run e n (init q) = some (m, r)) (h' : run e n' (init q') = some (m', r'))
    (hr : r ≠ .err .outOfQuota) (hr' : r' ≠ .err .outOfQuota) :
    r = r' ∧ m.store = m'.store ∧ m.logs = m'.logs ∧ m.sends = m'.sends := by
  have key : ∀ {q q' : Nat} {n n' : Nat} {m m' : Machine} {r r' : Result}, q ≤ q' → q' < 2 ^ 32 →
      run e n (init q) = some (m, r) → run e n' (init q') = some (m', r') → r ≠ .err .outOfQuota →
      r = r' ∧ m.store = m'.store ∧ m.logs = m'.logs ∧ m.sends = m'.sends := by
    intro q q' n n' m m' r r' hle hq' h h' hr
    obtain ⟨m'', h1, h2, h3, h4, -⟩ := more_quota_same_run ok hle hq' h hr
    have a1 := run_mono h1 (Nat.le_max_left n n')
    have a2 := run_mono h' (Nat.le_max_right n n')
    rw [a1] at a2
    simp only [Option.some.injEq, Prod.mk.injEq] at a2
    obtain ⟨rfl, rfl⟩ := a2
    exact ⟨rfl, h2.symm, h3.symm, h4.symm⟩
  rcases Nat.le_total q q' with hle | hle
  · exact key hle hq' h h' hr
  · obtain ⟨h1, h2, h3, h4⟩ := key hle hq h' h hr'
    exact ⟨h1.symm, h2.symm, h3.symm, h4.symm⟩

end Verif.Evm
