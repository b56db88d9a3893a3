import Verif.Evm.JumpProps

/-! # Every value on the stack is a 256-bit word -/

namespace Verif.Evm

open Verif.Bytes (Bytes num be)
open Verif.Evm.Word

theorem IsWord.val {x : Int} (h : IsWord x) : ∃ b : BitVec 256, x = val b := by
  refine ⟨BitVec.ofNat 256 x.toNat, ?_⟩
  unfold Word.val
  rw [BitVec.toNat_ofNat, Nat.mod_eq_of_lt (by have := h.1; have := h.2; omega)]
  exact (Int.toNat_of_nonneg h.1).symm

theorem isWord_val (b : BitVec 256) : IsWord (Word.val b) := by
  unfold Word.val; have := b.isLt; constructor <;> omega

theorem isWord_zero : IsWord 0 := by constructor <;> norm_num

theorem isWord_u256 (x : Int) : IsWord (u256 x) := by
  rw [u256_eq]; constructor <;> omega

theorem isWord_flag (b : Bool) : IsWord (flag b) := by cases b <;> constructor <;> norm_num [flag]

theorem isWord_nat {n : Nat} (h : n < 2 ^ 256) : IsWord (n : Int) := by constructor <;> omega

theorem isWord_num {b : Bytes} (h : b.length ≤ 32) : IsWord (num b : Int) := by
  apply isWord_nat
  calc num b < 256 ^ b.length := Verif.Bytes.num_lt b
    _ ≤ 256 ^ 32 := Nat.pow_le_pow_right (by norm_num) h
    _ = 2 ^ 256 := by norm_num

theorem Bin.eval_word (b : Bin) {x y : Int} (hx : IsWord x) (hy : IsWord y) : IsWord (b.eval x y) := by
  obtain ⟨x, rfl⟩ := hx.val
  obtain ⟨y, rfl⟩ := hy.val
  cases b <;> simp only [Bin.eval]
  · rw [opAdd_spec]; exact isWord_val _
  · rw [opMul_spec]; exact isWord_val _
  · rw [opSub_spec]; exact isWord_val _
  · rw [opDiv_spec]; exact isWord_val _
  · rw [opSdiv_spec]; exact isWord_val _
  · rw [opMod_spec]; split
    · exact isWord_zero
    · exact isWord_val _
  · rw [opSmod_spec]; split
    · exact isWord_zero
    · exact isWord_val _
  · rw [opExp_spec]; exact isWord_nat (Nat.mod_lt _ (by norm_num))
  · unfold opSignExtend; dsimp only; split
    · split <;> exact isWord_u256 _
    · exact isWord_val _
  · rw [opLt_spec]; exact isWord_flag _
  · rw [opGt_spec]; exact isWord_flag _
  · rw [opSlt_spec]; exact isWord_flag _
  · rw [opSgt_spec]; exact isWord_flag _
  · rw [opEq_spec]; exact isWord_flag _
  · rw [opAnd_spec]; exact isWord_val _
  · rw [opOr_spec]; exact isWord_val _
  · rw [opXor_spec]; exact isWord_val _
  · rw [opByte_spec]; split
    · exact isWord_nat (lt_trans (Nat.mod_lt _ (by norm_num)) (by norm_num))
    · exact isWord_zero
  · rw [opSHL_spec]; exact isWord_val _
  · rw [opSHR_spec]; exact isWord_val _
  · unfold opSAR; dsimp only; split
    · split <;> exact isWord_u256 _
    · exact isWord_u256 _

/-- The values a run keeps on the stack and in the storage are at most 256 bits wide. -/
structure Wide (m : Machine) : Prop where
  words : ∀ x ∈ m.stack, IsWord x
  store : ∀ kv ∈ m.store, kv.2.length ≤ 32

theorem getValue_length {orig : Nat → Bytes} (ho : ∀ k, (orig k).length ≤ 32) {store : List (Nat × Bytes)}
    (hs : ∀ kv ∈ store, kv.2.length ≤ 32) (loc : Nat) : (getValue orig store loc).length ≤ 32 := by
  induction store with
  | nil => exact ho loc
  | cons kv rest ih =>
    obtain ⟨k, v⟩ := kv
    unfold getValue
    split
    · exact hs (k, v) (by simp)
    · exact ih (fun x hx => hs x (by simp [hx]))

theorem setValue_length {store : List (Nat × Bytes)} (hs : ∀ kv ∈ store, kv.2.length ≤ 32) {loc : Nat} {v : Bytes}
    (hv : v.length ≤ 32) : ∀ kv ∈ setValue store loc v, kv.2.length ≤ 32 := by
  induction store with
  | nil => intro kv h; simp only [setValue, List.mem_singleton] at h; subst h; exact hv
  | cons kw rest ih =>
    obtain ⟨k, w⟩ := kw
    intro kv h
    unfold setValue at h
    split at h
    · rcases List.mem_cons.mp h with rfl | h
      · exact hv
      · exact hs kv (by simp [h])
    · rcases List.mem_cons.mp h with rfl | h
      · exact hs _ (by simp)
      · exact ih (fun x hx => hs x (by simp [hx])) kv h

theorem byteLen_le {n k : Nat} (h : n < 256 ^ k) : byteLen n ≤ k := by
  induction k generalizing n with
  | zero =>
    have : n = 0 := by simpa using h
    subst this; simp [byteLen]
  | succ k ih =>
    rw [byteLen]
    split
    · omega
    · have := ih (n := n / 256) (by rw [Nat.div_lt_iff_lt_mul (by norm_num)]; rwa [pow_succ] at h)
      omega

theorem lt_pow_byteLen (n : Nat) : n < 256 ^ byteLen n := by
  induction n using Nat.strong_induction_on with
  | _ n ih =>
    rw [byteLen]
    split
    · omega
    · have := ih (n / 256) (Nat.div_lt_self (by omega) (by norm_num))
      rw [pow_succ]
      exact (Nat.div_lt_iff_lt_mul (by norm_num)).mp this

/-- What is stored is read back. -/
theorem num_bytesOf {x : Int} (h : 0 ≤ x) : (num (bytesOf x) : Int) = x := by
  unfold bytesOf
  rw [Verif.Bytes.num_be, Nat.mod_eq_of_lt (lt_pow_byteLen _)]
  omega

theorem bytesOf_length {x : Int} (h : IsWord x) : (bytesOf x).length ≤ 32 := by
  unfold bytesOf
  rw [Verif.Bytes.be_length]
  apply byteLen_le
  have := h.1; have := h.2
  have e : (256 : Nat) ^ 32 = 2 ^ 256 := by norm_num
  rw [e]; omega

theorem get_length {m : Mem} {o n : Int} {d : Bytes} (h : m.get o n = some d) : d.length ≤ n.toNat := by
  unfold Mem.get at h
  split at h
  · simp only [Option.some.injEq] at h; subst h; simp
  · split at h
    · split at h
      · simp at h
      · simp only [Option.some.injEq] at h; subst h; exact List.length_take_le _ _
    · simp only [Option.some.injEq] at h; subst h; simp

theorem rightPad_length {b : Bytes} {n : Nat} (h : b.length ≤ n) : (rightPad b n).length = n := by
  unfold rightPad
  split
  · omega
  · simp only [List.length_append, List.length_replicate]; omega

theorem getData32_length (data : Bytes) (o : Int) : (getData data o 32).length ≤ 32 := by
  unfold getData
  have e : toUint64 32 = 32 := by decide
  rw [e, rightPad_length]
  refine le_trans (List.length_take_le _ _) ?_
  omega

theorem back_mem {s : List Int} {n : Nat} (h : n < s.length) : back s n ∈ s := by
  unfold back
  rw [List.getD_eq_getElem s 0 h]
  exact List.getElem_mem h

theorem execTop_wide {m m2 : Machine} {n : Nat} {f : List Int → Int} (h : execTop m n f = .next m2) (hg : Wide m)
    (hf : n ≤ m.stack.length → IsWord (f (m.stack.take n))) : Wide m2 := by
  unfold execTop at h
  split at h
  · simp at h
  · rename_i hl
    simp only [Exec.next.injEq] at h; subst h
    refine ⟨fun x hx => ?_, hg.store⟩
    rcases List.mem_cons.mp hx with rfl | hx
    · exact hf (by omega)
    · exact hg.words x (List.mem_of_mem_drop hx)

theorem opAddmod_word {x y z : Int} : IsWord (opAddmod x y z) := by
  unfold opAddmod; split
  · exact isWord_u256 _
  · exact isWord_zero

theorem opMulmod_word {x y z : Int} : IsWord (opMulmod x y z) := by
  unfold opMulmod; split
  · exact isWord_u256 _
  · exact isWord_zero

theorem execHash_wide {m m2 : Machine} {f : Bytes → Bytes} (h : execHash m f = .next m2) (hg : Wide m)
    (hf : ∀ b, (f b).length = 32) : Wide m2 := by
  unfold execHash at h
  split at h
  · rename_i hs
    split at h
    · simp at h
    · simp only [Exec.next.injEq] at h; subst h
      refine ⟨fun x hx => ?_, hg.store⟩
      rcases List.mem_cons.mp hx with rfl | hx
      · exact isWord_num (le_of_eq (hf _))
      · exact hg.words x (by simp [hs, hx])
  · simp at h

theorem execCall_wide {e : Env} {m m2 : Machine} (h : execCall e m = .next m2) (hg : Wide m) : Wide m2 := by
  unfold execCall at h
  split at h
  · rename_i hs
    split at h
    · simp only [Exec.next.injEq] at h; subst h
      exact ⟨fun x hx => hg.words x (by simp [hs, hx]), hg.store⟩
    · split at h
      · simp at h
      · simp only [Exec.next.injEq] at h; subst h
        exact ⟨fun x hx => hg.words x (by simp [hs, hx]), hg.store⟩
  · simp at h

/-- Execution functions keep the words wide. -/
theorem execute_wide {e : Env} (ok : e.Ok) {i : Instr} {m m2 : Machine} (h : execute e i m = .next m2) (hg : Wide m)
    (hpc : m.pc < 2 ^ 256) (hl : m.mem.store.length < 2 ^ 256) (hpush : ∀ n, i = .push n → n ≤ 32) : Wide m2 := by
  cases i with
  | stop => simp [execute] at h
  | bin b =>
    simp only [execute] at h
    exact execTop_wide h hg (fun hn => Bin.eval_word b
      (hg.words _ (List.mem_of_mem_take (back_mem (by simp; omega)))) (hg.words _ (List.mem_of_mem_take (back_mem (by simp; omega)))))
  | addmod => simp only [execute] at h; exact execTop_wide h hg (fun _ => opAddmod_word)
  | mulmod => simp only [execute] at h; exact execTop_wide h hg (fun _ => opMulmod_word)
  | iszero =>
    simp only [execute] at h
    refine execTop_wide h hg (fun _ => ?_)
    unfold opIszero; split <;> constructor <;> norm_num
  | not => simp only [execute] at h; exact execTop_wide h hg (fun _ => isWord_u256 _)
  | src s =>
    simp only [execute] at h
    refine execTop_wide h hg (fun _ => ?_)
    unfold srcWord
    have := ok.data; have := ok.code
    split
    · exact isWord_nat (by omega)
    · exact isWord_nat (by omega)
    · exact isWord_zero
    · split
      · exact isWord_zero
      · exact ok.word _
  | balance => simp only [execute] at h; exact execTop_wide h hg (fun _ => ok.balance _)
  | calldataload => simp only [execute] at h; exact execTop_wide h hg (fun _ => isWord_num (getData32_length _ _))
  | pc => simp only [execute] at h; exact execTop_wide h hg (fun _ => isWord_nat hpc)
  | msize => simp only [execute] at h; exact execTop_wide h hg (fun _ => isWord_nat hl)
  | sha3 => simp only [execute] at h; exact execHash_wide h hg ok.keccak
  | blake2b => simp only [execute] at h; exact execHash_wide h hg ok.blake
  | calldatacopy =>
    simp only [execute, execCopy] at h
    split at h
    · rename_i hs
      split at h
      · simp at h
      · simp only [Exec.next.injEq] at h; subst h
        exact ⟨fun x hx => hg.words x (by simp [hs, hx]), hg.store⟩
    · simp at h
  | codecopy =>
    simp only [execute, execCopy] at h
    split at h
    · rename_i hs
      split at h
      · simp at h
      · simp only [Exec.next.injEq] at h; subst h
        exact ⟨fun x hx => hg.words x (by simp [hs, hx]), hg.store⟩
    · simp at h
  | returndatacopy =>
    simp only [execute, execReturnDataCopy] at h
    split at h
    · rename_i hs
      split at h
      · simp at h
      · split at h
        · simp at h
        · simp only [Exec.next.injEq] at h; subst h
          exact ⟨fun x hx => hg.words x (by simp [hs, hx]), hg.store⟩
    · simp at h
  | pop =>
    simp only [execute] at h
    split at h
    · rename_i hs
      simp only [Exec.next.injEq] at h; subst h
      exact ⟨fun x hx => hg.words x (by simp [hs, hx]), hg.store⟩
    · simp at h
  | mload =>
    simp only [execute, execMload] at h
    split at h
    · rename_i hs
      split at h
      · simp at h
      · rename_i hd
        simp only [Exec.next.injEq] at h; subst h
        refine ⟨fun x hx => ?_, hg.store⟩
        rcases List.mem_cons.mp hx with rfl | hx
        · exact isWord_num (get_length hd)
        · exact hg.words x (by simp [hs, hx])
    · simp at h
  | mstore =>
    simp only [execute, execMstore] at h
    split at h
    · rename_i hs
      split at h
      · simp at h
      · simp only [Exec.next.injEq] at h; subst h
        exact ⟨fun x hx => hg.words x (by simp [hs, hx]), hg.store⟩
    · simp at h
  | mstore8 =>
    simp only [execute, execMstore8] at h
    split at h
    · rename_i hs
      split at h
      · simp only [Exec.next.injEq] at h; subst h
        exact ⟨fun x hx => hg.words x (by simp [hs, hx]), hg.store⟩
      · simp at h
    · simp at h
  | sload =>
    simp only [execute, execSload] at h
    split at h
    · rename_i hs
      simp only [Exec.next.injEq] at h; subst h
      refine ⟨fun x hx => ?_, hg.store⟩
      rcases List.mem_cons.mp hx with rfl | hx
      · exact isWord_num (getValue_length ok.orig hg.store _)
      · exact hg.words x (by simp [hs, hx])
    · simp at h
  | sstore =>
    simp only [execute, execSstore] at h
    split at h
    · rename_i hs
      split at h
      · simp only [Exec.next.injEq] at h; subst h
        exact ⟨fun x hx => hg.words x (by simp [hs, hx]), hg.store⟩
      · simp only [Exec.next.injEq] at h; subst h
        exact ⟨fun x hx => hg.words x (by simp [hs, hx]),
          setValue_length hg.store (bytesOf_length (hg.words _ (by simp [hs])))⟩
    · simp at h
  | jump =>
    simp only [execute, execJump] at h
    split at h
    · rename_i hs
      have := (jumpTo_kept h).1
      subst this
      exact ⟨fun x hx => hg.words x (by simp [hs, hx]), hg.store⟩
    · simp at h
  | jumpi =>
    simp only [execute, execJumpi] at h
    split at h
    · rename_i hs
      split at h
      · have := (jumpTo_kept h).1
        subst this
        exact ⟨fun x hx => hg.words x (by simp [hs, hx]), hg.store⟩
      · simp only [Exec.next.injEq] at h; subst h
        exact ⟨fun x hx => hg.words x (by simp [hs, hx]), hg.store⟩
    · simp at h
  | jumpdest => simp only [execute, Exec.next.injEq] at h; subst h; exact hg
  | push n =>
    simp only [execute, execPush, Exec.next.injEq] at h; subst h
    refine ⟨fun x hx => ?_, hg.store⟩
    rcases List.mem_cons.mp hx with rfl | hx
    · apply isWord_num
      rw [rightPad_length]
      · exact hpush n rfl
      · refine le_trans (List.length_take_le _ _) ?_
        omega
    · exact hg.words x hx
  | dup n =>
    simp only [execute, execDup] at h
    split at h
    · simp at h
    · split at h
      · simp at h
      · rename_i hs
        simp only [Exec.next.injEq] at h; subst h
        refine ⟨fun x hx => ?_, hg.store⟩
        rcases List.mem_cons.mp hx with rfl | hx
        · exact hg.words _ (List.mem_of_getElem? hs)
        · exact hg.words x hx
  | swap n =>
    simp only [execute, execSwap] at h
    split at h
    · rename_i hx0 hy0
      simp only [Exec.next.injEq] at h; subst h
      refine ⟨fun x hx => ?_, hg.store⟩
      rcases List.mem_or_eq_of_mem_set hx with hx | rfl
      · rcases List.mem_or_eq_of_mem_set hx with hx | rfl
        · exact hg.words x hx
        · exact hg.words _ (List.mem_of_getElem? hx0)
      · exact hg.words _ (List.mem_of_getElem? hy0)
    · simp at h
  | log n =>
    simp only [execute, execLog] at h
    split at h
    · rename_i hs
      split at h
      · simp at h
      · split at h
        · simp only [Exec.next.injEq] at h; subst h
          exact ⟨fun x hx => hg.words x (by simp [hs, List.mem_of_mem_drop hx]), hg.store⟩
        · split at h
          · simp at h
          · simp only [Exec.next.injEq] at h; subst h
            exact ⟨fun x hx => hg.words x (by simp [hs, List.mem_of_mem_drop hx]), hg.store⟩
    · simp at h
  | call => simp only [execute] at h; exact execCall_wide h hg
  | call2 =>
    simp only [execute, execCall2] at h
    split at h
    · rename_i hc
      simp only [Exec.next.injEq] at h; subst h
      have := execCall_wide hc hg
      refine ⟨fun x hx => ?_, this.store⟩
      rcases List.mem_cons.mp hx with rfl | hx
      · split
        · exact isWord_zero
        · exact ok.callHash _
      · exact this.words x hx
    · rename_i hc
      exact absurd h (hc _)
  | ret =>
    simp only [execute, execReturn] at h
    split at h
    · split at h <;> simp at h
    · simp at h
  | revert =>
    simp only [execute, execRevert, execReturn] at h
    split at h
    · split at h <;> simp at h
    · split at h
      · split at h <;> simp at h
      · simp at h

theorem decode_push_le {set : Set} {b : Nat} {i : Instr} (h : decode set b = some i) : ∀ n, i = .push n → n ≤ 32 := by
  intro n hn
  subst hn
  have := decode_push h
  simp only [immediates, Instr.skip] at this
  split at this <;> omega

theorem wide_init (q : Nat) : Wide (init q) := ⟨by simp [init], by simp [init]⟩

end Verif.Evm
