import Verif.Evm.InterpLemmas

/-!
# C07: jumps only land on JUMPDEST instructions

`hasDest_iff`: the check made by JUMP and JUMPI accepts exactly the positions of JUMPDEST instructions, for every code and
every 256-bit target, and its bitmap accesses are never out of range.
-/

namespace Verif.Evm

open Verif.Bytes (Bytes num be)

/-- The bit of a position is set. -/
def Marked (bits : Bitvec) (pos : Nat) : Prop :=
  ∃ b, bits[pos / 8]? = some b ∧ b &&& (0x80 >>> UInt8.ofNat (pos % 8)) ≠ 0

theorem or_and_ne (b v w : UInt8) : (b ||| v) &&& w ≠ 0 ↔ b &&& w ≠ 0 ∨ v &&& w ≠ 0 := by
  have h : (b ||| v) &&& w = (b &&& w) ||| (v &&& w) := by
    apply UInt8.toBitVec_inj.mp
    simp only [UInt8.toBitVec_and, UInt8.toBitVec_or]
    ext i; simp only [BitVec.getElem_and, BitVec.getElem_or]
    cases b.toBitVec[i] <;> cases v.toBitVec[i] <;> simp
  rw [h, Ne, UInt8.or_eq_zero_iff]
  tauto

theorem orAt_some {bits : Bitvec} {i : Nat} {v : UInt8} (h : i < bits.length) :
    orAt bits i v = some (bits.set i (bits[i] ||| v)) := by
  simp [orAt, h]

theorem marked_orAt {bits : Bitvec} {i : Nat} {v : UInt8} (h : i < bits.length) (q : Nat) :
    Marked (bits.set i (bits[i] ||| v)) q ↔
      Marked bits q ∨ (q / 8 = i ∧ v &&& (0x80 >>> UInt8.ofNat (q % 8)) ≠ 0) := by
  unfold Marked
  by_cases hq : q / 8 = i
  · subst hq
    simp only [List.getElem?_set_self h, Option.some.injEq, exists_eq_left', or_and_ne, List.getElem?_eq_getElem h,
      true_and]
  · simp [List.getElem?_set_ne (fun hh => hq hh.symm), hq]

theorem mask_single {r s : Nat} (hr : r < 8) (hs : s < 8) :
    (0x80 >>> UInt8.ofNat r) &&& ((0x80 : UInt8) >>> UInt8.ofNat s) ≠ 0 ↔ r = s := by
  have h : ∀ r s : Fin 8, (0x80 >>> UInt8.ofNat r.val) &&& ((0x80 : UInt8) >>> UInt8.ofNat s.val) ≠ 0 ↔ r.val = s.val := by decide +kernel
  exact h ⟨r, hr⟩ ⟨s, hs⟩

theorem mask_high {r s : Nat} (hr : r < 8) (hs : s < 8) :
    (0xFF >>> UInt8.ofNat r) &&& ((0x80 : UInt8) >>> UInt8.ofNat s) ≠ 0 ↔ r ≤ s := by
  have h : ∀ r s : Fin 8, (0xFF >>> UInt8.ofNat r.val) &&& ((0x80 : UInt8) >>> UInt8.ofNat s.val) ≠ 0 ↔ r.val ≤ s.val := by decide +kernel
  exact h ⟨r, hr⟩ ⟨s, hs⟩

theorem mask_low {r s : Nat} (hr : r < 8) (hs : s < 8) :
    (~~~ (0xFF >>> UInt8.ofNat r)) &&& ((0x80 : UInt8) >>> UInt8.ofNat s) ≠ 0 ↔ s < r := by
  have h : ∀ r s : Fin 8, (~~~ (0xFF >>> UInt8.ofNat r.val)) &&& ((0x80 : UInt8) >>> UInt8.ofNat s.val) ≠ 0 ↔ s.val < r.val := by decide +kernel
  exact h ⟨r, hr⟩ ⟨s, hs⟩

theorem setBit_spec {bits : Bitvec} {pos : Nat} (h : pos / 8 < bits.length) :
    ∃ b', setBit bits pos = some b' ∧ b'.length = bits.length ∧ ∀ q, Marked b' q ↔ Marked bits q ∨ q = pos := by
  refine ⟨_, orAt_some h, by simp, fun q => ?_⟩
  rw [marked_orAt h, mask_single (Nat.mod_lt _ (by decide)) (Nat.mod_lt _ (by decide))]
  have : (q / 8 = pos / 8 ∧ pos % 8 = q % 8) ↔ q = pos := by omega
  rw [this]

theorem set8_spec {bits : Bitvec} {pos : Nat} (h : pos / 8 + 1 < bits.length) :
    ∃ b', set8 bits pos = some b' ∧ b'.length = bits.length ∧
      ∀ q, Marked b' q ↔ Marked bits q ∨ (pos ≤ q ∧ q < pos + 8) := by
  have h0 : pos / 8 < bits.length := by omega
  unfold set8
  rw [orAt_some h0, Option.bind_some]
  have h1 : pos / 8 + 1 < (bits.set (pos / 8) (bits[pos / 8] ||| 0xFF >>> UInt8.ofNat (pos % 8))).length := by simpa using h
  refine ⟨_, orAt_some h1, by simp, fun q => ?_⟩
  rw [marked_orAt h1, marked_orAt h0, mask_high (Nat.mod_lt _ (by decide)) (Nat.mod_lt _ (by decide)),
    mask_low (Nat.mod_lt _ (by decide)) (Nat.mod_lt _ (by decide))]
  have : (q / 8 = pos / 8 ∧ pos % 8 ≤ q % 8) ∨ (q / 8 = pos / 8 + 1 ∧ q % 8 < pos % 8) ↔ pos ≤ q ∧ q < pos + 8 := by omega
  rw [or_assoc, this]

theorem setData_spec {bits : Bitvec} {pos n : Nat} (h : (pos + n) / 8 < bits.length) :
    ∃ b', setData bits pos n = some b' ∧ b'.length = bits.length ∧
      ∀ q, Marked b' q ↔ Marked bits q ∨ (pos ≤ q ∧ q < pos + n) := by
  induction n using Nat.strong_induction_on generalizing bits pos with
  | _ n ih =>
    unfold setData
    by_cases h8 : n ≥ 8
    · rw [if_pos h8]
      obtain ⟨b1, e1, l1, m1⟩ := set8_spec (bits := bits) (pos := pos) (by omega)
      rw [e1, Option.bind_some]
      obtain ⟨b2, e2, l2, m2⟩ := ih (n - 8) (by omega) (bits := b1) (pos := pos + 8) (by omega)
      refine ⟨b2, e2, by omega, fun q => ?_⟩
      rw [m2, m1, or_assoc]
      have : (pos ≤ q ∧ q < pos + 8) ∨ (pos + 8 ≤ q ∧ q < pos + 8 + (n - 8)) ↔ pos ≤ q ∧ q < pos + n := by omega
      rw [this]
    · rw [if_neg h8]
      by_cases h0 : n > 0
      · rw [if_pos h0]
        obtain ⟨b1, e1, l1, m1⟩ := setBit_spec (bits := bits) (pos := pos) (by omega)
        rw [e1, Option.bind_some]
        obtain ⟨b2, e2, l2, m2⟩ := ih (n - 1) (by omega) (bits := b1) (pos := pos + 1) (by omega)
        refine ⟨b2, e2, by omega, fun q => ?_⟩
        rw [m2, m1, or_assoc]
        have : (q = pos ∨ (pos + 1 ≤ q ∧ q < pos + 1 + (n - 1))) ↔ pos ≤ q ∧ q < pos + n := by omega
        rw [this]
      · rw [if_neg h0]
        refine ⟨bits, rfl, rfl, fun q => ?_⟩
        have : ¬ (pos ≤ q ∧ q < pos + n) := by omega
        simp [this]

theorem getOp_eq {code : Bytes} {p : Nat} (h : p < code.length) : getOp code p = code[p].toNat := by
  simp [getOp, h]

theorem getOp_lt (code : Bytes) (p : Nat) : getOp code p < 256 := by
  unfold getOp
  cases code[p]? with
  | none => simp
  | some b => simpa using b.toNat_lt

/-- Instruction starts from `pc` on. -/
inductive From (code : Bytes) (pc : Nat) : Nat → Prop
  | here : From code pc pc
  | after {p} : From code pc p → p < code.length → From code pc (p + 1 + immediates (getOp code p))

theorem From.le {code : Bytes} {pc p : Nat} (h : From code pc p) : pc ≤ p := by
  induction h with
  | here => exact Nat.le_refl _
  | after _ _ ih => omega

theorem From.head {code : Bytes} {pc p : Nat} (hl : pc < code.length) (h : From code pc p) :
    p = pc ∨ From code (pc + 1 + immediates (getOp code pc)) p := by
  induction h with
  | here => exact Or.inl rfl
  | after h1 h2 ih =>
    rcases ih with rfl | ih
    · exact Or.inr .here
    · exact Or.inr (.after ih h2)

theorem From.cons {code : Bytes} {pc p : Nat} (hl : pc < code.length)
    (h : From code (pc + 1 + immediates (getOp code pc)) p) : From code pc p := by
  induction h with
  | here => exact .after .here hl
  | after h1 h2 ih => exact .after ih h2

theorem from_zero {code : Bytes} {p : Nat} : From code 0 p ↔ InstrStart code p := by
  constructor
  · intro h
    induction h with
    | here => exact .first
    | after _ h2 ih => exact .after ih h2
  · intro h
    induction h with
    | first => exact .here
    | after _ h2 ih => exact .after ih h2

/-- The bitmap marks exactly the positions from `pc` on that are not instruction starts. -/
theorem bitmapLoop_spec {code : Bytes} {pc : Nat} {bits : Bitvec} (hl : bits.length = code.length / 8 + 5) :
    ∃ b', bitmapLoop code pc bits = some b' ∧ b'.length = bits.length ∧
      ∀ q, q < code.length → (Marked b' q ↔ Marked bits q ∨ (pc ≤ q ∧ ¬ From code pc q)) := by
  generalize hn : code.length - pc = n
  induction n using Nat.strong_induction_on generalizing pc bits with
  | _ n ih =>
    unfold bitmapLoop
    by_cases h : pc < code.length
    · rw [dif_pos h]
      by_cases hp : 0x60 ≤ code[pc].toNat ∧ code[pc].toNat ≤ 0x7f
      · rw [if_pos hp]
        obtain ⟨b1, e1, l1, m1⟩ := setData_spec (bits := bits) (pos := pc + 1) (n := code[pc].toNat - 0x60 + 1) (by omega)
        rw [e1, Option.bind_some]
        obtain ⟨b2, e2, l2, m2⟩ := ih (code.length - (pc + 1 + (code[pc].toNat - 0x60 + 1))) (by omega)
          (pc := pc + 1 + (code[pc].toNat - 0x60 + 1)) (bits := b1) (by omega) rfl
        refine ⟨b2, e2, by omega, fun q hq => ?_⟩
        rw [m2 q hq, m1]
        have hi : immediates (getOp code pc) = code[pc].toNat - 0x60 + 1 := by
          rw [getOp_eq h, immediates, if_pos hp]; omega
        constructor
        · rintro ((h1 | h1) | h1)
          · exact Or.inl h1
          · refine Or.inr ⟨by omega, fun hf => ?_⟩
            rcases hf.head h with rfl | hf
            · omega
            · have := hf.le; omega
          · refine Or.inr ⟨by omega, fun hf => ?_⟩
            rcases hf.head h with rfl | hf
            · omega
            · rw [hi] at hf; exact h1.2 hf
        · rintro (h1 | ⟨h1, h2⟩)
          · exact Or.inl (Or.inl h1)
          · by_cases hx : q < pc + 1 + (code[pc].toNat - 0x60 + 1)
            · refine Or.inl (Or.inr ⟨?_, hx⟩)
              have : q ≠ pc := by rintro rfl; exact h2 .here
              omega
            · refine Or.inr ⟨by omega, fun hf => h2 (.cons h ?_)⟩
              rw [hi]; exact hf
      · rw [if_neg hp]
        obtain ⟨b2, e2, l2, m2⟩ := ih (code.length - (pc + 1)) (by omega) (pc := pc + 1) (bits := bits) hl rfl
        refine ⟨b2, e2, l2, fun q hq => ?_⟩
        rw [m2 q hq]
        have hi : immediates (getOp code pc) = 0 := by
          rw [getOp_eq h, immediates, if_neg hp]
        constructor
        · rintro (h1 | ⟨h1, h2⟩)
          · exact Or.inl h1
          · refine Or.inr ⟨by omega, fun hf => ?_⟩
            rcases hf.head h with rfl | hf
            · omega
            · rw [hi] at hf; exact h2 hf
        · rintro (h1 | ⟨h1, h2⟩)
          · exact Or.inl h1
          · have : q ≠ pc := by rintro rfl; exact h2 .here
            refine Or.inr ⟨by omega, fun hf => h2 (.cons h ?_)⟩
            rw [hi]; exact hf
    · rw [dif_neg h]
      refine ⟨bits, rfl, rfl, fun q hq => ?_⟩
      have : ¬ (pc ≤ q) := by omega
      simp [this]

theorem not_marked_zero (n q : Nat) : ¬ Marked (List.replicate n 0) q := by
  rintro ⟨b, h1, h2⟩
  rw [List.getElem?_replicate] at h1
  split at h1
  · simp only [Option.some.injEq] at h1; subst h1; simp at h2
  · simp at h1

/-- **C07.** JUMP and JUMPI accept a target exactly if it is the position of a JUMPDEST instruction; the check never reads
outside its bitmap. -/
theorem hasDest_iff {code : Bytes} {dest : Int} (h0 : 0 ≤ dest) (hl : code.length < 2 ^ 62) :
    ∃ b, hasDest code dest = some b ∧ (b = true ↔ IsDest code dest.toNat) := by
  unfold hasDest
  by_cases h : dest ≥ 2 ^ 62 ∨ dest.toNat ≥ code.length
  · rw [if_pos h]
    refine ⟨false, rfl, ?_⟩
    simp only [Bool.false_eq_true, false_iff]
    rintro ⟨h1, -⟩
    omega
  · rw [if_neg h]
    push Not at h
    obtain ⟨b, e1, l1, m1⟩ := bitmapLoop_spec (code := code) (pc := 0)
      (bits := List.replicate (code.length / 8 + 1 + 4) 0) (by simp)
    unfold codeBitmap
    rw [e1, Option.bind_some]
    by_cases ho : getOp code dest.toNat = 0x5b
    · rw [if_pos ho]
      have hb : dest.toNat / 8 < b.length := by rw [l1]; simp only [List.length_replicate]; omega
      unfold codeSegment
      rw [List.getElem?_eq_getElem hb, Option.map_some]
      refine ⟨_, rfl, ?_⟩
      rw [decide_eq_true_iff]
      have hm := m1 dest.toNat h.2
      rw [from_zero] at hm
      have hk : b[dest.toNat / 8] &&& 128 >>> UInt8.ofNat (dest.toNat % 8) = 0 ↔ ¬ Marked b dest.toNat := by
        unfold Marked
        rw [List.getElem?_eq_getElem hb]
        simp
      rw [hk, hm]
      unfold IsDest
      have := not_marked_zero (code.length / 8 + 1 + 4) dest.toNat
      simp only [this, false_or, Nat.zero_le, true_and, not_not, ho, h.2]
    · rw [if_neg ho]
      refine ⟨false, rfl, ?_⟩
      simp only [Bool.false_eq_true, false_iff]
      rintro ⟨-, h1, -⟩
      exact ho h1

/-! ### Every executed byte is the beginning of an instruction -/

/-- Immediate bytes an instruction skips. -/
def Instr.skip : Instr → Nat
  | .push n => n
  | _ => 0

/-- What an execution function does to the position, before the interpreter adds one. -/
theorem execute_pc {e : Env} {i : Instr} {m m2 : Machine} (h : execute e i m = .next m2) (hj : i.jumps = false) :
    m2.pc = m.pc + i.skip := by
  cases i with
  | jump => simp [Instr.jumps] at hj
  | jumpi => simp [Instr.jumps] at hj
  | call2 =>
    simp only [execute, execCall2] at h
    split at h
    · rename_i m' hc
      simp only [Exec.next.injEq] at h; subst h
      simp only [execCall] at hc
      repeat' split at hc
      all_goals first
        | (simp only [Exec.next.injEq] at hc; subst hc; rfl)
        | simp at hc
    · rename_i hc
      exact absurd h (hc _)
  | _ =>
    simp only [execute, execTop, execHash, execCopy, execReturnDataCopy, execMload, execMstore, execMstore8, execSload,
      execSstore, execPush, execDup, execSwap, execLog, execCall, execReturn, execRevert] at h
    repeat' split at h
    all_goals first
      | (simp only [Exec.next.injEq] at h; subst h; rfl)
      | simp at h

theorem toUint64_of_dest {code : Bytes} {x : Int} (h0 : 0 ≤ x) (hd : hasDest code x = some true) : toUint64 x = x.toNat := by
  unfold hasDest at hd
  split at hd
  · simp at hd
  · rename_i h
    push Not at h
    unfold toUint64
    rw [Int.emod_eq_of_lt h0 (by omega)]

/-- The bytes of an instruction with immediate bytes are those of a PUSH. -/
theorem decode_push {set : Set} {b : Nat} {i : Instr} (h : decode set b = some i) :
    immediates b = i.skip := by
  unfold decode at h
  unfold immediates
  by_cases h1 : 0x60 ≤ b ∧ b ≤ 0x7f
  · rw [if_pos h1] at h ⊢
    simp only [Option.some.injEq] at h; subst h; rfl
  · rw [if_neg h1] at h ⊢
    split at h
    · simp only [Option.some.injEq] at h; subst h; rfl
    split at h
    · simp only [Option.some.injEq] at h; subst h; rfl
    split at h
    · simp only [Option.some.injEq] at h; subst h; rfl
    split at h
    all_goals first
      | (simp only [Option.some.injEq] at h; subst h; rfl)
      | (split at h <;> first | (simp only [Option.some.injEq] at h; subst h; rfl) | simp at h)
      | simp at h

theorem hasDest_true {code : Bytes} {x : Int} (h0 : 0 ≤ x) (hl : code.length < 2 ^ 62) (h : hasDest code x = some true) :
    IsDest code x.toNat ∧ toUint64 x = x.toNat := by
  obtain ⟨b, hb, hi⟩ := hasDest_iff (code := code) h0 hl
  rw [h] at hb
  exact ⟨hi.mp (by simpa using hb.symm), toUint64_of_dest h0 h⟩

/-- Decoding the byte beyond the code gives STOP. -/
theorem decode_zero (set : Set) : decode set 0 = some .stop := by simp [decode]

theorem getOp_beyond {code : Bytes} {p : Nat} (h : code.length ≤ p) : getOp code p = 0 := by
  simp [getOp, List.getElem?_eq_none h]

/-- A step that goes on executed a byte of the code. -/
theorem step_inside {e : Env} {m m' : Machine} (h : step e m = .next m') : m.pc < e.code.length := by
  by_contra hc
  obtain ⟨i, sz, c, flag, mem, touched, m1, m2, hf, hx, -⟩ := step_next h
  have := hf.dec
  rw [getOp_beyond (by omega), decode_zero] at this
  simp only [Option.some.injEq] at this
  subst this
  simp [execute] at hx

theorem Fired.stack {e : Env} {m : Machine} {i : Instr} {sz c : Nat} {flag : Bool} {mem : Mem} {touched : List Nat}
    {m1 : Machine} (h : Fired e m i sz c flag mem touched m1) :
    m1.stack = m.stack ∧ m1.pc = m.pc ∧ m1.store = m.store ∧ m1.touched = touched ∧ m1.sends = m.sends ∧
      m1.mem = (if sz > 0 then mem.resize e sz else mem) ∧ m1.logs = m.logs := by
  have := h.m1eq
  rw [this]
  exact ⟨rfl, rfl, rfl, rfl, rfl, rfl, rfl⟩

/-- **C07.** A jump that is taken goes to a JUMPDEST instruction of the code, and to the position on the stack. -/
theorem jump_lands {e : Env} (ok : e.Ok) {m m' : Machine} (hw : ∀ x ∈ m.stack, IsWord x) (h : step e m = .next m')
    (hj : getOp e.code m.pc = 0x56 ∨ (getOp e.code m.pc = 0x57 ∧ m.stack.getD 1 0 ≠ 0)) :
    IsDest e.code m'.pc ∧ (m'.pc : Int) = m.stack.getD 0 0 := by
  obtain ⟨i, sz, c, flag, mem, touched, m1, m2, hf, hx, hm⟩ := step_next h
  obtain ⟨hs, -⟩ := hf.stack
  rw [← hs] at hw hj ⊢
  rcases hj with hj | ⟨hj, hne⟩
  · have hd := hf.dec
    rw [hj] at hd
    simp [decode] at hd
    subst hd
    simp only [execute, execJump] at hx
    split at hx
    · rename_i pos s hst
      obtain ⟨h1, h2⟩ := jumpTo_kept hx
      have hp := (hw pos (by simp [hst])).1
      obtain ⟨h3, h4⟩ := hasDest_true hp ok.code h2
      simp only [Instr.jumps, if_true] at hm
      subst hm; subst h1
      simp only [h4, hst, List.getD_cons_zero]
      exact ⟨h3, Int.toNat_of_nonneg hp⟩
    · simp at hx
  · have hd := hf.dec
    rw [hj] at hd
    simp [decode] at hd
    subst hd
    simp only [execute, execJumpi] at hx
    split at hx
    · rename_i pos cond s hst
      rw [hst, List.getD_cons_succ, List.getD_cons_zero] at hne
      rw [if_pos hne] at hx
      obtain ⟨h1, h2⟩ := jumpTo_kept hx
      have hp := (hw pos (by simp [hst])).1
      obtain ⟨h3, h4⟩ := hasDest_true hp ok.code h2
      simp only [Instr.jumps, if_true] at hm
      subst hm; subst h1
      simp only [h4, hst, List.getD_cons_zero]
      exact ⟨h3, Int.toNat_of_nonneg hp⟩
    · simp at hx

/-- Positions after a step: the next instruction, or a JUMPDEST. -/
theorem step_pc {e : Env} (ok : e.Ok) {m m' : Machine} (hw : ∀ x ∈ m.stack, IsWord x) (h : step e m = .next m') :
    m'.pc = m.pc + 1 + immediates (getOp e.code m.pc) ∨ IsDest e.code m'.pc := by
  obtain ⟨i, sz, c, flag, mem, touched, m1, m2, hf, hx, hm⟩ := step_next h
  obtain ⟨hs, hpc, -⟩ := hf.stack
  rw [decode_push hf.dec]
  by_cases hj : i.jumps = false
  · have := execute_pc hx hj
    subst hm
    simp only [hj]
    left
    simp only [Bool.false_eq_true, if_false]
    rw [this, hpc]; omega
  · have hj' : i.jumps = true := by simpa using hj
    rw [← hs] at hw
    simp only [hj', if_true] at hm
    subst hm
    cases i <;> simp only [Instr.jumps, Bool.false_eq_true] at hj'
    · right
      simp only [execute, execJump] at hx
      split at hx
      · rename_i pos s hst
        obtain ⟨h1, h2⟩ := jumpTo_kept hx
        obtain ⟨h3, h4⟩ := hasDest_true (hw pos (by simp [hst])).1 ok.code h2
        subst h1
        simp only [h4]
        exact h3
      · simp at hx
    · simp only [execute, execJumpi] at hx
      split at hx
      · rename_i pos cond s hst
        split at hx
        · right
          obtain ⟨h1, h2⟩ := jumpTo_kept hx
          obtain ⟨h3, h4⟩ := hasDest_true (hw pos (by simp [hst])).1 ok.code h2
          subst h1
          simp only [h4]
          exact h3
        · left
          simp only [Exec.next.injEq] at hx
          subst hx
          simp only [hpc, Instr.skip]
      · simp at hx

end Verif.Evm
