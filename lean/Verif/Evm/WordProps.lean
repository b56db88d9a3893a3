import Verif.Evm.WordLemmas
import Mathlib.Data.Int.ModEq

/-!
# C08, C13: instruction results and checked arithmetic

The specification of each instruction is the operation of the same meaning on Lean's `BitVec 256`
(or plain arithmetic for ADDMOD, MULMOD, EXP and BYTE).
-/

namespace Verif.Evm.Word

/-- The integer a 256-bit word is held as on the VM stack. -/
def val (x : BitVec 256) : Int := (x.toNat : Int)

theorem opAdd_spec (x y : BitVec 256) : opAdd (val x) (val y) = val (x + y) := by
  unfold opAdd val; rw [u256_eq, BitVec.toNat_add]; push_cast; rfl

theorem opMul_spec (x y : BitVec 256) : opMul (val x) (val y) = val (x * y) := by
  unfold opMul val; rw [u256_eq, BitVec.toNat_mul]; push_cast; rfl

theorem opSub_spec (x y : BitVec 256) : opSub (val x) (val y) = val (x - y) := by
  unfold opSub val; rw [u256_eq, BitVec.toNat_sub]
  have := x.isLt; have := y.isLt
  omega

/-- DIV: unsigned division, zero divisor gives zero. -/
theorem opDiv_spec (x y : BitVec 256) : opDiv (val x) (val y) = val (x / y) := by
  unfold opDiv val
  have hx := x.isLt
  by_cases hy : (y.toNat : Int) = 0
  · rw [if_neg (by simp [sign_eq_zero, hy])]
    have : y.toNat = 0 := by omega
    simp [BitVec.toNat_udiv, this]
  · rw [if_pos (by simpa [sign_eq_zero] using hy), ← Int.natCast_ediv, u256_of_lt, BitVec.toNat_udiv]
    exact lt_of_le_of_lt (Nat.div_le_self _ _) hx

/-- MOD: unsigned remainder, zero divisor gives zero. -/
theorem opMod_spec (x y : BitVec 256) : opMod (val x) (val y) = if y = 0 then 0 else val (x % y) := by
  unfold opMod val
  have hx := x.isLt
  by_cases hy : y = 0
  · subst hy; simp [sign]
  · have hy' : y.toNat ≠ 0 := by
      intro h; exact hy (BitVec.eq_of_toNat_eq (by simpa using h))
    rw [if_neg (by simp [sign_eq_zero, hy']), if_neg hy, ← Int.natCast_emod, u256_of_lt, BitVec.toNat_umod]
    exact lt_of_le_of_lt (Nat.mod_le _ _) hx

theorem ofInt_val_of_toInt (z : BitVec 256) (v : Int) (h : v % 2 ^ 256 = z.toInt % 2 ^ 256) :
    u256 v = val z := by
  rw [u256_eq, h, ← u256_eq, u256_toNat, BitVec.ofInt_toInt]; rfl

/-- SDIV: signed division truncating towards zero (`-2^255 / -1` wraps to `-2^255`), zero divisor gives zero. -/
theorem opSdiv_spec (x y : BitVec 256) : opSdiv (val x) (val y) = val (x.sdiv y) := by
  unfold opSdiv
  simp only [val, s256_eq, sign_eq_zero]
  by_cases h0 : y.toInt = 0 ∨ x.toInt = 0
  · rw [if_pos h0]
    have hz : x.sdiv y = 0 := by
      apply BitVec.eq_of_toInt_eq
      rw [BitVec.toInt_sdiv]
      rcases h0 with h | h <;> rw [h] <;> simp
    rw [hz]; simp
  · rw [if_neg h0]
    push Not at h0
    obtain ⟨hy, hx⟩ := h0
    have key : ∀ v : Int, v = x.toInt.tdiv y.toInt → u256 v = val (x.sdiv y) := by
      intro v hv
      apply ofInt_val_of_toInt
      rw [BitVec.toInt_sdiv, hv]
      norm_cast
      exact (Int.bmod_emod).symm
    have hv : (x.sdiv y).toNat = val (x.sdiv y) := rfl
    rw [hv]
    have s1 : ∀ a : Int, a < 0 → sign a = -1 := fun a h => by simp [sign, h]
    have s2 : ∀ a : Int, 0 < a → sign a = 1 := fun a h => by simp [sign, not_lt.2 h.le, h.ne']
    rw [abs_eq, abs_eq]
    rcases lt_or_gt_of_ne hx with h1 | h1 <;> rcases lt_or_gt_of_ne hy with h2 | h2
    · rw [s1 _ h1, s1 _ h2, if_neg (by simp)]
      apply key
      rw [show (x.toInt.natAbs : Int) = -x.toInt by omega, show (y.toInt.natAbs : Int) = -y.toInt by omega,
        ← Int.tdiv_eq_ediv_of_nonneg (by omega), Int.neg_tdiv, Int.tdiv_neg, neg_neg]
    · rw [s1 _ h1, s2 _ h2, if_pos (by decide)]
      apply key
      rw [show (x.toInt.natAbs : Int) = -x.toInt by omega, show (y.toInt.natAbs : Int) = y.toInt by omega,
        ← Int.tdiv_eq_ediv_of_nonneg (by omega), Int.neg_tdiv, neg_neg]
    · rw [s2 _ h1, s1 _ h2, if_pos (by decide)]
      apply key
      rw [show (x.toInt.natAbs : Int) = x.toInt by omega, show (y.toInt.natAbs : Int) = -y.toInt by omega,
        ← Int.tdiv_eq_ediv_of_nonneg (by omega), Int.tdiv_neg, neg_neg]
    · rw [s2 _ h1, s2 _ h2, if_neg (by simp)]
      apply key
      rw [show (x.toInt.natAbs : Int) = x.toInt by omega, show (y.toInt.natAbs : Int) = y.toInt by omega,
        ← Int.tdiv_eq_ediv_of_nonneg (by omega)]

/-- SMOD: remainder with the sign of the dividend, zero divisor gives zero. -/
theorem opSmod_spec (x y : BitVec 256) : opSmod (val x) (val y) = if y = 0 then 0 else val (x.srem y) := by
  unfold opSmod
  simp only [val, s256_eq, sign_eq_zero, sign_lt_zero]
  by_cases hy : y = 0
  · subst hy; simp
  · have hy' : y.toInt ≠ 0 := by
      intro h; exact hy (BitVec.eq_of_toInt_eq (by simpa using h))
    rw [if_neg hy', if_neg hy]
    have key : ∀ v : Int, v = x.toInt.tmod y.toInt → u256 v = val (x.srem y) := by
      intro v hv
      apply ofInt_val_of_toInt
      rw [BitVec.toInt_srem, hv]
    have hv : (x.srem y).toNat = val (x.srem y) := rfl
    rw [hv]
    have habs : ∀ a b : Int, 0 ≤ a → a % (b.natAbs : Int) = a.tmod b := by
      intro a b ha
      rw [Int.tmod_eq_emod_of_nonneg ha]
      rcases Int.natAbs_eq b with h | h
      · rw [← h]
      · conv_rhs => rw [h, Int.emod_neg]
    split
    · rename_i hs
      apply key
      rw [abs_eq, abs_eq, show (x.toInt.natAbs : Int) = -x.toInt by omega, habs _ _ (by omega), Int.neg_tmod, neg_neg]
    · rename_i hs
      apply key
      rw [abs_eq, abs_eq, show (x.toInt.natAbs : Int) = x.toInt by omega, habs _ _ (by omega)]

/-- ADDMOD works on the unbounded sum; zero modulus gives zero. -/
theorem opAddmod_spec (x y z : BitVec 256) :
    opAddmod (val x) (val y) (val z) = if z = 0 then 0 else (((x.toNat + y.toNat) % z.toNat : Nat) : Int) := by
  unfold opAddmod val
  by_cases hz : z = 0
  · subst hz; simp
  · have hz' : z.toNat ≠ 0 := fun h => hz (BitVec.eq_of_toNat_eq (by simpa using h))
    rw [if_neg hz, if_pos (by omega), ← Int.natCast_add, ← Int.natCast_emod, u256_of_lt]
    exact lt_trans (Nat.mod_lt _ (by omega)) z.isLt

/-- MULMOD works on the unbounded product; zero modulus gives zero. -/
theorem opMulmod_spec (x y z : BitVec 256) :
    opMulmod (val x) (val y) (val z) = if z = 0 then 0 else (((x.toNat * y.toNat) % z.toNat : Nat) : Int) := by
  unfold opMulmod val
  by_cases hz : z = 0
  · subst hz; simp
  · have hz' : z.toNat ≠ 0 := fun h => hz (BitVec.eq_of_toNat_eq (by simpa using h))
    rw [if_neg hz, if_pos (by omega), ← Int.natCast_mul, ← Int.natCast_emod, u256_of_lt]
    exact lt_trans (Nat.mod_lt _ (by omega)) z.isLt

/-! ### EXP -/

theorem u256_modEq (x : Int) : u256 x ≡ x [ZMOD 2 ^ 256] := by rw [u256_eq]; exact Int.mod_modEq _ _

theorem expWord_spec (n w : Nat) (r b : Int) :
    (expWord n w r b).1 ≡ r * b ^ (w % 2 ^ n) [ZMOD 2 ^ 256] ∧
    (expWord n w r b).2 ≡ b ^ (2 ^ n) [ZMOD 2 ^ 256] := by
  induction n generalizing w r b with
  | zero => simp [expWord, Nat.mod_one]
  | succ n ih =>
    unfold expWord
    have h := ih (w / 2) (if w % 2 = 1 then u256 (r * b) else r) (u256 (b * b))
    refine ⟨h.1.trans ?_, h.2.trans ?_⟩
    · have hb : (u256 (b * b)) ^ (w / 2 % 2 ^ n) ≡ (b * b) ^ (w / 2 % 2 ^ n) [ZMOD 2 ^ 256] := (u256_modEq _).pow _
      have hw : w % 2 ^ (n + 1) = w % 2 + 2 * (w / 2 % 2 ^ n) := by
        rw [pow_succ, Nat.mul_comm, Nat.mod_mul]
      rw [hw, pow_add, pow_mul, ← sq] at *
      split
      · rename_i h1
        rw [h1, pow_one, ← mul_assoc]
        exact (u256_modEq _).mul hb
      · rename_i h1
        rw [show w % 2 = 0 by omega, pow_zero, one_mul]
        exact (Int.ModEq.refl _).mul hb
    · rw [Nat.pow_succ, Nat.mul_comm (2 ^ n) 2, pow_mul b 2, sq]
      exact (u256_modEq _).pow _

/-- The number a little-endian list of 64-bit words denotes. -/
def wordsVal : List Nat → Nat
  | [] => 0
  | w :: ws => w + 2 ^ 64 * wordsVal ws

theorem bits_val (n : Nat) : wordsVal (bits n) = n ∧ ∀ w ∈ bits n, w < 2 ^ 64 := by
  induction n using Nat.strong_induction_on with
  | _ n ih =>
    rw [bits]
    split
    · simp [wordsVal, *]
    · have := ih (n / 2 ^ 64) (Nat.div_lt_self (by omega) (by norm_num))
      refine ⟨?_, ?_⟩
      · rw [wordsVal, this.1]; omega
      · intro w hw
        rcases List.mem_cons.1 hw with h | h
        · subst h; exact Nat.mod_lt _ (by norm_num)
        · exact this.2 w h

theorem expWords_cons (w : Nat) (ws : List Nat) (r b : Int) :
    expWords (w :: ws) r b = expWords ws (expWord 64 w r b).1 (expWord 64 w r b).2 := by rw [expWords]

theorem expWords_spec (ws : List Nat) (hws : ∀ w ∈ ws, w < 2 ^ 64) (r b : Int) :
    expWords ws r b ≡ r * b ^ wordsVal ws [ZMOD 2 ^ 256] := by
  induction ws generalizing r b with
  | nil => simp [expWords, wordsVal]
  | cons w ws ih =>
    rw [expWords_cons, wordsVal]
    have h := expWord_spec 64 w r b
    have := ih (fun w hw => hws w (List.mem_cons_of_mem _ hw)) (expWord 64 w r b).1 (expWord 64 w r b).2
    refine this.trans ?_
    rw [pow_add, pow_mul, ← mul_assoc]
    have hw : w % 2 ^ 64 = w := Nat.mod_eq_of_lt (hws w List.mem_cons_self)
    rw [hw] at h
    exact h.1.mul (h.2.pow _)

theorem expWord_range (n w : Nat) (r b : Int) (hr : 0 ≤ r ∧ r < 2 ^ 256) :
    0 ≤ (expWord n w r b).1 ∧ (expWord n w r b).1 < 2 ^ 256 := by
  induction n generalizing w r b with
  | zero => simpa [expWord] using hr
  | succ n ih =>
    unfold expWord
    apply ih
    split
    · rw [u256_eq]; omega
    · exact hr

theorem expWords_range (ws : List Nat) (r b : Int) (hr : 0 ≤ r ∧ r < 2 ^ 256) :
    0 ≤ expWords ws r b ∧ expWords ws r b < 2 ^ 256 := by
  induction ws generalizing r b with
  | nil => simpa [expWords] using hr
  | cons w ws ih => rw [expWords_cons]; exact ih _ _ (expWord_range _ _ _ _ hr)

/-- EXP: the power modulo `2^256`. -/
theorem opExp_spec (x y : BitVec 256) :
    opExp (val x) (val y) = (((x.toNat ^ y.toNat) % 2 ^ 256 : Nat) : Int) := by
  unfold opExp val
  rw [Int.natAbs_natCast]
  have h := expWords_spec (bits y.toNat) (bits_val y.toNat).2 1 x.toNat
  have hr := expWords_range (bits y.toNat) 1 x.toNat (by norm_num)
  rw [(bits_val _).1, one_mul] at h
  have h2 : expWords (bits y.toNat) 1 x.toNat % 2 ^ 256 = (x.toNat : Int) ^ y.toNat % 2 ^ 256 := h
  rw [Int.emod_eq_of_lt hr.1 hr.2] at h2
  rw [h2]; push_cast; rfl

/-! ### Comparisons -/

theorem opLt_spec (x y : BitVec 256) : opLt (val x) (val y) = flag (x.ult y) := by
  simp [opLt, val, BitVec.ult]

theorem opGt_spec (x y : BitVec 256) : opGt (val x) (val y) = flag (y.ult x) := by
  simp [opGt, val, BitVec.ult]

theorem opSlt_spec (x y : BitVec 256) : opSlt (val x) (val y) = flag (x.slt y) := by
  have hx := s256_eq x; have hy := s256_eq y
  have h : x.slt y = decide (x.toInt < y.toInt) := rfl
  have := x.isLt; have := y.isLt
  rw [h, ← hx, ← hy]
  unfold opSlt s256 val flag tt255 tt256
  simp only [decide_eq_true_eq]
  split_ifs <;> omega

theorem opSgt_spec (x y : BitVec 256) : opSgt (val x) (val y) = flag (y.slt x) := by
  have hx := s256_eq x; have hy := s256_eq y
  have h : y.slt x = decide (y.toInt < x.toInt) := rfl
  have := x.isLt; have := y.isLt
  rw [h, ← hx, ← hy]
  unfold opSgt s256 val flag tt255 tt256
  simp only [decide_eq_true_eq]
  split_ifs <;> omega

theorem opEq_spec (x y : BitVec 256) : opEq (val x) (val y) = flag (decide (x = y)) := by
  unfold opEq val
  congr 2
  apply propext
  constructor
  · intro h; exact BitVec.eq_of_toNat_eq (by omega)
  · intro h; rw [h]

theorem opIszero_spec (x : BitVec 256) : opIszero (val x) = flag (decide (x = 0)) := by
  unfold opIszero val flag
  by_cases h : x = 0
  · subst h; simp [sign]
  · have hz' : x.toNat ≠ 0 := fun h' => h (BitVec.eq_of_toNat_eq (by simpa using h'))
    rw [if_pos (by rw [sign_pos]; omega), if_neg (by simpa using h)]

/-! ### Bitwise -/

theorem opAnd_spec (x y : BitVec 256) : opAnd (val x) (val y) = val (x &&& y) := by
  unfold opAnd val; rw [BitVec.toNat_and]; rfl
theorem opOr_spec (x y : BitVec 256) : opOr (val x) (val y) = val (x ||| y) := by
  unfold opOr val; rw [BitVec.toNat_or]; rfl
theorem opXor_spec (x y : BitVec 256) : opXor (val x) (val y) = val (x ^^^ y) := by
  unfold opXor val; rw [BitVec.toNat_xor]; rfl
theorem opNot_spec (x : BitVec 256) : opNot (val x) = val (~~~x) := by
  unfold opNot val
  have hl : Int.lnot (x.toNat : Int) = -(x.toNat : Int) - 1 := by
    show Int.negSucc x.toNat = _
    omega
  have := x.isLt
  rw [hl, u256_eq, BitVec.toNat_not]
  omega

theorem bits_get (n i : Nat) : ((bits n)[i]?).getD 0 = n / 2 ^ (64 * i) % 2 ^ 64 := by
  induction i generalizing n with
  | zero =>
    rw [bits]; split
    · simp [*]
    · simp
  | succ i ih =>
    rw [bits]; split
    · simp [*]
    · rw [List.getElem?_cons_succ, ih, Nat.div_div_eq_div_mul, ← pow_add,
        show 64 + 64 * i = 64 * (i + 1) by ring]

theorem byteAt_spec (v n : Nat) : bigEndianByteAt v n = v / 2 ^ (8 * n) % 256 := by
  unfold bigEndianByteAt
  have h := bits_get v (n / 8)
  have e : v / 2 ^ (8 * n) % 256 = (v / 2 ^ (64 * (n / 8)) % 2 ^ 64) >>> (8 * (n % 8)) % 256 := by
    have h8 : n % 8 < 8 := Nat.mod_lt _ (by norm_num)
    have hn : 8 * n = 64 * (n / 8) + 8 * (n % 8) := by omega
    rw [hn, pow_add, ← Nat.div_div_eq_div_mul, Nat.shiftRight_eq_div_pow]
    generalize v / 2 ^ (64 * (n / 8)) = a
    have hk : 2 ^ 64 = 2 ^ (8 * (n % 8)) * (2 ^ (64 - 8 * (n % 8))) := by
      rw [← pow_add]; congr 1; omega
    rw [hk, Nat.mod_mul_right_div_self]
    have : 256 ∣ 2 ^ (64 - 8 * (n % 8)) := by
      rw [show (256 : Nat) = 2 ^ 8 by norm_num]
      exact pow_dvd_pow 2 (by omega)
    exact (Nat.mod_mod_of_dvd _ this).symm
  rw [e, ← h]
  cases hh : (bits v)[n / 8]? with
  | none => simp
  | some w => simp

/-- BYTE: the `th`-th byte counted from the most significant; zero for `th ≥ 32`. -/
theorem opByte_spec (th v : BitVec 256) :
    opByte (val th) (val v) = if th.toNat < 32 then ((v.toNat / 256 ^ (31 - th.toNat) % 256 : Nat) : Int) else 0 := by
  unfold opByte val byte
  by_cases h : th.toNat < 32
  · rw [if_pos (by omega), if_pos h, if_neg (by simp; omega), byteAt_spec]
    simp only [Int.natAbs_natCast, Int.toNat_natCast]
    rw [show 32 - 1 - th.toNat = 31 - th.toNat by omega, pow_mul]; rfl
  · rw [if_neg (by omega), if_neg h]

theorem opSHL_spec (s v : BitVec 256) : opSHL (val s) (val v) = val (v <<< s) := by
  unfold opSHL val
  simp only [u256_of_lt _ s.isLt, u256_of_lt _ v.isLt]
  rw [BitVec.shiftLeft_eq', BitVec.toNat_shiftLeft]
  split
  · have : 256 ≤ s.toNat := by omega
    rw [Nat.shiftLeft_eq, show s.toNat = 256 + (s.toNat - 256) by omega, pow_add]
    rw [show v.toNat * (2 ^ 256 * 2 ^ (s.toNat - 256)) = 2 ^ 256 * (v.toNat * 2 ^ (s.toNat - 256)) by ring,
      Nat.mul_mod_right]; rfl
  · rw [Int.toNat_natCast, u256_eq]
    show ((v.toNat <<< s.toNat : Nat) : Int) % 2 ^ 256 = _
    push_cast; rfl

theorem opSHR_spec (s v : BitVec 256) : opSHR (val s) (val v) = val (v >>> s) := by
  unfold opSHR val
  simp only [u256_of_lt _ s.isLt, u256_of_lt _ v.isLt]
  rw [BitVec.ushiftRight_eq', BitVec.toNat_ushiftRight]
  split
  · have : 256 ≤ s.toNat := by omega
    rw [Nat.shiftRight_eq_div_pow, Nat.div_eq_of_lt]; · rfl
    exact lt_of_lt_of_le v.isLt (Nat.pow_le_pow_right (by norm_num) this)
  · rw [Int.toNat_natCast]
    show u256 ((v.toNat >>> s.toNat : Nat) : Int) = _
    rw [u256_of_lt]
    rw [Nat.shiftRight_eq_div_pow]
    exact lt_of_le_of_lt (Nat.div_le_self _ _) v.isLt

/-- SAR agrees with arithmetic shift right whenever the shift is below 256 or the value is not zero.
`_partial`: the full property has no such condition; see `opSAR_zero_wrong`. -/
theorem opSAR_spec_partial (s v : BitVec 256) (h : s.toNat < 256 ∨ v ≠ 0) :
    opSAR (val s) (val v) = val (v.sshiftRight s.toNat) := by
  unfold opSAR
  simp only [val, u256_of_lt _ s.isLt, s256_eq, sign_pos]
  have hv : ((v.sshiftRight s.toNat).toNat : Int) = val (v.sshiftRight s.toNat) := rfl
  rw [hv]
  by_cases hs : s.toNat < 256
  · rw [if_neg (by omega), Int.toNat_natCast]
    apply ofInt_val_of_toInt
    rw [BitVec.toInt_sshiftRight]; rfl
  · rw [if_pos (by omega)]
    have hne : v ≠ 0 := by tauto
    have hne' : v.toInt ≠ 0 := fun h => hne (BitVec.eq_of_toInt_eq (by simpa using h))
    have hlo := BitVec.le_toInt v
    have hhi := BitVec.toInt_lt (x := v)
    have hp : (2:Int) ^ 256 ≤ 2 ^ s.toNat := pow_le_pow_right₀ (by norm_num) (by omega)
    have e : ∀ a : Int, 0 < a → a < 2 ^ 256 → a >>> s.toNat = 0 := by
      intro a h1 h2
      rw [Int.shiftRight_eq_div_pow]
      exact Int.ediv_eq_zero_of_lt (by omega) (by push_cast; omega)
    split
    · apply ofInt_val_of_toInt
      rw [BitVec.toInt_sshiftRight, e _ (by omega) (by omega)]
    · apply ofInt_val_of_toInt
      rw [BitVec.toInt_sshiftRight]
      congr 1
      rw [Int.shiftRight_eq_div_pow]
      symm
      rw [Int.ediv_eq_iff_of_pos (by positivity)]
      push_cast
      constructor <;> omega

/-- The code violates the full SAR property: arithmetic right shift of zero by 256 yields `2^256-1` instead of `0`. -/
theorem opSAR_zero_wrong :
    opSAR (val 256) (val 0) = 2 ^ 256 - 1 ∧ val ((0 : BitVec 256).sshiftRight (256 : BitVec 256).toNat) = 0 := by
  constructor <;> decide +kernel

/-- It does so for zero and every shift of at least 256 bits. -/
theorem opSAR_zero_wrong_all (s : BitVec 256) (h : 256 ≤ s.toNat) :
    opSAR (val s) (val 0) = 2 ^ 256 - 1 := by
  unfold opSAR
  simp only [val, u256_of_lt _ s.isLt]
  rw [if_pos (by omega)]
  decide +kernel

theorem opSignExtend_spec (k v : BitVec 256) :
    opSignExtend (val k) (val v) =
      if k.toNat < 31 then val ((v.setWidth (8 * k.toNat + 8)).signExtend 256) else val v := by
  unfold opSignExtend
  by_cases hk : k.toNat < 31
  · rw [if_pos hk, if_pos (by simp [val]; omega)]
    simp only
    rw [show (val k * 8 + 7).toNat = 8 * k.toNat + 7 by simp [val]; omega]
    have hbit : (val v).testBit (8 * k.toNat + 7) = v.getLsbD (8 * k.toNat + 7) := rfl
    have hmask : Int.shiftLeft 1 (8 * k.toNat + 7) - 1 = ((2 ^ (8 * k.toNat + 7) - 1 : Nat) : Int) := by
      have : Int.shiftLeft 1 (8 * k.toNat + 7) = ((1 <<< (8 * k.toNat + 7) : Nat) : Int) := rfl
      rw [this, Nat.one_shiftLeft]
      have := Nat.one_le_two_pow (n := 8 * k.toNat + 7)
      omega
    have hw : ((v.setWidth (8 * k.toNat + 8)).signExtend 256).toNat < 2 ^ 256 := BitVec.isLt _
    have heq : ∀ a : Int, (∀ i, i < 256 → a.testBit i = ((v.setWidth (8 * k.toNat + 8)).signExtend 256).getLsbD i) →
        u256 a = val ((v.setWidth (8 * k.toNat + 8)).signExtend 256) := by
      intro a ha
      have hm : u256 a = ((u256 a).toNat : Int) := by
        rw [Int.toNat_of_nonneg]; rw [u256_eq]; exact Int.emod_nonneg _ (by norm_num)
      rw [hm]
      unfold val
      congr 1
      apply Nat.eq_of_testBit_eq
      intro i
      have h1 : (u256 a).toNat.testBit i = (u256 a).testBit i := by
        conv_rhs => rw [hm]
        rfl
      rw [h1]
      unfold u256
      rw [Int.testBit_land]
      have h2 : tt256m1.testBit i = decide (i < 256) := by
        unfold tt256m1
        rw [show (2 ^ 256 - 1 : Int) = ((2 ^ 256 - 1 : Nat) : Int) by norm_num]
        show Nat.testBit (2 ^ 256 - 1) i = _
        rw [Nat.testBit_two_pow_sub_one]
      rw [h2]
      by_cases hi : i < 256
      · simp only [hi, decide_true, Bool.and_true]; exact ha i hi
      · simp only [hi, decide_false, Bool.and_false]
        symm
        exact Nat.testBit_lt_two_pow (lt_of_lt_of_le hw (Nat.pow_le_pow_right (by norm_num) (by omega)))
    have hval : ∀ i, (val v).testBit i = v.getLsbD i := fun i => rfl
    have hmb : ∀ i, Int.testBit ((2 ^ (8 * k.toNat + 7) - 1 : Nat) : Int) i = decide (i < 8 * k.toNat + 7) := by
      intro i
      show Nat.testBit (2 ^ (8 * k.toNat + 7) - 1) i = _
      rw [Nat.testBit_two_pow_sub_one]
    have hmsb : (v.setWidth (8 * k.toNat + 8)).msb = v.getLsbD (8 * k.toNat + 7) := by
      rw [BitVec.msb_eq_getLsbD_last, BitVec.getLsbD_setWidth]
      simp
    rw [hmask, hbit]
    split
    · rename_i hb
      apply heq
      intro i hi
      rw [Int.testBit_lor, Int.testBit_lnot, hval, hmb, BitVec.getLsbD_signExtend, hmsb, BitVec.getLsbD_setWidth, hb]
      by_cases h1 : i < 8 * k.toNat + 7
      · simp [hi, h1, show i < 8 * k.toNat + 8 by omega]
      · by_cases h2 : i = 8 * k.toNat + 7
        · subst h2; simp [hb]; omega
        · simp [hi, h1, show ¬ i < 8 * k.toNat + 8 by omega]
    · rename_i hb
      apply heq
      intro i hi
      rw [Int.testBit_land, hval, hmb, BitVec.getLsbD_signExtend, hmsb, BitVec.getLsbD_setWidth]
      by_cases h1 : i < 8 * k.toNat + 7
      · simp [hi, h1, show i < 8 * k.toNat + 8 by omega]
      · by_cases h2 : i = 8 * k.toNat + 7
        · subst h2; simp [hb]
        · simp [h1, show ¬ i < 8 * k.toNat + 8 by omega]; intro _; simpa using hb
  · rw [if_neg hk, if_neg (by simp [val]; omega)]

/-! ### Checked 64-bit arithmetic (C13) -/

theorem safeAdd_spec (x y : UInt64) :
    ((safeAdd x y).2 = true ↔ 2 ^ 64 ≤ x.toNat + y.toNat) ∧
    ((safeAdd x y).2 = false → (safeAdd x y).1.toNat = x.toNat + y.toNat) := by
  have hx := x.toNat_lt; have hy := y.toNat_lt
  have e : ((18446744073709551615 : UInt64) - x).toNat = 18446744073709551615 - x.toNat := by
    rw [UInt64.toNat_sub_of_le]
    · rfl
    · rw [UInt64.le_iff_toNat_le]; show x.toNat ≤ 18446744073709551615; omega
  unfold safeAdd
  simp only [decide_eq_true_eq, decide_eq_false_iff_not, gt_iff_lt, UInt64.lt_iff_toNat_lt, e]
  refine ⟨by omega, fun h => ?_⟩
  rw [UInt64.toNat_add]; omega

theorem safeMul_spec (x y : UInt64) :
    ((safeMul x y).2 = true ↔ 2 ^ 64 ≤ x.toNat * y.toNat) ∧
    ((safeMul x y).2 = false → (safeMul x y).1.toNat = x.toNat * y.toNat) := by
  have hx := x.toNat_lt; have hy := y.toNat_lt
  unfold safeMul
  by_cases h : x = 0 ∨ y = 0
  · rw [if_pos h]
    rcases h with h | h <;> subst h <;> simp
  · rw [if_neg h]
    push Not at h
    have hx0 : x.toNat ≠ 0 := fun h' => h.1 (UInt64.toNat_inj.1 (by simpa using h'))
    simp only [decide_eq_true_eq, decide_eq_false_iff_not, gt_iff_lt, UInt64.lt_iff_toNat_lt, UInt64.toNat_div]
    have e : (18446744073709551615 : UInt64).toNat = 2 ^ 64 - 1 := rfl
    rw [e]
    have key : (2 ^ 64 - 1) / x.toNat < y.toNat ↔ 2 ^ 64 ≤ x.toNat * y.toNat := by
      rw [Nat.div_lt_iff_lt_mul (by omega), Nat.mul_comm]; omega
    refine ⟨key, fun hh => ?_⟩
    rw [UInt64.toNat_mul]
    rw [key] at hh
    exact Nat.mod_eq_of_lt (by omega)

-- non-vacuity / sample values
example : opExp (val 3) (val 5) = 243 := by decide +kernel
example : opSdiv (val (BitVec.ofInt 256 (-7))) (val 2) = val (BitVec.ofInt 256 (-3)) := by decide +kernel
example : opSignExtend (val 0) (val 0xff) = 2 ^ 256 - 1 := by decide +kernel
example : (2 : Nat) < 256 ∨ (5 : BitVec 256) ≠ 0 := by decide

end Verif.Evm.Word
