import Verif.Evm.WordModel
import Verif.Tactics

/-! Helper lemmas for the word instructions. -/

namespace Verif.Evm.Word

theorem ldiff_mask (n w : Nat) : Nat.ldiff (2 ^ w - 1) n = 2 ^ w - 1 - n % 2 ^ w := by
  apply Nat.eq_of_testBit_eq
  intro i
  rw [Nat.testBit_ldiff, Nat.testBit_two_pow_sub_one]
  have h : n % 2 ^ w < 2 ^ w := Nat.mod_lt _ (by positivity)
  rw [show 2 ^ w - 1 - n % 2 ^ w = 2 ^ w - (n % 2 ^ w + 1) by omega]
  rw [Nat.testBit_two_pow_sub_succ h, Nat.testBit_mod_two_pow]
  by_cases hi : i < w <;> simp [hi]

theorem u256_eq (x : Int) : u256 x = x % 2 ^ 256 := by
  unfold u256 tt256m1
  rw [show (2 ^ 256 - 1 : Int) = ((2 ^ 256 - 1 : Nat) : Int) by norm_num]
  cases x with
  | ofNat n =>
    show ((n &&& (2 ^ 256 - 1) : Nat) : Int) = (n : Int) % 2 ^ 256
    rw [Nat.and_two_pow_sub_one_eq_mod]; norm_cast
  | negSucc n =>
    show ((Nat.ldiff (2 ^ 256 - 1) n : Nat) : Int) = _
    rw [ldiff_mask]
    have h : n % 2 ^ 256 < 2 ^ 256 := Nat.mod_lt _ (by positivity)
    omega

theorem s256_eq (x : BitVec 256) : s256 (x.toNat : Int) = x.toInt := by
  unfold s256 tt255 tt256
  rw [BitVec.toInt_eq_toNat_cond]
  have := x.isLt
  split <;> split <;> omega

theorem u256_toNat (x : Int) : u256 x = ((BitVec.ofInt 256 x).toNat : Int) := by
  rw [u256_eq, BitVec.toNat_ofInt]
  have : (0:Int) ≤ x % 2 ^ 256 := Int.emod_nonneg _ (by norm_num)
  rw [Int.toNat_of_nonneg] <;> simpa using this

theorem u256_of_lt (n : Nat) (h : n < 2 ^ 256) : u256 (n : Int) = n := by
  rw [u256_eq]; omega

theorem sign_eq_zero (x : Int) : sign x = 0 ↔ x = 0 := by unfold sign; split <;> (try split) <;> omega

theorem sign_lt_zero (x : Int) : sign x < 0 ↔ x < 0 := by unfold sign; split <;> (try split) <;> omega

theorem sign_pos (x : Int) : sign x > 0 ↔ x > 0 := by unfold sign; split <;> (try split) <;> omega

theorem abs_eq (x : Int) : abs x = (x.natAbs : Int) := by unfold abs; split <;> omega

end Verif.Evm.Word
