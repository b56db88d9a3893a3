import Verif.Tactics
import Verif.Dex.BigFloat

/-! Error bounds for chains of rounded operations. -/

namespace Verif.Dex

/-- `x` is `y` up to a relative error of `n / 2^120`. -/
structure Within (n : Nat) (x y : ℚ) : Prop where
  pos : 0 ≤ y
  small : n ≤ 2 ^ 30
  lo : y * (1 - n / 2 ^ 120) ≤ x
  hi : x ≤ y * (1 + n / 2 ^ 120)

theorem Within.nonneg {n x y} (h : Within n x y) : 0 ≤ x := by
  have : (0:ℚ) ≤ 1 - n / 2 ^ 120 := by
    have : (n:ℚ) ≤ 2 ^ 30 := by exact_mod_cast h.small
    rw [sub_nonneg, div_le_one (by norm_num)]
    exact le_trans this (by norm_num)
  exact le_trans (mul_nonneg h.pos this) h.lo

theorem Within.refl {x : ℚ} (h : 0 ≤ x) : Within 0 x x := ⟨h, by simp, by simp, by simp⟩

theorem Within.mono {n m x y} (h : Within n x y) (hn : n ≤ m) (hm : m ≤ 2 ^ 30) : Within m x y := by
  have h1 : (n:ℚ) / 2 ^ 120 ≤ m / 2 ^ 120 := by
    apply div_le_div_of_nonneg_right _ (by norm_num)
    exact_mod_cast hn
  refine ⟨h.pos, hm, le_trans ?_ h.lo, le_trans h.hi ?_⟩
  · exact mul_le_mul_of_nonneg_left (by linarith) h.pos
  · exact mul_le_mul_of_nonneg_left (by linarith) h.pos

theorem Within.rnd {n x y} (h : Within n x y) (hn : n + 2 ≤ 2 ^ 30) : Within (n + 2) (rnd x) y := by
  have hx := h.nonneg
  have h1 := rnd_le hx
  have h2 := le_rnd hx
  have hy := h.pos
  have hn' : (n:ℚ) ≤ 2 ^ 30 := by exact_mod_cast h.small
  have hn0 : (0:ℚ) ≤ n := by positivity
  refine ⟨hy, hn, ?_, ?_⟩
  · refine le_trans ?_ h2
    refine le_trans ?_ (mul_le_mul_of_nonneg_right h.lo (by norm_num))
    rw [mul_assoc]
    apply mul_le_mul_of_nonneg_left _ hy
    push_cast
    have : (0:ℚ) ≤ n / 2 ^ 120 * (1 / 2 ^ 120) := by positivity
    ring_nf at this ⊢
    linarith
  · refine le_trans h1 ?_
    refine le_trans (mul_le_mul_of_nonneg_right h.hi (by norm_num)) ?_
    rw [mul_assoc]
    apply mul_le_mul_of_nonneg_left _ hy
    push_cast
    have h3 : (n:ℚ) / 2 ^ 120 * (1 / 2 ^ 120) ≤ 1 / 2 ^ 120 := by
      apply mul_le_of_le_one_left (by norm_num)
      rw [div_le_one (by norm_num)]
      exact le_trans hn' (by norm_num)
    ring_nf at h3 ⊢
    linarith

theorem Within.mul {n m x y x' y'} (h : Within n x y) (k : Within m x' y') (hs : n + m + 1 ≤ 2 ^ 30) :
    Within (n + m + 1) (x * x') (y * y') := by
  have hn' : (n:ℚ) ≤ 2 ^ 30 := by exact_mod_cast h.small
  have hm' : (m:ℚ) ≤ 2 ^ 30 := by exact_mod_cast k.small
  have hn0 : (0:ℚ) ≤ n := by positivity
  have hm0 : (0:ℚ) ≤ m := by positivity
  have hyy := mul_nonneg h.pos k.pos
  have e1 : (0:ℚ) ≤ 1 - m / 2 ^ 120 := by
    rw [sub_nonneg, div_le_one (by norm_num)]; exact le_trans hm' (by norm_num)
  have hnm : (n:ℚ) * m ≤ 2 ^ 60 := by nlinarith
  refine ⟨hyy, hs, ?_, ?_⟩
  · refine le_trans ?_ (mul_le_mul h.lo k.lo (mul_nonneg k.pos e1) h.nonneg)
    have : y * (1 - (n:ℚ) / 2 ^ 120) * (y' * (1 - m / 2 ^ 120)) = y * y' * ((1 - n / 2 ^ 120) * (1 - m / 2 ^ 120)) := by
      ring
    rw [this]
    apply mul_le_mul_of_nonneg_left _ hyy
    push_cast
    have : (0:ℚ) ≤ n / 2 ^ 120 * (m / 2 ^ 120) := by positivity
    ring_nf at this ⊢
    linarith
  · refine le_trans (mul_le_mul h.hi k.hi k.nonneg (le_trans h.nonneg h.hi)) ?_
    have : y * (1 + (n:ℚ) / 2 ^ 120) * (y' * (1 + m / 2 ^ 120)) = y * y' * ((1 + n / 2 ^ 120) * (1 + m / 2 ^ 120)) := by
      ring
    rw [this]
    apply mul_le_mul_of_nonneg_left _ hyy
    push_cast
    have : (n:ℚ) / 2 ^ 120 * (m / 2 ^ 120) ≤ 1 / 2 ^ 120 := by
      rw [div_mul_div_comm, div_le_div_iff₀ (by norm_num) (by norm_num)]
      nlinarith
    ring_nf at this ⊢
    linarith

theorem Within.div {n m x y x' y'} (h : Within n x y) (k : Within m x' y') (hy' : 0 < y') (hs : n + 2 * m + 1 ≤ 2 ^ 30) :
    Within (n + 2 * m + 1) (x / x') (y / y') := by
  have hn' : (n:ℚ) ≤ 2 ^ 30 := by exact_mod_cast h.small
  have hm' : (m:ℚ) ≤ 2 ^ 30 := by exact_mod_cast k.small
  have hn0 : (0:ℚ) ≤ n := by positivity
  have hm0 : (0:ℚ) ≤ m := by positivity
  have e1 : (0:ℚ) < 1 - m / 2 ^ 120 := by
    rw [sub_pos, div_lt_one (by norm_num)]; exact lt_of_le_of_lt hm' (by norm_num)
  have hx' : 0 < x' := lt_of_lt_of_le (mul_pos hy' e1) k.lo
  have hnm : (n:ℚ) * m ≤ 2 ^ 60 := by nlinarith
  have hmm : (m:ℚ) * m ≤ 2 ^ 60 := by nlinarith
  have inv : Within (2 * m) (1 / x') (1 / y') := by
    refine ⟨by positivity, by omega, ?_, ?_⟩
    · rw [le_div_iff₀ hx', one_div, inv_mul_eq_div, div_mul_eq_mul_div, div_le_one hy']
      push_cast
      by_cases hneg : (1 - 2 * (m:ℚ) / 2 ^ 120) ≤ 0
      · nlinarith
      · refine le_trans (mul_le_mul_of_nonneg_left k.hi (le_of_lt (not_le.1 hneg))) ?_
        rw [mul_comm, mul_assoc]
        apply mul_le_of_le_one_right (le_of_lt hy')
        have : (0:ℚ) ≤ m / 2 ^ 120 * (m / 2 ^ 120) := by positivity
        have h2 : (0:ℚ) ≤ m / 2 ^ 120 := by positivity
        ring_nf at this h2 ⊢
        linarith
    · rw [div_le_iff₀ hx', one_div, inv_mul_eq_div, div_mul_eq_mul_div, le_div_iff₀ hy', one_mul]
      refine le_trans ?_ (mul_le_mul_of_nonneg_left k.lo (by positivity))
      rw [mul_comm _ (y' * _), mul_assoc]
      apply le_mul_of_one_le_right (le_of_lt hy')
      push_cast
      have h3 : (m:ℚ) / 2 ^ 120 * (m / 2 ^ 120) * 2 ≤ m / 2 ^ 120 := by
        have : (m:ℚ) / 2 ^ 120 * 2 ≤ 1 := by
          rw [div_mul_eq_mul_div, div_le_one (by norm_num)]; exact le_trans (by linarith) (show (2:ℚ) ^ 31 ≤ 2 ^ 120 by norm_num)
        rw [mul_assoc]
        exact mul_le_of_le_one_right (by positivity) this
      ring_nf at h3 ⊢
      linarith
  have := h.mul inv (by omega)
  rw [mul_one_div, mul_one_div] at this
  exact this

/-- The exact value of `quantity` units at `price`, in units of the quote token: what the rounded arithmetic approximates. -/
def exactAmount (quantity price : Nat) (d : Int) : ℚ := (price : ℚ) / 10 ^ 12 * quantity / 10 ^ d

theorem exactAmount_nonneg (q p : Nat) (d : Int) : 0 ≤ exactAmount q p d := by unfold exactAmount; positivity

theorem adjust_within {n : Nat} {f y : ℚ} (h : Within n f y) (hn : n + 7 ≤ 2 ^ 30) (d : Int) :
    Within (n + 7) (adjustForDecimalsDiff f d) (y / 10 ^ d) := by
  have hp : Within 2 (Verif.Dex.rnd ((10 ^ d.natAbs : Nat) : ℚ)) ((10 ^ d.natAbs : Nat) : ℚ) :=
    (Within.refl (by positivity)).rnd (by norm_num)
  have hpos : (0:ℚ) < ((10 ^ d.natAbs : Nat) : ℚ) := by push_cast; positivity
  unfold adjustForDecimalsDiff
  split
  · rename_i hd; subst hd; simpa using h.mono (by omega) hn
  · simp only
    split
    · rename_i h1
      have := (h.div hp hpos (by omega)).rnd (by omega)
      have e : (10:ℚ) ^ d = ((10 ^ d.natAbs : Nat) : ℚ) := by
        push_cast
        rw [← zpow_natCast, Int.natAbs_of_nonneg h1]
      rw [e]
      exact this.mono (by omega) hn
    · rename_i h1
      have := (h.mul hp (by omega)).rnd (by omega)
      have e : (10:ℚ) ^ d = (((10 ^ d.natAbs : Nat) : ℚ))⁻¹ := by
        push_cast
        rw [← zpow_natCast, ← zpow_neg]; congr 1; omega
      rw [e, div_inv_eq_mul]
      exact this.mono (by omega) hn

theorem rawAmountF_within (q p : Nat) (d : Int) : Within 16 (calculateRawAmountF q p d) (exactAmount q p d) := by
  unfold calculateRawAmountF exactAmount
  have h1 : Within 2 (rnd ((p : ℚ) / 10 ^ 12)) ((p : ℚ) / 10 ^ 12) := (Within.refl (by positivity)).rnd (by norm_num)
  have h2 : Within 2 (rnd (q : ℚ)) (q : ℚ) := (Within.refl (by positivity)).rnd (by norm_num)
  have h3 := adjust_within ((h1.mul h2 (by norm_num)).rnd (by norm_num)) (by norm_num) d
  exact h3.mono (by norm_num) (by norm_num)

/-- The rounded amount is at most half a unit above the exact one, up to a relative error of `2^-115`. -/
theorem rawAmount_le (q p : Nat) (d : Int) :
    (calculateRawAmount q p d : ℚ) ≤ (exactAmount q p d + 1 / 2) * (1 + 1 / 2 ^ 115) := by
  have h := rawAmountF_within q p d
  have h1 := roundAmount_le h.nonneg (b := (exactAmount q p d * (1 + 16 / 2 ^ 120)) + 1 / 2) (by
    have := h.hi; push_cast at this; linarith)
  have h0 := h.pos
  unfold calculateRawAmount
  refine le_trans h1 ?_
  have e : (exactAmount q p d * (1 + 16 / 2 ^ 120) + 1 / 2) ≤ (exactAmount q p d + 1 / 2) * (1 + 16 / 2 ^ 120) := by
    rw [add_mul]; linarith
  refine le_trans (mul_le_mul_of_nonneg_right e (by norm_num)) ?_
  rw [mul_assoc]
  exact mul_le_mul_of_nonneg_left (by norm_num) (by linarith)

/-- … and at most half a unit below it. -/
theorem rawAmount_ge (q p : Nat) (d : Int) :
    (exactAmount q p d + 1 / 2) * (1 - 1 / 2 ^ 115) - 1 < (calculateRawAmount q p d : ℚ) := by
  have h := rawAmountF_within q p d
  have h1 := roundAmount_ge h.nonneg (b := (exactAmount q p d * (1 - 16 / 2 ^ 120)) + 1 / 2) (by
    have := h.lo; push_cast at this; linarith)
  have h0 := h.pos
  unfold calculateRawAmount
  refine lt_of_le_of_lt ?_ h1
  have e : (exactAmount q p d + 1 / 2) * (1 - 16 / 2 ^ 120) ≤ (exactAmount q p d * (1 - 16 / 2 ^ 120) + 1 / 2) := by
    rw [add_mul]; linarith
  have e2 := mul_le_mul_of_nonneg_right e (show (0:ℚ) ≤ 1 - 1 / 2 ^ 120 by norm_num)
  have e3 : (exactAmount q p d + 1 / 2) * (1 - 1 / 2 ^ 115) ≤
      (exactAmount q p d + 1 / 2) * (1 - 16 / 2 ^ 120) * (1 - 1 / 2 ^ 120) := by
    rw [mul_assoc]
    exact mul_le_mul_of_nonneg_left (by norm_num) (by linarith)
  linarith

end Verif.Dex
