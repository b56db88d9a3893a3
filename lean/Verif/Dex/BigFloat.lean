import Verif.Tactics
import Mathlib.Data.Rat.Floor
import Mathlib.Algebra.Order.Field.Power

/-!
# Go `big.Float` with 120 bits of precision, on non-negative numbers

`math/big` computes each operation exactly and rounds the result to the receiver's precision, to nearest, ties to even.
The DEX uses `bigFloatPrec = 120` (matcher.go:17). A float is modelled by the rational it denotes, `rnd` is the rounding.
Only non-negative values occur. Exponent overflow (beyond 2^31) cannot occur for the sizes involved and is not modelled.
-/

namespace Verif.Dex

/-- Binary exponent: `2^expo x ≤ x < 2^(expo x + 1)` for positive `x`. -/
def expo (x : ℚ) : ℤ :=
  let e : ℤ := (Nat.log2 x.num.natAbs : ℤ) - (Nat.log2 x.den : ℤ)
  if x < (2 : ℚ) ^ e then e - 1 else e

/-- Round to the nearest integer, ties to even. -/
def halfEven (y : ℚ) : ℤ :=
  let f := ⌊y⌋
  if y - f < 1 / 2 then f
  else if y - f > 1 / 2 then f + 1
  else if f % 2 = 0 then f else f + 1

/-- Rounding of a non-negative rational to 120 significant bits (Go `big.Float` with `prec = 120`, `ToNearestEven`). -/
def rnd (x : ℚ) : ℚ :=
  if x ≤ 0 then 0
  else
    let u : ℚ := (2 : ℚ) ^ (expo x - 119)
    (halfEven (x / u) : ℚ) * u

theorem expo_spec {x : ℚ} (hx : 0 < x) : (2 : ℚ) ^ expo x ≤ x ∧ x < (2 : ℚ) ^ (expo x + 1) := by
  have hn : 0 < x.num := Rat.num_pos.2 hx
  have hn' : x.num.natAbs ≠ 0 := by omega
  have hd : x.den ≠ 0 := x.den_ne_zero
  have h1 : 2 ^ Nat.log2 x.num.natAbs ≤ x.num.natAbs := Nat.log2_self_le hn'
  have h2 : x.num.natAbs < 2 ^ (Nat.log2 x.num.natAbs + 1) := Nat.lt_log2_self
  have h3 : 2 ^ Nat.log2 x.den ≤ x.den := Nat.log2_self_le hd
  have h4 : x.den < 2 ^ (Nat.log2 x.den + 1) := Nat.lt_log2_self
  have hxe : x = (x.num.natAbs : ℚ) / (x.den : ℚ) := by
    conv_lhs => rw [← Rat.num_div_den x]
    congr 1
    have : (x.num : ℚ) = ((x.num.natAbs : ℤ) : ℚ) := by congr 1; omega
    rw [this, Int.cast_natCast]
  generalize ha : Nat.log2 x.num.natAbs = a at *
  generalize hb : Nat.log2 x.den = b at *
  have q1 : ((2:ℚ) ^ a) ≤ x.num.natAbs := by exact_mod_cast h1
  have q2 : (x.num.natAbs : ℚ) < (2:ℚ) ^ (a + 1) := by exact_mod_cast h2
  have q3 : ((2:ℚ) ^ b) ≤ x.den := by exact_mod_cast h3
  have q4 : (x.den : ℚ) < (2:ℚ) ^ (b + 1) := by exact_mod_cast h4
  have hdp : (0:ℚ) < x.den := by exact_mod_cast Nat.pos_of_ne_zero hd
  have pa : (0:ℚ) < 2 ^ a := by positivity
  have pb : (0:ℚ) < 2 ^ b := by positivity
  have hup : x < (2:ℚ) ^ ((a:ℤ) - (b:ℤ) + 1) := by
    rw [show (a:ℤ) - (b:ℤ) + 1 = ((a + 1 : ℕ) : ℤ) - (b : ℤ) by push_cast; ring, zpow_sub₀ (by norm_num), zpow_natCast,
      zpow_natCast, lt_div_iff₀ pb]
    rw [hxe, div_mul_eq_mul_div, div_lt_iff₀ hdp]
    nlinarith
  have hlo : (2:ℚ) ^ ((a:ℤ) - (b:ℤ) - 1) ≤ x := by
    rw [show (a:ℤ) - (b:ℤ) - 1 = (a : ℤ) - ((b + 1 : ℕ) : ℤ) by push_cast; ring, zpow_sub₀ (by norm_num), zpow_natCast,
      zpow_natCast, div_le_iff₀ (by positivity)]
    rw [hxe, div_mul_eq_mul_div, le_div_iff₀ hdp]
    nlinarith
  have he : expo x = if x < (2:ℚ) ^ ((a:ℤ) - (b:ℤ)) then (a:ℤ) - b - 1 else (a:ℤ) - b := by
    unfold expo
    rw [hb, ha]
  rw [he]
  split
  · rename_i h
    refine ⟨hlo, ?_⟩
    rwa [show (a:ℤ) - b - 1 + 1 = a - b by ring]
  · rename_i h
    exact ⟨not_lt.1 h, hup⟩

theorem halfEven_err (y : ℚ) : |(halfEven y : ℚ) - y| ≤ 1 / 2 := by
  unfold halfEven
  have h1 := Int.floor_le y
  have h2 := Int.lt_floor_add_one y
  simp only
  rw [abs_le]
  split_ifs <;> push_cast <;> constructor <;> linarith

/-- Relative error of one rounding: at most `2^-120`. -/
theorem rnd_err {x : ℚ} (hx : 0 ≤ x) : |rnd x - x| ≤ x / 2 ^ 120 := by
  unfold rnd
  split
  · have : x = 0 := le_antisymm (by assumption) hx
    subst this; simp
  · rename_i h
    have hx : 0 < x := not_le.1 h
    obtain ⟨h1, -⟩ := expo_spec hx
    simp only
    have hu : (0:ℚ) < (2:ℚ) ^ (expo x - 119) := by positivity
    have e : x = x / (2:ℚ) ^ (expo x - 119) * (2:ℚ) ^ (expo x - 119) := by field_simp
    have h3 := halfEven_err (x / (2:ℚ) ^ (expo x - 119))
    have h4 : (halfEven (x / (2:ℚ) ^ (expo x - 119)) : ℚ) * (2:ℚ) ^ (expo x - 119) - x =
        ((halfEven (x / (2:ℚ) ^ (expo x - 119)) : ℚ) - x / (2:ℚ) ^ (expo x - 119)) * (2:ℚ) ^ (expo x - 119) := by
      rw [sub_mul]; rw [← e]
    rw [h4, abs_mul, abs_of_pos hu]
    have h5 : (2:ℚ) ^ (expo x - 119) = (2:ℚ) ^ expo x / 2 ^ 119 := by
      rw [zpow_sub₀ (by norm_num)]; norm_cast
    rw [h5] at h3 ⊢
    have h6 : (0:ℚ) ≤ (2:ℚ) ^ expo x / 2 ^ 119 := by positivity
    calc _ ≤ 1 / 2 * ((2:ℚ) ^ expo x / 2 ^ 119) := mul_le_mul_of_nonneg_right h3 h6
      _ ≤ 1 / 2 * (x / 2 ^ 119) := by
          apply mul_le_mul_of_nonneg_left _ (by norm_num)
          exact div_le_div_of_nonneg_right h1 (by norm_num)
      _ = x / 2 ^ 120 := by ring

theorem rnd_nonneg {x : ℚ} (hx : 0 ≤ x) : 0 ≤ rnd x := by
  have := abs_le.1 (rnd_err hx)
  have h : x / 2 ^ 120 ≤ x := by
    rw [div_le_iff₀ (by norm_num)]; nlinarith
  linarith [this.1]

theorem rnd_le {x : ℚ} (hx : 0 ≤ x) : rnd x ≤ x * (1 + 1 / 2 ^ 120) := by
  have := (abs_le.1 (rnd_err hx)).2
  linarith

theorem le_rnd {x : ℚ} (hx : 0 ≤ x) : x * (1 - 1 / 2 ^ 120) ≤ rnd x := by
  have := (abs_le.1 (rnd_err hx)).1
  linarith

/-- `RoundAmount`: calculator.go:93-96. -/
def roundAmount (f : ℚ) : Nat := ⌊rnd (f + 1 / 2)⌋.toNat

/-- `FloorQuantity`: calculator.go:102-105. -/
def floorQuantity (f : ℚ) : Nat := ⌊f⌋.toNat

/-- `AdjustForDecimalsDiff`: calculator.go:64-76. -/
def adjustForDecimalsDiff (f : ℚ) (d : Int) : ℚ :=
  if d = 0 then f
  else
    let p := rnd ((10 ^ d.natAbs : Nat) : ℚ)
    if d ≥ 0 then rnd (f / p) else rnd (f * p)

/-- `CalculateRawAmountF`: matcher.go:575-579. `price` is the price in units of `10^-12` (see C22); `SetString` of the
decimal text rounds to nearest. -/
def calculateRawAmountF (quantity price : Nat) (d : Int) : ℚ :=
  adjustForDecimalsDiff (rnd (rnd ((price : ℚ) / 10 ^ 12) * rnd quantity)) d

/-- `CalculateRawQuantityF`: matcher.go:581-585. -/
def calculateRawQuantityF (amount price : Nat) (d : Int) : ℚ :=
  adjustForDecimalsDiff (rnd (rnd amount / rnd ((price : ℚ) / 10 ^ 12))) d

/-- `CalculateRawAmount`: matcher.go:571-573. -/
def calculateRawAmount (quantity price : Nat) (d : Int) : Nat := roundAmount (calculateRawAmountF quantity price d)

/-- `CalculateRawQuantity`: matcher.go:567-569. -/
def calculateRawQuantity (amount price : Nat) (d : Int) : Nat := floorQuantity (calculateRawQuantityF amount price d)

/-- `CalculateAmountForRate`: matcher.go:587-595, for rates below 100000 (`CardinalRateToString` writes `rate/100000`
as a decimal text: utils.go:131-152). -/
def calculateAmountForRate (amount rate : Nat) : Nat :=
  if rate > 0 then roundAmount (rnd (rnd amount * rnd ((rate : ℚ) / 100000))) else 0

/-- `AdjustAmountForDecimalsDiff`: calculator.go:78-80. -/
def adjustAmountForDecimalsDiff (amount : Nat) (d : Int) : Nat := roundAmount (adjustForDecimalsDiff (rnd amount) d)

theorem roundAmount_le {f b : ℚ} (hf : 0 ≤ f) (h : f + 1 / 2 ≤ b) : (roundAmount f : ℚ) ≤ b * (1 + 1 / 2 ^ 120) := by
  unfold roundAmount
  have h0 : 0 ≤ f + 1 / 2 := by linarith
  have h1 := rnd_le h0
  have h2 := rnd_nonneg h0
  have h3 : 0 ≤ ⌊rnd (f + 1 / 2)⌋ := Int.floor_nonneg.2 h2
  have h4 := Int.floor_le (rnd (f + 1 / 2))
  have h5 : ((⌊rnd (f + 1 / 2)⌋.toNat : ℕ) : ℚ) = (⌊rnd (f + 1 / 2)⌋ : ℚ) := by
    have : ((⌊rnd (f + 1 / 2)⌋.toNat : ℕ) : ℤ) = ⌊rnd (f + 1 / 2)⌋ := Int.toNat_of_nonneg h3
    exact_mod_cast this
  rw [h5]
  calc _ ≤ rnd (f + 1 / 2) := h4
    _ ≤ (f + 1 / 2) * (1 + 1 / 2 ^ 120) := h1
    _ ≤ _ := mul_le_mul_of_nonneg_right h (by norm_num)

theorem roundAmount_ge {f b : ℚ} (hb : 0 ≤ f) (h : b ≤ f + 1 / 2) :
    b * (1 - 1 / 2 ^ 120) - 1 < (roundAmount f : ℚ) := by
  unfold roundAmount
  have h0 : 0 ≤ f + 1 / 2 := by linarith
  have h1 := le_rnd h0
  have h3 : 0 ≤ ⌊rnd (f + 1 / 2)⌋ := Int.floor_nonneg.2 (rnd_nonneg h0)
  have h4 := Int.lt_floor_add_one (rnd (f + 1 / 2))
  have h5 : ((⌊rnd (f + 1 / 2)⌋.toNat : ℕ) : ℚ) = (⌊rnd (f + 1 / 2)⌋ : ℚ) := by
    have : ((⌊rnd (f + 1 / 2)⌋.toNat : ℕ) : ℤ) = ⌊rnd (f + 1 / 2)⌋ := Int.toNat_of_nonneg h3
    exact_mod_cast this
  rw [h5]
  have : b * (1 - 1 / 2 ^ 120) ≤ (f + 1 / 2) * (1 - 1 / 2 ^ 120) := mul_le_mul_of_nonneg_right h (by norm_num)
  linarith

/-- The fee for a rate of at most 0.2% is less than 0.3% of the amount plus one half, rounded down: in particular two such
fees together never exceed the amount they are charged on. -/
theorem two_fees_le (amount r₁ r₂ : Nat) (h₁ : r₁ ≤ 200) (h₂ : r₂ ≤ 200) :
    calculateAmountForRate amount r₁ + calculateAmountForRate amount r₂ ≤ amount := by
  have key : ∀ r, r ≤ 200 → (calculateAmountForRate amount r : ℚ) ≤ 3 / 1000 * amount + 2 / 3 := by
    intro r hr
    unfold calculateAmountForRate
    split
    · have ha : (0:ℚ) ≤ amount := by positivity
      have hr' : (0:ℚ) ≤ (r:ℚ) / 100000 := by positivity
      have hr2 : (r:ℚ) / 100000 ≤ 2 / 1000 := by
        have : (r:ℚ) ≤ 200 := by exact_mod_cast hr
        linarith
      have e1 := rnd_le ha; have e2 := rnd_le hr'
      have n1 := rnd_nonneg ha; have n2 := rnd_nonneg hr'
      have e3 : rnd (rnd (amount:ℚ) * rnd ((r:ℚ) / 100000)) ≤ 25 / 10000 * amount := by
        have p := rnd_le (mul_nonneg n1 n2)
        have q1 : rnd ((r:ℚ) / 100000) ≤ 201 / 100000 := by
          refine e2.trans ?_
          calc _ ≤ (2 / 1000 : ℚ) * (1 + 1 / 2 ^ 120) := mul_le_mul_of_nonneg_right hr2 (by norm_num)
            _ ≤ _ := by norm_num
        have q2 : rnd (amount:ℚ) * rnd ((r:ℚ) / 100000) ≤ (amount * (1 + 1 / 2 ^ 120)) * (201 / 100000) :=
          mul_le_mul e1 q1 n2 (by positivity)
        calc _ ≤ _ := p
          _ ≤ (amount * (1 + 1 / 2 ^ 120)) * (201 / 100000) * (1 + 1 / 2 ^ 120) :=
              mul_le_mul_of_nonneg_right q2 (by norm_num)
          _ = amount * ((1 + 1 / 2 ^ 120) * (201 / 100000) * (1 + 1 / 2 ^ 120)) := by ring
          _ ≤ amount * (25 / 10000) := mul_le_mul_of_nonneg_left (by norm_num) ha
          _ = _ := by ring
      have e4 := roundAmount_le (rnd_nonneg (mul_nonneg n1 n2)) (b := 25 / 10000 * amount + 1 / 2) (by linarith)
      refine e4.trans ?_
      have : (25 / 10000 * (amount:ℚ) + 1 / 2) * (1 + 1 / 2 ^ 120) =
          amount * (25 / 10000 * (1 + 1 / 2 ^ 120)) + 1 / 2 * (1 + 1 / 2 ^ 120) := by ring
      rw [this]
      have h1 : (amount:ℚ) * (25 / 10000 * (1 + 1 / 2 ^ 120)) ≤ amount * (3 / 1000) :=
        mul_le_mul_of_nonneg_left (by norm_num) ha
      have h2 : (1 / 2 * (1 + 1 / 2 ^ 120) : ℚ) ≤ 2 / 3 := by norm_num
      linarith
    · push_cast; positivity
  have k1 := key r₁ h₁; have k2 := key r₂ h₂
  by_cases hs : amount < 100
  · have z : ∀ r, r ≤ 200 → calculateAmountForRate amount r = 0 := by
      intro r hr
      have k := key r hr
      have : (amount:ℚ) < 100 := by exact_mod_cast hs
      have h3 : (calculateAmountForRate amount r : ℚ) < 1 := by linarith
      have : calculateAmountForRate amount r < 1 := by exact_mod_cast h3
      omega
    rw [z r₁ h₁, z r₂ h₂]; omega
  · have : (100:ℚ) ≤ amount := by exact_mod_cast not_lt.1 hs
    have h3 : ((calculateAmountForRate amount r₁ + calculateAmountForRate amount r₂ : ℕ) : ℚ) ≤ amount := by
      push_cast; linarith
    exact_mod_cast h3

/-- A fee for a rate below 100% is at most the amount. -/
theorem fee_le (amount r : Nat) (h : r ≤ 401) : calculateAmountForRate amount r ≤ amount := by
  unfold calculateAmountForRate
  split
  · have ha : (0:ℚ) ≤ amount := by positivity
    have hr' : (0:ℚ) ≤ (r:ℚ) / 100000 := by positivity
    have hr2 : (r:ℚ) / 100000 ≤ 5 / 1000 := by
      have : (r:ℚ) ≤ 401 := by exact_mod_cast h
      linarith
    have e1 := rnd_le ha; have e2 := rnd_le hr'
    have n1 := rnd_nonneg ha; have n2 := rnd_nonneg hr'
    have e3 : rnd (rnd (amount:ℚ) * rnd ((r:ℚ) / 100000)) ≤ 6 / 1000 * amount := by
      have p := rnd_le (mul_nonneg n1 n2)
      have q1 : rnd ((r:ℚ) / 100000) ≤ 501 / 100000 := by
        refine e2.trans ?_
        calc _ ≤ (5 / 1000 : ℚ) * (1 + 1 / 2 ^ 120) := mul_le_mul_of_nonneg_right hr2 (by norm_num)
          _ ≤ _ := by norm_num
      have q2 : rnd (amount:ℚ) * rnd ((r:ℚ) / 100000) ≤ (amount * (1 + 1 / 2 ^ 120)) * (501 / 100000) :=
        mul_le_mul e1 q1 n2 (by positivity)
      calc _ ≤ _ := p
        _ ≤ (amount * (1 + 1 / 2 ^ 120)) * (501 / 100000) * (1 + 1 / 2 ^ 120) :=
            mul_le_mul_of_nonneg_right q2 (by norm_num)
        _ = amount * ((1 + 1 / 2 ^ 120) * (501 / 100000) * (1 + 1 / 2 ^ 120)) := by ring
        _ ≤ amount * (6 / 1000) := mul_le_mul_of_nonneg_left (by norm_num) ha
        _ = _ := by ring
    have e4 := roundAmount_le (rnd_nonneg (mul_nonneg n1 n2)) (b := 6 / 1000 * amount + 1 / 2) (by linarith)
    have e5 : ((roundAmount (rnd (rnd (amount:ℚ) * rnd ((r:ℚ) / 100000))) : ℕ) : ℚ) < amount + 1 := by
      refine lt_of_le_of_lt e4 ?_
      have : (6 / 1000 * (amount:ℚ) + 1 / 2) * (1 + 1 / 2 ^ 120) =
          amount * (6 / 1000 * (1 + 1 / 2 ^ 120)) + 1 / 2 * (1 + 1 / 2 ^ 120) := by ring
      rw [this]
      have h1 : (amount:ℚ) * (6 / 1000 * (1 + 1 / 2 ^ 120)) ≤ amount * 1 :=
        mul_le_mul_of_nonneg_left (by norm_num) ha
      have h2 : (1 / 2 * (1 + 1 / 2 ^ 120) : ℚ) < 1 := by norm_num
      linarith
    have : roundAmount (rnd (rnd (amount:ℚ) * rnd ((r:ℚ) / 100000))) < amount + 1 := by exact_mod_cast e5
    omega
  · omega

example : calculateAmountForRate 1000000 200 = 2000 := by decide +kernel
example : calculateRawAmount 7 700000000000 0 = 5 := by decide +kernel
example : calculateRawQuantity 2 700000000000 0 = 2 := by decide +kernel

end Verif.Dex
