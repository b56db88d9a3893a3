import Verif.Tactics

/-!
# Specification of prices and order priority (no reference to the model)
-/

namespace Verif.Dex.Spec

/-- The number a string of decimal digits denotes. -/
def digitsVal (s : List Char) : Nat := s.foldl (fun a c => a * 10 + (c.toNat - 48)) 0

/-- A decimal price text: an integer part and an optional fraction, at most 12 digits each. -/
inductive PriceText : List Char → Nat → Prop
  /-- `i` alone is worth `i * 10^12` units of `10^-12`. -/
  | int (i : List Char) : (∀ c ∈ i, c.isDigit) → i.length ≤ 12 → PriceText i (digitsVal i * 10 ^ 12)
  /-- `i.f` is worth `i * 10^12 + f * 10^(12 - |f|)` units. -/
  | frac (i f : List Char) : (∀ c ∈ i, c.isDigit) → (∀ c ∈ f, c.isDigit) → i.length ≤ 12 → f.length ≤ 12 →
      PriceText (i ++ '.' :: f) (digitsVal i * 10 ^ 12 + digitsVal f * 10 ^ (12 - f.length))

/-- Which of two orders on the same side of the same market is served first: better price (lower for sells, higher
for buys), then earlier time, then lower serial number. -/
def priority (side : Bool) (p₁ t₁ s₁ p₂ t₂ s₂ : Nat) : Ordering :=
  ((if side then compare p₁ p₂ else compare p₂ p₁).then (compare t₁ t₂)).then (compare s₁ s₂)

end Verif.Dex.Spec
