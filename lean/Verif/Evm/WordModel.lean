import Mathlib.Data.Int.Bitwise

/-!
# Arithmetic, comparison and bit instructions of the VM

Models the bodies of the arithmetic/bit instructions in `/repo/vm/instructions.go` lines 19-318 and the helpers
they call in `/repo/common/helper/math_big.go` and `math_integer.go`.

A stack slot is a Go `*big.Int`, modelled as a mathematical `Int`.  Go's `big.Int.Div`/`Mod` are Euclidean
division, which is Lean's `Int./` and `Int.%`; `And`/`Or`/`Xor`/`Not`/`Rsh` are the two's complement operations, which
are `Int.land`/`Int.lor`/`Int.xor`/`Int.lnot`/`>>>`.

Simplification: the integer pool (`intPool`) only recycles allocations and is not modelled here; an instruction
`x, y := pop, peek` becomes a function of `x` (top) and `y` (below the top) returning the new top.
-/

namespace Verif.Evm.Word

/-- `Tt256m1 = 2^256-1`, `Tt256`, `Tt255`: /repo/common/helper/common.go constants. -/
def tt256m1 : Int := 2 ^ 256 - 1
def tt256 : Int := 2 ^ 256
def tt255 : Int := 2 ^ 255

/-- `helper.U256`: /repo/common/helper/math_big.go:24-26 (`x.And(x, Tt256m1)`). -/
def u256 (x : Int) : Int := Int.land x tt256m1

/-- `helper.S256`: /repo/common/helper/math_big.go:35-40. -/
def s256 (x : Int) : Int := if x < tt255 then x else x - tt256

/-- `big.Int.Sign`. -/
def sign (x : Int) : Int := if x < 0 then -1 else if x = 0 then 0 else 1

/-- `big.Int.Abs`. -/
def abs (x : Int) : Int := if x < 0 then -x else x

/-- A Go boolean stored as a stack word (`SetUint64(1)` / `SetUint64(0)`). -/
def flag (b : Bool) : Int := if b then 1 else 0

/-- opAdd: instructions.go:19-25. -/
def opAdd (x y : Int) : Int := u256 (x + y)
/-- opMul: instructions.go:27-33. -/
def opMul (x y : Int) : Int := u256 (x * y)
/-- opSub: instructions.go:35-41. -/
def opSub (x y : Int) : Int := u256 (x - y)
/-- opDiv: instructions.go:43-53. -/
def opDiv (x y : Int) : Int := if sign y ≠ 0 then u256 (x / y) else 0
/-- opSdiv: instructions.go:55-73 (`x`, `y` here are the raw popped words). -/
def opSdiv (x0 y0 : Int) : Int :=
  let x := s256 x0
  let y := s256 y0
  if sign y = 0 ∨ sign x = 0 then 0
  else if sign x ≠ sign y then u256 (-(abs x / abs y))
  else u256 (abs x / abs y)
/-- opMod: instructions.go:75-85. -/
def opMod (x y : Int) : Int := if sign y = 0 then 0 else u256 (x % y)
/-- opSmod: instructions.go:87-105. -/
def opSmod (x0 y0 : Int) : Int :=
  let x := s256 x0
  let y := s256 y0
  if sign y = 0 then 0
  else if sign x < 0 then u256 (-(abs x % abs y))
  else u256 (abs x % abs y)
/-- opAddmod: instructions.go:107-119. -/
def opAddmod (x y z : Int) : Int := if z > 0 then u256 ((x + y) % z) else 0
/-- opMulmod: instructions.go:121-133. -/
def opMulmod (x y z : Int) : Int := if z > 0 then u256 ((x * y) % z) else 0

/-- The inner loop of `helper.Exp` over one machine word: math_big.go:49-55.
`n` is the number of remaining iterations, `word` the remaining bits; returns (result, base). -/
def expWord : Nat → Nat → Int → Int → Int × Int
  | 0, _, result, base => (result, base)
  | n + 1, word, result, base =>
    let result := if word % 2 = 1 then u256 (result * base) else result
    let base := u256 (base * base)
    expWord n (word / 2) result base

/-- The outer loop of `helper.Exp` over `exponent.Bits()` (little-endian 64-bit words): math_big.go:48-57. -/
def expWords : List Nat → Int → Int → Int
  | [], result, _ => result
  | w :: ws, result, base =>
    let (r, b) := expWord 64 w result base
    expWords ws r b

/-- `big.Int.Bits()`: little-endian 64-bit words of the absolute value, normalized (no most significant zero word).
Go standard library contract (64-bit platform). -/
def bits (n : Nat) : List Nat := if n = 0 then [] else n % 2 ^ 64 :: bits (n / 2 ^ 64)
termination_by n
decreasing_by exact Nat.div_lt_self (by omega) (by decide)

/-- opExp: instructions.go:135-141 with `helper.Exp`: math_big.go:45-59. -/
def opExp (base exponent : Int) : Int := expWords (bits exponent.natAbs) 1 base

/-- opSignExtend: instructions.go:143-160. `back` is the top, `num` the next word. -/
def opSignExtend (back num : Int) : Int :=
  if back < 31 then
    let bit := (back * 8 + 7).toNat
    let mask := Int.shiftLeft 1 bit - 1
    if num.testBit bit then u256 (Int.lor num (Int.lnot mask))
    else u256 (Int.land num mask)
  else num

/-- opLt: instructions.go:162-171. -/
def opLt (x y : Int) : Int := flag (decide (x < y))
/-- opGt: instructions.go:173-182. -/
def opGt (x y : Int) : Int := flag (decide (x > y))
/-- opSlt: instructions.go:184-206. -/
def opSlt (x y : Int) : Int :=
  if x ≥ tt255 ∧ y < tt255 then 1
  else if x < tt255 ∧ y ≥ tt255 then 0
  else flag (decide (x < y))
/-- opSgt: instructions.go:208-230. -/
def opSgt (x y : Int) : Int :=
  if x ≥ tt255 ∧ y < tt255 then 0
  else if x < tt255 ∧ y ≥ tt255 then 1
  else flag (decide (x > y))
/-- opEq: instructions.go:232-241. -/
def opEq (x y : Int) : Int := flag (decide (x = y))
/-- opIszero: instructions.go:243-251 (`x.Sign() > 0`). -/
def opIszero (x : Int) : Int := if sign x > 0 then 0 else 1
/-- opAnd, opOr, opXor: instructions.go:253-275. -/
def opAnd (x y : Int) : Int := Int.land x y
def opOr (x y : Int) : Int := Int.lor x y
def opXor (x y : Int) : Int := Int.xor x y
/-- opNot: instructions.go:277-281. -/
def opNot (x : Int) : Int := u256 (Int.lnot x)

/-- `bigEndianByteAt`: math_big.go:86-97. `words[i]` out of range gives 0. -/
def bigEndianByteAt (v : Nat) (n : Nat) : Nat :=
  match (bits v)[n / 8]? with
  | none => 0
  | some word => (word >>> (8 * (n % 8))) % 256

/-- `helper.Byte`: math_big.go:65-70 with `padlength = WordSize = 32`. -/
def byte (v : Nat) (padlength n : Nat) : Nat := if n ≥ padlength then 0 else bigEndianByteAt v (padlength - 1 - n)

/-- opByte: instructions.go:283-294. -/
def opByte (th val : Int) : Int := if th < 32 then (byte val.natAbs 32 th.toNat : Nat) else 0

/-- opSHL: instructions.go:296-306. -/
def opSHL (shift value : Int) : Int :=
  let shift := u256 shift
  let value := u256 value
  if shift ≥ 256 then 0 else u256 (Int.shiftLeft value shift.toNat)
/-- opSHR: instructions.go:308-318. -/
def opSHR (shift value : Int) : Int :=
  let shift := u256 shift
  let value := u256 value
  if shift ≥ 256 then 0 else u256 (Int.shiftRight value shift.toNat)
/-- opSAR: instructions.go:320-335. -/
def opSAR (shift value : Int) : Int :=
  let shift := u256 shift
  let value := s256 value
  if shift ≥ 256 then
    (if sign value > 0 then u256 0 else u256 (-1))
  else u256 (Int.shiftRight value shift.toNat)

/-- `helper.SafeMul` on `uint64`: math_integer.go:4-9 (`x*y` wraps). -/
def safeMul (x y : UInt64) : UInt64 × Bool :=
  if x = 0 ∨ y = 0 then (0, false) else (x * y, decide (y > (18446744073709551615 : UInt64) / x))
/-- `helper.SafeAdd` on `uint64`: math_integer.go:12-14. -/
def safeAdd (x y : UInt64) : UInt64 × Bool :=
  (x + y, decide (y > (18446744073709551615 : UInt64) - x))

end Verif.Evm.Word
