import Verif.Text.TextModel
import Mathlib.Data.Nat.Digits.Lemmas

/-!
# Numbers and bytes as hexadecimal text with a prefix

`common/hexutil`.  Which error is given is left out: `none` for any.  The functions of the language that are
called (`strconv.ParseUint`, `strconv.AppendUint`, `fmt.Sprintf("%#x")`, `hex.Decode`) are modelled as they are
documented.
-/

namespace Verif.Text
open Verif.Bytes

/-- `hexutil.go:185-187` (`has0xPrefix`), `json.go:278-280` (`bytesHave0xPrefix`). -/
def has0x (s : Bytes) : Bool := decide (2 ≤ s.length ∧ s.head? = some 48 ∧ (s[1]? = some 120 ∨ s[1]? = some 88))

/-- `hexutil.go:82-87` (`Encode`), `json.go:40-45` (`MarshalText`). -/
def encode0x (b : Bytes) : Bytes := 48 :: 120 :: encode b

/-- `hexutil.go:58-70` (`Decode`). -/
def decode0x (s : Bytes) : Option Bytes := if s.length = 0 then none else if !has0x s then none else decode (s.drop 2)

/-- `json.go:282-295` (`checkText`). -/
def checkText (want : Bool) (s : Bytes) : Option Bytes :=
  if s.length = 0 then some []
  else
    if has0x s then (if (s.drop 2).length % 2 ≠ 0 then none else some (s.drop 2))
    else if want then none
    else if s.length % 2 ≠ 0 then none else some s

/-- `json.go:56-67` (`Bytes.UnmarshalText`). -/
def bytesText (s : Bytes) : Option Bytes := (checkText true s).bind decode

/-- `json.go:87-103` (`UnmarshalFixedText`) and `:108-124` (`UnmarshalFixedUnprefixedText`), for `n` bytes. -/
def fixedText (want : Bool) (n : Nat) (s : Bytes) : Option Bytes :=
  (checkText want s).bind (fun raw => if raw.length / 2 ≠ n then none else if raw.any (fun c => (value c).isNone) then none else decode raw)

/-- `hexutil.go:189-204` (`checkNumber`). -/
def checkNumber (s : Bytes) : Option Bytes :=
  if s.length = 0 then none
  else if !has0x s then none
  else
    let raw := s.drop 2
    if raw.length = 0 then none else if 1 < raw.length ∧ raw.head? = some 48 then none else some raw

/-- `strconv.ParseUint` for base 16 and 64 bits: the loop, with the number so far. -/
def parseUint : Nat → Bytes → Option Nat
  | n, [] => some n
  | n, c :: cs =>
    match value c with
    | none => none
    | some d => if 2 ^ 60 ≤ n then none else if (n * 16 + d) % 2 ^ 64 < n * 16 then none else parseUint ((n * 16 + d) % 2 ^ 64) cs

/-- `hexutil.go:90-100` (`DecodeUint64`). -/
def decodeUint64 (s : Bytes) : Option Nat := (checkNumber s).bind (parseUint 0)

/-- Digits of a number, the greatest first. -/
def hexNat (n : Nat) : Bytes := if n = 0 then [48] else (Nat.digits 16 n).reverse.map digit

/-- `hexutil.go:113-117` (`EncodeUint64`), `json.go:198-203` (`Uint64.MarshalText`). -/
def encodeUint64 (n : Nat) : Bytes := 48 :: 120 :: hexNat n

/-- A word of 64 bits from digits.  `hexutil.go:154-161`, `json.go:220-228`. -/
def wordLoop : Nat → Bytes → Option Nat
  | w, [] => some w
  | w, c :: cs =>
    match value c with
    | none => none
    | some d => wordLoop ((w * 16 % 2 ^ 64 + d) % 2 ^ 64) cs

/-- `json.go:297-313` (`checkNumberText`): the empty text has no digits. -/
def checkNumberText (s : Bytes) : Option Bytes := if s.length = 0 then some [] else checkNumber s

/-- `json.go:214-231` (`Uint64.UnmarshalText`). -/
def uint64Text (s : Bytes) : Option Nat := (checkNumberText s).bind (fun raw => if 16 < raw.length then none else wordLoop 0 raw)

/-- The words of a number, the least first.  `hexutil.go:146-163`, with words of 64 bits. -/
def bigWords : Nat → Bytes → Option (List Nat)
  | 0, _ => some []
  | k + 1, raw =>
    match wordLoop 0 (raw.drop (raw.length - 16)) with
    | none => none
    | some w => (bigWords k (raw.take (raw.length - 16))).map (fun ws => w :: ws)

/-- `big.Int.SetBits`. -/
def ofWords : List Nat → Nat
  | [] => 0
  | w :: ws => w + 2 ^ 64 * ofWords ws

/-- `hexutil.go:138-166` after the check of the text. -/
def bigRaw (raw : Bytes) : Option Nat := if 64 < raw.length then none else (bigWords (raw.length / 16 + 1) raw).map ofWords

/-- `hexutil.go:137-166` (`DecodeBig`). -/
def decodeBig (s : Bytes) : Option Nat := (checkNumber s).bind bigRaw

/-- `json.go:147-176` (`Big.UnmarshalText`). -/
def bigText (s : Bytes) : Option Nat := (checkNumberText s).bind bigRaw

/-- `hexutil.go:177-183` (`EncodeBig`): the sign comes before the prefix. -/
def encodeBig (z : Int) : Bytes := if z = 0 then [48, 120, 48] else (if z < 0 then [45] else []) ++ 48 :: 120 :: hexNat z.natAbs

end Verif.Text
