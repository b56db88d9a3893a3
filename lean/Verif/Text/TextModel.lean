import Verif.Base.Bytes

/-!
# Addresses, token ids, hashes and group ids as text; contract metadata as bytes

A Go string is a list of bytes. The digest of a given size (`crypto/hash.go:32-38`, blake2b) is a parameter `D`.
-/

namespace Verif.Text
open Verif.Bytes

/-- The digest of a size. -/
abbrev Digest := Nat → Bytes → Bytes

/-- A digit of `hex.EncodeToString`: `0123456789abcdef` -/
def digit (n : Nat) : UInt8 := if n < 10 then UInt8.ofNat (48 + n) else UInt8.ofNat (87 + n)

/-- `hex.EncodeToString` -/
def encode : Bytes → Bytes
  | [] => []
  | b :: l => digit (b.toNat / 16) :: digit (b.toNat % 16) :: encode l

/-- The table of `hex.Decode`: both cases of letters are digits. -/
def value (c : UInt8) : Option Nat :=
  let n := c.toNat
  if 48 ≤ n ∧ n ≤ 57 then some (n - 48)
  else if 97 ≤ n ∧ n ≤ 102 then some (n - 87)
  else if 65 ≤ n ∧ n ≤ 70 then some (n - 55)
  else none

/-- `hex.Decode` -/
def decode : Bytes → Option Bytes
  | [] => some []
  | [_] => none
  | p :: q :: l =>
    match value p, value q, decode l with
    | some a, some b, some r => some (UInt8.ofNat (a * 16 + b) :: r)
    | _, _, _ => none

/-- `AddressPrefix`, `common/types/address.go:18`: `vite_` -/
def addrPrefix : Bytes := [118, 105, 116, 101, 95]

/-- `TokenTypeIdPrefix`, `common/types/tokentypeid.go:15`: `tti_` -/
def tokenPrefix : Bytes := [116, 116, 105, 95]

/-- Decimal digits of a byte, for the text of a wrong address. -/
def decimal (b : UInt8) : Bytes :=
  let n := b.toNat
  if n < 10 then [UInt8.ofNat (48 + n)]
  else if n < 100 then [UInt8.ofNat (48 + n / 10), UInt8.ofNat (48 + n % 10)]
  else [UInt8.ofNat (48 + n / 100), UInt8.ofNat (48 + n / 10 % 10), UInt8.ofNat (48 + n % 10)]

/-- `error address[` -/
def errPrefix : Bytes := [101, 114, 114, 111, 114, 32, 97, 100, 100, 114, 101, 115, 115, 91]

/-- `Hex`, `address.go:163-174`, of 21 bytes -/
def addrHex (D : Digest) (a : Bytes) : Bytes :=
  let core := a.take 20
  match a[20]? with
  | none => []
  | some b =>
    if b = 0 then addrPrefix ++ encode core ++ encode (D 5 core)
    else if b = 1 then addrPrefix ++ encode core ++ encode (bnot (D 5 core))
    else errPrefix ++ decimal b ++ [93]

/-- `ValidHexAddress`, `address.go:113-139`, which is `HexToAddress` -/
def hexAddr (D : Digest) (s : Bytes) : Option Bytes :=
  if s.length ≠ 55 ∨ s.take 5 ≠ addrPrefix then none
  else
    match decode ((s.drop 5).take 40), decode (s.drop 45) with
    | some core, some sum =>
      if D 5 core = sum then some (core ++ [0])
      else if D 5 core = bnot sum then some (core ++ [1])
      else none
    | _, _ => none

/-- `Hex` of a token id, `tokentypeid.go:34-36` -/
def tokenHex (D : Digest) (t : Bytes) : Bytes := tokenPrefix ++ encode t ++ encode (D 2 t)

/-- `HexToTokenTypeId`, `tokentypeid.go:53-82` -/
def hexToken (D : Digest) (s : Bytes) : Option Bytes :=
  if s.length ≠ 28 ∨ s.take 4 ≠ tokenPrefix then none
  else
    match decode ((s.drop 4).take 20), decode (s.drop 24) with
    | some t, some sum => if D 2 t = sum then some t else none
    | _, _ => none

/-- `HexToHash`, `hash.go:26-35`, and `HexToGid`, `gid.go:29-38`, with their sizes -/
def hexBytes (size : Nat) (s : Bytes) : Option Bytes := if s.length ≠ 2 * size then none else decode s

/-- `isString`, `jsonutils.go:9-11` -/
def isString (s : Bytes) : Bool := decide (2 ≤ s.length ∧ s.head? = some 34 ∧ s.getLast? = some 34)

/-- `strings.Trim(s, "\"")` -/
def trimQuotes (s : Bytes) : Bytes := ((s.dropWhile (· == 34)).reverse.dropWhile (· == 34)).reverse

/-- `trimLeftRightQuotation`, `jsonutils.go:13-18` -/
def trimOnce (s : Bytes) : Bytes := if isString s then (s.drop 1).dropLast else []

/-- `UnmarshalJSON` and `UnmarshalText` of an address, `address.go:234-265`: they do the same -/
def addrUnmarshal (D : Digest) (s : Bytes) : Option Bytes := if isString s then hexAddr D (trimQuotes s) else none

/-- `MarshalText` of an address, `address.go:248-250` -/
def addrMarshal (D : Digest) (a : Bytes) : Bytes := addrHex D a

/-- `UnmarshalJSON` and `UnmarshalText` of a token id, `tokentypeid.go:101-129` -/
def tokenUnmarshal (D : Digest) (s : Bytes) : Option Bytes := if isString s then hexToken D (trimOnce s) else none

/-- `MarshalText` of a token id, `tokentypeid.go:113-115` -/
def tokenMarshal (D : Digest) (t : Bytes) : Bytes := tokenHex D t

/-- A JSON string of a text without anything to escape. -/
def quote (s : Bytes) : Bytes := 34 :: (s ++ [34])

/-! ### Contract metadata -/

/-- `ContractMeta`, `interfaces/core/contract_meta.go:5-14` -/
structure Meta where
  gid : Bytes
  sendConfirmed : UInt8
  createHash : Bytes
  quotaRatio : UInt8
  seedConfirmed : UInt8
  deriving DecidableEq, Repr

/-- `Serialize`, `contract_meta.go:18-29` -/
def Meta.serialize (m : Meta) : Bytes := m.gid ++ [m.sendConfirmed] ++ m.createHash ++ [m.quotaRatio] ++ [m.seedConfirmed]

/-- `Deserialize`, `contract_meta.go:31-56`; `none` is a panic: a slice or an index out of range -/
def Meta.deserialize (b : Bytes) : Option Meta :=
  match b[10]?, b[43]? with
  | some send, some quota =>
    some ⟨b.take 10, send, (b.drop 11).take 32, quota, match b[44]? with | none => send | some seed => seed⟩
  | _, _ => none

end Verif.Text
