import Verif.Base.Bytes

/-!
# Model of DEX order ids and prices

Source: `/repo/vm/contracts/dex/utils.go`, `leveldb_book.go`, `trade_helper.go`, `fund_helper.go`,
`fund_storage.go`.
-/

namespace Verif.Dex

open Verif.Bytes

/-- `priceIntMaxLen`, `priceDecimalMaxLen`: fund_storage.go:257-258. -/
def priceIntMaxLen : Nat := 12
def priceDecimalMaxLen : Nat := 12

/-- Largest `uint64`. -/
def maxU64 : Nat := 2 ^ 64 - 1

/-- Value of a decimal digit character. -/
def digit (c : Char) : Nat := c.toNat - '0'.toNat

/-- `strconv.ParseUint(s, 10, 64)` with the error dropped, as used at utils.go:69 and 84: a non-digit gives 0,
an overflow gives the largest `uint64` (Go standard library contract). -/
def parseUintLoop : List Char → Nat → Nat
  | [], n => n
  | c :: cs, n =>
    if c.isDigit then
      if n ≥ maxU64 / 10 + 1 then maxU64
      else if n * 10 + digit c > maxU64 then maxU64
      else parseUintLoop cs (n * 10 + digit c)
    else 0
def parseUint (s : List Char) : Nat := parseUintLoop s 0

/-- `strings.Split(s, ".")` (Go standard library contract). -/
def splitDot : List Char → List (List Char)
  | [] => [[]]
  | c :: cs =>
    if c = '.' then [] :: splitDot cs
    else match splitDot cs with
      | p :: ps => (c :: p) :: ps
      | [] => [[c]]

/-- The right padding with '0' up to 12 characters: utils.go:75-83. -/
def padDecimal (s : List Char) : List Char :=
  if s.length < priceDecimalMaxLen then s ++ List.replicate (priceDecimalMaxLen - s.length) '0' else s

/-- One five-byte half of a price: the low five bytes of the parsed digits, zeros for an empty part:
utils.go:68-73 and 74-87. -/
def priceHalf (len : Nat) (digits : List Char) : Bytes :=
  if len > 0 then be 5 (parseUint digits) else be 5 0

/-- `PriceToBytes`: utils.go:57-89. Strings are lists of characters. -/
def priceToBytes (price : List Char) : Bytes :=
  let parts := splitDot price
  let intPart := parts.headD []
  let decimalPart := if parts.length = 2 then parts.getD 1 [] else []
  priceHalf intPart.length intPart ++ priceHalf decimalPart.length (padDecimal decimalPart)

/-- `strconv.FormatUint(n, 10)` (Go standard library contract), most significant digit first. -/
def formatUint (n : Nat) : List Char :=
  if n < 10 then [Char.ofNat (n + '0'.toNat)]
  else formatUint (n / 10) ++ [Char.ofNat (n % 10 + '0'.toNat)]
termination_by n
decreasing_by omega

/-- Dropping trailing zeros: the `rightTruncate` loop, utils.go:119-127. -/
def dropTrailingZeros (s : List Char) : List Char := (s.reverse.dropWhile (· = '0')).reverse

/-- `BytesToPrice`: utils.go:91-129. `priceBytes[:5]` and `priceBytes[5:]` of a 10-byte price. -/
def bytesToPrice (b : Bytes) : List Char :=
  let intValue := num (b.take 5)
  let decimalValue := num (b.drop 5)
  let intStr := if intValue = 0 then ['0'] else formatUint intValue
  if decimalValue = 0 then intStr
  else
    let d := formatUint decimalValue
    let padded := List.replicate (priceDecimalMaxLen - d.length) '0' ++ d
    intStr ++ '.' :: dropTrailingZeros padded

/-- `ComposeOrderId`: utils.go:18-36. `timestamp` is `GetTimestampInt64(db)`, `serialNo` the result of
`NewAndSaveOrderSerialNo`; both are arguments here. `Uint32ToBytes(x)[1:]` is the low three bytes. -/
def composeOrderId (marketId : Nat) (side : Bool) (price : List Char) (timestamp serialNo : Nat) : Bytes :=
  let p := priceToBytes price
  be 3 marketId ++ [if side then 1 else 0] ++ (if side then p else bnot p) ++ be 5 timestamp ++ be 3 serialNo

/-- `DeComposeOrderId`: utils.go:38-55; `none` is `DeComposeOrderIdFailErr`. -/
def decomposeOrderId (id : Bytes) : Option (Nat × Bool × Bytes × Nat) :=
  if id.length ≠ 22 then none
  else
    let side := decide (id.getD 3 0 = 1)
    let p := (id.drop 4).take 10
    some (num (id.take 3), side, if side then p else bnot p, num ((id.drop 14).take 5))

/-- `getBookPrefix`: leveldb_book.go:45-51. -/
def bookPrefix (marketId : Nat) (side : Bool) : Bytes := be 3 marketId ++ [if side then 1 else 0]

/-- ASCII text as bytes. -/
def ascii (s : String) : Bytes := s.toList.map (fun c => UInt8.ofNat c.toNat)

/-- The non-order keys of the trade contract: trade_helper.go:12-15, 83, 91, 119 with their suffixes. -/
def marketInfoKey (marketId : Nat) : Bytes := ascii "mkIf:" ++ be 4 marketId
def tradeTimestampKey : Bytes := ascii "ttmsp:"
def hashMapOrderIdKey (sendHash : Bytes) : Bytes := ascii "hmId:" ++ sendHash.drop 5

/-- `checkPriceChar`: fund_helper.go:660-667. -/
def checkPriceChar (s : List Char) : Bool := s.all (fun v => v = '.' || v.isDigit)

/-- `strconv.ParseFloat(price, 64)` succeeds with a positive value, for texts over digits and '.': at most one dot,
a digit, and a non-zero digit. Texts outside float64 range are not distinguished; they are longer than `ValidPrice`
accepts anyway (Go standard library contract). -/
def parseFloatPositive (s : List Char) : Bool :=
  decide (s.count '.' ≤ 1) && s.any Char.isDigit && s.any (fun c => c.isDigit && c ≠ '0')

/-- `ValidPrice(price, isFork)`: fund_helper.go:526-544. -/
def validPrice (s : List Char) (isFork : Bool) : Bool :=
  if s.length = 0 then false
  else if !checkPriceChar s then false
  else if !parseFloatPositive s then false
  else match s.idxOf? '.' with
    | some idx => if idx > priceIntMaxLen then false else !(s.length - (idx + 1) > priceDecimalMaxLen)
    | none => !(isFork && s.length > priceIntMaxLen)

/-- The stored serial number: `SerialNo` of fund_storage.go, and the DEX timestamp. -/
structure IdState where
  dexTime : Nat
  serial : Option (Nat × Nat)

/-- `NewAndSaveOrderSerialNo`: fund_storage.go:1728-1743. -/
def newSerialNo (st : IdState) (timestamp : Nat) : Nat × IdState :=
  let n := match st.serial with
    | none => 0
    | some (t, no) => if timestamp = t then no + 1 else 0
  (n, { st with serial := some (timestamp, n) })

/-- `SetDexTimestamp`: fund_storage.go:2168-2185, without the period rollover: only strictly later times are accepted. -/
def setDexTimestamp (st : IdState) (t : Nat) : Option IdState :=
  if t > st.dexTime then some { st with dexTime := t } else none

end Verif.Dex
