import Verif.Base.Bytes

/-!
# Packing and unpacking of arguments (`vm/abi`)

Types are as `NewType` makes them from text (`type.go:44-157`; the parsing itself is not modelled): elements, and slices and arrays of elements, not nested any deeper
(`type.go:52`). Go's reflection is left out: values are given with their Go kinds, and `typeCheck` (`error.go:162-181`) is the check that a value has the kind of its type.
Lengths are natural numbers: no slice is as long as 2^58 bytes.
-/

namespace Verif.Abi
open Verif.Bytes

/-- Types of elements, `type.go:14-26`. -/
inductive Elem where
  | int (bits : Nat)
  | uint (bits : Nat)
  | bool
  | address
  | gid
  | token
  | string
  | bytes
  | fixed (n : Nat)
  deriving DecidableEq, Repr

/-- Types of arguments. -/
inductive Ty where
  | one (e : Elem)
  | slice (e : Elem)
  | array (n : Nat) (e : Elem)
  deriving DecidableEq, Repr

/-- Values of elements: numbers, truth values, and all else as bytes. -/
inductive Val where
  | num (i : Int)
  | bool (b : Bool)
  | raw (b : Bytes)
  deriving DecidableEq, Repr

/-- Arguments. -/
inductive Arg where
  | one (v : Val)
  | list (l : List Val)
  deriving DecidableEq, Repr

/-- Sizes with a Go integer of their own, `reflect.go:17-43`; all others are of `*big.Int`. -/
def native (bits : Nat) : Bool := decide (bits = 8 ∨ bits = 16 ∨ bits = 32 ∨ bits = 64)

/-- `typeCheck` of an element, `error.go:162-181`, and the Go types of values: an `int8` is in the range of an `int8`, a `*big.Int` is any integer.
Wrong sizes of addresses, which the check lets pass, are left out. -/
def Elem.has : Elem → Val → Bool
  | .int bits, .num i => !native bits || decide (-(2 : Int) ^ (bits - 1) ≤ i ∧ i < (2 : Int) ^ (bits - 1))
  | .uint bits, .num i => !native bits || decide (0 ≤ i ∧ i < (2 : Int) ^ bits)
  | .bool, .bool _ => true
  | .address, .raw b => decide (b.length = 21)
  | .gid, .raw b => decide (b.length = 10)
  | .token, .raw b => decide (b.length = 10)
  | .string, .raw _ => true
  | .bytes, .raw _ => true
  | .fixed n, .raw b => decide (b.length = n)
  | _, _ => false

/-- `sliceTypeCheck` and `typeCheck`, `error.go:137-181` -/
def Ty.has : Ty → Arg → Bool
  | .one e, .one v => e.has v
  | .slice e, .list l => l.all e.has
  | .array n e, .list l => decide (l.length = n) && l.all e.has
  | _, _ => false

/-- `LeftPadBytes`, `common/helper/common.go:69-78` -/
def leftPad (b : Bytes) (n : Nat) : Bytes := List.replicate (n - b.length) 0 ++ b

/-- `RightPadBytes`, `common/helper/common.go:57-66` -/
def rightPad (b : Bytes) (n : Nat) : Bytes := b ++ List.replicate (n - b.length) 0

/-- `packNum`, `pack.go:66-79`: 256 bits of two's complement -/
def packNum (i : Int) : Bytes := be 32 (i % (2 : Int) ^ 256).toNat

/-- `packBytesSlice`, `pack.go:12-18` -/
def packBytesSlice (b : Bytes) (l : Nat) : Bytes := packNum l ++ rightPad b ((l + 31) / 32 * 32)

/-- `packElement`, `pack.go:22-63` -/
def packElem : Elem → Val → Bytes
  | .int _, .num i => packNum i
  | .uint _, .num i => packNum i
  | .string, .raw b => packBytesSlice b b.length
  | .bytes, .raw b => packBytesSlice b b.length
  | .address, .raw b => leftPad b 32
  | .gid, .raw b => leftPad b 32
  | .token, .raw b => leftPad b 32
  | .bool, .bool b => packNum (if b then 1 else 0)
  | .fixed _, .raw b => rightPad b 32
  | _, _ => []

/-- `pack`, `type.go:164-190` -/
def pack (t : Ty) (v : Arg) : Option Bytes :=
  if !t.has v then none
  else
    match t, v with
    | .one e, .one v => some (packElem e v)
    | .slice e, .list l => some (packBytesSlice (l.map (packElem e)).flatten l.length)
    | .array _ e, .list l => some (l.map (packElem e)).flatten
    | _, _ => none

/-- Elements with a length before them. -/
def Elem.prefixed : Elem → Bool
  | .string => true
  | .bytes => true
  | _ => false

/-- `requiresLengthPrefix`, `type.go:195-197` -/
def Ty.prefixed : Ty → Bool
  | .one e => e.prefixed
  | .slice _ => true
  | .array _ _ => false

/-- The words an argument has in the first part, `argument.go:209-216`. -/
def Ty.words : Ty → Nat
  | .array n _ => n
  | _ => 1

/-- The loop of `Pack`, `argument.go:218-244`: the first part and the second so far -/
def packLoop (off : Nat) : List Ty → List Arg → Bytes → Bytes → Option Bytes
  | [], [], ret, var => some (ret ++ var)
  | t :: ts, a :: as, ret, var =>
    match pack t a with
    | none => none
    | some p => if t.prefixed then packLoop off ts as (ret ++ packNum ((off + var.length : Nat) : Int)) (var ++ p) else packLoop off ts as (ret ++ p) var
  | _, _, _, _ => none

/-- `Pack`, `argument.go:197-249` -/
def packArgs (ts : List Ty) (as : List Arg) : Option Bytes :=
  if as.length ≠ ts.length then none else packLoop ((ts.map Ty.words).sum * 32) ts as [] []

/-- A result, an error, or the end of the program. -/
inductive Res (α : Type) where
  | ok (a : α)
  | err
  | panic
  deriving DecidableEq, Repr

/-- Two's complement of a number of bits. -/
def signed (bits : Nat) (n : Nat) : Int := if n < 2 ^ (bits - 1) then n else (n : Int) - 2 ^ bits

/-- `readInteger`, `unpack.go:14-36`: only the sizes of Go's integers have a sign -/
def readInteger (sign : Bool) (bits : Nat) (w : Bytes) : Int :=
  if native bits then
    let n := num (w.drop (w.length - bits / 8))
    if sign then signed bits n else n
  else num w

/-- `readBool`, `unpack.go:39-53` -/
def readBool (w : Bytes) : Res Val :=
  if (w.take 31).any (· != 0) then .err
  else if w[31]? = some 0 then .ok (.bool false)
  else if w[31]? = some 1 then .ok (.bool true)
  else .err

/-- Part of a byte string; out of range it is the end. -/
def slice (d : Bytes) (s e : Nat) : Res Bytes := if s ≤ e ∧ e ≤ d.length then .ok ((d.drop s).take (e - s)) else .panic

/-- `lengthPrefixPointsTo`, `unpack.go:171-210`: where and how long -/
def pointsTo (index : Nat) (d : Bytes) : Res (Nat × Nat) :=
  match slice d index (index + 32) with
  | .err => .err
  | .panic => .panic
  | .ok w =>
    let offEnd := num w + 32
    if offEnd > d.length then .err
    else if offEnd ≥ 2 ^ 63 then .err
    else
      match slice d (offEnd - 32) offEnd with
      | .err => .err
      | .panic => .panic
      | .ok lw =>
        let total := offEnd + num lw
        if total ≥ 2 ^ 63 then .err
        else if total > d.length then .err
        else .ok (offEnd, num lw)

/-- `toGoType` of an element, `unpack.go:122-168`. For fixed bytes of more than 32 (`unpack.go:56-66`) the slice goes beyond the word: whatever lies behind is read, or
it is the end of the program; here it is the end. -/
def readElem (index : Nat) (e : Elem) (d : Bytes) : Res Val :=
  if index + 32 > d.length then .err
  else if e.prefixed then
    match pointsTo index d with
    | .err => .err
    | .panic => .panic
    | .ok (s, l) =>
      match slice d s (s + l) with
      | .err => .err
      | .panic => .panic
      | .ok b => .ok (.raw b)
  else
    match slice d index (index + 32) with
    | .err => .err
    | .panic => .panic
    | .ok w =>
      match e with
      | .int bits => .ok (.num (readInteger true bits w))
      | .uint bits => .ok (.num (readInteger false bits w))
      | .bool => readBool w
      | .address => .ok (.raw (w.drop 11))
      | .gid => .ok (.raw (w.drop 22))
      | .token => .ok (.raw (w.drop 22))
      | .fixed n => if n ≤ 32 then .ok (.raw (w.take n)) else .panic
      | .string => .panic
      | .bytes => .panic

/-- The loop of `forEachUnpack`, `unpack.go:107-117` -/
def readList (e : Elem) (d : Bytes) : Nat → Nat → Res (List Val)
  | _, 0 => .ok []
  | index, n + 1 =>
    match readElem index e d with
    | .err => .err
    | .panic => .panic
    | .ok v =>
      match readList e d (index + 32) n with
      | .err => .err
      | .panic => .panic
      | .ok l => .ok (v :: l)

/-- `forEachUnpack`, `unpack.go:80-119` -/
def forEach (e : Elem) (d : Bytes) (start size : Nat) : Res Arg :=
  if start + 32 * size > d.length then .err
  else
    match readList e d start size with
    | .err => .err
    | .panic => .panic
    | .ok l => .ok (.list l)

/-- `toGoType`, `unpack.go:122-168` -/
def read (index : Nat) (t : Ty) (d : Bytes) : Res Arg :=
  match t with
  | .one e =>
    match readElem index e d with
    | .err => .err
    | .panic => .panic
    | .ok v => .ok (.one v)
  | .slice e =>
    if index + 32 > d.length then .err
    else
      match pointsTo index d with
      | .err => .err
      | .panic => .panic
      | .ok (s, l) => forEach e d s l
  | .array n e => if index + 32 > d.length then .err else forEach e d index n

/-- The words of an array beyond its first, `argument.go:170-182` -/
def Ty.virtual : Ty → Nat
  | .array n _ => n - 1
  | _ => 0

/-- The loop of `UnpackValues`, `argument.go:167-188`: at argument `index`, with `virtual` further words before it -/
def unpackLoop (d : Bytes) : Nat → Nat → List Ty → Res (List Arg)
  | _, _, [] => .ok []
  | index, virtual, t :: ts =>
    match read ((index + virtual) * 32) t d with
    | .err => .err
    | .panic => .panic
    | .ok a =>
      match unpackLoop d (index + 1) (virtual + t.virtual) ts with
      | .err => .err
      | .panic => .panic
      | .ok as => .ok (a :: as)

/-- `UnpackValues`, `argument.go:162-189` -/
def unpackArgs (ts : List Ty) (d : Bytes) : Res (List Arg) := unpackLoop d 0 0 ts

/-! ### Methods and events -/

/-- `packMethod`, `abi.go:85-93`, with an id of four bytes -/
def packMethod (id : Bytes) (ts : List Ty) (as : List Arg) : Option Bytes := (packArgs ts as).map (id ++ ·)

/-- `DirectUnpackMethodInput`, `abi.go:114-122`, for a method whose id is not that of another -/
def unpackMethod (id : Bytes) (ts : List Ty) (d : Bytes) : Res (List Arg) :=
  if d.length ≤ 4 then .err else if d.take 4 ≠ id then .err else unpackArgs ts (d.drop 4)

/-- One input of an event. -/
structure Input where
  ty : Ty
  indexed : Bool
  deriving DecidableEq, Repr

/-- A topic: `event.go:58-66` -/
def topic (H : Bytes → Bytes) (p : Bytes) : Bytes := if p.length ≤ 32 then leftPad p 32 else H p

/-- The loop of `Pack` of events, `event.go:55-73`: the topics of indexed arguments, and the others -/
def packEvent (H : Bytes → Bytes) : List Input → List Arg → Option (List Bytes × List Arg)
  | [], [] => some ([], [])
  | i :: is, a :: as =>
    match packEvent H is as with
    | none => none
    | some (ts, r) =>
      if i.indexed then
        match pack i.ty a with
        | none => none
        | some p => some (topic H p :: ts, r)
      else some (ts, a :: r)
  | _, _ => none

/-- `Pack` of events, `event.go:48-84`, after the first topic -/
def eventPack (H : Bytes → Bytes) (is : List Input) (as : List Arg) : Option (List Bytes × Bytes) :=
  match packEvent H is as with
  | none => none
  | some (ts, r) =>
    if r.isEmpty then some (ts, [])
    else
      match packArgs ((is.filter (!·.indexed)).map (·.ty)) r with
      | none => none
      | some d => some (ts, d)

/-- A value of an event: an argument, or the topic in its place. -/
inductive EvVal where
  | arg (a : Arg)
  | topic (t : Bytes)
  deriving DecidableEq, Repr

/-- The types whose topic is given as it is, `event.go:96`. -/
def Ty.opaque : Ty → Bool
  | .one e => e.prefixed
  | _ => true

/-- The loop of `DirectUnPack`, `event.go:94-112`; a missing topic is the end -/
def eventLoop : List Input → List Bytes → List Arg → Res (List EvVal)
  | [], _, _ => .ok []
  | i :: is, tops, args =>
    if i.indexed then
      match tops with
      | [] => .panic
      | t :: tops =>
        match (if i.ty.opaque then .ok (.topic t) else match read 0 i.ty t with | .err => .err | .panic => .panic | .ok a => .ok (.arg a) : Res EvVal) with
        | .err => .err
        | .panic => .panic
        | .ok v =>
          match eventLoop is tops args with
          | .err => .err
          | .panic => .panic
          | .ok l => .ok (v :: l)
    else
      match args with
      | [] => .panic
      | a :: args =>
        match eventLoop is tops args with
        | .err => .err
        | .panic => .panic
        | .ok l => .ok (.arg a :: l)

/-- `DirectUnPack`, `event.go:87-114`, after the first topic -/
def eventUnpack (is : List Input) (tops : List Bytes) (d : Bytes) : Res (List EvVal) :=
  match unpackArgs ((is.filter (!·.indexed)).map (·.ty)) d with
  | .err => .err
  | .panic => .panic
  | .ok args => eventLoop is tops args

end Verif.Abi
