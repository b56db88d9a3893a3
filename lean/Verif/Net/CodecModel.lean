import Verif.Base.Bytes

/-!
# Messages between nodes

Models `net/codec.go`: how a message is written to a connection and read from it. A connection is the string of bytes that the other side
wrote; `io.ReadFull` makes the pieces in which they arrive invisible. Time limits are not modelled (they end in an error), and neither is
the memory that is taken (`snappy.DecodedLen` may ask for 4 GB). `snappy` is a parameter. -/

namespace Verif.Net

open Verif.Bytes

/-- `Msg` (`net/message.go:59-75`): code, id (32 bits) and content. -/
structure Msg where
  code : UInt8
  id : Nat
  payload : Bytes
deriving Repr, DecidableEq

/-- The compression used: `snappy.Encode`, `snappy.Decode`. -/
structure Zip where
  enc : Bytes → Bytes
  dec : Bytes → Option Bytes

/-- `idLengthToBits` (`codec.go:75-82`). -/
def idLengthToBits (n : UInt8) : UInt8 := if n = 4 then 3 else n

/-- `bitsToIdLength` (`codec.go:89-96`). -/
def bitsToIdLength (n : UInt8) : UInt8 := if n = 3 then 4 else n

/-- `putId` (`codec.go:99-122`): the bytes written. -/
def putId (id : Nat) : Bytes :=
  if id = 0 then [] else if id > 65535 then be 4 id else if id > 255 then be 2 id else be 1 id

/-- `retrieveMeta` (`codec.go:124-129`): size of the id, size of the length, compressed. -/
def retrieveMeta (m : UInt8) : UInt8 × UInt8 × Bool := (bitsToIdLength (m >>> 6), (m <<< 2) >>> 6, decide ((m <<< 4) >>> 7 > 0))

/-- `storeMeta` (`codec.go:131-138`). -/
def storeMeta (isize lsize : UInt8) (compressed : Bool) : UInt8 :=
  (idLengthToBits isize <<< 6) ||| (lsize <<< 4) ||| (if compressed then 8 else 0)

/-- The number of bytes of `PutVarint` (`codec.go:330-331`). -/
def varLen (n : Nat) : Nat := if n = 0 then 0 else 1 + varLen (n / 256)

/-- `PutVarint` (`codec.go:325-338`): the bytes written; `none` is the panic when the buffer is too small. -/
def putVarint (room n : Nat) : Option Bytes := if varLen n ≤ room then some (be (varLen n) n) else none

/-- What `WriteMsg` writes as content (`codec.go:269-287`), and whether it is compressed: contents longer than `min` are, if that makes them
shorter. -/
def squeeze (z : Zip) (min : Int) (p : Bytes) : Bytes × Bool :=
  if (p.length : Int) > min ∧ (z.enc p).length < p.length then (z.enc p, true) else (p, false)

/-- `WriteMsg` (`codec.go:256-314`); the head buffer has 9 bytes. `none` is a panic. -/
def write (z : Zip) (min : Int) (m : Msg) : Option Bytes :=
  let ib := putId m.id
  let (p, c) := squeeze z min m.payload
  match putVarint (9 - 2 - ib.length) p.length with
  | none => none
  | some lb => some (storeMeta (UInt8.ofNat ib.length) (UInt8.ofNat lb.length) c :: m.code :: (ib ++ lb ++ p))

/-- `io.ReadFull`: `none` if the connection ends before. -/
def readFull (n : Nat) (s : Bytes) : Option (Bytes × Bytes) := if n ≤ s.length then some (s.take n, s.drop n) else none

inductive Err
  | short
  | large
  | decode
deriving Repr, DecidableEq

/-- `maxPayloadSize` (`codec.go:31-32`). -/
def maxPayloadSize : Nat := 2 ^ 24 - 1

/-- `ReadMsg` (`codec.go:187-253`): the message and what is left on the connection. `Varint` (`codec.go:316-323`) of at most four bytes is `num`; a
field of no bytes is 0. -/
def read (z : Zip) (s : Bytes) : Except Err (Msg × Bytes) :=
  match readFull 2 s with
  | none => .error .short
  | some (h, s1) =>
    let r := retrieveMeta (h.getD 0 0)
    match readFull r.1.toNat s1 with
    | none => .error .short
    | some (ib, s2) =>
      match readFull r.2.1.toNat s2 with
      | none => .error .short
      | some (lb, s3) =>
        if num lb > maxPayloadSize then .error .large
        else
          match readFull (num lb) s3 with
          | none => .error .short
          | some (p, s4) =>
            if r.2.2 then
              match z.dec p with
              | none => .error .decode
              | some q => .ok (⟨h.getD 1 0, num ib, q⟩, s4)
            else .ok (⟨h.getD 1 0, num ib, p⟩, s4)

/-- Reading messages one after the other (`peer.go`, `readLoop`) until the connection ends or a message cannot be read. -/
def readAll (z : Zip) : Nat → Bytes → List Msg × Bytes
  | 0, s => ([], s)
  | n + 1, s =>
    match read z s with
    | .error _ => ([], s)
    | .ok (m, r) => let (l, t) := readAll z n r; (m :: l, t)

/-- Writing messages one after the other. -/
def writeAll (z : Zip) (min : Int) : List Msg → Option Bytes
  | [] => some []
  | m :: l => match write z min m, writeAll z min l with | some a, some b => some (a ++ b) | _, _ => none

end Verif.Net
