import Verif.Tactics

/-!
# Model of node identities and the distance between them

`net/vnode/node.go`: `commonBits`, `commonNBits`, `Distance`,
`RandFromDistance`.

An identity is an array of `N` bytes; the code has `N = 32` and the model
keeps `N` as a parameter.  The random bytes that `RandomNodeID` reads are an
argument.
-/

namespace Verif.Disc

/-- A byte (Go `uint8`: shifts lose what leaves the byte, and a shift by 8 or
more gives 0). -/
abbrev Byte := BitVec 8

/-- net/vnode/node.go:46 `NodeID`: an array of bytes (its length is a
hypothesis of the theorems). -/
abbrev Id := List Byte

/-- net/vnode/node.go:128-131: the index of the first byte that differs. -/
def firstDiff : Id → Id → Nat
  | x :: xs, y :: ys => if x ≠ y then 0 else 1 + firstDiff xs ys
  | _, _ => 0

/-- net/vnode/node.go:142-145: the loop that counts the leading zero bits of
`xor`.  The loop of the code has no bound; it is only entered with a byte that
is not zero, so that eight rounds are enough (`fuel`). -/
def lead : Nat → Byte → Nat
  | 0, _ => 0
  | fuel + 1, x => if x &&& 128#8 = 0#8 then 1 + lead fuel (x <<< 1) else 0

/-- net/vnode/node.go:127-148 `commonBits`. -/
def commonBits (N : Nat) (a b : Id) : Nat :=
  if firstDiff a b = N then 8 * N
  else 8 * firstDiff a b
    + lead 8 (a.getD (firstDiff a b) 0 ^^^ b.getD (firstDiff a b) 0)

/-- net/vnode/node.go:189-191 `Distance`. -/
def distance (N : Nat) (a b : Id) : Nat := 8 * N - commonBits N a b

/-- net/vnode/node.go:163-176: the byte in which the two identities part. -/
def mixByte (x r : Byte) (bit : Nat) : Byte :=
  if 0 < ((x <<< bit) >>> 7) <<< (7 - bit) then
    (((r <<< bit) >>> bit) ||| ((x >>> (8 - bit)) <<< (8 - bit))) &&& (255#8 - (1#8 <<< (7 - bit)))
  else
    (((r <<< bit) >>> bit) ||| ((x >>> (8 - bit)) <<< (8 - bit))) ||| (1#8 <<< (7 - bit))

/-- net/vnode/node.go:150-179 `commonNBits`; `rnd` is what `RandomNodeID`
gave. -/
def commonNBits (N : Nat) (a : Id) (n : Nat) (rnd : Id) : Id :=
  if n = 8 * N then a
  else a.take (n / 8) ++ mixByte (a.getD (n / 8) 0) (rnd.getD (n / 8) 0) (n % 8) :: rnd.drop (n / 8 + 1)

/-- net/vnode/node.go:100-106 `RandFromDistance`. -/
def randFromDistance (N : Nat) (a : Id) (d : Nat) (rnd : Id) : Id :=
  commonNBits N a (8 * N - (if 8 * N ≤ d then 8 * N else d)) rnd

end Verif.Disc
