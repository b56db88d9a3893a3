import Verif.Disc.DistModel

/-!
# What the distance of two identities is

Read as bits from left to right, two identities agree up to some place.  The
distance is the number of bits from that place on.
-/

namespace Verif.Disc

/-- The bits of a byte, the most significant first. -/
def byteBits (x : Byte) : List Bool := (List.range 8).map fun i => x.getMsbD i

/-- The bits of an identity, from left to right. -/
def bits (a : Id) : List Bool := (a.map byteBits).flatten

/-- The number of places on which two lists agree from the left. -/
def agree : List Bool → List Bool → Nat
  | x :: xs, y :: ys => if x = y then 1 + agree xs ys else 0
  | _, _ => 0

end Verif.Disc
