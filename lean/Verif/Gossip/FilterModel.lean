import Verif.Tactics

/-!
# The filter of seen blocks

`common/bloom`: a pair of Bloom filters, of which one is filled and the other is kept.  The places
of a thing in the bit array (`(lower + upper·i) % m` for `i < k`, from an FNV hash) are a parameter:
a function from things to lists of places.  A bit array is the list of its places that are set; the
packing of bits into bytes (`bucket.go:103-128`) is not modelled.
-/

namespace Verif.Gossip

/-- A bit array, with the number of times a bit was set.  `common/bloom/bucket.go:22-28`
(`Buckets`). -/
structure Bits where
  set : List Nat
  count : Nat
  deriving DecidableEq, Repr

/-- The filter.  `common/bloom/bloom.go:29-35` (`Filter`); `m` is the size of an array. -/
structure Filter where
  fill : Bits
  kept : Bits
  m : Nat
  deriving DecidableEq, Repr

/-- A new filter.  `common/bloom/bloom.go:39-50` (`New`). -/
def Filter.new (m : Nat) : Filter := ⟨⟨[], 0⟩, ⟨[], 0⟩, m⟩

/-- All places are set.  `common/bloom/bloom.go:71-80`. -/
def Bits.has (b : Bits) (places : List Nat) : Bool := places.all (fun i => b.set.contains i)

/-- `common/bloom/bloom.go:52-58, 68-87` (`Test`, `testHashUnlocked`). -/
def Filter.test (f : Filter) (places : List Nat) : Bool :=
  f.fill.has places || f.kept.has places

/-- Set the places.  `common/bloom/bloom.go:117-120`, `bucket.go:70-78` (`Set`: the count goes up
whether the bit was set or not). -/
def Bits.put (b : Bits) (places : List Nat) : Bits := ⟨places ++ b.set, b.count + places.length⟩

/-- Change the arrays over when the one being filled is more than four fifths full.
`common/bloom/bloom.go:108-115`. -/
def Filter.turn (f : Filter) : Filter :=
  if 5 * f.fill.count > 4 * f.m then { f with fill := ⟨[], 0⟩, kept := f.fill } else f

/-- `common/bloom/bloom.go:91-97, 108-121` (`Add`, `addHashUnlocked`). -/
def Filter.add (f : Filter) (places : List Nat) : Filter :=
  { f.turn with fill := f.turn.fill.put places }

/-- `common/bloom/bloom.go:125-135` (`TestAndAdd`). -/
def Filter.testAndAdd (f : Filter) (places : List Nat) : Bool × Filter :=
  if f.test places then (true, f) else (false, f.add places)

end Verif.Gossip
