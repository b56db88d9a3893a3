import Verif.Tab.BlockModel

/-! # Specification: a cursor over a list of entries, and the parts of a sorted list -/

namespace Verif.Tab
open Verif.Bytes

variable {O : Type} [LinearOrder O]

/-- Before the first entry, on one, or past the last. -/
inductive Place where
  | before
  | on (j : Nat)
  | past
  deriving DecidableEq

/-- What may be asked of an iterator. -/
inductive Ask where
  | first
  | last
  | next
  | prev
  | seek (k : Bytes)

/-- Where a cursor over a list goes. -/
def goes (ord : Bytes → O) (l : List (Bytes × Bytes)) (p : Place) : Ask → Place
  | .first => if l = [] then .past else .on 0
  | .last => if l = [] then .before else .on (l.length - 1)
  | .next =>
    match p with
    | .before => if l = [] then .past else .on 0
    | .on j => if j + 1 < l.length then .on (j + 1) else .past
    | .past => .past
  | .prev =>
    match p with
    | .past => if l = [] then .before else .on (l.length - 1)
    | .on j => if 0 < j then .on (j - 1) else .before
    | .before => .before
  | .seek k =>
    match l.findIdx? (fun e => decide (ord k ≤ ord e.1)) with
    | some j => .on j
    | none => .past

/-- What is seen: whether there was an error, the answer of the call, and the entry shown. -/
def sees (l : List (Bytes × Bytes)) : Place → Bool × Bool × Option (Bytes × Bytes)
  | .on j => (false, true, l[j]?)
  | _ => (false, false, none)

/-- A run of a cursor. -/
def cursor (ord : Bytes → O) (l : List (Bytes × Bytes)) : Place → List Ask → List (Bool × Bool × Option (Bytes × Bytes))
  | _, [] => []
  | p, a :: as => sees l (goes ord l p a) :: cursor ord l (goes ord l p a) as

/-- At or after a key, if one is given. -/
def fromKey (ord : Bytes → O) (start : Option Bytes) (e : Bytes × Bytes) : Bool :=
  match start with
  | some s => decide (ord s ≤ ord e.1)
  | none => true

/-- Before a key, if one is given. -/
def toKey (ord : Bytes → O) (limit : Option Bytes) (e : Bytes × Bytes) : Bool :=
  match limit with
  | some l => decide (ord e.1 < ord l)
  | none => true

/-- The entries from `start` on and before `limit`. -/
def between (ord : Bytes → O) (start limit : Option Bytes) (es : List (Bytes × Bytes)) : List (Bytes × Bytes) :=
  es.filter (fun e => fromKey ord start e && toKey ord limit e)

/-! ### The program's side -/

/-- A call of the iterator. -/
def BI.ask (ord : Bytes → O) (b : Block) (i : BI) : Ask → BI × Bool
  | .first => i.first b
  | .last => i.last b
  | .next => BI.next b i
  | .prev => BI.prev b i
  | .seek k => i.seek ord b k

/-- A run of the iterator. -/
def BI.asks (ord : Bytes → O) (b : Block) : BI → List Ask → List (Bool × Bool × Option (Bytes × Bytes))
  | _, [] => []
  | i, a :: as => ((i.ask ord b a).1.bad, (i.ask ord b a).2, (i.ask ord b a).1.shows) :: BI.asks ord b (i.ask ord b a).1 as

end Verif.Tab
