import Verif.Iter.IterModel

/-!
# What reading an iterator should give

Independent of how the merged iterator works: the sources are lists of entries, the newest first; a key has the value its newest
source gives it, unless it is deleted. -/

namespace Verif.Iter

open Verif.Bytes

/-- The value a source gives to a key. -/
def lookup (l : List Entry) (k : Bytes) : Option Bytes := (l.find? (fun e => decide (e.1 = k))).map (·.2)

/-- The value of a key: none if it is deleted, otherwise that of the first source that has the key. -/
def newest (L : List (List Entry)) (del : Bytes → Bool) (k : Bytes) : Option Bytes :=
  if del k then none else L.findSome? (fun l => lookup l k)

/-- The entries of a source are in ascending order of their keys, without repetition, and no key is empty. -/
structure Source (l : List Entry) : Prop where
  sorted : l.Pairwise (fun a b => lt a.1 b.1 = true)
  nonempty : ∀ e ∈ l, e.1 ≠ []

/-- The keys come one after the other in direction `d`, without repetition. -/
def InOrder (d : Bool) (l : List Entry) : Prop := l.Pairwise (fun a b => before d a.1 b.1 = true)

/-- Where a reading stands: at its start, at the first key that is not before `q`, just past `k`. -/
inductive Bound
  | start
  | at (q : Bytes)
  | past (k : Bytes)

/-- The keys still to come in direction `d`. -/
def after (d : Bool) : Bound → Bytes → Prop
  | .start, _ => True
  | .at q, k => before d k q = false
  | .past l, k => before d l k = true

/-- The slots of a contract that are not empty and whose key begins with `p`. -/
def Listed (get : Bytes → Bytes) (p : Bytes) (k v : Bytes) : Prop := get k = v ∧ v ≠ [] ∧ p <+: k

/-- The value a slot has at height `h`: the one written at the greatest height that is not above `h`. -/
def ValueAt (db : Store) (addr k : Bytes) (h : Nat) (v : Bytes) : Prop :=
  ∃ j ≤ h, (histKey addr k j, v) ∈ db ∧ ∀ i, j < i → i ≤ h → ∀ w, (histKey addr k i, w) ∉ db

end Verif.Iter
