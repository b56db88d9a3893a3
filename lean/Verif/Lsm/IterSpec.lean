import Verif.Lsm.IterModel

/-!
# What an iterator promises

A cursor over a fixed map: before the first key, at a key, or after the last.
-/

namespace Verif.Lsm.Spec

variable {K V : Type} [LinearOrder K]

/-- The least key of the map among those wanted, with its value; or there is none. -/
def IsFirst (m : K → Option V) (want : K → Prop) : Option (K × V) → Prop
  | some (k, v) => m k = some v ∧ want k ∧ ∀ y, (m y).isSome → want y → k ≤ y
  | none => ∀ y, (m y).isSome → ¬ want y

/-- The greatest key of the map among those wanted, with its value; or there is none. -/
def IsLast (m : K → Option V) (want : K → Prop) : Option (K × V) → Prop
  | some (k, v) => m k = some v ∧ want k ∧ ∀ y, (m y).isSome → want y → y ≤ k
  | none => ∀ y, (m y).isSome → ¬ want y

/-- Where a cursor is. -/
inductive Pos (K : Type) where
  | start
  | on (k : K)
  | done

/-- The place after an answer, when going forward. -/
def Pos.ahead : Option (K × V) → Pos K
  | some (k, _) => .on k
  | none => .done

/-- The place after an answer, when going backward. -/
def Pos.back : Option (K × V) → Pos K
  | some (k, _) => .on k
  | none => .start

/-- What a call on a cursor over a map may answer, and where it leaves the cursor. -/
def Answers (m : K → Option V) : Pos K → Call K V → Option (K × V) → Pos K → Prop
  | _, .first, r, p => IsFirst m (fun _ => True) r ∧ p = .ahead r
  | _, .last, r, p => IsLast m (fun _ => True) r ∧ p = .back r
  | _, .seek k, r, p => IsFirst m (fun y => k ≤ y) r ∧ p = .ahead r
  | .start, .next, r, p => IsFirst m (fun _ => True) r ∧ p = .ahead r
  | .on k, .next, r, p => IsFirst m (fun y => k < y) r ∧ p = .ahead r
  | .done, .next, r, p => r = none ∧ p = .done
  | .start, .prev, r, p => r = none ∧ p = .start
  | .on k, .prev, r, p => IsLast m (fun y => y < k) r ∧ p = .back r
  | .done, .prev, r, p => IsLast m (fun _ => True) r ∧ p = .back r
  | .on k, .grow _, r, p => (∃ v, r = some (k, v) ∧ m k = some v) ∧ p = .on k
  | pos, .grow _, r, p => r = none ∧ p = pos

/-- The answers to a list of calls are those of a cursor over the map. -/
def Follows (m : K → Option V) : Pos K → List (Call K V) → List (Option (K × V)) → Prop
  | _, [], rs => rs = []
  | p, c :: cs, rs => ∃ r rest p', rs = r :: rest ∧ Answers m p c r p' ∧ Follows m p' cs rest

/-- The entries that writers put in during a list of calls. -/
def grown : List (Call K V) → List (Entry K V)
  | [] => []
  | .grow e :: cs => e :: grown cs
  | _ :: cs => grown cs

end Verif.Lsm.Spec
