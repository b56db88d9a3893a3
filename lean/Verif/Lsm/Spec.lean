import Verif.Lsm.Model

/-!
# What a reader of the levelled database relies on

A database is a map from keys to values, written by a list of writes; memory tables, levels,
compactions and sequence numbers are no business of the reader.
-/

namespace Verif.Lsm.Spec

variable {K V : Type} [LinearOrder K]

/-- The writes among what happened, in order: a key with a value, or with none for a deletion. -/
def writes : List (Op K V) → List (K × Option V)
  | [] => []
  | .put k v :: ops => (k, v) :: writes ops
  | _ :: ops => writes ops

/-- Count the writes, and how many there were when a batch was last ended. -/
def tally (a : Nat × Nat) : Op K V → Nat × Nat
  | .put _ _ => (a.1 + 1, a.2)
  | .publish => (a.1, a.1)
  | _ => a

/-- How many of the writes were there when a batch was last ended. -/
def published (ops : List (Op K V)) : Nat := (ops.foldl tally (0, 0)).2

/-- The map after some writes. -/
def mapAfter (w : List (K × Option V)) : K → Option V :=
  w.foldl (fun m p x => if x = p.1 then p.2 else m x) (fun _ => none)

end Verif.Lsm.Spec
