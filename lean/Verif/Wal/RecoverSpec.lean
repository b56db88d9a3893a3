import Verif.Wal.RecoverModel

/-! # Coming up after a crash: what is claimed (C107) -/

namespace Verif.Wal.Spec
open Verif.Bytes Verif.Store

/-- The value of a key after some changes, one after the other, none before them: `none` if no change is of this key, else the last change. -/
def after : List Rec → Bytes → Option (Option Bytes)
  | [], _ => none
  | r :: rs, k =>
    match after rs k with
    | some v => some v
    | none => if r.key = k then some r.val else none

/-- The database after some writes. -/
def written (B : Nat) (crc : List Nat → Nat) (seq : Nat) (ws : List (List Batch)) : DB := ws.foldl (DB.write B crc) ⟨seq, [], {}⟩

/-- The numbers do not overflow and no write is larger than 4 GiB. -/
def Small (seq : Nat) (ws : List (List Batch)) : Prop :=
  seq + (ws.flatten.flatten).length + 1 < 2 ^ 64 ∧ ∀ w ∈ ws, w.flatten.length < 2 ^ 32 ∧ (Batch.encode w.flatten).length ≤ 2 ^ 32

end Verif.Wal.Spec
