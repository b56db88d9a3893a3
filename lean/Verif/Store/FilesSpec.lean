import Verif.Store.FilesModel

/-!
# Block files: what they should be

To a user the block files are one string of bytes: what is written goes to its end, a rollback cuts it, a location is a
position in it.
-/

namespace Verif.Store
open Verif.Bytes

/-- The position of a location, for files of `S` bytes numbered from 1. -/
def pos (S : Nat) (l : Loc) : Nat := (l.file - 1) * S + l.off

/-- A location in some file. -/
def Valid (S : Nat) (l : Loc) : Prop := 1 ≤ l.file ∧ l.off ≤ S

/-- The part of the string that belongs to file `f`. -/
def chunk (S : Nat) (L : Bytes) (f : Nat) : Bytes := (L.drop ((f - 1) * S)).take S

/-- The files on disk hold (at least) the string `Q` at their beginning. -/
def Has (S : Nat) (files : Files) (Q : Bytes) : Prop := ∀ f, 1 ≤ f → chunk S Q f <+: (Table.get f files).getD []

/-- The files on disk end at `loc` at the latest, none is too long. -/
def Ends (S : Nat) (files : Files) (loc : Loc) : Prop :=
  Table.get 0 files = none ∧ (∀ g, loc.file < g → Table.get g files = none) ∧
  ((Table.get loc.file files).getD []).length ≤ loc.off ∧ ∀ g, ((Table.get g files).getD []).length ≤ S

end Verif.Store
