import Verif.Tab.MergeModel

/-!
# The iterator over a level, and the iterators that the database merges

`common/db/xleveldb/iterator/array_iter.go`, `table.go` (`tFiles`), `version.go` (`getIterators`),
`db_iter.go` (`newRawIterator`).  Release, the cache of open tables and errors of the file system are
left out.
-/

namespace Verif.Tab
open Verif.Bytes Verif.Store

variable {O : Type} [LinearOrder O]

/-- `table.go:22-28` (`tFile`), opened: its reader, its smallest and its greatest key. -/
structure TF where
  r : TR
  imin : Bytes
  imax : Bytes

/-- `table.go:137-143` (`searchMin`). -/
def searchMin (ord : Bytes → O) (tf : List TF) (k : Bytes) : Nat :=
  Snap.search tf.length (fun i => (tf[i]?).any (fun t => decide (ord k ≤ ord t.imin)))

/-- `table.go:145-151` (`searchMax`). -/
def searchMax (ord : Bytes → O) (tf : List TF) (k : Bytes) : Nat :=
  Snap.search tf.length (fun i => (tf[i]?).any (fun t => decide (ord k ≤ ord t.imax)))

/-- The tables that an iterator with bounds is over; `none` for a panic, as the upper index is less than
the lower.  `table.go:230-242`; no bounds are the same as a range without ends. -/
def levelCut (ord : Bytes → O) (tf : List TF) (start limit : Option Bytes) : Option (List TF) :=
  let a := (start.map (searchMax ord tf)).getD 0
  let b := (limit.map (searchMin ord tf)).getD tf.length
  if b < a then none else some ((tf.take b).drop a)

/-- `array_iter.go:41-123` (`basicArrayIterator`): the state is the position. -/
def arrKind (n : Nat) (search : Bytes → Nat) : Kind Int where
  ask i a :=
    match a with
    | .first => if n = 0 then (-1, false) else (0, true)
    | .last => if n = 0 then (0, false) else ((n : Int) - 1, true)
    | .seek k => if n = 0 then (0, false) else ((search k : Int), decide (search k < n))
    | .next => if (n : Int) ≤ i + 1 then ((n : Int), false) else (i + 1, true)
    | .prev => if i - 1 < 0 then (-1, false) else (i - 1, true)
  shows _ := none
  bad _ := false

/-- Iterators over tables that may not have been opened. -/
def optKind : Kind (Option (IEnv O × II)) where
  ask x a := match x with | some y => (some (tabKind.ask y a).1, (tabKind.ask y a).2) | none => (none, false)
  shows x := x.bind tabKind.shows
  bad x := match x with | some y => tabKind.bad y | none => true

/-- `table.go:406-414` (`newIterator`). -/
def TF.iter (o : Opts O) (t : TF) (start limit : Option Bytes) (strict : Bool) : Option (IEnv O × II) :=
  (t.r.iter o start limit strict).map (fun v => (v, v.new))

/-- An iterator over a level.  `table.go:252-270` (`tFilesArrayIndexer`), `array_iter.go:157-167`; the
bounds are handed on for the first and the last table only. -/
def levelEnv (o : Opts O) (tf : List TF) (start limit : Option Bytes) (strict : Bool) : GEnv O Int (Option (IEnv O × II)) where
  ord := o.ord
  idx := arrKind tf.length (searchMax o.ord tf)
  dat := optKind
  get i := (tf[i.toNat]?).bind (fun t => if i = 0 ∨ i = (tf.length : Int) - 1 then t.iter o start limit strict else t.iter o none none strict)
  fuel := tf.length
  strict := strict

abbrev LI (O : Type) := GI Int (Option (IEnv O × II))

/-- `array_iter.go:178-185` (`NewArrayIndexer`). -/
def LI.new : LI O := ⟨-1, none, false⟩

/-- Iterators over levels, as a kind. -/
def levelKind : Kind (GEnv O Int (Option (IEnv O × II)) × LI O) where
  ask x a := ((x.1, (x.1.ask x.2 a).1), (x.1.ask x.2 a).2)
  shows x := x.1.shows x.2
  bad x := x.2.err

/-- What the database merges: iterators over memory tables, over tables and over levels. -/
inductive Src (O : Type) where
  | mem (x : List (Bytes × Bytes) × Place)
  | table (x : Option (IEnv O × II))
  | level (x : GEnv O Int (Option (IEnv O × II)) × LI O)

/-- A memory table's iterator is taken to be a cursor, which area `Mem` shows. -/
def srcKind (ord : Bytes → O) : Kind (Src O) where
  ask s a :=
    match s with
    | .mem x => (.mem ((listKind ord).ask x a).1, ((listKind ord).ask x a).2)
    | .table x => (.table (optKind.ask x a).1, (optKind.ask x a).2)
    | .level x => (.level (levelKind.ask x a).1, (levelKind.ask x a).2)
  shows s :=
    match s with
    | .mem x => (listKind ord).shows x
    | .table x => optKind.shows x
    | .level x => levelKind.shows x
  bad s :=
    match s with
    | .mem x => (listKind ord).bad x
    | .table x => optKind.bad x
    | .level x => levelKind.bad x

/-- `version.go:256-269` (`getIterators`), the levels from the first on; empty ones are passed over. -/
def levelIters (o : Opts O) (start limit : Option Bytes) (strict : Bool) : List (List TF) → Option (List (Src O))
  | [] => some []
  | tf :: levels =>
    if tf.length = 0 then levelIters o start limit strict levels
    else
      match levelCut o.ord tf start limit with
      | none => none
      | some c => (levelIters o start limit strict levels).map (fun l => .level (levelEnv o c start limit strict, LI.new) :: l)

/-- `db_iter.go:37-64` (`newRawIterator`): the memory tables, level zero, the other levels. -/
def rawIters (o : Opts O) (mems : List (List (Bytes × Bytes))) (level0 : List TF) (levels : List (List TF)) (start limit : Option Bytes) (strict : Bool) :
    Option (List (Src O)) :=
  (levelIters o start limit strict levels).map (fun l =>
    mems.map (fun m => .mem (between o.ord start limit m, .before)) ++ (level0.map (fun t => .table (t.iter o start limit strict)) ++ l))

end Verif.Tab
