import Verif.Tab.Spec
import Verif.Tab.IterModel

/-!
# The merged iterator

`common/db/xleveldb/iterator/merged_iter.go`.  The iterators merged are given by what they do when asked.
Release and callbacks are left out; all errors are those of corrupt data.
-/

namespace Verif.Tab
open Verif.Bytes

variable {O : Type} [LinearOrder O]

/-- What is merged: the comparer, the kind of the iterators, and whether corrupt data stop the iterator. -/
structure MEnv (O I : Type) where
  ord : Bytes → O
  kind : Kind I
  strict : Bool

/-- `merged_iter.go:25-36`; the iterators with their keys. -/
structure MI (I : Type) where
  ins : List (I × Option Bytes)
  index : Nat
  dir : Dir
  err : Bool

variable {I : Type}

/-- `merged_iter.go:45-56` (`iterErr`). -/
def MEnv.stops (v : MEnv O I) (i : I) : Bool := v.kind.bad i && v.strict

def MEnv.key (v : MEnv O I) (i : I) : Option Bytes := (v.kind.shows i).map Prod.fst

/-- The loops over the iterators: those for which `f` gives a call are moved and their keys noted; an
error ends the loop.  `merged_iter.go:70-79`, `92-101`, `114-123`, `211-224`, and, for one iterator,
`166-175`, `227-236`. -/
def MEnv.sweep (v : MEnv O I) (f : Nat → I → Option (I × Bool)) : Nat → List (I × Option Bytes) → List (I × Option Bytes) × Bool
  | _, [] => ([], false)
  | x, p :: l =>
    match f x p.1 with
    | none => (p :: (v.sweep f (x + 1) l).1, (v.sweep f (x + 1) l).2)
    | some r =>
      if r.2 = true then ((r.1, v.key r.1) :: (v.sweep f (x + 1) l).1, (v.sweep f (x + 1) l).2)
      else if v.stops r.1 = true then ((r.1, p.2) :: l, true)
      else ((r.1, none) :: (v.sweep f (x + 1) l).1, (v.sweep f (x + 1) l).2)

/-- The loop for the best key.  `merged_iter.go:133-138`, `184-189`. -/
def pick (better : Bytes → Bytes → Bool) : Nat → List (Option Bytes) → Option Bytes × Nat → Option Bytes × Nat
  | _, [], a => a
  | x, none :: l, a => pick better (x + 1) l a
  | x, some t :: l, a =>
    if (a.1.all (fun k => better t k)) = true then pick better (x + 1) l (some t, x) else pick better (x + 1) l a

def MI.keyAt (s : MI I) : Option Bytes := (s.ins[s.index]?).bind (fun p => p.2)

/-- `merged_iter.go:128-145` (`next`). -/
def MEnv.next0 (v : MEnv O I) (s : MI I) : MI I × Bool :=
  let a := pick (fun t k => decide (v.ord t < v.ord k)) 0 (s.ins.map Prod.snd) (if s.dir = .fwd then s.keyAt else none, s.index)
  if a.1 = none then ({ s with index := a.2, dir := .eoi }, false) else ({ s with index := a.2, dir := .fwd }, true)

/-- `merged_iter.go:179-196` (`prev`). -/
def MEnv.prev0 (v : MEnv O I) (s : MI I) : MI I × Bool :=
  let a := pick (fun t k => decide (v.ord k < v.ord t)) 0 (s.ins.map Prod.snd) (if s.dir = .back then s.keyAt else none, s.index)
  if a.1 = none then ({ s with index := a.2, dir := .soi }, false) else ({ s with index := a.2, dir := .back }, true)

/-- `merged_iter.go:62-82` (`First`). -/
def MEnv.first (v : MEnv O I) (s : MI I) : MI I × Bool :=
  if s.err = true then (s, false)
  else
    let r := v.sweep (fun _ i => some (v.kind.ask i .first)) 0 s.ins
    if r.2 = true then ({ s with ins := r.1, err := true }, false) else v.next0 { s with ins := r.1, dir := .soi }

/-- `merged_iter.go:84-104` (`Last`). -/
def MEnv.last (v : MEnv O I) (s : MI I) : MI I × Bool :=
  if s.err = true then (s, false)
  else
    let r := v.sweep (fun _ i => some (v.kind.ask i .last)) 0 s.ins
    if r.2 = true then ({ s with ins := r.1, err := true }, false) else v.prev0 { s with ins := r.1, dir := .eoi }

/-- `merged_iter.go:106-126` (`Seek`). -/
def MEnv.seek (v : MEnv O I) (s : MI I) (k : Bytes) : MI I × Bool :=
  if s.err = true then (s, false)
  else
    let r := v.sweep (fun _ i => some (v.kind.ask i (.seek k))) 0 s.ins
    if r.2 = true then ({ s with ins := r.1, err := true }, false) else v.next0 { s with ins := r.1, dir := .soi }

/-- `merged_iter.go:166-176`. -/
def MEnv.step (v : MEnv O I) (s : MI I) : MI I × Bool :=
  let r := v.sweep (fun x i => if x = s.index then some (v.kind.ask i .next) else none) 0 s.ins
  if r.2 = true then ({ s with ins := r.1, err := true }, false) else v.next0 { s with ins := r.1 }

/-- `merged_iter.go:227-237`. -/
def MEnv.back (v : MEnv O I) (s : MI I) : MI I × Bool :=
  let r := v.sweep (fun x i => if x = s.index then some (v.kind.ask i .prev) else none) 0 s.ins
  if r.2 = true then ({ s with ins := r.1, err := true }, false) else v.prev0 { s with ins := r.1 }

/-- `merged_iter.go:147-177` (`Next`). -/
def MEnv.next (v : MEnv O I) (s : MI I) : MI I × Bool :=
  if s.dir = .eoi ∨ s.err = true then (s, false)
  else if s.dir = .soi then v.first s
  else if s.dir = .back then
    let r := v.seek s (s.keyAt.getD [])
    if r.2 = true then v.step r.1 else r
  else v.step s

/-- The call by which another iterator turns back: the last entry before the key.
`merged_iter.go:215-217`. -/
def Kind.turn (kind : Kind I) (k : Bytes) (i : I) : I × Bool :=
  let r := kind.ask i (.seek k)
  if r.2 = true then kind.ask r.1 .prev else kind.ask r.1 .last

/-- `merged_iter.go:198-238` (`Prev`). -/
def MEnv.prev (v : MEnv O I) (s : MI I) : MI I × Bool :=
  if s.dir = .soi ∨ s.err = true then (s, false)
  else if s.dir = .eoi then v.last s
  else if s.dir = .fwd then
    let r := v.sweep (fun x i => if x = s.index then none else some (v.kind.turn (s.keyAt.getD []) i)) 0 s.ins
    if r.2 = true then ({ s with ins := r.1, err := true }, false) else v.back { s with ins := r.1 }
  else v.back s

/-- `merged_iter.go:58-60`, `240-252` (`Valid`, `Key`, `Value`). -/
def MEnv.shows (v : MEnv O I) (s : MI I) : Option (Bytes × Bytes) :=
  if s.err = true ∨ s.dir = .soi ∨ s.dir = .eoi then none
  else (s.ins[s.index]?).bind (fun p => p.2.bind (fun k => (v.kind.shows p.1).map (fun e => (k, e.2))))

/-- A call. -/
def MEnv.ask (v : MEnv O I) (s : MI I) : Ask → MI I × Bool
  | .first => v.first s
  | .last => v.last s
  | .next => v.next s
  | .prev => v.prev s
  | .seek k => v.seek s k

/-- A run. -/
def MEnv.asks (v : MEnv O I) : MI I → List Ask → List (Bool × Bool × Option (Bytes × Bytes))
  | _, [] => []
  | s, a :: as => ((v.ask s a).1.err, (v.ask s a).2, v.shows (v.ask s a).1) :: v.asks (v.ask s a).1 as

/-- Iterators over tables, as a kind. -/
def tabKind : Kind (IEnv O × II) where
  ask x a := ((x.1, (x.1.ask x.2 a).1), (x.1.ask x.2 a).2)
  shows x := x.1.gen.shows x.2
  bad x := x.2.err

/-- An iterator over a list, as a kind: what the memory table is shown to be. -/
def listKind (ord : Bytes → O) : Kind (List (Bytes × Bytes) × Place) where
  ask x a := ((x.1, goes ord x.1 x.2 a), (sees x.1 (goes ord x.1 x.2 a)).2.1)
  shows x := (sees x.1 x.2).2.2
  bad _ := false

/-- `merged_iter.go:297-304` (`NewMergedIterator`). -/
def MI.new (is : List I) : MI I := ⟨is.map (fun i => (i, none)), 0, .soi, false⟩

end Verif.Tab
