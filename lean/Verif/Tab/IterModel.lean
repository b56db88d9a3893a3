import Verif.Tab.TableModel
import Verif.Tab.Spec

/-!
# The iterator over a table

`common/db/xleveldb/iterator/indexed_iter.go` over `indexIter` of `table/reader.go`: an iterator over the
index block gives iterators over the data blocks.  Release and callbacks are left out.  All errors are
those of corrupt data.
-/

namespace Verif.Tab
open Verif.Bytes Verif.Store

variable {O : Type} [LinearOrder O]

/-- Iterators of some kind: what a call does, the entry shown, and whether there is an error. -/
structure Kind (I : Type) where
  ask : I → Ask → I × Bool
  shows : I → Option (Bytes × Bytes)
  bad : I → Bool

/-! ### The indexed iterator -/

/-- An indexed iterator: the order of keys, the iterator of the index, the data iterators, how the index
gives one, more than the number of entries of the index, and whether corrupt data stop the iterator. -/
structure GEnv (O Ix D : Type) where
  ord : Bytes → O
  idx : Kind Ix
  dat : Kind D
  get : Ix → D
  fuel : Nat
  strict : Bool

variable {Ix D : Type}

/-- `indexed_iter.go:24-33`. -/
structure GI (Ix D : Type) where
  index : Ix
  data : Option D
  err : Bool

/-- `indexed_iter.go:58-69` (`dataErr`): an error that stops the iterator. -/
def GEnv.dataErr (v : GEnv O Ix D) (d : D) : Bool := v.dat.bad d && v.strict

/-- `indexed_iter.go:155-161`: on to the next block that has an entry.  `Next` calls itself; the number of
calls is bounded by the number of entries of the index. -/
def GEnv.nextGo (v : GEnv O Ix D) : Nat → Ix → GI Ix D × Bool
  | 0, i => (⟨i, none, false⟩, false)
  | f + 1, i =>
    let j := v.idx.ask i .next
    if j.2 = false then (⟨j.1, none, v.idx.bad j.1⟩, false)
    else
      let d := v.dat.ask (v.get j.1) .next
      if d.2 = true then (⟨j.1, some d.1, false⟩, true)
      else if v.dataErr d.1 = true then (⟨j.1, some d.1, true⟩, false)
      else v.nextGo f j.1

/-- `indexed_iter.go:181-193`. -/
def GEnv.prevGo (v : GEnv O Ix D) : Nat → Ix → GI Ix D × Bool
  | 0, i => (⟨i, none, false⟩, false)
  | f + 1, i =>
    let j := v.idx.ask i .prev
    if j.2 = false then (⟨j.1, none, v.idx.bad j.1⟩, false)
    else
      let d := v.dat.ask (v.get j.1) .last
      if d.2 = true then (⟨j.1, some d.1, false⟩, true)
      else if v.dataErr d.1 = true then (⟨j.1, some d.1, true⟩, false)
      else v.prevGo f j.1

/-- `indexed_iter.go:140-164` (`Next`). -/
def GEnv.next (v : GEnv O Ix D) (s : GI Ix D) : GI Ix D × Bool :=
  if s.err = true then (s, false)
  else
    match s.data with
    | none => v.nextGo (v.fuel + 1) s.index
    | some d =>
      let d' := v.dat.ask d .next
      if d'.2 = true then (⟨s.index, some d'.1, false⟩, true)
      else if v.dataErr d'.1 = true then (⟨s.index, some d'.1, true⟩, false)
      else v.nextGo (v.fuel + 1) s.index

/-- `indexed_iter.go:166-196` (`Prev`). -/
def GEnv.prev (v : GEnv O Ix D) (s : GI Ix D) : GI Ix D × Bool :=
  if s.err = true then (s, false)
  else
    match s.data with
    | none => v.prevGo (v.fuel + 1) s.index
    | some d =>
      let d' := v.dat.ask d .prev
      if d'.2 = true then (⟨s.index, some d'.1, false⟩, true)
      else if v.dataErr d'.1 = true then (⟨s.index, some d'.1, true⟩, false)
      else v.prevGo (v.fuel + 1) s.index

/-- `indexed_iter.go:75-90` (`First`). -/
def GEnv.first (v : GEnv O Ix D) (s : GI Ix D) : GI Ix D × Bool :=
  if s.err = true then (s, false)
  else
    let j := v.idx.ask s.index .first
    if j.2 = false then (⟨j.1, none, v.idx.bad j.1⟩, false)
    else v.next ⟨j.1, some (v.get j.1), false⟩

/-- `indexed_iter.go:92-114` (`Last`). -/
def GEnv.last (v : GEnv O Ix D) (s : GI Ix D) : GI Ix D × Bool :=
  if s.err = true then (s, false)
  else
    let j := v.idx.ask s.index .last
    if j.2 = false then (⟨j.1, none, v.idx.bad j.1⟩, false)
    else
      let d := v.dat.ask (v.get j.1) .last
      if d.2 = true then (⟨j.1, some d.1, false⟩, true)
      else if v.dataErr d.1 = true then (⟨j.1, some d.1, true⟩, false)
      else v.prev ⟨j.1, none, false⟩

/-- `indexed_iter.go:116-138` (`Seek`). -/
def GEnv.seek (v : GEnv O Ix D) (s : GI Ix D) (k : Bytes) : GI Ix D × Bool :=
  if s.err = true then (s, false)
  else
    let j := v.idx.ask s.index (.seek k)
    if j.2 = false then (⟨j.1, none, v.idx.bad j.1⟩, false)
    else
      let d := v.dat.ask (v.get j.1) (.seek k)
      if d.2 = true then (⟨j.1, some d.1, false⟩, true)
      else if v.dataErr d.1 = true then (⟨j.1, some d.1, true⟩, false)
      else v.next ⟨j.1, none, false⟩

/-- `indexed_iter.go:71-73`, `198-210` (`Valid`, `Key`, `Value`). -/
def GEnv.shows (v : GEnv O Ix D) (s : GI Ix D) : Option (Bytes × Bytes) := s.data.bind v.dat.shows

/-- A call. -/
def GEnv.ask (v : GEnv O Ix D) (s : GI Ix D) : Ask → GI Ix D × Bool
  | .first => v.first s
  | .last => v.last s
  | .next => v.next s
  | .prev => v.prev s
  | .seek k => v.seek s k

/-- A run: whether there is an error, the answer, and what is shown. -/
def GEnv.asks (v : GEnv O Ix D) : GI Ix D → List Ask → List (Bool × Bool × Option (Bytes × Bytes))
  | _, [] => []
  | s, a :: as => ((v.ask s a).1.err, (v.ask s a).2, v.shows (v.ask s a).1) :: v.asks (v.ask s a).1 as


/-! ### The index of a table -/

/-- `reader.go:174-182` (`isFirst`): the stack holds the offset of the restart point and the entries
before the current one. -/
def BI.isFirst (i : BI) : Bool :=
  match i.dir with
  | .fwd => decide (i.prevOffset = i.offsetRealStart)
  | .back => decide (i.stack.map (fun x => x.2.length) = some 0 ∧ i.restartIndex = i.riStart)
  | _ => false

/-- `reader.go:184-190` (`isLast`). -/
def BI.isLast (i : BI) : Bool :=
  match i.dir with
  | .fwd => decide (i.offset = i.offsetLimit)
  | .back => decide (i.offset = i.offsetLimit)
  | _ => false

/-- What the iterator stands on: `reader` with its index block and the bounds. -/
structure IEnv (O : Type) where
  o : Opts O
  r : TR
  ib : Block
  start : Option Bytes
  limit : Option Bytes
  strict : Bool

/-- A data iterator: a block and an iterator over it. -/
abbrev Dat := Block × BI

/-- An iterator that only has an error. -/
def Dat.broken : Dat := (Block.ofBytes [], { BI.whole (Block.ofBytes []) with bad := true })

/-- `reader.go:493-508` (`Get`), `reader.go:764-770`: the bounds are handed on for the first and the last
block only.  A range without bounds is the same as no range.  `Get` gives nil for an index iterator that
stands on no entry, which is not asked. -/
def IEnv.get (v : IEnv O) (i : BI) : Dat :=
  match decH i.value with
  | none => Dat.broken
  | some (h, _) =>
    match v.r.dataBlock v.o h with
    | none => Dat.broken
    | some b =>
      if (i.isFirst || i.isLast) = true then (b, BI.slice v.o.ord b v.start v.limit false)
      else (b, BI.slice v.o.ord b none none false)

/-- A call of a data iterator. -/
def Dat.ask (v : IEnv O) (d : Dat) (a : Ask) : Dat × Bool := ((d.1, (d.2.ask v.o.ord d.1 a).1), (d.2.ask v.o.ord d.1 a).2)

/-- The iterator over a table is an indexed iterator. -/
def IEnv.gen (v : IEnv O) : GEnv O BI Dat where
  ord := v.o.ord
  idx := ⟨fun i a => i.ask v.o.ord v.ib a, BI.shows, fun i => i.bad⟩
  dat := ⟨fun d a => d.ask v a, fun d => d.2.shows, fun d => d.2.bad⟩
  get := v.get
  fuel := v.ib.fuel
  strict := v.strict

abbrev II := GI BI Dat

/-- `reader.go:786-805` (`NewIterator`), `indexed_iter.go:240-242`. -/
def IEnv.new (v : IEnv O) : II := ⟨BI.slice v.o.ord v.ib v.start v.limit true, none, false⟩

/-- A call. -/
def IEnv.ask (v : IEnv O) (s : II) (a : Ask) : II × Bool := v.gen.ask s a

/-- A run. -/
def IEnv.asks (v : IEnv O) (s : II) (as : List Ask) : List (Bool × Bool × Option (Bytes × Bytes)) := v.gen.asks s as

/-- `reader.go:786-805`: an iterator over a table; `none` if the index cannot be read. -/
def TR.iter (o : Opts O) (r : TR) (start limit : Option Bytes) (strict : Bool) : Option (IEnv O) :=
  (readRaw o true r.file r.indexH).map (fun d => ⟨o, r, Block.ofBytes d, start, limit, strict⟩)

end Verif.Tab
