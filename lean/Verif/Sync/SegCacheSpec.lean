import Verif.Sync.SegCacheModel
import Verif.Sync.PlanSpec

/-!
# What a cache of chunks should do

Without files and index: a list of chunks with their bytes. -/

namespace Verif.Sync

/-- A chunk of the cache. -/
structure Entry where
  id : Nat
  seg : Seg
  fin : Bool
  data : List UInt8
deriving Repr, DecidableEq

/-- The entries, and the number of the next writer. -/
structure Shelf where
  entries : List Entry
  next : Nat
deriving Repr, DecidableEq

/-- Put the chunk where it belongs by height. -/
def place (e : Entry) : List Entry → List Entry
  | [] => [e]
  | f :: l => if e.seg.hi < f.seg.lo then e :: f :: l else f :: place e l

/-- Two ranges of heights have no height in common. -/
def Apart (s t : Seg) : Prop := s.hi < t.lo ∨ t.hi < s.lo

instance (s t : Seg) : Decidable (Apart s t) := by unfold Apart; infer_instance

/-- The calls: a chunk that overlaps another is refused; bytes are collected until the writer is closed; a chunk stays until it is deleted. -/
def shelfStep (a : Shelf) : CacheOp → Shelf
  | .open s _ ok =>
    if ∀ e ∈ a.entries, Apart e.seg s then ⟨if ok then place ⟨a.next, s, false, []⟩ a.entries else a.entries, a.next + 1⟩ else a
  | .write id bs => { a with entries := a.entries.map (fun e => if e.id = id ∧ e.fin = false then { e with data := e.data ++ bs } else e) }
  | .close id ok =>
    if ok then { a with entries := a.entries.map (fun e => if e.id = id then { e with fin := true } else e) }
    else { a with entries := a.entries.filter (fun e => decide (¬ (e.id = id ∧ e.fin = false))) }
  | .delete s => { a with entries := a.entries.filter (fun e => decide (e.seg ≠ s)) }
  | .verify _ => a
  | .restart => a

/-- The chunks that are complete. -/
def shelfChunks (a : Shelf) : List Seg := (a.entries.filter (·.fin)).map (·.seg)

/-- What is read of a chunk. -/
def shelfRead (a : Shelf) (s : Seg) : Option (List UInt8) := (a.entries.find? (fun e => decide (e.seg = s ∧ e.fin = true))).map (·.data)

/-- What callers keep to: chunks with blocks, and names of files that were not used before and have no slash in them (the name has the first and the
last height and the time in it). -/
def Fair (c : Cache) : CacheOp → Prop
  | .open s base _ => 1 ≤ s.lo ∧ s.lo ≤ s.hi ∧ base ∉ c.used ∧ '/' ∉ base
  | _ => True

instance (c : Cache) (o : CacheOp) : Decidable (Fair c o) := by cases o <;> unfold Fair <;> infer_instance

/-- What callers keep to along a list of calls. -/
def FairAll (dir : Path) : Cache → List CacheOp → Prop
  | _, [] => True
  | c, o :: l => Fair c o ∧ FairAll dir (stepCache dir c o) l

instance : ∀ (dir : Path) (c : Cache) (l : List CacheOp), Decidable (FairAll dir c l)
  | _, _, [] => .isTrue trivial
  | dir, c, o :: l => @instDecidableAnd _ _ (inferInstance) (instDecidableFairAll dir (stepCache dir c o) l)

end Verif.Sync
