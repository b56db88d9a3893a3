import Verif.Sync.PlanModel

/-!
# The cache of downloaded chunks

Models `syncCache` (`ledger/chain/sync_cache/sync_cache.go`), its writer (`writer.go`) and the parts of its reader that open a chunk and mark it as verified
(`reader.go:28-61`): the list in memory, the index in the database and the files of the directory. One call is one step; `deleteItem` takes the item
from the list under the lock and cleans up after it, which is one step here. Sizes and the `Points` of chunks are left out. Paths are lists of characters. -/

namespace Verif.Sync

abbrev Path := List Char

/-- `cacheItem` (`cache_item.go:16-22`). The number stands for the pointer. `file` is the full path, empty when there is none. -/
structure Item where
  id : Nat
  seg : Seg
  fin : Bool
  verified : Bool
  file : Path
deriving Repr, DecidableEq

/-- What the index keeps of an item (`cache_item.go:34-98`); the key is the first and the last height (`dbKey`, `cache_item.go:24-32`). -/
structure Rec where
  seg : Seg
  fin : Bool
  verified : Bool
  file : Path
deriving Repr, DecidableEq

/-- The cache: items in memory, items that were taken out but to which a writer or reader may still point, the open writers, the index in the order of its keys, the
files of the directory with what is in them, and the next pointer. `used` are the names that files have had; it is not part of the program. -/
structure Cache where
  items : List Item
  gone : List Item
  writers : List Nat
  index : List Rec
  files : List (Path × List UInt8)
  next : Nat
  used : List Path
deriving Repr, DecidableEq

/-- `path.Join` of the directory and a name (`sync_cache.go:336-338`). -/
def join (dir base : Path) : Path := dir ++ '/' :: base

/-- `os.Stat`. -/
def hasFile (dir : Path) (files : List (Path × List UInt8)) (full : Path) : Bool := files.any (fun f => decide (join dir f.1 = full))

/-- `os.Remove`. -/
def rmFile (dir : Path) (files : List (Path × List UInt8)) (full : Path) : List (Path × List UInt8) := files.filter (fun f => decide (join dir f.1 ≠ full))

/-- What is in a file. -/
def getFile (dir : Path) (files : List (Path × List UInt8)) (full : Path) : Option (List UInt8) := (files.find? (fun f => decide (join dir f.1 = full))).map (·.2)

/-- `os.Create`: an empty file, also when there was one. -/
def mkFile (dir : Path) (files : List (Path × List UInt8)) (base : Path) : List (Path × List UInt8) := rmFile dir files (join dir base) ++ [(base, [])]

/-- More bytes at the end of a file; nothing when the file has been removed. -/
def addFile (dir : Path) (files : List (Path × List UInt8)) (full : Path) (bs : List UInt8) : List (Path × List UInt8) :=
  files.map (fun f => if join dir f.1 = full then (f.1, f.2 ++ bs) else f)

/-- The order of the keys. -/
def keyLt (s t : Seg) : Prop := s.lo < t.lo ∨ (s.lo = t.lo ∧ s.hi < t.hi)

instance (s t : Seg) : Decidable (keyLt s t) := by unfold keyLt; infer_instance

/-- `indexDB.Put` (`updateIndex`, `sync_cache.go:174-186`). -/
def putRec : List Rec → Rec → List Rec
  | [], r => [r]
  | q :: l, r => if q.seg.lo = r.seg.lo ∧ q.seg.hi = r.seg.hi then r :: l else if keyLt r.seg q.seg then r :: q :: l else q :: putRec l r

/-- `indexDB.Delete`. -/
def delRec (l : List Rec) (s : Seg) : List Rec := l.filter (fun q => decide (¬ (q.seg.lo = s.lo ∧ q.seg.hi = s.hi)))

/-- `Segment.Equal` (`interfaces/chain.go:77-79`). -/
def segEq (s t : Seg) : Bool := decide (s = t)

/-- `sort.Search` in `checkOverlap` (`sync_cache.go:252-254`): how many items do not start after `hi`; the items are in order. -/
def searchAfter (items : List Item) (hi : Nat) : Nat := (items.takeWhile (fun i => decide (¬ i.seg.lo > hi))).length

/-- `checkOverlap` (`sync_cache.go:251-261`): the place of a new chunk, if it has no block in common with an item. -/
def checkOverlap (items : List Item) (s : Seg) : Option Nat :=
  let n := searchAfter items s.hi
  if n = 0 then some n else
    match items[n - 1]? with
    | some i => if i.seg.hi < s.lo then some n else none
    | none => none

/-- `cleanItem` (`sync_cache.go:307-320`). -/
def cleanItem (dir : Path) (c : Cache) (i : Item) : Cache :=
  { c with index := delRec c.index i.seg, files := if i.file ≠ [] then rmFile dir c.files i.file else c.files }

/-- `deleteItem` (`sync_cache.go:289-305`). -/
def deleteItem (dir : Path) (c : Cache) (i : Item) : Cache :=
  if c.items.any (fun j => decide (j.id = i.id)) then
    cleanItem dir { c with items := c.items.filter (fun j => decide (j.id ≠ i.id)), gone := i :: c.gone } i
  else c

/-- `NewWriter` (`sync_cache.go:200-238`), with the name of the file, which has the time in it, and whether it could be made. -/
def newWriter (dir : Path) (c : Cache) (s : Seg) (base : Path) (ok : Bool) : Cache × Option Nat :=
  match checkOverlap c.items s with
  | none => (c, none)
  | some n =>
    let i : Item := ⟨c.next, s, false, false, []⟩
    let c := { c with items := c.items.take n ++ i :: c.items.drop n, next := c.next + 1 }
    if ok then
      let f := join dir base
      ({ c with
          items := c.items.map (fun j => if j.id = i.id then { j with file := f } else j)
          files := mkFile dir c.files base, writers := i.id :: c.writers, used := base :: c.used }, some i.id)
    else (deleteItem dir c i, none)

/-- The item of a pointer, in the list or not. -/
def lookItem (c : Cache) (id : Nat) : Option Item :=
  match c.items.find? (fun j => decide (j.id = id)) with
  | some i => some i
  | none => c.gone.find? (fun j => decide (j.id = id))

/-- `writer.Write` (`writer.go:13-15`). -/
def writeTo (dir : Path) (c : Cache) (id : Nat) (bs : List UInt8) : Cache :=
  if id ∈ c.writers then
    match lookItem c id with
    | some i => { c with files := addFile dir c.files i.file bs }
    | none => c
  else c

/-- Change an item through its pointer. -/
def setItem (c : Cache) (id : Nat) (f : Item → Item) : Cache :=
  { c with items := c.items.map (fun j => if j.id = id then f j else j), gone := c.gone.map (fun j => if j.id = id then f j else j) }

/-- The record of an item. -/
def Item.toRec (i : Item) : Rec := ⟨i.seg, i.fin, i.verified, i.file⟩

/-- `writer.Close` (`writer.go:17-31`), with whether the file could be closed. -/
def closeWriter (dir : Path) (c : Cache) (id : Nat) (ok : Bool) : Cache :=
  if id ∈ c.writers then
    match lookItem c id with
    | some i =>
      let c := { c with writers := c.writers.filter (fun w => decide (w ≠ id)) }
      if ok then
        let c := setItem c id (fun j => { j with fin := true })
        { c with index := putRec c.index { i with fin := true }.toRec }
      else deleteItem dir c i
    | none => c
  else c

/-- `Delete` (`sync_cache.go:263-273`): the first item with this chunk, also one that is still being written. -/
def deleteSeg (dir : Path) (c : Cache) (s : Seg) : Cache :=
  match c.items.find? (fun i => segEq i.seg s) with
  | some i => deleteItem dir c i
  | none => c

/-- `Reader.Verify` (`reader.go:54-61`), for a reader that `NewReader` gave for this item. -/
def verifyItem (c : Cache) (id : Nat) : Cache :=
  match lookItem c id with
  | some i =>
    if i.fin && !i.verified then
      let c := setItem c id (fun j => { j with verified := true })
      { c with index := putRec c.index { i with verified := true }.toRec }
    else c
  | none => c

/-- The first loop of `loadCaches` (`sync_cache.go:94-103`). -/
def loadLoop (dir : Path) : Cache → List Item → Cache
  | c, [] => c
  | c, i :: l =>
    if hasFile dir c.files i.file && i.fin then loadLoop dir { c with items := c.items ++ [i] } l
    else loadLoop dir (cleanItem dir c i) l

/-- The items that `readIndex` makes (`sync_cache.go:155-169`). The order of the keys is the order of the items, so `sort.Sort` leaves it. -/
def fromIndex : List Rec → Nat → List Item
  | [], _ => []
  | r :: l, n => ⟨n, r.seg, r.fin, r.verified, r.file⟩ :: fromIndex l (n + 1)

/-- `loadCaches` (`sync_cache.go:80-131`) on what is on the disk: items without a file or not complete are cleaned; then every file whose name is not a key of `keepFiles`
is removed. The keys are full paths (`:101`), the names are not (`:123`). -/
def load (dir : Path) (c : Cache) : Cache :=
  let l := loadLoop dir { items := [], gone := [], writers := [], index := c.index, files := c.files, next := c.next + c.index.length, used := c.used } (fromIndex c.index c.next)
  { l with files := l.files.filter (fun f => decide (f.1 ∈ l.items.map (·.file))) }

/-- `Chunks` (`sync_cache.go:322-334`). -/
def chunks (c : Cache) : List Seg := (c.items.filter (·.fin)).map (·.seg)

/-- `NewReader` (`sync_cache.go:188-196`, `reader.go:28-46`): what can be read of a chunk. -/
def newReader (dir : Path) (c : Cache) (s : Seg) : Option (List UInt8) :=
  match c.items.find? (fun i => segEq i.seg s) with
  | some i => if i.fin then getFile dir c.files i.file else none
  | none => none

/-- The calls. -/
inductive CacheOp where
  | open (s : Seg) (base : Path) (ok : Bool)
  | write (id : Nat) (bs : List UInt8)
  | close (id : Nat) (ok : Bool)
  | delete (s : Seg)
  | verify (id : Nat)
  | restart
deriving Repr, DecidableEq

def stepCache (dir : Path) (c : Cache) : CacheOp → Cache
  | .open s base ok => (newWriter dir c s base ok).1
  | .write id bs => writeTo dir c id bs
  | .close id ok => closeWriter dir c id ok
  | .delete s => deleteSeg dir c s
  | .verify id => verifyItem c id
  | .restart => load dir c

/-- A new cache in an empty directory. -/
def emptyCache : Cache := ⟨[], [], [], [], [], 0, []⟩

end Verif.Sync
