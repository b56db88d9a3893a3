import Verif.Base.Bytes
import Verif.Base.Table

/-!
# The block files

Model of `ledger/chain/file_manager`: all blocks are written, one after the other, to files of a fixed size. The newest files
are also held in memory; what is in memory reaches the disk when the ledger is flushed.

Simplifications, all stated where they are made: one caller at a time (the mutexes of the code are not modelled), file handles
are open when the code expects them to be, a write to a file does not fail.
-/

namespace Verif.Store
open Verif.Bytes

/-- `Location` (file_manager/location.go:9-12). -/
structure Loc where
  file : Nat
  off : Nat
deriving DecidableEq, Repr

/-- `location.Compare(a) < 0` (location.go:21-35). -/
def Loc.lt (l a : Loc) : Bool :=
  if l.file < a.file then true
  else if a.file < l.file then false
  else decide (l.off < a.off)

/-- The files on disk: number and content. The names are `f1`, `f2`, … (fd_manager.go:392-404). -/
abbrev Files := Table Nat Bytes

/-- `os.Remove`; removing a file that is not there is no error (fd_manager.go:188-192). -/
def Files.remove (f : Nat) (fs : Files) : Files := fs.filter (fun x => x.1 != f)

/-- One change of the disk. -/
inductive DiskOp where
  | create (f : Nat)
  | write (f off : Nat) (bs : Bytes)
  | remove (f : Nat)
  | truncate (f off : Nat)
deriving DecidableEq, Repr

/-- Content after writing `bs` at `off`; a gap is filled with zeros. -/
def over (d : Bytes) (off : Nat) (bs : Bytes) : Bytes :=
  d.take off ++ List.replicate (off - d.length) 0 ++ bs ++ d.drop (off + bs.length)

/-- What an operation does: `os.Create` empties a file that exists (fd_manager.go:380-390), `Seek` and `Write` (fd.go:107-116),
`os.Remove`, `Truncate` (fd_manager.go:187-207; nothing happens to a missing file). -/
def DiskOp.apply (fs : Files) : DiskOp → Files
  | .create f => Table.put f [] fs
  | .write f off bs => Table.put f (over ((Table.get f fs).getD []) off bs) fs
  | .remove f => fs.remove f
  | .truncate f off =>
    match Table.get f fs with
    | none => fs
    | some d => Table.put f (d.take off ++ List.replicate (off - d.length) 0) fs

def applyAll (fs : Files) (ops : List DiskOp) : Files := ops.foldl DiskOp.apply fs

/-- `fileCacheItem` (fd_manager.go:17-27): a file held in memory. `data` is `Buffer[:BufferLen]`, `writer` says whether
`FileWriter` is set. -/
structure Item where
  id : Nat
  data : Bytes
  writer : Bool
deriving DecidableEq, Repr

/-- `FileManager` and `fdManager`: `cache` is `fileCache` from front to back (`fileFdCache` holds the same items by number),
the file being written is the last one; `next` and `prev` are `nextFlushStartLocation` and `prevFlushLocation`. -/
structure FM where
  cache : List Item
  next : Loc
  prev : Loc
deriving DecidableEq, Repr

/-- `LatestLocation` (fd_manager.go:85-88). -/
def FM.latest (fm : FM) : Loc :=
  match fm.cache.getLast? with
  | some it => ⟨it.id, it.data.length⟩
  | none => ⟨0, 0⟩

/-- The loop of `resetWriteFd` that removes stale files (fd_manager.go:286-294). -/
def dropStale (cap nextFile : Nat) : List Item → List Item
  | [] => []
  | it :: rest => if cap < rest.length + 1 ∧ it.id < nextFile then dropStale cap nextFile rest else it :: rest

/-- The oldest files leave the memory, if they have been flushed (fd_manager.go:281-305). The code reuses the item that leaves
for the new file. -/
def evict (cap nextFile : Nat) (c : List Item) : List Item :=
  match dropStale cap nextFile c with
  | [] => []
  | it :: rest => if cap ≤ rest.length + 1 ∧ it.id < nextFile then rest else it :: rest

/-- `resetWriteFd` when there is no file being written (fd_manager.go:243-348): go on with the file if it is in memory (it is
then the last one: see `FM.deleteTo`), otherwise read its beginning from disk. `none` is an error. The code would show old bytes
of the buffer if the file in memory were shorter than `loc.off`; it never is. -/
def FM.openAt (cap : Nat) (files : Files) (fm : FM) (loc : Loc) : Option FM :=
  if (fm.cache.getLast?.map (·.id)) = some loc.file then
    some { fm with cache := fm.cache.dropLast ++ (fm.cache.getLast?.map (fun it => { it with data := it.data.take loc.off })).toList }
  else if 0 < loc.off then
    match Table.get loc.file files with
    | none => none
    | some d =>
      if d.length < loc.off then none
      else some { fm with cache := evict cap fm.next.file fm.cache ++ [⟨loc.file, d.take loc.off, true⟩] }
  else some { fm with cache := evict cap fm.next.file fm.cache ++ [⟨loc.file, [], false⟩] }

/-- `CreateNextFd` (fd_manager.go:212-228). -/
def FM.createNext (cap : Nat) (files : Files) (fm : FM) : Option FM := fm.openAt cap files ⟨fm.latest.file + 1, 0⟩

/-- `fileDescription.Write` on the file being written, with the count it returns (fd.go:52-80). -/
def FM.fill (S : Nat) (fm : FM) (buf : Bytes) : FM × Nat :=
  match fm.cache.getLast? with
  | none => (fm, 0)
  | some it =>
    if S ≤ it.data.length then (fm, 0)
    else ({ fm with cache := fm.cache.dropLast ++ [{ it with data := it.data ++ buf.take (S - it.data.length) }] },
      min (S - it.data.length) buf.length)

/-- `FileManager.Write` and its loop (file_manager.go:57-75, 316-333). Each round but the first fills at least one byte, so the
fuel `buf.length + 1` is enough. -/
def FM.writeLoop (S cap : Nat) (files : Files) : Nat → FM → Bytes → Option FM
  | 0, fm, buf => if buf = [] then some fm else none
  | n + 1, fm, buf =>
    if buf = [] then some fm
    else
      match fm.fill S buf with
      | (fm', count) =>
        if count < buf.length then
          match fm'.createNext cap files with
          | none => none
          | some fm'' => FM.writeLoop S cap files n fm'' (buf.drop count)
        else some fm'

/-- `FileManager.Write`: the location where the data starts, and the new state. -/
def FM.write (S cap : Nat) (files : Files) (fm : FM) (buf : Bytes) : Option (Loc × FM) :=
  (fm.writeLoop S cap files (buf.length + 1) buf).map (fun fm' => (fm.latest, fm'))

/-- `FileManager.DeleteTo` (file_manager.go:77-94) with `fdManager.DeleteTo` (fd_manager.go:150-183): the files after that of
`loc` leave the memory, one per round of the loop, each taken from the back of `fileCache`. `none` is the run-time panic of
`fileCache.Back().Value` when the list is empty, or an error of `resetWriteFd`. -/
def FM.deleteTo (cap : Nat) (files : Files) (fm : FM) (loc : Loc) : Option FM :=
  if !loc.lt fm.latest then some fm
  else
    let k := fm.latest.file - loc.file
    let r :=
      if k = 0 then
        some { fm with cache := fm.cache.dropLast ++ (fm.cache.getLast?.map (fun it => { it with data := it.data.take loc.off })).toList }
      else if fm.cache.length < k then none
      else FM.openAt cap files { fm with cache := fm.cache.take (fm.cache.length - k) } loc
    r.map (fun fm' => { fm' with next := if loc.lt fm.next then loc else fm.next })

/-- `GetFd` for reading (fd_manager.go:90-113): a file in memory, or one on disk. -/
def FM.content (files : Files) (fm : FM) (f : Nat) : Option Bytes :=
  if fm.latest.file < f then none
  else
    match fm.cache.find? (fun it => it.id == f) with
    | some it => some it.data
    | none => Table.get f files

/-- `FileManager.ReadRange` (file_manager.go:229-266) with all that it hands to the parser. `none`: an error. -/
def FM.rangeLoop (S : Nat) (files : Files) (fm : FM) (e : Loc) : Nat → Nat → Nat → Option Bytes
  | 0, f, _ => if f ≤ e.file then none else some []
  | n + 1, f, off =>
    if e.file < f then some []
    else
      match fm.content files f with
      | none => none
      | some d =>
        let fin := if f = e.file then e.off else S
        if fin < off then none
        else if d.length < fin then none
        else (FM.rangeLoop S files fm e n (f + 1) 0).map (fun r => (d.drop off).take (fin - off) ++ r)

def FM.readRange (S : Nat) (files : Files) (fm : FM) (s e : Loc) : Option Bytes :=
  FM.rangeLoop S files fm e (e.file + 1 - s.file) s.file s.off

/-- `ReadRaw` (file_manager.go:189-227): `n` bytes from `loc`, across files. -/
def FM.rawLoop (S : Nat) (files : Files) (fm : FM) : Nat → Loc → Nat → Option (Loc × Bytes)
  | 0, loc, n => if n = 0 then some (loc, []) else none
  | k + 1, loc, n =>
    if n = 0 then some (loc, [])
    else
      let sz := min n (S - loc.off)
      match fm.content files loc.file with
      | none => none
      | some d =>
        if d.length < loc.off + sz then none
        else
          let loc' : Loc := if S ≤ loc.off + sz then ⟨loc.file + 1, 0⟩ else ⟨loc.file, loc.off + sz⟩
          (FM.rawLoop S files fm k loc' (n - sz)).map (fun r => (r.1, (d.drop loc.off).take sz ++ r.2))

def FM.readRaw (S : Nat) (files : Files) (fm : FM) (loc : Loc) (n : Nat) : Option (Loc × Bytes) := fm.rawLoop S files (n + 1) loc n

/-- `FileManager.Read` (file_manager.go:172-187): a length in four bytes, and that many bytes. -/
def FM.read (S : Nat) (files : Files) (fm : FM) (loc : Loc) : Option (Bytes × Loc) :=
  match fm.readRaw S files loc 4 with
  | none => none
  | some (loc', sz) => (fm.readRaw S files loc' (num sz)).map (fun r => (r.2, r.1))

/-- `GetNextLocation` (file_manager.go:160-170). -/
def FM.nextLocation (S : Nat) (files : Files) (fm : FM) (loc : Loc) : Option Loc :=
  (fm.readRaw S files loc 4).map (fun r =>
    let o := loc.off + num r.2 + 4
    ⟨loc.file + o / S, o % S⟩)

/-- The file `Flush` writes to (file_manager.go:102-116, fd.go:82-105): one in memory, created on disk if it has not been
written yet, or, after a rollback, one that is only on disk. `none`: the error "cacheItem is nil". -/
def FM.flushFd (fm : FM) (files : Files) (f : Nat) : Option (FM × List DiskOp) :=
  if fm.latest.file < f then some (fm, if (Table.get f files).isNone then [.create f] else [])
  else
    match fm.cache.find? (fun it => it.id == f) with
    | none => none
    | some it =>
      if it.writer then some (fm, [])
      else some ({ fm with cache := fm.cache.map (fun x => if x.id == f then { x with writer := true } else x) }, [.create f])

/-- The loop of `Flush` (file_manager.go:101-137) as the list of changes of the disk. It takes one round per file. `none`: an
error or a slice out of range. -/
def FM.flushLoop (S : Nat) (t : Loc) : Nat → Loc → Bytes → FM → Files → Option (FM × List DiskOp)
  | 0, loc, _, fm, _ => if loc.lt t then none else some (fm, [])
  | n + 1, loc, buf, fm, files =>
    if !loc.lt t then some (fm, [])
    else
      let fin := if loc.file = t.file then t.off else S
      let len := fin - loc.off
      if buf.length < len then none
      else
        match fm.flushFd files loc.file with
        | none => none
        | some (fm', pre) =>
          let ops := pre ++ [.write loc.file loc.off (buf.take len)]
          let loc' : Loc := if S ≤ fin then ⟨loc.file + 1, 0⟩ else ⟨loc.file, fin⟩
          (FM.flushLoop S t n loc' (buf.drop len) fm' (applyAll files ops)).map (fun r => (r.1, ops ++ r.2))

/-- `DiskDelete` (fd_manager.go:187-210). -/
def diskDelete (high low : Loc) : List DiskOp :=
  (List.range (high.file - low.file)).map (fun i => .remove (high.file - i)) ++ [.truncate low.file low.off]

/-- `FileManager.Flush` (file_manager.go:96-158). -/
def FM.flush (S : Nat) (fm : FM) (files : Files) (s t : Loc) (buf : Bytes) : Option (FM × List DiskOp) :=
  (fm.flushLoop S t (t.file + 1 - s.file) s buf files).map (fun r =>
    ({ r.1 with prev := t }, r.2 ++ if t.lt r.1.prev then diskDelete r.1.prev t else []))

/-- The highest file number on disk (fd_manager.go:355-376). -/
def maxFile (fs : Files) : Nat := (fs.map (·.1)).foldl max 0

/-- `NewFileManager` (file_manager.go:26-43) with `loadLatestLocation` (fd_manager.go:354-394): go on at the end of the last
file. -/
def FM.start (files : Files) : Option FM :=
  let loc : Loc := match Table.get (maxFile files) files with
    | none => ⟨1, 0⟩
    | some d => ⟨maxFile files, d.length⟩
  FM.openAt 1 files ⟨[], loc, loc⟩ loc

/-- A flush under way: `flushStartLocation`, `flushTargetLocation`, `flushBuf` (block/block_db.go:36-38). -/
structure Fly where
  s : Loc
  t : Loc
  buf : Bytes
deriving DecidableEq, Repr

/-- `BlockDB.Prepare` (block/flush.go:54-74): what is to be flushed is copied. -/
def FM.prepare (S : Nat) (files : Files) (fm : FM) : Option (Fly × FM) :=
  (fm.readRange S files fm.next fm.latest).map (fun buf => (⟨fm.next, fm.latest, buf⟩, { fm with next := fm.latest }))

/-- `BlockDB.CancelPrepare` (block/flush.go:79-91). -/
def FM.cancel (fm : FM) (fly : Fly) : FM := { fm with next := if fly.s.lt fm.next then fly.s else fm.next }

/-- `BlockDB.BeforeRecover` (block/flush.go:118-128). -/
def FM.beforeRecover (S cap : Nat) (files : Files) (fm : FM) (fly : Fly) : Option FM :=
  match fm.deleteTo cap files fly.s with
  | none => none
  | some fm' => (fm'.write S cap files fly.buf).map (·.2)

/-! ### Histories -/

/-- The block store of a node: what is in memory, what is on disk, and the flush under way. -/
structure FS where
  fm : FM
  files : Files
  fly : Option Fly
deriving DecidableEq, Repr

/-- What a crash leaves of an operation of the disk: all of it, or the beginning of what was to be written. -/
inductive Torn : DiskOp → DiskOp → Prop
  | whole (op : DiskOp) : Torn op op
  | part (f o k : Nat) (b : Bytes) : Torn (.write f o b) (.write f o (b.take k))

/-- What happens to the block store. -/
inductive FOp where
  /-- `BlockDB.Write` (block/block_db.go:80-110) calls `FileManager.Write` for each block: one entry. -/
  | write (b : Bytes)
  /-- `BlockDB.Rollback` (block/block_db.go:343-345): all from `loc` on goes. -/
  | rollback (loc : Loc)
  /-- `BlockDB.Prepare`. -/
  | prepare
  /-- `BlockDB.CancelPrepare`. -/
  | cancel
  /-- `BlockDB.Commit` and `BlockDB.AfterCommit`. -/
  | commit
  /-- The node stops, and starts again without a redo log. -/
  | restart
  /-- The node stops during `Commit`, when the operations `done` have reached the disk, and starts with the redo log:
  `BeforeRecover`, `PatchRedoLog` (flusher/flusher.go:214-246). -/
  | recover (done : List DiskOp)

/-- One step. `none`: a panic or an error of the node. -/
def FS.step (S cap : Nat) (st : FS) : FOp → Option FS
  | .write b => (st.fm.write S cap st.files b).map (fun r => { st with fm := r.2 })
  | .rollback loc => (st.fm.deleteTo cap st.files loc).map (fun fm => { st with fm := fm })
  | .prepare =>
    match st.fly with
    | some _ => none
    | none => (st.fm.prepare S st.files).map (fun r => { st with fm := r.2, fly := some r.1 })
  | .cancel =>
    match st.fly with
    | none => none
    | some fly => some { st with fm := st.fm.cancel fly, fly := none }
  | .commit =>
    match st.fly with
    | none => none
    | some fly => (st.fm.flush S st.files fly.s fly.t fly.buf).map (fun r => ⟨r.1, applyAll st.files r.2, none⟩)
  | .restart => (FM.start st.files).map (fun fm => ⟨fm, st.files, none⟩)
  | .recover done =>
    match st.fly with
    | none => none
    | some fly =>
      match FM.start (applyAll st.files done) with
      | none => none
      | some fm =>
        match fm.beforeRecover S cap (applyAll st.files done) fly with
        | none => none
        | some fm' =>
          (fm'.flush S (applyAll st.files done) fly.s fly.t fly.buf).map (fun r => ⟨r.1, applyAll (applyAll st.files done) r.2, none⟩)

/-- The oldest file in memory. -/
def FM.oldest (fm : FM) : Nat := (fm.cache.head?.map (·.id)).getD 0

end Verif.Store
