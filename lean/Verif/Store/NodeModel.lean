import Verif.Store.FilesModel
import Verif.Store.KvModel

/-!
# The stores of a node and their flush

Model of `ledger/chain/flusher`: the block files and the key-value stores are flushed together, under a redo log. Writes go on
while a flush is under way; the node may stop at any moment and recovers when it starts again.
-/

namespace Verif.Store
open Verif.Bytes

/-- What does not change: the number of key-value stores and their ids, the id of the block files, the flag that ends a redo log
(hashes of names: db/store.go:51, flusher.go:88), the size of a block file, the number of files kept in memory. -/
structure Cfg where
  n : Nat
  id : Nat → Bytes
  fid : Bytes
  flag : Bytes
  S : Nat
  cap : Nat

/-- The store with an id (`idMap`, flusher.go:83-86). -/
def Cfg.index (cfg : Cfg) (b : Bytes) : Option Nat := (List.range cfg.n).find? (fun i => cfg.id i == b)

/-- Whether there is a store with that id (flusher.go:316-319). -/
def Cfg.known (cfg : Cfg) (b : Bytes) : Bool := b == cfg.fid || (cfg.index b).isSome

/-- `SerializeLocation` (utils/conversion.go:9-16). -/
def Loc.encode (l : Loc) : Bytes := be 8 l.file ++ be 4 l.off

/-- `DeserializeLocation` (utils/conversion.go:18-20). -/
def Loc.decode (b : Bytes) : Loc := ⟨num (b.take 8), num (b.drop 8)⟩

/-- `BlockDB.RedoLog` (block/flush.go:93-104). -/
def Fly.encode (f : Fly) : Bytes := f.s.encode ++ f.t.encode ++ f.buf

/-- What `BeforeRecover` and `PatchRedoLog` read from it (block/flush.go:118-139). `none`: a slice out of range. -/
def decodeFly (b : Bytes) : Option Fly :=
  if b.length < 24 then none else some ⟨Loc.decode (b.take 12), Loc.decode ((b.drop 12).take 12), b.drop 24⟩

/-- Where the flush is: `todo` are the stores that are not committed yet, `none` stands for the block files. -/
inductive Phase where
  | idle
  | prepared
  | logged (todo : List (Option Nat))

/-- The node. `log` is the file of the redo log. -/
structure Node where
  kv : Nat → Kv
  fs : FS
  log : Bytes
  phase : Phase

/-- The redo log of a flush: block files first, then the key-value stores (chain/chain.go:296-299, flusher.go:376-428). -/
def redoLog (cfg : Cfg) (fly : Fly) (batches : Nat → Batch) : Bytes :=
  writeLog cfg.flag ((cfg.fid, fly.encode) :: (List.range cfg.n).map (fun i => (cfg.id i, (batches i).encode)))

def Node.fullLog (cfg : Cfg) (nd : Node) : Bytes :=
  match nd.fs.fly with
  | none => []
  | some fly => redoLog cfg fly (fun i => (nd.kv i).fly.getD [])

/-- The steps of a running node. The flush is that of flusher.go:196-246; other steps come between its parts, except in `prepare`,
`syncFail` and `finish`, which hold the lock. -/
inductive NOp where
  /-- A change of one key-value store. -/
  | kv (i : Nat) (op : KvOp)
  /-- A block is written to the block files. -/
  | write (b : Bytes)
  /-- The block files are cut. -/
  | rollback (loc : Loc)
  /-- `prepare` (flusher.go:357-374). -/
  | prepare
  /-- `writeRedoLog` and `syncRedoLog` succeed. -/
  | log
  /-- `writeRedoLog` fails after `k` bytes (flusher.go:209-211): the flush ends. -/
  | logFail (k : Nat)
  /-- `syncRedoLog` fails (flusher.go:430-454): the flush is cancelled. -/
  | syncFail
  /-- One store commits; the order is free (flusher.go:456-476). -/
  | commit (i : Option Nat)
  /-- All have committed: `afterCommit` and `cleanRedoLog` (flusher.go:228-245). -/
  | finish

/-- All key-value stores change. `none` if one panics. -/
def allKv (n : Nat) (f : Kv → Option Kv) (kv : Nat → Kv) : Option (Nat → Kv) :=
  if ∀ i < n, (f (kv i)).isSome then some (fun i => if i < n then (f (kv i)).getD (kv i) else kv i) else none

/-- One step. `none`: a panic or an error. -/
def Node.step (cfg : Cfg) (nd : Node) : NOp → Option Node
  | .kv i op => ((nd.kv i).step op).map (fun k => { nd with kv := fun j => if j = i then k else nd.kv j })
  | .write b => (nd.fs.step cfg.S cfg.cap (.write b)).map (fun fs => { nd with fs := fs })
  | .rollback loc => (nd.fs.step cfg.S cfg.cap (.rollback loc)).map (fun fs => { nd with fs := fs })
  | .prepare =>
    match allKv cfg.n Kv.prepare nd.kv, nd.fs.step cfg.S cfg.cap .prepare with
    | some kv, some fs => some { nd with kv := kv, fs := fs, phase := .prepared }
    | _, _ => none
  | .log =>
    match nd.phase with
    | .prepared => some { nd with log := nd.fullLog cfg, phase := .logged (none :: (List.range cfg.n).map some) }
    | _ => none
  | .logFail k =>
    match nd.phase with
    | .prepared => some { nd with log := (nd.fullLog cfg).take k }
    | _ => none
  | .syncFail =>
    match nd.phase with
    | .prepared => (nd.fs.step cfg.S cfg.cap .cancel).map (fun fs => { nd with kv := fun i => (nd.kv i).cancel, fs := fs, log := [], phase := .idle })
    | _ => none
  | .commit i =>
    match nd.phase with
    | .logged todo =>
      if i ∈ todo then
        match i with
        | none => (nd.fs.step cfg.S cfg.cap .commit).map (fun fs => { nd with fs := fs, phase := .logged (todo.filter (· ≠ none)) })
        | some j => some { nd with kv := fun l => if l = j then (nd.kv j).commit else nd.kv l, phase := .logged (todo.filter (· ≠ some j)) }
      else none
    | _ => none
  | .finish =>
    match nd.phase with
    | .logged [] => some { nd with kv := fun i => (nd.kv i).afterCommit, log := [], phase := .idle }
    | _ => none

/-! ### Crashes and recovery -/

/-- What is left when the node stops. -/
structure Disk where
  kv : Nat → KMap
  files : Files
  log : Bytes

/-- The node stops. While the log is written (`prepared`), `k` bytes of it are there. While the block files commit, `torn` has
reached the disk; the commit of a key-value store is atomic. -/
def Node.stop (cfg : Cfg) (nd : Node) (k : Nat) (torn : List DiskOp) : Disk :=
  ⟨fun i => (nd.kv i).disk, applyAll nd.fs.files torn, match nd.phase with | .prepared => (nd.fullLog cfg).take k | _ => nd.log⟩

/-- The stores while they are patched. -/
structure Patch where
  kv : Nat → KMap
  fm : FM
  files : Files

/-- `BeforeRecover` (flusher.go:488-492, block/flush.go:118-128; the key-value stores do nothing: db/flush.go:91). -/
def beforeRecover (cfg : Cfg) (files : Files) : FM → List (Bytes × Bytes) → Option FM
  | fm, [] => some fm
  | fm, e :: es =>
    if e.1 = cfg.fid then
      match decodeFly e.2 with
      | none => none
      | some fly =>
        match fm.beforeRecover cfg.S cfg.cap files fly with
        | none => none
        | some fm' => beforeRecover cfg files fm' es
    else beforeRecover cfg files fm es

/-- `PatchRedoLog` (flusher.go:500-510, block/flush.go:132-139, db/flush.go:56-68). -/
def patch (cfg : Cfg) (p : Patch) (e : Bytes × Bytes) : Option Patch :=
  if e.1 = cfg.fid then
    match decodeFly e.2 with
    | none => none
    | some fly => (p.fm.flush cfg.S p.files fly.s fly.t fly.buf).map (fun r => { p with fm := r.1, files := applyAll p.files r.2 })
  else
    match cfg.index e.1, decodeBatch e.2 with
    | some i, some b => some { p with kv := fun j => if j = i then b.apply (p.kv i) else p.kv j }
    | _, _ => none

def patchAll (cfg : Cfg) : Patch → List (Bytes × Bytes) → Option Patch
  | p, [] => some p
  | p, e :: es =>
    match patch cfg p e with
    | none => none
    | some p' => patchAll cfg p' es

/-- The stores when recovery begins to patch, and the logs to patch them with. -/
def Disk.begin (cfg : Cfg) (d : Disk) : Option (Patch × List (Bytes × Bytes)) :=
  match FM.start d.files, loadLog cfg.flag cfg.known d.log with
  | none, _ => none
  | some fm, none => some (⟨d.kv, fm, d.files⟩, [])
  | some fm, some es => (beforeRecover cfg d.files fm es).map (fun fm' => (⟨d.kv, fm', d.files⟩, es))

/-- The node starts (chain/chain.go:255-318, `Recover`, flusher.go:151-166): an error of the log counts as no log. -/
def Disk.recover (cfg : Cfg) (d : Disk) : Option Node :=
  match d.begin cfg with
  | none => none
  | some (p, es) =>
    (patchAll cfg p es).map (fun p' => ⟨fun i => Kv.fresh (p'.kv i), ⟨p'.fm, p'.files, none⟩, [], .idle⟩)

/-- The node stops again during the recovery: after some of the logs are patched in, within the operations of the block files, or
after the log is emptied. -/
inductive Again (cfg : Cfg) (d : Disk) : Disk → Prop
  | between (p p' : Patch) (es : List (Bytes × Bytes)) (j : Nat) (hb : d.begin cfg = some (p, es)) (hp : patchAll cfg p (es.take j) = some p') :
      Again cfg d ⟨p'.kv, p'.files, d.log⟩
  | within (p p' : Patch) (es : List (Bytes × Bytes)) (j : Nat) (hb : d.begin cfg = some (p, es)) (hp : patchAll cfg p (es.take j) = some p')
      (e : Bytes × Bytes) (fly : Fly) (fm : FM) (ops torn : List DiskOp) (hj : es[j]? = some e) (he : e.1 = cfg.fid) (hf : decodeFly e.2 = some fly)
      (hfl : p'.fm.flush cfg.S p'.files fly.s fly.t fly.buf = some (fm, ops)) (ht : ∀ t ∈ torn, ∃ op ∈ ops, Torn op t) :
      Again cfg d ⟨p'.kv, applyAll p'.files torn, d.log⟩
  | after (p p' : Patch) (es : List (Bytes × Bytes)) (hb : d.begin cfg = some (p, es)) (hp : patchAll cfg p es = some p') :
      Again cfg d ⟨p'.kv, p'.files, []⟩

/-- Any number of times. -/
inductive Agains (cfg : Cfg) : Disk → Disk → Prop
  | refl (d : Disk) : Agains cfg d d
  | step {d d' d'' : Disk} (h : Again cfg d d') (h' : Agains cfg d' d'') : Agains cfg d d''

end Verif.Store
