import Verif.Store.NodeModel
import Verif.Store.KvProps
import Verif.Store.FilesProps

/-!
# The stores of a node: what a flush and a crash should do

To a user there is one ledger: the content of the key-value stores and the string of the block files. A moment of it is saved,
all or nothing.
-/

namespace Verif.Store
open Verif.Bytes

/-- The content of all stores: that of each key-value store, and the string of the block files. -/
abbrev Content := (Nat → KMap) × Bytes

/-- The ledger as its user sees it: each key-value store, the string of the block files, what survives a crash, and, while a flush
is under way, what will survive. -/
structure NSpec where
  kv : Nat → KvSpec
  str : Bytes
  saved : Content
  coming : Option Content

/-- What each step should do. The content to be saved is taken at one moment, that of `prepare`: what the snapshots have confirmed
in each store. -/
def NSpec.step (cfg : Cfg) (x : NSpec) : NOp → NSpec
  | .kv i op => { x with kv := fun j => if j = i then (x.kv i).step op else x.kv j }
  | .write b => { x with str := x.str ++ b }
  | .rollback loc => { x with str := x.str.take (pos cfg.S loc) }
  | .prepare => { x with coming := some (fun i => (x.kv i).conf, x.str) }
  | .log => x
  | .logFail _ => x
  | .syncFail => { x with coming := none }
  | .commit _ => x
  | .finish => { x with saved := x.coming.getD x.saved, coming := none }

/-- The ledger after a crash: `c` is all there is. -/
def NSpec.restart (c : Content) : NSpec := ⟨fun i => ⟨c.1 i, [], c.1 i⟩, c.2, c, none⟩

/-- Ids are 32 bytes long and differ, from each other and from the flag. -/
structure Cfg.Good (cfg : Cfg) : Prop where
  S0 : 0 < cfg.S
  S32 : cfg.S < 2 ^ 32
  flag : cfg.flag.length = 32
  fid : cfg.fid.length = 32
  fidF : cfg.fid ≠ cfg.flag
  ids : ∀ i < cfg.n, (cfg.id i).length = 32 ∧ cfg.id i ≠ cfg.flag ∧ cfg.id i ≠ cfg.fid
  inj : ∀ i < cfg.n, ∀ j < cfg.n, cfg.id i = cfg.id j → i = j

/-- The logs of all stores are shorter than 4 GB. -/
def SmallLog (cfg : Cfg) (fly : Fly) (bs : Nat → Batch) : Prop :=
  fly.encode.length < 2 ^ 32 ∧ (∀ i < cfg.n, (bs i).encode.length < 2 ^ 32) ∧ fly.s.file < 2 ^ 64 ∧ fly.t.file < 2 ^ 64

/-- The steps that the ledger takes: changes of the stores as allowed for each of them, and the parts of a flush in their order. -/
def NAllowed (cfg : Cfg) (nd : Node) (x : NSpec) : NOp → Prop
  | .kv i op => i < cfg.n ∧ (x.kv i).Allowed op
  | .write b => Allowed cfg.S cfg.cap nd.fs ⟨x.str, x.saved.2, none⟩ (.write b)
  | .rollback loc => Valid cfg.S loc ∧ pos cfg.S loc ≤ x.str.length
  | .prepare => nd.phase = .idle ∧ ∀ nd' fly, nd.step cfg .prepare = some nd' → nd'.fs.fly = some fly →
      SmallLog cfg fly (fun i => (nd'.kv i).fly.getD [])
  | .log => nd.phase = .prepared
  | .logFail _ => nd.phase = .prepared
  | .syncFail => nd.phase = .prepared
  | .commit i => ∃ todo, nd.phase = .logged todo ∧ i ∈ todo
  | .finish => nd.phase = .logged []

/-- What can have reached the disk when the node stops: parts of the operations of the block files, while they commit. -/
def CanTear (cfg : Cfg) (nd : Node) (torn : List DiskOp) : Prop :=
  torn = [] ∨ ∃ todo fly fm ops, nd.phase = .logged todo ∧ none ∈ todo ∧ nd.fs.fly = some fly ∧
    nd.fs.fm.flush cfg.S nd.fs.files fly.s fly.t fly.buf = some (fm, ops) ∧ ∀ t ∈ torn, ∃ op ∈ ops, Torn op t

/-- The redo log is complete when the node stops: it is written, and not yet emptied. -/
def LogComplete (cfg : Cfg) (nd : Node) (k : Nat) : Prop :=
  match nd.phase with
  | .idle => False
  | .prepared => (nd.fullLog cfg).length ≤ k
  | .logged _ => True

/-- If there is a complete redo log, its flush spans at most two block files, and there is none after those. Without this the
recovery panics (`recovery_panics`). -/
def Spans (cfg : Cfg) (d : Disk) : Prop :=
  ∀ es b fly, loadLog cfg.flag cfg.known d.log = some es → (cfg.fid, b) ∈ es → decodeFly b = some fly →
    fly.t.file ≤ fly.s.file + 1 ∧ ∀ g, fly.s.file + 1 < g → Table.get g d.files = none

/-- What should be found after a crash: what was coming if the log was complete, otherwise what was saved. -/
def Survives (cfg : Cfg) (nd : Node) (x : NSpec) (k : Nat) (c : Content) : Prop :=
  (LogComplete cfg nd k ∧ x.coming = some c) ∨ (¬ LogComplete cfg nd k ∧ x.saved = c)

/-- All histories, from empty stores on, with any number of crashes. -/
inductive NHist (cfg : Cfg) : Node → NSpec → Prop
  | init (fm : FM) (h : FM.start [] = some fm) :
      NHist cfg ⟨fun _ => Kv.fresh (fun _ => none), ⟨fm, [], none⟩, [], .idle⟩ (NSpec.restart (fun _ _ => none, []))
  | step {nd nd' : Node} {x : NSpec} (op : NOp) (h : NHist cfg nd x) (ha : NAllowed cfg nd x op) (hs : nd.step cfg op = some nd') :
      NHist cfg nd' (x.step cfg op)
  | crash {nd nd' : Node} {x : NSpec} {d : Disk} (k : Nat) (torn : List DiskOp) (c : Content) (h : NHist cfg nd x) (ht : CanTear cfg nd torn)
      (hd : Agains cfg (nd.stop cfg k torn) d) (hc : Survives cfg nd x k c) (hn : d.recover cfg = some nd') :
      NHist cfg nd' (NSpec.restart c)

end Verif.Store
