import Verif.Tab.BlockRep
import Mathlib.Data.List.Sort

/-!
# The manifest of the database: records of the changes of a session, and what is made of them at a start

`common/db/xleveldb/session_record.go`, `session_util.go`, `session.go` (`create`, `recover`, `commit`),
`version.go` (`versionStaging`).  The journal that holds the records is taken as a list of byte strings (area
`Wal` shows that it gives back what was written); the file that names the manifest is switched in one step
(`SetMeta`).  Reference counts, locks, statistics and the scores of levels are left out.
-/

namespace Verif.Man
open Verif.Bytes Verif.Store

/-! ### Records -/

/-- A table as a record describes it.  `session_record.go:42-48` (`atRecord`), `table.go:22-28` (`tFile`). -/
structure Tb where
  num : Nat
  size : Nat
  imin : Bytes
  imax : Bytes
  deriving DecidableEq

/-- `session_record.go:55-68` (`sessionRecord`).  A field that is not there (`hasRec`) is `none`. -/
structure SRec where
  comparer : Option Bytes := none
  journal : Option Nat := none
  prevJournal : Option Nat := none
  next : Option Nat := none
  seq : Option Nat := none
  comps : List (Nat × Bytes) := []
  dels : List (Nat × Nat) := []
  adds : List (Nat × Tb) := []
  deriving DecidableEq

/-- `session_record.go:148-157` (`putBytes`). -/
def putBytes (b : Bytes) : Bytes := uvarint b.length ++ b

/-- `session_record.go:159-196` (`encode`), with the tags of lines 24-34. -/
def SRec.encode (r : SRec) : Bytes :=
  (r.comparer.map (fun c => uvarint 1 ++ putBytes c)).getD [] ++
  (r.journal.map (fun n => uvarint 2 ++ uvarint n)).getD [] ++
  (r.next.map (fun n => uvarint 3 ++ uvarint n)).getD [] ++
  (r.seq.map (fun n => uvarint 4 ++ uvarint n)).getD [] ++
  (r.comps.map (fun c => uvarint 5 ++ (uvarint c.1 ++ putBytes c.2))).flatten ++
  (r.dels.map (fun d => uvarint 6 ++ (uvarint d.1 ++ uvarint d.2))).flatten ++
  (r.adds.map (fun a => uvarint 7 ++ (uvarint a.1 ++ (uvarint a.2.num ++ (uvarint a.2.size ++ (putBytes a.2.imin ++ putBytes a.2.imax)))))).flatten

/-- `session_record.go:220-226` (`readVarint`): a number of 2^63 and more is an error. -/
def readInt (bs : Bytes) : Option (Nat × Bytes) :=
  match readUvarint 0 0 bs with
  | some (n, rest) => if n < 2 ^ 63 then some (n, rest) else none
  | none => none

/-- One field.  `session_record.go:258-323` (`decode`), the switch; `none` for an error.  A tag that is not
known is passed over. -/
def decodeField (r : SRec) (bs : Bytes) : Option (SRec × Bytes) := do
  let (tag, bs) ← readUvarint 0 0 bs
  if tag = 1 then
    let (c, bs) ← readField bs
    some ({ r with comparer := some c }, bs)
  else if tag = 2 then
    let (n, bs) ← readInt bs
    some ({ r with journal := some n }, bs)
  else if tag = 9 then
    let (n, bs) ← readInt bs
    some ({ r with prevJournal := some n }, bs)
  else if tag = 3 then
    let (n, bs) ← readInt bs
    some ({ r with next := some n }, bs)
  else if tag = 4 then
    let (n, bs) ← readUvarint 0 0 bs
    some ({ r with seq := some n }, bs)
  else if tag = 5 then
    let (l, bs) ← readUvarint 0 0 bs
    let (k, bs) ← readField bs
    some ({ r with comps := r.comps ++ [(l, k)] }, bs)
  else if tag = 7 then
    let (l, bs) ← readUvarint 0 0 bs
    let (n, bs) ← readInt bs
    let (z, bs) ← readInt bs
    let (a, bs) ← readField bs
    let (b, bs) ← readField bs
    some ({ r with adds := r.adds ++ [(l, ⟨n, z, a, b⟩)] }, bs)
  else if tag = 6 then
    let (l, bs) ← readUvarint 0 0 bs
    let (n, bs) ← readInt bs
    some ({ r with dels := r.dels ++ [(l, n)] }, bs)
  else some (r, bs)

/-- `session_record.go:258-323` (`decode`), the loop; one round per field.  The record is added to. -/
def decodeLoop : Nat → SRec → Bytes → Option SRec
  | 0, r, bs => if bs = [] then some r else none
  | f + 1, r, bs => if bs = [] then some r else (decodeField r bs).bind (fun x => decodeLoop f x.1 x.2)

def decode (r : SRec) (bs : Bytes) : Option SRec := decodeLoop bs.length r bs

/-! ### Versions -/

/-- The tables of the levels.  `version.go:24-44` (`version`); a level without tables is empty. -/
abbrev Ver := List (List Tb)

/-- `version.go:402-405` (`tablesScratch`): maps by number. -/
structure Scr where
  added : List Tb := []
  deleted : List Nat := []

/-- `version.go:412-419` (`getScratch`), with what is done to the scratch. -/
def onLevel (ls : List Scr) (l : Nat) (f : Scr → Scr) : List Scr := (ls ++ List.replicate (l + 1 - ls.length) (⟨[], []⟩ : Scr)).modify l f

/-- `version.go:423-434`. -/
def Scr.del (baseHas : Bool) (n : Nat) (s : Scr) : Scr :=
  ⟨s.added.filter (fun t => t.num ≠ n), if baseHas then n :: s.deleted else s.deleted⟩

/-- `version.go:437-446`. -/
def Scr.add (t : Tb) (s : Scr) : Scr := ⟨t :: s.added.filter (fun x => x.num ≠ t.num), s.deleted.filter (fun n => n ≠ t.num)⟩

/-- `version.go:421-447` (`versionStaging.commit`). -/
def stage (base : Ver) (ls : List Scr) (r : SRec) : List Scr :=
  r.adds.foldl (fun ls a => onLevel ls a.1 (Scr.add a.2))
    (r.dels.foldl (fun ls d => onLevel ls d.1 (Scr.del (!(base.getD d.1 []).isEmpty) d.2)) ls)

variable {O : Type} [LinearOrder O]

/-- `table.go:104-117` (`lessByKey`, `lessByNum`): level zero has the newest first, the others go by first key. -/
def less (ord : Bytes → O) (level : Nat) (a b : Tb) : Prop :=
  if level = 0 then b.num < a.num else ord a.imin < ord b.imin ∨ (ord a.imin = ord b.imin ∧ a.num < b.num)

instance (ord : Bytes → O) (level : Nat) (a b : Tb) : Decidable (less ord level a b) := by unfold less; infer_instance

/-- `table.go:120-127` (`sortByKey`, `sortByNum`).  Another way of sorting, with the same outcome for tables
with different numbers. -/
def sortTb (ord : Bytes → O) (level : Nat) (l : List Tb) : List Tb := l.insertionSort (fun a b => ¬ less ord level b a)

/-- One level of the new version.  `version.go:456-499`. -/
def levelOut (ord : Bytes → O) (base : Ver) (ls : List Scr) (i : Nat) : List Tb :=
  if i < ls.length then
    let s := ls.getD i ⟨[], []⟩
    sortTb ord i ((base.getD i []).filter (fun t => !s.deleted.contains t.num && !(s.added.map Tb.num).contains t.num) ++ s.added)
  else base.getD i []

/-- `version.go:504-508`. -/
def trim : Ver → Ver
  | [] => []
  | l :: v => match trim v with | [] => if l = [] then [] else [l] | t => l :: t

/-- `version.go:449-513` (`versionStaging.finish`). -/
def finish (ord : Bytes → O) (base : Ver) (ls : List Scr) : Ver :=
  trim ((List.range (max base.length ls.length)).map (levelOut ord base ls))

/-- `version.go:276-280` (`spawn`). -/
def spawn (ord : Bytes → O) (v : Ver) (r : SRec) : Ver := finish ord v (stage v [] r)

/-- `version.go:282-288` (`fillRecord`), the tables added. -/
def listing (v : Ver) : List (Nat × Tb) := (List.range v.length).flatMap (fun i => (v.getD i []).map (fun t => (i, t)))

/-! ### The session -/

/-- `session.go:37-59` (`session`).  `disk` is the number of the manifest that is named as the current one, and
its records; `writer`: whether it is open for writing. -/
structure Ses where
  ver : Ver
  next : Nat
  journal : Nat
  prevJournal : Nat
  seq : Nat
  comps : List (Option Bytes)
  writer : Bool
  disk : Option (Nat × List Bytes)
  deriving DecidableEq

/-- `session_util.go:128-135` (`setCompPtr`). -/
def setComp (ps : List (Option Bytes)) (l : Nat) (k : Bytes) : List (Option Bytes) :=
  (ps ++ List.replicate (l + 1 - ps.length) none).set l (some k)

def setComps (ps : List (Option Bytes)) (cs : List (Nat × Bytes)) : List (Option Bytes) := cs.foldl (fun ps c => setComp ps c.1 c.2) ps

/-- The pointers that are set, with their levels.  `session_util.go:160-164`. -/
def compList (ps : List (Option Bytes)) : List (Nat × Bytes) :=
  (List.range ps.length).filterMap (fun i => (ps.getD i none).map (fun k => (i, k)))

/-- `session_util.go:173-189` (`recordCommited`). -/
def Ses.committed (s : Ses) (r : SRec) : Ses :=
  { s with journal := r.journal.getD s.journal, prevJournal := r.prevJournal.getD s.prevJournal, seq := r.seq.getD s.seq, comps := setComps s.comps r.comps }

/-- The record that opens a manifest.  `session_util.go:149-169` (`fillRecord` for a snapshot), `version.go:282-288`. -/
def Ses.snapshot (name : Bytes) (s : Ses) (r : SRec) (v : Ver) : SRec :=
  { r with next := some s.next, journal := some (r.journal.getD s.journal), seq := some (r.seq.getD s.seq), comps := r.comps ++ compList s.comps,
           comparer := some name, adds := r.adds ++ listing v }

/-- `session_util.go:192-246` (`newManifest`), without errors. -/
def Ses.newManifest (name : Bytes) (s : Ses) (r : SRec) (v : Ver) : Ses :=
  let n := s.next
  let s := { s with next := s.next + 1 }
  let rec' := s.snapshot name r v
  { s.committed rec' with writer := true, disk := some (n, [rec'.encode]) }

/-- `session_util.go:249-271` (`flushManifest`), without errors. -/
def Ses.flush (s : Ses) (r : SRec) : Ses :=
  let rec' := { r with next := some s.next }
  { s.committed rec' with disk := s.disk.map (fun d => (d.1, d.2 ++ [rec'.encode])) }

/-- `session.go:190-211` (`commit`), without errors. -/
def Ses.commit (name : Bytes) (ord : Bytes → O) (s : Ses) (r : SRec) : Ses :=
  let nv := spawn ord s.ver r
  { (if s.writer then s.flush r else s.newManifest name r nv) with ver := nv }

/-- A new session, before it is created or recovered.  `session.go:62-80` (`newSession`): file numbers start at 0
and the manifest of a new database has number 0. -/
def Ses.fresh : Ses := ⟨[], 0, 0, 0, 0, [], false, none⟩

/-- `session.go:102-105` (`create`). -/
def Ses.create (name : Bytes) (s : Ses) : Ses := s.newManifest name {} s.ver

/-- The loop of `recover`.  `session.go:136-168`: one record is read after another into the same struct, whose
lists are emptied in between.  A record that cannot be read ends it, as with the strict option. -/
def replay : SRec × List (Option Bytes) × List Scr → List Bytes → Option (SRec × List (Option Bytes) × List Scr)
  | x, [] => some x
  | (r, ps, ls), b :: bs =>
    match decode r b with
    | none => none
    | some r' => replay ({ r' with comps := [], adds := [], dels := [] }, setComps ps r'.comps, stage [] ls r') bs

/-- `session.go:108-187` (`recover`), on what is on disk. -/
def recover (name : Bytes) (ord : Bytes → O) (disk : Option (Nat × List Bytes)) : Option Ses :=
  match disk with
  | none => none
  | some (n, bs) =>
    match replay ({}, [], []) bs with
    | none => none
    | some (r, ps, ls) =>
      if r.comparer ≠ some name then none
      else
        match r.next, r.journal, r.seq with
        | some k, some j, some q =>
          some ⟨finish ord [] ls, k, j, r.prevJournal.getD 0, q, ps, false, some (n, bs)⟩
        | _, _, _ => none

end Verif.Man
