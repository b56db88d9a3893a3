import Mathlib.Order.Defs.LinearOrder
import Mathlib.Data.List.Sort

/-!
# The levelled database: memory tables, levels of sorted tables, compactions, snapshots

Models `/repo/common/db/xleveldb`: how a read finds its answer, and how flushes and compactions
move entries about underneath the readers.

Keys are the elements of any linear order (the code: byte strings under `bytes.Compare`), values of
any type.  Sizes, block layouts, filters and caches are left out: wherever the code decides by
sizes or seek counts (which level to compact, when to start a new table), the model takes the
decision as a parameter of the step, so that a theorem about the model holds whatever is decided.
-/

namespace Verif.Lsm

/-- An internal key with its value: user key, sequence number, and a value or a deletion.
`common/db/xleveldb/key.go:75-99` (`MakeInternalKey`, `ParseInternalKey`).  The kind of an entry is
whether `val` is `none` (a deletion) or not; it does not matter to the order, since no two entries
carry the same sequence number. -/
structure Entry (K V : Type) where
  key : K
  seq : Nat
  val : Option V
  deriving DecidableEq, Repr

/-- A table on disk: its number, its entries in order, and the first and last of them, as the
record of the table says.  `common/db/xleveldb/table.go:20-29` (`tFile`). -/
structure File (K V : Type) where
  num : Nat
  es : List (Entry K V)
  lo : Entry K V
  hi : Entry K V
  deriving DecidableEq, Repr

/-- A compaction that has been picked and built, and not committed yet: the tables it replaces, in
two levels, and the tables it adds to the lower of the two.
`common/db/xleveldb/session_compaction.go:130-150` (`compaction`), with the added tables of the
session record. -/
structure Job (K V : Type) where
  level : Nat
  t0 : List (File K V)
  t1 : List (File K V)
  outs : List (File K V)
  minSeq : Nat

/-- The database.  `common/db/xleveldb/db.go:33-85` (`DB`: `mem`, `frozenMem`, `seq`, `snapsList`)
and `version.go:28-40` (`version.levels`; `depth` is their number).  `wrote` and `floor` are not in
the code: the first is the list of all writes so far, the second the largest `minSeq` of the
committed compactions; nothing reads them but the theorems. -/
structure Db (K V : Type) where
  mem : List (Entry K V)
  frozen : Option (List (Entry K V))
  lev : Nat → List (File K V)
  depth : Nat
  seq : Nat
  snaps : List Nat
  nextNum : Nat
  job : Option (Job K V)
  wrote : List (K × Option V)
  floor : Nat

/-- An empty database.  `common/db/xleveldb/db.go:87-150` (`openDB` of a new storage). -/
def Db.init (K V : Type) : Db K V :=
  { mem := [], frozen := none, lev := fun _ => [], depth := 0, seq := 0, snaps := [],
    nextNum := 1, job := none, wrote := [], floor := 0 }

variable {K V : Type} [LinearOrder K]

/-- The order of entries: by user key, the newer first under one key.
`common/db/xleveldb/comparer.go:43-53` (`IComparer.Compare`). -/
def prior (a b : Entry K V) : Bool :=
  decide (a.key < b.key ∨ (a.key = b.key ∧ b.seq < a.seq))

/-- Put a thing into its place in a sorted list. -/
def place {α : Type} (le : α → α → Bool) (a : α) : List α → List α
  | [] => [a]
  | b :: l => if le a b then a :: b :: l else b :: place le a l

/-- Sort a list: what merging iterators (`common/db/xleveldb/iterator/merged_iter.go`) and
`sort.Sort` (`common/db/xleveldb/table.go:119-127`) come to. -/
def sortBy {α : Type} (le : α → α → Bool) (l : List α) : List α := l.foldr (place le) []

/-- An entry is not before the internal key made of a user key and a sequence number (with
`KeyTypeSeek`, the kind that comes first).  `common/db/xleveldb/comparer.go:43-53`. -/
def reached (k : K) (s : Nat) (e : Entry K V) : Bool :=
  decide (k < e.key ∨ (k = e.key ∧ e.seq ≤ s))

/-- Put an entry into a memory table.  `common/db/xleveldb/memdb/memdb.go:350-399` (`Put`); the
skip list is a sorted list here. -/
def insert (e : Entry K V) : List (Entry K V) → List (Entry K V)
  | [] => [e]
  | x :: xs => if prior x e then x :: insert e xs else e :: x :: xs

/-- Look into one sorted run of entries: the first entry not before the key sought, if it has the
same user key.  `common/db/xleveldb/db.go:736-755` (`MemGet`), `table.go:376-384` (`find`) with
`version.go:185-189`. -/
def look (es : List (Entry K V)) (k : K) (s : Nat) : Option (Entry K V) :=
  match es.find? (reached k s) with
  | some e => if e.key = k then some e else none
  | none => none

/-- The range of a table meets a range of user keys.  `common/db/xleveldb/table.go:31-43`
(`after`, `before`, `overlaps`). -/
def File.meets (f : File K V) (umin umax : K) : Bool :=
  decide (umin ≤ f.hi.key) && decide (f.lo.key ≤ umax)

/-- Of two findings in level 0, the second wins if its number is not smaller.
`common/db/xleveldb/version.go:190-197`. -/
def newer (z : Option (Entry K V)) (x : Option (Entry K V)) : Option (Entry K V) :=
  match z, x with
  | none, x => x
  | z, none => z
  | some z, some e => if z.seq ≤ e.seq then some e else some z

/-- Look into level 0: every table that covers the key, and the newest finding.
`common/db/xleveldb/version.go:112-120, 190-197`. -/
def look0 (fs : List (File K V)) (k : K) (s : Nat) : Option (Entry K V) :=
  fs.foldl (fun z f => if f.meets k k then newer z (look f.es k s) else z) none

/-- Look into a deeper level: the first table whose last key is not before the key sought, if its
range has begun by then.  `common/db/xleveldb/version.go:121-130`, `table.go:147-151`
(`searchMax`; a binary search over tables in order finds the first). -/
def lookN (fs : List (File K V)) (k : K) (s : Nat) : Option (Entry K V) :=
  match fs.find? (fun f => reached k s f.hi) with
  | some f => if f.lo.key ≤ k then look f.es k s else none
  | none => none

/-- Look through the levels, from the first on; the first finding ends the walk.
`common/db/xleveldb/version.go:87-136, 138-237` (`walkOverlapping`, `get`). -/
def lookVersion (lev : Nat → List (File K V)) (depth : Nat) (k : K) (s : Nat) :
    Option (Entry K V) :=
  match look0 (lev 0) k s with
  | some e => some e
  | none => (List.range' 1 (depth - 1)).findSome? (fun i => lookN (lev i) k s)

/-- Look through the memory tables: the active one, then the frozen one.
`common/db/xleveldb/db.go:766-777`. -/
def lookMems (mem : List (Entry K V)) (frozen : Option (List (Entry K V))) (k : K) (s : Nat) :
    Option (Entry K V) :=
  match look mem k s with
  | some e => some e
  | none => frozen.bind (fun fm => look fm k s)

/-- Read a key as of a sequence number, with the memory tables taken from `a` and the version of
the tables taken, later, from `b`.  `common/db/xleveldb/db.go:757-786` (`get`; no auxiliary tables):
`getMems` comes first and `s.version()` after it, under different locks. -/
def getSplit (a b : Db K V) (k : K) (s : Nat) : Option V :=
  match lookMems a.mem a.frozen k s with
  | some e => e.val
  | none => (lookVersion b.lev b.depth k s).bind (·.val)

/-- Read a key as of a sequence number.  `common/db/xleveldb/db.go:757-786` (`get`). -/
def get (d : Db K V) (k : K) (s : Nat) : Option V := getSplit d d k s

/-! ### Which tables a compaction takes -/

/-- The loop of `getOverlaps`; `fuel` bounds the rounds (the proofs show it is enough).
`common/db/xleveldb/table.go:183-209`. -/
def scan (overlapped : Bool) (tf : List (File K V)) :
    Nat → List (File K V) → List (File K V) → K → K → List (File K V)
  | 0, _, dst, _, _ => dst
  | _ + 1, [], dst, _, _ => dst
  | n + 1, t :: rest, dst, umin, umax =>
    if t.meets umin umax then
      if t.lo.key < umin then scan overlapped tf n tf [] t.lo.key umax
      else if umax < t.hi.key then
        if overlapped then scan overlapped tf n tf [] umin t.hi.key
        else scan overlapped tf n rest (dst ++ [t]) umin t.hi.key
      else scan overlapped tf n rest (dst ++ [t]) umin umax
    else scan overlapped tf n rest dst umin umax

/-- The tables whose ranges meet a range, which is widened to their ranges.
`common/db/xleveldb/table.go:183-209` (`getOverlaps`). -/
def getOverlaps (tf : List (File K V)) (umin umax : K) (overlapped : Bool) : List (File K V) :=
  scan overlapped tf ((2 * tf.length + 1) * (tf.length + 1)) tf [] umin umax

/-- The range of user keys of some tables (the first is given apart, there being at least one).
`common/db/xleveldb/table.go:212-227` (`getRange`). -/
def rangeOf (f : File K V) (fs : List (File K V)) : K × K :=
  (fs.foldl (fun m g => if g.lo.key < m then g.lo.key else m) f.lo.key,
   fs.foldl (fun m g => if m < g.hi.key then g.hi.key else m) f.hi.key)

/-- `rangeOf` of a list, with a range to stand for that of no table at all.
`common/db/xleveldb/table.go:212-227` (`getRange`). -/
def rangeOr (d : K × K) : List (File K V) → K × K
  | [] => d
  | f :: fs => rangeOf f fs

/-- The tables of the two levels that a compaction takes, from those it was picked for
(`f :: fs`).  `common/db/xleveldb/session_compaction.go:174-219` (`expand`).  `fits` is the
comparison of the sizes with the limit. -/
def expand (vt0 vt1 : List (File K V)) (zero : Bool) (f : File K V) (fs : List (File K V))
    (fits : Bool) : List (File K V) × List (File K V) :=
  let r0 := rangeOf f fs
  let t0 := getOverlaps vt0 r0.1 r0.2 zero
  let r := if t0.length ≠ (f :: fs).length then rangeOr r0 t0 else r0
  let t1 := getOverlaps vt1 r.1 r.2 false
  let a := rangeOr r0 (t0 ++ t1)
  let exp0 := getOverlaps vt0 a.1 a.2 zero
  let x := rangeOr r0 exp0
  let exp1 := getOverlaps vt1 x.1 x.2 false
  if t1 ≠ [] ∧ t0.length < exp0.length ∧ fits ∧ exp1.length = t1.length then (exp0, exp1)
  else (t0, t1)

/-! ### What a compaction writes -/

/-- No deeper table has the key in its range.  `common/db/xleveldb/session_compaction.go:226-243`
(`baseLevelForKey`); the code keeps, for each level, how many tables it has left behind, which is
what `dropWhile` leaves out, since the keys asked for only grow. -/
def baseLevel (lev : Nat → List (File K V)) (depth level : Nat) (k : K) : Bool :=
  (List.range depth).all (fun i =>
    if level + 2 ≤ i then
      match (lev i).dropWhile (fun t => decide (t.hi.key < k)) with
      | [] => true
      | t :: _ => decide (k < t.lo.key)
    else true)

/-- The entry is left out by a compaction: a newer entry of the same key is old enough for every
reader, or the entry is a deletion old enough for every reader and there is nothing below to hide.
`prev` is the entry before it in the merged order.
`common/db/xleveldb/db_compaction.go:460, 480-505`. -/
def dropped (minSeq : Nat) (base : K → Bool) (prev : Option (Entry K V)) (e : Entry K V) : Bool :=
  (match prev with
   | some p => decide (p.key = e.key) && decide (p.seq ≤ minSeq)
   | none => false)
  || (e.val.isNone && decide (e.seq ≤ minSeq) && base e.key)

/-- The entry is the first of its user key.  `common/db/xleveldb/db_compaction.go:460`. -/
def fresh (prev : Option (Entry K V)) (e : Entry K V) : Bool :=
  match prev with
  | some p => decide (p.key ≠ e.key)
  | none => true

/-- The tables a compaction writes: the entries in order, some left out, cut into tables where a
new user key begins and `stop` says so.  `common/db/xleveldb/db_compaction.go:422-528`
(`tableCompactionBuilder.run`); `stop i` is `shouldStop || needFlush()` at the `i`-th entry. -/
def build (minSeq : Nat) (base : K → Bool) (stop : Nat → Bool) :
    List (Entry K V) → Nat → Option (Entry K V) → List (Entry K V) → List (List (Entry K V))
  | [], _, _, cur => if cur.isEmpty then [] else [cur]
  | e :: rest, i, prev, cur =>
    if fresh prev e && !cur.isEmpty && stop i then
      cur :: build minSeq base stop rest (i + 1) (some e)
        (if dropped minSeq base prev e then [] else [e])
    else
      build minSeq base stop rest (i + 1) (some e)
        (if dropped minSeq base prev e then cur else cur ++ [e])

/-- Make a table of some entries.  `common/db/xleveldb/table.go:483-520` (`tWriter.append`,
`finish`): the first and the last key are kept in the record. -/
def mkFile (num : Nat) : List (Entry K V) → List (File K V)
  | [] => []
  | e :: es => [⟨num, e :: es, e, (e :: es).getLast (by simp)⟩]

/-- Make tables with numbers in turn.  `common/db/xleveldb/table.go:301-314` (`create`),
`session_util.go` (`allocFileNum`). -/
def mkFiles : Nat → List (List (Entry K V)) → List (File K V)
  | _, [] => []
  | n, es :: rest => mkFile n es ++ mkFiles (n + 1) rest

/-- The entries of the taken tables in order: what the merged iterator of the compaction runs
through.  `common/db/xleveldb/session_compaction.go:266-305` (`newIterator`). -/
def mergedEntries (fs : List (File K V)) : List (Entry K V) :=
  sortBy (fun a b => prior a b || decide (a.key = b.key ∧ a.seq = b.seq)) (fs.flatMap (·.es))

/-- The least sequence number that a reader may hold.  `common/db/xleveldb/db_snapshot.go:63-73`
(`minSeq`). -/
def minSeq (d : Db K V) : Nat := d.snaps.head?.getD d.seq

/-- Pick a compaction of a level, for the given tables of it, and build its tables.
`common/db/xleveldb/session_compaction.go:48-128` (`pickCompaction`, `getCompactionRange`,
`newCompaction`), `db_compaction.go:540-580` (`tableCompaction`).  The tables picked first are any
of the level; `move` asks for the table to be moved as it is, where that is allowed
(`trivial`, `session_compaction.go:222-224`). -/
def pick (d : Db K V) (level : Nat) (f : File K V) (fs : List (File K V)) (fits move : Bool)
    (stop : Nat → Bool) : Job K V :=
  let t := expand (d.lev level) (d.lev (level + 1)) (level == 0) f fs fits
  let outs :=
    if move ∧ t.1.length = 1 ∧ t.2 = [] then t.1
    else mkFiles d.nextNum
      (build (minSeq d) (baseLevel d.lev d.depth level) stop (mergedEntries (t.1 ++ t.2)) 0 none [])
  ⟨level, t.1, t.2, outs, minSeq d⟩

/-- Tables in the order of their first keys.  `common/db/xleveldb/table.go:104-122`
(`lessByKey`, `sortByKey`). -/
def sortByKey (fs : List (File K V)) : List (File K V) :=
  sortBy (fun a b =>
    prior a.lo b.lo || (decide (a.lo.key = b.lo.key ∧ a.lo.seq = b.lo.seq) && decide (a.num ≤ b.num)))
    fs

/-- The tables of a level without those of the given numbers.
`common/db/xleveldb/version.go:471-479`. -/
def without (fs gone : List (File K V)) : List (File K V) :=
  fs.filter (fun f => !(gone.map (·.num)).contains f.num)

/-- The levels after a compaction is committed.  `common/db/xleveldb/version.go:421-512`
(`versionStaging.commit`, `finish`). -/
def commitLev (lev : Nat → List (File K V)) (j : Job K V) (i : Nat) : List (File K V) :=
  if i = j.level then without (lev i) j.t0
  else if i = j.level + 1 then sortByKey (without (without (lev i) j.t1) j.outs ++ j.outs)
  else lev i

/-! ### Steps -/

/-- What can happen.  A write of a batch is a `put` for each record and a `publish`; the memory
tables, compactions and snapshots go on between any two of them. -/
inductive Op (K V : Type) where
  | put (k : K) (v : Option V)
  | publish
  | rotate
  | flush
  | acquire
  | release (s : Nat)
  | pick (level : Nat) (nums : List Nat) (fits move : Bool) (stop : Nat → Bool)
  | commit
  | abort

/-- One step; `none` where the code does not let it happen.

* `put`, `publish`: `common/db/xleveldb/db_write.go:226-243` (`writeLocked`), `batch.go:250-262`
  (`putMem`): the records get consecutive numbers, and the number of the database moves after all
  are in.
* `rotate`: `db_write.go:46-71` (`rotateMem`), `db_state.go:122-150` (`newMem`), under the lock of
  writers; not while a frozen table is there.
* `flush`: `db_compaction.go:267-350` (`memCompaction`), `session_compaction.go:23-45`
  (`flushMemdb`; the level is 0, `memdbMaxLevel` being set in tests only).  An empty table is
  dropped.
* `acquire`, `release`: `db_snapshot.go:28-60`; a snapshot held twice is listed twice.
* `pick`, `commit`: see `pick` and `commitLev`; one compaction of tables at a time.  The tables
  picked for are named by their numbers, and there is one at least.
* `abort`: the compaction fails or is interrupted, its tables are removed
  (`db_compaction.go:530-538`). -/
def step (d : Db K V) : Op K V → Option (Db K V)
  | .put k v =>
    some { d with
      mem := insert ⟨k, d.wrote.length + 1, v⟩ d.mem
      wrote := d.wrote ++ [(k, v)] }
  | .publish => some { d with seq := d.wrote.length }
  | .rotate =>
    if d.frozen.isNone ∧ d.seq = d.wrote.length then
      some { d with mem := [], frozen := some d.mem }
    else none
  | .flush =>
    match d.frozen with
    | none => none
    | some es => some { d with
        frozen := none
        lev := fun i => if i = 0 then mkFile d.nextNum es ++ d.lev 0 else d.lev i
        depth := max d.depth 1
        nextNum := d.nextNum + 1 }
  | .acquire => some { d with snaps := d.snaps ++ [d.seq] }
  | .release s => if s ∈ d.snaps then some { d with snaps := d.snaps.erase s } else none
  | .pick level nums fits move stop =>
    match d.job, (d.lev level).filter (fun g => nums.contains g.num) with
    | none, f :: fs => some { d with
        job := some (pick d level f fs fits move stop)
        nextNum := d.nextNum + (pick d level f fs fits move stop).outs.length }
    | _, _ => none
  | .commit =>
    match d.job with
    | none => none
    | some j => some { d with
        job := none
        lev := commitLev d.lev j
        depth := max d.depth (j.level + 2)
        floor := max d.floor j.minSeq }
  | .abort => some { d with job := none }

/-- A run of steps.  `common/db/xleveldb/db.go`, `db_compaction.go:735-830` (`mCompaction`,
`tCompaction`): the loops that interleave them. -/
def run (d : Db K V) : List (Op K V) → Option (Db K V)
  | [] => some d
  | op :: ops => (step d op).bind (fun d' => run d' ops)

end Verif.Lsm
