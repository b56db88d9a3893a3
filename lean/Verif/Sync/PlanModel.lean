import Verif.Tactics

/-!
# What a synchronising node downloads

Models `constructTasks` and `compareCache` (`net/sync_cache_reader.go:264-432`, `493-521`): from the points (heights and hashes, every 100 blocks) that
peers gave for the chain and the chunks that are cached already, the list of chunks to download. Hashes are numbers. Heights are below
2^64 - 1, so sums and differences of ascending heights do not wrap. The `Points` of a task, which nothing reads, are left out. -/

namespace Verif.Sync

/-- `HashHeightPoint` (`net/message.go:465-468`). -/
structure Point where
  height : Nat
  hash : Nat
  size : Nat
deriving Repr, DecidableEq

/-- `Segment` (`interfaces/chain.go:66-71`): the blocks `lo` to `hi`; the hash of the block before and of the last. -/
structure Seg where
  lo : Nat
  hi : Nat
  prev : Nat
  hash : Nat
deriving Repr, DecidableEq

/-- The variables of the loop of `constructTasks`. -/
structure Build where
  seg : Seg
  size : Nat
  has : Bool
  done : List Seg
deriving Repr, DecidableEq

/-- One turn of the loop (`sync_cache_reader.go:281-313`). Sizes are what peers say, so their sum may wrap. -/
def buildStep (b : Build) (p : Point) : Build :=
  let size := (b.size + p.size) % 2 ^ 64
  if p.height + 1 - b.seg.lo > 2000 ∨ size > 2 ^ 21 then
    let seg := if b.has then b.seg else { b.seg with hi := p.height, hash := p.hash }
    { seg := ⟨seg.hi + 1, p.height, seg.hash, p.hash⟩, size := p.size, has := true, done := b.done ++ [seg] }
  else { b with seg := { b.seg with hi := p.height, hash := p.hash }, size := size, has := true }

/-- `constructTasks` (`sync_cache_reader.go:264-323`). It panics on the empty list, which its callers do not give it. -/
def constructTasks : List Point → List Seg
  | [] => []
  | p :: l =>
    let b := l.foldl buildStep ⟨⟨p.height + 1, 0, p.hash, 0⟩, 0, false, []⟩
    let last := l.getLastD p
    b.done ++ [{ b.seg with hi := last.height, hash := last.hash }]

/-- The inner loop of `compareCache` (`sync_cache_reader.go:349-366`): whether both ends of the chunk are points, and the points that are left; the
point that ended the loop is looked at again for the next chunk. -/
def scanSeg (s : Seg) : List Point → Bool → Bool → Bool × Bool × List Point
  | [], f, t => (f, t, [])
  | p :: r, f, t =>
    let f := f || decide (s.lo = p.height + 1 ∧ s.prev = p.hash)
    let t := t || decide (s.hi = p.height ∧ s.hash = p.hash)
    if p.height ≥ s.hi then (f, t, p :: r) else scanSeg s r f t

/-- The first loop (`sync_cache_reader.go:338-373`): the chunks that are kept and those that are deleted. -/
def select (low high : Nat) : List Seg → List Point → List Seg × List Seg
  | [], _ => ([], [])
  | s :: r, pts =>
    if s.hi ≤ low then select low high r pts
    else if s.lo > high then ([], [])
    else
      let (f, t, pts') := scanSeg s pts false false
      let (k, d) := select low high r pts'
      if f && t then (s :: k, d) else (k, s :: d)

/-- The second loop (`sync_cache_reader.go:380-393`): neighbouring chunks are joined. -/
def joinSegs : List Seg → List Seg
  | [] => []
  | [s] => [s]
  | s :: t :: r => if s.hi + 1 = t.lo then joinSegs ({ s with hi := t.hi } :: r) else s :: joinSegs (t :: r)
termination_by l => l.length

/-- The map `points` (`sync_cache_reader.go:396-399`): where the chunk that starts after a height ends. -/
def segAt (m : List Seg) (h : Nat) : Option Nat := (m.find? (fun s => decide (s.lo - 1 = h))).map (·.hi)

/-- The variables of the third loop. -/
structure Ex where
  start : Nat
  segEnd : Nat
  inSeg : Bool
  ts : List Seg
deriving Repr, DecidableEq

/-- One turn of the third loop (`sync_cache_reader.go:404-429`), for the point with the index `i`. -/
def exStep (l : List Point) (m : List Seg) (e : Ex) (i : Nat) (p : Point) : Ex :=
  if p.height ≥ e.segEnd then
    let start := if e.inSeg then i else e.start
    match segAt m p.height with
    | none => { e with start := start, inSeg := false }
    | some v =>
      { start := start, segEnd := v, inSeg := true
        ts := if i > 0 then e.ts ++ constructTasks ((l.take (i + 1)).drop start) else e.ts }
  else e

/-- The third loop. -/
def exLoop (l : List Point) (m : List Seg) : Ex → Nat → List Point → Ex
  | e, _, [] => e
  | e, i, p :: r => exLoop l m (exStep l m e i p) (i + 1) r

/-- `compareCache` (`sync_cache_reader.go:331-432`): the tasks and the chunks that are deleted. -/
def compareCache (segs : List Seg) (l : List Point) : List Seg × List Seg :=
  let low := (l.headD ⟨0, 0, 0⟩).height
  let high := (l.getLastD ⟨0, 0, 0⟩).height
  let (keep, del) := select low high segs l
  match keep with
  | [] => (constructTasks l, del)
  | _ :: _ =>
    let e := exLoop l (joinSegs keep) ⟨0, 0, false, []⟩ 0 l
    (e.ts ++ constructTasks (l.drop e.start), del)

/-- `cacheReader.compareCache` (`sync_cache_reader.go:493-521`): the first point is replaced by the own block at which synchronising starts. -/
def plan (segs : List Seg) (start : Point) (l : List Point) : List Seg × List Seg :=
  let l := { start with size := (l.headD start).size } :: l.tail
  match segs with
  | [] => (constructTasks l, [])
  | s :: r =>
    if s.lo ≥ (l.getLastD start).height then (constructTasks l, [])
    else if ((s :: r).getLastD s).hi ≤ start.height then (constructTasks l, [])
    else compareCache (s :: r) l

/-- `executor.download` (`net/sync_downloader.go:236-240`) leaves out tasks without blocks. -/
def real (ts : List Seg) : List Seg := ts.filter (fun t => decide (t.lo ≤ t.hi))

end Verif.Sync
