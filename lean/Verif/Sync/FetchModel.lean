import Verif.Sync.TaskModel

/-!
# Asking peers for single blocks

Models `net/fetcher.go`: requests for a block by its hash that others may suppress (`FetchSnapshotBlocks` and its three siblings), the question whether a peer has a block (`fetchSnapshotBlock`), answers
and the removal of old records. Hashes and peers are numbers, time is in seconds. Each function holds the lock of the fetcher; the calls of one request follow one another here. What is sent and which callbacks are
called are outputs. The black list and the test that the node is not synchronising (`422-429`) are left out: they only make a request do nothing. -/

namespace Verif.Sync

/-- `record` (`fetcher.go:41-50`) with the results of its targets (`36-39`). `cb` tells that there is a callback. -/
structure FRec where
  id : Nat
  hash : Nat
  addAt : Nat
  t : Nat
  mark : Nat
  st : St
  targets : List (Nat × St × Nat)
  cb : Bool
deriving Repr, DecidableEq

/-- `recordsById`, `recordsByHash` and the last number given (`fetcher.go:20-26`, `258-277`). -/
structure FState where
  next : Nat
  recs : List FRec
  byHash : Nat → Option Nat

/-- `newFetcher` (`fetcher.go:279-305`). -/
def FState.empty : FState := ⟨0, [], fun _ => none⟩

/-- What is seen from outside: requests sent (number, hash, peer), callbacks called (number, without error) and the numbers of questions. -/
structure FOut where
  sent : List (Nat × Nat × Nat)
  calls : List (Nat × Bool)
  asked : List Nat

/-- Nothing. -/
def FOut.nil : FOut := ⟨[], [], []⟩

/-- One after the other. -/
def FOut.append (a b : FOut) : FOut := ⟨a.sent ++ b.sent, a.calls ++ b.calls, a.asked ++ b.asked⟩

/-- `refresh` (`fetcher.go:56-60`). -/
def refresh (r : FRec) (now : Nat) : FRec := { r with st := .pending, mark := 0, addAt := now }

/-- A result for a target that there is (`fetcher.go:72-81`). -/
def setTarget (l : List (Nat × St × Nat)) (p : Nat) (s : St) (now : Nat) : List (Nat × St × Nat) := l.map (fun x => if x.1 = p then (p, s, now) else x)

/-- `record.done` (`fetcher.go:68-113`); the second part is the call of the callback. -/
def recDone (r : FRec) (peer : Option Nat) (ok : Bool) (now : Nat) : FRec × Option Bool :=
  let r1 := match peer with
    | some p => { r with targets := setTarget r.targets p (if ok then .done else .error) now }
    | none => r
  if r.st ≠ .pending then (r1, none)
  else if ok then ({ r1 with st := .done, t := now }, if r.cb then some true else none)
  else if r1.targets.all (fun x => decide (x.2.1 = .error)) then ({ r1 with st := .error, t := now }, if r.cb then some false else none)
  else (r1, none)

/-- Changes the record with a number. -/
def updRec (l : List FRec) (id : Nat) (f : FRec → FRec) : List FRec := l.map (fun r => if r.id = id then f r else r)

/-- The callback that is called, if any. -/
def callOf (id : Nat) : Option Bool → List (Nat × Bool)
  | some b => [(id, b)]
  | none => []

/-- `fetcher.done` (`fetcher.go:203-214`). -/
def fdone (s : FState) (id : Nat) (peer : Nat) (ok : Bool) (now : Nat) : FState × FOut :=
  match s.recs.find? (fun r => decide (r.id = id)) with
  | none => (s, .nil)
  | some r =>
    let x := recDone r (some peer) ok now
    ({ s with recs := updRec s.recs id (fun _ => x.1) }, ⟨[], callOf id x.2, []⟩)

/-- `fetcher.pending` (`fetcher.go:190-201`). -/
def fpending (s : FState) (id peer now : Nat) : FState := { s with recs := updRec s.recs id (fun r => { r with targets := setTarget r.targets peer .pending now }) }

/-- `clean` (`fetcher.go:115-135`): records older than 30 seconds are removed, with the entry for their hash, and their callback is called with an error if they wait. -/
def fclean (s : FState) (now : Nat) : FState × FOut :=
  let gone := s.recs.filter (fun r => decide (now - r.addAt > 30))
  (⟨s.next, s.recs.filter (fun r => decide (¬ now - r.addAt > 30)), fun h => if gone.any (fun r => decide (r.hash = h)) then none else s.byHash h⟩,
    ⟨[], gone.filterMap (fun r => (recDone r none false now).2.map (fun b => (r.id, b))), []⟩)

/-- `hold` (`fetcher.go:138-177`): the number of the record and whether the request is suppressed. -/
def fhold (s : FState) (hash now : Nat) : FState × Nat × Bool :=
  match (s.byHash hash).bind (fun i => s.recs.find? (fun r => decide (r.id = i))) with
  | some r =>
    if r.st = .error then ({ s with recs := updRec s.recs r.id (fun r => refresh r now) }, r.id, false)
    else if r.st = .done ∧ r.mark ≥ 3 ∧ now - r.t ≥ 4 then ({ s with recs := updRec s.recs r.id (fun r => refresh r now) }, r.id, false)
    else if r.st ≠ .done ∧ r.mark ≥ 6 ∧ now - r.addAt ≥ 8 then ({ s with recs := updRec s.recs r.id (fun r => refresh r now) }, r.id, false)
    else ({ s with recs := updRec s.recs r.id (fun r => { r with mark := r.mark + 1 }) }, r.id, true)
  | none => (⟨s.next + 1, s.recs ++ [⟨s.next + 1, hash, now, 0, 0, .pending, [], false⟩], fun h => if h = hash then some (s.next + 1) else s.byHash h⟩, s.next + 1, false)

/-- May the peer be asked again (`fetcher.go:236-247`)? -/
def mayAsk (targets : List (Nat × St × Nat)) (now p : Nat) : Bool :=
  match targets.find? (fun x => decide (x.1 = p)) with
  | none => true
  | some (_, .done, _) => true
  | some (_, .error, t) => !decide (now - t < 10)
  | some (_, .cancel, _) => true
  | some _ => false

/-- The targets with new ones that wait (`fetcher.go:263-268`), a map. -/
def addTargets (l : List (Nat × St × Nat)) (ps : List Nat) (now : Nat) : List (Nat × St × Nat) :=
  (l.filter (fun x => decide (x.1 ∉ ps))) ++ ps.map (fun p => (p, .waiting, now))

/-- The peers of `pickTargets` (`fetcher.go:217-261`); `peers` are the reliable peers with their heights in the order of the map. -/
def pickPeers (targets : List (Nat × St × Nat)) (peers : List (Nat × Nat)) (height now : Nat) : List Nat :=
  let h := if height > 10 then height - 10 else height
  (((peers.filter (fun p => decide (h ≤ p.2))).map (·.1)).filter (mayAsk targets now)).take 3

/-- The sending of a request to the peers (`fetcher.go:446-463`): one that fails counts as an answer with an error. -/
def fsend (s : FState) (id hash now : Nat) (sendOk : Nat → Bool) : List Nat → FState × FOut
  | [] => (s, .nil)
  | p :: ps =>
    let x := if sendOk p then (fpending s id p now, ⟨[(id, hash, p)], [], []⟩) else fdone s id p false now
    let y := fsend x.1 id hash now sendOk ps
    (y.1, x.2.append y.2)

/-- What happens. -/
inductive FEv
  /-- `FetchSnapshotBlocks…`, `FetchAccountBlocks…` (`fetcher.go:421-608`) -/
  | fetch (hash height now : Nat) (peers : List (Nat × Nat)) (sendOk : Nat → Bool)
  /-- `fetchSnapshotBlock` (`fetcher.go:610-629`); `stale` is the hash that the record had before, as it comes from a pool and `add` (`179-188`) does not set it -/
  | query (hash peer now stale : Nat) (sendOk : Bool)
  /-- blocks arrive (`fetcher.go:353-389`), accepted by the receiver -/
  | answer (id peer : Nat) (blocks : List Nat) (now : Nat)
  /-- a peer says that it has nothing (`fetcher.go:391-392`) -/
  | exception (id peer now : Nat)
  /-- `clean` -/
  | clean (now : Nat)

/-- One event. -/
def fstep (s : FState) : FEv → FState × FOut
  | .fetch hash height now peers sendOk =>
    let x := fhold s hash now
    if x.2.2 then (x.1, .nil)
    else
      match x.1.recs.find? (fun r => decide (r.id = x.2.1)) with
      | none => (x.1, .nil)
      | some r =>
        let ps := pickPeers r.targets peers height now
        fsend { x.1 with recs := updRec x.1.recs x.2.1 (fun r => { r with targets := addTargets r.targets ps now }) } x.2.1 hash now sendOk ps
  | .query hash peer now stale sendOk =>
    let id := s.next + 1
    let s1 : FState := { s with next := id, recs := s.recs ++ [⟨id, stale, now, 0, 0, .pending, [], true⟩] }
    let x := if sendOk then (s1, ⟨[(id, hash, peer)], [], []⟩) else fdone s1 id peer false now
    (x.1, FOut.append ⟨[], [], [id]⟩ x.2)
  | .answer id peer blocks now => if blocks.isEmpty then (s, .nil) else fdone s id peer true now
  | .exception id peer now => fdone s id peer false now
  | .clean now => fclean s now

/-- All events. -/
def frun : FState → List FEv → FState × FOut
  | s, [] => (s, .nil)
  | s, e :: es =>
    let x := fstep s e
    let y := frun x.1 es
    (y.1, x.2.append y.2)

end Verif.Sync
