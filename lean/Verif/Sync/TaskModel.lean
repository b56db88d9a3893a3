import Verif.Tactics

/-!
# The queue of download tasks

Models `net/sync_downloader.go:31-88`, `208-290`, `323-365` and the outcomes of `413-432`, `485-522`. A task has a number instead of its segment, and the height it begins at. Each operation holds the
lock of the queue in the code; the state of a task is written without the lock when its download ends, which is taken as one step here. Waiting for room in the queue is left out. -/

namespace Verif.Sync

/-- `reqState` (`sync_downloader.go:33-41`). -/
inductive St | waiting | pending | done | error | cancel
deriving Repr, DecidableEq

/-- `syncTask` (`sync_downloader.go:51-56`). -/
structure Task where
  id : Nat
  start : Nat
  st : St
deriving Repr, DecidableEq

/-- The loop of `runTasks` (`sync_downloader.go:334-363`) over the tasks from `index` on. The index grows by `batch` after every task that is looked at, and by one more after one that is finished:
`skip` tasks of the rest are passed over. `old` tells whether a task was done more than 5 seconds ago, `k` is `clean`, `cont` is `continuous`. Gives the tasks after the calls of `exec` (`run`, 413-417,
marks them pending) and `clean`. -/
def visit (old : Nat → Bool) (maxB : Nat) : List Task → Nat → Nat → Nat → Bool → List Task × Nat
  | [], _, _, k, _ => ([], k)
  | t :: r, skip + 1, batch, k, cont =>
    let x := visit old maxB r skip batch k cont
    (t :: x.1, x.2)
  | t :: r, 0, batch, k, cont =>
    match t.st with
    | .done =>
      let x := visit old maxB r batch batch (if cont && old t.id then k + 1 else k) cont
      (t :: x.1, x.2)
    | .cancel =>
      let x := visit old maxB r batch batch (if cont then k + 1 else k) cont
      (t :: x.1, x.2)
    | .pending =>
      let x := visit old maxB r batch (batch + 1) k false
      (t :: x.1, x.2)
    | _ =>
      if batch < maxB then
        let x := visit old maxB r batch (batch + 1) k false
        ({ t with st := .pending } :: x.1, x.2)
      else (t :: r, k)

/-- `runTasks` (`sync_downloader.go:323-370`): the loop, and then the first `clean` tasks are dropped if they are more than a fifth. -/
def runTasks (old : Nat → Bool) (maxB : Nat) (l : List Task) : List Task :=
  let x := visit old maxB l 0 0 0 true
  if l.length / 5 < x.2 then x.1.drop x.2 else x.1

/-- The end of `do` (`sync_downloader.go:485-515`) for a task that is pending and whose download ends: it is done, waits again or had an error, as `out` says. -/
def endOne (out : Nat → Option St) (t : Task) : Task :=
  if t.st = .pending then
    match out t.id with
    | some s => { t with st := s }
    | none => t
  else t

/-- The same for all tasks. -/
def ended (out : Nat → Option St) (l : List Task) : List Task := l.map (endOne out)

/-- What happens to the queue: `download` (`sync_downloader.go:242-270`) with a new task and the order that sorting gives (`209-237`, ties in any order), a turn of the loop (`372-405`), ends of downloads. -/
inductive QOp
  | add (id start : Nat) (ord : List Task → List Task)
  | round (old : Nat → Bool) (maxB : Nat)
  | ends (out : Nat → Option St)

/-- One of these. -/
def qstep (l : List Task) : QOp → List Task
  | .add id start ord => ord (⟨id, start, .waiting⟩ :: l)
  | .round old maxB => runTasks old maxB l
  | .ends out => ended out l

/-- All of these. -/
def qrun (l : List Task) (ops : List QOp) : List Task := ops.foldl qstep l

end Verif.Sync
