import Verif.Tactics

/-!
The worker that makes the receive blocks of contracts (ledger/onroad/contract.go, taskprocessor.go): its start and stop, the
events it hears of, and its processors, as steps of goroutines that interleave freely. Each step is one access to shared
state (a mutex, an atomic flag, a sync.Map).

Simplifications: one group; quotas are left out, so a processor may take any task of the queue (its order is the subject of
Verif.Work.Heap); the choice of a send is one step (its details are the subject of Verif.Work.Acquire), and errors of the
chain are left out; waking a processor is left out, since it wakes by itself after half a second; Start with an error or
without contracts, which only clears the cancel flag, is left out; that Start writes the queue without its mutex is left
out. `lost` is not part of the code: it names the contracts for which a task or a signal was dropped and none was
queued since.
-/

namespace Verif.Work

/-- ledger/onroad/worker.go:24-33: RETRY (until the next snapshot block) and OUT (for this period). -/
inductive Inf
  | retry
  | out
deriving DecidableEq, Repr

/-- Where a processor is (ledger/onroad/taskprocessor.go:32-66). -/
inductive Pc
  /-- The goroutine is started, `wg.Add(1)` is still to come (line 33). -/
  | spawned
  /-- Before the check of the cancel flag (line 39). -/
  | loop
  /-- Before `popContractTask` (line 43). -/
  | ready
  /-- Has a task, before `isContractInBlackList` (line 46). -/
  | popped (a : Nat)
  /-- Before `addContractIntoWorkingList` (line 46). -/
  | checked (a : Nat)
  /-- In the working list, before `acquireOnRoadBlocks` (lines 49, 70). -/
  | busy (a : Nat)
  /-- Has the send `s` of the caller `x` (lines 74-172). -/
  | holds (a x s : Nat)
  /-- Before `removeContractFromWorkingList` (line 50), with the answer `canContinue`. -/
  | leaving (a : Nat) (again : Bool)
  /-- Before `pushContractTask` (line 53). -/
  | repush (a : Nat)
  /-- The queue was empty; before the second check of the cancel flag (line 58). -/
  | idle
  /-- Waits (line 62). -/
  | waiting
  /-- Has returned. -/
  | done
deriving DecidableEq, Repr

/-- What the chain's thread does about a contract: about to look up the listener (chain_events.go:185-189), in the listener
before the blacklist check (contract.go:114-117), before the push (contract.go:124-128; 151-159 for released contracts). -/
inductive Sig
  | raised (a : Nat)
  | heard (a : Nat)
  | toPush (a : Nat)
deriving DecidableEq, Repr

/-- The contract of a signal. -/
def Sig.addr : Sig → Nat
  | .raised a => a
  | .heard a => a
  | .toPush a => a

/-- The phases of the worker (contract.go:82-203): not started; Start has filled the queue but not registered the listeners;
started; Stop has removed the listeners and set the cancel flag; Stop has waited for the processors. -/
inductive Mode
  | off
  | opening
  | running
  | closing
  | clearing
deriving DecidableEq, Repr

/-- The worker, its goroutines, and what it sees of the chain: the contracts, and of each caller the first waiting send. -/
structure St where
  mode : Mode
  cancel : Bool
  known : List Nat
  front : Nat → Nat → Option Nat
  list : List Nat
  queue : List Nat
  work : List Nat
  black : Nat → Option Inf
  inf : Nat → Nat → Option Inf
  signals : List Sig
  procs : List Pc
  lost : List Nat

/-- contract.go:57-79: NewContractWorker. -/
def St.init : St :=
  { mode := .off, cancel := false, known := [], front := fun _ _ => none, list := [], queue := [], work := [], black := fun _ => none
    inf := fun _ _ => none, signals := [], procs := [], lost := [] }

/-- contract.go:245-256: pushContractTask: a contract is in the queue once. -/
def St.push (s : St) (a : Nat) : St :=
  { s with queue := if a ∈ s.queue then s.queue else a :: s.queue, lost := s.lost.filter (· ≠ a) }

/-- A processor moves. -/
def St.go (s : St) (i : Nat) (p : Pc) : St := { s with procs := s.procs.set i p }

/-- The list without an entry. -/
def St.unsignal (s : St) (j : Nat) : St := { s with signals := s.signals.eraseIdx j }

/-- worker.go:17-22: the number of processors. -/
def processors : Nat := 2

/-- A function changed at a place. -/
def upd {α : Type} (f : Nat → α) (a : Nat) (v : α) : Nat → α := fun b => if b = a then v else f b

/-- One step. -/
inductive Step : St → St → Prop
  /-- A contract is created. -/
  | create {s : St} (a : Nat) : Step s { s with known := a :: s.known }
  /-- The chain changes the first waiting send of a caller (chain_events.go:60-71, 91-102, 154-165): a signal is given for new
  sends and for deleted receives, without which a queue does not become non-empty. -/
  | ledger {s : St} (a x : Nat) (v : Option Nat) (sig : Bool) : a ∈ s.known → (s.front a x = none → v ≠ none → sig = true) →
      Step s { s with front := upd s.front a (upd (s.front a) x v), signals := if sig then .raised a :: s.signals else s.signals }
  /-- chain_events.go:185-189: a listener is registered. -/
  | hear {s : St} (j a : Nat) : s.signals[j]? = some (.raised a) → s.mode = .running →
      Step s { s.unsignal j with signals := .heard a :: s.signals.eraseIdx j }
  /-- chain_events.go:185-189: there is no listener. -/
  | miss {s : St} (j a : Nat) : s.signals[j]? = some (.raised a) → s.mode ≠ .running →
      Step s { s.unsignal j with lost := a :: s.lost }
  /-- contract.go:115-117: the contract is in the blacklist. -/
  | refuse {s : St} (j a : Nat) : s.signals[j]? = some (.heard a) → s.black a ≠ none → Step s (s.unsignal j)
  /-- contract.go:115-122: it is not. -/
  | admit {s : St} (j a : Nat) : s.signals[j]? = some (.heard a) → s.black a = none →
      Step s { s.unsignal j with signals := .toPush a :: s.signals.eraseIdx j }
  /-- contract.go:124-128, 151-159: the task is queued unless the worker is cancelled. -/
  | push {s : St} (j a : Nat) : s.signals[j]? = some (.toPush a) → s.cancel = false → Step s ((s.unsignal j).push a)
  | tooLate {s : St} (j a : Nat) : s.signals[j]? = some (.toPush a) → s.cancel = true → Step s (s.unsignal j)
  /-- contract.go:132-143, 321-338: a snapshot block: a contract of the list that is not OUT is released with its callers in
  state RETRY, and a task is queued if there was something to release. -/
  | release {s : St} (a : Nat) : a ∈ s.list → s.black a ≠ some .out → (s.black a = some .retry ∨ ∃ x, s.inf a x = some .retry) →
      Step s { s with black := upd s.black a none, inf := upd s.inf a (fun x => if s.inf a x = some .retry then none else s.inf a x)
                      signals := .toPush a :: s.signals }
  /-- contract.go:92-110, 218-234: Start fills the queue with all contracts. -/
  | start {s : St} : s.mode = .off →
      Step s { s with mode := .opening, cancel := false, list := s.known, queue := s.known, lost := [] }
  /-- contract.go:112-168: ... registers the listeners and starts the processors. -/
  | opened {s : St} : s.mode = .opening → Step s { s with mode := .running, procs := s.procs ++ List.replicate processors .spawned }
  /-- contract.go:182-190: Stop removes the listeners and cancels. -/
  | stop {s : St} : s.mode = .running → Step s { s with mode := .closing, cancel := true }
  /-- contract.go:193: `wg.Wait()` returns when no processor between `wg.Add(1)` and `wg.Done()` is left. -/
  | waited {s : St} : s.mode = .closing → (∀ p ∈ s.procs, p = .spawned ∨ p = .done) → Step s { s with mode := .clearing }
  /-- contract.go:196-200: ... clears the blacklist, the working list and the caches. -/
  | clear {s : St} : s.mode = .clearing →
      Step s { s with mode := .off, black := fun _ => none, inf := fun _ _ => none, work := [] }
  /-- taskprocessor.go:33. -/
  | add {s : St} (i : Nat) : s.procs[i]? = some .spawned → Step s (s.go i .loop)
  /-- taskprocessor.go:39-42. -/
  | goOn {s : St} (i : Nat) : s.procs[i]? = some .loop → s.cancel = false → Step s (s.go i .ready)
  | quit {s : St} (i : Nat) : s.procs[i]? = some .loop → s.cancel = true → Step s (s.go i .done)
  /-- taskprocessor.go:43, contract.go:258-265. -/
  | pop {s : St} (i a : Nat) : s.procs[i]? = some .ready → a ∈ s.queue → Step s { s.go i (.popped a) with queue := s.queue.filter (· ≠ a) }
  | empty {s : St} (i : Nat) : s.procs[i]? = some .ready → s.queue = [] → Step s (s.go i .idle)
  /-- taskprocessor.go:46-48. -/
  | isBlack {s : St} (i a : Nat) : s.procs[i]? = some (.popped a) → s.black a ≠ none → Step s (s.go i .loop)
  | notBlack {s : St} (i a : Nat) : s.procs[i]? = some (.popped a) → s.black a = none → Step s (s.go i (.checked a))
  /-- taskprocessor.go:46-48, contract.go:278-287: the contract is at work: the task is dropped. -/
  | dropped {s : St} (i a : Nat) : s.procs[i]? = some (.checked a) → a ∈ s.work → Step s { s.go i .loop with lost := a :: s.lost }
  | enter {s : St} (i a : Nat) : s.procs[i]? = some (.checked a) → a ∉ s.work → Step s { s.go i (.busy a) with work := a :: s.work }
  /-- contract.go:340-386: acquireOnRoadBlocks. -/
  | acquire {s : St} (i a x m : Nat) : s.procs[i]? = some (.busy a) → s.front a x = some m → s.inf a x = none → Step s (s.go i (.holds a x m))
  | nothing {s : St} (i a : Nat) : s.procs[i]? = some (.busy a) → (∀ x, s.front a x ≠ none → s.inf a x ≠ none) → Step s (s.go i (.leaving a false))
  /-- taskprocessor.go:83, 92, 107, 118, 147, 172: nothing is restricted, the contract is queued again. -/
  | again {s : St} (i a x m : Nat) : s.procs[i]? = some (.holds a x m) → Step s (s.go i (.leaving a true))
  /-- taskprocessor.go:95-99, 129-133, contract.go:388-393: the caller is restricted. -/
  | restrictCaller {s : St} (i a x m : Nat) (v : Inf) : s.procs[i]? = some (.holds a x m) →
      Step s { s.go i (.leaving a true) with inf := upd s.inf a (upd (s.inf a) x (some v)) }
  /-- taskprocessor.go:114-117, 135-139, 152-163, 167-169, contract.go:302-309: the contract is restricted; OUT deletes its cache. -/
  | restrict {s : St} (i a x m : Nat) (v : Inf) : s.procs[i]? = some (.holds a x m) →
      Step s { s.go i (.leaving a false) with
        black := upd s.black a (some v), inf := if v = .out then upd s.inf a (fun _ => none) else s.inf }
  /-- taskprocessor.go:50-55, contract.go:289-293. -/
  | leave {s : St} (i a : Nat) (again : Bool) : s.procs[i]? = some (.leaving a again) →
      Step s { s.go i (if again then .repush a else .loop) with work := s.work.filter (· ≠ a) }
  /-- taskprocessor.go:52-53. -/
  | requeue {s : St} (i a : Nat) : s.procs[i]? = some (.repush a) → Step s ((s.go i .loop).push a)
  /-- taskprocessor.go:58-62. -/
  | sleep {s : St} (i : Nat) : s.procs[i]? = some .idle → s.cancel = false → Step s (s.go i .waiting)
  | quit' {s : St} (i : Nat) : s.procs[i]? = some .idle → s.cancel = true → Step s (s.go i .done)
  | wake {s : St} (i : Nat) : s.procs[i]? = some .waiting → Step s (s.go i .loop)

end Verif.Work
