import Verif.Tactics

/-!
# The event loop and its filters

Models the threads behind the polled filters (`subscribe_new…Filter`, `subscribe_getChangesByFilterId`, `subscribe_uninstallFilter`): the event loop (`rpcapi/api/filters/event_system.go:93-131`, `:202-249`), the goroutine of each filter
(`rpcapi/api/filters/subscribe.go:161-177` and its copies), `timeoutLoop` (`:55-73`), `UninstallFilter` (`:358-370`), `getChangesByFilterId` (`:421-489`) and `Unsubscribe` (`event_system.go:291-307`).

An event is a number; `wants i e` says that filter `i` has something to tell about event `e` (what it is, is the subject of `EventModel`). The four channels from the ledger are one queue with room for 100 (`:60`), of which the loop takes the first. Filters are numbers, in the order of their random ids. `filterMapMu` is held over several steps only by `timeoutLoop`;
its other holders do not wait while they have it, so they are one step each, which needs the lock to be free. The channel of a filter has no room (`subscribe.go:153`), so a message is handed over when both sides are ready. Subscriptions over a connection, whose channels have room for 128, and the end of the event system are not modelled. -/

namespace Verif.Feed.Loop

/-- Where the goroutine that makes a filter, and then the filter's own goroutine, is: not yet there; installed but not yet in the map (`subscribe.go:154-159`); waiting in `select` (`:163`); having taken an event and waiting for the lock (`:165`); ended (`:174`). -/
inductive G where
  | no
  | born
  | wait
  | hold (e : Nat)
  | done
deriving DecidableEq, Repr

/-- Where `timeoutLoop` is (`subscribe.go:59-72`): waiting for the ticker; at a list of filters whose time is up, with the lock; in `Unsubscribe` for one of them, before and after its request was taken (`event_system.go:294-305`). -/
inductive TL where
  | idle
  | scan (todo : List Nat)
  | drain (i : Nat) (todo : List Nat)
  | wait (i : Nat) (todo : List Nat)
deriving DecidableEq, Repr

/-- Where `UninstallFilter` is for a filter: not called, or in `Unsubscribe` before and after its request was taken, or through (`subscribe.go:366-369`). -/
inductive RU where
  | no
  | drain
  | wait
  | fin
deriving DecidableEq, Repr

/-- The whole. `loop` is the event in hand and the filters that are still to get it. `inst` is the loop's `index`, `closed` the state of `err`, `inMap` is `filterMap`, `buf` what a filter has collected. Kept for the statements: `pushed` and `taken`, the events put in and taken out, `polled`, what a client got, and `since`, how many events had been taken when a filter was installed. -/
structure LSt where
  queue : List Nat := []
  pushed : List Nat := []
  taken : List Nat := []
  loop : Option (Nat × List Nat) := none
  uq : List Nat := []
  ids : List Nat := []
  inst : Nat → Bool := fun _ => false
  closed : Nat → Bool := fun _ => false
  g : Nat → G := fun _ => .no
  inMap : Nat → Bool := fun _ => false
  buf : Nat → List Nat := fun _ => []
  polled : Nat → List Nat := fun _ => []
  since : Nat → Nat := fun _ => 0
  tl : TL := .idle
  ru : Nat → RU := fun _ => .no

/-- A function with one value changed. -/
def upd {X : Type} (f : Nat → X) (i : Nat) (x : X) : Nat → X := fun j => if j = i then x else f j

/-- The lock of the map of filters is free. -/
def LSt.free (s : LSt) : Prop := s.tl = .idle

/-- Somebody is in `Unsubscribe` for a filter and takes what is sent to it (`event_system.go:294-304`). -/
def LSt.draining (s : LSt) (i : Nat) : Prop := (∃ todo, s.tl = .drain i todo) ∨ s.ru i = .drain

/-- What the node does by itself: the event loop, the goroutines of the filters, and the requests to unsubscribe that are under way. -/
inductive Inner (wants : Nat → Nat → Bool) : LSt → LSt → Prop
  /-- The loop takes an event and goes through the filters that it concerns, in any order (`event_system.go:102-109`, `:202-249`). -/
  | take (s : LSt) (e : Nat) (q r : List Nat) : s.loop = none → s.queue = e :: q → r.Nodup → (∀ i, i ∈ r ↔ s.inst i = true ∧ wants i e = true) →
      Inner wants s { s with queue := q, taken := s.taken ++ [e], loop := some (e, r) }
  /-- The loop hands the event to the filter's goroutine (`event_system.go:203`, `subscribe.go:164`). -/
  | hand (s : LSt) (e i : Nat) (r : List Nat) : s.loop = some (e, i :: r) → s.g i = .wait → Inner wants s { s with loop := some (e, r), g := upd s.g i (.hold e) }
  /-- The loop hands the event to somebody in `Unsubscribe`, who drops it (`event_system.go:298-302`). -/
  | drop (s : LSt) (e i : Nat) (r : List Nat) : s.loop = some (e, i :: r) → s.draining i → Inner wants s { s with loop := some (e, r) }
  /-- The loop is through with an event. -/
  | next (s : LSt) (e : Nat) : s.loop = some (e, []) → Inner wants s { s with loop := none }
  /-- The loop takes a request to uninstall (`event_system.go:114-117`). -/
  | uninstall (s : LSt) (i : Nat) (q : List Nat) : s.loop = none → s.uq = i :: q → Inner wants s { s with uq := q, inst := upd s.inst i false, closed := upd s.closed i true }
  /-- A filter's goroutine gets the lock and appends the event, if the filter is still in the map (`subscribe.go:165-169`). -/
  | append (s : LSt) (i e : Nat) : s.g i = .hold e → s.free →
      Inner wants s { s with g := upd s.g i .wait, buf := upd s.buf i (if s.inMap i then s.buf i ++ [e] else s.buf i) }
  /-- A filter's goroutine sees that it is uninstalled and ends (`subscribe.go:170-174`). -/
  | quit (s : LSt) (i : Nat) : s.g i = .wait → s.closed i = true → s.free → Inner wants s { s with g := upd s.g i .done, inMap := upd s.inMap i false }
  /-- A new filter is put into the map and its goroutine starts (`subscribe.go:157-161`). -/
  | enter (s : LSt) (i : Nat) : s.g i = .born → s.free → Inner wants s { s with g := upd s.g i .wait, inMap := upd s.inMap i true }
  /-- `UninstallFilter` places its request (`event_system.go:296`); the channel has room for 10 (`:65`). -/
  | ask (s : LSt) (i : Nat) : s.ru i = .drain → s.uq.length < 10 → Inner wants s { s with uq := s.uq ++ [i], ru := upd s.ru i .wait }
  /-- `UninstallFilter` sees that the filter is uninstalled (`event_system.go:305`). -/
  | asked (s : LSt) (i : Nat) : s.ru i = .wait → s.closed i = true → Inner wants s { s with ru := upd s.ru i .fin }
  /-- `timeoutLoop` unsubscribes the next filter, with the lock (`subscribe.go:65`). -/
  | expire (s : LSt) (i : Nat) (todo : List Nat) : s.tl = .scan (i :: todo) → Inner wants s { s with tl := .drain i todo }
  | expireAsk (s : LSt) (i : Nat) (todo : List Nat) : s.tl = .drain i todo → s.uq.length < 10 → Inner wants s { s with uq := s.uq ++ [i], tl := .wait i todo }
  | expired (s : LSt) (i : Nat) (todo : List Nat) : s.tl = .wait i todo → s.closed i = true → Inner wants s { s with inMap := upd s.inMap i false, tl := .scan todo }
  /-- `timeoutLoop` gives the lock back (`subscribe.go:71`). -/
  | unlock (s : LSt) : s.tl = .scan [] → Inner wants s { s with tl := .idle }

/-- What comes from outside: events of the ledger, calls of clients, and the ticker of `timeoutLoop`. -/
inductive Outer : LSt → LSt → Prop
  /-- The ledger puts an event into its channel, if there is room; else it waits, with the insertion of the block under way (`chain_subscribe.go:76`, `ledger/chain/insert.go:41`). -/
  | push (s : LSt) (e : Nat) : s.queue.length < 100 → Outer s { s with queue := s.queue ++ [e], pushed := s.pushed ++ [e] }
  /-- A client makes a filter, and the loop installs it (`event_system.go:110-113`, `:392-396`). -/
  | create (s : LSt) (i : Nat) : s.loop = none → i ∉ s.ids → Outer s { s with ids := s.ids ++ [i], inst := upd s.inst i true, g := upd s.g i .born, since := upd s.since i s.taken.length }
  /-- A client gets what a filter has collected (`subscribe.go:421-489`). -/
  | poll (s : LSt) (i : Nat) : s.free → s.inMap i = true → Outer s { s with polled := upd s.polled i (s.polled i ++ s.buf i), buf := upd s.buf i [] }
  /-- A client uninstalls a filter: it is taken off the map (`subscribe.go:360-365`). -/
  | uninstall (s : LSt) (i : Nat) : s.free → s.inMap i = true → Outer s { s with inMap := upd s.inMap i false, ru := upd s.ru i .drain }
  /-- The ticker: `timeoutLoop` takes the lock; `todo` are the filters in the map whose time is up (`subscribe.go:60-64`). -/
  | tick (s : LSt) (todo : List Nat) : s.free → (∀ i ∈ todo, s.inMap i = true) → todo.Nodup → Outer s { s with tl := .scan todo }

/-- The states that can follow a state. -/
inductive Run (wants : Nat → Nat → Bool) (s0 : LSt) : LSt → Prop
  | start : Run wants s0 s0
  | inner (s s' : LSt) : Run wants s0 s → Inner wants s s' → Run wants s0 s'
  | outer (s s' : LSt) : Run wants s0 s → Outer s s' → Run wants s0 s'

end Verif.Feed.Loop
