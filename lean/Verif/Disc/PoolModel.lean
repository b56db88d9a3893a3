import Verif.Tactics

/-!
# Model of the pool of requests while an answer with nodes arrives

`net/discovery/pool.go` (`add`, `rec`, `clean`, `findNodeRequest.handle`),
`net/discovery/socket.go` (`readLoop`, `findNode`) and
`net/discovery/discovery.go` (`findNode`, `receiveEndPointCurr`,
`receiveEndPoint`, `ping`).

Three kinds of goroutines work on an answer.  The reader takes packets from the
socket and hands the end points over in a channel, while it holds the lock of
the pool.  The searcher takes them from the channel and starts a worker for each
end point, no more than ten at a time.  A worker pings its end point, and for
that puts a request into the pool, for which it needs the lock.

What is simplified: one request (there is only one search at a time,
`Discovery.looking`); other packets are left out; every end point is a new one,
so that it is pinged; sending the ping takes no step of its own.
-/

namespace Verif.Disc

/-- discovery.go:615: the buffer of `curr`. -/
def workersMax : Nat := 10

/-- What the searcher does: waits at `range epChan`, has `k` end points left of
those it took, or has left the loop. -/
inductive Searcher where
  | waiting
  | working (k : Nat)
  | done
deriving DecidableEq, Repr

/-- The state. -/
structure Pool where
  /-- packets of the answer that have not been read: the number of end points,
  and whether it is marked as the last -/
  packets : List (Nat × Bool)
  /-- the packet the reader has in `rec`, with the lock held -/
  inRec : Option (Nat × Bool)
  /-- the channel of the request: it has room for one (socket.go:217) -/
  chan : Option Nat
  /-- the channel is closed and the request removed -/
  closed : Bool
  received : Nat
  searcher : Searcher
  workers : Nat
deriving DecidableEq, Repr

/-- A request was sent. -/
def Pool.start (packets : List (Nat × Bool)) : Pool := ⟨packets, none, none, false, 0, .waiting, 0⟩

/-- One step of one goroutine; `count` is the number of nodes asked for. -/
inductive Pool.Step (count : Nat) : Pool → Pool → Prop
  /-- The reader gets a packet and takes the lock (pool.go:120-132).  A packet
  for which there is no request any more is dropped. -/
  | read (s : Pool) (n : Nat) (last : Bool) (rest : List (Nat × Bool)) :
      s.inRec = none → s.packets = (n, last) :: rest →
      Pool.Step count s { s with packets := rest, inRec := if s.closed then none else some (n, last) }
  /-- `f.ch <- n.endpoints`, which waits while the channel is full, then the
  test whether this was the end, then the lock is given back (pool.go:245-251) -/
  | send (s : Pool) (n : Nat) (last : Bool) :
      s.inRec = some (n, last) → s.chan = none →
      Pool.Step count s { s with
        inRec := none, chan := some n, received := s.received + n,
        closed := decide (count ≤ s.received + n) || last }
  /-- The searcher takes what is in the channel (discovery.go:635). -/
  | take (s : Pool) (n : Nat) :
      s.searcher = .waiting → s.chan = some n →
      Pool.Step count s { s with chan := none, searcher := .working n }
  /-- The channel is closed and empty: the loop is left. -/
  | leave (s : Pool) :
      s.searcher = .waiting → s.chan = none → s.closed = true →
      Pool.Step count s { s with searcher := .done }
  /-- `curr <- struct{}{}`, which waits while there are ten workers, and the
  start of a worker (discovery.go:638-641). -/
  | launch (s : Pool) (k : Nat) :
      s.searcher = .working (k + 1) → s.workers < workersMax →
      Pool.Step count s { s with searcher := .working k, workers := s.workers + 1 }
  /-- All end points were given to workers. -/
  | next (s : Pool) :
      s.searcher = .working 0 → Pool.Step count s { s with searcher := .waiting }
  /-- A worker puts its request into the pool, when the lock is free, and ends
  (pool.go:103-118, discovery.go:504, 656-663). -/
  | work (s : Pool) :
      0 < s.workers → s.inRec = none →
      Pool.Step count s { s with workers := s.workers - 1 }
  /-- The time of the request is over: the cleaner, when it gets the lock,
  closes the channel and removes the request (pool.go:163-182, 237-241). -/
  | expire (s : Pool) :
      s.inRec = none → s.closed = false →
      Pool.Step count s { s with closed := true }

/-- Any number of steps. -/
inductive Pool.Steps (count : Nat) : Pool → Pool → Prop
  | refl (s : Pool) : Pool.Steps count s s
  | tail (s t u : Pool) : Pool.Steps count s t → Pool.Step count t u → Pool.Steps count s u

/-- Nothing can happen any more. -/
def Pool.Stuck (count : Nat) (s : Pool) : Prop := ∀ t, ¬ Pool.Step count s t

end Verif.Disc
