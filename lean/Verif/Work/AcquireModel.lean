import Verif.Work.SchedModel

/-!
How the worker chooses the next send of a contract (ledger/onroad/contract.go:340-402, pending_cache.go). Maps are functions; what
Go's iteration over a map may choose is any of its entries. The chain may change between the two looks at it that
`acquireOnRoadBlocks` takes, the cache does not change meanwhile (only the release by a snapshot block could, which puts the
contract in the queue again). Errors of the chain are left out.
-/

namespace Verif.Work

/-- A send: its sender, its hash and its height. -/
structure Send where
  caller : Nat
  hash : Nat
  height : Nat
deriving DecidableEq, Repr

/-- pending_cache.go:13-18: callerPendingMap. -/
structure Cache where
  pend : Nat → Option (List Send)
  inferior : Nat → Option Inf

/-- pending_cache.go:20-25. -/
def Cache.new : Cache := { pend := fun _ => none, inferior := fun _ => none }

/-- pending_cache.go:53-65: getOnePending: the first of some list that is not empty. -/
inductive OnePending : Cache → Option Send → Cache → Prop
  | one {p : Cache} (x : Nat) (s : Send) (l : List Send) : p.pend x = some (s :: l) →
      OnePending p (some s) { p with pend := upd p.pend x (some l) }
  | none {p : Cache} : (∀ x l, p.pend x = some l → l = []) → OnePending p .none p

/-- pending_cache.go:67-96: addPendingMap. -/
def Cache.add (p : Cache) (s : Send) : Cache :=
  match p.pend s.caller with
  | none => { p with pend := upd p.pend s.caller (some [s]) }
  | some l =>
    match l.getLast? with
    | none => { p with pend := upd p.pend s.caller (some [s]) }
    | some pre =>
      if pre.height = s.height then p
      else if pre.height < s.height then { p with pend := upd p.pend s.caller (some (l ++ [s])) }
      else { p with pend := upd p.pend s.caller (some [s]) }

/-- contract.go:354-358. -/
def Cache.addAll (p : Cache) (blocks : List Send) : Cache := blocks.foldl Cache.add p

/-- contract.go:374-381: those of restricted callers are passed over. -/
def Cache.addFree (p : Cache) (blocks : List Send) : Cache :=
  blocks.foldl (fun p s => if p.inferior s.caller ≠ none then p else p.add s) p

/-- pending_cache.go:98-102: clearPendingMap. -/
def Cache.clear (p : Cache) : Cache := { p with pend := fun _ => none }

/-- pending_cache.go:104-109: addIntoInferiorList. -/
def Cache.restrict (p : Cache) (x : Nat) (v : Inf) : Cache := { pend := upd p.pend x none, inferior := upd p.inferior x (some v) }

/-- pending_cache.go:111-122: releaseCallerByState with RETRY. -/
def Cache.release (p : Cache) : Cache := { p with inferior := fun x => if p.inferior x = some .retry then none else p.inferior x }

/-- The first waiting send of each caller, as the chain gives them (manager.go: GetAllCallersFrontOnRoad, IsFrontOnRoadOfCaller). -/
abbrev Fronts := Nat → Option Send

/-- A list of all the first sends. -/
def Lists (blocks : List Send) (F : Fronts) : Prop := ∀ s, s ∈ blocks ↔ F s.caller = some s

/-- contract.go:340-386: acquireOnRoadBlocks, with the fronts at the two looks, the answer and the cache afterwards. -/
inductive Acquire : Option Cache → Fronts → Fronts → Option Send → Cache → Prop
  /-- contract.go:346-353. -/
  | empty {F F' : Fronts} : Lists [] F' → Acquire none F F' none Cache.new
  /-- contract.go:346-358, 385. -/
  | fresh {F F' : Fronts} {blocks : List Send} {r : Option Send} {p' : Cache} : Lists blocks F' → blocks ≠ [] →
      OnePending (Cache.new.addAll blocks) r p' → Acquire none F F' r p'
  /-- contract.go:360-365. -/
  | hit {F F' : Fronts} {p p' : Cache} {s : Send} : OnePending p (some s) p' → (F s.caller).map (·.hash) = some s.hash →
      Acquire (some p) F F' (some s) p'
  /-- contract.go:366-371, 373-385. -/
  | stale {F F' : Fronts} {p p1 p' : Cache} {s : Send} {blocks : List Send} {r : Option Send} : OnePending p (some s) p1 →
      (F s.caller).map (·.hash) ≠ some s.hash → Lists blocks F' → OnePending (p1.clear.addFree blocks) r p' → Acquire (some p) F F' r p'
  /-- contract.go:373-385. -/
  | refill {F F' : Fronts} {p p1 p' : Cache} {blocks : List Send} {r : Option Send} : OnePending p none p1 → Lists blocks F' →
      OnePending (p1.addFree blocks) r p' → Acquire (some p) F F' r p'

/-- The cache of a contract in a period: none at first; sends are acquired, callers restricted (contract.go:388-393) and released
(contract.go:395-402), and the cache is deleted (contract.go:306-308). -/
inductive CReach : Option Cache → Prop
  | none : CReach none
  | acquire {c : Option Cache} {F F' : Fronts} {r : Option Send} {p' : Cache} : CReach c → Acquire c F F' r p' → CReach (some p')
  | restrict {p : Cache} (x : Nat) (v : Inf) : CReach (some p) → CReach (some (p.restrict x v))
  | release {p : Cache} : CReach (some p) → CReach (some p.release)
  | delete {c : Option Cache} : CReach c → CReach .none

end Verif.Work
