import Verif.Tactics

/-!
# Listeners of the ledger

Models `eventManager` (`ledger/chain/event_manager.go`): the list of listeners, and who is told of an event. A listener is a number, which tells it from the others (Go compares the pointers). Events go to the listeners in turn (`:47-64`, `:88-90`, `:124-126`, `:150-152`). -/

namespace Verif.Feed.Listen

/-- `Register` (`event_manager.go:159-164`). -/
def register (ls : List Nat) (l : Nat) : List Nat := ls ++ [l]

/-- The loop of `UnRegister` (`event_manager.go:166-176`). The variable of the loop is called `listener` like the parameter and hides it, so the comparison `listener == listener` is of an entry with itself. -/
def unregisterLoop (l : Nat) : List Nat → List Nat
  | [] => []
  | e :: es =>
    let listener := e
    if listener = listener then es else e :: unregisterLoop l es

/-- `UnRegister` (`event_manager.go:166-176`). -/
def unregister (ls : List Nat) (l : Nat) : List Nat := unregisterLoop l ls

/-- What listeners do. -/
inductive Op where
  | register (l : Nat)
  | unregister (l : Nat)

def run : List Nat → List Op → List Nat
  | ls, [] => ls
  | ls, .register l :: ops => run (register ls l) ops
  | ls, .unregister l :: ops => run (unregister ls l) ops

/-- Who is told of an event, in order (`event_manager.go:58-63`). -/
def told (ls : List Nat) : List Nat := ls

end Verif.Feed.Listen
