import Verif.Base.Bytes

/-!
# The list of banned peers

`net/netool/blacklist.go`, with the rule of `net/net.go:438-446`.  The names of peers are the keys of a map; the code puts them into
hexadecimal text first, which has one spelling for each.  The lock makes each call one step.
-/

namespace Verif.Ndb
open Verif.Bytes

/-- `blacklist.go:36-39` (`record`): how often, and until when. -/
structure Rec where
  count : Nat
  till : Int
  deriving DecidableEq

/-- `blacklist.go:41-45` (`blackList`). -/
abbrev Bans := Bytes → Option Rec

def Bans.set (s : Bans) (id : Bytes) (r : Option Rec) : Bans := fun x => if x = id then r else s x

/-- `blacklist.go:54-73` (`Ban`). -/
def Bans.ban (s : Bans) (id : Bytes) (expiration now : Int) : Bans :=
  if id.length = 0 then s
  else
    match s id with
    | some r => s.set id (some ⟨r.count + 1, now + expiration⟩)
    | none => s.set id (some ⟨1, now + expiration⟩)

/-- `blacklist.go:75-82` (`UnBan`). -/
def Bans.unban (s : Bans) (id : Bytes) : Bans := s.set id none

/-- `blacklist.go:84-99` (`Banned`), with the rule `now < t`. -/
def Bans.banned (s : Bans) (id : Bytes) (now : Int) : Bool × Bans :=
  match s id with
  | some r => if now < r.till then (true, s) else (false, s.set id none)
  | none => (false, s)

/-- The calls. -/
inductive Call where
  | ban (id : Bytes) (expiration : Int)
  | unban (id : Bytes)
  | ask (id : Bytes)

/-- One call at a time. -/
def Bans.call (s : Bans) (e : Int × Call) : Bans :=
  match e.2 with
  | .ban id x => s.ban id x e.1
  | .unban id => s.unban id
  | .ask id => (s.banned id e.1).2

/-- `blacklist.go:47-52` (`NewBlackList`), and then the calls in their order. -/
def after (h : List (Int × Call)) : Bans := h.foldl Bans.call (fun _ => none)

end Verif.Ndb
