import Verif.Feed.EventModel
import Verif.Feed.QuerySpec

/-! # What subscribers should know -/

namespace Verif.Feed.Spec

/-- The sends in a block: itself, or those a contract made. -/
def sendsOf (e : Ev) : List (Nat × Nat) := if isSend e.kind then [(e.hash, e.dst)] else e.sends

/-- All sends of a ledger, with their receivers. -/
def sends (L : List Ev) : List (Nat × Nat) := L.flatMap sendsOf

/-- The sends that are received, with the account that received. -/
def recvs (L : List Ev) : List (Nat × Nat) := (L.filter fun e => isRecv e.kind).map fun e => (e.src, e.addr)

/-- A send waits for an account. -/
def OnRoad (L : List Ev) (a h : Nat) : Prop := (h, a) ∈ sends L ∧ h ∉ (recvs L).map (·.1)

/-- A ledger as the node keeps it (C60, C61, C73): sends have different hashes, each is received at most once, by the account it was sent to, and no block receives a send of its own. -/
structure Good (L : List Ev) : Prop where
  kinds : ∀ e ∈ L, isSend e.kind = true ∨ isRecv e.kind = true
  sends : ((sends L).map (·.1)).Nodup
  once : ((recvs L).map (·.1)).Nodup
  sound : ∀ r ∈ recvs L, r ∈ Spec.sends L
  other : ∀ e ∈ L, e.src ∉ e.sends.map (·.1)

/-- New blocks may be appended: the ledger is as it should be with any first part of them. -/
def Appends (L B : List Ev) : Prop := ∀ n, Good (L ++ B.take n)

/-- What happens: blocks come, blocks go, and the loop takes events. -/
inductive Step (kept : Nat → Bool) : FSt → FSt → Prop
  | insertAcc (s : FSt) (bs : List Ev) : Appends s.ledger bs → Step kept s (s.insertAcc bs)
  | insertSnap (s : FSt) (sbs : List (Nat × Nat)) : Step kept s (s.insertSnap sbs)
  | dropAcc (s : FSt) (bs rest : List Ev) : s.ledger.Perm (bs ++ rest) → Good rest → Step kept s (s.dropAcc kept bs rest)
  | dropSnap (s : FSt) (cs : List Chunk) (rest : List Ev) (restS : List (Nat × Nat)) : s.ledger.Perm (cs.flatMap (·.blocks) ++ rest) → Good rest →
      s.snaps.Perm (cs.filterMap (·.snap) ++ restS) → Step kept s (s.dropSnap kept cs rest restS)
  | take (s s' : FSt) (i : Nat) : s.take i = some s' → Step kept s s'

/-- The states that follow. -/
inductive Reach (kept : Nat → Bool) (s0 : FSt) : FSt → Prop
  | start : Reach kept s0 s0
  | step (s s' : FSt) : Reach kept s0 s → Step kept s s' → Reach kept s0 s'

/-- Nothing is on its way to the loop. -/
def Drained (s : FSt) : Prop := s.ac = [] ∧ s.acDel = [] ∧ s.sb = [] ∧ s.sbDel = []

/-- How often something was announced, and how often its removal was. -/
def told {X : Type} [BEq X] (msgs : List (X × Bool)) (removed : Bool) (x : X) : Nat := msgs.count (x, removed)

/-- What a client knows to wait for an account, after a message. -/
def apply (v : Nat → Prop) (m : OnMsg) : Nat → Prop := fun h => if h = m.hash then m.closed = false ∧ m.removed = false else v h

/-- The height of a block is in the range that a filter names for its address (0 is no limit). -/
def InRanges (ranges : List (Nat × HRange)) (e : Ev) : Prop :=
  ∃ x ∈ ranges, x.1 = e.addr ∧ x.2.lo ≤ e.height ∧ (x.2.hi = 0 ∨ e.height ≤ x.2.hi)

instance (ranges : List (Nat × HRange)) (e : Ev) : Decidable (InRanges ranges e) := by unfold InRanges; infer_instance

/-- The logs of a block that a filter asks for. -/
def logsFor (ranges : List (Nat × HRange)) (topics : List (List Nat)) (e : Ev) : List QOut :=
  (e.logs.filter fun l => decide (InRanges ranges e ∧ Matches topics l)).map fun l => ⟨l, e.hash, e.height, e.addr⟩

end Verif.Feed.Spec
