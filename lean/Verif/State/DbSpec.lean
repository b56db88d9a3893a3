import Verif.State.DbModel

/-!
# What the state database should hold

Said by the ledger alone: the blocks confirmed by each snapshot, and the unconfirmed blocks. No redo logs, history entries, caches.
-/

namespace Verif.State
open Verif.Bytes

/-- The last value given to a name in a list of assignments. -/
def lastVal {K : Type} [DecidableEq K] (x : K) : List (K × Bytes) → Option Bytes
  | [] => none
  | w :: l => match lastVal x l with
    | some v => some v
    | none => if w.1 = x then some w.2 else none

/-- The changes that blocks make to an account, in order. -/
def writesOf (bs : List Blk) (a : Addr) : List (Field × Bytes) := (bs.filter (fun b => decide (b.addr = a))).flatMap (·.writes)

/-- The value of a slot after these blocks, if one of them set it. -/
def slotAfter (bs : List Blk) (a : Addr) (f : Field) : Option Bytes := lastVal f (writesOf bs a)

/-- An entry that one of these blocks wrote. -/
def onceAfter (bs : List Blk) (i : Bytes) : Option Bytes := lastVal i (bs.flatMap (·.once))

/-- All blocks confirmed up to a height. -/
def Ledger.upTo (l : Ledger) (h : Nat) : List Blk := (l.snaps.take h).flatten

/-- All blocks. -/
def Ledger.all (l : Ledger) : List Blk := l.snaps.flatten ++ l.unconf

/-- What callers keep to.

* A block is new, has the next height of its account, and what it writes once nobody wrote before.
* The content of a snapshot block is a map.
* Blocks are deleted with all later ones of the same account.
* A rollback keeps at least one snapshot and deletes at least one. -/
def Ledger.Allows (l : Ledger) : Op → Prop
  | .insert b => (∀ c ∈ l.all, c.hash ≠ b.hash) ∧ b.height = (l.all.filter (fun c => decide (c.addr = b.addr))).length + 1 ∧
      (b.once.map (·.1)).Nodup ∧ ∀ c ∈ l.all, ∀ o ∈ b.once, ∀ o' ∈ c.once, o.1 ≠ o'.1
  | .snapshot sc => sc.Proper
  | .delete bs => bs.Sublist l.unconf ∧ ∀ b ∈ bs, ∀ c ∈ l.unconf, c.addr = b.addr → b.height ≤ c.height → c ∈ bs
  | .rollback h => 1 ≤ h ∧ h < l.snaps.length
  | .restart => True

/-- A snapshot with this content can be taken: of each account in it there is an unconfirmed block of the height given. -/
def Ledger.Covers (l : Ledger) (sc : Table Addr Nat) : Prop := ∀ a h, sc.get a = some h → ∃ b ∈ l.unconf, b.addr = a ∧ b.height = h

/-- The unconfirmed blocks that a snapshot with this content confirms. -/
def Ledger.confirms (l : Ledger) (sc : Table Addr Nat) : List Blk :=
  l.unconf.filter (fun b => match sc.get b.addr with | some h => decide (b.height ≤ h) | none => false)

/-- The ledger after each operation; `redo` says if a rollback found its redo log. -/
def Ledger.After (l : Ledger) (redo : Bool) : Op → Ledger → Prop
  | .insert b, l' => l'.snaps = l.snaps ∧ l'.unconf = l.unconf ++ [b]
  | .snapshot sc, l' => (l.Covers sc → l'.snaps = l.snaps ++ [l.confirms sc] ∧ l'.unconf = l.unconf.filter (fun b => decide (b ∉ l.confirms sc))) ∧
      (¬ l.Covers sc → l' = l)
  | .delete bs, l' => l'.snaps = l.snaps ∧ l'.unconf = l.unconf.filter (fun b => decide (b ∉ bs))
  | .rollback h, l' => l'.snaps = l.snaps.take h ∧ l'.unconf = if redo then l.snaps.getD h [] else []
  | .restart, l' => l'.snaps = l.snaps ∧ l'.unconf = []

/-- A rollback to the snapshot of height `h` without redo log that the code does right: for each account with a block above `h`,
if it has storage keys that some snapshot has set, then the first of them, in the byte order of the store, was set up to `h`. -/
def Ledger.DeepSafe (l : Ledger) (h : Nat) : Prop :=
  ∀ b ∈ (l.snaps.drop h).flatten ++ l.unconf, ∀ k,
    slotAfter l.snaps.flatten b.addr (.stor k) ≠ none →
    (∀ k', slotAfter l.snaps.flatten b.addr (.stor k') ≠ none → bytesLt (keyBytes k') (keyBytes k) = false) →
    slotAfter (l.upTo h) b.addr (.stor k) ≠ none

/-- The nodes there can be; rollbacks without redo log only where they are right. `top` is the most snapshots there ever were. -/
inductive Hist (cached : Addr → Bool) : Nat → Node → Prop
  | start : Hist cached 0 Node.start
  | step {top : Nat} {n n' : Node} {op : Op} : Hist cached top n → n.led.Allows op →
      (∀ h, op = .rollback h → n.db.hasRedo (h + 1) = true ∨ n.led.DeepSafe h) → n.step cached op = some n' →
      Hist cached (max top n'.led.snaps.length) n'

end Verif.State
