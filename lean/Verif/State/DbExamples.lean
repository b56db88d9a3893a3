import Verif.State.DbProps

/-! Concrete histories, and the one that a rollback without redo log breaks. -/

namespace Verif.State
open Verif.Bytes

namespace DbEx

/-- Which accounts are cached. -/
def ch : Addr → Bool := fun a => a = [1]

/-- Account 1 sets a slot and a balance. -/
def b1 : Blk := ⟨[1], 1, 100, [(.stor [7], [5]), (.bal [0], [9])], [([33], [1, 1])]⟩
def b2 : Blk := ⟨[1], 2, 101, [(.stor [7], []), (.stor [8], [4])], []⟩
def b3 : Blk := ⟨[2], 1, 102, [(.bal [0], [3])], [([34], [2])]⟩
def b4 : Blk := ⟨[1], 3, 103, [(.stor [8], [6])], []⟩

/-- A run of operations. -/
def run (n : Node) : List Op → Option Node
  | [] => some n
  | op :: ops => (n.step ch op).bind (fun n => run n ops)

/-- Two snapshots, a deletion, a rollback and a restart. -/
def ops : List Op := [.insert b1, .insert b3, .snapshot [([1], 1)], .insert b2, .snapshot [([1], 2), ([2], 1)], .insert b4, .rollback 1]

/-- After the rollback blocks 2 and 3 are unconfirmed again, block 4 is gone. -/
example : (run Node.start ops).map (fun n => (n.led.snaps, n.led.unconf)) = some ([[b1]], [b3, b2]) := by decide +kernel

example : (run Node.start ops).map (fun n => (n.db.getStorage [1] [7], n.db.getStorage [1] [8], n.db.getBalance [2] [0])) =
    some ([], [4], [3]) := by decide +kernel

/-- The value at the first snapshot. -/
example : (run Node.start ops).map (fun n => (n.db.getSnapshotValue ch true 1 1 [1] [7], n.db.getSnapshotBalance 1 [1] [0])) =
    some (some [5], some [9]) := by decide +kernel

/-- A restart drops what is unconfirmed. -/
example : (run Node.start (ops ++ [.restart])).map (fun n => (n.db.getStorage [1] [7], n.db.getStorage [1] [8], n.db.getOnce [34])) =
    some ([5], [], none) := by decide +kernel

example : (run Node.start [.insert b1, .insert b2, .insert b3, .delete [b2]]).map (fun n => (n.led.unconf, n.db.getStorage [1] [7])) =
    some ([b1, b3], [5]) := by decide +kernel

end DbEx

variable {cached : Addr → Bool} {top : Nat} {n : Node}

/-- One more operation. -/
theorem Hist.next (h : Hist cached top n) {op : Op} (ha : n.led.Allows op) (hs : ∀ k, op ≠ .rollback k) :
    ∃ top' n', Hist cached top' n' ∧ n.led.After false op n'.led := by
  obtain ⟨n', h1, h2⟩ := never_panics h ha (fun k e => absurd e (hs k))
  refine ⟨_, n', h.step ha (fun k e => absurd e (hs k)) h1, ?_⟩
  cases op with
  | rollback k => exact absurd rfl (hs k)
  | _ => exact h2

/-- Empty snapshots. -/
theorem Hist.empties (h : Hist cached top n) (hu : n.led.unconf = []) (m : Nat) :
    ∃ top' n', Hist cached top' n' ∧ n'.led.snaps = n.led.snaps ++ List.replicate m [] ∧ n'.led.unconf = [] := by
  induction m with
  | zero => exact ⟨top, n, h, by simp, hu⟩
  | succ m ih =>
    obtain ⟨t, n', h', hs, hu'⟩ := ih
    obtain ⟨t', n'', h'', ha⟩ := h'.next (op := .snapshot []) (by simp [Ledger.Allows, Table.Proper]) (by simp)
    have hc := ha.1 (by intro a k hk; simp [Table.get] at hk)
    have hcf : n'.led.confirms [] = [] := by unfold Ledger.confirms; rw [hu']; rfl
    rw [hcf, hu'] at hc
    refine ⟨t', n'', h'', ?_, hc.2⟩
    rw [hc.1, hs, List.append_assoc, List.replicate_succ']

/-- A chain can lose a rollback of storage: a block sets a slot that was empty, more than 1200 snapshots follow, and a rollback to
before the block leaves the slot set. -/
theorem deep_rollback_wrong (cached : Addr → Bool) : ∃ top n n' a k, Hist cached top n ∧ n.led.Allows (.rollback 1) ∧
    n.step cached (.rollback 1) = some n' ∧ n'.db.getStorage a k ≠ (slotAfter n'.led.all a (.stor k)).getD [] := by
  obtain ⟨t1, n1, h1, a1⟩ := (Hist.start (cached := cached)).next (op := .snapshot []) (by simp [Ledger.Allows, Table.Proper]) (by simp)
  have c1 := a1.1 (by intro a k hk; simp [Table.get] at hk)
  have c1s : n1.led.snaps = [[]] := by rw [c1.1]; rfl
  have c1u : n1.led.unconf = [] := by rw [c1.2]; rfl
  have hall1 : n1.led.all = [] := by unfold Ledger.all; rw [c1s, c1u]; rfl
  obtain ⟨t2, n2, h2, a2⟩ := h1.next (op := .insert ⟨[1], 1, 100, [(.stor [7], [5])], []⟩) (by
    unfold Ledger.Allows
    rw [hall1]
    simp) (by simp)
  have c2s : n2.led.snaps = [[]] := by rw [a2.1, c1s]
  have c2u : n2.led.unconf = [⟨[1], 1, 100, [(.stor [7], [5])], []⟩] := by rw [a2.2, c1u]; rfl
  obtain ⟨t3, n3, h3, a3⟩ := h2.next (op := .snapshot [([1], 1)]) (by simp [Ledger.Allows, Table.Proper]) (by simp)
  have c3 := a3.1 (by
    intro a k hk
    rw [c2u]
    refine ⟨_, List.mem_singleton.mpr rfl, ?_⟩
    simp only [Table.get] at hk
    split at hk
    · rename_i e
      simp only [Option.some.injEq] at hk
      exact ⟨e, hk⟩
    · simp at hk)
  have hcf : n2.led.confirms [([1], 1)] = [⟨[1], 1, 100, [(.stor [7], [5])], []⟩] := by
    unfold Ledger.confirms; rw [c2u]; decide +kernel
  rw [hcf, c2s, c2u] at c3
  have c3u : n3.led.unconf = [] := by rw [c3.2]; decide +kernel
  obtain ⟨t4, n4, h4, c4s, c4u⟩ := h3.empties c3u 1200
  have hfl : n4.led.snaps.flatten = [⟨[1], 1, 100, [(.stor [7], [5])], []⟩] := by
    rw [c4s, c3.1, List.flatten_append, List.flatten_replicate_nil]
    rfl
  have hlen : n4.led.snaps.length = 1202 := by rw [c4s, c3.1, List.length_append, List.length_replicate]; rfl
  have hup : n4.led.upTo 1 = [] := by unfold Ledger.upTo; rw [c4s, c3.1]; rfl
  obtain ⟨n5, s5, l5, g5⟩ := deep_rollback_leaves h4 (k := 1) (by omega) (redo_dropped h4 (by omega)) (a := [1]) (key := [7])
    (by rw [hfl]; decide +kernel)
    (by
      intro key' hne hk
      exfalso
      apply hne
      rw [hfl, slotAfter_none]
      intro b hb _ w hw
      simp only [List.mem_singleton] at hb
      subst hb
      simp only [List.mem_singleton] at hw
      subst hw
      simp only [ne_eq, Field.stor.injEq]
      exact fun q => hk q.symm)
    (by rw [hup]; rfl)
  refine ⟨t4, n4, n5, [1], [7], h4, ⟨by omega, by omega⟩, s5, ?_⟩
  rw [g5, storage_exact h4, l5]
  have e1 : n4.led.all = [⟨[1], 1, 100, [(.stor [7], [5])], []⟩] := by unfold Ledger.all; rw [hfl, c4u]; rfl
  have e2 : (⟨n4.led.snaps.take 1, []⟩ : Ledger).all = [] := by
    unfold Ledger.all
    have := hup
    unfold Ledger.upTo at this
    simp only [this, List.append_nil]
  rw [e1, e2]
  decide +kernel

end Verif.State
