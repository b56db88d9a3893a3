import Verif.Feed.EventProps

/-! # Where subscribers are misled (C103), and a history that meets the hypotheses -/

namespace Verif.Feed

open Spec (OnRoad Good)

instance (L : List Ev) : Decidable (Good L) :=
  decidable_of_iff ((∀ e ∈ L, isSend e.kind = true ∨ isRecv e.kind = true) ∧ ((Spec.sends L).map (·.1)).Nodup ∧ ((Spec.recvs L).map (·.1)).Nodup ∧
    (∀ r ∈ Spec.recvs L, r ∈ Spec.sends L) ∧ ∀ e ∈ L, e.src ∉ e.sends.map (·.1))
    ⟨fun h => ⟨h.1, h.2.1, h.2.2.1, h.2.2.2.1, h.2.2.2.2⟩, fun h => ⟨h.kinds, h.sends, h.once, h.sound, h.other⟩⟩

/-- New blocks may be appended when this is so for each of finitely many first parts. -/
theorem appends_of (L B : List Ev) (h : ∀ n ∈ List.range (B.length + 1), Good (L ++ B.take n)) : Spec.Appends L B := by
  intro n
  by_cases hn : n ≤ B.length
  · exact h n (by simp; omega)
  · have := h B.length (by simp)
    rw [List.take_length] at this
    rw [List.take_of_length_le (by omega)]
    exact this

instance (L : List Ev) (a h : Nat) : Decidable (OnRoad L a h) := by unfold OnRoad; infer_instance

/-- A send of account 5 to address 9. -/
def sendTo9 : Ev := ⟨2, 0, 1, 1, 5, 9, [], []⟩

/-- The send comes and goes before the loop has taken either event. -/
def cameAndWent : FSt := (FSt.insertAcc ⟨[], [], [], [], [], [], [], [], []⟩ [sendTo9]).dropAcc (fun _ => true) [sendTo9] []

/-- **Counterexample.** A send comes and goes; the loop takes the removal first and the announcement second, as `select` may. All events are through, the ledger is empty, and the client believes that the send waits for address 9. -/
theorem told_out_of_order :
    ∃ s, Spec.Reach (fun _ => true) ⟨[], [], [], [], [], [], [], [], []⟩ s ∧ Spec.Drained s ∧ ¬ OnRoad s.ledger 9 1 ∧
      (accMsgs (onroadMsgs id 9) s.got).foldl Spec.apply (OnRoad [] 9) 1 ∧ accMsgs blockMsgs s.got = [(1, true), (1, false)] := by
  refine ⟨{ cameAndWent with ac := [], acDel := [], got := [.acc true [sendTo9], .acc false [sendTo9]] }, ?_, ⟨rfl, rfl, rfl, rfl⟩, by decide +kernel, ?_, by decide +kernel⟩
  · have r1 : Spec.Reach (fun _ => true) ⟨[], [], [], [], [], [], [], [], []⟩ (FSt.insertAcc ⟨[], [], [], [], [], [], [], [], []⟩ [sendTo9]) :=
      .step _ _ .start (.insertAcc _ _ (appends_of _ _ (by decide +kernel)))
    have r2 : Spec.Reach (fun _ => true) ⟨[], [], [], [], [], [], [], [], []⟩ cameAndWent :=
      .step _ _ r1 (.dropAcc _ _ _ (by exact List.Perm.refl _) (by decide +kernel))
    have r3 : Spec.Reach (fun _ => true) ⟨[], [], [], [], [], [], [], [], []⟩ { cameAndWent with acDel := [], got := [.acc true [sendTo9]] } :=
      .step _ _ r2 (.take _ _ 1 rfl)
    exact .step _ _ r3 (.take _ _ 0 rfl)
  · have : accMsgs (onroadMsgs id 9) [Event.acc true [sendTo9], .acc false [sendTo9]] = [⟨1, false, true⟩, ⟨1, false, false⟩] := by decide +kernel
    show ((accMsgs (onroadMsgs id 9) [Event.acc true [sendTo9], .acc false [sendTo9]]).foldl Spec.apply (OnRoad [] 9)) 1
    rw [this]
    simp [Spec.apply]

/-- A receive of contract 9 with a log. -/
def recvBy9 : Ev := ⟨4, 1, 2, 1, 9, 0, [⟨[5], 7⟩], [(3, 6)]⟩

/-- **Counterexample.** On a node that does not keep the logs of contract 9, a log is announced when its block comes and never revoked when the block goes, although everything is taken in order. -/
theorem log_not_revoked :
    ∃ s, Spec.Reach (fun _ => false) ⟨[sendTo9], [], [], [], [], [], [], [], []⟩ s ∧ Spec.Drained s ∧ accOnly s.got = accOnly s.pushed ∧ s.ledger = [sendTo9] ∧
      accMsgs (logMsgs ⟨some [(9, ⟨0, 0⟩)], []⟩) s.got = [(⟨⟨[5], 7⟩, 2, 1, 9⟩, false)] := by
  let s1 : FSt := FSt.insertAcc ⟨[sendTo9], [], [], [], [], [], [], [], []⟩ [recvBy9]
  let s2 : FSt := s1.dropAcc (fun _ => false) [recvBy9] [sendTo9]
  let s3 : FSt := { s2 with ac := [], got := [.acc false [recvBy9]] }
  let s4 : FSt := { s3 with acDel := [], got := [.acc false [recvBy9], .acc true [{ recvBy9 with logs := [] }]] }
  refine ⟨s4, ?_, ⟨rfl, rfl, rfl, rfl⟩, by decide +kernel, rfl, by decide +kernel⟩
  have r1 : Spec.Reach (fun _ => false) ⟨[sendTo9], [], [], [], [], [], [], [], []⟩ s1 := .step _ _ .start (.insertAcc _ _ (appends_of _ _ (by decide +kernel)))
  have r2 : Spec.Reach (fun _ => false) ⟨[sendTo9], [], [], [], [], [], [], [], []⟩ s2 :=
    .step _ _ r1 (.dropAcc _ _ _ (by exact List.perm_append_comm (l₁ := [sendTo9]) (l₂ := [recvBy9])) (by decide +kernel))
  have r3 : Spec.Reach (fun _ => false) ⟨[sendTo9], [], [], [], [], [], [], [], []⟩ s3 := .step _ _ r2 (.take _ _ 0 rfl)
  exact .step _ _ r3 (.take _ _ 1 rfl)

/-! ## A history: a call, its receive with a call inside, and the deletion of the receive -/

def h0 : FSt := ⟨[sendTo9], [], [], [], [], [], [], [], []⟩
def h1 : FSt := h0.insertAcc [recvBy9]
def h2 : FSt := { h1 with ac := [], got := [.acc false [recvBy9]] }
def h3 : FSt := h2.dropSnap (fun _ => true) [⟨[recvBy9], none⟩] [sendTo9] []
def h4 : FSt := { h3 with sbDel := [], got := h3.got ++ [.snap true []] }
def h5 : FSt := { h4 with acDel := [], got := h4.got ++ [.acc true [recvBy9]] }

example : Spec.Reach (fun _ => true) h0 h5 := by
  have r1 : Spec.Reach (fun _ => true) h0 h1 := .step _ _ .start (.insertAcc _ _ (appends_of _ _ (by decide +kernel)))
  have r2 : Spec.Reach (fun _ => true) h0 h2 := .step _ _ r1 (.take _ _ 0 rfl)
  have r3 : Spec.Reach (fun _ => true) h0 h3 :=
    .step _ _ r2 (.dropSnap _ _ _ _ (by exact List.perm_append_comm (l₁ := [sendTo9]) (l₂ := [recvBy9])) (by decide +kernel) (by exact List.Perm.refl _))
  have r4 : Spec.Reach (fun _ => true) h0 h4 := .step _ _ r3 (.take _ _ 3 rfl)
  exact .step _ _ r4 (.take _ _ 1 rfl)

example : Fresh h0 ∧ Good h0.ledger ∧ Spec.Drained h5 ∧ accOnly h5.got = accOnly h5.pushed := ⟨⟨rfl, rfl, rfl, rfl, rfl, rfl, rfl⟩, by decide +kernel, ⟨rfl, rfl, rfl, rfl⟩, by decide +kernel⟩

/-- Address 9 is told that the send is received and that it waits again; address 6 of the inner call and of its removal. -/
example : accMsgs (onroadMsgs id 9) h5.got = [⟨1, true, false⟩, ⟨1, false, false⟩] ∧ accMsgs (onroadMsgs id 6) h5.got = [⟨3, false, false⟩, ⟨3, false, true⟩] := by
  decide +kernel

example : OnRoad h0.ledger 9 1 ∧ ¬ OnRoad h1.ledger 9 1 ∧ OnRoad h1.ledger 6 3 ∧ OnRoad h5.ledger 9 1 ∧ ¬ OnRoad h5.ledger 6 3 := by decide +kernel

example : Spec.logsFor [(9, ⟨1, 4⟩)] [[5, 6]] recvBy9 = [⟨⟨[5], 7⟩, 2, 1, 9⟩] ∧ Spec.logsFor [(9, ⟨2, 0⟩)] [] recvBy9 = [] := by decide +kernel

end Verif.Feed
