import Verif.Plug.InfoProps

/-! Concrete histories for what is on the road, and what is answered while a contract's receive is not confirmed. -/

namespace Verif.Plug

/-- A test of a ledger. -/
def validB (L : List Blk) : Bool :=
  decide ((L.map (·.hash)).Nodup) && decide (((L.flatMap Blk.sends).map (·.hash)).Nodup) && decide ((L.filterMap Blk.src).Nodup) &&
  L.all (fun b => match b.src with
    | none => decide (b.inner = [])
    | some h => ((L.flatMap Blk.sends).any fun s => decide (s.hash = h) && decide (s.dest = b.addr)) && (b.contract || decide (b.inner = []))) &&
  L.all fun b => decide (b.kind ≠ .genesis)

theorem valid_of {L : List Blk} (h : validB L = true) : Valid L := by
  unfold validB at h
  simp only [Bool.and_eq_true, decide_eq_true_eq] at h
  obtain ⟨⟨⟨⟨h1, h2⟩, h3⟩, h4⟩, h5⟩ := h
  refine ⟨h1, h2, h3, ?_, ?_, ?_⟩
  · intro b hb k hk
    have := List.all_eq_true.1 h4 b hb
    rw [hk] at this
    simp only [Bool.and_eq_true] at this
    obtain ⟨s, hs, e⟩ := List.any_eq_true.1 this.1
    simp only [Bool.and_eq_true, decide_eq_true_eq] at e
    exact ⟨s, hs, e.1, e.2⟩
  · intro b hb hi
    have := List.all_eq_true.1 h4 b hb
    cases hk : b.src with
    | none => rw [hk] at this; exact absurd (by simpa using this) hi
    | some k =>
      rw [hk] at this
      simp only [Bool.and_eq_true, Bool.or_eq_true, decide_eq_true_eq] at this
      exact ⟨this.2.resolve_right hi, by simp⟩
  · intro b hb
    simpa using List.all_eq_true.1 h5 b hb

/-- The user 1 sends 5 to the contract 9, which sends 4 back within its receive; the user receives that. The user 2 sends 7 to the user 1. -/
def exAsk : Blk := ⟨1, 1, 1, .send 9 0 5, false, []⟩
def exAnswer : Blk := ⟨2, 9, 1, .recv 1, true, [⟨3, 1, 0, 4⟩]⟩
def exTake : Blk := ⟨4, 1, 2, .recv 3, false, []⟩
def exGift : Blk := ⟨5, 2, 1, .send 1 0 7, false, []⟩

/-- One change of a node that may come. -/
theorem reach_of {n : Node} (h : Reach n) (op : Op) (hm : May n op) : Reach (n.step op) := .step h hm

def exN1 : Node := Node.start.step (.insert exAsk)
def exN2 : Node := exN1.step (.insert exAnswer)

theorem exN1_reach : Reach exN1 := .step .start (valid_of (by decide +kernel))
theorem exN2_reach : Reach exN2 := .step exN1_reach (valid_of (by decide +kernel))

/-- Confirmed, with a gift on top that is not: the whole is answered. -/
def exN3 : Node := (exN2.step (.snapshot [exAsk, exAnswer])).step (.insert exGift)

theorem exN3_reach : Reach exN3 := by
  refine .step (.step exN2_reach ⟨?_, valid_of (by decide +kernel)⟩) (valid_of (by decide +kernel))
  decide +kernel

example : ∃ f, exN3.plug.info (lookIn exN3.blocks) 1 = some f ∧ f 0 = some (2, 11) := by
  obtain ⟨f, h1, h2⟩ := info_exact_partial exN3_reach (a := 1) (by decide +kernel)
  exact ⟨f, h1, by rw [h2]; decide +kernel⟩

/-- After a rollback, with the blocks kept, the store has nothing any more, and after the next snapshot it has the entry again. -/
def exN4 : Node := exN3.step (.rollback 0 true)

theorem exN4_reach : Reach exN4 := .step exN3_reach (show 0 < 1 by omega)

example : exN3.plug.db 1 0 = some (1, 4) ∧ exN4.plug.db 1 0 = none ∧ exN4.unconf = [exAsk, exAnswer] := by
  refine ⟨?_, ?_, by decide +kernel⟩
  · rw [store_exact exN3_reach]; decide +kernel
  · rw [store_exact exN4_reach]; decide +kernel

/-- **What a contract has just sent is not answered.** A send from within a receive of a contract that is not confirmed yet waits for the user, but the answer does not have it. -/
theorem fresh_answer_is_missing : ∃ n, Reach n ∧ waiting n.blocks 1 0 = [⟨3, 1, 0, 4⟩] ∧ (n.plug.info (lookIn n.blocks) 1).map (fun f => f 0) = some none :=
  ⟨exN2, exN2_reach, by decide +kernel, by decide +kernel⟩

/-- **Then the question fails.** Once the user receives it, the question is answered with an error until the receive of the contract is confirmed, although nothing waits any more. -/
theorem fresh_receive_fails : ∃ n, Reach n ∧ (∀ t, waiting n.blocks 1 t = []) ∧ (n.plug.info (lookIn n.blocks) 1).isNone = true := by
  refine ⟨exN2.step (.insert exTake), .step exN2_reach (valid_of (by decide +kernel)), ?_, by decide +kernel⟩
  intro t
  unfold waiting
  have e : (exN2.step (.insert exTake)).blocks.flatMap Blk.sends = [⟨1, 9, 0, 5⟩, ⟨3, 1, 0, 4⟩] := by decide +kernel
  have e2 : (exN2.step (.insert exTake)).blocks.filterMap Blk.src = [1, 3] := by decide +kernel
  rw [e, e2]
  simp

end Verif.Plug
