import Verif.Work.SchedModel

/-!
What is claimed of the worker.
-/

namespace Verif.Work

/-- The states of a worker. -/
inductive Reach : St → Prop
  | init : Reach St.init
  | step {s s' : St} : Reach s → Step s s' → Reach s'

/-- The processor handles the contract: it has entered it in the working list and not yet removed it. -/
def Pc.handles : Pc → Nat → Prop
  | .busy b, a => b = a
  | .holds b _ _, a => b = a
  | .leaving b _, a => b = a
  | _, _ => False

/-- The processor is between the start and the end of its work on some task. -/
def Pc.active : Pc → Prop
  | .spawned => False
  | .loop => False
  | .done => False
  | _ => True

/-- A processor that will still look at the sends that wait for the contract, or will queue it. -/
def Pc.attends : Pc → Nat → Prop
  | .popped b, a => b = a
  | .checked b, a => b = a
  | .busy b, a => b = a
  | .holds b _ _, a => b = a
  | .leaving b again, a => b = a ∧ again = true
  | .repush b, a => b = a
  | _, _ => False

/-- A send waits for the contract that the worker may handle: neither the contract nor the caller is restricted. -/
def Serviceable (s : St) (a : Nat) : Prop := s.black a = none ∧ ∃ x m, s.front a x = some m ∧ s.inf a x = none

/-- Someone sees to the contract: it is in the queue, with a processor, or a task for it is under way. -/
def Attended (s : St) (a : Nat) : Prop :=
  a ∈ s.queue ∨ (∃ p ∈ s.procs, p.attends a) ∨ ∃ g ∈ s.signals, g.addr = a

end Verif.Work
