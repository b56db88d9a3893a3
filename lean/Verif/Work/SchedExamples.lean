import Verif.Work.SchedProps

/-!
Runs of the worker: the hypotheses of the theorems are met, and what goes wrong.
-/

namespace Verif.Work

/-- A contract, and the worker started, with both processors at the check of the flag. -/
theorem started : ∃ s, Reach s ∧ s.mode = .running ∧ s.cancel = false ∧ s.known = [0] ∧ s.list = [0] ∧ s.front = (fun _ _ => none) ∧ s.queue = [0] ∧ s.work = []
    ∧ s.black = (fun _ => none) ∧ s.inf = (fun _ _ => none) ∧ s.signals = [] ∧ s.procs = [.loop, .loop] ∧ s.lost = [] := by
  have h := Reach.init
  have h := h.step (Step.create 0)
  have h := h.step (Step.start rfl)
  have h := h.step (Step.opened rfl)
  have h := h.step (Step.add 0 rfl)
  have h := h.step (Step.add 1 rfl)
  exact ⟨_, h, rfl, rfl, rfl, rfl, rfl, rfl, rfl, rfl, rfl, rfl, rfl, rfl⟩

/-- That state. -/
def s0 : St :=
  { mode := .running, cancel := false, known := [0], front := fun _ _ => none, list := [0], queue := [0], work := [], black := fun _ => none
    inf := fun _ _ => none, signals := [], procs := [.loop, .loop], lost := [] }

theorem s0_reach : Reach s0 := by
  obtain ⟨s, h, h1, h2, h3, h4, h5, h6, h7, h8, h9, h10, h11, h12⟩ := started
  have : s = s0 := by
    cases s
    simp only at h1 h2 h3 h4 h5 h6 h7 h8 h9 h10 h11 h12
    subst h1 h2 h3 h4 h5 h6 h7 h8 h9 h10 h11 h12
    rfl
  exact this ▸ h

/-- A processor has the contract's send, and the contract is attended. -/
theorem handling_run : ∃ s, Reach s ∧ s.mode = .running ∧ Serviceable s 0 ∧ 0 ∉ s.lost ∧ s.procs[0]? = some (.holds 0 1 10) ∧ s.queue = [] := by
  have h := s0_reach
  have h := h.step (Step.ledger 0 1 (some 10) true (by decide) (by simp))
  have h := h.step (Step.hear 0 0 rfl rfl)
  have h := h.step (Step.admit 0 0 rfl rfl)
  have h := h.step (Step.push 0 0 rfl rfl)
  have h := h.step (Step.goOn 0 rfl rfl)
  have h := h.step (Step.pop 0 0 rfl (by decide))
  have h := h.step (Step.notBlack 0 0 rfl rfl)
  have h := h.step (Step.enter 0 0 rfl (by decide))
  have h := h.step (Step.acquire 0 0 1 10 rfl rfl rfl)
  exact ⟨_, h, rfl, ⟨rfl, 1, 10, rfl, rfl⟩, by decide, rfl, rfl⟩

/-- C101 fails: a processor finds nothing for a contract; before it takes the contract off the working list a send arrives, its task is
popped by the other processor and dropped because the contract is at work. Nobody sees to the contract then. -/
theorem dropped_task_waits : ∃ s, Reach s ∧ s.mode = .running ∧ Serviceable s 0 ∧ ¬ Attended s 0 := by
  have h := s0_reach
  have h := h.step (Step.goOn 0 rfl rfl)
  have h := h.step (Step.goOn 1 rfl rfl)
  have h := h.step (Step.pop 0 0 rfl (by decide))
  have h := h.step (Step.notBlack 0 0 rfl rfl)
  have h := h.step (Step.enter 0 0 rfl (by decide))
  have h := h.step (Step.nothing 0 0 rfl (by intro x hx; exact absurd rfl hx))
  have h := h.step (Step.ledger 0 1 (some 10) true (by decide) (by simp))
  have h := h.step (Step.hear 0 0 rfl rfl)
  have h := h.step (Step.admit 0 0 rfl rfl)
  have h := h.step (Step.push 0 0 rfl rfl)
  have h := h.step (Step.pop 1 0 rfl (by decide))
  have h := h.step (Step.notBlack 1 0 rfl rfl)
  have h := h.step (Step.dropped 1 0 rfl (by decide))
  have h := h.step (Step.leave 0 0 false rfl)
  refine ⟨_, h, rfl, ⟨rfl, 1, 10, rfl, rfl⟩, ?_⟩
  rintro (hh | ⟨p, hp, hpa⟩ | ⟨g, hg, _⟩)
  · exact absurd hh (by decide)
  · have hp : p ∈ [Pc.loop, Pc.loop] := hp
    simp at hp
    subst hp
    exact hpa
  · have hg : g ∈ ([] : List Sig) := hg
    simp at hg

/-- A contract created after the start is restricted for a retry, which no snapshot block ends. -/
theorem late_contract_run : ∃ s, Reach s ∧ s.mode = .running ∧ 1 ∉ s.list ∧ 1 ∈ s.known ∧ s.black 1 = some .retry ∧ s.front 1 2 = some 20 := by
  have h := s0_reach
  have h := h.step (Step.create 1)
  have h := h.step (Step.ledger 1 2 (some 20) true (by decide) (by simp))
  have h := h.step (Step.hear 0 1 rfl rfl)
  have h := h.step (Step.admit 0 1 rfl rfl)
  have h := h.step (Step.push 0 1 rfl rfl)
  have h := h.step (Step.goOn 0 rfl rfl)
  have h := h.step (Step.pop 0 1 rfl (by decide))
  have h := h.step (Step.notBlack 0 1 rfl rfl)
  have h := h.step (Step.enter 0 1 rfl (by decide))
  have h := h.step (Step.acquire 0 1 2 20 rfl rfl rfl)
  have h := h.step (Step.restrict 0 1 2 20 .retry rfl)
  exact ⟨_, h, rfl, by decide, by decide, rfl, rfl⟩

/-- A contract that was taken out for the whole period is handled again in it: the second processor had looked at the blacklist
before the first one entered the contract there. -/
theorem out_contract_is_handled : ∃ s, Reach s ∧ s.mode = .running ∧ s.black 0 = some .out ∧ s.procs[1]? = some (.holds 0 1 10) := by
  have h := s0_reach
  have h := h.step (Step.ledger 0 1 (some 10) true (by decide) (by simp))
  have h := h.step (Step.hear 0 0 rfl rfl)
  have h := h.step (Step.admit 0 0 rfl rfl)
  have h := h.step (Step.goOn 0 rfl rfl)
  have h := h.step (Step.goOn 1 rfl rfl)
  have h := h.step (Step.pop 0 0 rfl (by decide))
  have h := h.step (Step.notBlack 0 0 rfl rfl)
  have h := h.step (Step.enter 0 0 rfl (by decide))
  have h := h.step (Step.acquire 0 0 1 10 rfl rfl rfl)
  have h := h.step (Step.push 0 0 rfl rfl)
  have h := h.step (Step.pop 1 0 rfl (by decide))
  have h := h.step (Step.notBlack 1 0 rfl rfl)
  have h := h.step (Step.restrict 0 0 1 10 .out rfl)
  have h := h.step (Step.leave 0 0 false rfl)
  have h := h.step (Step.enter 1 0 rfl (by decide))
  have h := h.step (Step.acquire 1 0 1 10 rfl rfl rfl)
  exact ⟨_, h, rfl, rfl, rfl⟩

/-- A stop that overtakes the processors it started: they are not waited for, and work on in the next period, in which there are
four of them. -/
theorem four_processors : ∃ s, Reach s ∧ s.mode = .running ∧ s.procs = [.ready, .ready, .ready, .ready] := by
  have h := Reach.init
  have h := h.step (Step.create 0)
  have h := h.step (Step.start rfl)
  have h := h.step (Step.opened rfl)
  have h := h.step (Step.stop rfl)
  have h := h.step (Step.waited rfl (by intro p hp; left; exact List.eq_of_mem_replicate (n := 2) hp))
  have h := h.step (Step.clear rfl)
  have h := h.step (Step.start rfl)
  have h := h.step (Step.opened rfl)
  have h := h.step (Step.add 0 rfl)
  have h := h.step (Step.add 1 rfl)
  have h := h.step (Step.add 2 rfl)
  have h := h.step (Step.add 3 rfl)
  have h := h.step (Step.goOn 0 rfl rfl)
  have h := h.step (Step.goOn 1 rfl rfl)
  have h := h.step (Step.goOn 2 rfl rfl)
  have h := h.step (Step.goOn 3 rfl rfl)
  exact ⟨_, h, rfl, rfl⟩

/-- A worker that was stopped after it had handled a contract. -/
theorem stopped_run : ∃ s, Reach s ∧ s.mode = .off ∧ s.procs = [.done, .done] := by
  have h := s0_reach
  have h := h.step (Step.goOn 0 rfl rfl)
  have h := h.step (Step.pop 0 0 rfl (by decide))
  have h := h.step (Step.notBlack 0 0 rfl rfl)
  have h := h.step (Step.enter 0 0 rfl (by decide))
  have h := h.step (Step.nothing 0 0 rfl (by intro x hx; exact absurd rfl hx))
  have h := h.step (Step.stop rfl)
  have h := h.step (Step.leave 0 0 false rfl)
  have h := h.step (Step.quit 0 rfl rfl)
  have h := h.step (Step.quit 1 rfl rfl)
  have h := h.step (Step.waited rfl (by
    intro p hp
    have hp : p ∈ [Pc.done, Pc.done] := hp
    simp at hp
    exact Or.inr hp))
  have h := h.step (Step.clear rfl)
  exact ⟨_, h, rfl, rfl⟩

end Verif.Work
