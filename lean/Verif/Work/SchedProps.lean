import Verif.Work.SchedLemmas

/-!
C98, C101: the claims about the worker.
-/

namespace Verif.Work

/-- C98: in every state, whatever was started and stopped before and whatever goroutines are left over, no two processors
handle the same contract. -/
theorem one_at_a_time {s : St} (h : Reach s) {i j : Nat} {p q : Pc} {a : Nat} (hi : s.procs[i]? = some p) (hj : s.procs[j]? = some q)
    (hp : p.handles a) (hq : q.handles a) : i = j :=
  h.inv.one i j p q a hi hj hp hq

/-- C98: once Stop has returned, and until the next Start, no processor works. -/
theorem stopped_is_idle {s : St} (h : Reach s) (hm : s.mode = .off) {p : Pc} (hp : p ∈ s.procs) : ¬ p.active := by
  rcases List.mem_iff_getElem?.1 hp with ⟨i, hi⟩
  rcases h.inv.closed (Or.inr hm) i p hi with rfl | rfl | rfl <;> simp [Pc.active]

/-- C98: a processor that is at a contract has it in the working list, so that a third party can tell. -/
theorem handled_is_listed {s : St} (h : Reach s) {p : Pc} (hp : p ∈ s.procs) {a : Nat} (ha : p.handles a) : a ∈ s.work := by
  rcases List.mem_iff_getElem?.1 hp with ⟨i, hi⟩
  exact h.inv.inWork i p a hi ha

/-- C101, except for dropped tasks: while the worker runs, every contract with a send to handle is in the queue, with a
processor that will look at its sends, or a task for it is on its way; unless a task for it was dropped and none was queued
since. -/
theorem attended_partial {s : St} (h : Reach s) (hm : s.mode = .running) {a : Nat} (ha : Serviceable s a) (hl : a ∉ s.lost) :
    Attended s a := by
  rcases h.good (Or.inr hm) a ha with hh | hh
  · exact hh
  · exact absurd hh hl

theorem move_attended {s s' : St} {i : Nat} {p0 p1 : Pc} {a : Nat} (h : Attended s' a) (hi : s.procs[i]? = some p0)
    (hp : s'.procs = s.procs.set i p1) (hq : a ∈ s'.queue → a ∈ s.queue ∨ p0.attends a) (hsig : s'.signals = s.signals)
    (h1 : p1.attends a → p0.attends a ∨ a ∈ s.queue) : Attended s a := by
  have h0 : p0 ∈ s.procs := List.mem_of_getElem? hi
  rcases h with hh | ⟨p, hpm, hpa⟩ | ⟨g, hg, hga⟩
  · rcases hq hh with hh | hh
    · exact Or.inl hh
    · exact Or.inr (Or.inl ⟨p0, h0, hh⟩)
  · rw [hp] at hpm
    rcases List.mem_or_eq_of_mem_set hpm with hh | rfl
    · exact Or.inr (Or.inl ⟨p, hh, hpa⟩)
    · rcases h1 hpa with hh | hh
      · exact Or.inr (Or.inl ⟨p0, h0, hh⟩)
      · exact Or.inl hh
  · exact Or.inr (Or.inr ⟨g, by rw [← hsig]; exact hg, hga⟩)

theorem mem_of_push {s : St} {a b : Nat} (h : b ∈ (s.push a).queue) : b ∈ s.queue ∨ b = a := by
  unfold St.push at h
  by_cases ha : a ∈ s.queue
  · simp only [if_pos ha] at h; exact Or.inl h
  · simp only [if_neg ha] at h
    rcases List.mem_cons.1 h with hh | hh
    · exact Or.inr hh
    · exact Or.inl hh

/-- C101: a contract nobody sees to stays so until a new signal for it is given (by a block of the chain that is sent to it, by
the deletion of a receive, or by a snapshot block that releases it), or the worker is started again. -/
theorem only_a_signal_helps {s s' : St} (hs : Step s s') {a : Nat} (hn : ¬ Attended s a) (h : Attended s' a) :
    (∃ g ∈ s'.signals, g.addr = a) ∨ s'.mode = .opening := by
  by_cases hsig : ∃ g ∈ s'.signals, g.addr = a
  · exact Or.inl hsig
  right
  have sub : ∀ (j : Nat) (g : Sig), s.signals[j]? = some g → g.addr = a → False := fun j g hj hga =>
    hn (Or.inr (Or.inr ⟨g, List.mem_of_getElem? hj, hga⟩))
  cases hs with
  | start hm => rfl
  | create b => exact absurd h hn
  | ledger b x v sig _ _ =>
    rcases h with hh | hh | hh
    · exact absurd (Or.inl hh) hn
    · exact absurd (Or.inr (Or.inl hh)) hn
    · exact absurd hh hsig
  | hear j b hj _ =>
    rcases h with hh | hh | hh
    · exact absurd (Or.inl hh) hn
    · exact absurd (Or.inr (Or.inl hh)) hn
    · exact absurd hh hsig
  | miss j b hj _ =>
    rcases h with hh | hh | hh
    · exact absurd (Or.inl hh) hn
    · exact absurd (Or.inr (Or.inl hh)) hn
    · exact absurd hh hsig
  | refuse j b hj _ =>
    rcases h with hh | hh | hh
    · exact absurd (Or.inl hh) hn
    · exact absurd (Or.inr (Or.inl hh)) hn
    · exact absurd hh hsig
  | admit j b hj _ =>
    rcases h with hh | hh | hh
    · exact absurd (Or.inl hh) hn
    · exact absurd (Or.inr (Or.inl hh)) hn
    · exact absurd hh hsig
  | push j b hj _ =>
    rcases h with hh | hh | hh
    · rcases mem_of_push (s := s.unsignal j) hh with hh | rfl
      · exact absurd (Or.inl hh) hn
      · exact absurd rfl (fun hh => sub j _ hj hh)
    · exact absurd (Or.inr (Or.inl hh)) hn
    · exact absurd hh hsig
  | tooLate j b hj _ =>
    rcases h with hh | hh | hh
    · exact absurd (Or.inl hh) hn
    · exact absurd (Or.inr (Or.inl hh)) hn
    · exact absurd hh hsig
  | release b _ _ _ =>
    rcases h with hh | hh | hh
    · exact absurd (Or.inl hh) hn
    · exact absurd (Or.inr (Or.inl hh)) hn
    · exact absurd hh hsig
  | opened hm =>
    rcases h with hh | ⟨p, hp, hpa⟩ | hh
    · exact absurd (Or.inl hh) hn
    · rcases List.mem_append.1 hp with hp | hp
      · exact absurd (Or.inr (Or.inl ⟨p, hp, hpa⟩)) hn
      · rw [List.eq_of_mem_replicate hp] at hpa
        exact absurd hpa (by simp [Pc.attends])
    · exact absurd hh hsig
  | stop _ => exact absurd h hn
  | waited _ _ => exact absurd h hn
  | clear _ => exact absurd h hn
  | add i hi => exact absurd (move_attended h hi rfl Or.inl rfl (p1 := .loop) (by simp [Pc.attends])) hn
  | goOn i hi _ => exact absurd (move_attended h hi rfl Or.inl rfl (p1 := .ready) (by simp [Pc.attends])) hn
  | quit i hi _ => exact absurd (move_attended h hi rfl Or.inl rfl (p1 := .done) (by simp [Pc.attends])) hn
  | pop i b hi hb =>
    refine absurd (move_attended h hi rfl (fun hh => Or.inl (List.mem_of_mem_filter hh)) rfl (p1 := .popped b) ?_) hn
    intro hh; have hh : b = a := hh; subst hh; exact Or.inr hb
  | empty i hi _ => exact absurd (move_attended h hi rfl Or.inl rfl (p1 := .idle) (by simp [Pc.attends])) hn
  | isBlack i b hi _ => exact absurd (move_attended h hi rfl Or.inl rfl (p1 := .loop) (by simp [Pc.attends])) hn
  | notBlack i b hi _ => exact absurd (move_attended h hi rfl Or.inl rfl (p1 := .checked b) Or.inl) hn
  | dropped i b hi _ => exact absurd (move_attended h hi rfl Or.inl rfl (p1 := .loop) (by simp [Pc.attends])) hn
  | enter i b hi _ => exact absurd (move_attended h hi rfl Or.inl rfl (p1 := .busy b) Or.inl) hn
  | acquire i b x m hi _ _ => exact absurd (move_attended h hi rfl Or.inl rfl (p1 := .holds b x m) Or.inl) hn
  | nothing i b hi _ => exact absurd (move_attended h hi rfl Or.inl rfl (p1 := .leaving b false) (by simp [Pc.attends])) hn
  | again i b x m hi => exact absurd (move_attended h hi rfl Or.inl rfl (p1 := .leaving b true) (fun hh => Or.inl hh.1)) hn
  | restrictCaller i b x m v hi => exact absurd (move_attended h hi rfl Or.inl rfl (p1 := .leaving b true) (fun hh => Or.inl hh.1)) hn
  | restrict i b x m v hi => exact absurd (move_attended h hi rfl Or.inl rfl (p1 := .leaving b false) (by simp [Pc.attends])) hn
  | leave i b again hi =>
    refine absurd (move_attended h hi rfl Or.inl rfl (p1 := if again then .repush b else .loop) ?_) hn
    cases again
    · intro hh; exact absurd hh (by simp [Pc.attends])
    · intro hh; exact Or.inl ⟨hh, rfl⟩
  | requeue i b hi =>
    refine absurd (move_attended h hi rfl ?_ rfl (p1 := .loop) (by simp [Pc.attends])) hn
    intro hh
    rcases mem_of_push (s := s.go i .loop) hh with hh | rfl
    · exact Or.inl hh
    · exact Or.inr rfl
  | sleep i hi _ => exact absurd (move_attended h hi rfl Or.inl rfl (p1 := .waiting) (by simp [Pc.attends])) hn
  | quit' i hi _ => exact absurd (move_attended h hi rfl Or.inl rfl (p1 := .done) (by simp [Pc.attends])) hn
  | wake i hi => exact absurd (move_attended h hi rfl Or.inl rfl (p1 := .loop) (by simp [Pc.attends])) hn

/-! ## Contracts that were created after the start -/

/-- Steps between two states of one period. -/
inductive Period : St → St → Prop
  | refl (s : St) : Period s s
  | step {s s' s'' : St} : Period s s' → Step s' s'' → s''.mode = .running → Period s s''

theorem Period.mode {s s' : St} (h : Period s s') (hm : s.mode = .running) : s'.mode = .running := by
  cases h with
  | refl => exact hm
  | step _ _ hm => exact hm

theorem step_list {s s' : St} (hs : Step s s') (hm : s.mode = .running) : s'.list = s.list := by
  cases hs with
  | start h => rw [hm] at h; simp at h
  | _ => rfl

/-- C101: a contract that is not in the list made at Start, for instance because it was created later, is not released by snapshot
blocks: once it, or a caller of it, is restricted, even for a retry at the next snapshot block, this lasts for the whole period. -/
theorem late_contract_stays_restricted {s s' : St} (h : Period s s') (hm : s.mode = .running) {a x : Nat} (ha : a ∉ s.list)
    (hb : s.black a ≠ none ∨ s.inf a x ≠ none) : a ∉ s'.list ∧ (s'.black a ≠ none ∨ s'.inf a x ≠ none) := by
  induction h with
  | refl => exact ⟨ha, hb⟩
  | step hp hs hm' ih =>
    rename_i t t'
    have hmt := hp.mode hm
    obtain ⟨h1, h2⟩ := ih
    refine ⟨by rw [step_list hs hmt]; exact h1, ?_⟩
    cases hs with
    | release b hb' _ _ =>
      have hab : a ≠ b := fun hh => h1 (hh ▸ hb')
      simpa [upd, hab] using h2
    | restrictCaller i b y m v hi =>
      rcases h2 with h2 | h2
      · exact Or.inl h2
      · right
        by_cases hab : a = b
        · subst hab
          by_cases hxy : x = y
          · subst hxy; simp [upd]
          · simpa [upd, hxy] using h2
        · simpa [upd, hab] using h2
    | restrict i b y m v hi =>
      by_cases hab : a = b
      · subst hab; left; simp [upd]
      · rcases h2 with h2 | h2
        · left; simpa [upd, hab] using h2
        · right
          by_cases hv : v = .out
          · simpa [hv, upd, hab] using h2
          · simpa [hv] using h2
    | clear h => rw [hmt] at h; simp at h
    | _ => exact h2

end Verif.Work
