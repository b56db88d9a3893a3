import Verif.Work.SchedSpec

/-!
The invariants of the worker.
-/

namespace Verif.Work

/-- The processor is not at work on tasks. -/
def Pc.off (p : Pc) : Prop := p = .spawned ∨ p = .loop ∨ p = .done

theorem go_get {l : List Pc} {i k : Nat} {p p0 q : Pc} (hi : l[i]? = some p0) (hk : (l.set i p)[k]? = some q) :
    (k = i ∧ q = p) ∨ (k ≠ i ∧ l[k]? = some q) := by
  have hlt : i < l.length := by
    rcases List.getElem?_eq_some_iff.1 hi with ⟨h, _⟩; exact h
  rw [List.getElem?_set] at hk
  by_cases he : i = k
  · rw [if_pos he, if_pos hlt] at hk
    exact Or.inl ⟨he.symm, by simpa using hk.symm⟩
  · rw [if_neg he] at hk
    exact Or.inr ⟨fun h => he h.symm, hk⟩

/-- What holds in every state. -/
structure Inv (s : St) : Prop where
  one : ∀ (i j : Nat) (p q : Pc) (a : Nat), s.procs[i]? = some p → s.procs[j]? = some q → p.handles a → q.handles a → i = j
  inWork : ∀ (i : Nat) (p : Pc) (a : Nat), s.procs[i]? = some p → p.handles a → a ∈ s.work
  opened : s.mode = .opening ∨ s.mode = .running → s.cancel = false
  closed : s.mode = .clearing ∨ s.mode = .off → ∀ (i : Nat) (p : Pc), s.procs[i]? = some p → p.off
  cancelled : s.mode = .closing ∨ s.mode = .clearing ∨ s.mode = .off → s.cancel = true ∨ s.procs = []
  known : ∀ a x, s.front a x ≠ none → a ∈ s.known

theorem Inv.init : Inv St.init := by
  constructor <;> simp [St.init]

/-- A processor moves. -/
theorem Inv.move {s s' : St} (h : Inv s) {i : Nat} {p0 p1 : Pc} (hi : s.procs[i]? = some p0) (hp : s'.procs = s.procs.set i p1)
    (hm : s'.mode = s.mode) (hc : s'.cancel = s.cancel) (hk : s'.known = s.known) (hf : s'.front = s.front)
    (h1 : ∀ a, p1.handles a → p0.handles a ∨ a ∉ s.work) (h2 : ∀ a ∈ s.work, a ∈ s'.work ∨ p0.handles a ∧ ¬ p1.handles a)
    (h3 : ∀ a, p1.handles a → a ∈ s'.work) (h4 : p0.off → s.cancel = true → p1.off) : Inv s' := by
  refine ⟨?_, ?_, ?_, ?_, ?_, ?_⟩
  · intro j k p q a hj hk' hpa hqa
    rw [hp] at hj hk'
    rcases go_get hi hj with ⟨rfl, rfl⟩ | ⟨hne, hj2⟩ <;> rcases go_get hi hk' with ⟨rfl, rfl⟩ | ⟨hne', hk2⟩
    · rfl
    · rcases h1 a hpa with ho | ho
      · exact h.one _ _ _ _ a hi hk2 ho hqa
      · exact absurd (h.inWork _ _ a hk2 hqa) ho
    · rcases h1 a hqa with ho | ho
      · exact h.one _ _ _ _ a hj2 hi hpa ho
      · exact absurd (h.inWork _ _ a hj2 hpa) ho
    · exact h.one _ _ _ _ a hj2 hk2 hpa hqa
  · intro j p a hj hpa
    rw [hp] at hj
    rcases go_get hi hj with ⟨rfl, rfl⟩ | ⟨hne, hj⟩
    · exact h3 a hpa
    · rcases h2 a (h.inWork _ _ a hj hpa) with ho | ⟨ho, _⟩
      · exact ho
      · exact absurd (h.one _ _ _ _ a hj hi hpa ho) hne
  · rw [hm, hc]; exact h.opened
  · intro hmode j p hj
    rw [hm] at hmode
    rw [hp] at hj
    have hcl := h.closed hmode
    rcases go_get hi hj with ⟨rfl, rfl⟩ | ⟨hne, hj⟩
    · apply h4 (hcl _ _ hi)
      rcases h.cancelled (Or.inr hmode) with hh | hh
      · exact hh
      · rw [hh] at hi; simp at hi
    · exact hcl _ _ hj
  · intro hmode
    rw [hm] at hmode
    rw [hc, hp]
    rcases h.cancelled hmode with hh | hh
    · exact Or.inl hh
    · right; rw [hh]; rfl
  · rw [hk, hf]; exact h.known

/-- The processors and the working list do not change. -/
theorem Inv.same {s s' : St} (h : Inv s) (hp : s'.procs = s.procs) (hw : s'.work = s.work)
    (hm : s'.mode = s.mode) (hc : s'.cancel = s.cancel) (hk : s'.known = s.known) (hf : s'.front = s.front) : Inv s' :=
  ⟨by rw [hp]; exact h.one, by rw [hp, hw]; exact h.inWork, by rw [hm, hc]; exact h.opened, by rw [hm, hp]; exact h.closed,
   by rw [hm, hc, hp]; exact h.cancelled, by rw [hk, hf]; exact h.known⟩

theorem Inv.step {s s' : St} (h : Inv s) (hs : Step s s') : Inv s' := by
  cases hs with
  | create a => exact ⟨h.one, h.inWork, h.opened, h.closed, h.cancelled, fun b x hb => List.mem_cons_of_mem _ (h.known b x hb)⟩
  | ledger a x v sig ha hv =>
    refine ⟨h.one, h.inWork, h.opened, h.closed, h.cancelled, fun b y hb => ?_⟩
    by_cases hba : b = a
    · subst hba; exact ha
    · apply h.known b y
      simpa [upd, hba] using hb
  | hear j a _ _ => exact h.same rfl rfl rfl rfl rfl rfl
  | miss j a _ _ => exact h.same rfl rfl rfl rfl rfl rfl
  | refuse j a _ _ => exact h.same rfl rfl rfl rfl rfl rfl
  | admit j a _ _ => exact h.same rfl rfl rfl rfl rfl rfl
  | push j a _ _ => exact h.same rfl rfl rfl rfl rfl rfl
  | tooLate j a _ _ => exact h.same rfl rfl rfl rfl rfl rfl
  | release a _ _ _ => exact h.same rfl rfl rfl rfl rfl rfl
  | start hm =>
    exact ⟨h.one, h.inWork, fun _ => rfl, fun hh => by simp at hh, fun hh => by simp at hh, h.known⟩
  | opened hm =>
    have hold : ∀ (i : Nat) (p : Pc), (s.procs ++ List.replicate processors Pc.spawned)[i]? = some p → s.procs[i]? = some p ∨ p = .spawned := by
      intro i p hi
      rw [List.getElem?_append] at hi
      by_cases hlt : i < s.procs.length
      · rw [if_pos hlt] at hi; exact Or.inl hi
      · rw [if_neg hlt] at hi
        right
        exact List.eq_of_mem_replicate (List.mem_of_getElem? hi)
    refine ⟨?_, ?_, fun _ => h.opened (Or.inl hm), fun hh => by simp at hh, fun hh => by simp at hh, h.known⟩
    · intro i j p q a hi hj hpa hqa
      rcases hold i p hi with hi | rfl
      · rcases hold j q hj with hj | rfl
        · exact h.one i j p q a hi hj hpa hqa
        · exact absurd hqa (by simp [Pc.handles])
      · exact absurd hpa (by simp [Pc.handles])
    · intro i p a hi hpa
      rcases hold i p hi with hi | rfl
      · exact h.inWork i p a hi hpa
      · exact absurd hpa (by simp [Pc.handles])
  | stop hm =>
    exact ⟨h.one, h.inWork, fun hh => by simp at hh, fun hh => by simp at hh, fun _ => Or.inl rfl, h.known⟩
  | waited hm hall =>
    refine ⟨h.one, h.inWork, fun hh => by simp at hh, fun _ i p hi => ?_, fun _ => h.cancelled (Or.inl hm), h.known⟩
    rcases hall p (List.mem_of_getElem? hi) with hp | hp
    · exact Or.inl hp
    · exact Or.inr (Or.inr hp)
  | clear hm =>
    have hcl := h.closed (Or.inl hm)
    refine ⟨h.one, ?_, fun hh => by simp at hh, fun _ => hcl, fun _ => h.cancelled (Or.inr (Or.inl hm)), h.known⟩
    intro i p a hi hpa
    rcases hcl i p hi with rfl | rfl | rfl <;> exact absurd hpa (by simp [Pc.handles])
  | add i hi => exact h.move hi rfl rfl rfl rfl rfl (by simp [Pc.handles]) (fun a ha => Or.inl ha) (by simp [Pc.handles]) (by simp [Pc.off])
  | goOn i hi hc => exact h.move hi rfl rfl rfl rfl rfl (by simp [Pc.handles]) (fun a ha => Or.inl ha) (by simp [Pc.handles]) (by simp [hc])
  | quit i hi hc => exact h.move hi rfl rfl rfl rfl rfl (by simp [Pc.handles]) (fun a ha => Or.inl ha) (by simp [Pc.handles]) (by simp [Pc.off])
  | pop i a hi ha => exact h.move hi rfl rfl rfl rfl rfl (by simp [Pc.handles]) (fun a ha => Or.inl ha) (by simp [Pc.handles]) (by simp [Pc.off])
  | empty i hi hq => exact h.move hi rfl rfl rfl rfl rfl (by simp [Pc.handles]) (fun a ha => Or.inl ha) (by simp [Pc.handles]) (by simp [Pc.off])
  | isBlack i a hi hb => exact h.move hi rfl rfl rfl rfl rfl (by simp [Pc.handles]) (fun a ha => Or.inl ha) (by simp [Pc.handles]) (by simp [Pc.off])
  | notBlack i a hi hb => exact h.move hi rfl rfl rfl rfl rfl (by simp [Pc.handles]) (fun a ha => Or.inl ha) (by simp [Pc.handles]) (by simp [Pc.off])
  | dropped i a hi hw => exact h.move hi rfl rfl rfl rfl rfl (by simp [Pc.handles]) (fun a ha => Or.inl ha) (by simp [Pc.handles]) (by simp [Pc.off])
  | enter i a hi hw =>
    refine h.move hi rfl rfl rfl rfl rfl (p1 := .busy a) ?_ (fun b hb => Or.inl (List.mem_cons_of_mem _ hb)) ?_ (by simp [Pc.off])
    · intro b hb; have hb : a = b := hb; subst hb; exact Or.inr hw
    · intro b hb; have hb : a = b := hb; subst hb; exact List.mem_cons_self
  | acquire i a x m hi _ _ =>
    exact h.move hi rfl rfl rfl rfl rfl (p1 := .holds a x m) (fun b hb => Or.inl hb) (fun b hb => Or.inl hb)
      (fun b hb => h.inWork i _ b hi hb) (by simp [Pc.off])
  | nothing i a hi _ =>
    exact h.move hi rfl rfl rfl rfl rfl (p1 := .leaving a false) (fun b hb => Or.inl hb) (fun b hb => Or.inl hb)
      (fun b hb => h.inWork i _ b hi hb) (by simp [Pc.off])
  | again i a x m hi =>
    exact h.move hi rfl rfl rfl rfl rfl (p1 := .leaving a true) (fun b hb => Or.inl hb) (fun b hb => Or.inl hb)
      (fun b hb => h.inWork i _ b hi hb) (by simp [Pc.off])
  | restrictCaller i a x m v hi =>
    exact h.move hi rfl rfl rfl rfl rfl (p1 := .leaving a true) (fun b hb => Or.inl hb) (fun b hb => Or.inl hb)
      (fun b hb => h.inWork i _ b hi hb) (by simp [Pc.off])
  | restrict i a x m v hi =>
    exact h.move hi rfl rfl rfl rfl rfl (p1 := .leaving a false) (fun b hb => Or.inl hb) (fun b hb => Or.inl hb)
      (fun b hb => h.inWork i _ b hi hb) (by simp [Pc.off])
  | leave i a again hi =>
    refine h.move hi rfl rfl rfl rfl rfl (p1 := if again then .repush a else .loop) ?_ ?_ ?_ (by simp [Pc.off])
    · intro b hb; cases again <;> exact absurd hb (by simp [Pc.handles])
    · intro b hb
      by_cases hba : b = a
      · right
        subst hba
        exact ⟨rfl, by cases again <;> simp [Pc.handles]⟩
      · left; simp [hb, hba]
    · intro b hb; cases again <;> exact absurd hb (by simp [Pc.handles])
  | requeue i a hi => exact h.move hi rfl rfl rfl rfl rfl (p1 := .loop) (by simp [Pc.handles]) (fun a ha => Or.inl ha) (by simp [Pc.handles]) (by simp [Pc.off])
  | sleep i hi hc => exact h.move hi rfl rfl rfl rfl rfl (by simp [Pc.handles]) (fun a ha => Or.inl ha) (by simp [Pc.handles]) (by simp [Pc.off])
  | quit' i hi hc => exact h.move hi rfl rfl rfl rfl rfl (by simp [Pc.handles]) (fun a ha => Or.inl ha) (by simp [Pc.handles]) (by simp [Pc.off])
  | wake i hi => exact h.move hi rfl rfl rfl rfl rfl (by simp [Pc.handles]) (fun a ha => Or.inl ha) (by simp [Pc.handles]) (by simp [Pc.off])

theorem Reach.inv {s : St} (h : Reach s) : Inv s := by
  induction h with
  | init => exact Inv.init
  | step _ hs ih => exact ih.step hs

/-! ## Attendance -/

/-- Someone sees to the contract, or a task for it was dropped and none queued since. -/
def Kept (s : St) (a : Nat) : Prop := Attended s a ∨ a ∈ s.lost

/-- Every contract with something to do is kept while the worker runs. -/
def Good (s : St) : Prop := (s.mode = .opening ∨ s.mode = .running) → ∀ a, Serviceable s a → Kept s a

/-- A processor moves, and sees no longer to at most one contract. -/
theorem Good.move {s s' : St} (h : Good s) {i : Nat} {p0 p1 : Pc} (hi : s.procs[i]? = some p0) (hp : s'.procs = s.procs.set i p1)
    (hm : s'.mode = s.mode) (hsv : ∀ a, Serviceable s' a → Serviceable s a)
    (hq : ∀ a ∈ s.queue, a ∈ s'.queue ∨ p1.attends a) (hsig : s'.signals = s.signals)
    (hl : ∀ a ∈ s.lost, a ∈ s'.lost ∨ Kept s' a)
    (h1 : ∀ a, p0.attends a → (s'.mode = .opening ∨ s'.mode = .running) → Serviceable s' a → p1.attends a ∨ a ∈ s'.queue ∨ a ∈ s'.lost) : Good s' := by
  intro hmode a ha
  have hlt : i < s.procs.length := by
    rcases List.getElem?_eq_some_iff.1 hi with ⟨h, _⟩; exact h
  have hnew : p1 ∈ s'.procs := by rw [hp]; exact List.mem_set hlt _
  have hmode' := hmode
  rw [hm] at hmode
  rcases h hmode a (hsv a ha) with (hin | ⟨p, hpm, hpa⟩ | ⟨g, hg, hga⟩) | hlost
  · rcases hq a hin with hh | hh
    · exact Or.inl (Or.inl hh)
    · exact Or.inl (Or.inr (Or.inl ⟨p1, hnew, hh⟩))
  · rcases List.mem_iff_getElem?.1 hpm with ⟨k, hk⟩
    by_cases hki : k = i
    · subst hki
      rw [hk] at hi
      injection hi with hi
      subst hi
      rcases h1 a hpa hmode' ha with hh | hh | hh
      · exact Or.inl (Or.inr (Or.inl ⟨p1, hnew, hh⟩))
      · exact Or.inl (Or.inl hh)
      · exact Or.inr hh
    · refine Or.inl (Or.inr (Or.inl ⟨p, ?_, hpa⟩))
      rw [hp]
      refine List.mem_of_getElem? (i := k) ?_
      rw [List.getElem?_set, if_neg (fun hh => hki hh.symm)]
      exact hk
  · exact Or.inl (Or.inr (Or.inr ⟨g, by rw [hsig]; exact hg, hga⟩))
  · rcases hl a hlost with hh | hh
    · exact Or.inr hh
    · exact hh

theorem mem_push {s : St} {a b : Nat} (h : b ∈ s.queue) : b ∈ (s.push a).queue := by
  unfold St.push
  by_cases ha : a ∈ s.queue
  · simp only [if_pos ha]; exact h
  · simp only [if_neg ha]; exact List.mem_cons_of_mem _ h

theorem mem_push_self {s : St} {a : Nat} : a ∈ (s.push a).queue := by
  unfold St.push
  by_cases ha : a ∈ s.queue
  · simp only [if_pos ha]; exact ha
  · simp only [if_neg ha]; exact List.mem_cons_self

/-- A signal is gone; the contract it was for is seen to otherwise. -/
theorem Good.signal {s s' : St} (h : Good s) {j : Nat} {g : Sig} (hj : s.signals[j]? = some g) (hp : s'.procs = s.procs)
    (hm : s'.mode = s.mode) (hsv : ∀ a, Serviceable s' a → Serviceable s a)
    (hq : ∀ a ∈ s.queue, a ∈ s'.queue) (hsig : ∀ g' ∈ s.signals.eraseIdx j, g' ∈ s'.signals)
    (hl : ∀ a ∈ s.lost, a ∈ s'.lost ∨ Kept s' a)
    (h1 : (s'.mode = .opening ∨ s'.mode = .running) → Serviceable s' g.addr → Kept s' g.addr) : Good s' := by
  intro hmode a ha
  have hmode' := hmode
  rw [hm] at hmode
  rcases h hmode a (hsv a ha) with (hin | ⟨p, hpm, hpa⟩ | ⟨g', hg, hga⟩) | hlost
  · exact Or.inl (Or.inl (hq a hin))
  · exact Or.inl (Or.inr (Or.inl ⟨p, by rw [hp]; exact hpm, hpa⟩))
  · rcases List.mem_iff_getElem?.1 hg with ⟨k, hk⟩
    by_cases hkj : k = j
    · subst hkj
      rw [hk] at hj
      injection hj with hj
      subst hj
      subst hga
      exact h1 hmode' ha
    · refine Or.inl (Or.inr (Or.inr ⟨g', hsig g' ?_, hga⟩))
      exact List.mem_eraseIdx_iff_getElem?.2 ⟨k, hkj, hk⟩
  · rcases hl a hlost with hh | hh
    · exact Or.inr hh
    · exact hh

theorem Good.step {s s' : St} (hinv : Inv s) (h : Good s) (hs : Step s s') : Good s' := by
  cases hs with
  | create a => exact h
  | ledger a x v sig ha hv =>
    intro hmode b hb
    have lift : Kept s b → Kept { s with front := upd s.front a (upd (s.front a) x v), signals := if sig then .raised a :: s.signals else s.signals } b := by
      rintro ((hh | hh | ⟨g, hg, hga⟩) | hh)
      · exact Or.inl (Or.inl hh)
      · exact Or.inl (Or.inr (Or.inl hh))
      · refine Or.inl (Or.inr (Or.inr ⟨g, ?_, hga⟩))
        cases sig
        · exact hg
        · exact List.mem_cons_of_mem _ hg
      · exact Or.inr hh
    obtain ⟨hbl, y, m, hf, hinf⟩ := hb
    dsimp only at hbl hf hinf
    by_cases hab : b = a ∧ y = x
    · obtain ⟨rfl, rfl⟩ := hab
      have hvm : v = some m := by simpa [upd] using hf
      rcases hold : s.front b y with _ | m0
      · have hsig := hv hold (by simp [hvm])
        subst hsig
        exact Or.inl (Or.inr (Or.inr ⟨.raised b, List.mem_cons_self, rfl⟩))
      · exact lift (h hmode b ⟨hbl, y, m0, hold, hinf⟩)
    · refine lift (h hmode b ⟨hbl, y, m, ?_, hinf⟩)
      by_cases hba : b = a
      · subst hba
        have hyx : y ≠ x := fun hh => hab ⟨rfl, hh⟩
        simpa [upd, hyx] using hf
      · simpa [upd, hba] using hf
  | hear j a hj hm =>
    exact h.signal hj rfl rfl (fun _ hb => hb) (fun _ hb => hb) (fun g hg => List.mem_cons_of_mem _ hg) (fun _ hb => Or.inl hb)
      (fun _ _ => Or.inl (Or.inr (Or.inr ⟨.heard a, List.mem_cons_self, rfl⟩)))
  | miss j a hj hm =>
    exact h.signal hj rfl rfl (fun _ hb => hb) (fun _ hb => hb) (fun g hg => hg) (fun _ hb => Or.inl (List.mem_cons_of_mem _ hb))
      (fun _ _ => Or.inr List.mem_cons_self)
  | refuse j a hj hb =>
    exact h.signal hj rfl rfl (fun _ hb => hb) (fun _ hb => hb) (fun g hg => hg) (fun _ hb => Or.inl hb)
      (fun _ hh => absurd hh.1 hb)
  | admit j a hj hb =>
    exact h.signal hj rfl rfl (fun _ hb => hb) (fun _ hb => hb) (fun g hg => List.mem_cons_of_mem _ hg) (fun _ hb => Or.inl hb)
      (fun _ _ => Or.inl (Or.inr (Or.inr ⟨.toPush a, List.mem_cons_self, rfl⟩)))
  | push j a hj hc =>
    refine h.signal hj rfl rfl (fun _ hb => hb) (fun _ hb => mem_push (s := s.unsignal j) hb) (fun g hg => hg) ?_
      (fun _ _ => Or.inl (Or.inl (mem_push_self (s := s.unsignal j))))
    intro b hb
    by_cases hba : b = a
    · subst hba; exact Or.inr (Or.inl (Or.inl (mem_push_self (s := s.unsignal j))))
    · left; show b ∈ s.lost.filter _; simp [hb, hba]
  | tooLate j a hj hc =>
    exact h.signal hj rfl rfl (fun _ hb => hb) (fun _ hb => hb) (fun g hg => hg) (fun _ hb => Or.inl hb)
      (fun hmode _ => by rw [show (s.unsignal j).mode = s.mode from rfl] at hmode; rw [hinv.opened hmode] at hc; exact absurd hc (by simp))
  | release a hl hb hr =>
    intro hmode b hsv
    by_cases hba : b = a
    · subst hba
      exact Or.inl (Or.inr (Or.inr ⟨.toPush b, List.mem_cons_self, rfl⟩))
    · have hsv' : Serviceable s b := by
        obtain ⟨h1, x, m, h2, h3⟩ := hsv
        exact ⟨by simpa [upd, hba] using h1, x, m, h2, by simpa [upd, hba] using h3⟩
      rcases h hmode b hsv' with (hh | hh | ⟨g, hg, hga⟩) | hh
      · exact Or.inl (Or.inl hh)
      · exact Or.inl (Or.inr (Or.inl hh))
      · exact Or.inl (Or.inr (Or.inr ⟨g, List.mem_cons_of_mem _ hg, hga⟩))
      · exact Or.inr hh
  | start hm =>
    intro _ b hb
    obtain ⟨_, x, m, hf, _⟩ := hb
    refine Or.inl (Or.inl ?_)
    refine hinv.known b x ?_
    have hf : s.front b x = some m := hf
    rw [hf]; simp
  | opened hm =>
    intro _ b hb
    rcases h (Or.inl hm) b hb with (hh | ⟨p, hp, hpa⟩ | hh) | hh
    · exact Or.inl (Or.inl hh)
    · exact Or.inl (Or.inr (Or.inl ⟨p, List.mem_append_left _ hp, hpa⟩))
    · exact Or.inl (Or.inr (Or.inr hh))
    · exact Or.inr hh
  | stop hm => intro hmode; simp at hmode
  | waited hm hall => intro hmode; simp at hmode
  | clear hm => intro hmode; simp at hmode
  | add i hi => exact h.move hi rfl rfl (fun _ hb => hb) (fun _ hb => Or.inl hb) rfl (fun _ hb => Or.inl hb) (by simp [Pc.attends])
  | goOn i hi hc => exact h.move hi rfl rfl (fun _ hb => hb) (fun _ hb => Or.inl hb) rfl (fun _ hb => Or.inl hb) (by simp [Pc.attends])
  | quit i hi hc => exact h.move hi rfl rfl (fun _ hb => hb) (fun _ hb => Or.inl hb) rfl (fun _ hb => Or.inl hb) (by simp [Pc.attends])
  | pop i a hi ha =>
    refine h.move hi rfl rfl (p1 := .popped a) (fun _ hb => hb) ?_ rfl (fun _ hb => Or.inl hb) (by simp [Pc.attends])
    intro b hb
    by_cases hba : b = a
    · exact Or.inr hba.symm
    · left; show b ∈ s.queue.filter _; simp [hb, hba]
  | empty i hi hq => exact h.move hi rfl rfl (fun _ hb => hb) (fun _ hb => Or.inl hb) rfl (fun _ hb => Or.inl hb) (by simp [Pc.attends])
  | isBlack i a hi hb =>
    refine h.move hi rfl rfl (p1 := .loop) (fun _ hb => hb) (fun _ hb => Or.inl hb) rfl (fun _ hb => Or.inl hb) ?_
    intro b hba _ hsv
    have hba : a = b := hba
    subst hba
    exact absurd hsv.1 hb
  | notBlack i a hi hb =>
    exact h.move hi rfl rfl (p1 := .checked a) (fun _ hb => hb) (fun _ hb => Or.inl hb) rfl (fun _ hb => Or.inl hb) (fun b hba _ _ => Or.inl hba)
  | dropped i a hi hw =>
    refine h.move hi rfl rfl (p1 := .loop) (fun _ hb => hb) (fun _ hb => Or.inl hb) rfl (fun _ hb => Or.inl (List.mem_cons_of_mem _ hb)) ?_
    intro b hba _ _
    have hba : a = b := hba
    subst hba
    exact Or.inr (Or.inr List.mem_cons_self)
  | enter i a hi hw =>
    exact h.move hi rfl rfl (p1 := .busy a) (fun _ hb => hb) (fun _ hb => Or.inl hb) rfl (fun _ hb => Or.inl hb) (fun b hba _ _ => Or.inl hba)
  | acquire i a x m hi hf hx =>
    exact h.move hi rfl rfl (p1 := .holds a x m) (fun _ hb => hb) (fun _ hb => Or.inl hb) rfl (fun _ hb => Or.inl hb) (fun b hba _ _ => Or.inl hba)
  | nothing i a hi hno =>
    refine h.move hi rfl rfl (p1 := .leaving a false) (fun _ hb => hb) (fun _ hb => Or.inl hb) rfl (fun _ hb => Or.inl hb) ?_
    intro b hba _ hsv
    have hba : a = b := hba
    subst hba
    obtain ⟨_, x, m, hf, hx⟩ := hsv
    have hf : s.front a x = some m := hf
    exact absurd hx (hno x (by rw [hf]; simp))
  | again i a x m hi =>
    exact h.move hi rfl rfl (p1 := .leaving a true) (fun _ hb => hb) (fun _ hb => Or.inl hb) rfl (fun _ hb => Or.inl hb)
      (fun b hba _ _ => Or.inl ⟨hba, rfl⟩)
  | restrictCaller i a x m v hi =>
    refine h.move hi rfl rfl (p1 := .leaving a true) ?_ (fun _ hb => Or.inl hb) rfl (fun _ hb => Or.inl hb)
      (fun b hba _ _ => Or.inl ⟨hba, rfl⟩)
    rintro b ⟨h1, y, m', h2, h3⟩
    refine ⟨h1, y, m', h2, ?_⟩
    dsimp only at h3
    by_cases hba : b = a
    · subst hba
      by_cases hyx : y = x
      · subst hyx; simp [upd] at h3
      · simpa [upd, hyx] using h3
    · simpa [upd, hba] using h3
  | restrict i a x m v hi =>
    have hno : ∀ b, Serviceable { s.go i (.leaving a false) with
        black := upd s.black a (some v), inf := if v = .out then upd s.inf a (fun _ => none) else s.inf } b → b ≠ a := by
      rintro b ⟨h1, _⟩ rfl
      simp [upd] at h1
    refine h.move hi rfl rfl (p1 := .leaving a false) ?_ (fun _ hb => Or.inl hb) rfl (fun _ hb => Or.inl hb) ?_
    · intro b hsv
      have hba := hno b hsv
      obtain ⟨h1, y, m', h2, h3⟩ := hsv
      refine ⟨by simpa [upd, hba] using h1, y, m', h2, ?_⟩
      dsimp only at h3
      by_cases hv : v = .out
      · simpa [hv, upd, hba] using h3
      · simpa [hv] using h3
    · intro b hba _ hsv
      exact absurd (Eq.symm hba) (hno b hsv)
  | leave i a again hi =>
    refine h.move hi rfl rfl (p1 := if again then .repush a else .loop) (fun _ hb => hb) (fun _ hb => Or.inl hb) rfl (fun _ hb => Or.inl hb) ?_
    rintro b ⟨hba, hag⟩ _ _
    subst hba
    subst hag
    exact Or.inl rfl
  | requeue i a hi =>
    refine h.move hi rfl rfl (p1 := .loop) (fun _ hb => hb) (fun _ hb => Or.inl (mem_push (s := s.go i .loop) hb)) rfl ?_ ?_
    · intro b hb
      by_cases hba : b = a
      · subst hba; exact Or.inr (Or.inl (Or.inl (mem_push_self (s := s.go i .loop))))
      · left; show b ∈ s.lost.filter _; simp [hb, hba]
    · intro b hba _ _
      have hba : a = b := hba
      subst hba
      exact Or.inr (Or.inl (mem_push_self (s := s.go i .loop)))
  | sleep i hi hc => exact h.move hi rfl rfl (fun _ hb => hb) (fun _ hb => Or.inl hb) rfl (fun _ hb => Or.inl hb) (by simp [Pc.attends])
  | quit' i hi hc => exact h.move hi rfl rfl (fun _ hb => hb) (fun _ hb => Or.inl hb) rfl (fun _ hb => Or.inl hb) (by simp [Pc.attends])
  | wake i hi => exact h.move hi rfl rfl (fun _ hb => hb) (fun _ hb => Or.inl hb) rfl (fun _ hb => Or.inl hb) (by simp [Pc.attends])

theorem Reach.good {s : St} (h : Reach s) : Good s := by
  induction h with
  | init => intro hm; simp [St.init] at hm
  | step hr hs ih => exact Good.step hr.inv ih hs

end Verif.Work
