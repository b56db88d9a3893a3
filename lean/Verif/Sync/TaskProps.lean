import Verif.Sync.TaskModel

/-!
# No task is lost and the first one is always under way

Property C87. -/

namespace Verif.Sync

/-- A task that needs nothing more. -/
def Finished (t : Task) : Prop := t.st = .done ∨ t.st = .cancel

instance (t : Task) : Decidable (Finished t) := by unfold Finished; infer_instance

/-- A task is as before, or it waited (at first or after an error) and is under way now. -/
def Kept (t t' : Task) : Prop := t' = t ∨ ((t.st = .waiting ∨ t.st = .error) ∧ t' = { t with st := .pending })

/-- Some tasks are under way, the rest as before. -/
def AllKept (l l' : List Task) : Prop := List.Forall₂ Kept l l'

theorem kept_refl (t : Task) : Kept t t := Or.inl rfl

theorem allKept_refl (l : List Task) : AllKept l l := by
  induction l with
  | nil => exact .nil
  | cons t l ih => exact .cons (kept_refl t) ih

theorem visit_kept (old : Nat → Bool) (maxB : Nat) (l : List Task) (skip batch k : Nat) (cont : Bool) : AllKept l (visit old maxB l skip batch k cont).1 := by
  fun_induction visit old maxB l skip batch k cont with
  | case1 => exact .nil
  | case2 _ _ _ _ _ _ _ ih => exact .cons (kept_refl _) ih
  | case3 _ _ _ _ _ _ _ ih => exact .cons (kept_refl _) ih
  | case4 _ _ _ _ _ _ _ ih => exact .cons (kept_refl _) ih
  | case5 _ _ _ _ _ _ _ ih => exact .cons (kept_refl _) ih
  | case6 t r batch k cont h1 h2 h3 h4 x ih =>
    refine .cons (Or.inr ⟨?_, rfl⟩) ih
    cases h : t.st <;> simp_all
  | case7 => exact allKept_refl _

/-- How many tasks at the front are finished. -/
def front : List Task → Nat
  | [] => 0
  | t :: l => if Finished t then front l + 1 else 0

theorem front_finished (l : List Task) (k : Nat) (h : k ≤ front l) : ∀ t ∈ l.take k, Finished t := by
  induction l generalizing k with
  | nil => simp
  | cons t l ih =>
    cases k with
    | zero => simp
    | succ k =>
      rw [front] at h
      split at h
      · rename_i hf
        intro x hx
        rw [List.take_succ_cons] at hx
        rcases List.mem_cons.mp hx with rfl | hx
        · exact hf
        · exact ih k (by omega) x hx
      · omega

theorem visit_count_off (old : Nat → Bool) (maxB : Nat) (l : List Task) (skip batch k : Nat) : (visit old maxB l skip batch k false).2 = k := by
  generalize hc : false = cont
  fun_induction visit old maxB l skip batch k cont with
  | case1 => rfl
  | case2 _ _ _ _ _ _ _ ih => exact ih hc
  | case3 t r batch k cont h x ih =>
    subst hc
    exact ih rfl
  | case4 t r batch k cont h x ih =>
    subst hc
    exact ih rfl
  | case5 _ _ _ _ _ _ _ ih => exact ih rfl
  | case6 _ _ _ _ _ _ _ _ _ _ ih => exact ih rfl
  | case7 => rfl

theorem visit_count (old : Nat → Bool) (maxB : Nat) (l : List Task) (k : Nat) : (visit old maxB l 0 0 k true).2 ≤ k + front l := by
  induction l generalizing k with
  | nil => simp [visit]
  | cons t l ih =>
    unfold visit
    cases h : t.st with
    | done =>
      have hf : Finished t := Or.inl h
      rw [front, if_pos hf]
      have := ih (if (true && old t.id) = true then k + 1 else k)
      dsimp only
      refine Nat.le_trans this ?_
      split <;> omega
    | cancel =>
      have hf : Finished t := Or.inr h
      rw [front, if_pos hf]
      have := ih (k + 1)
      dsimp only at this ⊢
      simp only [if_true]
      omega
    | pending =>
      dsimp only
      rw [visit_count_off]
      omega
    | waiting =>
      dsimp only
      split
      · dsimp only
        rw [visit_count_off]
        omega
      · dsimp only
        omega
    | error =>
      dsimp only
      split
      · dsimp only
        rw [visit_count_off]
        omega
      · dsimp only
        omega

/-- **C87.** A turn of the loop drops finished tasks from the front and nothing else; the other tasks stay, in order, and the only change is that some that waited are under way: none that is under way
already or done. -/
theorem round_keeps (old : Nat → Bool) (maxB : Nat) (l : List Task) : ∃ dropped rest, l = dropped ++ rest ∧ (∀ t ∈ dropped, Finished t) ∧ AllKept rest (runTasks old maxB l) := by
  unfold runTasks
  have h1 := visit_kept old maxB l 0 0 0 true
  have h2 := visit_count old maxB l 0
  dsimp only
  split
  · refine ⟨l.take (visit old maxB l 0 0 0 true).2, l.drop (visit old maxB l 0 0 0 true).2, (List.take_append_drop _ _).symm, front_finished l _ (by omega), ?_⟩
    exact List.forall₂_drop _ h1
  · exact ⟨[], l, rfl, by simp, h1⟩

theorem visit_first (old : Nat → Bool) {maxB : Nat} (hB : 0 < maxB) (pre : List Task) (t : Task) (post : List Task) (hpre : ∀ x ∈ pre, Finished x) (ht : ¬ Finished t) (k : Nat) (cont : Bool) :
    ∃ post', (visit old maxB (pre ++ t :: post) 0 0 k cont).1 = pre ++ { t with st := .pending } :: post' := by
  induction pre generalizing k cont with
  | nil =>
    rw [List.nil_append]
    unfold visit
    cases h : t.st with
    | done => exact absurd (Or.inl h) ht
    | cancel => exact absurd (Or.inr h) ht
    | pending =>
      dsimp only
      refine ⟨(visit old maxB post 0 (0 + 1) k false).1, ?_⟩
      rw [← h]
      rfl
    | waiting =>
      dsimp only
      rw [if_pos hB]
      exact ⟨_, rfl⟩
    | error =>
      dsimp only
      rw [if_pos hB]
      exact ⟨_, rfl⟩
  | cons x pre ih =>
    have hx := hpre x List.mem_cons_self
    have ih' := ih (fun y hy => hpre y (List.mem_cons_of_mem _ hy))
    rw [List.cons_append]
    unfold visit
    rcases hx with h | h
    · rw [h]
      dsimp only
      obtain ⟨p, hp⟩ := ih' (if (cont && old x.id) = true then k + 1 else k) cont
      exact ⟨p, by rw [hp]; rfl⟩
    · rw [h]
      dsimp only
      obtain ⟨p, hp⟩ := ih' (if cont = true then k + 1 else k) cont
      exact ⟨p, by rw [hp]; rfl⟩

theorem front_append {pre : List Task} {t : Task} {post : List Task} (hpre : ∀ x ∈ pre, Finished x) (ht : ¬ Finished t) : front (pre ++ t :: post) = pre.length := by
  induction pre with
  | nil => rw [List.nil_append, front, if_neg ht]; rfl
  | cons x pre ih =>
    rw [List.cons_append, front, if_pos (hpre x List.mem_cons_self), ih (fun y hy => hpre y (List.mem_cons_of_mem _ hy))]
    rfl

/-- **C87.** After a turn of the loop with at least one peer, the first task that is not finished is under way. -/
theorem round_first (old : Nat → Bool) {maxB : Nat} (hB : 0 < maxB) {pre : List Task} {t : Task} {post : List Task} (hpre : ∀ x ∈ pre, Finished x) (ht : ¬ Finished t) :
    ∃ pre' post', runTasks old maxB (pre ++ t :: post) = pre' ++ { t with st := .pending } :: post' ∧ ∀ x ∈ pre', Finished x := by
  obtain ⟨post', hv⟩ := visit_first old hB pre t post hpre ht 0 true
  have hc := visit_count old maxB (pre ++ t :: post) 0
  rw [front_append hpre ht] at hc
  unfold runTasks
  dsimp only
  split
  · refine ⟨pre.drop (visit old maxB (pre ++ t :: post) 0 0 0 true).2, post', ?_, fun x hx => hpre x (List.mem_of_mem_drop hx)⟩
    rw [hv, List.drop_append_of_le_length (by omega)]
  · exact ⟨pre, post', hv, hpre⟩

/-! ## Nothing is lost -/

/-- What was added by these. -/
def added : List QOp → List Nat
  | [] => []
  | .add id _ _ :: ops => id :: added ops
  | _ :: ops => added ops

/-- The orders only order. -/
def Orders : List QOp → Prop
  | [] => True
  | .add _ _ ord :: ops => (∀ l, (ord l).Perm l ∧ (ord l).Pairwise (fun a b => a.start ≤ b.start)) ∧ Orders ops
  | _ :: ops => Orders ops

/-- Downloads do not end with a task cancelled: they are done, wait or had an error. -/
def Honest : List QOp → Prop
  | [] => True
  | .ends out :: ops => (∀ i, out i ≠ some .cancel) ∧ Honest ops
  | _ :: ops => Honest ops

/-- The ids whose download ended with success. -/
def succeeded : List QOp → Nat → Prop
  | [], _ => False
  | .ends out :: ops, i => out i = some .done ∨ succeeded ops i
  | _ :: ops, i => succeeded ops i

theorem forall₂_mem {l l' : List Task} (h : AllKept l l') : (∀ t ∈ l, ∃ t' ∈ l', Kept t t') ∧ ∀ t' ∈ l', ∃ t ∈ l, Kept t t' := by
  induction h with
  | nil => simp
  | cons hk _ ih =>
    refine ⟨fun t ht => ?_, fun t ht => ?_⟩
    · rcases List.mem_cons.mp ht with rfl | ht
      · exact ⟨_, List.mem_cons_self, hk⟩
      · obtain ⟨t', h1, h2⟩ := ih.1 t ht
        exact ⟨t', List.mem_cons_of_mem _ h1, h2⟩
    · rcases List.mem_cons.mp ht with rfl | ht
      · exact ⟨_, List.mem_cons_self, hk⟩
      · obtain ⟨t', h1, h2⟩ := ih.2 t ht
        exact ⟨t', List.mem_cons_of_mem _ h1, h2⟩

theorem Kept.id_eq {t t' : Task} (h : Kept t t') : t'.id = t.id := by
  rcases h with rfl | ⟨-, rfl⟩ <;> rfl

theorem none_lost_aux (ops : List QOp) (hord : Orders ops) (hh : Honest ops) (l : List Task) (D : Nat → Prop) (hD : ∀ t ∈ l, Finished t → t.st = .done ∧ D t.id) (i : Nat)
    (hi : D i ∨ (∃ t ∈ l, t.id = i) ∨ i ∈ added ops) : (D i ∨ succeeded ops i) ∨ ∃ t ∈ qrun l ops, t.id = i := by
  induction ops generalizing l D with
  | nil =>
    rcases hi with hi | hi | hi
    · exact Or.inl (Or.inl hi)
    · exact Or.inr hi
    · cases hi
  | cons op ops ih =>
    have hq : qrun l (op :: ops) = qrun (qstep l op) ops := rfl
    rw [hq]
    cases op with
    | add id start ord =>
      obtain ⟨ho, hord⟩ := hord
      have hp := (ho (⟨id, start, .waiting⟩ :: l)).1
      refine ih hord hh _ D (fun t ht hf => ?_) ?_
      · rcases List.mem_cons.mp (hp.mem_iff.mp ht) with rfl | ht
        · rcases hf with hf | hf <;> cases hf
        · exact hD t ht hf
      · rcases hi with hi | ⟨t, ht, hi⟩ | hi
        · exact Or.inl hi
        · exact Or.inr (Or.inl ⟨t, hp.mem_iff.mpr (List.mem_cons_of_mem _ ht), hi⟩)
        · rcases List.mem_cons.mp hi with rfl | hi
          · exact Or.inr (Or.inl ⟨⟨i, start, .waiting⟩, hp.mem_iff.mpr List.mem_cons_self, rfl⟩)
          · exact Or.inr (Or.inr hi)
    | round old maxB =>
      obtain ⟨dr, rest, rfl, hdr, hk⟩ := round_keeps old maxB l
      obtain ⟨hk1, hk2⟩ := forall₂_mem hk
      refine ih hord hh _ D (fun t ht hf => ?_) ?_
      · obtain ⟨t0, ht0, hk⟩ := hk2 t ht
        rcases hk with rfl | ⟨-, rfl⟩
        · exact hD t (List.mem_append_right _ ht0) hf
        · rcases hf with hf | hf <;> cases hf
      · rcases hi with hi | ⟨t, ht, hi⟩ | hi
        · exact Or.inl hi
        · rcases List.mem_append.mp ht with ht' | ht'
          · exact Or.inl (hi ▸ (hD t ht (hdr t ht')).2)
          · obtain ⟨t', h1, h2⟩ := hk1 t ht'
            exact Or.inr (Or.inl ⟨t', h1, by rw [h2.id_eq]; exact hi⟩)
        · exact Or.inr (Or.inr hi)
    | ends out =>
      obtain ⟨ho, hh⟩ := hh
      have := ih hord hh (ended out l) (fun i => D i ∨ out i = some .done) (fun t ht hf => ?_) ?_
      · rcases this with ((h | h) | h) | h
        · exact Or.inl (Or.inl h)
        · exact Or.inl (Or.inr (Or.inl h))
        · exact Or.inl (Or.inr (Or.inr h))
        · exact Or.inr h
      · obtain ⟨t0, ht0, rfl⟩ := List.mem_map.mp ht
        unfold endOne at hf ⊢
        by_cases hp : t0.st = .pending
        · simp only [if_pos hp] at hf ⊢
          cases hout : out t0.id with
          | none =>
            rw [hout] at hf
            dsimp only at hf
            have := hD t0 ht0 hf
            rw [hp] at this
            exact absurd this.1 (by simp)
          | some s =>
            rw [hout] at hf
            dsimp only at hf ⊢
            rcases hf with hf | hf
            · dsimp only at hf
              subst hf
              exact ⟨rfl, Or.inr hout⟩
            · dsimp only at hf
              subst hf
              exact absurd hout (ho _)
        · simp only [if_neg hp] at hf ⊢
          obtain ⟨h1, h2⟩ := hD t0 ht0 hf
          exact ⟨h1, Or.inl h2⟩
      · rcases hi with hi | ⟨t, ht, hi⟩ | hi
        · exact Or.inl (Or.inl hi)
        · refine Or.inr (Or.inl ⟨_, List.mem_map_of_mem ht, ?_⟩)
          unfold endOne
          split
          · split <;> exact hi
          · exact hi
        · exact Or.inr (Or.inr hi)

/-- **C87.** As long as tasks are not cancelled, each that was added is in the queue or its download ended with success: whatever ends when, and whatever the clock and the number of peers say. -/
theorem none_lost (ops : List QOp) (hord : Orders ops) (hh : Honest ops) : ∀ i ∈ added ops, succeeded ops i ∨ ∃ t ∈ qrun [] ops, t.id = i := by
  intro i hi
  rcases none_lost_aux ops hord hh [] (fun _ => False) (by simp) i (Or.inr (Or.inr hi)) with (h | h) | h
  · exact h.elim
  · exact Or.inl h
  · exact Or.inr h

/-! ## The lowest is under way -/

theorem pairwise_forall₂ {l l' : List Task} (h : AllKept l l') (hs : l.Pairwise (fun a b => a.start ≤ b.start)) : l'.Pairwise (fun a b => a.start ≤ b.start) := by
  have hst : ∀ {t t' : Task}, Kept t t' → t'.start = t.start := by
    rintro t t' (rfl | ⟨-, rfl⟩) <;> rfl
  induction h with
  | nil => exact .nil
  | cons hk hr ih =>
    obtain ⟨h1, h2⟩ := List.pairwise_cons.mp hs
    refine List.pairwise_cons.mpr ⟨fun t' ht' => ?_, ih h2⟩
    obtain ⟨t, ht, hkt⟩ := (forall₂_mem hr).2 t' ht'
    rw [hst hk, hst hkt]
    exact h1 t ht

theorem qrun_sorted (ops : List QOp) (hord : Orders ops) (l : List Task) (hl : l.Pairwise (fun a b => a.start ≤ b.start)) : (qrun l ops).Pairwise (fun a b => a.start ≤ b.start) := by
  induction ops generalizing l with
  | nil => exact hl
  | cons op ops ih =>
    have hq : qrun l (op :: ops) = qrun (qstep l op) ops := rfl
    rw [hq]
    cases op with
    | add id start ord => exact ih hord.2 _ (hord.1 _).2
    | round old maxB =>
      obtain ⟨dr, rest, rfl, -, hk⟩ := round_keeps old maxB l
      exact ih hord _ (pairwise_forall₂ hk (List.pairwise_append.mp hl).2.1)
    | ends out =>
      refine ih hord _ ?_
      unfold qstep ended
      rw [List.pairwise_map]
      refine hl.imp ?_
      intro a b hab
      have e : ∀ t : Task, (endOne out t).start = t.start := by
        intro t
        unfold endOne
        split
        · split <;> rfl
        · rfl
      rw [e, e]
      exact hab

theorem split_front (l : List Task) (h : ∃ t ∈ l, ¬ Finished t) : ∃ pre t post, l = pre ++ t :: post ∧ (∀ x ∈ pre, Finished x) ∧ ¬ Finished t := by
  induction l with
  | nil => obtain ⟨t, ht, -⟩ := h; cases ht
  | cons x l ih =>
    by_cases hx : Finished x
    · obtain ⟨t, ht, hf⟩ := h
      rcases List.mem_cons.mp ht with rfl | ht
      · exact absurd hx hf
      · obtain ⟨pre, t, post, rfl, h1, h2⟩ := ih ⟨t, ht, hf⟩
        refine ⟨x :: pre, t, post, rfl, fun y hy => ?_, h2⟩
        rcases List.mem_cons.mp hy with rfl | hy
        · exact hx
        · exact h1 y hy
    · exact ⟨[], x, l, rfl, by simp, hx⟩

/-- **C87.** Whatever happened before: after a turn of the loop with at least one peer, if not all tasks are finished then one with the lowest height of those that are not is under way. -/
theorem lowest_runs (ops : List QOp) (hord : Orders ops) (old : Nat → Bool) {maxB : Nat} (hB : 0 < maxB) {u : Task} (hu : u ∈ qrun [] (ops ++ [.round old maxB])) (hf : ¬ Finished u) :
    ∃ t ∈ qrun [] (ops ++ [.round old maxB]), t.st = .pending ∧ t.start ≤ u.start := by
  have hq : qrun [] (ops ++ [.round old maxB]) = runTasks old maxB (qrun [] ops) := by
    unfold qrun
    rw [List.foldl_append]
    rfl
  have hord' : Orders (ops ++ [.round old maxB]) := by
    clear hu hq
    induction ops with
    | nil => trivial
    | cons op ops ih => cases op with
      | add => exact ⟨hord.1, ih hord.2⟩
      | round => exact ih hord
      | ends => exact ih hord
  have hsort := qrun_sorted _ hord' [] .nil
  rw [hq] at hu hsort ⊢
  obtain ⟨dr, rest, heq, hdr, hk⟩ := round_keeps old maxB (qrun [] ops)
  obtain ⟨u0, hu0, hku⟩ := (forall₂_mem hk).2 u hu
  have hex : ∃ t ∈ qrun [] ops, ¬ Finished t := by
    refine ⟨u0, by rw [heq]; exact List.mem_append_right _ hu0, fun h => hf ?_⟩
    rcases hku with rfl | ⟨h', -⟩
    · exact h
    · rcases h with h | h <;> rw [h] at h' <;> rcases h' with h' | h' <;> cases h'
  obtain ⟨pre, t, post, hsplit, h1, h2⟩ := split_front _ hex
  obtain ⟨pre', post', hr, hpre'⟩ := round_first old hB (pre := pre) (t := t) (post := post) h1 h2
  rw [hsplit, hr] at hu hsort ⊢
  refine ⟨{ t with st := .pending }, by simp, rfl, ?_⟩
  rcases List.mem_append.mp hu with hu | hu
  · exact absurd (hpre' u hu) hf
  · rcases List.mem_cons.mp hu with rfl | hu
    · exact Nat.le_refl _
    · exact (List.pairwise_cons.mp (List.pairwise_append.mp hsort).2.1).1 u hu

/-! ## All get done -/

/-- How many tasks are not finished. -/
def openTasks (l : List Task) : Nat := l.countP (fun t => decide (¬ Finished t))

theorem openTasks_kept {l l' : List Task} (h : AllKept l l') : openTasks l' = openTasks l := by
  have e : ∀ {a b : Task}, Kept a b → decide (¬ Finished b) = decide (¬ Finished a) := by
    rintro a b (rfl | ⟨h, rfl⟩)
    · rfl
    · rw [decide_eq_decide]
      constructor
      · rintro - (hh | hh) <;> rcases h with h | h <;> rw [h] at hh <;> cases hh
      · rintro - (hh | hh) <;> cases hh
  unfold openTasks
  induction h with
  | nil => rfl
  | cons hk _ ih => rw [List.countP_cons, List.countP_cons, ih, e hk]

theorem openTasks_round (old : Nat → Bool) (maxB : Nat) (l : List Task) : openTasks (runTasks old maxB l) = openTasks l := by
  obtain ⟨dr, rest, rfl, hdr, hk⟩ := round_keeps old maxB l
  rw [openTasks_kept hk]
  unfold openTasks
  have : dr.countP (fun t => decide (¬ Finished t)) = 0 := List.countP_eq_zero.mpr (fun t ht => by simpa using hdr t ht)
  rw [List.countP_append, this, Nat.zero_add]

theorem openTasks_ended (out : Nat → Option St) (l : List Task) : openTasks (ended out l) ≤ openTasks l := by
  unfold openTasks ended
  rw [List.countP_map]
  refine List.countP_mono_left (fun t _ ht => ?_)
  by_cases hp : t.st = .pending
  · simp [Finished, hp]
  · have : endOne out t = t := if_neg hp
    simpa only [Function.comp, this] using ht

/-- A turn of the loop, and then downloads end. -/
structure Turn where
  old : Nat → Bool
  maxB : Nat
  out : Nat → Option St

/-- What it does. -/
def turn (l : List Task) (c : Turn) : List Task := qrun l [.round c.old c.maxB, .ends c.out]

/-- There is a peer, and the download of the first task that is not finished succeeds. The others may end in any way or not at all. -/
def Lucky : List Task → List Turn → Prop
  | _, [] => True
  | l, c :: cs => 0 < c.maxB ∧ (∀ pre t post, l = pre ++ t :: post → (∀ x ∈ pre, Finished x) → ¬ Finished t → c.out t.id = some .done) ∧ Lucky (turn l c) cs

theorem turn_open {l : List Task} {c : Turn} (hB : 0 < c.maxB) (hl : ∀ pre t post, l = pre ++ t :: post → (∀ x ∈ pre, Finished x) → ¬ Finished t → c.out t.id = some .done) : openTasks (turn l c) ≤ openTasks l - 1 := by
  have ht : turn l c = ended c.out (runTasks c.old c.maxB l) := rfl
  rw [ht]
  by_cases hex : ∃ t ∈ l, ¬ Finished t
  · obtain ⟨pre, t, post, rfl, h1, h2⟩ := split_front l hex
    obtain ⟨pre', post', hr, hp'⟩ := round_first c.old hB (post := post) h1 h2
    have ho := openTasks_round c.old c.maxB (pre ++ t :: post)
    have hd := hl pre t post rfl h1 h2
    rw [hr] at ho ⊢
    have e : ended c.out (pre' ++ { t with st := .pending } :: post') = ended c.out pre' ++ { t with st := .done } :: ended c.out post' := by
      unfold ended
      rw [List.map_append, List.map_cons]
      simp only [endOne, if_true, hd]
    have a1 := openTasks_ended c.out pre'
    have a2 := openTasks_ended c.out post'
    rw [e]
    unfold openTasks at *
    rw [List.countP_append, List.countP_cons_of_pos (by simp [Finished])] at ho
    rw [List.countP_append, List.countP_cons_of_neg (by simp [Finished])]
    omega
  · have h0 : openTasks l = 0 := List.countP_eq_zero.mpr (fun t ht h => hex ⟨t, ht, by simpa using h⟩)
    have := openTasks_ended c.out (runTasks c.old c.maxB l)
    rw [openTasks_round] at this
    omega

/-- **C87.** When there are peers and the download of the first task that is not finished succeeds in every turn, all tasks are finished after as many turns as there are tasks. -/
theorem all_done (l : List Task) (cs : List Turn) (hl : Lucky l cs) (hn : l.length ≤ cs.length) : ∀ t ∈ cs.foldl turn l, Finished t := by
  have key : ∀ (cs : List Turn) (l : List Task), Lucky l cs → openTasks (cs.foldl turn l) ≤ openTasks l - cs.length := by
    intro cs
    induction cs with
    | nil => intro l _; simp
    | cons c cs ih =>
      rintro l ⟨h1, h2, h3⟩
      have a := turn_open h1 h2
      have b := ih _ h3
      rw [List.foldl_cons, List.length_cons]
      omega
  have h0 := key cs l hl
  have h1 : openTasks l ≤ l.length := List.countP_le_length
  intro t ht
  by_contra hf
  have := List.countP_pos_iff (p := fun t => decide (¬ Finished t)) |>.mpr ⟨t, ht, show decide (¬ Finished t) = true by simpa using hf⟩
  unfold openTasks at h0 h1
  omega

/-- **C87, fails.** More tasks are under way than peers there are, or than the limit: with three peers four downloads run at once, after a first round that passed over some tasks. -/
theorem limit_exceeded : ∃ ops, Honest ops ∧ Orders ops ∧ (∀ op ∈ ops, ∀ old maxB, op = .round old maxB → maxB = 3) ∧ (qrun [] ops).countP (fun t => decide (t.st = .pending)) = 4 := by
  let srt : List Task → List Task := fun l => l.mergeSort (fun a b => decide (a.start ≤ b.start))
  have hs : ∀ l, (srt l).Perm l ∧ (srt l).Pairwise (fun a b => a.start ≤ b.start) := by
    intro l
    refine ⟨List.mergeSort_perm _ _, ?_⟩
    have := List.pairwise_mergeSort (le := fun a b : Task => decide (a.start ≤ b.start)) (by intro a b c; simp; omega) (by intro a b; simp; omega) l
    exact this.imp (by simp)
  have order : ∀ l : List Task, l.Pairwise (fun a b => a.start ≤ b.start) → srt l = l := by
    intro l hl
    exact List.mergeSort_of_pairwise (hl.imp (by simp))
  refine ⟨[.add 4 401 srt, .add 3 301 srt, .add 2 201 srt, .add 1 101 srt, .add 0 1 srt, .round (fun _ => false) 3, .ends (fun i => if i = 0 then some .done else none), .round (fun _ => false) 3], ?_, ?_, ?_, ?_⟩
  · refine ⟨fun i => ?_, trivial⟩
    show (if i = 0 then some St.done else none) ≠ some St.cancel
    split <;> simp
  · exact ⟨hs, hs, hs, hs, hs, trivial⟩
  · intro op hop old maxB he
    subst he
    simp only [List.mem_cons, QOp.round.injEq, reduceCtorEq, false_or, List.not_mem_nil, or_false] at hop
    rcases hop with ⟨-, h⟩ | ⟨-, h⟩ <;> exact h
  · simp only [qrun, List.foldl_cons, List.foldl_nil, qstep]
    have e1 := order [⟨4, 401, .waiting⟩] (by simp)
    have e2 := order [⟨3, 301, .waiting⟩, ⟨4, 401, .waiting⟩] (by simp)
    have e3 := order [⟨2, 201, .waiting⟩, ⟨3, 301, .waiting⟩, ⟨4, 401, .waiting⟩] (by simp)
    have e4 := order [⟨1, 101, .waiting⟩, ⟨2, 201, .waiting⟩, ⟨3, 301, .waiting⟩, ⟨4, 401, .waiting⟩] (by simp)
    have e5 := order [⟨0, 1, .waiting⟩, ⟨1, 101, .waiting⟩, ⟨2, 201, .waiting⟩, ⟨3, 301, .waiting⟩, ⟨4, 401, .waiting⟩] (by simp)
    rw [e1, e2, e3, e4, e5]
    decide +kernel

/-! ## Cases -/

example : (runTasks (fun _ => true) 2 [⟨0, 1, .done⟩, ⟨1, 2, .done⟩, ⟨2, 3, .error⟩, ⟨3, 4, .waiting⟩, ⟨4, 5, .waiting⟩]).map (·.st) = [.pending, .pending, .waiting] := by decide +kernel
example : (runTasks (fun _ => false) 2 [⟨0, 1, .done⟩, ⟨1, 2, .done⟩, ⟨2, 3, .error⟩, ⟨3, 4, .waiting⟩, ⟨4, 5, .waiting⟩]).map (·.st) = [.done, .done, .pending, .pending, .waiting] := by decide +kernel
/-- The hypotheses of `all_done` hold. -/
example : Lucky [⟨0, 1, .waiting⟩, ⟨1, 2, .error⟩] [⟨fun _ => false, 1, fun _ => some .done⟩, ⟨fun _ => false, 1, fun _ => some .done⟩] :=
  ⟨by decide, fun _ _ _ _ _ _ => rfl, by decide, fun _ _ _ _ _ _ => rfl, trivial⟩

end Verif.Sync
