import Verif.Batch.ExecModel

/-!
# Lemmas on the run of one level -/

namespace Verif.Batch

/-- What holds at every moment of a level: what is left of a bucket follows what has been inserted of it, and every item inserted came after those before it in its bucket. -/
structure Sound (order : List (List Item)) (m : Moment) : Prop where
  queue : ∀ b ∈ m.queue, b ∈ order
  busy : ∀ r ∈ m.busy, ∃ p, (p ++ r) ∈ order ∧ ∀ y ∈ p, y ∈ m.done
  done : ∀ pre x post, m.done = pre ++ x :: post → ∃ b₁ b₂, (b₁ ++ x :: b₂) ∈ order ∧ ∀ y ∈ b₁, y ∈ pre

theorem sound_start (order : List (List Item)) : Sound order (startLevel order) :=
  ⟨fun _ h => h, fun r h => by simp [startLevel] at h, fun pre x post h => by simp [startLevel] at h⟩

theorem sound_step {order : List (List Item)} {a b : Moment} (h : Sound order a) (w : Work a b) : Sound order b := by
  obtain ⟨hq, hb, hd⟩ := h
  cases w with
  | take =>
    refine ⟨fun x hx => hq x (List.mem_cons_of_mem _ hx), ?_, hd⟩
    intro r hr
    rcases List.mem_cons.1 hr with rfl | hr
    · exact ⟨[], hq _ List.mem_cons_self, fun y hy => by cases hy⟩
    · exact hb r hr
  | leave => exact ⟨fun x hx => hq x (List.mem_cons_of_mem _ hx), hb, hd⟩
  | @insert q bs₁ x b bs₂ n f e d =>
    have hx := hb (x :: b) (by simp)
    obtain ⟨p, hp, hpd⟩ := hx
    refine ⟨hq, ?_, ?_⟩
    · intro r hr
      have hr' : r = b ∨ r ∈ bs₁ ++ (x :: b) :: bs₂ := by
        simp only [List.mem_append, List.mem_cons] at hr ⊢; tauto
      rcases hr' with rfl | hr'
      · refine ⟨p ++ [x], by simpa using hp, fun y hy => ?_⟩
        rcases List.mem_append.1 hy with hy | hy
        · exact List.mem_append_left _ (hpd y hy)
        · exact List.mem_append_right _ hy
      · obtain ⟨p', h1, h2⟩ := hb r hr'
        exact ⟨p', h1, fun y hy => List.mem_append_left _ (h2 y hy)⟩
    · intro pre z post hs
      rcases List.eq_nil_or_concat post with rfl | ⟨post', w, rfl⟩
      · have := List.append_inj' (hs : d ++ [x] = pre ++ [z]) rfl
        obtain ⟨rfl, hz⟩ := this
        simp only [List.cons.injEq, and_true] at hz
        subst hz
        exact ⟨p, b, hp, hpd⟩
      · have hs' : d ++ [x] = pre ++ z :: (post'.concat w) := hs
        have : d ++ [x] = (pre ++ z :: post') ++ [w] := by rw [hs']; simp
        exact hd pre z post' (List.append_inj' this rfl).1
  | fail =>
    refine ⟨hq, fun r hr => hb r ?_, hd⟩
    simp only [List.mem_append, List.mem_cons] at hr ⊢; tauto
  | publish => exact ⟨hq, hb, hd⟩
  | finish =>
    refine ⟨hq, fun r hr => hb r ?_, hd⟩
    simp only [List.mem_append, List.mem_cons] at hr ⊢; tauto

theorem sound_works {order : List (List Item)} {m : Moment} (w : Works (startLevel order) m) : Sound order m := by
  induction w with
  | refl => exact sound_start order
  | step _ w ih => exact sound_step ih w

/-- The number of workers, and what is left, while there is no error. -/
structure Whole (order : List (List Item)) (m : Moment) : Prop where
  workers : m.idle + m.busy.length + m.failing ≤ min order.length maxParallel
  all : m.err = false → m.idle + m.busy.length + m.failing = min order.length maxParallel
  kept : m.err = false → m.failing = 0 → (m.done ++ m.busy.flatten ++ m.queue.flatten).Perm order.flatten

theorem whole_start (order : List (List Item)) : Whole order (startLevel order) := by
  refine ⟨by simp [startLevel], fun _ => by simp [startLevel], fun _ _ => by simp [startLevel]⟩

theorem whole_step {order : List (List Item)} {a b : Moment} (h : Whole order a) (w : Work a b) : Whole order b := by
  obtain ⟨hw, ha, hk⟩ := h
  cases w with
  | @take b q bs n f d =>
    refine ⟨by simp only [List.length_cons] at hw ⊢; omega, fun he => ?_, fun he hf => ?_⟩
    · have := ha rfl; simp only [List.length_cons] at this ⊢; omega
    · refine List.Perm.trans ?_ (hk rfl hf)
      simp only [List.flatten_cons, List.append_assoc]
      refine List.Perm.append_left _ ?_
      refine List.Perm.trans ?_ (List.perm_append_comm.append_right _ : ((b ++ bs.flatten) ++ q.flatten).Perm _) |>.trans (by simp)
      simp
  | leave => exact ⟨by dsimp only at hw ⊢; omega, fun h => (by cases h), fun h => (by cases h)⟩
  | @insert q bs₁ x b bs₂ n f e d =>
    refine ⟨by simp only [List.length_append, List.length_cons] at hw ⊢; omega, fun he => ?_, fun he hf => ?_⟩
    · have := ha he; simp only [List.length_append, List.length_cons] at this ⊢; omega
    · refine List.Perm.trans ?_ (hk he hf)
      simp only [List.flatten_append, List.flatten_cons, List.append_assoc, List.cons_append, List.nil_append]
      refine List.Perm.append_left _ ?_
      exact List.perm_middle.symm
  | fail =>
    refine ⟨by simp only [List.length_append, List.length_cons] at hw ⊢; omega, fun he => ?_, fun he hf => by simp at hf⟩
    have := ha he; simp only [List.length_append, List.length_cons] at this ⊢; omega
  | publish => exact ⟨by dsimp only at hw ⊢; omega, fun h => (by cases h), fun h => (by cases h)⟩
  | finish =>
    refine ⟨by simp only [List.length_append, List.length_cons] at hw ⊢; omega, fun he => ?_, fun he hf => ?_⟩
    · have := ha he; simp only [List.length_append, List.length_cons] at this ⊢; omega
    · simpa using hk he hf

theorem whole_works {order : List (List Item)} {m : Moment} (w : Works (startLevel order) m) : Whole order m := by
  induction w with
  | refl => exact whole_start order
  | step _ w ih => exact whole_step ih w

/-- A level that is over without an error has inserted everything. -/
theorem level_whole {order : List (List Item)} {m : Moment} (w : Works (startLevel order) m) (ho : m.over) (he : m.err = false) :
    m.done.Perm order.flatten := by
  obtain ⟨-, ha, hk⟩ := whole_works w
  obtain ⟨hb, hf, hq⟩ := ho
  have hp := hk he hf
  have hn := ha he
  have hq' : m.queue.flatten = [] := by
    rcases hq with hq | hq
    · simp [hq]
    · rw [hb, hf, hq] at hn
      have h0 : order = [] := by
        cases order with
        | nil => rfl
        | cons x l => simp [maxParallel] at hn; omega
      rw [hb, h0] at hp
      have := hp.length_eq
      simp only [List.length_append, List.flatten_nil, List.length_nil] at this
      exact List.eq_nil_of_length_eq_zero (by omega)
  rw [hb, hq'] at hp
  simpa using hp

/-- Two workers are never at the same account. -/
def Apart (bs : List (List Item)) : Prop := bs.Pairwise fun a b => ∀ x ∈ a, ∀ y ∈ b, x.owner ≠ y.owner

theorem apart_perm {a b : List (List Item)} (h : a.Perm b) (ha : Apart a) : Apart b :=
  h.pairwise ha (fun h x hx y hy e => h y hy x hx e.symm)

theorem apart_step {a b : Moment} (h : Apart (a.busy ++ a.queue)) (w : Work a b) : Apart (b.busy ++ b.queue) := by
  cases w with
  | take => exact apart_perm List.perm_middle h
  | leave => exact List.Pairwise.sublist (List.Sublist.append_left (List.sublist_cons_self _ _) _) h
  | @insert q bs₁ x b bs₂ n f e d =>
    unfold Apart at h ⊢
    simp only [List.append_assoc, List.cons_append, List.pairwise_append, List.pairwise_cons, List.mem_cons] at h ⊢
    obtain ⟨h1, ⟨h2, h3⟩, h4⟩ := h
    refine ⟨h1, ⟨fun a ha y hy z hz => h2 a ha y (Or.inr hy) z hz, h3⟩, ?_⟩
    intro a ha c hc
    rcases hc with rfl | hc
    · exact fun y hy z hz => h4 a ha (x :: c) (Or.inl rfl) y hy z (List.mem_cons_of_mem _ hz)
    · exact h4 a ha c (Or.inr hc)
  | fail => exact List.Pairwise.sublist (List.Sublist.append_right (List.Sublist.append_left (List.sublist_cons_self _ _) _) _) h
  | publish => exact h
  | finish => exact List.Pairwise.sublist (List.Sublist.append_right (List.Sublist.append_left (List.sublist_cons_self _ _) _) _) h

theorem apart_works {order : List (List Item)} {m : Moment} (h : Apart order) (w : Works (startLevel order) m) : Apart m.busy := by
  have : Apart (m.busy ++ m.queue) := by
    induction w with
    | refl => simpa [startLevel] using h
    | step _ w ih => exact apart_step ih w
  exact (List.pairwise_append.1 this).1

end Verif.Batch
