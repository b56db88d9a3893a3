import Verif.Batch.BatchStep
import Verif.Batch.ExecLemmas

/-!
# Properties of batches and of their runs -/

namespace Verif.Batch

/-! ## All ways to make a batch -/

theorem put_cap (s : St) (i : Nat) (x : Item) : (s.put i x).1.cap = s.cap := by
  unfold St.put
  split
  · rfl
  · split
    · rfl
    · split <;> rfl

theorem closeUp_cap (r : St × Out) (i : Nat) : (closeUp r i).1.cap = r.1.cap := by
  unfold closeUp
  split
  · rfl
  · split <;> rfl

theorem putNew_cap (s : St) (i : Nat) (x : Item) : (s.putNew i x).1.cap = s.cap := by
  unfold St.putNew
  split
  · rw [put_cap]
  · rfl

theorem add_cap (L : Ledger) (s : St) (x : Item) : (s.add L x).1.cap = s.cap := by
  unfold St.add
  split
  · unfold St.addS
    split
    · rfl
    · split
      · rfl
      · split
        · split
          · rfl
          · rw [closeUp_cap, put_cap]
        · split
          · rw [closeUp_cap, put_cap]
          · split
            · rfl
            · rw [closeUp_cap, put_cap]
  · unfold St.addA
    split
    · rename_i m _
      unfold St.place
      generalize (if m = 0 then s.last + 1 else m) = m₀
      dsimp only
      split
      · rfl
      · split
        · rw [putNew_cap]
        · split
          · rw [putNew_cap]
          · split
            · split
              · rfl
              · rw [putNew_cap]
            · rw [put_cap]
    · rfl

/-- What adding an item does. -/
theorem add_spec {L : Ledger} {s s' : St} {A : List Item} {x : Item} {out : Out} (hcap : 0 < s.cap) (hc : Core L s A) (hs : Shape s) (h : s.add L x = (s', out)) :
    (out = .ok ∧ Core L s' (A ++ [x]) ∧ Shape s') ∨ (s' = s ∧ ((out = .panic ∧ x.owner ≠ none ∧ ∃ r ∈ x.refs, ∃ y ∈ A, y.owner = none ∧ r ∈ y.keys) ∨
      (out = .noRef ∧ ((∃ r ∈ x.refs, L.acc r = false ∧ s.find r = none) ∨ ∃ r, x.owner = none ∧ x.sref = some r ∧ L.snap r = false ∧ s.find r = none)) ∨
      out = .full ∨ out = .badLink)) := by
  unfold St.add at h
  cases ho : x.owner with
  | none =>
    rw [ho] at h
    rcases addS_spec hcap hc hs ho h with h' | ⟨h1, ⟨h2, h3⟩ | h2⟩
    · exact Or.inl h'
    · exact Or.inr ⟨h1, Or.inr (Or.inl ⟨h2, h3.imp_right fun ⟨r, h⟩ => ⟨r, rfl, h⟩⟩)⟩
    · exact Or.inr ⟨h1, Or.inr (Or.inr h2)⟩
  | some a =>
    rw [ho] at h
    rcases addA_spec hc hs (by rw [ho]; simp) h with h' | ⟨h1, ⟨h2, h3⟩ | ⟨h2, h3⟩ | h2⟩
    · exact Or.inl h'
    · exact Or.inr ⟨h1, Or.inl ⟨h2, by simp, h3⟩⟩
    · exact Or.inr ⟨h1, Or.inr (Or.inl ⟨h2, Or.inl h3⟩)⟩
    · exact Or.inr ⟨h1, Or.inr (Or.inr h2)⟩

theorem addAll_spec {L : Ledger} (xs : List Item) : ∀ (s : St) (A : List Item), 0 < s.cap → Core L s A → Shape s →
    Core L (addAll L s xs).1 (A ++ (addAll L s xs).2.1) ∧ Shape (addAll L s xs).1 ∧ (addAll L s xs).1.cap = s.cap := by
  induction xs with
  | nil => intro s A _ hc hs; simpa [addAll] using ⟨hc, hs⟩
  | cons x xs ih =>
    intro s A hcap hc hs
    rcases hadd : s.add L x with ⟨s', out⟩
    have hcap' : s'.cap = s.cap := by have := add_cap L s x; rw [hadd] at this; exact this
    unfold addAll
    rw [hadd]
    rcases add_spec hcap hc hs hadd with ⟨rfl, h1, h2⟩ | ⟨rfl, h1⟩
    · dsimp only
      have := ih s' (A ++ [x]) (by omega) h1 h2
      rw [List.append_assoc, List.singleton_append, hcap'] at this
      exact this
    · rcases h1 with ⟨rfl, -⟩ | ⟨rfl, -⟩ | rfl | rfl
      · simpa using ⟨hc, hs⟩
      · exact ih s' A hcap hc hs
      · exact ih s' A hcap hc hs
      · exact ih s' A hcap hc hs

/-- The batch that comes of adding these items to a new one, and the items that were taken. -/
def batchOf (L : Ledger) (cap : Nat) (xs : List Item) : St := (addAll L (newBatch cap) xs).1
def takenOf (L : Ledger) (cap : Nat) (xs : List Item) : List Item := (addAll L (newBatch cap) xs).2.1
def panicsOf (L : Ledger) (cap : Nat) (xs : List Item) : Bool := (addAll L (newBatch cap) xs).2.2

theorem batch_core (L : Ledger) {cap : Nat} (hcap : 0 < cap) (xs : List Item) : Core L (batchOf L cap xs) (takenOf L cap xs) ∧ Shape (batchOf L cap xs) ∧ (batchOf L cap xs).cap = cap := by
  have := addAll_spec xs (newBatch cap) [] hcap (core_new L cap) (shape_new cap)
  simpa [batchOf, takenOf, newBatch] using this

/-! ## Which keys are found -/

theorem put_all {s s' : St} {i : Nat} {x : Item} {out : Out} (h : s.put i x = (s', out)) : (out = .ok → s'.all = x.keys.map (fun k => (k, (x.owner, i))) ++ s.all) := by
  rintro rfl
  unfold St.put at h
  split at h
  · simp at h
  · split at h
    · simp at h
    · split at h
      · simp at h
      · simp only [Prod.mk.injEq, and_true] at h
        rw [← h]

theorem closeUp_all {r : St × Out} {s' : St} {i : Nat} (h : closeUp r i = (s', .ok)) : r.2 = .ok ∧ s'.all = r.1.all := by
  unfold closeUp at h
  split at h
  · rename_i hp
    rw [h] at hp; simp at hp
  · split at h
    · simp at h
    · simp only [Prod.mk.injEq] at h
      exact ⟨h.2, by rw [← h.1]⟩

theorem putNew_all {s s' : St} {i : Nat} {x : Item} (h : s.putNew i x = (s', .ok)) : s'.all = x.keys.map (fun k => (k, (x.owner, i))) ++ s.all := by
  unfold St.putNew at h
  split at h
  · exact put_all (s := { s with ls := s.ls ++ [newLevel false] }) h rfl
  · simp at h

/-- The keys of an item that is added are entered. -/
theorem add_all {L : Ledger} {s s' : St} {x : Item} (h : s.add L x = (s', .ok)) : ∃ i, s'.all = x.keys.map (fun k => (k, (x.owner, i))) ++ s.all := by
  have hcl : ∀ (t : St) (i : Nat), t.all = s.all → closeUp (t.put i x) i = (s', .ok) → ∃ i, s'.all = x.keys.map (fun k => (k, (x.owner, i))) ++ s.all := by
    intro t i ht hc
    obtain ⟨h1, h2⟩ := closeUp_all hc
    exact ⟨i, by rw [h2, put_all (s := t) (i := i) (x := x) (s' := (t.put i x).1) (out := (t.put i x).2) rfl h1, ht]⟩
  unfold St.add at h
  split at h
  · unfold St.addS at h
    split at h
    · simp at h
    · split at h
      · simp at h
      · split at h
        · split at h
          · simp at h
          · exact hcl { s with ls := s.ls ++ [newLevel true] } _ rfl h
        · split at h
          · exact hcl _ _ rfl h
          · split at h
            · simp at h
            · exact hcl { s with ls := s.ls ++ [newLevel true] } _ rfl h
  · unfold St.addA at h
    split at h
    · rename_i m _
      unfold St.place at h
      generalize (if m = 0 then s.last + 1 else m) = m₀ at h
      dsimp only at h
      split at h
      · simp at h
      · split at h
        · exact ⟨_, putNew_all h⟩
        · split at h
          · exact ⟨_, putNew_all h⟩
          · split at h
            · split at h
              · simp at h
              · exact ⟨_, putNew_all h⟩
            · exact ⟨_, put_all h rfl⟩
    · rename_i hne _
      simp only [Prod.mk.injEq] at h
      exact absurd h.2 hne

theorem find_none {s : St} {r : Nat} : s.find r = none ↔ ∀ e, (r, e) ∉ s.all := by
  unfold St.find
  rw [Option.map_eq_none_iff, List.find?_eq_none]
  constructor
  · intro h e he
    exact absurd (by simp) (h _ he)
  · rintro h ⟨k, e⟩ he
    simp only [decide_eq_true_eq]
    rintro rfl
    exact h e he

theorem addAll_found {L : Ledger} (xs : List Item) : ∀ (s : St) (A : List Item), 0 < s.cap → Core L s A → Shape s → (∀ y ∈ A, ∀ k ∈ y.keys, ∃ e, (k, e) ∈ s.all) →
    ∀ y ∈ A ++ (addAll L s xs).2.1, ∀ k ∈ y.keys, ∃ e, (k, e) ∈ (addAll L s xs).1.all := by
  induction xs with
  | nil => intro s A _ _ _ h; simpa [addAll] using h
  | cons x xs ih =>
    intro s A hcap hc hs hf
    rcases hadd : s.add L x with ⟨s', out⟩
    have hcap' : s'.cap = s.cap := by have := add_cap L s x; rw [hadd] at this; exact this
    unfold addAll
    rw [hadd]
    rcases add_spec hcap hc hs hadd with ⟨rfl, h1, h2⟩ | ⟨rfl, h1⟩
    · dsimp only
      obtain ⟨i, hall⟩ := add_all hadd
      have := ih s' (A ++ [x]) (by omega) h1 h2 (by
        intro y hy k hk
        rw [hall]
        rcases List.mem_append.1 hy with hy | hy
        · obtain ⟨e, he⟩ := hf y hy k hk
          exact ⟨e, List.mem_append_right _ he⟩
        · rw [List.mem_singleton] at hy
          subst hy
          exact ⟨_, List.mem_append_left _ (List.mem_map.2 ⟨k, hk, rfl⟩)⟩)
      rw [List.append_assoc, List.singleton_append] at this
      exact this
    · rcases h1 with ⟨rfl, -⟩ | ⟨rfl, -⟩ | rfl | rfl
      · simpa using hf
      · exact ih s' A hcap hc hs hf
      · exact ih s' A hcap hc hs hf
      · exact ih s' A hcap hc hs hf

/-- A key is found exactly when it is a key of an item that was taken. -/
theorem batch_find (L : Ledger) {cap : Nat} (hcap : 0 < cap) (xs : List Item) (r : Nat) : (batchOf L cap xs).find r = none ↔ ∀ y ∈ takenOf L cap xs, r ∉ y.keys := by
  obtain ⟨hc, -, -⟩ := batch_core L hcap xs
  have hf := addAll_found (L := L) xs (newBatch cap) [] hcap (core_new L cap) (shape_new cap) (by simp)
  rw [List.nil_append] at hf
  rw [find_none]
  constructor
  · intro h y hy hk
    obtain ⟨e, he⟩ := hf y hy r hk
    exact h e he
  · rintro h ⟨o, i⟩ he
    obtain ⟨l, hl, -, b, hb, y, hy, hk⟩ := hc.all r o i he
    exact h y (hc.perm.subset (mem_flat.2 ⟨l, List.mem_of_getElem? hl, _, hb, hy⟩)) hk

/-! ## Runs -/

/-- What a run relies on, with items that are there before it. -/
def Ready (L : Ledger) (P : List Item) (ls : List Level) : Prop :=
  ∀ (i : Nat) (l : Level), ls[i]? = some l → (l.snap = true → ∃ b, l.bs = [(none, b)]) ∧ ∀ (o : Option Nat) (b : List Item), (o, b) ∈ l.bs →
    ∀ (b₁ : List Item) (z : Item) (b₂ : List Item), b = b₁ ++ z :: b₂ → Avail L (P ++ (flat (ls.take i) ++ b₁)) z

theorem Ready.tail {L : Ledger} {P : List Item} {l : Level} {ls : List Level} (h : Ready L P (l :: ls)) : Ready L (P ++ l.items) ls := by
  intro i m hm
  obtain ⟨h1, h2⟩ := h (i + 1) m (by simpa using hm)
  refine ⟨h1, fun o b hb b₁ z b₂ hz => ?_⟩
  have := h2 o b hb b₁ z b₂ hz
  simpa [flat, List.append_assoc] using this

theorem level_perm {order : List (List Item)} {l : Level} (h : order.Perm (l.bs.map (·.2))) : order.flatten.Perm l.items := by
  have := h.flatten
  simpa [Level.items, List.flatMap_def] using this

theorem run_avail {L : Ledger} {ls : List Level} {t : List Item} {e : End} (r : Run ls t e) :
    ∀ P, Ready L P ls → ∀ pre x post, t = pre ++ x :: post → Avail L (P ++ pre) x := by
  induction r with
  | nil => intro P _ pre x post h; simp at h
  | start => intro P _ pre x post h; simp at h
  | @snapPart l ls o b bs e hs hb n he =>
    intro P hR pre x post h
    obtain ⟨-, h2⟩ := hR 0 l (by simp)
    have hb' : b = pre ++ x :: (post ++ b.drop n) := by
      conv_lhs => rw [← List.take_append_drop n b, h]
      simp
    simpa [flat] using h2 o b (by rw [hb]; simp) pre x _ hb'
  | @snapAll l ls o b bs t e hs hb _ ih =>
    intro P hR pre x post h
    obtain ⟨h1, h2⟩ := hR 0 l (by simp)
    obtain ⟨c, hc⟩ := h1 hs
    rw [hb] at hc
    simp only [List.cons.injEq, Prod.mk.injEq] at hc
    obtain ⟨⟨rfl, rfl⟩, rfl⟩ := hc
    have hit : l.items = b := by simp [Level.items, hb]
    rcases List.append_eq_append_iff.1 h with ⟨q, hq1, hq2⟩ | ⟨q, hq1, hq2⟩
    · have := ih _ hR.tail q x post hq2
      rw [hit] at this
      rw [hq1]; simpa using this
    · cases q with
      | nil =>
        simp only [List.append_nil] at hq1
        simp only [List.nil_append] at hq2
        have := ih _ hR.tail [] x post (by simpa using hq2.symm)
        rw [hit] at this
        rw [← hq1]; simpa using this
      | cons y q =>
        simp only [List.cons_append, List.cons.injEq] at hq2
        obtain ⟨rfl, -⟩ := hq2
        simpa [flat] using h2 none b (by rw [hb]; simp) pre x q hq1
  | @accPart l ls order m hs hp hw =>
    intro P hR pre x post h
    obtain ⟨b₁, b₂, hb, hsub⟩ := (sound_works hw).done pre x post h
    obtain ⟨⟨o, b⟩, hob, hbe⟩ := List.mem_map.1 (hp.mem_iff.1 hb)
    have := (hR 0 l (by simp)).2 o b hob b₁ x b₂ hbe
    refine this.mono fun y hy => ?_
    simp only [List.take_zero, flat, List.flatMap_nil, List.nil_append, List.mem_append] at hy ⊢
    exact hy.imp_right (hsub y)
  | @accFail l ls order m hs hp hw _ _ =>
    intro P hR pre x post h
    obtain ⟨b₁, b₂, hb, hsub⟩ := (sound_works hw).done pre x post h
    obtain ⟨⟨o, b⟩, hob, hbe⟩ := List.mem_map.1 (hp.mem_iff.1 hb)
    have := (hR 0 l (by simp)).2 o b hob b₁ x b₂ hbe
    refine this.mono fun y hy => ?_
    simp only [List.take_zero, flat, List.flatMap_nil, List.nil_append, List.mem_append] at hy ⊢
    exact hy.imp_right (hsub y)
  | @accAll l ls order m t e hs hp hw ho he _ ih =>
    intro P hR pre x post h
    have hwhole := (level_whole hw ho he).trans (level_perm hp)
    rcases List.append_eq_append_iff.1 h with ⟨q, hq1, hq2⟩ | ⟨q, hq1, hq2⟩
    · have := ih _ hR.tail q x post hq2
      rw [hq1]
      refine this.mono fun y hy => ?_
      simp only [List.mem_append] at hy ⊢
      rcases hy with (hy | hy) | hy
      · exact Or.inl hy
      · exact Or.inr (Or.inl (hwhole.mem_iff.2 hy))
      · exact Or.inr (Or.inr hy)
    · cases q with
      | nil =>
        simp only [List.append_nil] at hq1
        simp only [List.nil_append] at hq2
        have := ih _ hR.tail [] x post (by simpa using hq2.symm)
        rw [← hq1]
        refine this.mono fun y hy => ?_
        simp only [List.mem_append, List.not_mem_nil, or_false] at hy ⊢
        exact hy.imp_right fun hy => hwhole.mem_iff.2 hy
      | cons y q =>
        simp only [List.cons_append, List.cons.injEq] at hq2
        obtain ⟨rfl, -⟩ := hq2
        obtain ⟨b₁, b₂, hb, hsub⟩ := (sound_works hw).done pre x q hq1
        obtain ⟨⟨o, b⟩, hob, hbe⟩ := List.mem_map.1 (hp.mem_iff.1 hb)
        have := (hR 0 l (by simp)).2 o b hob b₁ x b₂ hbe
        refine this.mono fun y hy => ?_
        simp only [List.take_zero, flat, List.flatMap_nil, List.nil_append, List.mem_append] at hy ⊢
        exact hy.imp_right (hsub y)

/-- **C90.** Whatever blocks were offered to a batch and whichever were taken, and however the workers' steps interleave, when a block is inserted every block it refers to has
been inserted before or was in the ledger. -/
theorem refs_first (L : Ledger) {cap : Nat} (hcap : 0 < cap) (xs : List Item) {t : List Item} {e : End} (r : Run (batchOf L cap xs).ls t e)
    {pre post : List Item} {x : Item} (ht : t = pre ++ x :: post) :
    (∀ k ∈ x.refs, L.acc k = true ∨ ∃ y ∈ pre, k ∈ y.keys) ∧ (x.owner = none → ∀ k, x.sref = some k → L.snap k = true ∨ ∃ y ∈ pre, k ∈ y.keys) := by
  obtain ⟨hc, -, -⟩ := batch_core L hcap xs
  have := run_avail r [] (fun i l hl => ⟨hc.form i l hl, fun o b hb b₁ z b₂ hz => by simpa using hc.order i l hl o b hb b₁ z b₂ hz⟩) pre x post ht
  simpa [Avail] using this

/-! ## Nothing is lost or doubled -/

/-- A level inserts nothing that is not in it, and nothing twice. -/
theorem level_part {order : List (List Item)} {m : Moment} (w : Works (startLevel order) m) : (m.done ++ m.busy.flatten ++ m.queue.flatten).Subperm order.flatten := by
  induction w with
  | refl => simp [startLevel, List.Subperm.refl]
  | @step b c _ w ih =>
    refine List.Subperm.trans ?_ ih
    cases w with
    | take =>
      refine List.Perm.subperm ?_
      simp only [List.flatten_cons, List.append_assoc]
      refine List.Perm.append_left _ ?_
      rw [← List.append_assoc, ← List.append_assoc]
      exact List.perm_append_comm.append_right _
    | leave =>
      refine List.Sublist.subperm ?_
      simp only [List.flatten_cons]
      exact List.Sublist.append_left (List.sublist_append_right _ _) _
    | insert =>
      refine List.Perm.subperm ?_
      simp only [List.flatten_append, List.flatten_cons, List.append_assoc, List.cons_append, List.nil_append]
      exact List.Perm.append_left _ List.perm_middle.symm
    | fail =>
      refine List.Sublist.subperm ?_
      simp only [List.flatten_append, List.flatten_cons, List.append_assoc]
      exact List.Sublist.append_left (List.Sublist.append_left (List.sublist_append_right _ _) _) _
    | publish => exact List.Subperm.refl _
    | finish => simp [List.Subperm.refl]

theorem level_done_part {order : List (List Item)} {m : Moment} (w : Works (startLevel order) m) : m.done.Subperm order.flatten := by
  refine List.Subperm.trans (List.Sublist.subperm ?_) (level_part w)
  rw [List.append_assoc]; exact List.sublist_append_left _ _

theorem run_part {ls : List Level} {t : List Item} {e : End} (r : Run ls t e) : t.Subperm (flat ls) := by
  induction r with
  | nil => simp [flat]
  | start => exact List.nil_subperm
  | @snapPart l ls o b bs e hs hb n he =>
    refine List.Sublist.subperm ((List.take_sublist _ _).trans ?_)
    simp only [flat, List.flatMap_cons, Level.items, hb, List.append_assoc]
    exact List.sublist_append_left _ _
  | @snapAll l ls o b bs t e hs hb _ ih =>
    simp only [flat, List.flatMap_cons, Level.items, hb, List.append_assoc]
    refine List.Subperm.trans ?_ (List.Sublist.subperm (List.Sublist.append_left (List.sublist_append_right _ _) _))
    exact (List.subperm_append_left b).2 ih
  | @accPart l ls order m hs hp hw =>
    refine (level_done_part hw).trans ((level_perm hp).subperm.trans ?_)
    exact List.Sublist.subperm (by simp only [flat, List.flatMap_cons]; exact List.sublist_append_left _ _)
  | @accFail l ls order m hs hp hw _ _ =>
    refine (level_done_part hw).trans ((level_perm hp).subperm.trans ?_)
    exact List.Sublist.subperm (by simp only [flat, List.flatMap_cons]; exact List.sublist_append_left _ _)
  | @accAll l ls order m t e hs hp hw ho he _ ih =>
    simp only [flat, List.flatMap_cons]
    exact ((level_done_part hw).trans (level_perm hp).subperm).append ih

/-- A run that is through, cut at a snapshot level. -/
theorem run_cut {ls : List Level} {t : List Item} {e : End} (r : Run ls t e) (hf : ∀ (i : Nat) (l : Level), ls[i]? = some l → l.snap = true → ∃ b, l.bs = [(none, b)])
    (he : e = .through) :
    t.Perm (flat ls) ∧ ∀ (i : Nat) (l : Level) (b : List Item), ls[i]? = some l → l.snap = true → l.bs = [(none, b)] →
      ∃ t₁ t₂, t = t₁ ++ b ++ t₂ ∧ t₁.Perm (flat (ls.take i)) ∧ t₂.Perm (flat (ls.drop (i + 1))) := by
  induction r with
  | nil => exact ⟨by simp [flat], fun i l b hl => by simp at hl⟩
  | start => simp at he
  | snapPart _ _ _ h => exact absurd he h
  | accPart => simp at he
  | accFail => simp at he
  | @snapAll l ls o b bs t e hs hb _ ih =>
    obtain ⟨c, hc⟩ := hf 0 l (by simp) hs
    rw [hb] at hc
    simp only [List.cons.injEq, Prod.mk.injEq] at hc
    obtain ⟨⟨rfl, rfl⟩, rfl⟩ := hc
    obtain ⟨h1, h2⟩ := ih (fun i l hl => hf (i + 1) l (by simpa using hl)) he
    have hit : l.items = b := by simp [Level.items, hb]
    refine ⟨by simp only [flat, List.flatMap_cons, hit]; exact h1.append_left b, ?_⟩
    intro i m b' hm hms hb'
    cases i with
    | zero =>
      simp only [List.getElem?_cons_zero, Option.some.injEq] at hm
      subst hm
      rw [hb] at hb'
      simp only [List.cons.injEq, Prod.mk.injEq, true_and, and_true] at hb'
      subst hb'
      exact ⟨[], t, by simp, by simp [flat], by simpa using h1⟩
    | succ i =>
      obtain ⟨t₁, t₂, g1, g2, g3⟩ := h2 i m b' (by simpa using hm) hms hb'
      refine ⟨b ++ t₁, t₂, by rw [g1]; simp, ?_, by simpa using g3⟩
      simp only [List.take_succ_cons, flat, List.flatMap_cons, hit]
      exact g2.append_left b
  | @accAll l ls order m t e hs hp hw ho he' _ ih =>
    obtain ⟨h1, h2⟩ := ih (fun i l hl => hf (i + 1) l (by simpa using hl)) he
    have hwhole := (level_whole hw ho he').trans (level_perm hp)
    refine ⟨by simp only [flat, List.flatMap_cons]; exact hwhole.append h1, ?_⟩
    intro i m' b' hm hms hb'
    cases i with
    | zero =>
      simp only [List.getElem?_cons_zero, Option.some.injEq] at hm
      subst hm
      rw [hs] at hms; simp at hms
    | succ i =>
      obtain ⟨t₁, t₂, g1, g2, g3⟩ := h2 i m' b' (by simpa using hm) hms hb'
      refine ⟨m.done ++ t₁, t₂, by rw [g1]; simp, ?_, by simpa using g3⟩
      simp only [List.take_succ_cons, flat, List.flatMap_cons]
      exact hwhole.append g2

/-- **C90.** A run inserts no block that was not taken, and none twice; a run that is through has inserted every block that was taken. -/
theorem taken_inserted (L : Ledger) {cap : Nat} (hcap : 0 < cap) (xs : List Item) {t : List Item} {e : End} (r : Run (batchOf L cap xs).ls t e) :
    t.Subperm (takenOf L cap xs) ∧ (e = .through → t.Perm (takenOf L cap xs)) := by
  obtain ⟨hc, -, -⟩ := batch_core L hcap xs
  refine ⟨(run_part r).trans hc.perm.subperm, fun he => ?_⟩
  exact (run_cut r hc.form he).1.trans hc.perm

/-- **C90.** A snapshot block is inserted after exactly the blocks that were taken before it: those that were taken before it come before it in every run, and the others after it. -/
theorem snapshots_cut (L : Ledger) {cap : Nat} (hcap : 0 < cap) (xs : List Item) {t : List Item} (r : Run (batchOf L cap xs).ls t .through)
    {A₁ A₂ : List Item} {z : Item} (hA : takenOf L cap xs = A₁ ++ z :: A₂) (hz : z.owner = none) :
    ∃ T₁ T₂, t = T₁ ++ z :: T₂ ∧ T₁.Perm A₁ ∧ T₂.Perm A₂ := by
  obtain ⟨hc, -, -⟩ := batch_core L hcap xs
  obtain ⟨i, l, b₁, b₂, hl, hs, hbs, h1, h2⟩ := hc.snaps A₁ z A₂ hA hz
  obtain ⟨-, hcut⟩ := run_cut r hc.form rfl
  obtain ⟨t₁, t₂, g1, g2, g3⟩ := hcut i l _ hl hs hbs
  exact ⟨t₁ ++ b₁, b₂ ++ t₂, by rw [g1]; simp, (g2.append_right b₁).trans h1, (g3.append_left b₂).trans h2⟩

/-- **C90.** At no moment do two workers insert blocks of the same account, and there are at most five workers. -/
theorem one_worker_each (L : Ledger) {cap : Nat} (hcap : 0 < cap) (xs : List Item) {l : Level} (hl : l ∈ (batchOf L cap xs).ls) {order : List (List Item)}
    (hp : order.Perm (l.bs.map (·.2))) {m : Moment} (w : Works (startLevel order) m) :
    m.busy.Pairwise (fun a b => ∀ x ∈ a, ∀ y ∈ b, x.owner ≠ y.owner) ∧ m.busy.length ≤ 5 := by
  obtain ⟨hc, -, -⟩ := batch_core L hcap xs
  obtain ⟨i, hi⟩ := List.mem_iff_getElem?.1 hl
  have hap : Apart (l.bs.map (·.2)) := by
    have hn := hc.nodup i l hi
    have ho := hc.owner i l hi
    generalize l.bs = bs at hn ho
    unfold Apart
    rw [List.pairwise_map]
    unfold List.Nodup at hn
    rw [List.pairwise_map] at hn
    refine List.Pairwise.imp_of_mem ?_ hn
    intro a b ha hb hne x hx y hy
    rw [ho a.1 a.2 ha x hx, ho b.1 b.2 hb y hy]; exact hne
  refine ⟨apart_works (apart_perm hp.symm hap) w, ?_⟩
  have := (whole_works w).workers
  unfold maxParallel at this
  omega

/-! ## What is refused -/

/-- **C90.** A block that is refused leaves the batch as it was. It is refused for a missing block only when one of the blocks it refers to is neither in the ledger nor a key of a
block taken before; and adding a block panics only when an account block refers to a snapshot block in the batch. -/
theorem refused_unchanged (L : Ledger) {cap : Nat} (hcap : 0 < cap) (xs : List Item) (x : Item) {s' : St} {out : Out}
    (h : (batchOf L cap xs).add L x = (s', out)) (hne : out ≠ .ok) :
    s' = batchOf L cap xs ∧ out ≠ .hole ∧ (out = .panic → x.owner ≠ none ∧ ∃ r ∈ x.refs, ∃ y ∈ takenOf L cap xs, y.owner = none ∧ r ∈ y.keys) ∧
      (out = .noRef → (∃ r ∈ x.refs, L.acc r = false ∧ ∀ y ∈ takenOf L cap xs, r ∉ y.keys) ∨
        ∃ r, x.owner = none ∧ x.sref = some r ∧ L.snap r = false ∧ ∀ y ∈ takenOf L cap xs, r ∉ y.keys) := by
  obtain ⟨hc, hs, hcp⟩ := batch_core L hcap xs
  rcases add_spec (by omega) hc hs h with ⟨h1, -⟩ | ⟨h1, h2⟩
  · exact absurd h1 hne
  · refine ⟨h1, ?_, ?_, ?_⟩
    · rcases h2 with ⟨h, -⟩ | ⟨h, -⟩ | h | h <;> rw [h] <;> simp
    · intro hp
      rcases h2 with ⟨-, h⟩ | ⟨h, -⟩ | h | h
      · exact h
      all_goals rw [h] at hp; simp at hp
    · intro hp
      rcases h2 with ⟨h, -⟩ | ⟨-, h⟩ | h | h
      · rw [h] at hp; simp at hp
      · simpa only [batch_find L hcap xs] using h
      all_goals rw [h] at hp; simp at hp

end Verif.Batch
