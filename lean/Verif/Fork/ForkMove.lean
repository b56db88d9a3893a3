import Verif.Fork.ForkDisk

/-! Children that get another root, and a block written to the chain that is not in the main branch. -/

namespace Verif.Fork

variable {K : Knot → Prop}

/-- The children `S` of `i` have become children of `r`. -/
structure Moved (t t' : Tree) (S : Nat → Prop) (i r : Nat) : Prop where
  live : t'.live = t.live
  main : t'.main = t.main
  next : t'.next = t.next
  disk : t'.disk = t.disk
  yes : ∀ j, S j → t'.br j = { t.br j with root := some r }
  no : ∀ j, ¬ S j → t'.br j = t.br j
  kids : ∀ p c, (p, c) ∈ t'.kids ↔ ((p, c) ∈ t.kids ∧ ¬ (p = i ∧ S c)) ∨ (p = r ∧ S c)

/-- Seen from `r` itself, without its roots' blocks, or on disk. -/
def Sees (t : Tree) (r h x : Nat) : Prop :=
  (t.br r).has h x = true ∨ ((t.br r).root = none ∧ ∃ k, t.disk[h]? = some k ∧ k.hash = x)

theorem Sees.contains {t : Tree} {r h x : Nat} (H : Sees t r h x) : t.contains r h x = true := by
  unfold Tree.contains
  rcases H with H | ⟨H, k, e1, e2⟩
  · simp [H]
  · simp [H, Tree.knotAt, e1, e2]

theorem reroot_moved (t : Tree) (v i r : Nat) (hir : i ≠ r) :
    Moved t (t.reroot v (some i) (some r)) (fun j => j = v) i r := by
  refine ⟨by simp [Tree.reroot], by simp [Tree.reroot], by simp [Tree.reroot], by simp [Tree.reroot], ?_, ?_, ?_⟩
  · rintro j rfl; simp [Tree.reroot, Tree.set]
  · intro j hj; simp [Tree.reroot, Tree.set, hj]
  · intro p c
    simp only [Tree.reroot]
    rw [mem_addKid]
    simp only [Tree.set_kids]
    rw [mem_unkid]
    simp only [ne_eq, Prod.mk.injEq]

theorem Moved.refl (t : Tree) (i r : Nat) : Moved t t (fun _ => False) i r := by
  refine ⟨rfl, rfl, rfl, rfl, fun _ h => absurd h id, fun _ _ => rfl, ?_⟩
  intro p c; simp

theorem Moved.trans {t t' t'' : Tree} {S S' : Nat → Prop} {i r : Nat} (hir : i ≠ r) (M : Moved t t' S i r) (M' : Moved t' t'' S' i r)
    (S'' : Nat → Prop) (hS : ∀ j, S'' j ↔ S j ∨ S' j) : Moved t t'' S'' i r := by
  refine ⟨M'.live.trans M.live, M'.main.trans M.main, M'.next.trans M.next, M'.disk.trans M.disk, ?_, ?_, ?_⟩
  · intro j hj
    by_cases c' : S' j
    · rw [M'.yes j c']
      by_cases c : S j
      · rw [M.yes j c]
      · rw [M.no j c]
    · rw [M'.no j c', M.yes j (((hS j).mp hj).resolve_right c')]
  · intro j hj
    have : ¬ S j ∧ ¬ S' j := by rw [hS] at hj; tauto
    rw [M'.no j this.2, M.no j this.1]
  · intro p c
    rw [M'.kids, M.kids, hS]
    by_cases c1 : p = i
    · subst c1
      have : ¬ p = r := hir
      tauto
    · tauto

theorem Moved.congr {t t' : Tree} {S S' : Nat → Prop} {i r : Nat} (M : Moved t t' S i r) (hS : ∀ j, S' j ↔ S j) : Moved t t' S' i r := by
  have : S' = S := by funext j; exact propext (hS j)
  rw [this]; exact M

theorem shiftKids_spec {i r : Nat} (hir : i ≠ r) : ∀ (vs : List Nat) (t : Tree), r ∉ vs → i ∉ vs →
    (∀ v ∈ vs, (t.br i).has (t.br v).tail (t.br v).tailHash = false → Sees t r (t.br v).tail (t.br v).tailHash) →
    ∃ t', Tree.shiftKids i r vs t = some t' ∧
      Moved t t' (fun j => j ∈ vs ∧ (t.br i).has (t.br j).tail (t.br j).tailHash = false) i r := by
  intro vs
  induction vs with
  | nil => intro t _ _ _; exact ⟨t, rfl, (Moved.refl t i r).congr (by simp)⟩
  | cons v vs ih =>
    intro t hr hi H
    simp only [List.mem_cons, not_or] at hr hi
    rw [Tree.shiftKids]
    cases c : (t.br i).has (t.br v).tail (t.br v).tailHash with
    | true =>
      obtain ⟨t', e, M⟩ := ih t hr.2 hi.2 (fun w hw => H w (List.mem_cons_of_mem _ hw))
      refine ⟨t', by simpa using e, M.congr ?_⟩
      intro j
      simp only [List.mem_cons]
      constructor
      · rintro ⟨rfl | h, h'⟩
        · rw [c] at h'; exact absurd h' (by simp)
        · exact ⟨h, h'⟩
      · rintro ⟨h, h'⟩; exact ⟨Or.inr h, h'⟩
    | false =>
      simp only [Bool.false_eq_true, if_false]
      rw [if_pos (H v (List.mem_cons_self ..) c).contains]
      have M0 := reroot_moved t v i r hir
      obtain ⟨t1, ht1⟩ : ∃ t1, t1 = t.reroot v (some i) (some r) := ⟨_, rfl⟩
      rw [← ht1] at M0 ⊢
      have er : t1.br r = t.br r := M0.no r hr.1
      have ei : t1.br i = t.br i := M0.no i hi.1
      have ev : ∀ w, (t1.br w).tail = (t.br w).tail ∧ (t1.br w).tailHash = (t.br w).tailHash := by
        intro w
        by_cases cw : w = v
        · rw [M0.yes w cw]; exact ⟨rfl, rfl⟩
        · rw [M0.no w cw]; exact ⟨rfl, rfl⟩
      obtain ⟨t', e, M⟩ := ih t1 hr.2 hi.2 (by
        intro w hw hh
        rw [ei, (ev w).1, (ev w).2] at hh
        rw [(ev w).1, (ev w).2]
        have := H w (List.mem_cons_of_mem _ hw) hh
        unfold Sees at this ⊢
        rw [er, M0.disk]; exact this)
      refine ⟨t', e, M0.trans hir M _ ?_⟩
      intro j
      simp only [List.mem_cons]
      rw [ei]
      constructor
      · rintro ⟨rfl | h, h'⟩
        · exact Or.inl rfl
        · exact Or.inr ⟨h, by rw [(ev j).1, (ev j).2]; exact h'⟩
      · rintro (rfl | ⟨h, h'⟩)
        · exact ⟨Or.inl rfl, c⟩
        · exact ⟨Or.inr h, by rw [(ev j).1, (ev j).2] at h'; exact h'⟩

theorem moveKids_spec {i r : Nat} (old : Option Nat) (hir : i ≠ r) : ∀ (vs : List Nat) (t : Tree), r ∉ vs → i ∉ vs →
    (∀ v ∈ vs, (t.br i).has (t.br v).tail (t.br v).tailHash = false → Sees t r (t.br v).tail (t.br v).tailHash) →
    ∃ t', Tree.moveKids i old r vs t = some t' ∧
      Moved t t' (fun j => j ∈ vs ∧ (t.br i).has (t.br j).tail (t.br j).tailHash = false) i r := by
  intro vs
  induction vs with
  | nil => intro t _ _ _; exact ⟨t, rfl, (Moved.refl t i r).congr (by simp)⟩
  | cons v vs ih =>
    intro t hr hi H
    simp only [List.mem_cons, not_or] at hr hi
    rw [Tree.moveKids.eq_def]
    dsimp only
    cases c : (t.br i).has (t.br v).tail (t.br v).tailHash with
    | true =>
      obtain ⟨t', e, M⟩ := ih t hr.2 hi.2 (fun w hw => H w (List.mem_cons_of_mem _ hw))
      refine ⟨t', by simpa using e, M.congr ?_⟩
      intro j
      simp only [List.mem_cons]
      constructor
      · rintro ⟨rfl | h, h'⟩
        · rw [c] at h'; exact absurd h' (by simp)
        · exact ⟨h, h'⟩
      · rintro ⟨h, h'⟩; exact ⟨Or.inr h, h'⟩
    | false =>
      simp only [Bool.false_eq_true, if_false]
      rw [if_pos (H v (List.mem_cons_self ..) c).contains]
      have M0 := reroot_moved t v i r hir
      obtain ⟨t1, ht1⟩ : ∃ t1, t1 = t.reroot v (some i) (some r) := ⟨_, rfl⟩
      rw [← ht1] at M0 ⊢
      have er : t1.br r = t.br r := M0.no r hr.1
      have ei : t1.br i = t.br i := M0.no i hi.1
      have ev : ∀ w, (t1.br w).tail = (t.br w).tail ∧ (t1.br w).tailHash = (t.br w).tailHash := by
        intro w
        by_cases cw : w = v
        · rw [M0.yes w cw]; exact ⟨rfl, rfl⟩
        · rw [M0.no w cw]; exact ⟨rfl, rfl⟩
      obtain ⟨t', e, M⟩ := ih t1 hr.2 hi.2 (by
        intro w hw hh
        rw [ei, (ev w).1, (ev w).2] at hh
        rw [(ev w).1, (ev w).2]
        have := H w (List.mem_cons_of_mem _ hw) hh
        unfold Sees at this ⊢
        rw [er, M0.disk]; exact this)
      refine ⟨t', e, M0.trans hir M _ ?_⟩
      intro j
      simp only [List.mem_cons]
      rw [ei]
      constructor
      · rintro ⟨rfl | h, h'⟩
        · exact Or.inl rfl
        · exact Or.inr ⟨h, by rw [(ev j).1, (ev j).2]; exact h'⟩
      · rintro (rfl | ⟨h, h'⟩)
        · exact ⟨Or.inl rfl, c⟩
        · exact ⟨Or.inr h, by rw [(ev j).1, (ev j).2] at h'; exact h'⟩

theorem mem_kidsOf {t : Tree} {p c : Nat} : c ∈ t.kidsOf p ↔ (p, c) ∈ t.kids := by
  simp only [Tree.kidsOf, List.mem_map, List.mem_filter, decide_eq_true_eq]
  constructor
  · rintro ⟨⟨a, b⟩, ⟨h, rfl⟩, rfl⟩; exact h
  · intro h; exact ⟨(p, c), ⟨h, rfl⟩, rfl⟩

end Verif.Fork
