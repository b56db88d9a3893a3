import Verif.Batch.BatchModel

/-!
# Lemmas on levels and buckets -/

namespace Verif.Batch

/-- The items of a level, bucket by bucket. -/
def Level.items (l : Level) : List Item := l.bs.flatMap (·.2)

/-- The items of levels. -/
def flat (ls : List Level) : List Item := ls.flatMap Level.items

theorem bucketsAdd_form {bs bs' : List (Option Nat × List Item)} {x : Item} (h : bucketsAdd bs x = some bs') :
    (∃ p b q, bs = p ++ (x.owner, b) :: q ∧ bs' = p ++ (x.owner, b ++ [x]) :: q ∧ (∀ e ∈ p, e.1 ≠ x.owner) ∧ ∀ y, b.getLast? = some y → y.hash = x.prev) ∨
      ((∀ e ∈ bs, e.1 ≠ x.owner) ∧ bs' = bs ++ [(x.owner, [x])]) := by
  induction bs generalizing bs' with
  | nil =>
    simp only [bucketsAdd, bucketAdd, List.getLast?_nil, List.nil_append, Option.map_some, Option.some.injEq] at h
    exact Or.inr ⟨fun e he => (by cases he), by simp [← h]⟩
  | cons e bs ih =>
    obtain ⟨o, b⟩ := e
    unfold bucketsAdd at h
    split at h
    · rename_i ho
      subst ho
      rw [Option.map_eq_some_iff] at h
      obtain ⟨b', hb, rfl⟩ := h
      refine Or.inl ⟨[], b, bs, rfl, ?_, fun e he => (by cases he), ?_⟩
      · unfold bucketAdd at hb
        split at hb
        · split at hb
          · simp only [Option.some.injEq] at hb; subst hb; rfl
          · simp at hb
        · simp only [Option.some.injEq] at hb; subst hb; rfl
      · intro y hy
        unfold bucketAdd at hb
        rw [hy] at hb
        dsimp only at hb
        split at hb
        · assumption
        · simp at hb
    · rename_i ho
      rw [Option.map_eq_some_iff] at h
      obtain ⟨bs'', hb, rfl⟩ := h
      rcases ih hb with ⟨p, c, q, h1, h2, h3, h4⟩ | ⟨h1, h2⟩
      · refine Or.inl ⟨(o, b) :: p, c, q, by simp [h1], by simp [h2], ?_, h4⟩
        intro e he
        rcases List.mem_cons.1 he with rfl | he
        · exact ho
        · exact h3 e he
      · refine Or.inr ⟨?_, by simp [h2]⟩
        intro e he
        rcases List.mem_cons.1 he with rfl | he
        · exact ho
        · exact h1 e he

/-- The buckets after adding: the others as they were, and the one of the owner with the item at its end. -/
theorem bucketsAdd_mem {bs bs' : List (Option Nat × List Item)} {x : Item} (h : bucketsAdd bs x = some bs') (hn : (bs.map (·.1)).Nodup)
    {o : Option Nat} {b : List Item} (hm : (o, b) ∈ bs') :
    (o ≠ x.owner ∧ (o, b) ∈ bs) ∨ (o = x.owner ∧ ∃ b₀, b = b₀ ++ [x] ∧ ((o, b₀) ∈ bs ∨ (b₀ = [] ∧ ∀ e ∈ bs, e.1 ≠ x.owner))) := by
  rcases bucketsAdd_form h with ⟨p, c, q, rfl, rfl, h3, -⟩ | ⟨h1, rfl⟩
  · simp only [List.mem_append, List.mem_cons, Prod.mk.injEq] at hm ⊢
    have hq : ∀ e ∈ q, e.1 ≠ x.owner := by
      intro e he heq
      simp only [List.map_append, List.map_cons, List.nodup_append, List.nodup_cons] at hn
      exact hn.2.1.1 (List.mem_map.2 ⟨e, he, heq⟩)
    rcases hm with hm | ⟨rfl, rfl⟩ | hm
    · exact Or.inl ⟨h3 _ hm, Or.inl hm⟩
    · exact Or.inr ⟨rfl, c, rfl, Or.inl (Or.inr (Or.inl ⟨rfl, rfl⟩))⟩
    · exact Or.inl ⟨hq _ hm, Or.inr (Or.inr hm)⟩
  · simp only [List.mem_append, List.mem_singleton, Prod.mk.injEq] at hm
    rcases hm with hm | ⟨rfl, rfl⟩
    · exact Or.inl ⟨h1 _ hm, hm⟩
    · exact Or.inr ⟨rfl, [], rfl, Or.inr ⟨rfl, h1⟩⟩

/-- A bucket stays, perhaps with one more item at its end. -/
theorem bucketsAdd_keeps {bs bs' : List (Option Nat × List Item)} {x : Item} (h : bucketsAdd bs x = some bs') {o : Option Nat} {b : List Item} (hm : (o, b) ∈ bs) :
    ∃ b', (o, b') ∈ bs' ∧ b <+: b' := by
  rcases bucketsAdd_form h with ⟨p, c, q, rfl, rfl, -, -⟩ | ⟨-, rfl⟩
  · simp only [List.mem_append, List.mem_cons, Prod.mk.injEq] at hm
    rcases hm with hm | ⟨rfl, rfl⟩ | hm
    · exact ⟨b, by simp [hm], List.prefix_refl _⟩
    · exact ⟨b ++ [x], by simp, List.prefix_append _ _⟩
    · exact ⟨b, by simp [hm], List.prefix_refl _⟩
  · exact ⟨b, by simp [hm], List.prefix_refl _⟩

/-- The new item is in the bucket of its owner. -/
theorem bucketsAdd_new {bs bs' : List (Option Nat × List Item)} {x : Item} (h : bucketsAdd bs x = some bs') : ∃ b, (x.owner, b) ∈ bs' ∧ x ∈ b := by
  rcases bucketsAdd_form h with ⟨p, c, q, rfl, rfl, -, -⟩ | ⟨-, rfl⟩
  · exact ⟨c ++ [x], by simp, by simp⟩
  · exact ⟨[x], by simp, by simp⟩

theorem bucketsAdd_nodup {bs bs' : List (Option Nat × List Item)} {x : Item} (h : bucketsAdd bs x = some bs') (hn : (bs.map (·.1)).Nodup) : (bs'.map (·.1)).Nodup := by
  rcases bucketsAdd_form h with ⟨p, c, q, rfl, rfl, -, -⟩ | ⟨h1, rfl⟩
  · simpa using hn
  · rw [List.map_append, List.nodup_append]
    refine ⟨hn, by simp, ?_⟩
    intro a ha b hb
    obtain ⟨e, he, rfl⟩ := List.mem_map.1 ha
    simp only [List.map_cons, List.map_nil, List.mem_singleton] at hb
    rw [hb]
    exact h1 e he

theorem bucketsAdd_perm {bs bs' : List (Option Nat × List Item)} {x : Item} (h : bucketsAdd bs x = some bs') :
    (bs'.flatMap (·.2)).Perm (bs.flatMap (·.2) ++ [x]) := by
  rcases bucketsAdd_form h with ⟨p, c, q, rfl, rfl, -, -⟩ | ⟨-, rfl⟩
  · simp only [List.flatMap_append, List.flatMap_cons, List.append_assoc]
    refine List.Perm.append_left _ (List.Perm.append_left _ ?_)
    exact List.perm_append_comm
  · simp

/-- Adding to a new level always works. -/
theorem bucketsAdd_newLevel (x : Item) (snap : Bool) : (bucketsAdd (newLevel snap).bs x).isSome := by
  cases snap
  · simp [newLevel, bucketsAdd, bucketAdd]
  · simp only [newLevel, if_true, bucketsAdd]
    split <;> simp [bucketAdd]

theorem flat_append (a b : List Level) : flat (a ++ b) = flat a ++ flat b := by simp [flat]

theorem flat_set {ls : List Level} {i : Nat} {l l' : Level} (hl : ls[i]? = some l) (x : Item) (hp : l'.items.Perm (l.items ++ [x])) :
    (flat (ls.set i l')).Perm (flat ls ++ [x]) := by
  induction ls generalizing i with
  | nil => simp at hl
  | cons a ls ih =>
    cases i with
    | zero =>
      simp only [List.getElem?_cons_zero, Option.some.injEq] at hl
      subst hl
      simp only [List.set_cons_zero, flat, List.flatMap_cons, List.append_assoc]
      refine List.Perm.trans (hp.append_right _) ?_
      rw [List.append_assoc]
      exact List.Perm.append_left _ List.perm_append_comm
    | succ i =>
      simp only [List.getElem?_cons_succ] at hl
      simp only [List.set_cons_succ, flat, List.flatMap_cons, List.append_assoc]
      exact List.Perm.append_left _ (ih hl)

/-- What closing does. -/
theorem closeFrom_spec {n m : Nat} {ls ls' : List Level} (h : closeFrom n m ls = some ls') :
    ls' = ls.mapIdx fun i l => { l with closed := l.closed || decide (n ≤ i ∧ i < m) } := by
  induction ls generalizing n m ls' with
  | nil => simp only [closeFrom, Option.some.injEq] at h; subst h; rfl
  | cons l ls ih =>
    unfold closeFrom at h
    rw [List.mapIdx_cons]
    split at h
    · rename_i hn
      subst hn
      split at h
      · rename_i hm
        subst hm
        simp only [Option.some.injEq] at h
        subst h
        simp only [Nat.not_lt_zero, and_false, decide_false, Bool.or_false]
        congr 1
        exact (List.mapIdx_eq_iff.2 fun i => by simp).symm
      · split at h
        · simp at h
        · rw [Option.map_eq_some_iff] at h
          obtain ⟨ls'', h1, rfl⟩ := h
          rw [ih h1]
          rename_i hm hc
          congr 1
          · simp; omega
          · congr 1; funext i l
            congr 2
            rw [decide_eq_decide]; omega
    · rw [Option.map_eq_some_iff] at h
      obtain ⟨ls'', h1, rfl⟩ := h
      rw [ih h1]
      rename_i hn
      congr 1
      · have : decide (n ≤ 0 ∧ 0 < m) = false := decide_eq_false (by omega)
        rw [this, Bool.or_false]
      · congr 1; funext i l
        congr 2
        rw [decide_eq_decide]; omega

/-- Closing works when none of the levels is closed. -/
theorem closeFrom_isSome {n m : Nat} {ls : List Level} (h : ∀ i l, n ≤ i → i < m → ls[i]? = some l → l.closed = false) : ∃ ls', closeFrom n m ls = some ls' := by
  induction ls generalizing n m with
  | nil => exact ⟨[], rfl⟩
  | cons l ls ih =>
    unfold closeFrom
    split
    · rename_i hn
      subst hn
      split
      · exact ⟨_, rfl⟩
      · have h0 := h 0 l (le_refl _) (by omega) (by simp)
        rw [if_neg (by simp [h0])]
        obtain ⟨ls', h'⟩ := ih (n := 0) (m := m - 1) (fun i l hi him hl => h (i + 1) l (by omega) (by omega) (by simpa using hl))
        exact ⟨_, by rw [h']; rfl⟩
    · obtain ⟨ls', h'⟩ := ih (n := n - 1) (m := m - 1) (fun i l hi him hl => h (i + 1) l (by omega) (by omega) (by simpa using hl))
      exact ⟨_, by rw [h']; rfl⟩

theorem flat_mapIdx (f : Nat → Level → Bool) (ls : List Level) : flat (ls.mapIdx fun i l => { l with closed := f i l }) = flat ls := by
  induction ls generalizing f with
  | nil => rfl
  | cons l ls ih =>
    rw [List.mapIdx_cons]
    simp only [flat, List.flatMap_cons]
    congr 1
    exact ih (fun i l => f (i + 1) l)

theorem take_mapIdx {α β : Type} (f : Nat → α → β) (ls : List α) (n : Nat) : (ls.mapIdx f).take n = (ls.take n).mapIdx f := by
  induction ls generalizing f n with
  | nil => simp
  | cons l ls ih =>
    cases n with
    | zero => simp
    | succ n => simp [List.mapIdx_cons, ih]

theorem drop_flat_mapIdx (f : Nat → Level → Bool) (ls : List Level) (n : Nat) :
    flat ((ls.mapIdx fun i l => { l with closed := f i l }).drop n) = flat (ls.drop n) := by
  induction ls generalizing f n with
  | nil => simp
  | cons l ls ih =>
    cases n with
    | zero => simpa using flat_mapIdx f (l :: ls)
    | succ n =>
      rw [List.mapIdx_cons]
      simp only [List.drop_succ_cons]
      exact ih (fun i l => f (i + 1) l) n

end Verif.Batch
