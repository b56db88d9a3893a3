import Verif.Tactics

/-!
A finite table: a list of keys and values. Used for contract storage whose entries are summed up. The order of the list
has no meaning.
-/

namespace Verif

abbrev Table (K V : Type) := List (K × V)

namespace Table

variable {K V : Type} [DecidableEq K]

/-- The value of a key. -/
def get (k : K) : Table K V → Option V
  | [] => none
  | x :: xs => if x.1 = k then some x.2 else get k xs

/-- Writing the value of a key. -/
def put (k : K) (v : V) : Table K V → Table K V
  | [] => [(k, v)]
  | x :: xs => if x.1 = k then (k, v) :: xs else x :: put k v xs

/-- Removing a key. -/
def del (k : K) : Table K V → Table K V
  | [] => []
  | x :: xs => if x.1 = k then xs else x :: del k xs

/-- No key occurs twice. -/
def Proper (t : Table K V) : Prop := (t.map (·.1)).Nodup

/-- Sum of a quantity over the entries. -/
def total (f : K → V → Nat) (t : Table K V) : Nat := (t.map (fun x => f x.1 x.2)).sum

@[simp] theorem get_put_self (k : K) (v : V) : ∀ t : Table K V, get k (put k v t) = some v
  | [] => by simp [put, get]
  | x :: xs => by
    unfold put
    split
    · simp [get]
    · rename_i h; simp [get, h, get_put_self k v xs]

theorem get_put_ne {k k' : K} (h : k' ≠ k) (v : V) : ∀ t : Table K V, get k' (put k v t) = get k' t
  | [] => by simp [put, get, h.symm]
  | x :: xs => by
    unfold put
    split
    · rename_i hx; subst hx; simp [get, h.symm]
    · simp only [get, get_put_ne h v xs]

theorem get_put (k k' : K) (v : V) (t : Table K V) : get k' (put k v t) = if k' = k then some v else get k' t := by
  by_cases h : k' = k
  · subst h; simp
  · simp [h, get_put_ne h]

theorem keys_put (k : K) (v : V) : ∀ t : Table K V, ∀ k', k' ∈ (put k v t).map (·.1) → k' = k ∨ k' ∈ t.map (·.1)
  | [], k', h => by simpa [put] using h
  | x :: xs, k', h => by
    unfold put at h
    split at h
    · rename_i hx; subst hx; right; simpa using h
    · simp only [List.map_cons, List.mem_cons] at h ⊢
      rcases h with h | h
      · exact .inr (.inl h)
      · rcases keys_put k v xs k' h with h | h
        · exact .inl h
        · exact .inr (.inr h)

theorem proper_put (k : K) (v : V) : ∀ {t : Table K V}, Proper t → Proper (put k v t)
  | [], _ => by simp [put, Proper]
  | x :: xs, h => by
    unfold Proper at h ⊢
    simp only [List.map_cons, List.nodup_cons] at h
    unfold put
    split
    · rename_i hx; subst hx; simpa using h
    · rename_i hx
      simp only [List.map_cons, List.nodup_cons]
      refine ⟨fun q => ?_, proper_put k v h.2⟩
      rcases keys_put k v xs _ q with q | q
      · exact hx q
      · exact h.1 q

theorem get_none {k : K} : ∀ {t : Table K V}, k ∉ t.map (·.1) → get k t = none
  | [], _ => rfl
  | x :: xs, h => by
    simp only [List.map_cons, List.mem_cons, not_or] at h
    simp [get, Ne.symm h.1, get_none h.2]

theorem get_mem {k : K} {v : V} : ∀ {t : Table K V}, get k t = some v → (k, v) ∈ t
  | x :: xs, h => by
    unfold get at h
    split at h
    · rename_i hx; subst hx; simp only [Option.some.injEq] at h; subst h; exact List.mem_cons_self
    · exact List.mem_cons_of_mem _ (get_mem h)

theorem mem_get {k : K} {v : V} : ∀ {t : Table K V}, Proper t → (k, v) ∈ t → get k t = some v
  | x :: xs, h, hm => by
    unfold Proper at h
    simp only [List.map_cons, List.nodup_cons] at h
    rcases List.mem_cons.mp hm with hm | hm
    · subst hm; simp [get]
    · have hx : x.1 ≠ k := fun q => h.1 (q ▸ List.mem_map_of_mem (f := (·.1)) hm)
      simp [get, hx, mem_get h.2 hm]

theorem total_put (f : K → V → Nat) (k : K) (v : V) : ∀ t : Table K V,
    total f (put k v t) + (get k t).elim 0 (f k) = total f t + f k v
  | [] => by simp [put, total, get]
  | x :: xs => by
    have ih := total_put f k v xs
    unfold total at ih ⊢
    by_cases hx : x.1 = k
    · simp only [put, hx, if_true, get, List.map_cons, List.sum_cons, Option.elim_some]; omega
    · simp only [put, hx, if_false, get, List.map_cons, List.sum_cons]; omega

theorem total_del (f : K → V → Nat) (k : K) : ∀ t : Table K V,
    total f (del k t) + (get k t).elim 0 (f k) = total f t
  | [] => by simp [del, total, get]
  | x :: xs => by
    have ih := total_del f k xs
    unfold total at ih ⊢
    by_cases hx : x.1 = k
    · simp only [del, hx, if_true, get, List.map_cons, List.sum_cons, Option.elim_some]; omega
    · simp only [del, hx, if_false, get, List.map_cons, List.sum_cons]; omega

theorem get_del_ne {k k' : K} (h : k' ≠ k) : ∀ t : Table K V, get k' (del k t) = get k' t
  | [] => rfl
  | x :: xs => by
    unfold del
    split
    · rename_i hx; subst hx; simp [get, h.symm]
    · simp only [get, get_del_ne h xs]

theorem keys_del (k : K) : ∀ t : Table K V, ∀ k', k' ∈ (del k t).map (·.1) → k' ∈ t.map (·.1)
  | [], k', h => h
  | x :: xs, k', h => by
    unfold del at h
    split at h
    · simp only [List.map_cons, List.mem_cons]; exact .inr h
    · simp only [List.map_cons, List.mem_cons] at h ⊢
      exact h.imp id (keys_del k xs k')

theorem proper_del (k : K) : ∀ {t : Table K V}, Proper t → Proper (del k t)
  | [], h => h
  | x :: xs, h => by
    unfold Proper at h ⊢
    simp only [List.map_cons, List.nodup_cons] at h
    unfold del
    split
    · exact h.2
    · simp only [List.map_cons, List.nodup_cons]
      exact ⟨fun q => h.1 (keys_del k xs _ q), proper_del k h.2⟩

theorem get_del_self (k : K) : ∀ {t : Table K V}, Proper t → get k (del k t) = none
  | [], _ => rfl
  | x :: xs, h => by
    unfold Proper at h
    simp only [List.map_cons, List.nodup_cons] at h
    unfold del
    split
    · rename_i hx; exact get_none (hx ▸ h.1)
    · rename_i hx; simp [get, hx, get_del_self k (t := xs) h.2]

theorem le_total (f : K → V → Nat) {k : K} {v : V} {t : Table K V} (h : get k t = some v) : f k v ≤ total f t := by
  have := total_del f k t
  rw [h] at this
  simp only [Option.elim_some] at this
  omega

end Table
end Verif
