import Verif.Disc.TableSpec

/-! # The table of nodes: lemmas -/

namespace Verif.Disc

/-- The tail is the last element and the counter is right. -/
def Bkt.ok (b : Bkt) : Prop := b.tail = b.list.length ∧ b.count = b.list.length

theorem slot_lt (c : Cfg) (h : 0 < c.num) (id : Id) : c.slot id < c.num := by
  unfold Cfg.slot Cfg.minDistance
  have : distance c.N c.self id ≤ 8 * c.N := by unfold distance; omega
  split <;> omega

theorem resolve_some {b : Bkt} {id : Id} {n : Node} (h : b.resolve id = some n) :
    n ∈ b.list ∧ n.id = id := by
  unfold Bkt.resolve at h
  exact ⟨List.mem_of_find?_eq_some h, by simpa using List.find?_some h⟩

theorem resolve_none {b : Bkt} {id : Id} : b.resolve id = none ↔ ∀ n ∈ b.list, n.id ≠ id := by
  unfold Bkt.resolve; simp

/-- `index` finds the first node with the identity. -/
theorem index_some {b : Bkt} {id : Id} {k : Nat} (h : b.index id = some k) :
    ∃ n, b.list[k]? = some n ∧ n.id = id ∧ k < b.list.length := by
  unfold Bkt.index at h
  rw [List.findIdx?_eq_some_iff_getElem] at h
  obtain ⟨hk, h1, _⟩ := h
  exact ⟨b.list[k], by simp [hk], by simpa using h1, hk⟩

theorem index_none {b : Bkt} {id : Id} : b.index id = none ↔ ∀ n ∈ b.list, n.id ≠ id := by
  unfold Bkt.index; simp

theorem eraseIdx_perm (l : List Node) (k : Nat) (n : Node) (h : l[k]? = some n) :
    (l.eraseIdx k ++ [n]).Perm l := by
  induction l generalizing k with
  | nil => simp at h
  | cons x xs ih =>
    cases k with
    | zero =>
      simp at h; subst h
      simpa using (List.perm_append_comm (l₁ := xs) (l₂ := [x]))
    | succ k => simpa using ih k (by simpa using h)

theorem bubble_perm {b : Bkt} (ok : b.ok) (id : Id) : (b.bubble id).1.ok ∧ (b.bubble id).1.list.Perm b.list := by
  unfold Bkt.bubble
  split
  · exact ⟨ok, List.Perm.refl _⟩
  · split
    · exact ⟨ok, List.Perm.refl _⟩
    · split
      · exact ⟨ok, List.Perm.refl _⟩
      · rename_i k hk
        obtain ⟨n, h1, h2, h3⟩ := index_some hk
        have hlen : (b.list.eraseIdx k).length = b.list.length - 1 := by
          rw [List.length_eraseIdx_of_lt h3]
        have : (b.list.eraseIdx k).take (b.tail - 1) = b.list.eraseIdx k := by
          apply List.take_of_length_le; rw [hlen, ok.1]
        simp only [this, h1, Option.toList_some]
        refine ⟨⟨?_, ?_⟩, eraseIdx_perm _ _ _ h1⟩
        · simp [hlen, ok.1]; omega
        · simp [hlen, ok.2]; omega

/-- The three outcomes of `add`. -/
theorem add_cases {cap : Nat} (hc : 0 < cap) {b : Bkt} (ok : b.ok) (hb : b.list.length ≤ cap) (n : Node) :
    (∃ m, m ∈ b.list ∧ b.add cap n = (b, some m)) ∨
    ((∀ m ∈ b.list, m.id ≠ n.id) ∧ b.list.length < cap
      ∧ b.add cap n = (⟨b.list ++ [n], b.tail + 1, b.count + 1⟩, none)
      ∧ (⟨b.list ++ [n], b.tail + 1, b.count + 1⟩ : Bkt).ok) := by
  unfold Bkt.add
  split
  · rename_i m h; exact .inl ⟨m, (resolve_some h).1, rfl⟩
  · rename_i h
    split
    · rename_i hlt
      right
      refine ⟨resolve_none.mp h, by rw [← ok.2]; exact hlt, ?_, ?_⟩
      · rw [ok.1, List.take_length]
      · exact ⟨by simp [ok.1], by simp [ok.2]⟩
    · rename_i hlt
      left
      unfold Bkt.oldest
      have hpos : 0 < b.list.length := by rw [← ok.2]; omega
      match hl : b.list, hpos with
      | m :: _, _ => exact ⟨m, by simp, by simp⟩

theorem remove_cases {b : Bkt} (ok : b.ok) (id : Id) :
    ((∀ m ∈ b.list, m.id ≠ id) ∧ b.remove id = (b, none)) ∨
    (∃ n b', n ∈ b.list ∧ n.id = id ∧ b.remove id = (b', some n) ∧ b'.ok ∧ (b'.list ++ [n]).Perm b.list) := by
  unfold Bkt.remove
  split
  · rename_i h; exact .inl ⟨index_none.mp h, rfl⟩
  · rename_i k hk
    obtain ⟨n, h1, h2, h3⟩ := index_some hk
    have hlen : (b.list.eraseIdx k).length = b.list.length - 1 := by
      rw [List.length_eraseIdx_of_lt h3]
    refine .inr ⟨n, _, List.mem_of_getElem? h1, h2, by rw [h1], ⟨?_, ?_⟩, eraseIdx_perm _ _ _ h1⟩
    · simp only [ok.1, hlen]; split_ifs <;> omega
    · simp only [ok.2, hlen]

theorem replaceFirst_length (id : Id) (n : Node) (l : List Node) : (replaceFirst id n l).length = l.length := by
  induction l with
  | nil => rfl
  | cons m ms ih => simp only [replaceFirst]; split <;> simp [ih]

theorem replaceFirst_mem (id : Id) (n m : Node) (l : List Node) (h : m ∈ replaceFirst id n l) :
    m = n ∨ m ∈ l := by
  induction l with
  | nil => simp [replaceFirst] at h
  | cons x xs ih =>
    simp only [replaceFirst] at h
    split at h
    · rcases List.mem_cons.mp h with h | h
      · exact .inl h
      · exact .inr (by simp [h])
    · rcases List.mem_cons.mp h with h | h
      · exact .inr (by simp [h])
      · rcases ih h with h | h
        · exact .inl h
        · exact .inr (by simp [h])

/-- Where the node with the identity is known, and alone, it is exchanged. -/
theorem replaceFirst_perm (old n : Node) (l : List Node) (hm : old ∈ l)
    (hu : ∀ m ∈ l, m = old ∨ m.id ≠ old.id) :
    ∃ rest, l.Perm (old :: rest) ∧ (replaceFirst old.id n l).Perm (n :: rest) := by
  induction l with
  | nil => simp at hm
  | cons x xs ih =>
    simp only [replaceFirst]
    by_cases hx : x.id = old.id
    · rw [if_pos hx]
      rcases hu x (by simp) with h | h
      · exact ⟨xs, by rw [h], List.Perm.refl _⟩
      · exact absurd hx h
    · rw [if_neg hx]
      have hne : x ≠ old := fun h => hx (by rw [h])
      obtain ⟨rest, h1, h2⟩ := ih (by rcases List.mem_cons.mp hm with h | h; exact absurd h.symm hne; exact h)
        (fun m hm => hu m (by simp [hm]))
      exact ⟨x :: rest, (h1.cons x).trans (List.Perm.swap _ _ _), (h2.cons x).trans (List.Perm.swap _ _ _)⟩

end Verif.Disc
