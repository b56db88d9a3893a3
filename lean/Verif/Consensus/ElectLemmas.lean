import Verif.Consensus.ElectModel
import Mathlib.Data.List.Perm.Subperm
import Mathlib.Data.List.Nodup

namespace Verif.Consensus
open Verif.Bytes

/-! ### The order of byte strings -/

theorem bcmp_swap (a b : Bytes) : bcmp a b = (bcmp b a).swap := by
  induction a generalizing b with
  | nil => cases b <;> rfl
  | cons x a ih =>
    cases b with
    | nil => rfl
    | cons y b =>
      simp only [bcmp]
      by_cases h1 : x.toNat < y.toNat
      · simp [h1, show ¬ y.toNat < x.toNat by omega]
      · by_cases h2 : y.toNat < x.toNat
        · simp [h1, h2]
        · simp [h1, h2, ih b]

theorem eq_of_bcmp {a b : Bytes} (h : bcmp a b = .eq) : a = b := by
  induction a generalizing b with
  | nil => cases b with
    | nil => rfl
    | cons => simp [bcmp] at h
  | cons x a ih =>
    cases b with
    | nil => simp [bcmp] at h
    | cons y b =>
      simp only [bcmp] at h
      split at h
      · exact absurd h (by simp)
      · split at h
        · exact absurd h (by simp)
        · rw [ih h, UInt8.toNat_inj.1 (by omega : x.toNat = y.toNat)]

theorem bcmp_self (a : Bytes) : bcmp a a = .eq := by
  induction a with
  | nil => rfl
  | cons x a ih => simp [bcmp, ih]

theorem bcmp_trans {a b c : Bytes} (h1 : bcmp a b ≠ .gt) (h2 : bcmp b c ≠ .gt) : bcmp a c ≠ .gt := by
  induction a generalizing b c with
  | nil => cases c <;> simp [bcmp]
  | cons x a ih =>
    cases b with
    | nil => exact absurd rfl h1
    | cons y b =>
      cases c with
      | nil => exact absurd rfl h2
      | cons z c =>
        simp only [bcmp] at h1 h2 ⊢
        split at h1
        · split at h2
          · rw [if_pos (by omega)]; simp
          · split at h2
            · exact absurd rfl h2
            · rw [if_pos (by omega)]; simp
        · split at h1
          · exact absurd rfl h1
          · split at h2
            · rw [if_pos (by omega)]; simp
            · split at h2
              · exact absurd rfl h2
              · rw [if_neg (by omega), if_neg (by omega)]; exact ih h1 h2

/-! ### Sorting -/

theorem Vote.le_total (a b : Vote) : (a.le b || b.le a) = true := by
  unfold Vote.le
  rcases Nat.lt_trichotomy a.balance b.balance with h | h | h
  · rw [if_neg (by omega), if_neg (by omega)]; simp [h]
  · rw [if_pos h, if_pos h.symm, bcmp_swap a.name b.name]
    cases bcmp b.name a.name <;> simp
  · rw [if_neg (by omega), if_neg (by omega)]; simp [h]

theorem Vote.le_trans (a b c : Vote) (h1 : a.le b = true) (h2 : b.le c = true) : a.le c = true := by
  unfold Vote.le at *
  by_cases e1 : a.balance = b.balance
  · rw [if_pos e1] at h1
    by_cases e2 : b.balance = c.balance
    · rw [if_pos e2] at h2
      rw [if_pos (e1.trans e2)]
      exact decide_eq_true (bcmp_trans (of_decide_eq_true h1) (of_decide_eq_true h2))
    · rw [if_neg e2] at h2
      rw [if_neg (by omega)]
      exact decide_eq_true (by have := of_decide_eq_true h2; omega)
  · rw [if_neg e1] at h1
    have h1 := of_decide_eq_true h1
    by_cases e2 : b.balance = c.balance
    · rw [if_neg (by omega)]; exact decide_eq_true (by omega)
    · rw [if_neg e2] at h2
      have h2 := of_decide_eq_true h2
      rw [if_neg (by omega)]; exact decide_eq_true (by omega)

theorem Vote.le_antisymm {a b : Vote} (h1 : a.le b = true) (h2 : b.le a = true) : a.name = b.name := by
  unfold Vote.le at *
  by_cases e : a.balance = b.balance
  · rw [if_pos e] at h1
    rw [if_pos e.symm] at h2
    have h1 := of_decide_eq_true h1
    have h2 := of_decide_eq_true h2
    rw [bcmp_swap] at h2
    apply eq_of_bcmp
    cases h : bcmp a.name b.name <;> simp_all
  · rw [if_neg e] at h1
    rw [if_neg (Ne.symm e)] at h2
    have h1 := of_decide_eq_true h1
    have h2 := of_decide_eq_true h2
    omega

theorem ratedLe_total (a b : Rated) : (ratedLe a b || ratedLe b a) = true := by
  unfold ratedLe
  rcases Int.lt_trichotomy a.2 b.2 with h | h | h
  · rw [if_neg (by omega), if_neg (by omega)]; simp [h]
  · rw [if_pos h, if_pos h.symm]; exact Vote.le_total _ _
  · rw [if_neg (by omega), if_neg (by omega)]; simp [h]

theorem ratedLe_trans (a b c : Rated) (h1 : ratedLe a b = true) (h2 : ratedLe b c = true) : ratedLe a c = true := by
  unfold ratedLe at *
  by_cases e1 : a.2 = b.2
  · rw [if_pos e1] at h1
    by_cases e2 : b.2 = c.2
    · rw [if_pos e2] at h2
      rw [if_pos (e1.trans e2)]
      exact Vote.le_trans _ _ _ h1 h2
    · rw [if_neg e2] at h2
      rw [if_neg (by omega)]
      exact decide_eq_true (by have := of_decide_eq_true h2; omega)
  · rw [if_neg e1] at h1
    have h1 := of_decide_eq_true h1
    by_cases e2 : b.2 = c.2
    · rw [if_neg (by omega)]; exact decide_eq_true (by omega)
    · rw [if_neg e2] at h2
      have h2 := of_decide_eq_true h2
      rw [if_neg (by omega)]; exact decide_eq_true (by omega)

theorem ratedLe_antisymm {a b : Rated} (h1 : ratedLe a b = true) (h2 : ratedLe b a = true) : a.1.name = b.1.name := by
  unfold ratedLe at *
  by_cases e : a.2 = b.2
  · rw [if_pos e] at h1
    rw [if_pos e.symm] at h2
    exact Vote.le_antisymm h1 h2
  · rw [if_neg e] at h1
    rw [if_neg (Ne.symm e)] at h2
    have h1 := of_decide_eq_true h1
    have h2 := of_decide_eq_true h2
    omega

theorem insertBy_perm {α : Type} (le : α → α → Bool) (x : α) (l : List α) : (insertBy le x l).Perm (x :: l) := by
  induction l with
  | nil => exact List.Perm.refl _
  | cons y l ih =>
    unfold insertBy
    split
    · exact List.Perm.refl _
    · exact (ih.cons y).trans (List.Perm.swap _ _ _)

theorem sortBy_perm {α : Type} (le : α → α → Bool) (l : List α) : (sortBy le l).Perm l := by
  induction l with
  | nil => exact List.Perm.refl _
  | cons x l ih => exact (insertBy_perm le x _).trans (ih.cons x)

theorem insertBy_sorted {α : Type} {le : α → α → Bool} (tr : ∀ a b c, le a b = true → le b c = true → le a c = true)
    (tot : ∀ a b, (le a b || le b a) = true) (x : α) {l : List α} (h : l.Pairwise (fun a b => le a b = true)) :
    (insertBy le x l).Pairwise (fun a b => le a b = true) := by
  induction l with
  | nil => simp [insertBy]
  | cons y l ih =>
    rw [List.pairwise_cons] at h
    unfold insertBy
    split
    · rename_i hxy
      refine List.pairwise_cons.2 ⟨?_, List.pairwise_cons.2 h⟩
      intro z hz
      rcases List.mem_cons.1 hz with rfl | hz
      · exact hxy
      · exact tr _ _ _ hxy (h.1 z hz)
    · rename_i hxy
      refine List.pairwise_cons.2 ⟨?_, ih h.2⟩
      intro z hz
      rcases List.mem_cons.1 ((insertBy_perm le x l).mem_iff.1 hz) with rfl | hz
      · have := tot z y
        simpa [hxy] using this
      · exact h.1 z hz

theorem sortBy_sorted {α : Type} {le : α → α → Bool} (tr : ∀ a b c, le a b = true → le b c = true → le a c = true)
    (tot : ∀ a b, (le a b || le b a) = true) (l : List α) : (sortBy le l).Pairwise (fun a b => le a b = true) := by
  induction l with
  | nil => exact List.Pairwise.nil
  | cons x l ih => exact insertBy_sorted tr tot x ih

theorem sortVotes_perm (l : List Vote) : (sortVotes l).Perm l := sortBy_perm _ l

theorem sortVotes_length (l : List Vote) : (sortVotes l).length = l.length := (sortVotes_perm l).length_eq

theorem sortVotes_sorted (l : List Vote) : (sortVotes l).Pairwise (fun a b => a.le b = true) :=
  sortBy_sorted Vote.le_trans Vote.le_total l

/-- No two candidates have the same name. -/
abbrev Named (l : List Vote) : Prop := (l.map (·.name)).Nodup

theorem Named.inj {l : List Vote} (h : Named l) {a b : Vote} (ha : a ∈ l) (hb : b ∈ l) (e : a.name = b.name) : a = b :=
  List.inj_on_of_nodup_map h ha hb e

theorem Named.perm {l m : List Vote} (h : Named l) (p : l.Perm m) : Named m := (p.map _).nodup h

theorem Named.nodup {l : List Vote} (h : Named l) : l.Nodup := List.Nodup.of_map _ h

/-- Whatever sort is used: a sorted arrangement of candidates with different names is the one computed here. -/
theorem sort_unique {l m : List Vote} (hn : Named l) (hp : m.Perm l) (hs : m.Pairwise (fun a b => a.le b = true)) : m = sortVotes l := by
  refine List.Perm.eq_of_pairwise ?_ hs (sortVotes_sorted l) (hp.trans (sortVotes_perm l).symm)
  intro a b ha hb h1 h2
  exact hn.inj (hp.mem_iff.1 ha) ((sortVotes_perm l).mem_iff.1 hb) (Vote.le_antisymm h1 h2)

theorem sortVotes_congr {l m : List Vote} (hn : Named m) (hp : l.Perm m) : sortVotes l = sortVotes m :=
  sort_unique hn ((sortVotes_perm l).trans hp) (sortVotes_sorted l)

/-- The same for the order by success rate. -/
theorem rated_congr {rates : Table Addr Int} {l m : List Vote} (hn : Named m) (hp : l.Perm m) : rated rates l = rated rates m := by
  unfold rated
  refine List.Perm.eq_of_pairwise ?_ (sortBy_sorted ratedLe_trans ratedLe_total _) (sortBy_sorted ratedLe_trans ratedLe_total _)
    ((sortBy_perm _ _).trans ((hp.map _).trans (sortBy_perm _ _).symm))
  intro a b ha hb h1 h2
  rw [(sortBy_perm _ _).mem_iff, List.mem_map] at ha hb
  obtain ⟨x, hx, rfl⟩ := ha
  obtain ⟨y, hy, rfl⟩ := hb
  have := hn.inj (hp.mem_iff.1 hx) hy (ratedLe_antisymm h1 h2)
  rw [this]

theorem rated_map (rates : Table Addr Int) (l : List Vote) : ((rated rates l).map (·.1)).Perm l := by
  unfold rated
  refine ((sortBy_perm _ _).map _).trans ?_
  rw [List.map_map]
  have : ((fun x : Rated => x.1) ∘ fun v : Vote => (v, (Table.get v.addr rates).getD (-1))) = id := rfl
  rw [this, List.map_id]

theorem rated_length (rates : Table Addr Int) (l : List Vote) : (rated rates l).length = l.length := by
  have := (rated_map rates l).length_eq
  rwa [List.length_map] at this

/-! ### Permutations -/

theorem permStep_perm {m : List Nat} {n j : Nat} (hm : m.Perm (List.range n)) (hj : j ≤ n) : (permStep m j).Perm (List.range (n + 1)) := by
  have hl : m.length = n := by rw [hm.length_eq, List.length_range]
  rw [List.range_succ]
  unfold permStep
  cases hg : m[j]? with
  | none => rw [hl]; exact hm.append_right _
  | some x =>
    obtain ⟨hlt, rfl⟩ := List.getElem?_eq_some_iff.1 hg
    change (m.set j m.length ++ [m[j]]).Perm _
    have hs : m.set j m.length = m.take j ++ m.length :: m.drop (j + 1) := List.set_eq_take_append_cons_drop.trans (if_pos hlt)
    have hd : m = m.take j ++ m[j] :: m.drop (j + 1) := by
      rw [List.cons_getElem_drop_succ, List.take_append_drop]
    have h1 : (m.set j m.length ++ [m[j]]).Perm (m ++ [m.length]) := by
      rw [hs]
      conv_rhs => rw [hd]
      rw [List.append_assoc, List.append_assoc]
      refine List.Perm.append_left _ ?_
      have e1 : ((m.length :: m.drop (j + 1)) ++ [m[j]]).Perm (m[j] :: m.length :: m.drop (j + 1)) := List.perm_append_singleton _ _
      have e2 : ((m[j] :: m.drop (j + 1)) ++ [(m.take j ++ m[j] :: m.drop (j + 1)).length]).Perm (m.length :: m[j] :: m.drop (j + 1)) := by
        rw [← hd]; exact List.perm_append_singleton _ _
      exact e1.trans ((List.Perm.swap _ _ _).trans e2.symm)
    rw [hl] at h1
    rw [hl]
    exact h1.trans (hm.append_right _)

/-- `rand.Perm(n)` gives each of `0, ..., n - 1` once, whatever numbers the generator draws. -/
theorem perm_perm (r : Rand) (seed : Int) (n : Nat) : (perm r seed n).Perm (List.range n) := by
  induction n with
  | zero => exact List.Perm.refl _
  | succ n ih => exact permStep_perm ih (Nat.lt_succ_iff.1 (Nat.mod_lt _ (Nat.succ_pos n)))

theorem perm_length (r : Rand) (seed : Int) (n : Nat) : (perm r seed n).length = n := by
  rw [(perm_perm r seed n).length_eq, List.length_range]

theorem perm_lt {r : Rand} {seed : Int} {n i : Nat} (h : i ∈ perm r seed n) : i < n :=
  List.mem_range.1 ((perm_perm r seed n).mem_iff.1 h)

theorem pick_range (l : List Vote) : pick l (List.range l.length) = l := by
  unfold pick
  induction l using List.reverseRecOn with
  | nil => rfl
  | append_singleton l x ih =>
    rw [List.length_append, List.length_singleton, List.range_succ, List.filterMap_append]
    have h1 : (List.range l.length).filterMap (fun i => (l ++ [x])[i]?) = (List.range l.length).filterMap (fun i => l[i]?) := by
      apply List.filterMap_congr
      intro i hi
      rw [List.getElem?_append_left (List.mem_range.1 hi)]
    rw [h1, ih]
    simp

theorem pick_perm (r : Rand) (seed : Int) (l : List Vote) : (pick l (perm r seed l.length)).Perm l := by
  have := (perm_perm r seed l.length).filterMap (fun i => l[i]?)
  rw [show List.filterMap (fun i => l[i]?) (List.range l.length) = l from pick_range l] at this
  exact this

theorem pick_take_subperm (r : Rand) (seed : Int) (l : List Vote) (k : Nat) : (pick l ((perm r seed l.length).take k)).Subperm l := by
  have h : (pick l ((perm r seed l.length).take k)).Sublist (pick l (perm r seed l.length)) :=
    (List.take_sublist _ _).filterMap _
  exact h.subperm.trans (pick_perm r seed l).subperm

theorem pick_length {l : List Vote} {is : List Nat} (h : ∀ i ∈ is, i < l.length) : (pick l is).length = is.length := by
  induction is with
  | nil => rfl
  | cons i is ih =>
    have hi := h i (by simp)
    unfold pick at *
    rw [List.filterMap_cons, List.getElem?_eq_getElem hi]
    simp [ih (fun j hj => h j (by simp [hj]))]

theorem pick_take_length (r : Rand) (seed : Int) (l : List Vote) {k : Nat} (hk : k ≤ l.length) :
    (pick l ((perm r seed l.length).take k)).length = k := by
  rw [pick_length, List.length_take, perm_length]
  · omega
  · intro i hi; exact perm_lt (List.mem_of_mem_take hi)

end Verif.Consensus
