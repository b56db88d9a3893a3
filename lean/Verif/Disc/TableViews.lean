import Verif.Disc.TableProps
import Mathlib.Data.List.Perm.Subperm

/-! # The table of nodes: lists and neighbours (C109, C110) -/

namespace Verif.Disc

theorem searchLoop_spec (f : Nat → Bool) (fuel i j : Nat) (hij : i ≤ j) (hf : j - i ≤ fuel)
    (mono : ∀ a b, a ≤ b → b < j → f a = true → f b = true) :
    i ≤ searchLoop f fuel i j ∧ searchLoop f fuel i j ≤ j
      ∧ (∀ x, i ≤ x → x < searchLoop f fuel i j → f x = false)
      ∧ (searchLoop f fuel i j < j → f (searchLoop f fuel i j) = true) := by
  induction fuel generalizing i j with
  | zero => simp only [searchLoop]; exact ⟨by omega, by omega, by omega, by omega⟩
  | succ fuel ih =>
    simp only [searchLoop]
    split
    · rename_i hlt
      split
      · rename_i hm
        obtain ⟨h1, h2, h3, h4⟩ := ih ((i + j) / 2 + 1) j (by omega) (by omega) mono
        refine ⟨by omega, h2, ?_, h4⟩
        intro x hx hlt'
        by_cases hx' : (i + j) / 2 + 1 ≤ x
        · exact h3 x hx' hlt'
        · by_contra hc
          have := mono x ((i + j) / 2) (by omega) (by omega) (by simpa using hc)
          rw [this] at hm; cases hm
      · rename_i hm
        obtain ⟨h1, h2, h3, h4⟩ := ih i ((i + j) / 2) (by omega) (by omega)
          (fun a b hab hb => mono a b hab (by omega))
        refine ⟨h1, by omega, h3, ?_⟩
        intro _
        by_cases he : searchLoop f fuel i ((i + j) / 2) < (i + j) / 2
        · exact h4 he
        · have : searchLoop f fuel i ((i + j) / 2) = (i + j) / 2 := by omega
          rw [this]; simpa using hm
    · exact ⟨by omega, by omega, by omega, by omega⟩

/-- Sorted by the distance from a pivot. -/
def Near (N : Nat) (pivot : Id) (l : List Node) : Prop :=
  l.Pairwise fun a b => distance N pivot a.id ≤ distance N pivot b.id

/-- On a sorted list, the binary search splits it: before the place no node is
further, from it on all are. -/
theorem further_spec (N : Nat) (pivot : Id) (d : Nat) (l : List Node) (h : Near N pivot l) :
    further N pivot d l ≤ l.length
      ∧ (∀ m ∈ l.take (further N pivot d l), distance N pivot m.id ≤ d)
      ∧ (∀ m ∈ l.drop (further N pivot d l), d < distance N pivot m.id) := by
  have hget : ∀ i j (hi : i < l.length) (hj : j < l.length), i ≤ j →
      distance N pivot l[i].id ≤ distance N pivot l[j].id := by
    intro i j hi hj hij
    rcases Nat.eq_or_lt_of_le hij with he | he
    · subst he; exact le_refl _
    · exact List.pairwise_iff_getElem.mp h i j hi hj he
  obtain ⟨_, h2, h3, h4⟩ := searchLoop_spec (fun i => match l[i]? with
    | some m => decide (distance N pivot m.id > d)
    | none => true) l.length 0 l.length (by omega) (by omega) (by
      intro a b hab hb
      have ha : a < l.length := by omega
      simp only [List.getElem?_eq_getElem ha, List.getElem?_eq_getElem hb, decide_eq_true_eq]
      intro hh; have := hget a b ha hb hab; omega)
  change further N pivot d l ≤ l.length at h2
  refine ⟨h2, ?_, ?_⟩
  · intro m hm
    obtain ⟨i, hi, he⟩ := List.mem_iff_getElem.mp hm
    rw [List.length_take] at hi
    have hi' : i < l.length := by omega
    have := h3 i (by omega) (by show i < further N pivot d l; omega)
    simp only [List.getElem?_eq_getElem hi', decide_eq_false_iff_not] at this
    rw [← he, List.getElem_take]; omega
  · intro m hm
    obtain ⟨i, hi, he⟩ := List.mem_iff_getElem.mp hm
    rw [List.length_drop] at hi
    have hlt : further N pivot d l < l.length := by omega
    have := h4 hlt
    change (match l[further N pivot d l]? with
      | some m => decide (distance N pivot m.id > d)
      | none => true) = true at this
    simp only [List.getElem?_eq_getElem hlt, decide_eq_true_eq] at this
    rw [← he, List.getElem_drop]
    have := hget (further N pivot d l) (further N pivot d l + i) hlt (by omega) (by omega)
    omega

/-- The two cases of `push`, with the list split where the node belongs. -/
theorem push_split (N cap : Nat) (pivot : Id) (l : List Node) (n : Node) (h : Near N pivot l) :
    ∃ a b, l = a ++ b
      ∧ (∀ m ∈ a, distance N pivot m.id ≤ distance N pivot n.id)
      ∧ (∀ m ∈ b, distance N pivot n.id < distance N pivot m.id)
      ∧ push N cap pivot l n =
        if cap ≤ l.length then (if b = [] then l else a ++ n :: b.tail) else a ++ n :: b := by
  obtain ⟨h1, h2, h3⟩ := further_spec N pivot (distance N pivot n.id) l h
  refine ⟨l.take (further N pivot (distance N pivot n.id) l),
    l.drop (further N pivot (distance N pivot n.id) l), (List.take_append_drop _ _).symm, h2, h3, ?_⟩
  unfold push
  dsimp only
  split
  · by_cases hf : further N pivot (distance N pivot n.id) l < l.length
    · rw [if_pos hf, if_neg (by rw [List.drop_eq_nil_iff]; omega), List.set_eq_take_append_cons_drop,
        if_pos hf, List.tail_drop]
    · rw [if_neg hf, if_pos (by rw [List.drop_eq_nil_iff]; omega)]
  · rfl

theorem near_insert {N : Nat} {pivot : Id} {a b : List Node} {n : Node} (h : Near N pivot (a ++ b))
    (ha : ∀ m ∈ a, distance N pivot m.id ≤ distance N pivot n.id)
    (hb : ∀ m ∈ b, distance N pivot n.id < distance N pivot m.id) :
    Near N pivot (a ++ n :: b) ∧ Near N pivot (a ++ n :: b.tail) := by
  unfold Near at *
  rw [List.pairwise_append] at h
  have go : ∀ b', b'.Sublist b → List.Pairwise (fun a b => distance N pivot a.id ≤ distance N pivot b.id) (a ++ n :: b') := by
    intro b' hs
    rw [List.pairwise_append, List.pairwise_cons]
    refine ⟨h.1, ⟨fun m hm => Nat.le_of_lt (hb m (hs.subset hm)), h.2.1.sublist hs⟩, ?_⟩
    intro x hx y hy
    rcases List.mem_cons.mp hy with hy | hy
    · rw [hy]; exact ha x hx
    · exact h.2.2 x hx y (hs.subset hy)
  exact ⟨go b (List.Sublist.refl _), go b.tail (List.tail_sublist _)⟩

/-- What holds after the nodes `seen` were pushed. -/
structure Picked (N cap : Nat) (pivot : Id) (seen l : List Node) : Prop where
  near : Near N pivot l
  len : l.length = min cap seen.length
  sub : l.Subperm seen
  head : 0 < cap → ∀ m ∈ seen, ∃ x ∈ l.head?, distance N pivot x.id ≤ distance N pivot m.id

theorem Picked_push {N cap : Nat} {pivot : Id} {seen l : List Node} (h : Picked N cap pivot seen l)
    (n : Node) : Picked N cap pivot (seen ++ [n]) (push N cap pivot l n) := by
  obtain ⟨a, b, hl, ha, hb, hp⟩ := push_split N cap pivot l n h.near
  have hnear := h.near
  rw [hl] at hnear
  obtain ⟨n1, n2⟩ := near_insert hnear ha hb
  have hlen := h.len
  have hins : (a ++ n :: b).Subperm (seen ++ [n]) := by
    have h1 : (a ++ n :: b).Perm (n :: (a ++ b)) := List.perm_middle
    have h2 : (n :: seen).Perm (seen ++ [n]) := (List.perm_append_comm (l₁ := [n]) (l₂ := seen))
    have h3 := h.sub
    rw [hl] at h3
    exact (h1.subperm).trans (((List.subperm_cons n).mpr h3).trans h2.subperm)
  have hhead : ∀ b', 0 < cap → ∀ m ∈ seen ++ [n],
      ∃ x ∈ (a ++ n :: b').head?, distance N pivot x.id ≤ distance N pivot m.id := by
    intro b' hc m hm
    cases a with
    | nil =>
      refine ⟨n, by simp, ?_⟩
      rcases List.mem_append.mp hm with hm | hm
      · obtain ⟨x, hx, hd⟩ := h.head hc m hm
        rw [hl] at hx
        have hxb : x ∈ b := List.mem_of_mem_head? (by simpa using hx)
        have := hb x hxb; omega
      · simp at hm; subst hm; exact le_refl _
    | cons y ys =>
      refine ⟨y, by simp, ?_⟩
      rcases List.mem_append.mp hm with hm | hm
      · obtain ⟨x, hx, hd⟩ := h.head hc m hm
        rw [hl] at hx
        simp at hx; subst hx; exact hd
      · simp at hm; subst hm; exact ha y (by simp)
  rw [hp]
  split
  · rename_i hfull
    split
    · rename_i hbn
      refine ⟨h.near, by rw [List.length_append]; simp; omega, h.sub.trans (List.sublist_append_left _ _).subperm, ?_⟩
      intro hc m hm
      rcases List.mem_append.mp hm with hm | hm
      · exact h.head hc m hm
      · simp at hm; subst hm
        have hne : l ≠ [] := by intro hh; rw [hh] at hfull; simp at hfull; omega
        obtain ⟨x, hx⟩ : ∃ x, x ∈ l.head? := by
          cases l with
          | nil => exact absurd rfl hne
          | cons x xs => exact ⟨x, by simp⟩
        refine ⟨x, hx, ha x ?_⟩
        rw [hl, hbn, List.append_nil] at hx
        exact List.mem_of_mem_head? hx
    · rename_i hbn
      refine ⟨n2, ?_, (List.Sublist.append (List.Sublist.refl a) ((List.tail_sublist b).cons_cons n)).subperm.trans hins,
        hhead b.tail⟩
      have hb0 : 0 < b.length := by cases b with | nil => exact absurd rfl hbn | cons _ _ => simp
      have h5 : l.length = a.length + b.length := by rw [hl]; simp
      simp only [List.length_append, List.length_cons, List.length_tail, List.length_nil]
      omega
  · rename_i hfull
    refine ⟨n1, ?_, hins, hhead b⟩
    have h5 : l.length = a.length + b.length := by rw [hl]; simp
    simp only [List.length_append, List.length_cons, List.length_nil]
    omega

theorem Picked_foldl {N cap : Nat} {pivot : Id} (ns : List Node) {seen l : List Node}
    (h : Picked N cap pivot seen l) : Picked N cap pivot (seen ++ ns) (ns.foldl (push N cap pivot) l) := by
  induction ns generalizing seen l with
  | nil => simpa using h
  | cons n ns ih =>
    have := ih (Picked_push h n)
    simpa using this

/-- **C110 (neighbours), without the claim that they are the closest.** The
answer to a request for nodes near a target is sorted by distance, has as many
nodes as were asked for, or all but the target itself, lists no node more often
than the table has it, and begins with one that no node of the table is closer
than. -/
theorem neighbors_partial (c : Cfg) (t : Tab) (target : Id) (count : Nat) :
    let ns := t.findNeighbors c target count
    let others := (t.all c).filter fun n => n.id ≠ target
    Near c.N target ns ∧ ns.length = min count others.length ∧ ns.Subperm others
      ∧ (0 < count → ∀ m ∈ others, ∃ x ∈ ns.head?, distance c.N target x.id ≤ distance c.N target m.id) := by
  have h0 : Picked c.N count target [] [] :=
    ⟨List.Pairwise.nil, by simp, List.Subperm.refl _, by simp⟩
  have := Picked_foldl ((t.all c).filter fun n => n.id ≠ target) h0
  simp only [List.nil_append] at this
  exact ⟨this.near, this.len, this.sub, this.head⟩

/-- **C110 (few nodes).** If the table has no more nodes than were asked for,
the answer has them all. -/
theorem neighbors_all (c : Cfg) (t : Tab) (target : Id) (count : Nat)
    (h : ((t.all c).filter fun n => n.id ≠ target).length ≤ count) :
    (t.findNeighbors c target count).Perm ((t.all c).filter fun n => n.id ≠ target) := by
  obtain ⟨_, h2, h3, _⟩ := neighbors_partial c t target count
  exact h3.perm_of_length_le (by rw [h2]; omega)

/-! ## `nodes` -/

theorem nodes_length {b : Bkt} (ok : b.count = b.list.length) (count : Nat) (h : 0 < count) :
    (b.nodes count).length = min count b.list.length := by
  unfold Bkt.nodes
  rw [List.length_drop, ok]; split <;> omega

theorem gather_length (t : Tab) (is : List Nat) (count : Nat) (hpos : 0 < count)
    (ok : ∀ i, (t.bkts i).count = (t.bkts i).list.length) :
    (gather t is count).length = min count ((is.flatMap fun i => (t.bkts i).list).length) := by
  induction is generalizing count with
  | nil => simp [gather]
  | cons i is ih =>
    have hl := nodes_length (ok i) count hpos
    simp only [gather, List.length_append, List.flatMap_cons]
    split
    · simp; omega
    · rw [ih _ (by omega)]; omega

theorem gather_sub (t : Tab) (is : List Nat) (count : Nat) :
    (gather t is count).Sublist (is.flatMap fun i => (t.bkts i).list) := by
  induction is generalizing count with
  | nil => simp [gather]
  | cons i is ih =>
    simp only [gather, List.flatMap_cons]
    apply List.Sublist.append (List.drop_sublist _ _)
    split
    · exact List.nil_sublist _
    · exact ih _

/-- **C109 (lists of nodes).** In whatever order the buckets are gone through:
`nodes` gives as many nodes as were asked for, or all (all for 0), and none
more often than the table has it. -/
theorem nodes_exact (c : Cfg) (t : Tab) (h : Placed c t) (hc : 0 < c.cap) (hn : 0 < c.num)
    (perm : List Nat) (hp : perm.Perm (List.range c.num)) (count : Nat) :
    (t.nodes c perm count).Subperm (t.all c)
      ∧ (0 < count → (t.nodes c perm count).length = min count (t.all c).length)
      ∧ (count = 0 → (t.nodes c perm count).Perm (t.all c)) := by
  have hall : (perm.flatMap fun i => (t.bkts i).list).Perm (t.all c) := hp.flatMap_right _
  have hsub : (t.nodes c perm count).Subperm (t.all c) := (gather_sub t perm _).subperm.trans hall.subperm
  refine ⟨hsub, ?_, ?_⟩
  · intro hpos
    unfold Tab.nodes
    rw [if_neg (by omega), gather_length t perm count hpos h.counter, hall.length_eq]
  · intro h0
    apply hsub.perm_of_length_le
    have hpos : 0 < c.num * c.cap := Nat.mul_pos hn hc
    have hle : (t.all c).length ≤ c.num * c.cap := by
      unfold Tab.all
      rw [List.length_flatMap]
      have : ∀ k, ((List.range k).map fun i => (t.bkts i).list.length).sum ≤ k * c.cap := by
        intro k
        induction k with
        | zero => simp
        | succ k ih =>
          rw [List.range_succ, List.map_append, List.sum_append, Nat.succ_mul]
          have := h.bound k
          simp; omega
      exact this c.num
    unfold Tab.nodes
    rw [if_pos h0, gather_length t perm _ hpos h.counter, hall.length_eq]
    omega

/-- **C109 (the sub-tree to look in).** The distance given is 0 exactly if
every bucket is at least half full, and else that of a bucket that is not. -/
theorem subTree_spec (c : Cfg) (t : Tab) (h : Placed c t) (perm : List Nat)
    (hp : perm.Perm (List.range c.num)) :
    (t.subTreeToFind c perm = 0 ↔ ∀ i < c.num, c.cap / 2 ≤ (t.bkts i).list.length)
      ∧ (t.subTreeToFind c perm ≠ 0 → ∃ i < c.num, (t.bkts i).list.length < c.cap / 2
        ∧ t.subTreeToFind c perm = i + c.minDistance) := by
  unfold Tab.subTreeToFind
  cases hf : perm.find? fun i => decide ((t.bkts i).count < c.cap / 2) with
  | none =>
    refine ⟨⟨fun _ i hi => ?_, fun _ => rfl⟩, fun hh => absurd rfl hh⟩
    have := List.find?_eq_none.mp hf i (hp.mem_iff.mpr (List.mem_range.mpr hi))
    rw [h.counter] at this; simpa using this
  | some i =>
    have hi := List.mem_range.mp (hp.mem_iff.mp (List.mem_of_find?_eq_some hf))
    have hlt := List.find?_some hf
    simp only [decide_eq_true_eq] at hlt
    rw [h.counter] at hlt
    refine ⟨⟨fun hh => ?_, fun hh => ?_⟩, fun _ => ⟨i, hi, hlt, rfl⟩⟩
    · simp [Cfg.minDistance] at hh
    · have := hh i hi; omega

end Verif.Disc
