import Verif.Tab.IterModel

/-! # An iterator over iterators is a cursor over all entries -/

namespace Verif.Tab
open Verif.Bytes Verif.Store

variable {O : Type} [LinearOrder O] {Ix D : Type}

def Place.isOn : Place → Bool
  | .on _ => true
  | _ => false

/-- The number of entries in the blocks before. -/
def pre (Ls : List (List (Bytes × Bytes))) (j : Nat) : Nat := (Ls.take j).flatten.length

/-- The first entry from block `c` on. -/
def nextFrom (Ls : List (List (Bytes × Bytes))) (c : Nat) : Place := if (Ls.drop c).flatten = [] then .past else .on (pre Ls c)

/-- The last entry before block `c`. -/
def prevTo (Ls : List (List (Bytes × Bytes))) (c : Nat) : Place := if (Ls.take c).flatten = [] then .before else .on (pre Ls c - 1)

/-- What is asked of the iterators below. -/
structure Sys (v : GEnv O Ix D) (X : List (Bytes × Bytes)) (Ls : List (List (Bytes × Bytes))) (IAt : Ix → Place → Prop)
    (DAt : D → List (Bytes × Bytes) → Place → Prop) : Prop where
  len : Ls.length = X.length
  fuel : X.length ≤ v.fuel
  idx : ∀ i c a, IAt i c → IAt (v.idx.ask i a).1 (goes v.ord X c a) ∧
    (v.idx.ask i a).2 = (goes v.ord X c a).isOn ∧ v.idx.bad (v.idx.ask i a).1 = false
  dat : ∀ d l p a, DAt d l p → DAt (v.dat.ask d a).1 l (goes v.ord l p a) ∧
    (v.dat.ask d a).2 = (goes v.ord l p a).isOn ∧ v.dat.bad (v.dat.ask d a).1 = false
  shows : ∀ d l p, DAt d l p → v.dat.shows d = (sees l p).2.2
  get : ∀ i j, IAt i (.on j) → DAt (v.get i) (Ls.getD j []) .before
  valid : ∀ i j, IAt i (.on j) → j < X.length
  validD : ∀ d l q, DAt d l (.on q) → q < l.length
  low : ∀ k j, (∀ x ∈ X.take j, v.ord x.1 < v.ord k) → ∀ e ∈ (Ls.take j).flatten, v.ord e.1 < v.ord k
  high : ∀ k j (hj : j < X.length), v.ord k ≤ v.ord X[j].1 → ∀ e ∈ (Ls.drop (j + 1)).flatten, v.ord k ≤ v.ord e.1

/-- Where the iterator stands. -/
def At2 (Ls : List (List (Bytes × Bytes))) (IAt : Ix → Place → Prop) (DAt : D → List (Bytes × Bytes) → Place → Prop) (s : GI Ix D) (p : Place) : Prop :=
  s.err = false ∧
  ((s.data = none ∧ IAt s.index .before ∧ p = .before) ∨ (s.data = none ∧ IAt s.index .past ∧ p = .past) ∨
   ∃ j d q, s.data = some d ∧ IAt s.index (.on j) ∧ DAt d (Ls.getD j []) (.on q) ∧ p = .on (pre Ls j + q))

variable {v : GEnv O Ix D} {X : List (Bytes × Bytes)} {Ls : List (List (Bytes × Bytes))} {IAt : Ix → Place → Prop}
  {DAt : D → List (Bytes × Bytes) → Place → Prop}

theorem drop_flatten {c : Nat} (h : c < Ls.length) : (Ls.drop c).flatten = Ls.getD c [] ++ (Ls.drop (c + 1)).flatten := by
  rw [List.drop_eq_getElem_cons h, List.flatten_cons, List.getD_eq_getElem?_getD, List.getElem?_eq_getElem h]; rfl

theorem take_flatten {c : Nat} (h : c < Ls.length) : (Ls.take (c + 1)).flatten = (Ls.take c).flatten ++ Ls.getD c [] := by
  rw [List.take_succ_eq_append_getElem h, List.flatten_append, List.flatten_singleton, List.getD_eq_getElem?_getD, List.getElem?_eq_getElem h]; rfl

theorem pre_succ {c : Nat} (h : c < Ls.length) : pre Ls (c + 1) = pre Ls c + (Ls.getD c []).length := by
  unfold pre; rw [take_flatten h, List.length_append]

theorem all_split (c : Nat) : Ls.flatten = (Ls.take c).flatten ++ (Ls.drop c).flatten := by
  rw [← List.flatten_append, List.take_append_drop]

theorem total (c : Nat) : Ls.flatten.length = pre Ls c + (Ls.drop c).flatten.length := by
  conv_lhs => rw [all_split c]
  rw [List.length_append]; rfl

theorem nextFrom_eq (c : Nat) : nextFrom Ls c = if pre Ls c < Ls.flatten.length then .on (pre Ls c) else .past := by
  unfold nextFrom
  rw [total c]
  by_cases h : (Ls.drop c).flatten = []
  · rw [if_pos h, h, if_neg (by simp)]
  · rw [if_neg h, if_pos (by have := List.length_pos_iff.2 h; omega)]

theorem prevTo_eq (c : Nat) : prevTo Ls c = if 0 < pre Ls c then .on (pre Ls c - 1) else .before := by
  unfold prevTo
  by_cases h : (Ls.take c).flatten = []
  · rw [if_pos h, if_neg (by unfold pre; rw [h]; simp)]
  · rw [if_neg h, if_pos (by unfold pre; exact List.length_pos_iff.2 h)]

theorem nextGo_spec (y : Sys v X Ls IAt DAt) : ∀ (f : Nat) (i : Ix) (pl : Place) (c : Nat), IAt i pl →
    ((pl = .before ∧ c = 0) ∨ (∃ j, pl = .on j ∧ c = j + 1) ∨ (pl = .past ∧ c = X.length)) → X.length - c < f →
    At2 Ls IAt DAt (v.nextGo f i).1 (nextFrom Ls c) ∧ (v.nextGo f i).2 = (nextFrom Ls c).isOn := by
  intro f
  induction f with
  | zero => intro i pl c _ _ h; omega
  | succ f ih =>
    intro i pl c hi hpl hf
    obtain ⟨a1, a2, a3⟩ := y.idx i pl .next hi
    have hg : goes v.ord X pl .next = if c < X.length then .on c else .past := by
      rcases hpl with ⟨rfl, rfl⟩ | ⟨j, rfl, rfl⟩ | ⟨rfl, rfl⟩
      · show (if X = [] then Place.past else .on 0) = _
        by_cases hx : X = []
        · rw [if_pos hx, if_neg (by rw [hx]; simp)]
        · rw [if_neg hx, if_pos (List.length_pos_iff.2 hx)]
      · rfl
      · show Place.past = _
        rw [if_neg (by omega)]
    rw [hg] at a1 a2
    unfold GEnv.nextGo
    dsimp only
    by_cases hc : c < X.length
    · rw [if_pos hc] at a1 a2
      have hcL : c < Ls.length := by rw [y.len]; exact hc
      rw [if_neg (by rw [a2]; simp [Place.isOn])]
      obtain ⟨b1, b2, b3⟩ := y.dat _ _ _ .next (y.get _ _ a1)
      have hgd : goes v.ord (Ls.getD c []) .before .next = if Ls.getD c [] = [] then .past else .on 0 := rfl
      rw [hgd] at b1 b2
      by_cases he : Ls.getD c [] = []
      · rw [if_pos he] at b1 b2
        rw [if_neg (by rw [b2]; simp [Place.isOn]), if_neg (by unfold GEnv.dataErr; rw [b3]; simp)]
        have hn : nextFrom Ls c = nextFrom Ls (c + 1) := by
          unfold nextFrom
          rw [drop_flatten hcL, he, List.nil_append, pre_succ hcL, he]; rfl
        rw [hn]
        exact ih _ (.on c) (c + 1) a1 (Or.inr (Or.inl ⟨c, rfl, rfl⟩)) (by omega)
      · rw [if_neg he] at b1 b2
        rw [if_pos (by rw [b2]; rfl)]
        have hn : nextFrom Ls c = .on (pre Ls c + 0) := by
          unfold nextFrom
          rw [if_neg (by rw [drop_flatten hcL]; intro h; exact he (List.append_eq_nil_iff.1 h).1), Nat.add_zero]
        rw [hn]
        exact ⟨⟨rfl, Or.inr (Or.inr ⟨c, _, 0, rfl, a1, b1, rfl⟩)⟩, rfl⟩
    · rw [if_neg hc] at a1 a2
      rw [if_pos (by rw [a2]; rfl)]
      have hn : nextFrom Ls c = .past := by
        unfold nextFrom
        rw [List.drop_eq_nil_of_le (by rw [y.len]; omega)]; rfl
      rw [hn]
      exact ⟨⟨a3, Or.inr (Or.inl ⟨rfl, a1, rfl⟩)⟩, rfl⟩

theorem prevGo_spec (y : Sys v X Ls IAt DAt) : ∀ (f : Nat) (i : Ix) (pl : Place) (c : Nat), IAt i pl →
    ((pl = .before ∧ c = 0) ∨ (pl = .on c) ∨ (pl = .past ∧ c = X.length)) → c < f →
    At2 Ls IAt DAt (v.prevGo f i).1 (prevTo Ls c) ∧ (v.prevGo f i).2 = (prevTo Ls c).isOn := by
  intro f
  induction f with
  | zero => intro i pl c _ _ h; omega
  | succ f ih =>
    intro i pl c hi hpl hf
    obtain ⟨a1, a2, a3⟩ := y.idx i pl .prev hi
    have hcl : c ≤ X.length := by
      rcases hpl with ⟨_, rfl⟩ | rfl | ⟨_, rfl⟩
      · omega
      · exact le_of_lt (y.valid _ _ hi)
      · exact le_refl _
    have hg : goes v.ord X pl .prev = if 0 < c then .on (c - 1) else .before := by
      rcases hpl with ⟨rfl, rfl⟩ | rfl | ⟨rfl, rfl⟩
      · rfl
      · rfl
      · show (if X = [] then Place.before else .on (X.length - 1)) = _
        by_cases hx : X = []
        · rw [if_pos hx, if_neg (by rw [hx]; simp)]
        · rw [if_neg hx, if_pos (List.length_pos_iff.2 hx)]
    rw [hg] at a1 a2
    unfold GEnv.prevGo
    dsimp only
    by_cases hc : 0 < c
    · obtain ⟨c', rfl⟩ : ∃ c', c = c' + 1 := ⟨c - 1, by omega⟩
      rw [if_pos hc, Nat.add_sub_cancel] at a1 a2
      have hcL : c' < Ls.length := by rw [y.len]; omega
      rw [if_neg (by rw [a2]; simp [Place.isOn])]
      obtain ⟨b1, b2, b3⟩ := y.dat _ _ _ .last (y.get _ _ a1)
      have hgd : goes v.ord (Ls.getD c' []) .before .last = if Ls.getD c' [] = [] then .before else .on ((Ls.getD c' []).length - 1) := rfl
      rw [hgd] at b1 b2
      by_cases he : Ls.getD c' [] = []
      · rw [if_pos he] at b1 b2
        rw [if_neg (by rw [b2]; simp [Place.isOn]), if_neg (by unfold GEnv.dataErr; rw [b3]; simp)]
        have hn : prevTo Ls (c' + 1) = prevTo Ls c' := by
          unfold prevTo
          rw [take_flatten hcL, he, List.append_nil, pre_succ hcL, he, List.length_nil, Nat.add_zero]
        rw [hn]
        exact ih _ (.on c') c' a1 (Or.inr (Or.inl rfl)) (by omega)
      · rw [if_neg he] at b1 b2
        rw [if_pos (by rw [b2]; rfl)]
        have hpos := List.length_pos_iff.2 he
        have hn : prevTo Ls (c' + 1) = .on (pre Ls c' + ((Ls.getD c' []).length - 1)) := by
          rw [prevTo_eq, pre_succ hcL, if_pos (by omega)]
          congr 1; omega
        rw [hn]
        exact ⟨⟨rfl, Or.inr (Or.inr ⟨c', _, _, rfl, a1, b1, rfl⟩)⟩, rfl⟩
    · rw [if_neg hc] at a1 a2
      rw [if_pos (by rw [a2]; rfl)]
      have h0 : c = 0 := by omega
      subst h0
      have hn : prevTo Ls 0 = .before := by unfold prevTo; rw [if_pos (by simp)]
      rw [hn]
      exact ⟨⟨a3, Or.inl ⟨rfl, a1, rfl⟩⟩, rfl⟩

/-- Into a block from its beginning, then on. -/
theorem enter_next (y : Sys v X Ls IAt DAt) {i : Ix} {c : Nat} {d : D} (hi : IAt i (.on c)) (hd : DAt d (Ls.getD c []) .before) :
    At2 Ls IAt DAt (v.next ⟨i, some d, false⟩).1 (nextFrom Ls c) ∧ (v.next ⟨i, some d, false⟩).2 = (nextFrom Ls c).isOn := by
  have hcX := y.valid _ _ hi
  have hcL : c < Ls.length := by rw [y.len]; exact hcX
  unfold GEnv.next
  rw [if_neg (by simp)]
  dsimp only
  obtain ⟨b1, b2, b3⟩ := y.dat _ _ _ .next hd
  have hgd : goes v.ord (Ls.getD c []) .before .next = if Ls.getD c [] = [] then .past else .on 0 := rfl
  rw [hgd] at b1 b2
  by_cases he : Ls.getD c [] = []
  · rw [if_pos he] at b1 b2
    rw [if_neg (by rw [b2]; simp [Place.isOn]), if_neg (by unfold GEnv.dataErr; rw [b3]; simp)]
    have hn : nextFrom Ls c = nextFrom Ls (c + 1) := by
      unfold nextFrom
      rw [drop_flatten hcL, he, List.nil_append, pre_succ hcL, he]; rfl
    rw [hn]
    exact nextGo_spec y _ _ (.on c) (c + 1) hi (Or.inr (Or.inl ⟨c, rfl, rfl⟩)) (by have := y.fuel; omega)
  · rw [if_neg he] at b1 b2
    rw [if_pos (by rw [b2]; rfl)]
    have hn : nextFrom Ls c = .on (pre Ls c + 0) := by
      unfold nextFrom
      rw [if_neg (by rw [drop_flatten hcL]; intro h; exact he (List.append_eq_nil_iff.1 h).1), Nat.add_zero]
    rw [hn]
    exact ⟨⟨rfl, Or.inr (Or.inr ⟨c, _, 0, rfl, hi, b1, rfl⟩)⟩, rfl⟩

theorem findIdx_none_of {ord : Bytes → O} {l : List (Bytes × Bytes)} {k : Bytes} (h : ∀ e ∈ l, ord e.1 < ord k) :
    l.findIdx? (fun e => decide (ord k ≤ ord e.1)) = none := by
  rw [List.findIdx?_eq_none_iff]
  intro e he
  simpa using h e he

/-- **One call.** -/
theorem ask2 (y : Sys v X Ls IAt DAt) {s : GI Ix D} {p : Place} (h : At2 Ls IAt DAt s p) (a : Ask) :
    At2 Ls IAt DAt (v.ask s a).1 (goes v.ord Ls.flatten p a) ∧ (v.ask s a).2 = (goes v.ord Ls.flatten p a).isOn := by
  obtain ⟨herr, hst⟩ := h
  have hIAt : ∃ pl, IAt s.index pl := by
    rcases hst with ⟨_, h, _⟩ | ⟨_, h, _⟩ | ⟨j, d, q, _, h, _⟩
    · exact ⟨_, h⟩
    · exact ⟨_, h⟩
    · exact ⟨_, h⟩
  obtain ⟨pl, hpl⟩ := hIAt
  have hX0 : X = [] → Ls.flatten = [] := by
    intro hx
    have : Ls = [] := List.length_eq_zero_iff.1 (by rw [y.len, hx]; rfl)
    rw [this]; rfl
  cases a with
  | first =>
    show At2 Ls IAt DAt (v.first s).1 (if Ls.flatten = [] then .past else .on 0) ∧ (v.first s).2 = (if Ls.flatten = [] then Place.past else .on 0).isOn
    have hgo : (if Ls.flatten = [] then Place.past else .on 0) = nextFrom Ls 0 := rfl
    rw [hgo]
    unfold GEnv.first
    rw [if_neg (by rw [herr]; simp)]
    dsimp only
    obtain ⟨a1, a2, a3⟩ := y.idx _ _ .first hpl
    have hg : goes v.ord X pl .first = if X = [] then .past else .on 0 := rfl
    rw [hg] at a1 a2
    by_cases hx : X = []
    · rw [if_pos hx] at a1 a2
      rw [if_pos (by rw [a2]; rfl)]
      have : nextFrom Ls 0 = .past := by rw [← hgo, if_pos (hX0 hx)]
      rw [this]
      exact ⟨⟨a3, Or.inr (Or.inl ⟨rfl, a1, rfl⟩)⟩, rfl⟩
    · rw [if_neg hx] at a1 a2
      rw [if_neg (by rw [a2]; simp [Place.isOn])]
      exact enter_next y a1 (y.get _ _ a1)
  | last =>
    show At2 Ls IAt DAt (v.last s).1 (if Ls.flatten = [] then .before else .on (Ls.flatten.length - 1)) ∧
      (v.last s).2 = (if Ls.flatten = [] then Place.before else .on (Ls.flatten.length - 1)).isOn
    have hgo : (if Ls.flatten = [] then Place.before else .on (Ls.flatten.length - 1)) = prevTo Ls X.length := by
      unfold prevTo pre
      rw [← y.len, List.take_length]
    rw [hgo]
    unfold GEnv.last
    rw [if_neg (by rw [herr]; simp)]
    dsimp only
    obtain ⟨a1, a2, a3⟩ := y.idx _ _ .last hpl
    have hg : goes v.ord X pl .last = if X = [] then .before else .on (X.length - 1) := rfl
    rw [hg] at a1 a2
    by_cases hx : X = []
    · rw [if_pos hx] at a1 a2
      rw [if_pos (by rw [a2]; rfl)]
      have : prevTo Ls X.length = .before := by rw [← hgo, if_pos (hX0 hx)]
      rw [this]
      exact ⟨⟨a3, Or.inl ⟨rfl, a1, rfl⟩⟩, rfl⟩
    · rw [if_neg hx] at a1 a2
      rw [if_neg (by rw [a2]; simp [Place.isOn])]
      have hXp := List.length_pos_iff.2 hx
      obtain ⟨c, hc⟩ : ∃ c, X.length = c + 1 := ⟨X.length - 1, by omega⟩
      rw [hc, Nat.add_sub_cancel] at a1 a2
      rw [hc]
      have hcL : c < Ls.length := by rw [y.len]; omega
      obtain ⟨b1, b2, b3⟩ := y.dat _ _ _ .last (y.get _ _ a1)
      have hgd : goes v.ord (Ls.getD c []) .before .last = if Ls.getD c [] = [] then .before else .on ((Ls.getD c []).length - 1) := rfl
      rw [hgd] at b1 b2
      by_cases he : Ls.getD c [] = []
      · rw [if_pos he] at b1 b2
        rw [if_neg (by rw [b2]; simp [Place.isOn]), if_neg (by unfold GEnv.dataErr; rw [b3]; simp)]
        have hn : prevTo Ls (c + 1) = prevTo Ls c := by
          unfold prevTo
          rw [take_flatten hcL, he, List.append_nil, pre_succ hcL, he, List.length_nil, Nat.add_zero]
        rw [hn]
        unfold GEnv.prev
        rw [if_neg (by simp)]
        exact prevGo_spec y _ _ (.on c) c a1 (Or.inr (Or.inl rfl)) (by have := y.fuel; omega)
      · rw [if_neg he] at b1 b2
        rw [if_pos (by rw [b2]; rfl)]
        have hpos := List.length_pos_iff.2 he
        have hn : prevTo Ls (c + 1) = .on (pre Ls c + ((Ls.getD c []).length - 1)) := by
          rw [prevTo_eq, pre_succ hcL, if_pos (by omega)]
          congr 1; omega
        rw [hn]
        exact ⟨⟨rfl, Or.inr (Or.inr ⟨c, _, _, rfl, a1, b1, rfl⟩)⟩, rfl⟩
  | next =>
    show At2 Ls IAt DAt (v.next s).1 _ ∧ (v.next s).2 = _
    rcases hst with ⟨hd, hi, rfl⟩ | ⟨hd, hi, rfl⟩ | ⟨j, d, q, hd, hi, hD, rfl⟩
    · have hgo : goes v.ord Ls.flatten .before .next = nextFrom Ls 0 := rfl
      rw [hgo]
      unfold GEnv.next
      rw [if_neg (by rw [herr]; simp), hd]
      exact nextGo_spec y _ _ .before 0 hi (Or.inl ⟨rfl, rfl⟩) (by have := y.fuel; omega)
    · have hgo : goes v.ord Ls.flatten .past .next = nextFrom Ls X.length := by
        unfold nextFrom
        rw [List.drop_eq_nil_of_le (by rw [y.len])]; rfl
      rw [hgo]
      unfold GEnv.next
      rw [if_neg (by rw [herr]; simp), hd]
      exact nextGo_spec y _ _ .past X.length hi (Or.inr (Or.inr ⟨rfl, rfl⟩)) (by omega)
    · have hjX := y.valid _ _ hi
      have hjL : j < Ls.length := by rw [y.len]; exact hjX
      have hq := y.validD _ _ _ hD
      unfold GEnv.next
      rw [if_neg (by rw [herr]; simp), hd]
      dsimp only
      obtain ⟨b1, b2, b3⟩ := y.dat _ _ _ .next hD
      have hgd : goes v.ord (Ls.getD j []) (.on q) .next = if q + 1 < (Ls.getD j []).length then .on (q + 1) else .past := rfl
      have hgo : goes v.ord Ls.flatten (.on (pre Ls j + q)) .next =
          if pre Ls j + q + 1 < Ls.flatten.length then .on (pre Ls j + q + 1) else .past := rfl
      have htot := total (Ls := Ls) (j + 1)
      have hps := pre_succ hjL
      rw [hgd] at b1 b2
      rw [hgo]
      by_cases hlt : q + 1 < (Ls.getD j []).length
      · rw [if_pos hlt] at b1 b2
        rw [if_pos (by rw [b2]; rfl), if_pos (by omega)]
        exact ⟨⟨rfl, Or.inr (Or.inr ⟨j, _, q + 1, rfl, hi, b1, by rw [Nat.add_assoc]⟩)⟩, rfl⟩
      · rw [if_neg hlt] at b1 b2
        rw [if_neg (by rw [b2]; simp [Place.isOn]), if_neg (by unfold GEnv.dataErr; rw [b3]; simp)]
        have hpq : pre Ls j + q + 1 = pre Ls (j + 1) := by omega
        rw [hpq, ← nextFrom_eq]
        exact nextGo_spec y _ _ (.on j) (j + 1) hi (Or.inr (Or.inl ⟨j, rfl, rfl⟩)) (by have := y.fuel; omega)
  | prev =>
    show At2 Ls IAt DAt (v.prev s).1 _ ∧ (v.prev s).2 = _
    rcases hst with ⟨hd, hi, rfl⟩ | ⟨hd, hi, rfl⟩ | ⟨j, d, q, hd, hi, hD, rfl⟩
    · have hgo : goes v.ord Ls.flatten .before .prev = prevTo Ls 0 := by
        unfold prevTo; rw [if_pos (by simp)]; rfl
      rw [hgo]
      unfold GEnv.prev
      rw [if_neg (by rw [herr]; simp), hd]
      exact prevGo_spec y _ _ .before 0 hi (Or.inl ⟨rfl, rfl⟩) (by omega)
    · have hgo : goes v.ord Ls.flatten .past .prev = prevTo Ls X.length := by
        unfold prevTo pre
        rw [← y.len, List.take_length]; rfl
      rw [hgo]
      unfold GEnv.prev
      rw [if_neg (by rw [herr]; simp), hd]
      exact prevGo_spec y _ _ .past X.length hi (Or.inr (Or.inr ⟨rfl, rfl⟩)) (by have := y.fuel; omega)
    · have hjX := y.valid _ _ hi
      have hq := y.validD _ _ _ hD
      unfold GEnv.prev
      rw [if_neg (by rw [herr]; simp), hd]
      dsimp only
      obtain ⟨b1, b2, b3⟩ := y.dat _ _ _ .prev hD
      have hgd : goes v.ord (Ls.getD j []) (.on q) .prev = if 0 < q then .on (q - 1) else .before := rfl
      have hgo : goes v.ord Ls.flatten (.on (pre Ls j + q)) .prev = if 0 < pre Ls j + q then .on (pre Ls j + q - 1) else .before := rfl
      rw [hgd] at b1 b2
      rw [hgo]
      by_cases hlt : 0 < q
      · rw [if_pos hlt] at b1 b2
        rw [if_pos (by rw [b2]; rfl), if_pos (by omega)]
        exact ⟨⟨rfl, Or.inr (Or.inr ⟨j, _, q - 1, rfl, hi, b1, by congr 1; omega⟩)⟩, rfl⟩
      · rw [if_neg hlt] at b1 b2
        rw [if_neg (by rw [b2]; simp [Place.isOn]), if_neg (by unfold GEnv.dataErr; rw [b3]; simp)]
        have hq0 : q = 0 := by omega
        subst hq0
        have hp0 : pre Ls j + 0 = pre Ls j := rfl
        rw [hp0, ← prevTo_eq]
        exact prevGo_spec y _ _ (.on j) j hi (Or.inr (Or.inl rfl)) (by have := y.fuel; omega)
  | seek k =>
    show At2 Ls IAt DAt (v.seek s k).1 _ ∧ (v.seek s k).2 = _
    unfold GEnv.seek
    rw [if_neg (by rw [herr]; simp)]
    dsimp only
    obtain ⟨a1, a2, a3⟩ := y.idx _ _ (.seek k) hpl
    have hgf : ∀ l p, goes v.ord l p (.seek k) = match l.findIdx? (fun e => decide (v.ord k ≤ v.ord e.1)) with | some j => .on j | none => .past := fun _ _ => rfl
    cases hf : X.findIdx? (fun e => decide (v.ord k ≤ v.ord e.1)) with
    | none =>
      rw [hgf, hf] at a1 a2
      dsimp only at a1 a2
      rw [if_pos (by rw [a2]; rfl), hgf]
      have hall : Ls.flatten.findIdx? (fun e => decide (v.ord k ≤ v.ord e.1)) = none := by
        apply findIdx_none_of
        have := y.low k X.length (by
          intro x hx
          rw [List.take_length] at hx
          have := List.findIdx?_eq_none_iff.1 hf x hx
          simpa using this)
        rwa [← y.len, List.take_length] at this
      rw [hall]
      exact ⟨⟨a3, Or.inr (Or.inl ⟨rfl, a1, rfl⟩)⟩, rfl⟩
    | some j =>
      rw [hgf, hf] at a1 a2
      dsimp only at a1 a2
      rw [if_neg (by rw [a2]; simp [Place.isOn])]
      have hjX := y.valid _ _ a1
      have hjL : j < Ls.length := by rw [y.len]; exact hjX
      obtain ⟨hj', hjk, hjlow⟩ := List.findIdx?_eq_some_iff_getElem.1 hf
      have hlow := y.low k j (by
        intro x hx
        obtain ⟨q, hq, rfl⟩ := List.getElem_of_mem hx
        rw [List.length_take] at hq
        rw [List.getElem_take]
        have := hjlow q (by omega)
        simpa using this)
      have hhigh := y.high k j hjX (by simpa using hjk)
      have hsplit : Ls.flatten = (Ls.take j).flatten ++ (Ls.getD j [] ++ (Ls.drop (j + 1)).flatten) := by
        rw [← drop_flatten hjL, ← all_split]
      obtain ⟨b1, b2, b3⟩ := y.dat _ _ _ (.seek k) (y.get _ _ a1)
      rw [hgf]
      have hfl : Ls.flatten.findIdx? (fun e => decide (v.ord k ≤ v.ord e.1)) =
          (((Ls.getD j []).findIdx? (fun e => decide (v.ord k ≤ v.ord e.1))).or
            (((Ls.drop (j + 1)).flatten.findIdx? (fun e => decide (v.ord k ≤ v.ord e.1))).map (· + (Ls.getD j []).length))).map (· + pre Ls j) := by
        rw [hsplit, List.findIdx?_append, findIdx_none_of hlow, Option.none_or, List.findIdx?_append]; rfl
      cases hfd : (Ls.getD j []).findIdx? (fun e => decide (v.ord k ≤ v.ord e.1)) with
      | some q =>
        rw [hgf, hfd] at b1 b2
        dsimp only at b1 b2
        rw [if_pos (by rw [b2]; rfl), hfl, hfd]
        show At2 Ls IAt DAt _ (.on (q + pre Ls j)) ∧ _
        exact ⟨⟨rfl, Or.inr (Or.inr ⟨j, _, q, rfl, a1, b1, by rw [Nat.add_comm]⟩)⟩, rfl⟩
      | none =>
        rw [hgf, hfd] at b1 b2
        dsimp only at b1 b2
        rw [if_neg (by rw [b2]; simp [Place.isOn]), if_neg (by unfold GEnv.dataErr; rw [b3]; simp), hfl, hfd]
        have hres := nextGo_spec y (v.fuel + 1) _ (.on j) (j + 1) a1 (Or.inr (Or.inl ⟨j, rfl, rfl⟩)) (by have := y.fuel; omega)
        have hnx : v.next ⟨(v.idx.ask s.index (.seek k)).1, none, false⟩ = v.nextGo (v.fuel + 1) (v.idx.ask s.index (.seek k)).1 := by
          unfold GEnv.next; rw [if_neg (by simp)]
        rw [hnx]
        rw [Option.none_or]
        cases hrest : (Ls.drop (j + 1)).flatten with
        | nil =>
          have : nextFrom Ls (j + 1) = .past := by unfold nextFrom; rw [if_pos hrest]
          rw [this] at hres
          exact hres
        | cons e l =>
          have : nextFrom Ls (j + 1) = .on (pre Ls (j + 1)) := by unfold nextFrom; rw [if_neg (by rw [hrest]; simp)]
          rw [this] at hres
          have he := hhigh e (by rw [hrest]; exact List.mem_cons_self)
          rw [List.findIdx?_cons, if_pos (by simpa using he)]
          show At2 Ls IAt DAt _ (.on (0 + (Ls.getD j []).length + pre Ls j)) ∧ _
          have : 0 + (Ls.getD j []).length + pre Ls j = pre Ls (j + 1) := by rw [pre_succ hjL]; omega
          rw [this]
          exact hres

theorem getElem_flat {j q : Nat} (hj : j < Ls.length) (hq : q < (Ls.getD j []).length) : Ls.flatten[pre Ls j + q]? = (Ls.getD j [])[q]? := by
  conv_lhs => rw [all_split j, drop_flatten hj]
  rw [List.getElem?_append_right (by unfold pre; omega)]
  have : pre Ls j + q - (Ls.take j).flatten.length = q := by unfold pre; omega
  rw [this, List.getElem?_append_left hq]

theorem sees2 (y : Sys v X Ls IAt DAt) (s : GI Ix D) (p : Place) (hh : At2 Ls IAt DAt s p) : (s.err, p.isOn, v.shows s) = sees Ls.flatten p := by
  obtain ⟨he, hst⟩ := hh
  unfold GEnv.shows
  rcases hst with ⟨hd, hi, rfl⟩ | ⟨hd, hi, rfl⟩ | ⟨j, d, q, hd, hi, hD, rfl⟩
  · rw [hd, he]; rfl
  · rw [hd, he]; rfl
  · have hjL : j < Ls.length := by rw [y.len]; exact y.valid _ _ hi
    rw [hd, he]
    show (false, true, v.dat.shows d) = (false, true, Ls.flatten[pre Ls j + q]?)
    rw [y.shows _ _ _ hD, getElem_flat hjL (y.validD _ _ _ hD)]
    rfl

/-- **A run.** -/
theorem asks2 (y : Sys v X Ls IAt DAt) : ∀ (as : List Ask) {s : GI Ix D} {p : Place}, At2 Ls IAt DAt s p →
    v.asks s as = cursor v.ord Ls.flatten p as := by
  intro as
  induction as with
  | nil => intro s p _; rfl
  | cons a as ih =>
    intro s p h
    obtain ⟨h1, h2⟩ := ask2 y h a
    show (_ :: _) = (_ :: _)
    rw [ih h1]
    rw [h2, sees2 y _ _ h1]

/-- An iterator over a table that is a cursor over a list and stands at a place. -/
def TabAt (o : Opts O) (x : IEnv O × II) (l : List (Bytes × Bytes)) (p : Place) : Prop :=
  ∃ X Ls IAt DAt, Sys x.1.gen X Ls IAt DAt ∧ x.1.o = o ∧ At2 Ls IAt DAt x.2 p ∧ l = Ls.flatten

end Verif.Tab
