import Verif.Tab.LevelModel
import Verif.Tab.MergeProps

/-! # The iterator over a level and the raw iterator of the database are cursors -/

namespace Verif.Tab
open Verif.Bytes Verif.Store

variable {O : Type} [LinearOrder O]

/-! ### Specification -/

/-- A table that holds these entries: its iterators are cursors over them, and its keys lie between its
smallest and its greatest. -/
structure Holds (o : Opts O) (t : TF) (es : List (Bytes × Bytes)) : Prop where
  ne : es ≠ []
  grows : Grows o.ord es
  min : ∀ e ∈ es, o.ord t.imin ≤ o.ord e.1
  max : ∀ e ∈ es, o.ord e.1 ≤ o.ord t.imax
  iter : ∀ start limit strict, ∃ v, t.r.iter o start limit strict = some v ∧ TabAt o (v, v.new) (between o.ord start limit es) .before

/-- The tables of a level: in order, and not overlapping. -/
def LevelOf (o : Opts O) (T : List (TF × List (Bytes × Bytes))) : Prop :=
  (∀ x ∈ T, Holds o x.1 x.2) ∧ T.Pairwise (fun x y => o.ord x.1.imax < o.ord y.1.imin)

/-- The bounds are in order. -/
def InOrder (ord : Bytes → O) (start limit : Option Bytes) : Prop := ∀ s l, start = some s → limit = some l → ord s ≤ ord l

/-- A table that was written holds what was written, if its smallest and greatest key are noted. -/
theorem written_holds {o : Opts O} {fk : Bytes → Bytes} (g : Good o fk) {es : List (Bytes × Bytes)} (hne : es ≠ []) (hk : ∀ e ∈ es, e.1 ≠ []) (hs : Grows o.ord es) :
    ∃ w, tableOf o es = some w ∧ ((∀ d ∈ w.log, d.length < 2 ^ 32) → w.file.length < 2 ^ 63 →
      ∃ r, openT o w.file = some r ∧ Holds o ⟨r, (es.head hne).1, (es.getLast hne).1⟩ es) := by
  obtain ⟨w, h1, h2⟩ := table_at g hne hk hs
  refine ⟨w, h1, fun a b => ?_⟩
  obtain ⟨r, h3, h4⟩ := h2 a b
  refine ⟨r, h3, hne, hs, ?_, ?_, fun s l st => ?_⟩
  · intro e he
    obtain ⟨i, hi, rfl⟩ := List.getElem_of_mem he
    show o.ord (es.head hne).1 ≤ _
    rw [List.head_eq_getElem]
    rcases Nat.eq_zero_or_pos i with h | h
    · subst h; exact le_refl _
    · exact le_of_lt (grows_lt hs hi h)
  · intro e he
    obtain ⟨i, hi, rfl⟩ := List.getElem_of_mem he
    show _ ≤ o.ord (es.getLast hne).1
    rw [List.getLast_eq_getElem]
    rcases Nat.lt_or_ge i (es.length - 1) with h | h
    · exact le_of_lt (grows_lt hs (by omega) h)
    · have : i = es.length - 1 := by omega
      simp only [this]; exact le_refl _
  · obtain ⟨v, h5, h6, _⟩ := h4 s l st
    exact ⟨v, h5, h6⟩

/-! ### The index -/

def ArrAt (n : Nat) (i : Int) : Place → Prop
  | .before => i = -1 ∨ (n = 0 ∧ i = 0)
  | .on j => i = (j : Int) ∧ j < n
  | .past => i = (n : Int) ∨ (n = 0 ∧ i = -1)

/-- The array iterator is a cursor over the keys that are sought in. -/
theorem arr_ask {ord : Bytes → O} {X : List (Bytes × Bytes)} {search : Bytes → Nat}
    (hs : ∀ k, search k ≤ X.length ∧ (∀ i (h : i < search k) (h' : i < X.length), ord X[i].1 < ord k) ∧ (∀ h : search k < X.length, ord k ≤ ord X[search k].1))
    {i : Int} {p : Place} (h : ArrAt X.length i p) (a : Ask) :
    ArrAt X.length ((arrKind X.length search).ask i a).1 (goes ord X p a) ∧ ((arrKind X.length search).ask i a).2 = (goes ord X p a).isOn ∧
      (arrKind X.length search).bad ((arrKind X.length search).ask i a).1 = false := by
  have hnil : X = [] ↔ X.length = 0 := List.length_eq_zero_iff.symm
  refine (and_assoc.1 ⟨?_, rfl⟩)
  cases a with
  | first =>
    show ArrAt _ (if X.length = 0 then ((-1 : Int), false) else (0, true)).1 (if X = [] then .past else .on 0) ∧ (if X.length = 0 then ((-1 : Int), false) else (0, true)).2 = Place.isOn (if X = [] then .past else .on 0)
    by_cases hx : X = []
    · rw [if_pos hx, if_pos (hnil.1 hx)]
      exact ⟨Or.inr ⟨hnil.1 hx, rfl⟩, rfl⟩
    · have : ¬ X.length = 0 := fun h => hx (hnil.2 h)
      rw [if_neg hx, if_neg this]
      exact ⟨⟨rfl, by omega⟩, rfl⟩
  | last =>
    show ArrAt _ (if X.length = 0 then ((0 : Int), false) else ((X.length : Int) - 1, true)).1 (if X = [] then .before else .on (X.length - 1)) ∧ (if X.length = 0 then ((0 : Int), false) else ((X.length : Int) - 1, true)).2 = Place.isOn (if X = [] then .before else .on (X.length - 1))
    by_cases hx : X = []
    · rw [if_pos hx, if_pos (hnil.1 hx)]
      exact ⟨Or.inr ⟨hnil.1 hx, rfl⟩, rfl⟩
    · have : ¬ X.length = 0 := fun h => hx (hnil.2 h)
      rw [if_neg hx, if_neg this]
      exact ⟨⟨by omega, by omega⟩, rfl⟩
  | seek k =>
    obtain ⟨s1, s2, s3⟩ := hs k
    have hc : cut ord (fun x => decide (x < ord k)) X = search k := by
      refine cut_eq s1 ?_ ?_
      · intro i hi
        simpa using s2 i hi (by omega)
      · intro h
        simpa using s3 h
    rw [goes_seek]
    unfold fwdAt
    rw [hc]
    show ArrAt _ (if X.length = 0 then ((0 : Int), false) else ((search k : Int), decide (search k < X.length))).1 _ ∧ (if X.length = 0 then ((0 : Int), false) else ((search k : Int), decide (search k < X.length))).2 = _
    by_cases hx : X.length = 0
    · rw [if_pos hx, if_neg (by omega)]
      exact ⟨Or.inl (by omega), rfl⟩
    · rw [if_neg hx]
      by_cases hlt : search k < X.length
      · rw [if_pos hlt]
        exact ⟨⟨rfl, hlt⟩, decide_eq_true hlt⟩
      · rw [if_neg hlt]
        exact ⟨Or.inl (by show (search k : Int) = _; omega), decide_eq_false hlt⟩
  | next =>
    show ArrAt _ (if (X.length : Int) ≤ i + 1 then ((X.length : Int), false) else (i + 1, true)).1 _ ∧ (if (X.length : Int) ≤ i + 1 then ((X.length : Int), false) else (i + 1, true)).2 = _
    cases p with
    | before =>
      show ArrAt _ _ (if X = [] then .past else .on 0) ∧ _ = Place.isOn (if X = [] then .past else .on 0)
      by_cases hx : X = []
      · have := hnil.1 hx
        have h' : i = -1 ∨ (X.length = 0 ∧ i = 0) := h
        rw [if_pos hx, if_pos (by omega)]
        exact ⟨Or.inl rfl, rfl⟩
      · have : ¬ X.length = 0 := fun h => hx (hnil.2 h)
        have h' : i = -1 ∨ (X.length = 0 ∧ i = 0) := h
        rw [if_neg hx, if_neg (by omega)]
        exact ⟨⟨by show i + 1 = ((0 : Nat) : Int); omega, by omega⟩, rfl⟩
    | on j =>
      have h' : i = (j : Int) ∧ j < X.length := h
      show ArrAt _ _ (if j + 1 < X.length then .on (j + 1) else .past) ∧ _ = Place.isOn (if j + 1 < X.length then .on (j + 1) else .past)
      by_cases hx : j + 1 < X.length
      · rw [if_pos hx, if_neg (by omega)]
        exact ⟨⟨by show i + 1 = ((j + 1 : Nat) : Int); omega, hx⟩, rfl⟩
      · rw [if_neg hx, if_pos (by omega)]
        exact ⟨Or.inl rfl, rfl⟩
    | past =>
      have h' : i = (X.length : Int) ∨ (X.length = 0 ∧ i = -1) := h
      rw [if_pos (by omega)]
      exact ⟨Or.inl rfl, rfl⟩
  | prev =>
    show ArrAt _ (if i - 1 < 0 then (-1, false) else (i - 1, true)).1 _ ∧ (if i - 1 < 0 then (-1, false) else (i - 1, true)).2 = _
    cases p with
    | before =>
      have h' : i = -1 ∨ (X.length = 0 ∧ i = 0) := h
      rw [if_pos (by omega)]
      exact ⟨Or.inl rfl, rfl⟩
    | on j =>
      have h' : i = (j : Int) ∧ j < X.length := h
      show ArrAt _ _ (if 0 < j then .on (j - 1) else .before) ∧ _ = Place.isOn (if 0 < j then .on (j - 1) else .before)
      by_cases hx : 0 < j
      · rw [if_pos hx, if_neg (by omega)]
        exact ⟨⟨by show i - 1 = ((j - 1 : Nat) : Int); omega, by omega⟩, rfl⟩
      · rw [if_neg hx, if_pos (by omega)]
        exact ⟨Or.inl rfl, rfl⟩
    | past =>
      have h' : i = (X.length : Int) ∨ (X.length = 0 ∧ i = -1) := h
      show ArrAt _ _ (if X = [] then .before else .on (X.length - 1)) ∧ _ = Place.isOn (if X = [] then .before else .on (X.length - 1))
      by_cases hx : X = []
      · have := hnil.1 hx
        rw [if_pos hx, if_pos (by omega)]
        exact ⟨Or.inl rfl, rfl⟩
      · have : ¬ X.length = 0 := fun h => hx (hnil.2 h)
        rw [if_neg hx, if_neg (by omega)]
        exact ⟨⟨by show i - 1 = ((X.length - 1 : Nat) : Int); omega, by omega⟩, rfl⟩

/-! ### Iterators over tables -/

def OptAt (o : Opts O) (d : Option (IEnv O × II)) (l : List (Bytes × Bytes)) (p : Place) : Prop := ∃ x, d = some x ∧ TabAt o x l p

theorem optKind_cursor (o : Opts O) : IsCursor o.ord optKind (OptAt o) := by
  constructor
  · rintro d l p a ⟨x, rfl, h⟩
    obtain ⟨h1, h2, h3⟩ := (tabKind_cursor o).ask x l p a h
    exact ⟨⟨_, rfl, h1⟩, h2, h3⟩
  · rintro d l p ⟨x, rfl, h⟩
    exact (tabKind_cursor o).shows x l p h

theorem tabAt_valid {o : Opts O} {x : IEnv O × II} {l : List (Bytes × Bytes)} {q : Nat} (h : TabAt o x l (.on q)) : q < l.length := by
  obtain ⟨X, Ls, IAt, DAt, y, _, ⟨_, hst⟩, rfl⟩ := h
  rcases hst with ⟨_, _, h⟩ | ⟨_, _, h⟩ | ⟨j, d, q', _, hi, hD, h⟩
  · cases h
  · cases h
  · cases h
    have hjL : j < Ls.length := by rw [y.len]; exact y.valid _ _ hi
    have := y.validD _ _ _ hD
    have h1 := total (Ls := Ls) (j + 1)
    have h2 := pre_succ hjL
    omega

/-! ### A level -/

section
variable {o : Opts O} {T : List (TF × List (Bytes × Bytes))}

theorem searchMax_spec (h : LevelOf o T) (k : Bytes) :
    searchMax o.ord (T.map Prod.fst) k ≤ T.length ∧
    (∀ i (_ : i < searchMax o.ord (T.map Prod.fst) k) (h' : i < T.length), o.ord T[i].1.imax < o.ord k) ∧
    (∀ i (h' : i < T.length), searchMax o.ord (T.map Prod.fst) k ≤ i → o.ord k ≤ o.ord T[i].1.imax) := by
  have hmono : ∀ x y (hy : y < T.length) (hxy : x ≤ y), o.ord (T[x]'(by omega)).1.imax ≤ o.ord T[y].1.imax := by
    intro x y hy hxy
    rcases Nat.lt_or_ge x y with q | q
    · have h1 := (List.pairwise_iff_getElem.1 h.2) x y (by omega) hy q
      have hH := h.1 _ (List.getElem_mem hy)
      obtain ⟨e, he⟩ := List.exists_mem_of_ne_nil _ hH.ne
      exact le_of_lt (lt_of_lt_of_le h1 (le_trans (hH.min e he) (hH.max e he)))
    · have : x = y := by omega
      subst this; exact le_refl _
  have hval : ∀ i (hi : i < T.length), ((T.map Prod.fst)[i]?).any (fun t => decide (o.ord k ≤ o.ord t.imax)) = decide (o.ord k ≤ o.ord T[i].1.imax) := by
    intro i hi
    rw [List.getElem?_map, List.getElem?_eq_getElem hi]; rfl
  obtain ⟨s1, s2, s3⟩ := Snap.search_spec (f := fun i => ((T.map Prod.fst)[i]?).any (fun t => decide (o.ord k ≤ o.ord t.imax))) (n := (T.map Prod.fst).length) (by
    intro x y hxy hy hf
    rw [List.length_map] at hy
    rw [hval x (by omega)] at hf
    rw [hval y hy]
    simp only [decide_eq_true_eq] at *
    exact le_trans hf (hmono x y hy hxy))
  rw [List.length_map] at s1
  refine ⟨by unfold searchMax; rw [List.length_map]; simpa using s1, ?_, ?_⟩
  · intro i hi hi'
    have := s2 i hi
    rw [hval i hi'] at this
    simpa using this
  · intro i hi hle
    have := s3 i hle (by rw [List.length_map]; exact hi)
    rw [hval i hi] at this
    simpa using this

theorem searchMin_spec (h : LevelOf o T) (k : Bytes) :
    searchMin o.ord (T.map Prod.fst) k ≤ T.length ∧
    (∀ i (_ : i < searchMin o.ord (T.map Prod.fst) k) (h' : i < T.length), o.ord T[i].1.imin < o.ord k) ∧
    (∀ i (h' : i < T.length), searchMin o.ord (T.map Prod.fst) k ≤ i → o.ord k ≤ o.ord T[i].1.imin) := by
  have hmono : ∀ x y (hy : y < T.length) (hxy : x ≤ y), o.ord (T[x]'(by omega)).1.imin ≤ o.ord T[y].1.imin := by
    intro x y hy hxy
    rcases Nat.lt_or_ge x y with q | q
    · have h1 := (List.pairwise_iff_getElem.1 h.2) x y (by omega) hy q
      have hH := h.1 _ (List.getElem_mem (by omega : x < T.length))
      obtain ⟨e, he⟩ := List.exists_mem_of_ne_nil _ hH.ne
      exact le_of_lt (lt_of_le_of_lt (le_trans (hH.min e he) (hH.max e he)) h1)
    · have : x = y := by omega
      subst this; exact le_refl _
  have hval : ∀ i (hi : i < T.length), ((T.map Prod.fst)[i]?).any (fun t => decide (o.ord k ≤ o.ord t.imin)) = decide (o.ord k ≤ o.ord T[i].1.imin) := by
    intro i hi
    rw [List.getElem?_map, List.getElem?_eq_getElem hi]; rfl
  obtain ⟨s1, s2, s3⟩ := Snap.search_spec (f := fun i => ((T.map Prod.fst)[i]?).any (fun t => decide (o.ord k ≤ o.ord t.imin))) (n := (T.map Prod.fst).length) (by
    intro x y hxy hy hf
    rw [List.length_map] at hy
    rw [hval x (by omega)] at hf
    rw [hval y hy]
    simp only [decide_eq_true_eq] at *
    exact le_trans hf (hmono x y hy hxy))
  rw [List.length_map] at s1
  refine ⟨by unfold searchMin; rw [List.length_map]; simpa using s1, ?_, ?_⟩
  · intro i hi hi'
    have := s2 i hi
    rw [hval i hi'] at this
    simpa using this
  · intro i hi hle
    have := s3 i hle (by rw [List.length_map]; exact hi)
    rw [hval i hi] at this
    simpa using this

theorem LevelOf.lt (h : LevelOf o T) {i j : Nat} (hj : j < T.length) (hij : i < j) : o.ord (T[i]'(by omega)).1.imax < o.ord T[j].1.imin :=
  (List.pairwise_iff_getElem.1 h.2) i j (by omega) hj hij

theorem LevelOf.sublist {C : List (TF × List (Bytes × Bytes))} (h : LevelOf o T) (hC : C.Sublist T) : LevelOf o C :=
  ⟨fun x hx => h.1 x (hC.subset hx), h.2.sublist hC⟩

theorem between_sub {ord : Bytes → O} {start limit : Option Bytes} {es : List (Bytes × Bytes)} {e : Bytes × Bytes} (h : e ∈ between ord start limit es) : e ∈ es :=
  (List.mem_filter.1 h).1

theorem holds_iter {t : TF} {es : List (Bytes × Bytes)} (h : Holds o t es) (start limit : Option Bytes) (strict : Bool) :
    OptAt o (t.iter o start limit strict) (between o.ord start limit es) .before := by
  obtain ⟨v, h1, h2⟩ := h.iter start limit strict
  exact ⟨(v, v.new), by unfold TF.iter; rw [h1]; rfl, h2⟩

theorem level_sys (h : LevelOf o T) {start limit : Option Bytes} (strict : Bool)
    (hin : ∀ j (hj : j + 1 < T.length), 0 < j → between o.ord start limit (T[j]'(by omega)).2 = (T[j]'(by omega)).2) :
    Sys (levelEnv o (T.map Prod.fst) start limit strict) (T.map (fun x => (x.1.imax, ([] : Bytes)))) (T.map (fun x => between o.ord start limit x.2))
      (ArrAt T.length) (OptAt o) where
  len := by rw [List.length_map, List.length_map]
  fuel := by show _ ≤ (T.map Prod.fst).length; rw [List.length_map, List.length_map]
  idx := by
    intro i c a hi
    have hl : (T.map (fun x => (x.1.imax, ([] : Bytes)))).length = T.length := List.length_map ..
    have hk : (levelEnv o (T.map Prod.fst) start limit strict).idx = arrKind (T.map (fun x => (x.1.imax, ([] : Bytes)))).length (searchMax o.ord (T.map Prod.fst)) := by
      show arrKind (T.map Prod.fst).length _ = _
      rw [List.length_map, hl]
    rw [hk]
    have := arr_ask (ord := o.ord) (X := T.map (fun x => (x.1.imax, ([] : Bytes)))) (search := searchMax o.ord (T.map Prod.fst)) (by
      intro k
      obtain ⟨s1, s2, s3⟩ := searchMax_spec h k
      refine ⟨by rw [hl]; exact s1, ?_, ?_⟩
      · intro i hi hi'
        rw [List.getElem_map]
        exact s2 i hi (by rwa [hl] at hi')
      · intro hlt
        rw [List.getElem_map]
        exact s3 _ (by rwa [hl] at hlt) (le_refl _)) (by rw [hl]; exact hi) a
    rw [hl] at this ⊢
    exact this
  dat := fun d l p a hd => (optKind_cursor o).ask d l p a hd
  shows := fun d l p hd => (optKind_cursor o).shows d l p hd
  get := by
    intro i j hi
    obtain ⟨rfl, hj⟩ : i = (j : Int) ∧ j < T.length := hi
    have hH := h.1 _ (List.getElem_mem hj)
    have hg : (levelEnv o (T.map Prod.fst) start limit strict).get (j : Int) =
        if (j : Int) = 0 ∨ (j : Int) = ((T.map Prod.fst).length : Int) - 1 then T[j].1.iter o start limit strict else T[j].1.iter o none none strict := by
      show ((T.map Prod.fst)[(j : Int).toNat]?).bind _ = _
      rw [Int.toNat_natCast, List.getElem?_map, List.getElem?_eq_getElem hj]; rfl
    rw [hg, List.length_map, List.getD_eq_getElem?_getD, List.getElem?_map, List.getElem?_eq_getElem hj]
    show OptAt o _ (between o.ord start limit T[j].2) .before
    by_cases hc : (j : Int) = 0 ∨ (j : Int) = (T.length : Int) - 1
    · rw [if_pos hc]; exact holds_iter hH _ _ _
    · rw [if_neg hc]
      have h1 := holds_iter hH none none strict
      rw [between_all (start := none) (limit := none) (by intro s hs; cases hs) (by intro s hs; cases hs)] at h1
      rw [hin j (by omega) (by omega)]
      exact h1
  valid := by
    rintro i j ⟨_, hj⟩
    rw [List.length_map]; exact hj
  validD := by
    rintro d l q ⟨x, _, hx⟩
    exact tabAt_valid hx
  low := by
    intro k j hx e he
    obtain ⟨l, hl, hel⟩ := List.mem_flatten.1 he
    rw [← List.map_take] at hl
    obtain ⟨x, hx', rfl⟩ := List.mem_map.1 hl
    have h1 : o.ord x.1.imax < o.ord k := hx (x.1.imax, []) (by rw [← List.map_take]; exact List.mem_map.2 ⟨x, hx', rfl⟩)
    exact lt_of_le_of_lt ((h.1 x (List.mem_of_mem_take hx')).max e (between_sub hel)) h1
  high := by
    intro k j hj hk e he
    obtain ⟨l, hl, hel⟩ := List.mem_flatten.1 he
    rw [← List.map_drop] at hl
    obtain ⟨x, hx', rfl⟩ := List.mem_map.1 hl
    rw [List.length_map] at hj
    rw [List.getElem_map] at hk
    obtain ⟨i, hi, rfl⟩ := List.getElem_of_mem hx'
    rw [List.length_drop] at hi
    rw [List.getElem_drop] at hel
    have h1 := h.lt (i := j) (j := j + 1 + i) (by omega) (by omega)
    have h2 := (h.1 _ (List.getElem_mem (by omega : j + 1 + i < T.length))).min e (between_sub hel)
    exact le_of_lt (lt_of_le_of_lt hk (lt_of_lt_of_le h1 h2))

/-- An iterator over a level that is a cursor over a list and stands at a place. -/
def LevAt (o : Opts O) (x : GEnv O Int (Option (IEnv O × II)) × LI O) (l : List (Bytes × Bytes)) (p : Place) : Prop :=
  ∃ X Ls IAt DAt, Sys x.1 X Ls IAt DAt ∧ x.1.ord = o.ord ∧ At2 Ls IAt DAt x.2 p ∧ l = Ls.flatten

theorem levelKind_cursor (o : Opts O) : IsCursor o.ord levelKind (LevAt o) := by
  constructor
  · rintro ⟨v, s⟩ l p a ⟨X, Ls, IAt, DAt, y, ho, hs, rfl⟩
    have ho' : v.ord = o.ord := ho
    obtain ⟨h1, h2⟩ := ask2 y hs a
    rw [ho'] at h1 h2
    exact ⟨⟨X, Ls, IAt, DAt, y, ho, h1, rfl⟩, h2, h1.1⟩
  · rintro ⟨v, s⟩ l p ⟨X, Ls, IAt, DAt, y, ho, hs, rfl⟩
    exact congrArg (fun x => x.2.2) (sees2 y _ _ hs)

/-- The tables that are kept hold all entries between the bounds; those in the middle hold no others. -/
theorem cut_spec (h : LevelOf o T) {start limit : Option Bytes} (hb : InOrder o.ord start limit) :
    ∃ C, levelCut o.ord (T.map Prod.fst) start limit = some (C.map Prod.fst) ∧ LevelOf o C ∧
      (C.map (fun x => between o.ord start limit x.2)).flatten = between o.ord start limit (T.map Prod.snd).flatten ∧
      ∀ j (hj : j + 1 < C.length), 0 < j → between o.ord start limit (C[j]'(by omega)).2 = (C[j]'(by omega)).2 := by
  obtain ⟨a, ha⟩ : ∃ a, a = (start.map (searchMax o.ord (T.map Prod.fst))).getD 0 := ⟨_, rfl⟩
  obtain ⟨b, hbe⟩ : ∃ b, b = (limit.map (searchMin o.ord (T.map Prod.fst))).getD (T.map Prod.fst).length := ⟨_, rfl⟩
  have haT : a ≤ T.length := by
    rw [ha]
    cases start with
    | none => exact Nat.zero_le _
    | some s => exact (searchMax_spec h s).1
  have hbT : b ≤ T.length := by
    rw [hbe]
    cases limit with
    | none => exact le_of_eq (List.length_map ..)
    | some l => exact (searchMin_spec h l).1
  have ha1 : ∀ i (hi : i < T.length), i < a → ∃ s, start = some s ∧ o.ord T[i].1.imax < o.ord s := by
    intro i hi hia
    cases hs : start with
    | none => rw [ha, hs] at hia; exact absurd hia (Nat.not_lt_zero _)
    | some s => rw [ha, hs] at hia; exact ⟨s, rfl, (searchMax_spec h s).2.1 i hia hi⟩
  have ha2 : ∀ s, start = some s → ∀ i (hi : i < T.length), a ≤ i → o.ord s ≤ o.ord T[i].1.imax := by
    intro s hs i hi hia
    rw [ha, hs] at hia
    exact (searchMax_spec h s).2.2 i hi hia
  have hb1 : ∀ l, limit = some l → ∀ i (hi : i < T.length), i < b → o.ord T[i].1.imin < o.ord l := by
    intro l hl i hi hib
    rw [hbe, hl] at hib
    exact (searchMin_spec h l).2.1 i hib hi
  have hb2 : ∀ i (hi : i < T.length), b ≤ i → ∃ l, limit = some l ∧ o.ord l ≤ o.ord T[i].1.imin := by
    intro i hi hib
    cases hl : limit with
    | none =>
      rw [hbe, hl] at hib
      have : (T.map Prod.fst).length ≤ i := hib
      rw [List.length_map] at this; omega
    | some l => rw [hbe, hl] at hib; exact ⟨l, rfl, (searchMin_spec h l).2.2 i hi hib⟩
  have hab : a ≤ b := by
    by_contra hc
    have hbl : b < T.length := by omega
    obtain ⟨s, hs, h1⟩ := ha1 b hbl (by omega)
    obtain ⟨l, hl, h2⟩ := hb2 b hbl (le_refl _)
    have hH := h.1 _ (List.getElem_mem hbl)
    obtain ⟨e, he⟩ := List.exists_mem_of_ne_nil _ hH.ne
    exact absurd (lt_of_lt_of_le h1 (le_trans (hb s l hs hl) (le_trans h2 (le_trans (hH.min e he) (hH.max e he))))) (lt_irrefl _)
  have hC : ∀ j (hj : j < ((T.take b).drop a).length), a + j < T.length ∧ a + j < b := by
    intro j hj
    rw [List.length_drop, List.length_take] at hj
    omega
  have hget : ∀ j (hj : j < ((T.take b).drop a).length), ((T.take b).drop a)[j] = T[a + j]'(hC j hj).1 := by
    intro j hj
    rw [List.getElem_drop, List.getElem_take]
  refine ⟨(T.take b).drop a, ?_, h.sublist ((List.drop_sublist _ _).trans (List.take_sublist _ _)), ?_, ?_⟩
  · unfold levelCut
    dsimp only
    rw [← ha, ← hbe, if_neg (by omega), List.map_drop, List.map_take]
  · have hsplit : T = T.take a ++ ((T.take b).drop a ++ T.drop b) := by
      have h1 : T.take b = T.take a ++ (T.take b).drop a := by
        conv_lhs => rw [← List.take_append_drop a (T.take b)]
        rw [List.take_take, Nat.min_eq_left hab]
      rw [← List.append_assoc, ← h1, List.take_append_drop]
    rw [between_flat, List.map_map]
    conv_rhs => rw [hsplit]
    rw [List.map_append, List.map_append, List.flatten_append, List.flatten_append]
    have e1 : ((T.take a).map (between o.ord start limit ∘ Prod.snd)).flatten = [] := by
      rw [List.flatten_eq_nil_iff]
      intro l hl
      obtain ⟨x, hx, rfl⟩ := List.mem_map.1 hl
      obtain ⟨i, hi, rfl⟩ := List.getElem_of_mem hx
      rw [List.length_take] at hi
      obtain ⟨s, hs, h1⟩ := ha1 i (by omega) (by omega)
      show between o.ord start limit _ = []
      unfold between
      rw [List.filter_eq_nil_iff]
      intro e he
      rw [List.getElem_take] at he
      have h2 := (h.1 _ (List.getElem_mem (by omega : i < T.length))).max e he
      rw [hs]
      have : fromKey o.ord (some s) e = false := decide_eq_false (not_le.2 (lt_of_le_of_lt h2 h1))
      rw [this]; simp
    have e2 : ((T.drop b).map (between o.ord start limit ∘ Prod.snd)).flatten = [] := by
      rw [List.flatten_eq_nil_iff]
      intro l hl
      obtain ⟨x, hx, rfl⟩ := List.mem_map.1 hl
      obtain ⟨i, hi, rfl⟩ := List.getElem_of_mem hx
      rw [List.length_drop] at hi
      obtain ⟨s, hs, h1⟩ := hb2 (b + i) (by omega) (by omega)
      show between o.ord start limit _ = []
      unfold between
      rw [List.filter_eq_nil_iff]
      intro e he
      rw [List.getElem_drop] at he
      have h2 := (h.1 _ (List.getElem_mem (by omega : b + i < T.length))).min e he
      rw [hs]
      have : toKey o.ord (some s) e = false := decide_eq_false (not_lt.2 (le_trans h1 h2))
      rw [this]; simp
    rw [e1, e2, List.nil_append, List.append_nil]
    rfl
  · intro j hj h0
    have c1 := hC j (by omega)
    have c2 := hC (j + 1) hj
    rw [hget j (by omega)]
    refine between_all ?_ ?_
    · intro s hs e he
      have h1 := ha2 s hs a (by omega) (le_refl _)
      have h2 := h.lt (i := a) (j := a + j) c1.1 (by omega)
      have h3 := (h.1 _ (List.getElem_mem c1.1)).min e he
      exact le_of_lt (lt_of_le_of_lt h1 (lt_of_lt_of_le h2 h3))
    · intro l hl e he
      have h1 := hb1 l hl (a + (j + 1)) c2.1 c2.2
      have h2 := h.lt (i := a + j) (j := a + (j + 1)) c2.1 (by omega)
      have h3 := (h.1 _ (List.getElem_mem c1.1)).max e he
      exact lt_trans (lt_of_le_of_lt h3 h2) h1

theorem level_at (h : LevelOf o T) {start limit : Option Bytes} (hb : InOrder o.ord start limit) (strict : Bool) :
    ∃ C, levelCut o.ord (T.map Prod.fst) start limit = some C ∧
      LevAt o (levelEnv o C start limit strict, LI.new) (between o.ord start limit (T.map Prod.snd).flatten) .before ∧
      ∀ as, (levelEnv o C start limit strict).asks LI.new as = cursor o.ord (between o.ord start limit (T.map Prod.snd).flatten) .before as := by
  obtain ⟨C, h1, h2, h3, h4⟩ := cut_spec h hb
  have y := level_sys h2 strict h4
  have hat : At2 (C.map (fun x => between o.ord start limit x.2)) (ArrAt C.length) (OptAt o) (LI.new : LI O) .before := ⟨rfl, Or.inl ⟨rfl, Or.inl rfl, rfl⟩⟩
  refine ⟨_, h1, ⟨_, _, _, _, y, rfl, hat, h3.symm⟩, fun as => ?_⟩
  rw [← h3]
  exact asks2 y as hat

/-- What a level holds is in order. -/
theorem level_grows (h : LevelOf o T) : Grows o.ord (T.map Prod.snd).flatten := by
  refine List.pairwise_flatten.2 ⟨?_, ?_⟩
  · intro l hl
    obtain ⟨x, hx, rfl⟩ := List.mem_map.1 hl
    exact (h.1 x hx).grows
  · rw [List.pairwise_map]
    refine (List.pairwise_iff_getElem.2 ?_)
    intro i j hi hj hij a ha b hb
    exact lt_of_le_of_lt ((h.1 _ (List.getElem_mem hi)).max a ha) (lt_of_lt_of_le (h.lt hj hij) ((h.1 _ (List.getElem_mem hj)).min b hb))

/-- **The iterator over a level is a cursor** over the entries of its tables between the bounds, whatever is
asked of it in whatever order; it needs bounds in order. -/
theorem level_iterator_is_cursor (h : LevelOf o T) {start limit : Option Bytes} (hb : InOrder o.ord start limit) (strict : Bool) :
    ∃ C, levelCut o.ord (T.map Prod.fst) start limit = some C ∧
      ∀ as, (levelEnv o C start limit strict).asks LI.new as = cursor o.ord (between o.ord start limit (T.map Prod.snd).flatten) .before as := by
  obtain ⟨C, h1, _, h2⟩ := level_at h hb strict
  exact ⟨C, h1, h2⟩

/-- **A range whose ends are the wrong way round makes the program panic**, if a table of a level lies
between them. -/
theorem inverted_range_panics (h : LevelOf o T) {x : TF × List (Bytes × Bytes)} (hx : x ∈ T) {s l : Bytes} (hl : o.ord l ≤ o.ord x.1.imin)
    (hs : o.ord x.1.imax < o.ord s) : levelCut o.ord (T.map Prod.fst) (some s) (some l) = none := by
  obtain ⟨i, hi, rfl⟩ := List.getElem_of_mem hx
  have h1 : i < searchMax o.ord (T.map Prod.fst) s := by
    by_contra hc
    exact absurd ((searchMax_spec h s).2.2 i hi (by omega)) (not_le.2 hs)
  have h2 : searchMin o.ord (T.map Prod.fst) l ≤ i := by
    by_contra hc
    exact absurd ((searchMin_spec h l).2.1 i (by omega) hi) (not_lt.2 hl)
  unfold levelCut
  exact if_pos (show searchMin o.ord (T.map Prod.fst) l < searchMax o.ord (T.map Prod.fst) s by omega)

end

/-! ### The raw iterator -/

def SrcAt (o : Opts O) : Src O → List (Bytes × Bytes) → Place → Prop
  | .mem x, l, p => x = (l, p)
  | .table x, l, p => OptAt o x l p
  | .level x, l, p => LevAt o x l p

theorem level_iters {o : Opts O} {start limit : Option Bytes} (hb : InOrder o.ord start limit) (strict : Bool) :
    ∀ Ts : List (List (TF × List (Bytes × Bytes))), (∀ T ∈ Ts, LevelOf o T) →
      ∃ is Ls, levelIters o start limit strict (Ts.map (List.map Prod.fst)) = some is ∧ List.Forall₂ (fun i L => ∃ p, SrcAt o i L p) is Ls ∧
        Ls.flatten = between o.ord start limit (Ts.map (fun T => (T.map Prod.snd).flatten)).flatten ∧ ∀ L ∈ Ls, Grows o.ord L := by
  intro Ts
  induction Ts with
  | nil => intro _; exact ⟨[], [], rfl, .nil, rfl, by simp⟩
  | cons T Ts ih =>
    intro h
    obtain ⟨is, Ls, h1, h2, h3, h4⟩ := ih (fun x hx => h x (List.mem_cons_of_mem _ hx))
    show ∃ is Ls, levelIters o start limit strict (T.map Prod.fst :: Ts.map (List.map Prod.fst)) = some is ∧ _
    unfold levelIters
    have hsplit : between o.ord start limit ((T :: Ts).map (fun T => (T.map Prod.snd).flatten)).flatten =
        between o.ord start limit (T.map Prod.snd).flatten ++ between o.ord start limit (Ts.map (fun T => (T.map Prod.snd).flatten)).flatten := by
      rw [List.map_cons, List.flatten_cons]
      exact List.filter_append ..
    rw [hsplit]
    by_cases hT : (T.map Prod.fst).length = 0
    · rw [if_pos hT]
      refine ⟨is, Ls, h1, h2, ?_, h4⟩
      rw [List.length_map] at hT
      rw [List.length_eq_zero_iff.1 hT]
      exact h3
    · rw [if_neg hT]
      obtain ⟨C, c1, c2, _⟩ := level_at (h T List.mem_cons_self) hb strict
      rw [c1]
      dsimp only
      rw [h1]
      refine ⟨_, _ :: Ls, rfl, .cons ⟨.before, c2⟩ h2, by rw [List.flatten_cons, h3], ?_⟩
      intro L hL
      rcases List.mem_cons.1 hL with rfl | hL
      · exact (level_grows (h T List.mem_cons_self)).sublist List.filter_sublist
      · exact h4 L hL

theorem srcKind_cursor (o : Opts O) : IsCursor o.ord (srcKind o.ord) (SrcAt o) := by
  constructor
  · intro i l p a h
    cases i with
    | mem x => exact (listKind_cursor o.ord).ask x l p a h
    | table x => exact (optKind_cursor o).ask x l p a h
    | level x => exact (levelKind_cursor o).ask x l p a h
  · intro i l p h
    cases i with
    | mem x => exact (listKind_cursor o.ord).shows x l p h
    | table x => exact (optKind_cursor o).shows x l p h
    | level x => exact (levelKind_cursor o).shows x l p h

/-- Everything that the memory tables, level zero and the other levels hold. -/
def holdings (mems : List (List (Bytes × Bytes))) (T0 : List (TF × List (Bytes × Bytes))) (Ts : List (List (TF × List (Bytes × Bytes)))) : List (Bytes × Bytes) :=
  mems.flatten ++ ((T0.map Prod.snd).flatten ++ (Ts.map (fun T => (T.map Prod.snd).flatten)).flatten)

/-- **The raw iterator of the database is a cursor** over all that its memory tables and its tables hold
between the bounds: `all` is the holdings in order of key, no key twice. -/
theorem raw_iterator_is_cursor {o : Opts O} {mems : List (List (Bytes × Bytes))} {T0 : List (TF × List (Bytes × Bytes))}
    {Ts : List (List (TF × List (Bytes × Bytes)))} (hm : ∀ m ∈ mems, Grows o.ord m) (h0 : ∀ x ∈ T0, Holds o x.1 x.2) (hT : ∀ T ∈ Ts, LevelOf o T)
    {all : List (Bytes × Bytes)} (hall : Grows o.ord all) (hperm : all.Perm (holdings mems T0 Ts))
    {start limit : Option Bytes} (hb : InOrder o.ord start limit) (strict strict' : Bool) :
    ∃ is, rawIters o mems (T0.map Prod.fst) (Ts.map (List.map Prod.fst)) start limit strict = some is ∧
      ∀ as, (⟨o.ord, srcKind o.ord, strict'⟩ : MEnv O (Src O)).asks (MI.new is) as = cursor o.ord (between o.ord start limit all) .before as := by
  obtain ⟨is, Ls, h1, h2, h3, hLs⟩ := level_iters hb strict Ts hT
  unfold rawIters
  rw [h1]
  refine ⟨_, rfl, fun as => ?_⟩
  have f1 : List.Forall₂ (fun i L => ∃ p, SrcAt o i L p) (mems.map (fun m => Src.mem (between o.ord start limit m, .before))) (mems.map (between o.ord start limit)) := by
    rw [List.forall₂_map_left_iff, List.forall₂_map_right_iff, List.forall₂_same]
    intro m _
    exact ⟨.before, rfl⟩
  have f2 : List.Forall₂ (fun i L => ∃ p, SrcAt o i L p) ((T0.map Prod.fst).map (fun t => Src.table (t.iter o start limit strict))) (T0.map (fun x => between o.ord start limit x.2)) := by
    rw [List.map_map, List.forall₂_map_left_iff, List.forall₂_map_right_iff, List.forall₂_same]
    intro x hx
    exact ⟨.before, holds_iter (h0 x hx) _ _ _⟩
  have hflat : (mems.map (between o.ord start limit) ++ (T0.map (fun x => between o.ord start limit x.2) ++ Ls)).flatten =
      between o.ord start limit (holdings mems T0 Ts) := by
    rw [List.flatten_append, List.flatten_append, h3, ← between_flat]
    have : (T0.map (fun x => between o.ord start limit x.2)).flatten = between o.ord start limit (T0.map Prod.snd).flatten := by
      rw [between_flat, List.map_map]; rfl
    rw [this]
    unfold holdings between
    rw [List.filter_append, List.filter_append]
  have hP : (between o.ord start limit all).Perm (mems.map (between o.ord start limit) ++ (T0.map (fun x => between o.ord start limit x.2) ++ Ls)).flatten := by
    rw [hflat]
    exact hperm.filter _
  refine merged_iterator_is_cursor ⟨o.ord, srcKind o.ord, strict'⟩ (SrcAt o) (srcKind_cursor o) (List.rel_append f1 (List.rel_append f2 h2)) ?_ (M := between o.ord start limit all) (hall.sublist List.filter_sublist) hP as
  intro L hL
  rcases List.mem_append.1 hL with hL | hL
  · obtain ⟨m, hm', rfl⟩ := List.mem_map.1 hL
    exact (hm m hm').sublist List.filter_sublist
  · rcases List.mem_append.1 hL with hL | hL
    · obtain ⟨x, hx, rfl⟩ := List.mem_map.1 hL
      exact (h0 x hx).grows.sublist List.filter_sublist
    · exact hLs L hL

theorem level_iters_none {o : Opts O} {start limit : Option Bytes} (strict : Bool) (levels : List (List TF)) :
    (∃ tf ∈ levels, tf.length ≠ 0 ∧ levelCut o.ord tf start limit = none) → levelIters o start limit strict levels = none := by
  induction levels with
  | nil => rintro ⟨tf, h, _⟩; cases h
  | cons tf levels ih =>
    rintro ⟨x, hx, h0, hc⟩
    unfold levelIters
    rcases List.mem_cons.1 hx with r | r
    · rw [← r, if_neg h0, hc]
    · have := ih ⟨x, r, h0, hc⟩
      rw [this]
      split
      · rfl
      · split <;> rfl

/-- **The same for an iterator over all sources**: no iterator is made, whatever the other levels hold. -/
theorem inverted_range_panics_raw {o : Opts O} {Ts : List (List (TF × List (Bytes × Bytes)))} {T : List (TF × List (Bytes × Bytes))} (hT : T ∈ Ts) (h : LevelOf o T)
    {x : TF × List (Bytes × Bytes)} (hx : x ∈ T) {s l : Bytes} (hl : o.ord l ≤ o.ord x.1.imin) (hs : o.ord x.1.imax < o.ord s)
    (mems : List (List (Bytes × Bytes))) (level0 : List TF) (strict : Bool) :
    rawIters o mems level0 (Ts.map (List.map Prod.fst)) (some s) (some l) strict = none := by
  unfold rawIters
  rw [level_iters_none strict _ ⟨T.map Prod.fst, List.mem_map_of_mem hT, ?_, inverted_range_panics h hx hl hs⟩]
  · rfl
  · rw [List.length_map]
    exact Nat.ne_of_gt (List.length_pos_of_mem hx)

end Verif.Tab
