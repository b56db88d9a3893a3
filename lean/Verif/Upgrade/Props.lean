import Verif.Upgrade.Model
import Verif.Tactics

/-! # Which rules hold at which height -/

namespace Verif.Upgrade

/-! ### Specification -/

/-- The last point of a version in a list. -/
def lastOf (ps : List Point) (v : Nat) : Option Point := ps.reverse.find? (fun p => p.version = v)

/-- The point that was given for a version: the last, if there are several. -/
def given (ps : List Point) (v : Nat) : Option Point := (lastOf ps v).map (fun p => ⟨if p.name = [] then Nat.toDigits 10 p.version else p.name, p.height, p.version⟩)

/-- The points are those of the versions from 1 to some number, and their heights do not fall. -/
def Valid (ps : List Point) : Prop :=
  ∃ n, (∀ v, (∃ p, given ps v = some p) ↔ 1 ≤ v ∧ v ≤ n) ∧ ∀ v p q, given ps v = some p → given ps (v + 1) = some q → p.height ≤ q.height

/-! ### Maps -/

theorem get_put (m : List Point) (p : Point) (v : Nat) : get (put m p) v = if p.version = v then some p else get m v := by
  unfold get put
  rw [List.find?_cons]
  by_cases h : p.version = v
  · simp [h]
  · simp only [h, decide_false, if_false]
    rw [List.find?_filter]
    congr 1
    funext q
    by_cases hq : q.version = v
    · simp [hq]; exact fun e => h e.symm
    · simp [hq]

theorem get_fold (ps : List Point) : ∀ (m : List Point) (v : Nat), get (ps.foldl put m) v = (lastOf ps v).or (get m v) := by
  induction ps with
  | nil => intro m v; rfl
  | cons p ps ih =>
    intro m v
    rw [List.foldl_cons, ih, get_put]
    unfold lastOf
    rw [List.reverse_cons, List.find?_append, Option.or_assoc]
    congr 1
    by_cases h : p.version = v
    · simp [h]
    · simp [h]

theorem put_nodup {m : List Point} (h : m.Pairwise (fun a b => a.version ≠ b.version)) (p : Point) : (put m p).Pairwise (fun a b => a.version ≠ b.version) := by
  unfold put
  refine List.pairwise_cons.2 ⟨?_, h.sublist List.filter_sublist⟩
  intro q hq
  have := (List.mem_filter.1 hq).2
  simp only [ne_eq, decide_not, Bool.not_eq_true', decide_eq_false_iff_not] at this
  exact fun e => this e.symm

theorem fold_nodup (ps : List Point) : ∀ {m : List Point}, m.Pairwise (fun a b => a.version ≠ b.version) → (ps.foldl put m).Pairwise (fun a b => a.version ≠ b.version) := by
  induction ps with
  | nil => intro m h; exact h
  | cons p ps ih => intro m h; exact ih (put_nodup h p)

theorem get_mem {m : List Point} (h : m.Pairwise (fun a b => a.version ≠ b.version)) (p : Point) : get m p.version = some p ↔ p ∈ m := by
  induction m with
  | nil => simp [get]
  | cons q m ih =>
    have hc := List.pairwise_cons.1 h
    unfold get
    rw [List.find?_cons]
    by_cases e : q.version = p.version
    · simp only [e, decide_true]
      constructor
      · intro x; rw [Option.some.inj x]; exact List.mem_cons_self
      · intro x
        rcases List.mem_cons.1 x with x | x
        · rw [x]
        · exact absurd e (hc.1 p x)
    · simp only [e, decide_false]
      rw [List.mem_cons, ← ih hc.2]
      constructor
      · exact fun x => Or.inr x
      · rintro (x | x)
        · rw [x] at e; exact absurd rfl e
        · exact x

theorem get_version {m : List Point} {v : Nat} {p : Point} (h : get m v = some p) : p.version = v := by
  have := List.find?_some h
  simpa using this

theorem named_eq (p : Point) : named p = ⟨if p.name = [] then Nat.toDigits 10 p.version else p.name, p.height, p.version⟩ := by
  unfold named
  by_cases h : p.name = []
  · rw [if_pos h, if_pos h]
  · rw [if_neg h, if_neg h]

theorem named_version (p : Point) : (named p).version = p.version := by rw [named_eq]
theorem named_height (p : Point) : (named p).height = p.height := by rw [named_eq]

theorem lastOf_named (ps : List Point) (v : Nat) : lastOf (ps.map named) v = given ps v := by
  unfold given lastOf
  rw [← List.map_reverse, List.find?_map]
  have : ((fun p : Point => decide (p.version = v)) ∘ named) = (fun p : Point => decide (p.version = v)) := by
    funext p; simp only [Function.comp, named_version]
  rw [this]
  congr 1
  funext p
  exact named_eq p

theorem given_version {m : List Point} {v : Nat} {p : Point} (h : given m v = some p) : p.version = v := by
  rw [← lastOf_named] at h
  have := List.find?_some h
  simpa using this

/-- Without repetition, what is given is what is in the list. -/
theorem given_mem {qs : List Point} (hq : qs.Pairwise (fun a b => a.version ≠ b.version)) (p : Point) : given qs p.version = some p ↔ p ∈ qs.map named := by
  have hm : (qs.map named).Pairwise (fun a b => a.version ≠ b.version) := List.pairwise_map.2 (hq.imp (fun {a b} h => by rw [named_version, named_version]; exact h))
  have hr : (qs.map named).reverse.Pairwise (fun a b => a.version ≠ b.version) := (List.reverse_perm (qs.map named)).pairwise_iff (fun {a b} (h : a.version ≠ b.version) => h.symm) |>.2 hm
  have := get_mem hr p
  rw [List.mem_reverse] at this
  rw [← lastOf_named]
  exact this

/-! ### What a box holds -/

/-- The points of a sorted list are those given. -/
structure Holds (ps l : List Point) : Prop where
  sorted : l.Pairwise (fun a b => a.version < b.version)
  mem : ∀ p, p ∈ l ↔ given ps p.version = some p

theorem sort_holds (ps : List Point) : Holds ps (initFromArray ps).sorted := by
  have hn := fold_nodup (ps.map named) (m := []) List.Pairwise.nil
  have hp : (initFromArray ps).sorted.Perm ((ps.map named).foldl put []) := List.perm_insertionSort _ _
  constructor
  · have : Std.Total (fun a b : Point => a.version ≤ b.version) := ⟨fun a b => Nat.le_total _ _⟩
    have : IsTrans Point (fun a b : Point => a.version ≤ b.version) := ⟨fun a b c => Nat.le_trans⟩
    have h1 : (initFromArray ps).sorted.Pairwise (fun a b => a.version ≤ b.version) := List.pairwise_insertionSort _ _
    have h2 : (initFromArray ps).sorted.Pairwise (fun a b => a.version ≠ b.version) := (hp.pairwise_iff (fun {a b} (h : a.version ≠ b.version) => h.symm)).2 hn
    exact (h1.and h2).imp (fun {a b} h => Nat.lt_of_le_of_ne h.1 h.2)
  · intro p
    rw [hp.mem_iff, ← get_mem hn, get_fold]
    show (lastOf (ps.map named) p.version).or none = some p ↔ _
    rw [Option.or_none, lastOf_named]

/-- `checkFrom` asks for consecutive versions and heights that do not fall. -/
theorem check_iff (l : List Point) : ∀ i h, checkFrom i h l = true ↔ l.map Point.version = List.range' (i + 1) l.length ∧ (∀ p ∈ l, h ≤ p.height) ∧ l.Pairwise (fun a b => a.height ≤ b.height) := by
  induction l with
  | nil => intro i h; simp [checkFrom]
  | cons p l ih =>
    intro i h
    unfold checkFrom
    rw [List.map_cons, List.length_cons, List.range'_succ, List.pairwise_cons]
    by_cases h1 : i + 1 = p.version
    · by_cases h2 : p.height < h
      · rw [if_neg (by simpa using h1), if_pos h2]
        refine ⟨fun x => by simp at x, fun x => ?_⟩
        have := x.2.1 p List.mem_cons_self
        omega
      · rw [if_neg (by simpa using h1), if_neg h2, ih (i + 1) p.height]
        constructor
        · rintro ⟨a, b, c⟩
          refine ⟨by rw [a, h1], ?_, b, c⟩
          intro q hq
          rcases List.mem_cons.1 hq with e | e
          · rw [e]; omega
          · exact le_trans (by omega) (b q e)
        · rintro ⟨a, b, c, d⟩
          exact ⟨(List.cons.inj a).2, c, d⟩
    · rw [if_pos (by simpa using h1)]
      refine ⟨fun x => by simp at x, fun x => ?_⟩
      exact absurd (List.cons.inj x.1).1.symm h1

theorem newBox_some {ps : List Point} {b : Box} (h : newBox ps = some b) :
    b = initFromArray ps ∧ b.sorted.map Point.version = List.range' 1 b.sorted.length ∧ b.sorted.Pairwise (fun a c => a.height ≤ c.height) := by
  unfold newBox at h
  dsimp only at h
  by_cases hc : checkFrom 0 0 (initFromArray ps).sorted = true
  · rw [if_pos hc] at h
    have e := (Option.some.inj h).symm
    have := (check_iff _ 0 0).1 hc
    subst e
    exact ⟨rfl, this.1, this.2.2⟩
  · rw [if_neg hc] at h; cases h

/-! ### Loops over a sorted list -/

theorem lastWhile_eq (f : Point → Bool) (l : List Point) : ∀ r, lastWhile f r l = ((l.takeWhile f).getLast?).or r := by
  induction l with
  | nil => intro r; rfl
  | cons p l ih =>
    intro r
    unfold lastWhile
    by_cases h : f p = true
    · rw [if_pos h, ih, List.takeWhile_cons, if_pos h]
      cases hl : l.takeWhile f with
      | nil => rfl
      | cons q t => rw [List.getLast?_cons_cons]; simp [List.getLast?_eq_some_getLast]
    · rw [if_neg h, List.takeWhile_cons, if_neg h]; rfl

/-- With heights that do not fall, what is below a height comes first. -/
theorem takeWhile_filter {f : Nat → Bool} (hf : ∀ a b, a ≤ b → f b = true → f a = true) {l : List Point} (h : l.Pairwise (fun a b => a.height ≤ b.height)) :
    l.takeWhile (fun p => f p.height) = l.filter (fun p => f p.height) := by
  induction l with
  | nil => rfl
  | cons p l ih =>
    have hc := List.pairwise_cons.1 h
    rw [List.takeWhile_cons, List.filter_cons]
    by_cases q : f p.height = true
    · rw [if_pos q, if_pos q, ih hc.2]
    · rw [if_neg q, if_neg q]
      symm
      rw [List.filter_eq_nil_iff]
      intro a ha x
      exact q (hf _ _ (hc.1 a ha) x)

/-- The last of a sorted list. -/
theorem last_iff {l : List Point} (h : l.Pairwise (fun a b => a.version < b.version)) (p : Point) :
    l.getLast? = some p ↔ p ∈ l ∧ ∀ q ∈ l, q.version ≤ p.version := by
  constructor
  · intro e
    obtain ⟨t, ht⟩ := List.getLast?_eq_some_iff.1 e
    subst ht
    refine ⟨by simp, ?_⟩
    intro q hq
    rcases List.mem_append.1 hq with x | x
    · exact Nat.le_of_lt ((List.pairwise_append.1 h).2.2 q x p (by simp))
    · rw [List.mem_singleton.1 x]
  · rintro ⟨hm, hq⟩
    cases e : l.getLast? with
    | none => rw [List.getLast?_eq_none_iff.1 e] at hm; cases hm
    | some r =>
      obtain ⟨t, ht⟩ := List.getLast?_eq_some_iff.1 e
      subst ht
      rcases List.mem_append.1 hm with x | x
      · have h1 := (List.pairwise_append.1 h).2.2 p x r (by simp)
        have h2 := hq r (by simp)
        omega
      · rw [List.mem_singleton.1 x]

theorem newest_of {ps : List Point} {b : Box} (h : newBox ps = some b) {f : Nat → Bool} (hf : ∀ x y, x ≤ y → f y = true → f x = true) (p : Point) :
    lastWhile (fun p => f p.height) none b.sorted = some p ↔
      given ps p.version = some p ∧ f p.height = true ∧ ∀ v q, given ps v = some q → f q.height = true → v ≤ p.version := by
  obtain ⟨e, _, hh⟩ := newBox_some h
  have hs := sort_holds ps
  rw [← e] at hs
  rw [lastWhile_eq, Option.or_none, takeWhile_filter hf hh, last_iff (hs.sorted.sublist List.filter_sublist)]
  constructor
  · rintro ⟨a, c⟩
    obtain ⟨a1, a2⟩ := List.mem_filter.1 a
    refine ⟨(hs.mem p).1 a1, a2, ?_⟩
    intro v q hq hqf
    have hv := given_version hq
    rw [← hv]
    refine c q (List.mem_filter.2 ⟨(hs.mem q).2 ?_, hqf⟩)
    rw [hv]; exact hq
  · rintro ⟨a1, a2, c⟩
    refine ⟨List.mem_filter.2 ⟨(hs.mem p).2 a1, a2⟩, ?_⟩
    intro q hq
    obtain ⟨q1, q2⟩ := List.mem_filter.1 hq
    exact c _ q ((hs.mem q).1 q1) q2

theorem pair_height {l : List Point} (h : l.Pairwise (fun a b => a.version < b.version ∧ a.height ≤ b.height)) {p q : Point} (hp : p ∈ l) (hq : q ∈ l)
    (hlt : p.version < q.version) : p.height ≤ q.height := by
  induction l with
  | nil => cases hp
  | cons a l ih =>
    have hc := List.pairwise_cons.1 h
    rcases List.mem_cons.1 hp with e | e
    · rcases List.mem_cons.1 hq with e' | e'
      · rw [e, e'] at hlt; omega
      · rw [e]; exact (hc.1 q e').2
    · rcases List.mem_cons.1 hq with e' | e'
      · have := (hc.1 p e).1
        rw [← e'] at this; omega
      · exact ih hc.2 e e'

theorem valid_chain {ps : List Point} {n : Nat} (v1 : ∀ v, (∃ p, given ps v = some p) ↔ 1 ≤ v ∧ v ≤ n)
    (v2 : ∀ v p q, given ps v = some p → given ps (v + 1) = some q → p.height ≤ q.height) :
    ∀ k u q, given ps (u + k) = some q → 1 ≤ u → ∃ r, given ps u = some r ∧ r.height ≤ q.height := by
  intro k
  induction k with
  | zero => intro u q hq _; exact ⟨q, hq, Nat.le_refl _⟩
  | succ k ih =>
    intro u q hq hu
    have hq' : given ps (u + 1 + k) = some q := by rw [← hq]; congr 1; omega
    obtain ⟨r, hr, hrq⟩ := ih (u + 1) q hq' (by omega)
    have := ((v1 (u + 1)).1 ⟨r, hr⟩).2
    obtain ⟨s, hs⟩ := (v1 u).2 ⟨hu, by omega⟩
    exact ⟨s, hs, le_trans (v2 u s r hs hr) hrq⟩

/-! ### The properties -/

/-- **A box is made exactly of valid points.** -/
theorem init_iff (ps : List Point) : (newBox ps).isSome = true ↔ Valid ps := by
  have hs := sort_holds ps
  constructor
  · intro h
    obtain ⟨b, hb⟩ := Option.isSome_iff_exists.1 h
    obtain ⟨e, h1, h2⟩ := newBox_some hb
    rw [e] at h1 h2
    refine ⟨(initFromArray ps).sorted.length, ?_, ?_⟩
    · intro v
      have : (∃ p, given ps v = some p) ↔ v ∈ (initFromArray ps).sorted.map Point.version := by
        rw [List.mem_map]
        constructor
        · rintro ⟨p, hp⟩
          have hv := given_version hp
          exact ⟨p, (hs.mem p).2 (by rw [hv]; exact hp), hv⟩
        · rintro ⟨p, hp, hv⟩
          exact ⟨p, by rw [← hv]; exact (hs.mem p).1 hp⟩
      rw [this, h1, List.mem_range'_1]
      omega
    · intro v p q hp hq
      have hpv := given_version hp
      have hqv := given_version hq
      have hpm := (hs.mem p).2 (by rw [hpv]; exact hp)
      have hqm := (hs.mem q).2 (by rw [hqv]; exact hq)
      exact pair_height (hs.sorted.and h2) hpm hqm (by omega)
  · rintro ⟨n, h1, h2⟩
    have hv : (initFromArray ps).sorted.map Point.version = List.range' 1 n := by
      have e1 : ((initFromArray ps).sorted.map Point.version).Pairwise (· < ·) := List.pairwise_map.2 hs.sorted
      have e2 : (List.range' 1 n).Pairwise (· < ·) := List.pairwise_lt_range'
      refine List.Perm.eq_of_pairwise (le := (· < ·)) (by intro a b _ _ x y; omega) e1 e2 ?_
      refine (List.perm_ext_iff_of_nodup (e1.imp (fun {a b} x => Nat.ne_of_lt x)) (e2.imp (fun {a b} x => Nat.ne_of_lt x))).2 ?_
      intro v
      rw [List.mem_range'_1, List.mem_map]
      constructor
      · rintro ⟨p, hp, e⟩
        have := (h1 v).1 ⟨p, by rw [← e]; exact (hs.mem p).1 hp⟩
        omega
      · intro x
        obtain ⟨p, hp⟩ := (h1 v).2 (by omega)
        have e := given_version hp
        exact ⟨p, (hs.mem p).2 (by rw [e]; exact hp), e⟩
    have hl : (initFromArray ps).sorted.length = n := by
      rw [← List.length_map (f := Point.version), hv, List.length_range']
    have hh : (initFromArray ps).sorted.Pairwise (fun a b => a.height ≤ b.height) := by
      refine List.Pairwise.imp_of_mem ?_ hs.sorted
      intro a b ha hb hab
      have ha' := (hs.mem a).1 ha
      have hb' := (hs.mem b).1 hb
      obtain ⟨r, hr, hle⟩ := valid_chain h1 h2 (b.version - a.version) a.version b (by rw [← hb']; congr 1; omega) ((h1 _).1 ⟨a, ha'⟩).1
      rw [ha'] at hr
      rw [Option.some.inj hr]; exact hle
    unfold newBox
    dsimp only
    rw [if_pos ((check_iff _ 0 0).2 ⟨by rw [hl]; exact hv, fun p _ => Nat.zero_le _, hh⟩)]
    rfl

/-- **A version is active from its height on.** -/
theorem active_iff {ps : List Point} {b : Box} (h : newBox ps = some b) (v height : Nat) :
    b.isActive v height = true ↔ ∃ p, given ps v = some p ∧ p.height ≤ height := by
  obtain ⟨e, _⟩ := newBox_some h
  subst e
  have hg : get (initFromArray ps).points v = given ps v := by
    show get ((ps.map named).foldl put []) v = _
    rw [get_fold]
    show (lastOf (ps.map named) v).or none = _
    rw [Option.or_none, lastOf_named]
  unfold Box.isActive
  rw [hg]
  cases hv : given ps v with
  | none => simp
  | some p => simp

/-- **What is active stays so**, and so do the versions before it. -/
theorem active_mono {ps : List Point} {b : Box} (h : newBox ps = some b) {v w h1 h2 : Nat} (ha : b.isActive v h1 = true) (hw : 1 ≤ w) (hwv : w ≤ v) (hh : h1 ≤ h2) :
    b.isActive w h2 = true := by
  obtain ⟨n, v1, v2⟩ := (init_iff ps).1 (by rw [h]; rfl)
  obtain ⟨p, hp, hle⟩ := (active_iff h v h1).1 ha
  obtain ⟨r, hr, hrp⟩ := valid_chain v1 v2 (v - w) w p (by rw [← hp]; congr 1; omega) hw
  exact (active_iff h w h2).2 ⟨r, hr, by omega⟩

/-- **The current point is that of the greatest active version.** -/
theorem current_iff {ps : List Point} {b : Box} (h : newBox ps = some b) (height : Nat) (p : Point) :
    b.currentPoint height = some p ↔ given ps p.version = some p ∧ b.isActive p.version height = true ∧ ∀ v, b.isActive v height = true → v ≤ p.version := by
  have := newest_of h (f := fun x => decide (x ≤ height)) (by intro x y hxy hy; simp only [decide_eq_true_eq] at *; omega) p
  simp only [decide_eq_true_eq] at this
  refine this.trans ⟨?_, ?_⟩
  · rintro ⟨a, c, d⟩
    refine ⟨a, (active_iff h _ _).2 ⟨p, a, c⟩, ?_⟩
    intro v hv
    obtain ⟨q, hq, hqh⟩ := (active_iff h _ _).1 hv
    exact d v q hq hqh
  · rintro ⟨a, c, d⟩
    obtain ⟨q, hq, hqh⟩ := (active_iff h _ _).1 c
    rw [a] at hq
    rw [← Option.some.inj hq] at hqh
    exact ⟨a, hqh, fun v q hq hqf => d v ((active_iff h _ _).2 ⟨q, hq, hqf⟩)⟩

/-- **The latest point** is the greatest version whose height is below the one that stands for never. -/
theorem latest_iff {ps : List Point} {b : Box} (h : newBox ps = some b) (p : Point) :
    b.latestPoint = some p ↔ given ps p.version = some p ∧ p.height < endless ∧ ∀ v q, given ps v = some q → q.height < endless → v ≤ p.version := by
  have := newest_of h (f := fun x => decide (x < endless)) (by intro x y hxy hy; simp only [decide_eq_true_eq] at *; omega) p
  simp only [decide_eq_true_eq] at this
  exact this

/-- **The active points**, in order of version: those from 1 to the current one. -/
theorem activePoints_iff {ps : List Point} {b : Box} (h : newBox ps = some b) (height : Nat) :
    (b.activePoints height).Pairwise (fun p q => p.version < q.version) ∧ (∀ p, p ∈ b.activePoints height ↔ given ps p.version = some p ∧ p.height ≤ height) ∧
    (b.activePoints height).getLast? = b.currentPoint height := by
  obtain ⟨e, _, hh⟩ := newBox_some h
  have hs := sort_holds ps
  rw [← e] at hs
  refine ⟨hs.sorted.sublist List.filter_sublist, ?_, ?_⟩
  · intro p
    unfold Box.activePoints
    rw [List.mem_filter, hs.mem]; simp
  · unfold Box.activePoints Box.currentPoint
    rw [lastWhile_eq, Option.or_none, takeWhile_filter (f := fun x => decide (x ≤ height)) (by intro x y hxy hy; simp only [decide_eq_true_eq] at *; omega) hh]

/-- A height is a point if it was given. -/
theorem isPoint_iff {ps : List Point} {b : Box} (h : newBox ps = some b) (height : Nat) : b.isPoint height = true ↔ ∃ p ∈ ps, p.height = height := by
  obtain ⟨e, _⟩ := newBox_some h
  subst e
  show (ps.map Point.height).contains height = true ↔ _
  rw [List.contains_iff_mem, List.mem_map]

/-- **The order in which points are given does not matter**, if the versions differ (the settings of a node
are a map). -/
theorem order_irrelevant {ps ps' : List Point} (hp : ps.Perm ps') (hn : ps.Pairwise (fun a b => a.version ≠ b.version)) :
    (newBox ps).map Box.sorted = (newBox ps').map Box.sorted ∧ ((newBox ps).isSome = (newBox ps').isSome) := by
  have hn' := (hp.pairwise_iff (fun {a b} (h : a.version ≠ b.version) => h.symm)).1 hn
  have h1 := sort_holds ps
  have h2 := sort_holds ps'
  have hs : (initFromArray ps).sorted = (initFromArray ps').sorted := by
    refine List.Perm.eq_of_pairwise (le := fun a b : Point => a.version < b.version) ?_ h1.sorted h2.sorted ?_
    · intro a b _ _ x y; omega
    · refine (List.perm_ext_iff_of_nodup (h1.sorted.imp (fun {a b} x e => by rw [e] at x; omega)) (h2.sorted.imp (fun {a b} x e => by rw [e] at x; omega))).2 ?_
      intro p
      rw [h1.mem, h2.mem, given_mem hn, given_mem hn', (hp.map named).mem_iff]
  unfold newBox
  dsimp only
  rw [← hs]
  by_cases hc : checkFrom 0 0 (initFromArray ps).sorted = true
  · rw [if_pos hc, if_pos hc]; exact ⟨congrArg some hs, rfl⟩
  · rw [if_neg hc, if_neg hc]; exact ⟨rfl, rfl⟩

/-- The boxes that a node can be given: made of points, and with points added. -/
inductive Made : Box → Prop
  | new {ps : List Point} {b : Box} : newBox ps = some b → Made b
  | add {b b' : Box} (v h : Nat) : Made b → b.addPoint v h = some b' → Made b'

theorem sortPoints_sorted {m : List Point} (hn : m.Pairwise (fun a b => a.version ≠ b.version)) : (sortPoints m).Pairwise (fun a b => a.version < b.version) := by
  have hp : (sortPoints m).Perm m := List.perm_insertionSort _ _
  have : Std.Total (fun a b : Point => a.version ≤ b.version) := ⟨fun a b => Nat.le_total _ _⟩
  have : IsTrans Point (fun a b : Point => a.version ≤ b.version) := ⟨fun a b c => Nat.le_trans⟩
  have h1 : (sortPoints m).Pairwise (fun a b => a.version ≤ b.version) := List.pairwise_insertionSort _ _
  have h2 : (sortPoints m).Pairwise (fun a b => a.version ≠ b.version) := (hp.pairwise_iff (fun {a b} (h : a.version ≠ b.version) => h.symm)).2 hn
  exact (h1.and h2).imp (fun {a b} h => Nat.lt_of_le_of_ne h.1 h.2)

theorem made_sorted {b : Box} (h : Made b) : b.points.Pairwise (fun a b => a.version ≠ b.version) ∧ b.sorted = sortPoints b.points := by
  induction h with
  | @new ps b hb =>
    obtain ⟨e, _⟩ := newBox_some hb
    subst e
    exact ⟨fold_nodup (ps.map named) List.Pairwise.nil, rfl⟩
  | @add b b' v h _ hb ih =>
    unfold Box.addPoint at hb
    split at hb
    · cases hb
    · have e := (Option.some.inj hb).symm
      subst e
      exact ⟨put_nodup ih.1 _, rfl⟩

/-- **A point that is added** is that of its version from then on, and the other versions keep theirs. -/
theorem addPoint_exact {b b' : Box} (hb : Made b) {v h : Nat} (ha : b.addPoint v h = some b') :
    ∀ p, p ∈ b'.sorted ↔ p = ⟨[], h, v⟩ ∨ (p ∈ b.sorted ∧ p.version ≠ v) := by
  obtain ⟨hn, hs⟩ := made_sorted hb
  obtain ⟨hn', hs'⟩ := made_sorted (.add v h hb ha)
  intro p
  have e1 : p ∈ b.sorted ↔ p ∈ b.points := by rw [hs]; exact (List.perm_insertionSort _ _).mem_iff
  have e2 : p ∈ b'.sorted ↔ p ∈ b'.points := by rw [hs']; exact (List.perm_insertionSort _ _).mem_iff
  rw [e1, e2]
  unfold Box.addPoint at ha
  split at ha
  · cases ha
  · have e := (Option.some.inj ha).symm
    subst e
    show p ∈ put b.points ⟨[], h, v⟩ ↔ _
    unfold put
    rw [List.mem_cons, List.mem_filter]
    simp

/-- **The box of the node** has the points of the box it is given, whatever was added to that one, and a height
is a point exactly if a version begins there. -/
theorem node_box {b b' : Box} (hm : Made b) (h : initNode b = some b') :
    b'.sorted = b.sorted.map named ∧ ∀ height, b'.isPoint height = true ↔ ∃ p ∈ b'.sorted, p.height = height := by
  have hs : b.sorted.Pairwise (fun p q => p.version < q.version) := by rw [(made_sorted hm).2]; exact sortPoints_sorted (made_sorted hm).1
  have hn : b.sorted.Pairwise (fun a b => a.version ≠ b.version) := hs.imp (fun {a b} x => Nat.ne_of_lt x)
  have hs' : (b.sorted.map named).Pairwise (fun p q => p.version < q.version) := List.pairwise_map.2 (hs.imp (fun {a b} h => by rw [named_version, named_version]; exact h))
  obtain ⟨e, _⟩ := newBox_some h
  have h1 := sort_holds b.sorted
  rw [← e] at h1
  have hq : b'.sorted = b.sorted.map named := by
    refine List.Perm.eq_of_pairwise (le := fun a b : Point => a.version < b.version) ?_ h1.sorted hs' ?_
    · intro a b _ _ x y; omega
    · refine (List.perm_ext_iff_of_nodup (h1.sorted.imp (fun {a b} x e => by rw [e] at x; omega)) (hs'.imp (fun {a b} x e => by rw [e] at x; omega))).2 ?_
      intro p
      rw [h1.mem, given_mem hn]
  refine ⟨hq, fun height => ?_⟩
  rw [isPoint_iff h, hq]
  constructor
  · rintro ⟨p, hp, e'⟩; exact ⟨named p, List.mem_map.2 ⟨p, hp, rfl⟩, by rw [named_height]; exact e'⟩
  · rintro ⟨p, hp, e'⟩
    obtain ⟨q, hq1, hq2⟩ := List.mem_map.1 hp
    exact ⟨q, hq1, by rw [← named_height, hq2]; exact e'⟩

/-! ### Findings and examples -/

/-- The points of the main net, and those with everything active, are valid. -/
theorem mainnet_valid : Valid mainnet ∧ Valid allActive := by
  rw [← init_iff, ← init_iff]; decide +kernel

/-- At height 9413600 of the main net, version 5 has begun and version 6 has not. -/
example : ∃ b, newBox mainnet = some b ∧ b.currentPoint 9413600 = some ⟨['L', 'e', 'a', 'f', 'F', 'o', 'r', 'k'], 9413600, 5⟩ ∧ b.isActive 5 9413599 = false ∧ b.isActive 5 9413600 = true ∧
    b.isActive 6 9413600 = false ∧ b.isPoint 9413600 = true ∧ b.latestPoint = some ⟨['V', 'e', 'r', 's', 'i', 'o', 'n', '1', '3'], 166869900, 13⟩ ∧ (b.activePoints 9413600).length = 5 := by
  refine ⟨initFromArray mainnet, ?_⟩; decide +kernel

/-- A missing version and a height that falls are refused. -/
example : newBox [⟨[], 1, 1⟩, ⟨[], 5, 3⟩] = none ∧ newBox [⟨[], 7, 1⟩, ⟨[], 5, 2⟩] = none ∧ (newBox [⟨[], 7, 2⟩, ⟨[], 5, 1⟩]).map Box.sorted = some [⟨['1'], 5, 1⟩, ⟨['2'], 7, 2⟩] := by
  decide +kernel

/-- An empty box to which two points are added, as tests do it. -/
example : ∃ b0 b1 b2 b', newBox [] = some b0 ∧ b0.addPoint 1 10 = some b1 ∧ b1.addPoint 2 20 = some b2 ∧ Made b2 ∧ initNode b2 = some b' ∧ b'.sorted = [⟨['1'], 10, 1⟩, ⟨['2'], 20, 2⟩] := by
  have h0 : newBox [] = some ⟨[], [], []⟩ := by decide +kernel
  have h1 : (⟨[], [], []⟩ : Box).addPoint 1 10 = some ⟨[⟨[], 10, 1⟩], [10], [⟨[], 10, 1⟩]⟩ := by decide +kernel
  have h2 : (⟨[⟨[], 10, 1⟩], [10], [⟨[], 10, 1⟩]⟩ : Box).addPoint 2 20 = some ⟨[⟨[], 20, 2⟩, ⟨[], 10, 1⟩], [20, 10], [⟨[], 10, 1⟩, ⟨[], 20, 2⟩]⟩ := by decide +kernel
  exact ⟨_, _, _, initFromArray [⟨[], 10, 1⟩, ⟨[], 20, 2⟩], h0, h1, h2, .add 2 20 (.add 1 10 (.new h0) h1) h2, by decide +kernel, by decide +kernel⟩

/-- **A point that is added later is not checked**: with a lower height than the version before it, the new
version is active and is not the current one, though it is among the active points. -/
theorem addPoint_unchecked : ∃ b b', newBox [⟨[], 10, 1⟩] = some b ∧ b.addPoint 2 5 = some b' ∧ b'.isActive 2 7 = true ∧ b'.isActive 1 7 = false ∧
    b'.currentPoint 7 = none ∧ b'.activePoints 7 = [⟨[], 5, 2⟩] := by
  refine ⟨initFromArray [⟨[], 10, 1⟩], ⟨[⟨[], 5, 2⟩, ⟨['1'], 10, 1⟩], [5, 10], [⟨['1'], 10, 1⟩, ⟨[], 5, 2⟩]⟩, ?_⟩; decide +kernel

/-- **It has no name**, so that a node to which it is added has another current point, and another hash of
snapshot blocks, than one that begins with the same points. -/
theorem addPoint_unnamed : ∃ b b1 b2, newBox [⟨[], 10, 1⟩] = some b ∧ b.addPoint 2 20 = some b1 ∧ newBox [⟨[], 10, 1⟩, ⟨[], 20, 2⟩] = some b2 ∧
    b1.currentPoint 20 = some ⟨[], 20, 2⟩ ∧ b2.currentPoint 20 = some ⟨['2'], 20, 2⟩ := by
  refine ⟨initFromArray [⟨[], 10, 1⟩], ⟨[⟨[], 20, 2⟩, ⟨['1'], 10, 1⟩], [20, 10], [⟨['1'], 10, 1⟩, ⟨[], 20, 2⟩]⟩, initFromArray [⟨[], 10, 1⟩, ⟨[], 20, 2⟩], ?_⟩
  decide +kernel

/-- **A height that was replaced is still a point**, though no version begins there. -/
theorem replaced_height_stays : ∃ b, newBox [⟨[], 10, 1⟩, ⟨[], 20, 1⟩] = some b ∧ b.isPoint 10 = true ∧ b.activePoints 10 = [] ∧ b.sorted = [⟨['1'], 20, 1⟩] := by
  refine ⟨initFromArray [⟨[], 10, 1⟩, ⟨[], 20, 1⟩], ?_⟩; decide +kernel

end Verif.Upgrade
