import Verif.Lsm.Look

/-! Lemmas about the tables that a compaction takes. -/

namespace Verif.Lsm

variable {K V : Type} [LinearOrder K]

theorem meets_iff (f : File K V) (a b : K) :
    f.meets a b = true ↔ a ≤ f.hi.key ∧ f.lo.key ≤ b := by
  simp [File.meets]

/-- The tables outside a range, by their two ends. -/
def outside (tf : List (File K V)) (a b : K) : Nat :=
  (tf.filter (fun f => decide (f.lo.key < a))).length
    + (tf.filter (fun f => decide (b < f.hi.key))).length

theorem filter_length_le {α : Type} (p q : α → Bool) (l : List α)
    (h : ∀ x ∈ l, p x = true → q x = true) : (l.filter p).length ≤ (l.filter q).length := by
  induction l with
  | nil => simp
  | cons x l ih =>
    have ih := ih (fun y hy => h y (by simp [hy]))
    have hx := h x (by simp)
    simp only [List.filter_cons]
    by_cases hp : p x = true
    · simp [hp, hx hp]
      exact ih
    · by_cases hq : q x = true
      · simp [hp, hq]
        omega
      · simp [hp, hq]
        exact ih

theorem filter_length_lt {α : Type} (p q : α → Bool) (l : List α)
    (h : ∀ x ∈ l, p x = true → q x = true) (x : α) (hx : x ∈ l) (hp : p x = false)
    (hq : q x = true) : (l.filter p).length < (l.filter q).length := by
  induction l with
  | nil => simp at hx
  | cons y l ih =>
    rcases List.mem_cons.1 hx with rfl | hx
    · have := filter_length_le p q l (fun y hy => h y (by simp [hy]))
      simp [List.filter_cons, hp, hq]
      omega
    · have ih := ih (fun y hy => h y (by simp [hy])) hx
      have hy := h y (by simp)
      simp only [List.filter_cons]
      by_cases hpy : p y = true
      · simp [hpy, hy hpy]
        exact ih
      · by_cases hqy : q y = true
        · simp [hpy, hqy]
          omega
        · simp [hpy, hqy]
          exact ih

/-- The outcome of `getOverlaps`: all the tables that meet some range around the one asked for, and
they lie within it. -/
def Closed (tf : List (File K V)) (umin umax : K) (r : List (File K V)) : Prop :=
  ∃ a b, a ≤ umin ∧ umax ≤ b ∧ r = tf.filter (fun f => f.meets a b) ∧
    ∀ f ∈ r, a ≤ f.lo.key ∧ f.hi.key ≤ b

theorem scan_closed (ov : Bool) (tf : List (File K V)) (hok : ∀ f ∈ tf, FileOk f)
    (ho : ov = false → Ordered tf) :
    ∀ (n : Nat) (pre rest dst : List (File K V)) (a b : K), tf = pre ++ rest →
      dst = pre.filter (fun f => f.meets a b) →
      (∀ f ∈ dst, a ≤ f.lo.key ∧ f.hi.key ≤ b) →
      outside tf a b * (tf.length + 1) + rest.length < n →
      Closed tf a b (scan ov tf n rest dst a b) := by
  intro n
  induction n with
  | zero => intro pre rest dst a b _ _ _ h; omega
  | succ n ih =>
    intro pre rest dst a b htf hdst hin hn
    cases rest with
    | nil =>
      simp only [scan]
      refine ⟨a, b, le_refl _, le_refl _, ?_, hin⟩
      rw [hdst, htf]
      simp
    | cons t rest =>
      have htm : t ∈ tf := by rw [htf]; simp
      have hlen : tf.length = pre.length + (rest.length + 1) := by rw [htf]; simp
      have htf' : tf = (pre ++ [t]) ++ rest := by rw [htf]; simp
      simp only [List.length_cons] at hn
      simp only [scan]
      split
      · rename_i hm
        rw [meets_iff] at hm
        split
        · rename_i hlo
          have hlt : outside tf t.lo.key b < outside tf a b := by
            have := filter_length_lt (fun f => decide (f.lo.key < t.lo.key))
              (fun f => decide (f.lo.key < a)) tf (by simp; intro x _ h; exact lt_trans h hlo) t htm
              (by simp) (by simpa using hlo)
            simp only [outside]
            omega
          have hmul : outside tf t.lo.key b * (tf.length + 1) + (tf.length + 1)
              ≤ outside tf a b * (tf.length + 1) := by
            have := Nat.mul_le_mul_right (tf.length + 1) hlt
            have e : (outside tf t.lo.key b + 1) * (tf.length + 1)
                = outside tf t.lo.key b * (tf.length + 1) + (tf.length + 1) := by ring
            have := e ▸ this
            simpa using this
          obtain ⟨a', b', h1, h2, h3, h4⟩ := ih [] tf [] t.lo.key b (by simp) (by simp) (by simp)
            (by omega)
          exact ⟨a', b', le_trans h1 hlo.le, h2, h3, h4⟩
        · rename_i hlo
          split
          · rename_i hhi
            split
            · rename_i hov
              have hlt : outside tf a t.hi.key < outside tf a b := by
                have := filter_length_lt (fun f => decide (t.hi.key < f.hi.key))
                  (fun f => decide (b < f.hi.key)) tf
                  (by simp; intro x _ h; exact lt_trans hhi h) t htm
                  (by simp) (by simpa using hhi)
                simp only [outside]
                omega
              have hmul : outside tf a t.hi.key * (tf.length + 1) + (tf.length + 1)
                  ≤ outside tf a b * (tf.length + 1) := by
                have := Nat.mul_le_mul_right (tf.length + 1) hlt
                have e : (outside tf a t.hi.key + 1) * (tf.length + 1)
                    = outside tf a t.hi.key * (tf.length + 1) + (tf.length + 1) := by ring
                have := e ▸ this
                simpa using this
              obtain ⟨a', b', h1, h2, h3, h4⟩ := ih [] tf [] a t.hi.key (by simp) (by simp)
                (by simp) (by omega)
              exact ⟨a', b', h1, le_trans hhi.le h2, h3, h4⟩
            · rename_i hov
              have hord := ho (by simpa using hov)
              have hle : outside tf a t.hi.key ≤ outside tf a b := by
                have := filter_length_le (fun f => decide (t.hi.key < f.hi.key))
                  (fun f => decide (b < f.hi.key)) tf
                  (by simp; intro x _ h; exact lt_trans hhi h)
                simp only [outside]
                omega
              have hmul := Nat.mul_le_mul_right (tf.length + 1) hle
              have hpre : pre.filter (fun f => f.meets a t.hi.key)
                  = pre.filter (fun f => f.meets a b) := by
                apply List.filter_congr
                intro p hp
                have hpt : p.hi.key < t.lo.key := by
                  rw [htf] at hord
                  exact (List.pairwise_append.1 hord).2.2 p hp t (by simp)
                have hpl := (hok p (by rw [htf]; simp [hp])).lo_le_hi
                have : p.meets a t.hi.key = true ↔ p.meets a b = true := by
                  rw [meets_iff, meets_iff]
                  grind
                exact Bool.eq_iff_iff.2 this
              obtain ⟨a', b', h1, h2, h3, h4⟩ := ih (pre ++ [t]) rest (dst ++ [t]) a t.hi.key htf'
                (by
                  rw [List.filter_append, hpre, ← hdst]
                  have : t.meets a t.hi.key = true := by
                    rw [meets_iff]
                    exact ⟨hm.1, (hok t htm).lo_le_hi⟩
                  simp [this])
                (by
                  intro f hf
                  rcases List.mem_append.1 hf with hf | hf
                  · exact ⟨(hin f hf).1, le_trans (hin f hf).2 hhi.le⟩
                  · simp only [List.mem_singleton] at hf
                    subst hf
                    exact ⟨le_of_not_gt hlo, le_refl _⟩)
                (by omega)
              exact ⟨a', b', h1, le_trans hhi.le h2, h3, h4⟩
          · rename_i hhi
            exact ih (pre ++ [t]) rest (dst ++ [t]) a b htf'
              (by
                rw [List.filter_append, ← hdst]
                have : t.meets a b = true := by
                  rw [meets_iff]
                  exact hm
                simp [this])
              (by
                intro f hf
                rcases List.mem_append.1 hf with hf | hf
                · exact hin f hf
                · simp only [List.mem_singleton] at hf
                  subst hf
                  exact ⟨le_of_not_gt hlo, le_of_not_gt hhi⟩)
              (by omega)
      · rename_i hm
        exact ih (pre ++ [t]) rest dst a b htf'
          (by
            rw [List.filter_append, ← hdst]
            simp [hm])
          hin (by omega)

theorem getOverlaps_closed {ov : Bool} {tf : List (File K V)} (hok : ∀ f ∈ tf, FileOk f)
    (ho : ov = false → Ordered tf) (a b : K) : Closed tf a b (getOverlaps tf a b ov) := by
  unfold getOverlaps
  refine scan_closed ov tf hok ho _ [] tf [] a b (by simp) (by simp) (by simp) ?_
  have h1 := List.length_filter_le (fun f => decide (f.lo.key < a)) tf
  have h2 := List.length_filter_le (fun f => decide (b < f.hi.key)) tf
  have h3 : outside tf a b ≤ 2 * tf.length := by
    simp only [outside]
    omega
  have h4 := Nat.mul_le_mul_right (tf.length + 1) h3
  have e : (2 * tf.length + 1) * (tf.length + 1)
      = 2 * tf.length * (tf.length + 1) + (tf.length + 1) := by ring
  omega

theorem foldl_lo_le (fs : List (File K V)) (m : K) :
    fs.foldl (fun m g => if g.lo.key < m then g.lo.key else m) m ≤ m ∧
    ∀ g ∈ fs, fs.foldl (fun m g => if g.lo.key < m then g.lo.key else m) m ≤ g.lo.key := by
  induction fs generalizing m with
  | nil => simp
  | cons f fs ih =>
    rw [List.foldl_cons]
    have h := ih (if f.lo.key < m then f.lo.key else m)
    constructor
    · refine le_trans h.1 ?_
      split
      · rename_i hlt; exact hlt.le
      · exact le_refl _
    · intro g hg
      rcases List.mem_cons.1 hg with rfl | hg
      · refine le_trans h.1 ?_
        split
        · exact le_refl _
        · rename_i hlt; exact le_of_not_gt hlt
      · exact h.2 g hg

theorem foldl_hi_le (fs : List (File K V)) (m : K) :
    m ≤ fs.foldl (fun m g => if m < g.hi.key then g.hi.key else m) m ∧
    ∀ g ∈ fs, g.hi.key ≤ fs.foldl (fun m g => if m < g.hi.key then g.hi.key else m) m := by
  induction fs generalizing m with
  | nil => simp
  | cons f fs ih =>
    rw [List.foldl_cons]
    have h := ih (if m < f.hi.key then f.hi.key else m)
    constructor
    · refine le_trans ?_ h.1
      split
      · rename_i hlt; exact hlt.le
      · exact le_refl _
    · intro g hg
      rcases List.mem_cons.1 hg with rfl | hg
      · refine le_trans ?_ h.1
        split
        · exact le_refl _
        · rename_i hlt; exact le_of_not_gt hlt
      · exact h.2 g hg

theorem rangeOf_covers (f : File K V) (fs : List (File K V)) :
    ∀ g ∈ f :: fs, (rangeOf f fs).1 ≤ g.lo.key ∧ g.hi.key ≤ (rangeOf f fs).2 := by
  intro g hg
  have h1 := foldl_lo_le fs f.lo.key
  have h2 := foldl_hi_le fs f.hi.key
  rcases List.mem_cons.1 hg with rfl | hg
  · exact ⟨h1.1, h2.1⟩
  · exact ⟨h1.2 g hg, h2.2 g hg⟩

theorem rangeOr_covers (d : K × K) (fs : List (File K V)) :
    ∀ g ∈ fs, (rangeOr d fs).1 ≤ g.lo.key ∧ g.hi.key ≤ (rangeOr d fs).2 := by
  cases fs with
  | nil => simp
  | cons f fs => exact rangeOf_covers f fs

/-- What `expand` promises of the tables it takes from the two levels. -/
def Taken (vt0 vt1 u0 u1 : List (File K V)) : Prop :=
  (∃ a b, u0 = vt0.filter (fun f => f.meets a b) ∧ ∀ f ∈ u0, a ≤ f.lo.key ∧ f.hi.key ≤ b) ∧
  (∃ a b, u1 = vt1.filter (fun f => f.meets a b) ∧
    ∀ f ∈ u0 ++ u1, a ≤ f.lo.key ∧ f.hi.key ≤ b)

theorem taken_of {vt0 vt1 u0 : List (File K V)} {c d x y : K} (h0 : Closed vt0 c d u0)
    (hcov : ∀ f ∈ u0, x ≤ f.lo.key ∧ f.hi.key ≤ y) (hok : ∀ f ∈ vt1, FileOk f)
    (ho : Ordered vt1) : Taken vt0 vt1 u0 (getOverlaps vt1 x y false) := by
  obtain ⟨a, b, _, _, h3, h4⟩ := h0
  obtain ⟨a', b', h1', h2', h3', h4'⟩ := getOverlaps_closed (ov := false) hok (fun _ => ho) x y
  refine ⟨⟨a, b, h3, h4⟩, a', b', h3', fun f hf => ?_⟩
  rcases List.mem_append.1 hf with hf | hf
  · exact ⟨le_trans h1' (hcov f hf).1, le_trans (hcov f hf).2 h2'⟩
  · exact h4' f hf

theorem expand_taken {vt0 vt1 : List (File K V)} {zero : Bool} (hok0 : ∀ f ∈ vt0, FileOk f)
    (hok1 : ∀ f ∈ vt1, FileOk f) (ho0 : zero = false → Ordered vt0) (ho1 : Ordered vt1)
    (f : File K V) (fs : List (File K V)) (hsub : ∀ g ∈ f :: fs, g ∈ vt0)
    (hnd : (f :: fs).Nodup) (fits : Bool) :
    Taken vt0 vt1 (expand vt0 vt1 zero f fs fits).1 (expand vt0 vt1 zero f fs fits).2 := by
  have hr0 := rangeOf_covers f fs
  have hc0 := getOverlaps_closed hok0 ho0 (rangeOf f fs).1 (rangeOf f fs).2
  have hcov : ∀ g ∈ getOverlaps vt0 (rangeOf f fs).1 (rangeOf f fs).2 zero,
      (if (getOverlaps vt0 (rangeOf f fs).1 (rangeOf f fs).2 zero).length ≠ (f :: fs).length
        then rangeOr (rangeOf f fs) (getOverlaps vt0 (rangeOf f fs).1 (rangeOf f fs).2 zero)
        else rangeOf f fs).1 ≤ g.lo.key ∧
      g.hi.key ≤ (if (getOverlaps vt0 (rangeOf f fs).1 (rangeOf f fs).2 zero).length
          ≠ (f :: fs).length
        then rangeOr (rangeOf f fs) (getOverlaps vt0 (rangeOf f fs).1 (rangeOf f fs).2 zero)
        else rangeOf f fs).2 := by
    split
    · exact rangeOr_covers _ _
    · rename_i hlen
      have hlen : (getOverlaps vt0 (rangeOf f fs).1 (rangeOf f fs).2 zero).length
          = (f :: fs).length := by simpa using hlen
      have hsub' : (f :: fs) ⊆ getOverlaps vt0 (rangeOf f fs).1 (rangeOf f fs).2 zero := by
        obtain ⟨a, b, h1, h2, h3, _⟩ := hc0
        intro g hg
        rw [h3]
        refine List.mem_filter.2 ⟨hsub g hg, ?_⟩
        rw [meets_iff]
        have hl := (hok0 g (hsub g hg)).lo_le_hi
        have hg' := hr0 g hg
        exact ⟨le_trans h1 (le_trans hg'.1 hl), le_trans hl (le_trans hg'.2 h2)⟩
      have hperm := (List.subperm_of_subset hnd hsub').perm_of_length_le (by omega)
      intro g hg
      exact hr0 g (hperm.mem_iff.2 hg)
  unfold expand
  dsimp only
  generalize (if (getOverlaps vt0 (rangeOf f fs).1 (rangeOf f fs).2 zero).length
      ≠ (f :: fs).length
    then rangeOr (rangeOf f fs) (getOverlaps vt0 (rangeOf f fs).1 (rangeOf f fs).2 zero)
    else rangeOf f fs) = r at hcov ⊢
  split
  · exact taken_of (getOverlaps_closed hok0 ho0 _ _) (rangeOr_covers _ _) hok1 ho1
  · exact taken_of hc0 hcov hok1 ho1

end Verif.Lsm
