import Verif.Mem.Model

/-! # The lists of the levels, and the searches -/

namespace Verif.Mem

variable {K V : Type} [LinearOrder K]

/-- The last of a list, or what is before it. -/
def lastOr : Nat → List Nat → Nat
  | a, [] => a
  | _, b :: l => lastOr b l

theorem lastOr_append (l1 l2 : List Nat) : ∀ a, lastOr a (l1 ++ l2) = lastOr (lastOr a l1) l2 := by
  induction l1 with
  | nil => intro a; rfl
  | cons b l ih => intro a; exact ih b

theorem lastOr_mem (l : List Nat) : ∀ a, lastOr a l = a ∧ l = [] ∨ lastOr a l ∈ l := by
  induction l with
  | nil => intro a; exact .inl ⟨rfl, rfl⟩
  | cons b l ih =>
    intro a
    right
    rcases ih b with ⟨h, _⟩ | h
    · simp only [lastOr, h]; exact .head _
    · exact .tail _ h

theorem lastOr_filter (q : Nat → Bool) (l : List Nat) (h : l = [] ∨ q (lastOr 0 l) = true) :
    lastOr 0 (l.filter q) = lastOr 0 l := by
  rcases List.eq_nil_or_concat l with rfl | ⟨l', x, rfl⟩
  · rfl
  · rw [List.concat_eq_append] at h ⊢
    have hx : lastOr 0 (l' ++ [x]) = x := by rw [lastOr_append]; rfl
    rw [hx] at h ⊢
    have hq : q x = true := by
      rcases h with h | h
      · simp at h
      · exact h
    rw [List.filter_append, List.filter_cons_of_pos hq, List.filter_nil, lastOr_append]
    rfl

/-- The nodes after `a` by a function: those of the list, and then none. -/
def Links (nx : Nat → Nat) : Nat → List Nat → Prop
  | a, [] => nx a = 0
  | a, b :: l => nx a = b ∧ Links nx b l

theorem links_next {nx : Nat → Nat} (l1 l2 : List Nat) : ∀ a, Links nx a (l1 ++ l2) →
    nx (lastOr a l1) = l2.headD 0 := by
  induction l1 with
  | nil =>
    intro a h
    cases l2 with
    | nil => exact h
    | cons b l => exact h.1
  | cons b l ih => intro a h; exact ih b h.2

theorem links_congr {nx nx' : Nat → Nat} (l : List Nat) : ∀ a, (∀ x ∈ a :: l, nx' x = nx x) →
    Links nx a l → Links nx' a l := by
  induction l with
  | nil => intro a h hl; simp only [Links] at hl ⊢; rw [h a (by simp)]; exact hl
  | cons b l ih =>
    intro a h hl
    refine ⟨by rw [h a (by simp)]; exact hl.1, ih b (fun x hx => h x (.tail _ hx)) hl.2⟩

theorem links_insert {nx nx' : Nat → Nat} (x : Nat) (l2 : List Nat) (l1 : List Nat) : ∀ a,
    Links nx a (l1 ++ l2) → (a :: (l1 ++ l2)).Nodup → x ∉ a :: (l1 ++ l2) →
    nx' (lastOr a l1) = x → nx' x = nx (lastOr a l1) →
    (∀ y, y ≠ lastOr a l1 → y ≠ x → nx' y = nx y) → Links nx' a (l1 ++ x :: l2) := by
  induction l1 with
  | nil =>
    intro a h hn hx h1 h2 h3
    simp only [List.nil_append, lastOr] at h hn hx h1 h2 h3 ⊢
    refine ⟨h1, ?_⟩
    cases l2 with
    | nil => simp only [Links] at h ⊢; rw [h2]; exact h
    | cons b l =>
      refine ⟨by rw [h2]; exact h.1, links_congr l b (fun y hy => h3 y ?_ ?_) h.2⟩
      · intro he
        exact (List.nodup_cons.1 hn).1 (he ▸ hy)
      · intro he
        exact hx (he ▸ .tail _ hy)
  | cons b l ih =>
    intro a h hn hx h1 h2 h3
    obtain ⟨hn1, hn2⟩ := List.nodup_cons.1 hn
    have hb : a ≠ lastOr b l := by
      intro he
      rcases lastOr_mem l b with ⟨h4, _⟩ | h4
      · rw [h4] at he
        exact hn1 (he ▸ .head _)
      · exact hn1 (List.mem_append_left l2 (.tail b (he ▸ h4)))
    refine ⟨?_, ih b h.2 hn2 (fun hx' => hx (.tail _ hx')) h1 h2 h3⟩
    rw [h3 a hb (fun he => hx (he ▸ .head _))]
    exact h.1

theorem links_remove {nx nx' : Nat → Nat} (x : Nat) (l2 : List Nat) (l1 : List Nat) : ∀ a,
    Links nx a (l1 ++ x :: l2) → (a :: (l1 ++ x :: l2)).Nodup →
    nx' (lastOr a l1) = nx x → (∀ y, y ≠ lastOr a l1 → nx' y = nx y) → Links nx' a (l1 ++ l2) := by
  induction l1 with
  | nil =>
    intro a h hn h1 h2
    simp only [List.nil_append, lastOr] at h hn h1 h2 ⊢
    cases l2 with
    | nil => simp only [Links] at h ⊢; rw [h1]; exact h.2
    | cons b l =>
      refine ⟨by rw [h1]; exact h.2.1, links_congr l b (fun y hy => h2 y ?_) h.2.2⟩
      intro he
      exact (List.nodup_cons.1 hn).1 (.tail _ (he ▸ hy))
  | cons b l ih =>
    intro a h hn h1 h2
    obtain ⟨hn1, hn2⟩ := List.nodup_cons.1 hn
    have hb : a ≠ lastOr b l := by
      intro he
      rcases lastOr_mem l b with ⟨h4, _⟩ | h4
      · rw [h4] at he
        exact hn1 (he ▸ .head _)
      · exact hn1 (List.mem_append_left _ (.tail b (he ▸ h4)))
    refine ⟨?_, ih b h.2 hn2 h1 h2⟩
    rw [h2 a hb]
    exact h.1

/-- The nodes in use are `L`, in the order of their keys, and the list of each level is made of
those that are higher. -/
structure Inv (p : DB K V) (L : List Nat) : Prop where
  nodup : (0 :: L).Nodup
  lt : ∀ i ∈ L, i < p.used
  keys : ∀ i ∈ L, ∃ k v, p.key i = some k ∧ p.val i = some v
  sorted : L.Pairwise (fun i j => ∀ a b, p.key i = some a → p.key j = some b → a < b)
  heights : ∀ i ∈ L, 1 ≤ p.height i ∧ p.height i ≤ p.maxHeight
  mh : 1 ≤ p.maxHeight ∧ p.maxHeight ≤ maxH
  links : ∀ h, Links (fun a => p.next a h) 0 (L.filter (fun i => decide (h < p.height i)))
  used : 1 ≤ p.used

theorem Inv.length {p : DB K V} {L : List Nat} (h : Inv p L) : L.length < p.used := by
  have h1 : (0 :: L).length ≤ (List.range p.used).length := by
    refine (List.Nodup.subperm h.nodup ?_).length_le
    intro i hi
    rw [List.mem_range]
    rcases List.mem_cons.1 hi with rfl | hi
    · exact h.used
    · exact h.lt i hi
  simp only [List.length_cons, List.length_range] at h1
  omega

theorem Inv.lt_before {p : DB K V} {A B : List Nat} {b : Nat} {k : K} (h : Inv p (A ++ b :: B))
    (hb : p.lt b k = true) : ∀ a ∈ A, p.lt a k = true := by
  intro a ha
  have hs := (List.pairwise_append.1 h.sorted).2.2 a ha b (by simp)
  obtain ⟨x, _, hx, _⟩ := h.keys a (by simp [ha])
  obtain ⟨y, _, hy, _⟩ := h.keys b (by simp)
  have := hs x y hx hy
  simp only [DB.lt, hx, hy, decide_eq_true_eq] at hb ⊢
  exact lt_trans this hb

theorem Inv.ge_after {p : DB K V} {A B : List Nat} {b : Nat} {k : K} (h : Inv p (A ++ b :: B))
    (hb : p.lt b k = false) : ∀ a ∈ B, p.lt a k = false := by
  intro a ha
  have hs := (List.pairwise_cons.1 (List.pairwise_append.1 h.sorted).2.1).1 a ha
  obtain ⟨x, _, hx, _⟩ := h.keys b (by simp)
  obtain ⟨y, _, hy, _⟩ := h.keys a (by simp [ha])
  have := hs x y hx hy
  simp only [DB.lt, hx, hy, decide_eq_false_iff_not, not_lt] at hb ⊢
  exact le_trans hb (le_of_lt this)

theorem Inv.lt_of_eq_before {p : DB K V} {A B : List Nat} {b : Nat} {k : K} (h : Inv p (A ++ b :: B))
    (hb : p.eq b k = true) : ∀ a ∈ A, p.lt a k = true := by
  intro a ha
  have hs := (List.pairwise_append.1 h.sorted).2.2 a ha b (by simp)
  obtain ⟨x, _, hx, _⟩ := h.keys a (by simp [ha])
  obtain ⟨y, _, hy, _⟩ := h.keys b (by simp)
  have := hs x y hx hy
  simp only [DB.lt, DB.eq, hx, hy, decide_eq_true_eq] at hb ⊢
  rw [← hb]
  exact this

theorem Inv.ne_zero {p : DB K V} {L : List Nat} (h : Inv p L) {i : Nat} (hi : i ∈ L) : i ≠ 0 :=
  fun he => (List.nodup_cons.1 h.nodup).1 (he ▸ hi)

/-- The nodes below `k`, and the others. -/
def DB.low (p : DB K V) (L : List Nat) (k : K) : List Nat := L.filter (fun i => p.lt i k)
def DB.high (p : DB K V) (L : List Nat) (k : K) : List Nat := L.filter (fun i => !p.lt i k)

theorem low_high {p : DB K V} {A B : List Nat} {k : K} (ha : ∀ a ∈ A, p.lt a k = true)
    (hb : ∀ b ∈ B, p.lt b k = false) : p.low (A ++ B) k = A ∧ p.high (A ++ B) k = B := by
  constructor
  · unfold DB.low
    rw [List.filter_append, List.filter_eq_self.2 ha, List.filter_eq_nil_iff.2, List.append_nil]
    intro b h
    simp [hb b h]
  · unfold DB.high
    rw [List.filter_append, List.filter_eq_nil_iff.2, List.filter_eq_self.2, List.nil_append]
    · intro b h
      simp [hb b h]
    · intro a h
      simp [ha a h]

/-- The node after the place of a search at a level. -/
theorem Inv.next_at {p : DB K V} {A B : List Nat} (hi : Inv p (A ++ B)) (h : Nat)
    (ha : A = [] ∨ h < p.height (lastOr 0 A)) :
    p.next (lastOr 0 A) h = (B.filter (fun i => decide (h < p.height i))).headD 0 := by
  have hl := hi.links h
  rw [List.filter_append] at hl
  have := links_next _ _ _ hl
  rw [lastOr_filter _ A (by
    rcases ha with ha | ha
    · exact .inl ha
    · exact .inr (by simpa using ha))] at this
  exact this

theorem split_head {q : Nat → Bool} {B : List Nat} {x : Nat} {l : List Nat} (h : B.filter q = x :: l) :
    ∃ B1 B2, B = B1 ++ x :: B2 ∧ (∀ b ∈ B1, q b = false) ∧ q x = true ∧ B2.filter q = l := by
  induction B with
  | nil => simp at h
  | cons b B ih =>
    by_cases hb : q b = true
    · rw [List.filter_cons_of_pos hb] at h
      obtain ⟨h1, h2⟩ := List.cons.inj h
      subst h1
      exact ⟨[], B, rfl, by simp, hb, h2⟩
    · rw [List.filter_cons_of_neg hb] at h
      obtain ⟨B1, B2, h1, h2, h3, h4⟩ := ih h
      refine ⟨b :: B1, B2, by rw [h1]; rfl, ?_, h3, h4⟩
      intro c hc
      rcases List.mem_cons.1 hc with rfl | hc
      · simpa using hb
      · exact h2 c hc

/-- When the search goes down from a level: the place is the last node of the level below `k`. -/
theorem Inv.stop_at {p : DB K V} {A B : List Nat} {k : K} (hi : Inv p (A ++ B)) (h : Nat)
    (ha : A = [] ∨ h < p.height (lastOr 0 A)) (hA : ∀ a ∈ A, p.lt a k = true)
    (hs : ¬ (p.next (lastOr 0 A) h ≠ 0 ∧ p.lt (p.next (lastOr 0 A) h) k = true)) :
    (∀ b ∈ B, h < p.height b → p.lt b k = false) ∧
    lastOr 0 ((p.low (A ++ B) k).filter (fun i => decide (h < p.height i))) = lastOr 0 A := by
  have hn := hi.next_at h ha
  have hB : ∀ b ∈ B, h < p.height b → p.lt b k = false := by
    cases hf : B.filter (fun i => decide (h < p.height i)) with
    | nil =>
      intro b hb hh
      have : b ∈ B.filter (fun i => decide (h < p.height i)) := List.mem_filter.2 ⟨hb, by simpa using hh⟩
      rw [hf] at this
      simp at this
    | cons x l =>
      rw [hf] at hn
      simp only [List.headD_cons] at hn
      obtain ⟨B1, B2, hb, h1, h2, h3⟩ := split_head hf
      have hxL : x ∈ A ++ B := by rw [hb]; simp
      have hx : p.lt x k = false := by
        by_contra hc
        exact hs ⟨by rw [hn]; exact hi.ne_zero hxL, by rw [hn]; simpa using hc⟩
      have hi' : Inv p ((A ++ B1) ++ x :: B2) := by rw [List.append_assoc, ← hb]; exact hi
      intro b hbm hh
      rw [hb] at hbm
      rcases List.mem_append.1 hbm with hbm | hbm
      · have := h1 b hbm
        simp only [decide_eq_false_iff_not] at this
        exact absurd hh this
      · rcases List.mem_cons.1 hbm with rfl | hbm
        · exact hx
        · exact hi'.ge_after hx b hbm
  refine ⟨hB, ?_⟩
  have : (p.low (A ++ B) k).filter (fun i => decide (h < p.height i)) =
      A.filter (fun i => decide (h < p.height i)) := by
    unfold DB.low
    rw [List.filter_append, List.filter_append, List.filter_eq_self.2 hA]
    have : (B.filter (fun i => p.lt i k)).filter (fun i => decide (h < p.height i)) = [] := by
      rw [List.filter_eq_nil_iff]
      intro b hb hh
      obtain ⟨h1, h2⟩ := List.mem_filter.1 hb
      rw [hB b h1 (by simpa using hh)] at h2
      simp at h2
    rw [this, List.append_nil]
  rw [this]
  exact lastOr_filter _ A (by
    rcases ha with ha | ha
    · exact .inl ha
    · exact .inr (by simpa using ha))

/-- When the search goes on at a level. -/
theorem Inv.move_at {p : DB K V} {A B : List Nat} {k : K} (hi : Inv p (A ++ B)) (h : Nat)
    (ha : A = [] ∨ h < p.height (lastOr 0 A)) (hA : ∀ a ∈ A, p.lt a k = true)
    (hs : p.next (lastOr 0 A) h ≠ 0 ∧ p.lt (p.next (lastOr 0 A) h) k = true) :
    ∃ B1 B2, B = B1 ++ p.next (lastOr 0 A) h :: B2 ∧
      (∀ a ∈ A ++ (B1 ++ [p.next (lastOr 0 A) h]), p.lt a k = true) ∧
      h < p.height (p.next (lastOr 0 A) h) := by
  have hn := hi.next_at h ha
  cases hf : B.filter (fun i => decide (h < p.height i)) with
  | nil => rw [hf] at hn; exact absurd hn hs.1
  | cons x l =>
    rw [hf] at hn
    simp only [List.headD_cons] at hn
    obtain ⟨B1, B2, hb, h1, h2, h3⟩ := split_head hf
    rw [hn] at hs ⊢
    refine ⟨B1, B2, hb, ?_, by simpa using h2⟩
    have hi' : Inv p ((A ++ B1) ++ x :: B2) := by rw [List.append_assoc, ← hb]; exact hi
    intro a hm
    have hbef := hi'.lt_before hs.2
    rcases List.mem_append.1 hm with hm | hm
    · exact hA a hm
    · rcases List.mem_append.1 hm with hm | hm
      · exact hbef a (List.mem_append_right _ hm)
      · rw [List.mem_singleton] at hm
        rw [hm]; exact hs.2

/-- The first of some nodes has the key. -/
def DB.hit (p : DB K V) (l : List Nat) (k : K) : Bool :=
  match l with
  | [] => false
  | b :: _ => p.eq b k

theorem Inv.zero_level {p : DB K V} {A B : List Nat} (hi : Inv p (A ++ B)) :
    B.filter (fun i => decide (0 < p.height i)) = B := by
  rw [List.filter_eq_self]
  intro b hb
  have := (hi.heights b (by simp [hb])).1
  simp only [decide_eq_true_eq]
  omega

theorem goGE_spec {p : DB K V} {L : List Nat} (hi : Inv p L) (k : K) (prevs : Bool) :
    ∀ fuel A B h prev, L = A ++ B → (A = [] ∨ h < p.height (lastOr 0 A)) →
      (∀ a ∈ A, p.lt a k = true) → B.length + h < fuel →
      ∃ prev', p.goGE k prevs fuel (lastOr 0 A) h prev =
          some (((p.high L k).headD 0, p.hit (p.high L k) k), prev') ∧
        (prevs = true → (∀ i, i ≤ h →
            prev' i = lastOr 0 ((p.low L k).filter (fun j => decide (i < p.height j)))) ∧
          ∀ i, h < i → prev' i = prev i) := by
  intro fuel
  induction fuel with
  | zero => intro A B h prev _ _ _ hf; omega
  | succ fuel ih =>
    intro A B h prev hL ha hA hf
    subst hL
    simp only [DB.goGE]
    by_cases hs : p.next (lastOr 0 A) h ≠ 0 ∧ p.lt (p.next (lastOr 0 A) h) k = true
    · rw [if_pos hs]
      obtain ⟨B1, B2, hb, hA', hh⟩ := hi.move_at h ha hA hs
      have hlast : lastOr 0 (A ++ (B1 ++ [p.next (lastOr 0 A) h])) = p.next (lastOr 0 A) h := by
        rw [lastOr_append, lastOr_append]; rfl
      have := ih (A ++ (B1 ++ [p.next (lastOr 0 A) h])) B2 h prev
        (by conv => lhs; rw [hb]
            simp) (.inr (by rw [hlast]; exact hh)) hA'
        (by rw [hb] at hf; simp only [List.length_append, List.length_cons] at hf; omega)
      rw [hlast] at this
      exact this
    · rw [if_neg hs]
      obtain ⟨hB, hlast⟩ := hi.stop_at h ha hA hs
      by_cases he : (!prevs && (decide (p.next (lastOr 0 A) h ≠ 0) && p.eq (p.next (lastOr 0 A) h) k)) = true
      · rw [if_pos he]
        simp only [Bool.and_eq_true, Bool.not_eq_true', decide_eq_true_eq] at he
        obtain ⟨hp, hne, heq⟩ := he
        have hn := hi.next_at h ha
        cases hf' : B.filter (fun i => decide (h < p.height i)) with
        | nil => rw [hf'] at hn; exact absurd hn hne
        | cons x l =>
          rw [hf'] at hn
          simp only [List.headD_cons] at hn
          obtain ⟨B1, B2, hb, h1, h2, h3⟩ := split_head hf'
          rw [hn] at heq ⊢
          have hi' : Inv p ((A ++ B1) ++ x :: B2) := by rw [List.append_assoc, ← hb]; exact hi
          have hx : p.lt x k = false := hB x (by rw [hb]; simp) (by simpa using h2)
          have hhi : p.high (A ++ B) k = x :: B2 := by
            rw [hb, ← List.append_assoc]
            refine (low_high (hi'.lt_of_eq_before heq) ?_).2
            intro b hb'
            rcases List.mem_cons.1 hb' with rfl | hb'
            · exact hx
            · exact hi'.ge_after hx b hb'
          refine ⟨prev, ?_, fun h => ?_⟩
          · rw [hhi]
            simp only [List.headD_cons, DB.hit, heq]
          · rw [hp] at h; simp at h
      · rw [if_neg he]
        cases h with
        | zero =>
          have hz := hi.zero_level
          have hB' : ∀ b ∈ B, p.lt b k = false := by
            intro b hb
            refine hB b hb ?_
            have := (hi.heights b (by simp [hb])).1
            omega
          have hhi : p.high (A ++ B) k = B := (low_high hA hB').2
          have hn := hi.next_at 0 ha
          rw [hz] at hn
          simp only
          rw [hhi]
          refine ⟨_, by
            rw [hn]
            congr 2
            cases B with
            | nil => simp [DB.hit]
            | cons b B =>
              have : b ≠ 0 := hi.ne_zero (by simp)
              simp [DB.hit, this], fun hp => ⟨?_, ?_⟩⟩
          · intro i hi0
            have : i = 0 := by omega
            subst this
            rw [if_pos hp]
            simp only [if_true]
            exact hlast.symm
          · intro i hi0
            rw [if_pos hp]
            rw [if_neg (by omega)]
        | succ h =>
          simp only
          obtain ⟨prev', h1, h2⟩ := ih A B h
            (if prevs = true then fun i => if i = h + 1 then lastOr 0 A else prev i else prev) rfl
            (by
              rcases ha with ha | ha
              · exact .inl ha
              · exact .inr (by omega)) hA (by omega)
          refine ⟨prev', h1, fun hp => ⟨fun i hih => ?_, fun i hih => ?_⟩⟩
          · by_cases hie : i = h + 1
            · subst hie
              rw [(h2 hp).2 (h + 1) (by omega), if_pos hp]
              simp only [if_true]
              exact hlast.symm
            · exact (h2 hp).1 i (by omega)
          · rw [(h2 hp).2 i (by omega), if_pos hp, if_neg (by omega)]

/-- The search for the first node not below `k`. -/
theorem findGE_spec {p : DB K V} {L : List Nat} (hi : Inv p L) (k : K) (prevs : Bool) :
    ∃ prev', p.findGE k prevs = some (((p.high L k).headD 0, p.hit (p.high L k) k), prev') ∧
      (prevs = true → ∀ i, i < p.maxHeight →
        prev' i = lastOr 0 ((p.low L k).filter (fun j => decide (i < p.height j)))) := by
  have hl := hi.length
  have hm := hi.mh
  obtain ⟨prev', h1, h2⟩ := goGE_spec hi k prevs p.fuel [] L (p.maxHeight - 1) (fun _ => 0) rfl (.inl rfl)
    (by simp) (by unfold DB.fuel; omega)
  exact ⟨prev', h1, fun hp i hlt => (h2 hp).1 i (by omega)⟩

theorem goLT_spec {p : DB K V} {L : List Nat} (hi : Inv p L) (k : K) :
    ∀ fuel A B h, L = A ++ B → (A = [] ∨ h < p.height (lastOr 0 A)) →
      (∀ a ∈ A, p.lt a k = true) → B.length + h < fuel →
      p.goLT k fuel (lastOr 0 A) h = some (lastOr 0 (p.low L k)) := by
  intro fuel
  induction fuel with
  | zero => intro A B h _ _ _ hf; omega
  | succ fuel ih =>
    intro A B h hL ha hA hf
    subst hL
    simp only [DB.goLT]
    by_cases hs : p.next (lastOr 0 A) h ≠ 0 ∧ p.lt (p.next (lastOr 0 A) h) k = true
    · rw [if_neg (by
        rintro (h1 | h1)
        · exact hs.1 h1
        · rw [hs.2] at h1; simp at h1)]
      obtain ⟨B1, B2, hb, hA', hh⟩ := hi.move_at h ha hA hs
      have hlast : lastOr 0 (A ++ (B1 ++ [p.next (lastOr 0 A) h])) = p.next (lastOr 0 A) h := by
        rw [lastOr_append, lastOr_append]; rfl
      have := ih (A ++ (B1 ++ [p.next (lastOr 0 A) h])) B2 h
        (by conv => lhs; rw [hb]
            simp) (.inr (by rw [hlast]; exact hh)) hA'
        (by rw [hb] at hf; simp only [List.length_append, List.length_cons] at hf; omega)
      rw [hlast] at this
      exact this
    · rw [if_pos (by
        by_cases h0 : p.next (lastOr 0 A) h = 0
        · exact .inl h0
        · right
          cases hc : p.lt (p.next (lastOr 0 A) h) k with
          | false => rfl
          | true => exact absurd ⟨h0, hc⟩ hs)]
      obtain ⟨hB, _⟩ := hi.stop_at h ha hA hs
      cases h with
      | zero =>
        have hB' : ∀ b ∈ B, p.lt b k = false := by
          intro b hb
          refine hB b hb ?_
          have := (hi.heights b (by simp [hb])).1
          omega
        simp only
        rw [(low_high hA hB').1]
      | succ h =>
        simp only
        exact ih A B h rfl (by
          rcases ha with ha | ha
          · exact .inl ha
          · exact .inr (by omega)) hA (by omega)

theorem findLT_spec {p : DB K V} {L : List Nat} (hi : Inv p L) (k : K) :
    p.goLT k p.fuel 0 (p.maxHeight - 1) = some (lastOr 0 (p.low L k)) := by
  have hl := hi.length
  have hm := hi.mh
  exact goLT_spec hi k p.fuel [] L (p.maxHeight - 1) rfl (.inl rfl) (by simp) (by unfold DB.fuel; omega)

theorem goLast_spec {p : DB K V} {L : List Nat} (hi : Inv p L) :
    ∀ fuel A B h, L = A ++ B → (A = [] ∨ h < p.height (lastOr 0 A)) →
      B.length + h < fuel → p.goLast fuel (lastOr 0 A) h = some (lastOr 0 L) := by
  intro fuel
  induction fuel with
  | zero => intro A B h _ _ hf; omega
  | succ fuel ih =>
    intro A B h hL ha hf
    subst hL
    simp only [DB.goLast]
    have hn := hi.next_at h ha
    by_cases hs : p.next (lastOr 0 A) h = 0
    · rw [if_pos hs]
      cases h with
      | zero =>
        rw [hi.zero_level] at hn
        cases B with
        | nil => simp
        | cons b B =>
          rw [hs] at hn
          exact absurd hn.symm (hi.ne_zero (by simp))
      | succ h =>
        simp only
        exact ih A B h rfl (by
          rcases ha with ha | ha
          · exact .inl ha
          · exact .inr (by omega)) (by omega)
    · rw [if_neg hs]
      cases hf' : B.filter (fun i => decide (h < p.height i)) with
      | nil => rw [hf'] at hn; exact absurd hn hs
      | cons x l =>
        rw [hf'] at hn
        simp only [List.headD_cons] at hn
        obtain ⟨B1, B2, hb, h1, h2, h3⟩ := split_head hf'
        rw [hn]
        have hlast : lastOr 0 (A ++ (B1 ++ [x])) = x := by
          rw [lastOr_append, lastOr_append]; rfl
        have := ih (A ++ (B1 ++ [x])) B2 h
          (by conv => lhs; rw [hb]
              simp) (.inr (by rw [hlast]; simpa using h2))
          (by rw [hb] at hf; simp only [List.length_append, List.length_cons] at hf; omega)
        rw [hlast] at this
        exact this

theorem findLast_spec {p : DB K V} {L : List Nat} (hi : Inv p L) :
    p.goLast p.fuel 0 (p.maxHeight - 1) = some (lastOr 0 L) := by
  have hl := hi.length
  have hm := hi.mh
  exact goLast_spec hi p.fuel [] L (p.maxHeight - 1) rfl (.inl rfl) (by unfold DB.fuel; omega)

end Verif.Mem
