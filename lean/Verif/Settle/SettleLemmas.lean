import Verif.Settle.SettleSpec
import Verif.Tactics
import Mathlib.Order.Interval.Finset.Nat

namespace Verif.Settle
open Verif.Consensus Verif.Snap

variable {g : Cfg} {block : Hash → Snap} {c d : Chain}

/-! ### Rounds -/

theorem start_whole (g : Cfg) (r : Nat) : g.start r % 1000000000 = 0 := Int.mul_emod_left _ _

theorem Ok.from_genesis (h : Ok g block c) {b : Snap} (hb : b ∈ c) : g.start 0 ≤ b.time := by
  obtain ⟨x, ex, mx, hx⟩ := h.good.genesis
  rw [← h.genesis x ex]
  by_contra hc
  have := (time_lt_iff h.good hb mx).1 (by omega)
  have := (mem_height h.good hb).1
  omega

/-- A block is at or after the start of a round exactly if its round is that or a later one. -/
theorem Ok.round_le (h : Ok g block c) (hi : 0 < g.ti.interval) {b : Snap} (hb : b ∈ c) (r : Nat) : r ≤ g.round b ↔ g.start r ≤ b.time := by
  have h1 := h.from_genesis hb
  have h2 := h.inRange b hb
  have h3 := h.whole b hb
  have e0 : (g.ti.index2Time 0).1 = g.ti.genesis := by simp [TimeIndex.index2Time]
  unfold Cfg.start at *
  rw [e0] at h1 h2
  obtain ⟨k, hk⟩ : ∃ k, b.time = k * 1000000000 := ⟨b.time / 1000000000, by omega⟩
  have hu : unix b.time = k := by unfold unix; omega
  rw [hk] at h1 h2 ⊢
  have hr : g.ti.InRange k := ⟨by omega, by omega⟩
  unfold Cfg.round
  rw [hu]
  have := (index_exact g.ti hi hr (g.ti.time2Index k)).1 rfl
  generalize g.ti.time2Index k = n at this ⊢
  unfold TimeIndex.index2Time at this ⊢
  simp only at this ⊢
  obtain ⟨a1, a2⟩ := this
  constructor
  · intro hrn
    have : (g.ti.interval : Int) * r ≤ g.ti.interval * n := by exact_mod_cast Nat.mul_le_mul_left _ hrn
    omega
  · intro ht
    by_contra hc
    have : (g.ti.interval : Int) * ((n + 1 : Nat) : Int) ≤ g.ti.interval * r := by exact_mod_cast Nat.mul_le_mul_left _ (by omega : n + 1 ≤ r)
    omega

theorem Ok.round_mono (h : Ok g block c) (hi : 0 < g.ti.interval) {a b : Snap} (ha : a ∈ c) (hb : b ∈ c) (hab : a.height ≤ b.height) : g.round a ≤ g.round b := by
  rw [h.round_le hi hb]
  have h1 := (h.round_le hi ha (g.round a)).1 (Nat.le_refl _)
  have : ¬ b.time < a.time := fun hc => by have := (time_lt_iff h.good hb ha).1 hc; omega
  omega

/-- What the query for the blocks before a round gives. -/
theorem Ok.before (h : Ok g block c) (hi : 0 < g.ti.interval) (r : Nat) :
    (∃ b ∈ c, headerBefore c (g.start r) (c.length + 3) = some (.found (some b)) ∧ g.round b < r ∧ ∀ x ∈ c, g.round x < r → x.height ≤ b.height) ∨
      (headerBefore c (g.start r) (c.length + 3) = some (.found none) ∧ ∀ x ∈ c, r ≤ g.round x) := by
  cases e : headerBefore c (g.start r) (c.length + 3) with
  | none => exact absurd e (before_ends h.good h.whole (start_whole g r) (Nat.le_refl _))
  | some res =>
    rcases before_exact h.good e with ⟨b, rfl, hb1, hb2, hb3⟩ | ⟨rfl, hx⟩
    · refine Or.inl ⟨b, hb1, rfl, ?_, ?_⟩
      · have := h.round_le hi hb1 r
        by_contra hc
        have := this.1 (by omega)
        omega
      · intro x hx hxr
        apply hb3 x hx
        have := h.round_le hi hx r
        by_contra hc
        have := this.2 (by omega)
        omega
    · exact Or.inr ⟨rfl, fun x m => (h.round_le hi m r).2 (hx x m)⟩

/-! ### Counting producers -/

theorem producers_spec (hg : Good c) : ∀ (n lo : Nat) (s : List Addr), s.Nodup → lo + n ≤ c.length →
    ∃ s', producers c lo n s = some s' ∧ s'.Nodup ∧ ∀ x, x ∈ s' ↔ x ∈ s ∨ ∃ b ∈ c, lo < b.height ∧ b.height ≤ lo + n ∧ b.producer = x := by
  intro n
  induction n with
  | zero =>
    intro lo s hs _
    refine ⟨s, rfl, hs, fun x => ⟨Or.inl, ?_⟩⟩
    rintro (h | ⟨b, _, h1, h2, _⟩)
    · exact h
    · omega
  | succ n ih =>
    intro lo s hs hle
    obtain ⟨b, hb⟩ := headerAt_isSome (c := c) (h := lo + n + 1) (by omega) (by omega)
    obtain ⟨hh, hm, -, -⟩ := headerAt_some hg hb
    obtain ⟨s', e, nd, hx⟩ := ih lo (s.insert b.producer) (hs.insert) (by omega)
    refine ⟨s', ?_, nd, ?_⟩
    · unfold producers
      simp only [hb]
      exact e
    · intro x
      rw [hx, List.mem_insert_iff]
      constructor
      · rintro ((rfl | h) | ⟨y, hy, h1, h2, h3⟩)
        · exact Or.inr ⟨b, hm, by omega, by omega, rfl⟩
        · exact Or.inl h
        · exact Or.inr ⟨y, hy, h1, by omega, h3⟩
      · rintro (h | ⟨y, hy, h1, h2, h3⟩)
        · exact Or.inl (Or.inr h)
        · rcases Nat.lt_or_ge lo.succ.pred (y.height) with _ | _
          · by_cases hc : y.height = lo + n + 1
            · have := headerAt_mem hg hy
              rw [hc, hb] at this
              injection this with this
              subst this
              exact Or.inl (Or.inl h3.symm)
            · exact Or.inr ⟨y, hy, h1, by omega, h3⟩
          · simp at *; omega

theorem mem_producersOf {r : Nat} {x : Addr} : x ∈ producersOf g c r ↔ ∃ b ∈ c, g.round b = r ∧ b.producer = x := by
  unfold producersOf
  rw [List.mem_toFinset, List.mem_map]
  constructor
  · rintro ⟨b, hb, e⟩
    rw [List.mem_filter, decide_eq_true_eq] at hb
    exact ⟨b, hb.1, hb.2, e⟩
  · rintro ⟨b, hb, h1, e⟩
    exact ⟨b, by rw [List.mem_filter, decide_eq_true_eq]; exact ⟨hb, h1⟩, e⟩

/-- A round has no more producers than blocks. -/
theorem card_le (hg : Good c) {r lo hi : Nat} (h : ∀ b ∈ c, g.round b = r → lo < b.height ∧ b.height ≤ hi) : (producersOf g c r).card ≤ hi - lo := by
  have hsub : producersOf g c r ⊆ ((Finset.Ioc lo hi).image (fun k => match headerAt c k with | some b => b.producer | none => 0)) := by
    intro x hx
    obtain ⟨b, hb, h1, rfl⟩ := mem_producersOf.1 hx
    rw [Finset.mem_image]
    refine ⟨b.height, ?_, ?_⟩
    · rw [Finset.mem_Ioc]; exact h b hb h1
    · rw [headerAt_mem hg hb]
  calc _ ≤ _ := Finset.card_le_card hsub
    _ ≤ (Finset.Ioc lo hi).card := Finset.card_image_le
    _ = hi - lo := Nat.card_Ioc _ _

/-- The check, for the first and the last block of a round: it says whether the round has enough producers. -/
theorem check_exact (hg : Good c) {p l : Snap} (hp : p ∈ c) (hl : l ∈ c) {r : Nat} (hr : ∀ b ∈ c, g.round b = r ↔ p.height ≤ b.height ∧ b.height ≤ l.height)
    (hpl : p.height ≤ l.height) {n : Nat} : check c p l n = true ↔ n ≤ (producersOf g c r).card := by
  have hlh := mem_height hg hl
  have hph := mem_height hg hp
  unfold check
  split
  · rename_i hlt
    have := card_le (g := g) (c := c) (r := r) (lo := p.height - 1) (hi := l.height) hg (by
      intro b hb e
      have := (hr b hb).1 e
      omega)
    constructor
    · intro h; exact absurd h (by simp)
    · intro h; omega
  · obtain ⟨s', e, nd, hx⟩ := producers_spec hg (l.height - 1 - p.height) p.height ((([] : List Addr).insert l.producer).insert p.producer)
      (by exact (List.nodup_nil.insert).insert) (by omega)
    simp only [e, decide_eq_true_eq]
    have : s'.toFinset = producersOf g c r := by
      ext x
      rw [List.mem_toFinset, mem_producersOf, hx, List.mem_insert_iff, List.mem_insert_iff]
      constructor
      · rintro ((rfl | rfl | h) | ⟨b, hb, h1, h2, h3⟩)
        · exact ⟨p, hp, (hr p hp).2 ⟨Nat.le_refl _, hpl⟩, rfl⟩
        · exact ⟨l, hl, (hr l hl).2 ⟨hpl, Nat.le_refl _⟩, rfl⟩
        · exact absurd h (by simp)
        · exact ⟨b, hb, (hr b hb).2 ⟨by omega, by omega⟩, h3⟩
      · rintro ⟨b, hb, h1, h2⟩
        obtain ⟨h3, h4⟩ := (hr b hb).1 h1
        have hbe := headerAt_mem hg hb
        by_cases e1 : b.height = p.height
        · rw [e1, headerAt_mem hg hp] at hbe
          injection hbe with hbe
          subst hbe; exact Or.inl (Or.inl h2.symm)
        by_cases e2 : b.height = l.height
        · rw [e2, headerAt_mem hg hl] at hbe
          injection hbe with hbe
          subst hbe; exact Or.inl (Or.inr (Or.inl h2.symm))
        exact Or.inr ⟨b, hb, by omega, by omega, h2⟩
    rw [← this, List.toFinset_card_of_nodup nd]

/-! ### Final blocks of parts of a chain -/

theorem Ok.same (h : Ok g block c) {a b : Snap} (ha : a ∈ c) (hb : b ∈ c) (e : a.height = b.height) : a = b := by
  have h1 := headerAt_mem h.good ha
  rw [e, headerAt_mem h.good hb] at h1
  injection h1 with h1; exact h1.symm

theorem producersOf_mono {e : Chain} (r : Nat) : producersOf g c r ⊆ producersOf g (c ++ e) r := by
  intro x hx
  obtain ⟨b, hb, h1, h2⟩ := mem_producersOf.1 hx
  exact mem_producersOf.2 ⟨b, List.mem_append_left _ hb, h1, h2⟩

theorem good_append_height {e : Chain} (hg : Good (c ++ e)) {a b : Snap} (ha : a ∈ c) (hb : b ∈ e) : a.height < b.height := by
  have hc := List.pairwise_append.1 hg.times
  exact (time_lt_iff hg (List.mem_append_left _ ha) (List.mem_append_right _ hb)).1 (hc.2.2 a ha b hb)

/-- A final block stays final when the chain grows. -/
theorem Final.grow {e : Chain} (hg : Good (c ++ e)) {p : Snap} (h : Final g c p) : Final g (c ++ e) p where
  mem := List.mem_append_left _ h.mem
  above := h.above
  first := by
    intro b hb er
    rcases List.mem_append.1 hb with hb | hb
    · exact h.first b hb er
    · exact Nat.le_of_lt (good_append_height hg h.mem hb)
  quorum := Nat.le_trans h.quorum (Finset.card_le_card (producersOf_mono _))

/-- It was final before all blocks of later rounds. -/
theorem Final.shrink {e : Chain} {p : Snap} (h : Final g (c ++ e) p) (hr : ∀ b ∈ e, g.round b ≠ g.round p) : Final g c p where
  mem := by
    rcases List.mem_append.1 h.mem with m | m
    · exact m
    · exact absurd rfl (hr p m)
  above := h.above
  first := fun b hb er => h.first b (List.mem_append_left _ hb) er
  quorum := by
    refine Nat.le_trans h.quorum (Finset.card_le_card ?_)
    intro x hx
    obtain ⟨b, hb, h1, h2⟩ := mem_producersOf.1 hx
    rcases List.mem_append.1 hb with m | m
    · exact mem_producersOf.2 ⟨b, m, h1, h2⟩
    · exact absurd h1 (hr b m)

/-- The last block of the round of a final block is well above it. -/
theorem Final.height_lt (hg : Good c) {p l : Snap} (h : Final g c p) (hl : ∀ b ∈ c, g.round b = g.round p → b.height ≤ l.height) : g.cnt < l.height := by
  have h1 := card_le (g := g) (c := c) (r := g.round p) (lo := p.height - 1) (hi := l.height) hg (by
    intro b hb e
    have := hl b hb e
    have := h.first b hb e
    have := h.above
    omega)
  have := h.quorum
  have := h.above
  unfold Cfg.cnt
  omega

/-! ### Parts of chains -/

theorem Ok.take (h : Ok g block c) {n : Nat} (hn : 1 ≤ n) : Ok g block (c.take n) where
  good := by
    obtain ⟨x, ex, -, -⟩ := h.good.genesis
    refine ⟨?_, ?_, ?_⟩
    · intro e
      rw [List.take_eq_nil_iff] at e
      rcases e with e | e
      · omega
      · exact h.good.ne e
    · intro i b hb
      rw [List.getElem?_take] at hb
      split at hb
      · exact h.good.height i b hb
      · exact absurd hb (by simp)
    · exact h.good.times.sublist (List.take_sublist _ _)
  whole := fun b hb => h.whole b (List.mem_of_mem_take hb)
  genesis := by
    intro b hb
    apply h.genesis
    rw [← hb, List.head?_take, if_neg (by omega)]
  inRange := fun b hb => h.inRange b (List.mem_of_mem_take hb)
  known := fun b hb => h.known b (List.mem_of_mem_take hb)
  linked := by
    intro i a b ha hb
    rw [List.getElem?_take] at ha hb
    split at hb
    · split at ha
      · exact h.linked i a b ha hb
      · exact absurd ha (by simp)
    · exact absurd hb (by simp)

/-- Two chains that have the same hash at a height are the same up to it. -/
theorem same_prefix (hc : Ok g block c) (hd : Ok g block d) : ∀ (i : Nat) (a b : Snap), c[i]? = some a → d[i]? = some b → a.hash = b.hash →
    c.take (i + 1) = d.take (i + 1) := by
  intro i
  induction i with
  | zero =>
    intro a b ha hb e
    have : a = b := by rw [← hc.known a (List.mem_of_getElem? ha), e, hd.known b (List.mem_of_getElem? hb)]
    subst this
    cases c with
    | nil => exact absurd ha (by simp)
    | cons x xs =>
      cases d with
      | nil => exact absurd hb (by simp)
      | cons y ys => simp at ha hb; subst ha; subst hb; rfl
  | succ i ih =>
    intro a b ha hb e
    have : a = b := by rw [← hc.known a (List.mem_of_getElem? ha), e, hd.known b (List.mem_of_getElem? hb)]
    subst this
    have h1 := (List.getElem?_eq_some_iff.1 ha).1
    have h2 := (List.getElem?_eq_some_iff.1 hb).1
    have hx : c[i]? = some (c[i]'(by omega)) := List.getElem?_eq_getElem (by omega)
    have hy : d[i]? = some (d[i]'(by omega)) := List.getElem?_eq_getElem (by omega)
    have := ih _ _ hx hy (by rw [← hc.linked i _ a hx ha, ← hd.linked i _ a hy hb])
    rw [List.take_add_one (i := i + 1), List.take_add_one (i := i + 1), this, ha, hb]

end Verif.Settle
