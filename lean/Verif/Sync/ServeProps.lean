import Verif.Sync.ServeModel
import Verif.Sync.PlanFit

/-!
# Requests are answered with what the chain has

Property C85. -/

namespace Verif.Sync

/-! ## Specification -/

/-- The blocks of a chain with their heights, from height 1 on. -/
def blocksOf (c : Ledger) : List (Nat × Nat) := (c.zipIdx 1).map (fun x => (x.2, x.1))

/-! ## Lemmas -/

theorem atHeight_some {c : Ledger} {h : Nat} {b : Nat × Nat} : atHeight c h = some b ↔ b.1 = h ∧ 0 < h ∧ c[h - 1]? = some b.2 := by
  unfold atHeight
  split
  · rename_i h0
    constructor
    · intro h; cases h
    · rintro ⟨-, h1, -⟩; omega
  · rename_i h0
    rw [Option.map_eq_some_iff]
    constructor
    · rintro ⟨x, hx, rfl⟩; exact ⟨rfl, by omega, hx⟩
    · rintro ⟨h1, -, h3⟩; exact ⟨b.2, h3, by rw [← h1]⟩

theorem atHeight_none {c : Ledger} {h : Nat} : atHeight c h = none ↔ h = 0 ∨ c.length < h := by
  unfold atHeight
  split
  · rename_i h0; simp [h0]
  · rename_i h0
    rw [Option.map_eq_none_iff, List.getElem?_eq_none_iff]
    omega

theorem pred64_eq {x : Nat} (h0 : 0 < x) (h : x ≤ 2 ^ 64) : pred64 x = x - 1 := by
  unfold pred64
  rw [if_neg (by omega), Nat.mod_eq_of_lt (by omega)]

theorem mem_blocksOf {c : Ledger} {b : Nat × Nat} : b ∈ blocksOf c ↔ atHeight c b.1 = some b := by
  unfold blocksOf
  rw [atHeight_some, List.mem_map]
  constructor
  · rintro ⟨⟨x, i⟩, hx, rfl⟩
    have := List.mem_zipIdx hx
    obtain ⟨h1, h2, h3⟩ := this
    refine ⟨rfl, h1, ?_⟩
    rw [h3]
    exact List.getElem?_eq_getElem _
  · rintro ⟨-, h1, h2⟩
    refine ⟨(b.2, b.1), ?_, rfl⟩
    rw [List.mem_zipIdx_iff_le_and_getElem?_sub]
    exact ⟨h1, h2⟩

/-- Heights ascend. -/
def Rising (l : List (Nat × Nat)) : Prop := l.Pairwise (fun a b => a.1 < b.1)

theorem rising_blocksOf (c : Ledger) : Rising (blocksOf c) := by
  unfold Rising blocksOf
  rw [List.pairwise_map, List.pairwise_iff_getElem]
  intro i j hi hj hij
  simp only [List.getElem_zipIdx]
  omega

/-- Two rising lists with the same members are the same. -/
theorem rising_ext {l m : List (Nat × Nat)} (hl : Rising l) (hm : Rising m) (h : ∀ b, b ∈ l ↔ b ∈ m) : l = m := by
  have ha : ∀ {l : List (Nat × Nat)}, Rising l → l.Nodup := fun h => h.imp (fun h e => by subst e; omega)
  have hp : l.Perm m := (List.perm_ext_iff_of_nodup (ha hl) (ha hm)).mpr h
  exact hp.eq_of_pairwise (fun a b _ _ h1 h2 => by omega) hl hm

theorem mem_fetchRange {c : Ledger} {a b : Nat} {x : Nat × Nat} : x ∈ fetchRange c a b ↔ x ∈ blocksOf c ∧ a ≤ x.1 ∧ x.1 ≤ b := by
  unfold fetchRange
  rw [List.mem_filterMap, mem_blocksOf]
  constructor
  · rintro ⟨i, hi, h⟩
    have h1 := (atHeight_some.mp h).1
    rw [List.mem_range] at hi
    rw [h1]
    exact ⟨h, by omega, by omega⟩
  · rintro ⟨h, h1, h2⟩
    refine ⟨x.1 - a, List.mem_range.mpr (by omega), ?_⟩
    rw [Nat.add_sub_cancel' h1]
    exact h

theorem rising_fetchRange (c : Ledger) (a b : Nat) : Rising (fetchRange c a b) := by
  unfold Rising fetchRange
  rw [List.pairwise_filterMap]
  refine List.pairwise_lt_range.imp ?_
  intro i j hij x hx y hy
  have h1 := (atHeight_some.mp hx).1
  have h2 := (atHeight_some.mp hy).1
  omega

theorem fetchRange_nil {c : Ledger} {a b : Nat} (hab : a ≤ b) (hb : 0 < b) : fetchRange c a b = [] ↔ c.length < a ∨ c = [] := by
  rw [List.eq_nil_iff_forall_not_mem]
  constructor
  · intro h
    by_contra hh
    have hne : c ≠ [] := fun e => hh (Or.inr e)
    have hlen := List.length_pos_of_ne_nil hne
    have hle : ¬ c.length < a := fun e => hh (Or.inl e)
    have : ∃ x, atHeight c (max a 1) = some x := by
      cases hx : atHeight c (max a 1) with
      | none => rw [atHeight_none] at hx; omega
      | some x => exact ⟨x, rfl⟩
    obtain ⟨x, hx⟩ := this
    have h1 := (atHeight_some.mp hx).1
    refine h x (mem_fetchRange.mpr ⟨mem_blocksOf.mpr (by rw [h1]; exact hx), ?_, ?_⟩) <;> omega
  · intro h x hx
    obtain ⟨h1, h2, h3⟩ := mem_fetchRange.mp hx
    rw [mem_blocksOf] at h1
    obtain ⟨-, h4, h5⟩ := atHeight_some.mp h1
    rcases h with h | rfl
    · have := (List.getElem?_eq_some_iff.mp h5).1
      omega
    · simp at h5

/-- The pieces cover the heights, in order. -/
theorem pieces_mem {lo hi h : Nat} : lo ≤ h ∧ h ≤ hi ↔ ∃ p ∈ pieces lo hi, p.1 ≤ h ∧ h ≤ p.2 := by
  fun_induction pieces lo hi with
  | case1 lo hle e ih =>
    simp only [List.mem_cons, exists_eq_or_imp]
    rw [← ih]
    simp only [e, taskSize]
    omega
  | case2 lo hle =>
    simp only [List.not_mem_nil, false_and, exists_false, iff_false]
    omega

theorem pieces_bounds {lo hi : Nat} : ∀ p ∈ pieces lo hi, lo ≤ p.1 ∧ p.1 ≤ p.2 ∧ p.2 ≤ hi ∧ p.2 < p.1 + taskSize ∧ (0 < hi → 0 < p.2) := by
  fun_induction pieces lo hi with
  | case1 lo hle e ih =>
    intro p hp
    rcases List.mem_cons.mp hp with rfl | hp
    · simp only [e, taskSize]; omega
    · have := ih p hp
      simp only [e, taskSize] at this ⊢
      omega
  | case2 lo hle => simp

theorem pieces_sorted {lo hi : Nat} : (pieces lo hi).Pairwise (fun p q => p.2 < q.1) := by
  fun_induction pieces lo hi with
  | case1 lo hle e ih =>
    rw [List.pairwise_cons]
    refine ⟨fun q hq => ?_, ih⟩
    have := (pieces_bounds q hq).1
    show e < q.1
    omega
  | case2 lo hle => exact .nil

/-- Everything there is in the pieces is sent, in order. -/
theorem sendAll_flat (c : Ledger) (l : List (Nat × Nat)) (hb : ∀ p ∈ l, p.1 ≤ p.2 ∧ 0 < p.2) (hs : l.Pairwise (fun p q => p.2 < q.1)) :
    Rising (sendAll (fetchRange c) l).1.flatten ∧ (∀ x, x ∈ (sendAll (fetchRange c) l).1.flatten ↔ x ∈ blocksOf c ∧ ∃ p ∈ l, p.1 ≤ x.1 ∧ x.1 ≤ p.2) ∧
      ((sendAll (fetchRange c) l).2 = true ↔ ∃ p ∈ l, fetchRange c p.1 p.2 = []) := by
  induction l with
  | nil => simp [sendAll, Rising]
  | cons p l ih =>
    obtain ⟨hp, hs'⟩ := List.pairwise_cons.mp hs
    obtain ⟨i1, i2, i3⟩ := ih (fun q hq => hb q (List.mem_cons_of_mem _ hq)) hs'
    have hpp := hb p List.mem_cons_self
    unfold sendAll
    split
    · rename_i h0
      refine ⟨.nil, fun x => ?_, ⟨fun _ => ⟨p, List.mem_cons_self, h0⟩, fun _ => rfl⟩⟩
      simp only [List.flatten_nil, List.not_mem_nil, false_iff, not_and]
      rintro hx ⟨q, hq, h1, h2⟩
      rcases (fetchRange_nil hpp.1 hpp.2).mp h0 with h | rfl
      · obtain ⟨-, h4, h5⟩ := atHeight_some.mp (mem_blocksOf.mp hx)
        have := (List.getElem?_eq_some_iff.mp h5).1
        rcases List.mem_cons.mp hq with rfl | hq
        · omega
        · have := hp q hq
          omega
      · simp [blocksOf] at hx
    · rename_i h0
      simp only [List.flatten_cons]
      refine ⟨?_, fun x => ?_, ?_⟩
      · unfold Rising
        rw [List.pairwise_append]
        refine ⟨rising_fetchRange c p.1 p.2, i1, fun x hx y hy => ?_⟩
        obtain ⟨-, -, hx3⟩ := mem_fetchRange.mp hx
        obtain ⟨-, q, hq, hq1, -⟩ := (i2 y).mp hy
        have := hp q hq
        omega
      · rw [List.mem_append, i2, mem_fetchRange, List.exists_mem_cons_iff, ← and_or_left]
      · rw [i3, List.exists_mem_cons_iff]
        constructor
        · exact Or.inr
        · rintro (h | h)
          · exact absurd h h0
          · exact h

/-- Messages of account blocks are those of a chain, each turned round. -/
theorem sendAll_down (c : Ledger) (l : List (Nat × Nat)) : (sendAll (fetchDown c) l).1 = (sendAll (fetchRange c) l).1.map List.reverse ∧ (sendAll (fetchDown c) l).2 = (sendAll (fetchRange c) l).2 := by
  induction l with
  | nil => exact ⟨rfl, rfl⟩
  | cons p l ih =>
    unfold sendAll
    by_cases h0 : fetchRange c p.1 p.2 = []
    · rw [if_pos h0, if_pos (by simp [fetchDown, h0])]
      exact ⟨rfl, rfl⟩
    · rw [if_neg h0, if_neg (by simp [fetchDown, h0])]
      refine ⟨?_, ih.2⟩
      rw [List.map_cons]
      exact congrArg _ ih.1

theorem sendAll_size (c : Ledger) (l : List (Nat × Nat)) (hb : ∀ p ∈ l, p.2 < p.1 + taskSize) : ∀ m ∈ (sendAll (fetchRange c) l).1, m ≠ [] ∧ m.length ≤ 100 := by
  induction l with
  | nil => simp [sendAll]
  | cons p l ih =>
    unfold sendAll
    split
    · simp
    · rename_i h0
      intro m hm
      rcases List.mem_cons.mp hm with rfl | hm
      · refine ⟨h0, ?_⟩
        refine Nat.le_trans (List.length_filterMap_le _ _) ?_
        rw [List.length_range]
        have := hb p List.mem_cons_self
        simp only [taskSize] at this
        omega
      · exact ih (fun q hq => hb q (List.mem_cons_of_mem _ hq)) m hm

/-- The answer for a range of heights. -/
theorem split_answer {c : Ledger} {lo hi : Nat} (hhi : 0 < hi) {l : List (Nat × Nat)} (h : splitChunk lo hi = some l) :
    (sendAll (fetchRange c) l).1.flatten = (blocksOf c).filter (fun b => decide (lo ≤ b.1 ∧ b.1 ≤ hi)) ∧ (∀ m ∈ (sendAll (fetchRange c) l).1, m ≠ [] ∧ m.length ≤ 100) ∧
      ((sendAll (fetchRange c) l).2 = true → c.length < hi) := by
  unfold splitChunk at h
  split at h
  · rename_i h0
    cases h
    have : (blocksOf c).filter (fun b => decide (lo ≤ b.1 ∧ b.1 ≤ hi)) = [] := by
      rw [List.filter_eq_nil_iff]
      intro b _ hb
      rw [decide_eq_true_eq] at hb
      omega
    rw [this]
    simp [sendAll]
  · split at h
    · cases h
    · cases h
      have hb := fun p hp => pieces_bounds (lo := lo) (hi := hi) p hp
      obtain ⟨h1, h2, h3⟩ := sendAll_flat c (pieces lo hi) (fun p hp => ⟨(hb p hp).2.1, (hb p hp).2.2.2.2 hhi⟩) pieces_sorted
      refine ⟨rising_ext h1 ((rising_blocksOf c).filter _) (fun x => ?_), sendAll_size c _ (fun p hp => (hb p hp).2.2.2.1), fun hm => ?_⟩
      · rw [h2, ← pieces_mem, List.mem_filter, decide_eq_true_eq]
      · obtain ⟨p, hp, h0⟩ := h3.mp hm
        have := hb p hp
        rcases (fetchRange_nil this.2.1 (this.2.2.2.2 hhi)).mp h0 with h | rfl
        · omega
        · exact hhi

/-! ## Blocks -/

/-- **C85.** Who asks for the `count` blocks up to a block gets these blocks, or all up to it when there are fewer, in order, in messages of at most 100 blocks; nothing is said to be missing. -/
theorem serve_back {c : Ledger} {h : Nat} (hh : atHeight c h ≠ none) {count : Nat} (hsmall : c.length ≤ 2 ^ 50) :
    ∃ msgs, serve (fetchRange c) (some h) count false = .blocks msgs false ∧
      msgs.flatten = (blocksOf c).filter (fun b => decide (h < b.1 + count ∧ b.1 ≤ h)) ∧ ∀ m ∈ msgs, m ≠ [] ∧ m.length ≤ 100 := by
  have hpos : 0 < h ∧ h ≤ c.length := by
    rw [Ne, atHeight_none] at hh
    omega
  have hr : ∃ lo, askedRange h count false = (lo, h) ∧ ∀ x, 0 < x → (lo ≤ x ↔ h < x + count) := by
    unfold askedRange
    rw [if_neg (by simp)]
    split
    · exact ⟨_, rfl, fun x hx => by omega⟩
    · exact ⟨_, rfl, fun x hx => by omega⟩
  obtain ⟨lo, h1, h2⟩ := hr
  have hsp : ∃ l, splitChunk lo h = some l := by
    unfold splitChunk
    split
    · exact ⟨_, rfl⟩
    · rw [if_neg (by simp only [taskSize, makeMax]; omega)]
      exact ⟨_, rfl⟩
  obtain ⟨l, hl⟩ := hsp
  obtain ⟨k1, k2, k3⟩ := split_answer (c := c) hpos.1 hl
  refine ⟨(sendAll (fetchRange c) l).1, ?_, ?_, k2⟩
  · simp only [serve, h1, hl]
    cases hm : (sendAll (fetchRange c) l).2 with
    | false => rfl
    | true => have := k3 hm; omega
  · rw [k1]
    apply List.filter_congr
    intro b hb
    have := (atHeight_some.mp (mem_blocksOf.mp hb)).2.1
    rw [decide_eq_decide, h2 b.1 this]

/-- **C85.** Who asks for `count` blocks from a block on gets those of them that there are, in order. That blocks are missing is said only if not all are there. The count must not be too large. -/
theorem serve_forward_partial {c : Ledger} {h : Nat} (hh : atHeight c h ≠ none) {count : Nat} (hc : 0 < count) (hsmall : count ≤ 2 ^ 50) (hlen : c.length < 2 ^ 63) :
    ∃ msgs missing, serve (fetchRange c) (some h) count true = .blocks msgs missing ∧
      msgs.flatten = (blocksOf c).filter (fun b => decide (h ≤ b.1 ∧ b.1 < h + count)) ∧ (∀ m ∈ msgs, m ≠ [] ∧ m.length ≤ 100) ∧ (missing = true → c.length + 1 < h + count) := by
  have hpos : 0 < h ∧ h ≤ c.length := by
    rw [Ne, atHeight_none] at hh
    omega
  have h1 : askedRange h count true = (h, h + count - 1) := by
    unfold askedRange
    rw [if_pos rfl, pred64_eq (by omega) (by omega)]
  have hsp : ∃ l, splitChunk h (h + count - 1) = some l := by
    unfold splitChunk
    split
    · exact ⟨_, rfl⟩
    · rw [if_neg (by simp only [taskSize, makeMax]; omega)]
      exact ⟨_, rfl⟩
  obtain ⟨l, hl⟩ := hsp
  obtain ⟨k1, k2, k3⟩ := split_answer (c := c) (show 0 < h + count - 1 by omega) hl
  refine ⟨(sendAll (fetchRange c) l).1, (sendAll (fetchRange c) l).2, ?_, ?_, k2, fun hm => ?_⟩
  · simp only [serve, h1, hl]
  · rw [k1]
    apply List.filter_congr
    intro b hb
    rw [decide_eq_decide]
    omega
  · have := k3 hm
    omega

/-- **C85.** Who asks for blocks around a block that the node does not have gets none and is told that they are missing. -/
theorem serve_unknown (get : Nat → Nat → List (Nat × Nat)) (count : Nat) (forward : Bool) : serve get none count forward = .blocks [] true := rfl

/-- **C85.** The same for the blocks of an account, except that every message has its blocks from high to low. -/
theorem serve_account {c : Ledger} {found : Option Nat} {count : Nat} {forward : Bool} {msgs : List (List (Nat × Nat))} {missing : Bool}
    (h : serve (fetchRange c) found count forward = .blocks msgs missing) : serve (fetchDown c) found count forward = .blocks (msgs.map List.reverse) missing := by
  unfold serve at h ⊢
  cases found with
  | none =>
    simp only [Answer.blocks.injEq] at h ⊢
    obtain ⟨rfl, rfl⟩ := h
    exact ⟨rfl, rfl⟩
  | some n =>
    simp only at h ⊢
    split at h
    · cases h
    · simp only [Answer.blocks.injEq] at h ⊢
      obtain ⟨rfl, rfl⟩ := h
      exact ⟨(sendAll_down c _).1, (sendAll_down c _).2⟩

/-- **C85, fails.** A request for many blocks from a block on stops the node: for every block that it has. -/
theorem large_count_panics {get : Nat → Nat → List (Nat × Nat)} {h count : Nat} (hc : 2 ^ 51 ≤ count) (hlt : h + count ≤ 2 ^ 64) : serve get (some h) count true = .panic := by
  have h1 : askedRange h count true = (h, h + count - 1) := by
    unfold askedRange
    rw [if_pos rfl, pred64_eq (by omega) (by omega)]
  have : splitChunk h (h + count - 1) = none := by
    unfold splitChunk
    rw [if_neg (by omega), if_pos (by simp only [taskSize, makeMax]; omega)]
  simp only [serve, h1, this]

/-! ## Points -/

theorem next_mul {start step : Nat} (hs : 0 < step) : start < (start + step) / step * step ∧ (start + step) / step * step ≤ start + step ∧
    ∀ k, start < k → step ∣ k → (start + step) / step * step ≤ k := by
  rw [Nat.add_div_right _ hs, Nat.succ_mul]
  have h1 := Nat.lt_div_mul_add (a := start) hs
  have h2 := Nat.div_mul_le_self start step
  refine ⟨by omega, by omega, ?_⟩
  rintro k hk ⟨m, rfl⟩
  have : start / step < m := by
    rw [Nat.div_lt_iff_lt_mul hs, Nat.mul_comm]
    exact hk
  calc start / step * step + step = (start / step + 1) * step := by rw [Nat.succ_mul]
    _ ≤ m * step := Nat.mul_le_mul_right _ this
    _ = step * m := Nat.mul_comm _ _

theorem collect_spec {c : Ledger} {step last start : Nat} (hs : 0 < step) (h0 : 0 < start) (hw : last + step < 2 ^ 64) :
    Rising (collect c step last start) ∧ ∀ b, b ∈ collect c step last start ↔ b ∈ blocksOf c ∧ start ≤ b.1 ∧ b.1 ≤ last ∧ (b.1 = start ∨ step ∣ b.1 ∨ b.1 = last) := by
  have len : ∀ b ∈ blocksOf c, b.1 ≤ c.length := by
    intro b hb
    obtain ⟨-, h4, h5⟩ := atHeight_some.mp (mem_blocksOf.mp hb)
    have := (List.getElem?_eq_some_iff.mp h5).1
    omega
  have one : ∀ {s : Nat} {b x : Nat × Nat}, atHeight c s = some b → (x = b ↔ x ∈ blocksOf c ∧ x.1 = s) := by
    intro s b x hb
    have h1 := (atHeight_some.mp hb).1
    constructor
    · rintro rfl
      exact ⟨mem_blocksOf.mpr (by rw [h1]; exact hb), h1⟩
    · rintro ⟨hx, rfl⟩
      rw [mem_blocksOf, hb] at hx
      exact (Option.some.inj hx).symm
  fun_induction collect c step last start with
  | case1 start hs' hn =>
    refine ⟨.nil, fun b => ?_⟩
    simp only [List.not_mem_nil, false_iff, not_and]
    intro hb h1
    have := len b hb
    rcases atHeight_none.mp hn with h | h <;> omega
  | case2 b hs' hn =>
    refine ⟨List.pairwise_singleton _ _, fun x => ?_⟩
    rw [List.mem_singleton, one hn]
    constructor
    · rintro ⟨h1, h2⟩; exact ⟨h1, by omega, by omega, Or.inl h2⟩
    · rintro ⟨h1, h2, h3, -⟩; exact ⟨h1, by omega⟩
  | case3 start hs' b hn hne hw' => omega
  | case4 start hs' b hn hne hw' hgt ih =>
    obtain ⟨i1, i2⟩ := ih (by omega)
    have hb1 := (atHeight_some.mp hn).1
    refine ⟨List.pairwise_cons.mpr ⟨fun x hx => ?_, i1⟩, fun x => ?_⟩
    · have := ((i2 x).mp hx).2.1
      omega
    · rw [List.mem_cons, one hn, i2]
      obtain ⟨n1, n2, n3⟩ := next_mul (start := start) hs
      constructor
      · rintro (⟨h1, h2⟩ | ⟨h1, h2, h3, h4⟩)
        · exact ⟨h1, by omega, by omega, Or.inl h2⟩
        · exact ⟨h1, by omega, h3, Or.inr (Or.inr (by omega))⟩
      · rintro ⟨h1, h2, h3, h4⟩
        by_cases he : x.1 = start
        · exact Or.inl ⟨h1, he⟩
        · right
          rcases h4 with h4 | h4 | h4
          · exact absurd h4 he
          · have := n3 x.1 (by omega) h4
            omega
          · exact ⟨h1, by omega, h3, Or.inl h4⟩
  | case5 start hs' b hn hne hw' hgt ih =>
    obtain ⟨n1, n2, n3⟩ := next_mul (start := start) hs
    obtain ⟨i1, i2⟩ := ih (by omega)
    have hb1 := (atHeight_some.mp hn).1
    refine ⟨List.pairwise_cons.mpr ⟨fun x hx => ?_, i1⟩, fun x => ?_⟩
    · have := ((i2 x).mp hx).2.1
      omega
    · rw [List.mem_cons, one hn, i2]
      constructor
      · rintro (⟨h1, h2⟩ | ⟨h1, h2, h3, h4⟩)
        · exact ⟨h1, by omega, by omega, Or.inl h2⟩
        · refine ⟨h1, by omega, h3, ?_⟩
          rcases h4 with h4 | h4 | h4
          · exact Or.inr (Or.inl ⟨(start + step) / step, by rw [h4, Nat.mul_comm]⟩)
          · exact Or.inr (Or.inl h4)
          · exact Or.inr (Or.inr h4)
      · rintro ⟨h1, h2, h3, h4⟩
        by_cases he : x.1 = start
        · exact Or.inl ⟨h1, he⟩
        · right
          rcases h4 with h4 | h4 | h4
          · exact absurd h4 he
          · exact ⟨h1, n3 x.1 (by omega) h4, h3, Or.inr (Or.inl h4)⟩
          · exact ⟨h1, by omega, h3, Or.inr (Or.inr h4)⟩
  | case6 start hn =>
    refine ⟨.nil, fun b => ?_⟩
    simp only [List.not_mem_nil, false_iff, not_and]
    intro hb h1 h2
    omega

theorem startBlock_match {c : Ledger} {pre post : List (Nat × Nat)} {p : Nat × Nat} {b : Option (Nat × Nat)} (hpre : ∀ q ∈ pre, q ∉ blocksOf c) (hp : p ∈ blocksOf c) :
    startBlock c (pre ++ p :: post) b = some p := by
  induction pre generalizing b with
  | nil =>
    rw [mem_blocksOf] at hp
    simp [startBlock, hp]
  | cons q pre ih =>
    rw [List.cons_append, startBlock]
    have hq := hpre q List.mem_cons_self
    split
    · exact ih (fun x hx => hpre x (List.mem_cons_of_mem _ hx))
    · rename_i b' hb'
      rw [if_pos]
      · exact ih (fun x hx => hpre x (List.mem_cons_of_mem _ hx))
      · intro he
        apply hq
        rw [mem_blocksOf, hb']
        have := (atHeight_some.mp hb').1
        exact congrArg some (Prod.ext this he)

/-- **C85.** A node that has one of the blocks a peer starts from answers, for the first of them, with the next block and then every block of the chain up to the last height whose height is a multiple
of the step, and the block of the last height: in ascending order. It says that there is nothing only if it has no block after that one up to the last height. -/
theorem points_exact {c : Ledger} {pre post : List (Nat × Nat)} {p : Nat × Nat} {step last : Nat} (hpre : ∀ q ∈ pre, q ∉ blocksOf c) (hp : p ∈ blocksOf c)
    (hs : 0 < step) (hw : last + step < 2 ^ 64) :
    ∃ l, Rising l ∧ (∀ b, b ∈ l ↔ b ∈ blocksOf c ∧ p.1 < b.1 ∧ b.1 ≤ last ∧ (b.1 = p.1 + 1 ∨ step ∣ b.1 ∨ b.1 = last)) ∧
      hashList c (pre ++ p :: post) step last = if l = [] then .missing else .points l := by
  obtain ⟨h1, h2⟩ := collect_spec (c := c) (last := last) hs (Nat.succ_pos p.1) hw
  refine ⟨collect c step last (p.1 + 1), h1, h2, ?_⟩
  have hst : (if (p.1 + 1) / step * step < p.1 + 1 then p.1 + 1 else (p.1 + 1) / step * step) = p.1 + 1 := by
    have := Nat.div_mul_le_self (p.1 + 1) step
    split <;> omega
  simp only [hashList, startBlock_match hpre hp, hst]
  rw [if_neg (by omega)]
  cases collect c step last (p.1 + 1) with
  | nil => rfl
  | cons x l => rfl

/-- **C85, fails.** A request with step zero stops the node, for every block that it has. -/
theorem zero_step_panics {c : Ledger} {p : Nat × Nat} (hp : p ∈ blocksOf c) (last : Nat) : hashList c [p] 0 last = .panic := by
  have := startBlock_match (c := c) (pre := []) (post := []) (b := none) (by simp) hp
  simp only [List.nil_append] at this
  simp [hashList, this]

/-- **C85, fails.** A node that has none of the blocks answers as if it had, when it has another block at the last of the heights: the points do not follow any block of the peer. -/
theorem other_fork_answered {c : Ledger} {p b : Nat × Nat} (hp : p ∉ blocksOf c) (hb : b ∈ blocksOf c) (hh : b.1 = p.1) (pre : List (Nat × Nat)) (hpre : ∀ q ∈ pre, q ∉ blocksOf c) (step last : Nat) :
    hashList c (pre ++ [p]) step last = hashList c [b] step last := by
  have h1 : ∀ x, startBlock c (pre ++ [p]) x = some b := by
    intro x
    induction pre generalizing x with
    | nil =>
      rw [List.nil_append, startBlock, ← hh, mem_blocksOf.mp hb]
      simp only
      rw [if_pos]
      · rfl
      · intro e
        exact hp ((Prod.ext hh e : b = p) ▸ hb)
    | cons q pre ih =>
      rw [List.cons_append, startBlock]
      have hq := hpre q List.mem_cons_self
      split
      · exact ih (fun x hx => hpre x (List.mem_cons_of_mem _ hx)) _
      · rename_i b' hb'
        rw [if_pos]
        · exact ih (fun x hx => hpre x (List.mem_cons_of_mem _ hx)) _
        · intro he
          apply hq
          rw [mem_blocksOf, hb']
          have := (atHeight_some.mp hb').1
          exact congrArg some (Prod.ext this he)
  have h2 := startBlock_match (c := c) (pre := []) (post := []) (b := none) (by simp) hb
  simp only [List.nil_append] at h2
  simp only [hashList, h1, h2]

/-! ## From the answer to the plan -/

theorem rising_last {l : List (Nat × Nat)} {b : Nat × Nat} (h : Rising l) (hb : b ∈ l) (hm : ∀ x ∈ l, x.1 ≤ b.1) : l.getLast? = some b := by
  induction l with
  | nil => cases hb
  | cons x l ih =>
    obtain ⟨h1, h2⟩ := List.pairwise_cons.mp h
    cases l with
    | nil =>
      rw [List.mem_singleton] at hb
      rw [hb]; rfl
    | cons y l =>
      rw [List.getLast?_cons_cons]
      rcases List.mem_cons.mp hb with rfl | hb
      · have := h1 y List.mem_cons_self
        have := hm y (by simp)
        omega
      · exact ih h2 hb (fun z hz => hm z (List.mem_cons_of_mem _ hz))

/-- **C82, C85.** When the peer has the block that the node starts from and the block at the last height, tasks made from its answer and the chunks that are kept lead from the one to the other. -/
theorem answer_covers {c : Ledger} {p e : Nat × Nat} {step last : Nat} (hp : p ∈ blocksOf c) (he : e ∈ blocksOf c) (hel : e.1 = last) (hlt : p.1 + 1 < last) (hs : 0 < step) (hw : last + step < 2 ^ 64)
    (sizes : Nat × Nat → Nat) {segs : List Seg} (hseg : Stored segs) :
    ∃ l, hashList c [p] step last = .points l ∧
      ∃ steps : List (Bool × Seg), Leads p (steps.map (·.2)) e ∧ asked steps = real (plan segs ⟨p.1, p.2, 0⟩ (l.map (fun b => ⟨b.1, b.2, sizes b⟩))).1 ∧
        ∀ s ∈ kept steps, s ∈ segs ∧ s ∉ (plan segs ⟨p.1, p.2, 0⟩ (l.map (fun b => ⟨b.1, b.2, sizes b⟩))).2 := by
  obtain ⟨l, h1, h2, h3⟩ := points_exact (pre := []) (post := []) (by simp) hp hs hw
  have hel' : e ∈ l := (h2 e).mpr ⟨he, by omega, by omega, Or.inr (Or.inr hel)⟩
  refine ⟨l, ?_, ?_⟩
  · rw [List.nil_append] at h3
    rw [h3, if_neg]
    rintro rfl
    cases hel'
  · have hlast := rising_last h1 hel' (fun x hx => by have := ((h2 x).mp hx).2.2.1; omega)
    cases l with
    | nil => cases hel'
    | cons x l =>
      have hx1 : x.1 = p.1 + 1 := by
        -- the block after the start is there
        have hlen : p.1 + 1 ≤ c.length := by
          obtain ⟨-, h4, h5⟩ := atHeight_some.mp (mem_blocksOf.mp he)
          have := (List.getElem?_eq_some_iff.mp h5).1
          omega
        obtain ⟨y, hy⟩ : ∃ y, atHeight c (p.1 + 1) = some y := by
          cases hy : atHeight c (p.1 + 1) with
          | none => rw [atHeight_none] at hy; omega
          | some y => exact ⟨y, rfl⟩
        have hy1 := (atHeight_some.mp hy).1
        have hyl : y ∈ x :: l := (h2 y).mpr ⟨mem_blocksOf.mpr (by rw [hy1]; exact hy), by omega, by omega, Or.inl hy1⟩
        have hxl := ((h2 x).mp List.mem_cons_self).2.1
        rcases List.mem_cons.mp hyl with rfl | hyl
        · exact hy1
        · have := (List.pairwise_cons.mp h1).1 y hyl
          omega
      have hne : l ≠ [] := by
        rintro rfl
        rw [List.mem_singleton] at hel'
        subst hel'
        omega
      have hasc : Ascending (⟨p.1, p.2, 0⟩ :: l.map (fun b => (⟨b.1, b.2, sizes b⟩ : Point))) := by
        unfold Ascending
        rw [List.pairwise_cons, List.pairwise_map]
        refine ⟨fun q hq => ?_, (List.pairwise_cons.mp h1).2⟩
        obtain ⟨b, hb, rfl⟩ := List.mem_map.mp hq
        exact ((h2 b).mp (List.mem_cons_of_mem _ hb)).2.1
      obtain ⟨steps, k1, k2, k3⟩ := plan_tiles (x := ⟨x.1, x.2, sizes x⟩) hseg hasc
      refine ⟨steps, ?_, k2, k3⟩
      have hl : ((l.map (fun b => (⟨b.1, b.2, sizes b⟩ : Point))).getLastD ⟨p.1, p.2, 0⟩).block = e := by
        rw [List.getLastD_eq_getLast?, List.getLast?_map]
        have : l.getLast? = some e := by
          cases l with
          | nil => exact absurd rfl hne
          | cons y l => rw [← hlast, List.getLast?_cons_cons]
        rw [this]
        rfl
      rw [hl] at k1
      exact k1

end Verif.Sync
