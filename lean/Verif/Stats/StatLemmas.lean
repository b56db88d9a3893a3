import Verif.Stats.StatSpec

/-!
# The algebra of statistics
-/

namespace Verif.Stats
open Verif.Consensus Verif.Snap

theorem round_pos {g : Env} (h : CfgOk g.toCfg) : 0 < g.plan.round := h.pos

theorem start_mono {g : Env} {i j : Nat} (h : i ≤ j) : start g i ≤ start g j := by
  unfold start
  have : (g.plan.round : Int) * i ≤ g.plan.round * j := mul_le_mul_of_nonneg_left (by omega) (by positivity)
  linarith

theorem start_lt {g : Env} (hc : CfgOk g.toCfg) {i j : Nat} (h : i < j) : start g i + 1000000000 ≤ start g j := by
  unfold start
  have hr := round_pos hc
  have h1 : (g.plan.round : Int) * (i + 1 : Nat) ≤ g.plan.round * j := mul_le_mul_of_nonneg_left (by omega) (by positivity)
  have h2 : (g.plan.round : Int) * (i + 1 : Nat) = g.plan.round * i + g.plan.round := by push_cast; ring
  have h3 : (1 : Int) ≤ g.plan.round := by omega
  linarith

theorem start_zero (g : Env) : start g 0 = g.plan.genesis * 1000000000 := by unfold start; simp

theorem periodTime_eq (g : Env) (i : Nat) : periodTime g i = (start g i, start g (i + 1)) := by
  unfold periodTime start TimeIndex.index2Time Plan.index
  rfl

/-- The proof time of a round is not after its start, except for the first. -/
theorem proof_le_start {g : Env} (hc : CfgOk g.toCfg) (k : Nat) : proofTime g.plan k * 1000000000 ≤ start g (k + 1) := by
  unfold proofTime
  split
  · have h1 := start_lt (i := 0) (j := k + 1) hc (by omega)
    rw [start_zero] at h1
    omega
  · have : (g.plan.index.index2Time (k - 2)).2 * 1000000000 = start g (k - 2 + 1) := congrArg Prod.snd (periodTime_eq g (k - 2))
    rw [this]
    exact start_mono (by omega)

theorem factual_split {g : Env} {v : List Blk} {i j k : Nat} (h1 : i ≤ j) (h2 : j ≤ k) (a : Addr) : factual g v i k a = factual g v i j a + factual g v j k a := by
  unfold factual blocksIn
  rw [List.filter_filter, List.filter_filter, List.filter_filter]
  have s1 := start_mono (g := g) h1
  have s2 := start_mono (g := g) h2
  induction v with
  | nil => rfl
  | cons b l ih =>
    simp only [List.filter_cons, ← Bool.decide_and, decide_eq_true_eq]
    by_cases e : b.producer = a ∧ b.height ≠ 1 ∧ start g i ≤ b.time ∧ b.time < start g k
    · rw [if_pos e, List.length_cons]
      simp only [← Bool.decide_and] at ih
      rw [ih]
      by_cases e2 : b.time < start g j
      · rw [if_pos ⟨e.1, e.2.1, e.2.2.1, e2⟩, if_neg (by omega), List.length_cons]; omega
      · rw [if_neg (by omega), if_pos ⟨e.1, e.2.1, by omega, e.2.2.2⟩, List.length_cons]; omega
    · rw [if_neg e, if_neg (fun h => e ⟨h.1, h.2.1, h.2.2.1, by omega⟩), if_neg (fun h => e ⟨h.1, h.2.1, by omega, h.2.2.2⟩)]
      simp only [← Bool.decide_and] at ih
      exact ih

theorem expected_split {g : Env} {v : List Blk} {i j k : Nat} (h1 : i ≤ j) (h2 : j ≤ k) (a : Addr) : expected g v i k a = expected g v i j a + expected g v j k a := by
  unfold expected
  rw [show k - i = (j - i) + (k - j) by omega, ← List.range'_append_1, List.map_append, List.sum_append, show i + (j - i) = j by omega]

/-- Statistics add up. -/
theorem merge_counts {g : Env} {v : List Blk} {i j k : Nat} (h1 : i ≤ j) (h2 : j ≤ k) : mergeMap (counts g v j k) (counts g v i j) = counts g v i k := by
  funext a
  unfold mergeMap counts
  rw [expected_split h1 h2, factual_split h1 h2]
  generalize expected g v i j a = e1
  generalize expected g v j k a = e2
  generalize factual g v i j a = f1
  generalize factual g v j k a = f2
  by_cases c1 : e1 = 0 ∧ f1 = 0
  · obtain ⟨rfl, rfl⟩ := c1
    by_cases c2 : e2 = 0 ∧ f2 = 0
    · obtain ⟨rfl, rfl⟩ := c2; rfl
    · rw [if_neg c2, if_pos ⟨rfl, rfl⟩, if_neg (by omega)]
      simp
  · by_cases c2 : e2 = 0 ∧ f2 = 0
    · obtain ⟨rfl, rfl⟩ := c2
      rw [if_pos ⟨rfl, rfl⟩, if_neg c1, if_neg (by omega)]
      simp
    · rw [if_neg c1, if_neg c2, if_neg (by omega)]
      simp only [Option.some.injEq, Content.mk.injEq]
      omega

theorem merge_comm (a b : Addr → Option Content) : mergeMap a b = mergeMap b a := by
  funext x
  unfold mergeMap
  cases a x <;> cases b x <;> simp only [Option.some.injEq, Content.mk.injEq]
  omega

theorem merge_none (m : Addr → Option Content) : mergeMap (fun _ => none) m = m := by
  funext x; unfold mergeMap; rfl

/-- Rounds without blocks. -/
theorem counts_nil {g : Env} {v : List Blk} {i j : Nat} (h : blocksIn g v i j = []) : counts g v i j = fun _ => none := by
  funext a
  unfold counts
  rw [if_pos]
  constructor
  · unfold expected
    apply List.sum_eq_zero
    intro x hx
    obtain ⟨k, hk, rfl⟩ := List.mem_map.1 hx
    rw [List.mem_range'_1] at hk
    rw [if_pos]
    rw [List.isEmpty_iff]
    unfold blocksIn at h ⊢
    rw [List.filter_eq_nil_iff] at h ⊢
    intro b hb hd
    have hd := of_decide_eq_true hd
    have s1 := start_mono (g := g) hk.1
    have s2 := start_mono (g := g) (show k + 1 ≤ j by omega)
    exact h b hb (decide_eq_true ⟨hd.1, by omega, by omega⟩)
  · unfold factual; rw [h]; rfl

/-! ### Chains -/

theorem mem_view {c : Chain} {x : Blk} : x ∈ view c ↔ ∃ b ∈ c, Snap.blk b = x := by unfold view; rw [List.mem_map]

theorem lastBefore_view {c : Chain} (hg : Good c) {t : Int} {b : Snap} (h : LastBefore c t b) : Verif.Stats.lastBefore (view c) t = some (Snap.blk b) := by
  unfold Verif.Stats.lastBefore view
  rw [List.filter_map, List.getLast?_map]
  have hf : c.filter ((fun b : Blk => decide (b.time < t)) ∘ Snap.blk) = c.take b.height := by
    have h1 := part_filter hg 0 b.height
    rw [List.drop_zero] at h1
    rw [h1]
    apply List.filter_congr
    intro x hx
    apply decide_eq_decide.2
    change x.time < t ↔ _
    constructor
    · intro hxt; exact ⟨(mem_height hg hx).1, h.2.2 x hx hxt⟩
    · rintro ⟨-, hle⟩
      by_cases e : x.height = b.height
      · rw [same_height hg hx h.1 e]; exact h.2.1
      · have := (time_lt_iff hg hx h.1).2 (by omega)
        have := h.2.1
        omega
  rw [hf]
  have hm := mem_height hg h.1
  have : (c.take b.height).getLast? = some b := by
    rw [List.getLast?_eq_getElem?, List.length_take, Nat.min_eq_left hm.2, List.getElem?_take, if_pos (by omega)]
    have := headerAt_mem hg h.1
    unfold headerAt at this
    rw [if_neg (by omega)] at this
    exact this
  rw [this]
  rfl

theorem lastBefore_none {c : Chain} {t : Int} (h : ∀ b ∈ c, t ≤ b.time) : Verif.Stats.lastBefore (view c) t = none := by
  unfold Verif.Stats.lastBefore
  rw [List.filter_eq_nil_iff.2]
  · rfl
  · intro x hx
    obtain ⟨b, hb, rfl⟩ := mem_view.1 hx
    have := h b hb
    rw [decide_eq_true_iff]
    change ¬ b.time < t
    omega

variable {g : Env} {first : Snap} {c : Chain}

theorem Valid.good (h : Valid g first c) : Good c := h.inv.good

theorem Valid.firstMem (h : Valid g first c) : first ∈ c ∧ first.height = 1 ∧ first.time = start g 0 := by
  obtain ⟨x, ex, mx, hx⟩ := h.good.genesis
  have := h.first
  rw [ex] at this
  injection this with this
  subst this
  exact ⟨mx, hx, by rw [start_zero]; exact h.inv.first _ h.first⟩

theorem exists_lastBefore (hg : Good c) {t : Int} {x : Snap} (hx : x ∈ c) (hxt : x.time < t) : ∃ b, LastBefore c t b := by
  have : ∀ n, ∀ y ∈ c, y.time < t → c.length - y.height ≤ n → ∃ b, LastBefore c t b := by
    intro n
    induction n with
    | zero =>
      intro y hy hyt hn
      exact ⟨y, hy, hyt, fun z hz _ => by have := (mem_height hg hz).2; omega⟩
    | succ n ih =>
      intro y hy hyt hn
      by_cases e : ∃ z ∈ c, z.time < t ∧ y.height < z.height
      · obtain ⟨z, hz, hzt, hlt⟩ := e
        exact ih z hz hzt (by have := (mem_height hg hz).2; omega)
      · refine ⟨y, hy, hyt, fun z hz hzt => ?_⟩
        by_contra hc
        exact e ⟨z, hz, hzt, by omega⟩
  exact this _ x hx hxt (Nat.le_refl _)

theorem Valid.last (hc : CfgOk g.toCfg) (h : Valid g first c) {k : Nat} (hk : 1 ≤ k) : ∃ b, LastBefore c (start g k) b := by
  obtain ⟨m, -, ht⟩ := h.firstMem
  exact exists_lastBefore h.good m (by have := start_lt (i := 0) (j := k) hc (by omega); omega)

theorem hashAt_of (hg : Good c) {k : Nat} {b : Snap} (h : LastBefore c (start g k) b) : hashAt g (view c) k = b.hash := by
  unfold hashAt
  rw [lastBefore_view hg h]
  rfl

theorem hashAt_zero (h : Valid g first c) : hashAt g (view c) 0 = first.hash := by
  unfold hashAt
  obtain ⟨m, h1, ht⟩ := h.firstMem
  rw [lastBefore_none]
  · have : (view c).head? = some (Snap.blk first) := by unfold view; rw [List.head?_map, h.first]; rfl
    rw [this]
    rfl
  · intro b hb
    by_cases e : b.height = 1
    · rw [same_height h.good hb m (by omega)]; omega
    · have := (time_lt_iff h.good m hb).2 (by have := (mem_height h.good hb).1; omega)
      omega

theorem blocksIn_nil {i j : Nat} : blocksIn g (view c) i j = [] ↔ ∀ b ∈ c, b.height ≠ 1 → start g i ≤ b.time → start g j ≤ b.time := by
  unfold blocksIn
  rw [List.filter_eq_nil_iff]
  constructor
  · intro h b hb h1 h2
    by_contra hc
    exact h (Snap.blk b) (mem_view.2 ⟨b, hb, rfl⟩) (decide_eq_true ⟨h1, h2, by change b.time < _; omega⟩)
  · intro h x hx hd
    obtain ⟨b, hb, rfl⟩ := mem_view.1 hx
    have hd := of_decide_eq_true hd
    have := h b hb hd.1 hd.2.1
    have h3 : b.time < start g j := hd.2.2
    omega

/-- Without blocks in between the hashes are the same, and the other way round. -/
theorem hashAt_eq_iff (hok : CfgOk g.toCfg) (hH : Function.Injective g.H) (h : Valid g first c) {i j : Nat} (hij : i < j) :
    hashAt g (view c) j = hashAt g (view c) i ↔ blocksIn g (view c) i j = [] := by
  obtain ⟨bj, hbj⟩ := h.last hok (k := j) (by omega)
  obtain ⟨fm, fh, ft⟩ := h.firstMem
  have hsi := start_mono (g := g) (show i ≤ j by omega)
  have hslt := start_lt hok hij
  rw [hashAt_of h.good hbj, blocksIn_nil]
  rcases Nat.eq_zero_or_pos i with rfl | hi
  · rw [hashAt_zero h]
    constructor
    · intro e
      have hh := hash_height hH h.inv.toInv hbj.1 fm e
      intro b hb h1 h2
      by_contra hc
      have := hbj.2.2 b hb (by omega)
      have := (mem_height h.good hb).1
      omega
    · intro hnil
      by_cases e : bj.height = 1
      · rw [same_height h.good hbj.1 fm (by omega)]
      · exfalso
        have := hnil bj hbj.1 e (by have := (time_lt_iff h.good fm hbj.1).2 (by have := (mem_height h.good hbj.1).1; omega); omega)
        have := hbj.2.1
        omega
  · obtain ⟨bi, hbi⟩ := h.last hok (k := i) hi
    rw [hashAt_of h.good hbi]
    constructor
    · intro e
      have hh := hash_height hH h.inv.toInv hbj.1 hbi.1 e
      intro b hb h1 h2
      by_contra hc
      have h3 := hbj.2.2 b hb (by omega)
      have h4 : ¬ b.time < bi.time := by have := hbi.2.1; omega
      have h5 := same_height h.good hbj.1 hbi.1 hh
      by_cases e2 : b.height = bi.height
      · rw [same_height h.good hb hbi.1 e2] at h2; have := hbi.2.1; omega
      · exact h4 ((time_lt_iff h.good hb hbi.1).2 (by omega))
    · intro hnil
      have : LastBefore c (start g j) bi := by
        refine ⟨hbi.1, by have := hbi.2.1; omega, ?_⟩
        intro x hx hxt
        by_cases e : x.height = 1
        · have := (mem_height h.good hbi.1).1; omega
        · by_cases e2 : x.time < start g i
          · exact hbi.2.2 x hx e2
          · have := hnil x hx e (by omega); omega
      rw [lastBefore_unique h.good hbj this]

theorem truth_isEmpty (hok : CfgOk g.toCfg) (hH : Function.Injective g.H) (h : Valid g first c) {i j : Nat} (hij : i < j) :
    (truth g (view c) i j).isEmpty = true ↔ blocksIn g (view c) i j = [] := by
  unfold Point.isEmpty truth
  rw [decide_eq_true_iff]
  exact hashAt_eq_iff hok hH h hij

/-- The point of rounds without blocks. -/
theorem truth_nil (hok : CfgOk g.toCfg) (hH : Function.Injective g.H) (h : Valid g first c) {i j : Nat} (hij : i < j) (hn : blocksIn g (view c) i j = []) :
    truth g (view c) i j = Point.empty (hashAt g (view c) j) := by
  unfold truth Point.empty
  rw [counts_nil hn, (hashAt_eq_iff hok hH h hij).2 hn]

/-! ### What is kept stays true -/

theorem lastBefore_filter (v : List Blk) {t T : Int} (h : t ≤ T) : Verif.Stats.lastBefore (v.filter (fun b => decide (b.time < T))) t = Verif.Stats.lastBefore v t := by
  unfold Verif.Stats.lastBefore
  rw [List.filter_filter]
  congr 1
  apply List.filter_congr
  intro x _
  rw [← Bool.decide_and]
  apply decide_eq_decide.2
  omega

theorem blocksIn_filter (v : List Blk) {i j k : Nat} (h : j ≤ k) : blocksIn g (v.filter (fun b => decide (b.time < start g k))) i j = blocksIn g v i j := by
  unfold blocksIn
  rw [List.filter_filter]
  apply List.filter_congr
  intro x _
  rw [← Bool.decide_and]
  apply decide_eq_decide.2
  have := start_mono (g := g) h
  omega

theorem counts_filter (hok : CfgOk g.toCfg) (v : List Blk) {i j k : Nat} (h : j ≤ k) : counts g (v.filter (fun b => decide (b.time < start g k))) i j = counts g v i j := by
  funext a
  have hf : factual g (v.filter (fun b => decide (b.time < start g k))) i j a = factual g v i j a := by unfold factual; rw [blocksIn_filter v h]
  have he : expected g (v.filter (fun b => decide (b.time < start g k))) i j a = expected g v i j a := by
    unfold expected
    congr 1
    apply List.map_congr_left
    intro m hm
    rw [List.mem_range'_1] at hm
    rw [blocksIn_filter v (by omega)]
    congr 1
    unfold slots
    rw [lastBefore_filter v (Int.le_trans (proof_le_start hok m) (start_mono (by omega)))]
  unfold counts
  rw [hf, he]

theorem head_filter (hok : CfgOk g.toCfg) (h : Valid g first c) {k : Nat} (hk : 1 ≤ k) :
    ((view c).filter (fun b => decide (b.time < start g k))).head? = some (Snap.blk first) := by
  have hv : (view c).head? = some (Snap.blk first) := by unfold view; rw [List.head?_map, h.first]; rfl
  cases hvc : view c with
  | nil => rw [hvc] at hv; exact absurd hv (by simp)
  | cons x l =>
    rw [hvc] at hv
    simp at hv
    subst hv
    rw [List.filter_cons_of_pos]
    · rfl
    · rw [decide_eq_true_iff]
      have := start_lt (i := 0) (j := k) hok (by omega)
      have h2 := h.firstMem.2.2
      change first.time < _
      omega

/-- Two chains with the same blocks before a round have the same statistics up to it. -/
theorem truth_same {d : Chain} (hok : CfgOk g.toCfg) (hc : Valid g first c) (hd : Valid g first d) {i j k : Nat} (hij : i ≤ j) (hj : j ≤ k) (hk : 1 ≤ k)
    (h : (view c).filter (fun b => decide (b.time < start g k)) = (view d).filter (fun b => decide (b.time < start g k))) :
    truth g (view c) i j = truth g (view d) i j := by
  have hh : ∀ {m}, m ≤ k → hashAt g (view c) m = hashAt g (view d) m := by
    intro m hm
    unfold hashAt
    rw [← lastBefore_filter (view c) (start_mono (g := g) hm), ← lastBefore_filter (view d) (start_mono (g := g) hm), h]
    have e1 : (view c).head? = some (Snap.blk first) := by unfold view; rw [List.head?_map, hc.first]; rfl
    have e2 : (view d).head? = some (Snap.blk first) := by unfold view; rw [List.head?_map, hd.first]; rfl
    rw [e1, e2]
  unfold truth
  rw [hh hj, hh (show i ≤ k by omega), ← counts_filter hok (view c) hj, ← counts_filter hok (view d) hj, h]

theorem view_before (hg : Good c) {t : Int} {b : Snap} (h : LastBefore c t b) : (view c).filter (fun x => decide (x.time < t)) = (c.take b.height).map Snap.blk := by
  unfold view
  rw [List.filter_map]
  congr 1
  have h1 := part_filter hg 0 b.height
  rw [List.drop_zero] at h1
  rw [h1]
  apply List.filter_congr
  intro x hx
  apply decide_eq_decide.2
  change x.time < t ↔ _
  constructor
  · intro hxt; exact ⟨(mem_height hg hx).1, h.2.2 x hx hxt⟩
  · rintro ⟨-, hle⟩
    by_cases e : x.height = b.height
    · rw [same_height hg hx h.1 e]; exact h.2.1
    · have := (time_lt_iff hg hx h.1).2 (by omega)
      have := h.2.1
      omega

/-- The hash of the last block before a time stands for all before it. -/
theorem views_agree {d : Chain} (he : EnvOk g first) (hc : Valid g first c) (hd : Valid g first d) {t : Int} {a b : Snap} (ha : LastBefore c t a) (hb : LastBefore d t b)
    (h : a.hash = b.hash) : (view c).filter (fun x => decide (x.time < t)) = (view d).filter (fun x => decide (x.time < t)) := by
  obtain ⟨hh, hall⟩ := history_agrees he.cfg he.inj he.small hc.inv hd.inv ha.1 hb.1 h
  rw [view_before hc.good ha, view_before hd.good hb, ← hh]
  apply List.ext_getElem?
  intro j
  rw [List.getElem?_map, List.getElem?_map, List.getElem?_take, List.getElem?_take]
  by_cases e : j < a.height
  · rw [if_pos e, if_pos e]
    obtain ⟨x, y, hx, hy, hxy, hbody, ht, hp⟩ := hall j e
    rw [hx, hy]
    have e1 : x.height = y.height := congrArg Body.height hbody
    have e3 : x.producer = y.producer := by
      by_cases e1 : x.height = 1
      · have hj : j = 0 := by have := hc.good.height j x hx; omega
        subst hj
        have h1 := hc.first
        have h2 := hd.first
        rw [List.head?_eq_getElem?, hx] at h1
        rw [List.head?_eq_getElem?, hy] at h2
        injection h1 with h1
        injection h2 with h2
        rw [h1, h2]
      · exact hp e1
    simp only [Option.map_some, Snap.blk, hxy, e1, ht, e3]
  · rw [if_neg e, if_neg e]

end Verif.Stats
