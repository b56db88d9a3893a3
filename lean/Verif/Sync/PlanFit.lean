import Verif.Sync.PlanLoop
import Verif.Sync.SegCacheSpec

/-!
# The plan of a synchronising node

Property C82: what the plan covers, how it fits the cache, and how large its tasks are. -/

namespace Verif.Sync

/-! ## What is deleted -/

theorem select_del (low high : Nat) (segs : List Seg) (l : List Point) : List.Sublist (select low high segs l).2 segs := by
  induction segs generalizing l with
  | nil => exact List.Sublist.slnil
  | cons s r ih =>
    unfold select
    split
    · exact (ih l).trans (List.sublist_cons_self s r)
    · split
      · exact List.nil_sublist _
      · simp only
        split
        · exact (ih _).trans (List.sublist_cons_self s r)
        · exact (ih _).cons_cons s

theorem compareCache_del (segs : List Seg) (l : List Point) : List.Sublist (compareCache segs l).2 segs := by
  unfold compareCache
  simp only
  split
  · exact select_del _ _ _ _
  · exact select_del _ _ _ _

/-- A chunk whose ends are points is found. -/
theorem scanSeg_finds {s : Seg} {X Z : List Point} {a : Point} {Y : List Point} {b : Point} (f t : Bool)
    (hasc : Ascending (X ++ a :: (Y ++ b :: Z))) (ha : s.lo = a.height + 1 ∧ s.prev = a.hash) (hb : s.hi = b.height ∧ s.hash = b.hash) :
    scanSeg s (X ++ a :: (Y ++ b :: Z)) f t = (true, true, b :: Z) := by
  have hab : a.height < b.height := by
    unfold Ascending at hasc
    rw [List.pairwise_append] at hasc
    exact List.rel_of_pairwise_cons hasc.2.1 (by simp)
  have hY : ∀ (Y : List Point) (f t : Bool), (∀ y ∈ Y, y.height < b.height) → f = true → scanSeg s (Y ++ b :: Z) f t = (true, true, b :: Z) := by
    intro Y
    induction Y with
    | nil =>
      intro f t _ hf
      rw [List.nil_append, scanSeg, hf]
      simp [hb.1, hb.2]
    | cons y Y ih =>
      intro f t hy hf
      rw [List.cons_append, scanSeg]
      have : ¬ (y.height ≥ s.hi) := by have := hy y List.mem_cons_self; omega
      rw [if_neg this]
      exact ih _ _ (fun z hz => hy z (List.mem_cons_of_mem _ hz)) (by simp [hf])
  have hYb : ∀ y ∈ Y, y.height < b.height := by
    intro y hy
    unfold Ascending at hasc
    rw [List.pairwise_append, List.pairwise_cons, List.pairwise_append] at hasc
    exact hasc.2.1.2.2.2 y hy b List.mem_cons_self
  induction X generalizing f t with
  | nil =>
    rw [List.nil_append, scanSeg]
    rw [if_neg (by omega)]
    exact hY Y _ _ hYb (by simp [ha.1, ha.2])
  | cons x X ih =>
    have hx : x.height < a.height := List.rel_of_pairwise_cons hasc (by simp)
    rw [List.cons_append, scanSeg]
    rw [if_neg (by omega)]
    exact ih _ _ (List.pairwise_cons.mp hasc).2

/-- What the scan of a chunk leaves: all points from the first one that is not below the end of the chunk. -/
theorem scanSeg_rest {s : Seg} {l : List Point} (f t : Bool) (hasc : Ascending l) {p : Point} (hp : p ∈ l) (h : s.hi ≤ p.height) :
    p ∈ (scanSeg s l f t).2.2 := by
  induction l generalizing f t with
  | nil => cases hp
  | cons q r ih =>
    rw [scanSeg]
    split
    · exact hp
    · rename_i hq
      rcases List.mem_cons.mp hp with rfl | hp
      · omega
      · exact ih _ _ (List.pairwise_cons.mp hasc).2 hp

theorem scanSeg_fits {s : Seg} {l : List Point} (hasc : Ascending l) (hs : s.lo ≤ s.hi) (h : Fits l s) :
    (scanSeg s l false false).1 = true ∧ (scanSeg s l false false).2.1 = true := by
  obtain ⟨⟨a, ha, ha1⟩, b, hb, hb1⟩ := h
  obtain ⟨X, W, rfl⟩ := List.append_of_mem ha
  have hlt : a.height < b.height := by have := ha1.1; have := hb1.1; omega
  have := asc_mem_right hasc hb hlt
  obtain ⟨Y, Z, rfl⟩ := List.append_of_mem this
  rw [scanSeg_finds false false hasc ha1 hb1]
  exact ⟨rfl, rfl⟩

/-- A chunk is deleted exactly when it reaches into the range and an end of it is not a point. -/
theorem select_del_iff {low high : Nat} {segs : List Seg} (hs : Stored segs) {l : List Point} (hasc : Ascending l) {s : Seg} :
    s ∈ (select low high segs l).2 ↔ s ∈ segs ∧ low < s.hi ∧ s.lo ≤ high ∧ ¬ Fits l s := by
  induction segs generalizing l with
  | nil => simp [select]
  | cons t r ih =>
    have hr : Stored r := ⟨(List.pairwise_cons.mp hs.1).2, fun x hx => hs.2 x (List.mem_cons_of_mem _ hx)⟩
    have ht := hs.2 t List.mem_cons_self
    have hlt : ∀ x ∈ r, t.hi < x.lo := fun x hx => List.rel_of_pairwise_cons hs.1 hx
    unfold select
    by_cases h1 : t.hi ≤ low
    · rw [if_pos h1, ih hr hasc]
      constructor
      · rintro ⟨a, b⟩
        exact ⟨List.mem_cons_of_mem _ a, b⟩
      · rintro ⟨a, b⟩
        rcases List.mem_cons.mp a with rfl | a
        · omega
        · exact ⟨a, b⟩
    · rw [if_neg h1]
      by_cases h2 : t.lo > high
      · rw [if_pos h2]
        simp only [List.not_mem_nil, false_iff]
        rintro ⟨a, b, c, -⟩
        rcases List.mem_cons.mp a with rfl | a
        · omega
        · have := hlt s a; omega
      · rw [if_neg h2]
        simp only
        have hasc' : Ascending (scanSeg t l false false).2.2 := hasc.sublist (scanSeg_spec t l false false).1.sublist
        have hrest : ∀ x ∈ r, Fits (scanSeg t l false false).2.2 x ↔ Fits l x := by
          intro x hx
          constructor
          · rintro ⟨⟨p, hp, h⟩, q, hq, h'⟩
            exact ⟨⟨p, (scanSeg_spec t l false false).1.subset hp, h⟩, q, (scanSeg_spec t l false false).1.subset hq, h'⟩
          · rintro ⟨⟨p, hp, h⟩, q, hq, h'⟩
            have := hlt x hx
            have := hr.2 x hx
            exact ⟨⟨p, scanSeg_rest _ _ hasc hp (by omega), h⟩, q, scanSeg_rest _ _ hasc hq (by omega), h'⟩
        by_cases hft : ((scanSeg t l false false).1 && (scanSeg t l false false).2.1) = true
        · rw [if_pos hft]
          simp only
          rw [ih hr hasc']
          rw [Bool.and_eq_true] at hft
          have hfit : Fits l t := by
            obtain ⟨-, a, b⟩ := scanSeg_spec t l false false
            exact ⟨(a hft.1).resolve_left (by simp), (b hft.2).resolve_left (by simp)⟩
          constructor
          · rintro ⟨a, b, c, d⟩
            exact ⟨List.mem_cons_of_mem _ a, b, c, fun h => d ((hrest s a).mpr h)⟩
          · rintro ⟨a, b, c, d⟩
            rcases List.mem_cons.mp a with rfl | a
            · exact absurd hfit d
            · exact ⟨a, b, c, fun h => d ((hrest s a).mp h)⟩
        · rw [if_neg hft]
          simp only [List.mem_cons]
          rw [ih hr hasc']
          have hfit : ¬ Fits l t := by
            intro h
            obtain ⟨a, b⟩ := scanSeg_fits hasc ht.2 h
            exact hft (by rw [a, b]; rfl)
          constructor
          · rintro (rfl | ⟨a, b, c, d⟩)
            · exact ⟨Or.inl rfl, by omega, by omega, hfit⟩
            · exact ⟨Or.inr a, b, c, fun h => d ((hrest s a).mpr h)⟩
          · rintro ⟨a, b, c, d⟩
            rcases a with rfl | a
            · exact Or.inl rfl
            · exact Or.inr ⟨a, b, c, fun h => d ((hrest s a).mp h)⟩

theorem compareCache_del_iff {segs : List Seg} (hs : Stored segs) {p : Point} {l : List Point} (hasc : Ascending (p :: l)) {s : Seg} :
    s ∈ (compareCache segs (p :: l)).2 ↔ s ∈ segs ∧ p.height < s.hi ∧ s.lo ≤ (l.getLastD p).height ∧ ¬ Fits (p :: l) s := by
  have hhigh : ((p :: l).getLastD ⟨0, 0, 0⟩) = l.getLastD p := getLastD_eq rfl
  rw [← select_del_iff hs hasc]
  unfold compareCache
  simp only [hhigh, List.headD_cons]
  split <;> rfl

/-! ## The plan -/

/-- The points as the plan uses them: the first one is the own block. -/
theorem plan_cases (segs : List Seg) (start x : Point) (l : List Point) (hs : Stored segs) :
    let p : Point := { start with size := x.size }
    (plan segs start (x :: l) = (constructTasks (p :: l), []) ∧ (∀ s ∈ segs, (l.getLastD p).height ≤ s.lo ∨ s.hi ≤ start.height)) ∨
      plan segs start (x :: l) = compareCache segs (p :: l) := by
  intro p
  have hhigh : ((p :: l).getLastD start) = l.getLastD p := getLastD_eq rfl
  unfold plan
  simp only [List.headD_cons, List.tail_cons]
  show (match segs with | [] => _ | s :: r => _) = _ ∧ _ ∨ _
  cases segs with
  | nil => exact Or.inl ⟨rfl, by simp⟩
  | cons s r =>
    simp only
    show (if s.lo ≥ ((p :: l).getLastD start).height then _ else _) = _ ∧ _ ∨ (if s.lo ≥ ((p :: l).getLastD start).height then _ else _) = _
    rw [hhigh]
    by_cases h1 : s.lo ≥ (l.getLastD p).height
    · rw [if_pos h1]
      refine Or.inl ⟨rfl, fun t ht => Or.inl ?_⟩
      rcases List.mem_cons.mp ht with rfl | ht
      · exact h1
      · have := List.rel_of_pairwise_cons hs.1 ht
        have := hs.2 s List.mem_cons_self
        omega
    · rw [if_neg h1]
      by_cases h2 : ((s :: r).getLastD s).hi ≤ start.height
      · rw [if_pos h2]
        refine Or.inl ⟨rfl, fun t ht => Or.inr ?_⟩
        have hge : ∀ (r : List Seg) (s : Seg), Stored (s :: r) → ∀ t ∈ s :: r, t.hi ≤ ((s :: r).getLastD s).hi := by
          intro r
          induction r with
          | nil =>
            intro s _ t ht
            simp only [List.mem_singleton] at ht
            subst ht
            exact Nat.le_refl _
          | cons u r ih =>
            intro s hs t ht
            have hu : Stored (u :: r) := ⟨(List.pairwise_cons.mp hs.1).2, fun x hx => hs.2 x (List.mem_cons_of_mem _ hx)⟩
            have e : (s :: u :: r).getLastD s = (u :: r).getLastD u := by
              simp only [List.getLastD_cons]
            rw [e]
            rcases List.mem_cons.mp ht with rfl | ht
            · have h1 := ih u hu u List.mem_cons_self
              have h2 := List.rel_of_pairwise_cons hs.1 (List.mem_cons_self (a := u) (l := r))
              have h3 := hu.2 u List.mem_cons_self
              omega
            · exact ih u hu t ht
        exact Nat.le_trans (hge r s hs t ht) h2
      · rw [if_neg h2]
        exact Or.inr rfl

/-- **C82.** The tasks and cached chunks together lead from the own block to the last point: each begins where the one before ends, by height and hash. -/
theorem plan_tiles {segs : List Seg} {start x : Point} {l : List Point} (hs : Stored segs) (hasc : Ascending (start :: l)) :
    ∃ steps : List (Bool × Seg), Leads start.block (steps.map (·.2)) (l.getLastD start).block ∧
      asked steps = real (plan segs start (x :: l)).1 ∧ ∀ s ∈ kept steps, s ∈ segs ∧ s ∉ (plan segs start (x :: l)).2 := by
  have hasc' : Ascending ({ start with size := x.size } :: l) := by
    unfold Ascending at hasc ⊢
    rw [List.pairwise_cons] at hasc ⊢
    exact hasc
  have hl : (l.getLastD { start with size := x.size }).block = (l.getLastD start).block := by
    cases l with
    | nil => rfl
    | cons y l => rw [List.getLastD_cons, List.getLastD_cons]
  rcases plan_cases segs start x l hs with ⟨h, -⟩ | h
  · rw [h]
    refine ⟨(real (constructTasks ({ start with size := x.size } :: l))).map (fun s => (false, s)), ?_, ?_, ?_⟩
    · rw [map_snd, ← hl]
      exact constructTasks_leads hasc'
    · rw [asked_false]
    · rw [kept_false]; simp
  · rw [h]
    obtain ⟨steps, h1, h2, h3, h4, -⟩ := compareCache_tiles hasc' hs
    rw [hl] at h1
    refine ⟨steps, h1, h2, fun s hk => ⟨h3.subset hk, fun hd => ?_⟩⟩
    exact ((compareCache_del_iff hs hasc').mp hd).2.2.2 (h4 s hk)

theorem leads_apart {a b : Nat × Nat} {p : List (Bool × Seg)} (h : Leads a (p.map (·.2)) b) {s t : Seg} (hs : s ∈ kept p) (ht : t ∈ asked p) : Apart s t := by
  have hp := h.pairwise
  rw [List.pairwise_map] at hp
  simp only [kept, asked, List.mem_map, List.mem_filter] at hs ht
  obtain ⟨x, ⟨hx, hx1⟩, rfl⟩ := hs
  obtain ⟨y, ⟨hy, hy1⟩, rfl⟩ := ht
  have : ∀ (q : List (Bool × Seg)), q.Pairwise (fun s t => s.2.hi < t.2.lo) → x ∈ q → y ∈ q → x ≠ y → Apart x.2 y.2 := by
    intro q
    induction q with
    | nil => intro _ h; cases h
    | cons z q ih =>
      intro hq hx hy hne
      rcases List.mem_cons.mp hx with rfl | hx' <;> rcases List.mem_cons.mp hy with rfl | hy'
      · exact absurd rfl hne
      · exact Or.inl (List.rel_of_pairwise_cons hq hy')
      · exact Or.inr (List.rel_of_pairwise_cons hq hx')
      · exact ih (List.pairwise_cons.mp hq).2 hx' hy' hne
  refine this p hp hx hy ?_
  rintro rfl
  simp [hx1] at hy1

/-- **C82.** Every task has room in the cache: no chunk that stays has a block in common with it. The first chunk must not begin at the last point. -/
theorem plan_room_partial {segs : List Seg} {start x : Point} {l : List Point} (hs : Stored segs) (hasc : Ascending (start :: l))
    (hedge : ∀ s ∈ segs, s.lo ≠ (l.getLastD start).height) {s t : Seg} (hm : s ∈ segs) (hd : s ∉ (plan segs start (x :: l)).2)
    (ht : t ∈ real (plan segs start (x :: l)).1) : Apart s t := by
  have hasc' : Ascending ({ start with size := x.size } :: l) := by
    unfold Ascending at hasc ⊢
    rw [List.pairwise_cons] at hasc ⊢
    exact hasc
  have hl : (l.getLastD { start with size := x.size }).height = (l.getLastD start).height := by
    cases l with
    | nil => rfl
    | cons y l => rw [List.getLastD_cons, List.getLastD_cons]
  rcases plan_cases segs start x l hs with ⟨h, h'⟩ | h
  · rw [h] at ht
    have hb := (constructTasks_leads hasc').bounds ht
    simp only [Point.block] at hb
    rw [hl] at hb h'
    have := hedge s hm
    rcases h' s hm with h | h
    · right; omega
    · left; omega
  · rw [h] at ht hd
    obtain ⟨steps, h1, h2, -, -, h5⟩ := compareCache_tiles hasc' hs
    rw [← h2] at ht
    by_cases ha : start.height < s.hi
    · by_cases hb : s.lo ≤ (l.getLastD start).height
      · rcases h5 s hm ha (by rw [hl]; exact hb) with hk | hk
        · exact leads_apart h1 hk ht
        · exact absurd hk hd
      · have hb' := h1.bounds (s := t) (by
          simp only [asked, List.mem_map, List.mem_filter] at ht
          obtain ⟨y, ⟨hy, -⟩, rfl⟩ := ht
          exact List.mem_map_of_mem hy)
        simp only [Point.block] at hb'
        rw [hl] at hb'
        right; omega
    · have hb' := h1.bounds (s := t) (by
        simp only [asked, List.mem_map, List.mem_filter] at ht
        obtain ⟨y, ⟨hy, -⟩, rfl⟩ := ht
        exact List.mem_map_of_mem hy)
      simp only [Point.block] at hb'
      left; omega

/-- **C82.** Only chunks that do not fit the points are deleted. -/
theorem plan_deletes {segs : List Seg} {start x : Point} {l : List Point} (hs : Stored segs) (hasc : Ascending (start :: l)) {s : Seg}
    (h : s ∈ (plan segs start (x :: l)).2) : s ∈ segs ∧ start.height < s.hi ∧ s.lo ≤ (l.getLastD start).height ∧ ¬ Fits (start :: l) s := by
  have hasc' : Ascending ({ start with size := x.size } :: l) := by
    unfold Ascending at hasc ⊢
    rw [List.pairwise_cons] at hasc ⊢
    exact hasc
  have hl : (l.getLastD { start with size := x.size }).height = (l.getLastD start).height := by
    cases l with
    | nil => rfl
    | cons y l => rw [List.getLastD_cons, List.getLastD_cons]
  rcases plan_cases segs start x l hs with ⟨h', -⟩ | h'
  · rw [h'] at h
    cases h
  · rw [h', compareCache_del_iff hs hasc', hl] at h
    refine ⟨h.1, h.2.1, h.2.2.1, fun hf => h.2.2.2 ?_⟩
    obtain ⟨⟨p, hp, h1⟩, q, hq, h2⟩ := hf
    constructor
    · rcases List.mem_cons.mp hp with rfl | hp
      · exact ⟨_, List.mem_cons_self, h1⟩
      · exact ⟨p, List.mem_cons_of_mem _ hp, h1⟩
    · rcases List.mem_cons.mp hq with rfl | hq
      · exact ⟨_, List.mem_cons_self, h2⟩
      · exact ⟨q, List.mem_cons_of_mem _ hq, h2⟩

/-! ## The size of a task -/

/-- A task of at most 2000 blocks, or from one point to the next. -/
def Small (l : List Point) (t : Seg) : Prop := t.hi + 1 - t.lo ≤ 2000 ∨ ∃ p q, [p, q] <:+: l ∧ t.lo = p.height + 1 ∧ t.hi = q.height

theorem build_small {l0 X l : List Point} {b : Build} {p : Point} (hl0 : l0 = X ++ p :: l) (hasc : Ascending (p :: l))
    (hdone : ∀ t ∈ b.done, Small l0 t) (hlo : b.seg.lo ≤ p.height + 1)
    (hhas : (b.has = true ∧ b.seg.hi = p.height ∧ Small l0 b.seg) ∨ (b.has = false ∧ b.seg.lo = p.height + 1)) :
    ∀ t ∈ (l.foldl buildStep b).done ++ [{ (l.foldl buildStep b).seg with hi := (l.getLastD p).height, hash := (l.getLastD p).hash }], Small l0 t := by
  induction l generalizing b p X with
  | nil =>
    intro t ht
    simp only [List.foldl_nil, List.getLastD_nil] at ht
    rcases List.mem_append.mp ht with ht | ht
    · exact hdone t ht
    · simp only [List.mem_singleton] at ht
      subst ht
      rcases hhas with ⟨-, h2, h3⟩ | ⟨-, h2⟩
      · unfold Small at h3 ⊢
        rw [h2] at h3
        exact h3
      · left
        show p.height + 1 - b.seg.lo ≤ 2000
        omega
  | cons q l ih =>
    have hpq : p.height < q.height := List.rel_of_pairwise_cons hasc List.mem_cons_self
    have hasc' : Ascending (q :: l) := (List.pairwise_cons.mp hasc).2
    have hinf : [p, q] <:+: l0 := ⟨X, l, by rw [hl0]; simp⟩
    have hl0' : l0 = (X ++ [p]) ++ q :: l := by rw [hl0]; simp
    simp only [List.foldl_cons, List.getLastD_cons]
    by_cases hc : q.height + 1 - b.seg.lo > 2000 ∨ (b.size + q.size) % 2 ^ 64 > 2 ^ 21
    · rcases hhas with ⟨h2, h3, h4⟩ | ⟨h2, h3⟩
      · have e : buildStep b q = { seg := ⟨b.seg.hi + 1, q.height, b.seg.hash, q.hash⟩, size := q.size, has := true, done := b.done ++ [b.seg] } := by
          simp only [buildStep]
          rw [if_pos hc, h2]
          simp
        rw [e]
        refine ih hl0' hasc' ?_ (by show b.seg.hi + 1 ≤ q.height + 1; omega) (Or.inl ⟨rfl, rfl, Or.inr ⟨p, q, hinf, by show b.seg.hi + 1 = _; omega, rfl⟩⟩)
        intro t ht
        rcases List.mem_append.mp ht with ht | ht
        · exact hdone t ht
        · simp only [List.mem_singleton] at ht
          subst ht
          exact h4
      · have e : buildStep b q = { seg := ⟨q.height + 1, q.height, q.hash, q.hash⟩, size := q.size, has := true, done := b.done ++ [{ b.seg with hi := q.height, hash := q.hash }] } := by
          simp only [buildStep]
          rw [if_pos hc, h2]
          simp
        rw [e]
        refine ih hl0' hasc' ?_ (by show q.height + 1 ≤ q.height + 1; omega) (Or.inl ⟨rfl, rfl, Or.inl (by show q.height + 1 - (q.height + 1) ≤ 2000; omega)⟩)
        intro t ht
        rcases List.mem_append.mp ht with ht | ht
        · exact hdone t ht
        · simp only [List.mem_singleton] at ht
          subst ht
          exact Or.inr ⟨p, q, hinf, h3, rfl⟩
    · have e : buildStep b q = { b with seg := { b.seg with hi := q.height, hash := q.hash }, size := (b.size + q.size) % 2 ^ 64, has := true } := by
        simp only [buildStep]
        rw [if_neg hc]
      rw [e]
      exact ih hl0' hasc' hdone (by show b.seg.lo ≤ q.height + 1; omega) (Or.inl ⟨rfl, rfl, Or.inl (by show q.height + 1 - b.seg.lo ≤ 2000; omega)⟩)

theorem Small.mono {l m : List Point} (h : l <:+: m) {t : Seg} (ht : Small l t) : Small m t := by
  rcases ht with h1 | ⟨p, q, h1, h2⟩
  · exact Or.inl h1
  · exact Or.inr ⟨p, q, h1.trans h, h2⟩

theorem constructTasks_small {l m : List Point} (hasc : Ascending m) (h : l <:+: m) : ∀ t ∈ constructTasks l, Small m t := by
  cases l with
  | nil => simp [constructTasks]
  | cons p l =>
    intro t ht
    exact Small.mono h (build_small (X := []) rfl (hasc.sublist h.sublist) (by simp) (Nat.le_refl _) (Or.inr ⟨rfl, rfl⟩) t ht)

theorem exLoop_small {l : List Point} (hasc : Ascending l) (m : List Seg) (e : Ex) (i : Nat) (R : List Point) (h : ∀ t ∈ e.ts, Small l t) :
    ∀ t ∈ (exLoop l m e i R).ts, Small l t := by
  induction R generalizing e i with
  | nil => exact h
  | cons p R ih =>
    rw [exLoop]
    apply ih
    unfold exStep
    split
    · simp only
      split
      · exact h
      · simp only
        split
        · intro t ht
          rcases List.mem_append.mp ht with ht | ht
          · exact h t ht
          · exact constructTasks_small hasc ((List.drop_suffix _ _).isInfix.trans (List.take_prefix _ _).isInfix) t ht
        · exact h
    · exact h

/-- **C82.** A task has at most 2000 blocks, or it goes from one point to the next. -/
theorem plan_small {segs : List Seg} {start x : Point} {l : List Point} (hs : Stored segs) (hasc : Ascending (start :: l)) {t : Seg}
    (ht : t ∈ (plan segs start (x :: l)).1) : Small ({ start with size := x.size } :: l) t := by
  have hasc' : Ascending ({ start with size := x.size } :: l) := by
    unfold Ascending at hasc ⊢
    rw [List.pairwise_cons] at hasc ⊢
    exact hasc
  rcases plan_cases segs start x l hs with ⟨h, -⟩ | h
  · rw [h] at ht
    exact constructTasks_small hasc' List.infix_rfl t ht
  · rw [h] at ht
    unfold compareCache at ht
    simp only at ht
    split at ht
    · exact constructTasks_small hasc' List.infix_rfl t ht
    · rcases List.mem_append.mp ht with ht | ht
      · exact exLoop_small hasc' _ _ _ _ (by simp) t ht
      · exact constructTasks_small hasc' (List.drop_suffix _ _).isInfix t ht

end Verif.Sync
