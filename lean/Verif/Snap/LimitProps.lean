import Verif.Snap.SeedProps

/-!
# C59: which block gives a contract its random number; C56: what a producer can do with it
-/

namespace Verif.Snap
open Verif.Consensus

/-! ### Specification -/

/-- How many blocks from a height to another publish a seed. -/
def seedsFrom (c : Chain) (lo hi : Nat) : Nat := (c.filter (fun x => decide (lo ≤ x.height ∧ x.height ≤ hi ∧ 0 < x.seed))).length

/-- At this block a send that was confirmed at a height has the confirmations and the seeds that a contract asks for. -/
def Ripe (c : Chain) (confirm sendTimes seedTimes : Nat) (x : Snap) : Prop :=
  confirm ≤ x.height ∧ confirm + sendTimes ≤ x.height + 1 ∧ seedTimes ≤ seedsFrom c confirm x.height

/-- The first such block. -/
def FirstRipe (c : Chain) (confirm sendTimes seedTimes : Nat) (x : Snap) : Prop :=
  x ∈ c ∧ Ripe c confirm sendTimes seedTimes x ∧ ∀ y ∈ c, Ripe c confirm sendTimes seedTimes y → x.height ≤ y.height

/-! ### The walk up -/

theorem seedConfirmed_exact {k : Nat} (hk : k < 256) : ∀ (l : List Snap) (cnt : Nat), cnt < k → ∀ b,
    seedConfirmed k l cnt = some b ↔ ∃ i, l[i]? = some b ∧ 0 < b.seed ∧ cnt + ((l.take (i + 1)).filter (fun x => decide (0 < x.seed))).length = k := by
  intro l
  induction l with
  | nil => intro cnt _ b; simp [seedConfirmed]
  | cons x l ih =>
    intro cnt hc b
    unfold seedConfirmed
    simp only
    by_cases e : 0 < x.seed
    · rw [if_pos e, Nat.mod_eq_of_lt (by omega)]
      by_cases e2 : cnt + 1 = k
      · rw [if_pos e2]
        constructor
        · intro h; injection h with h; subst h
          exact ⟨0, rfl, e, by simp [e, e2]⟩
        · rintro ⟨i, hi, hb, hcount⟩
          rw [List.take_succ_cons, List.filter_cons_of_pos (by simpa using e), List.length_cons] at hcount
          match i with
          | 0 => simp at hi; rw [hi]
          | i + 1 =>
            rw [List.getElem?_cons_succ] at hi
            have hm : b ∈ (l.take (i + 1)).filter (fun x => decide (0 < x.seed)) :=
              List.mem_filter.2 ⟨List.mem_of_getElem? (i := i) (by rw [List.getElem?_take, if_pos (by omega)]; exact hi), decide_eq_true hb⟩
            have := List.length_pos_of_mem hm
            omega
      · rw [if_neg e2, ih (cnt + 1) (by omega) b]
        constructor
        · rintro ⟨i, hi, hb, hcount⟩
          refine ⟨i + 1, hi, hb, ?_⟩
          rw [List.take_succ_cons, List.filter_cons_of_pos (by simpa using e), List.length_cons]; omega
        · rintro ⟨i, hi, hb, hcount⟩
          rw [List.take_succ_cons, List.filter_cons_of_pos (by simpa using e), List.length_cons] at hcount
          match i with
          | 0 => simp at hcount; omega
          | i + 1 => exact ⟨i, hi, hb, by omega⟩
    · rw [if_neg e, if_neg (by omega), ih cnt hc b]
      constructor
      · rintro ⟨i, hi, hb, hcount⟩
        refine ⟨i + 1, hi, hb, ?_⟩
        rw [List.take_succ_cons, List.filter_cons_of_neg (by simpa using e)]; omega
      · rintro ⟨i, hi, hb, hcount⟩
        rw [List.take_succ_cons, List.filter_cons_of_neg (by simpa using e)] at hcount
        match i with
        | 0 => simp at hi; subst hi; exact absurd hb e
        | i + 1 => exact ⟨i, hi, hb, by omega⟩

theorem seedConfirmed_none {k : Nat} (hk : k < 256) : ∀ (l : List Snap) (cnt : Nat), cnt < k → seedConfirmed k l cnt = none →
    cnt + (l.filter (fun x => decide (0 < x.seed))).length < k := by
  intro l
  induction l with
  | nil => intro cnt hc _; simpa using hc
  | cons x l ih =>
    intro cnt hc h
    unfold seedConfirmed at h
    simp only at h
    by_cases e : 0 < x.seed
    · rw [if_pos e, Nat.mod_eq_of_lt (by omega)] at h
      split at h
      · exact absurd h (by simp)
      · have := ih _ (by omega) h
        rw [List.filter_cons_of_pos (by simpa using e), List.length_cons]; omega
    · rw [if_neg e, if_neg (by omega)] at h
      rw [List.filter_cons_of_neg (by simpa using e)]
      exact ih _ hc h

/-- Part of a chain, by heights. -/
theorem part_filter {c : Chain} (hg : Good c) (m h : Nat) : (c.take h).drop m = c.filter (fun x => decide (m < x.height ∧ x.height ≤ h)) := by
  have key : ∀ (c : Chain) (k : Nat), (∀ i b, c[i]? = some b → b.height = k + i + 1) →
      (c.take (h - k)).drop (m - k) = c.filter (fun x => decide (m < x.height ∧ x.height ≤ h)) := by
    intro c
    induction c with
    | nil => intro k _; simp
    | cons x l ih =>
      intro k hk
      have hx : x.height = k + 1 := by have := hk 0 x rfl; omega
      have hl : ∀ i b, l[i]? = some b → b.height = k + 1 + i + 1 := by
        intro i b hb
        have := hk (i + 1) b (by rw [List.getElem?_cons_succ]; exact hb)
        omega
      have hi := ih (k + 1) hl
      by_cases e1 : k < h
      · rw [show h - k = (h - (k + 1)) + 1 by omega, List.take_succ_cons]
        by_cases e2 : m - k = 0
        · rw [e2, List.drop_zero, List.filter_cons_of_pos (by rw [decide_eq_true_iff]; omega), ← hi]
          rw [show m - (k + 1) = 0 by omega, List.drop_zero]
        · rw [show m - k = (m - (k + 1)) + 1 by omega, List.drop_succ_cons, hi]
          rw [List.filter_cons_of_neg (by rw [decide_eq_true_iff]; omega)]
      · rw [show h - k = 0 by omega, List.take_zero, List.drop_nil]
        symm
        rw [List.filter_eq_nil_iff]
        intro y hy
        obtain ⟨i, hi⟩ := List.mem_iff_getElem?.1 hy
        have := hk i y hi
        rw [decide_eq_true_iff]
        omega
  have := key c 0 (fun i b h => by have := hg.height i b h; omega)
  rw [Nat.sub_zero, Nat.sub_zero] at this
  exact this

theorem seedsFrom_part {c : Chain} (hg : Good c) {lo : Nat} (hlo : 1 ≤ lo) (hi : Nat) :
    (((c.take hi).drop (lo - 1)).filter (fun x => decide (0 < x.seed))).length = seedsFrom c lo hi := by
  rw [part_filter hg, List.filter_filter]
  unfold seedsFrom
  congr 1
  apply List.filter_congr
  intro x _
  rw [← Bool.decide_and]
  apply decide_eq_decide.2
  omega

theorem seedsFrom_mono {c : Chain} {lo hi hi' : Nat} (h : hi ≤ hi') : seedsFrom c lo hi ≤ seedsFrom c lo hi' := by
  unfold seedsFrom
  apply List.Sublist.length_le
  apply List.monotone_filter_right
  intro x hx
  have := of_decide_eq_true hx
  exact decide_eq_true (by omega)

/-- Below a block that publishes, there is one less. -/
theorem seedsFrom_lt {c : Chain} {lo hi hi' : Nat} {b : Snap} (hb : b ∈ c) (h1 : lo ≤ b.height) (h2 : b.height ≤ hi') (h3 : hi < b.height) (h4 : 0 < b.seed) :
    seedsFrom c lo hi < seedsFrom c lo hi' := by
  unfold seedsFrom
  have hsub : c.filter (fun x => decide (lo ≤ x.height ∧ x.height ≤ hi ∧ 0 < x.seed)) =
      (c.filter (fun x => decide (lo ≤ x.height ∧ x.height ≤ hi' ∧ 0 < x.seed))).filter (fun x => decide (x.height ≤ hi)) := by
    rw [List.filter_filter]
    apply List.filter_congr
    intro x _
    rw [← Bool.decide_and]
    apply decide_eq_decide.2
    omega
  rw [hsub]
  apply List.length_filter_lt_length_iff_exists.2
  refine ⟨b, List.mem_filter.2 ⟨hb, decide_eq_true ⟨h1, h2, h4⟩⟩, ?_⟩
  rw [decide_eq_true_iff]
  omega

theorem seedBlock_exact {c : Chain} (hg : Good c) {confirm k : Nat} (hc : 1 ≤ confirm) (hk : 0 < k) (hk' : k < 256) (b : Snap) :
    seedConfirmed k (c.drop (confirm - 1)) 0 = some b ↔ b ∈ c ∧ confirm ≤ b.height ∧ 0 < b.seed ∧ seedsFrom c confirm b.height = k := by
  rw [seedConfirmed_exact hk' _ _ hk]
  have hpart : ∀ i, ((c.drop (confirm - 1)).take (i + 1)) = (c.take (confirm + i)).drop (confirm - 1) := by
    intro i
    rw [List.take_drop]
    congr 2
    omega
  constructor
  · rintro ⟨i, hi, hb, hcount⟩
    rw [List.getElem?_drop] at hi
    have hh := hg.height _ _ hi
    have e : b.height = confirm + i := by omega
    rw [hpart, ← e, seedsFrom_part hg hc] at hcount
    exact ⟨List.mem_of_getElem? hi, by omega, hb, by omega⟩
  · rintro ⟨hb, h1, h2, h3⟩
    refine ⟨b.height - confirm, ?_, h2, ?_⟩
    · rw [List.getElem?_drop]
      have := headerAt_mem hg hb
      unfold headerAt at this
      rw [if_neg (by omega)] at this
      rw [show confirm - 1 + (b.height - confirm) = b.height - 1 by omega]
      exact this
    · rw [hpart, show confirm + (b.height - confirm) = b.height by omega, seedsFrom_part hg hc]
      omega

theorem seedBlock_none {c : Chain} (hg : Good c) {confirm k : Nat} (hc : 1 ≤ confirm) (hk : 0 < k) (hk' : k < 256)
    (h : seedConfirmed k (c.drop (confirm - 1)) 0 = none) (hi : Nat) : seedsFrom c confirm hi < k := by
  have h1 := seedConfirmed_none hk' _ _ hk h
  have h2 : seedsFrom c confirm hi ≤ seedsFrom c confirm (max hi c.length) := seedsFrom_mono (by omega)
  have h3 := seedsFrom_part hg hc (max hi c.length)
  rw [List.take_of_length_le (by omega)] at h3
  omega

theorem same_height {c : Chain} (hg : Good c) {a b : Snap} (ha : a ∈ c) (hb : b ∈ c) (h : a.height = b.height) : a = b := by
  have h1 := headerAt_mem hg ha
  rw [h, headerAt_mem hg hb] at h1
  injection h1 with h1
  exact h1.symm

theorem firstRipe_unique {c : Chain} (hg : Good c) {confirm s k : Nat} {a b : Snap} (ha : FirstRipe c confirm s k a) (hb : FirstRipe c confirm s k b) : a = b := by
  apply same_height hg ha.1 hb.1
  have := ha.2.2 b hb.1 hb.2.1
  have := hb.2.2 a ha.1 ha.2.1
  omega

/-- The two ways out of the search. -/
theorem limit_cases {c : Chain} (hg : Good c) {confirm s k : Nat} (hc : 1 ≤ confirm) (hk : k < 256) (hsk : 0 < s ∨ 0 < k) :
    (∃ x, limitBlock c confirm s k = some (some x) ∧ FirstRipe c confirm s k x) ∨
      (limitBlock c confirm s k = none ∧ ∀ x ∈ c, ¬ Ripe c confirm s k x) := by
  unfold limitBlock
  simp only
  have hx : ∀ {x h}, headerAt c h = some x → x ∈ c ∧ x.height = h := fun h => by
    have := headerAt_some hg h
    exact ⟨this.2.1, this.1⟩
  by_cases es : s = 0
  · subst es
    rw [if_pos rfl]
    have hk0 : 0 < k := by omega
    rw [if_neg (by omega : ¬ k = 0)]
    cases hy : seedConfirmed k (c.drop (confirm - 1)) 0 with
    | none =>
      right
      refine ⟨by simp, ?_⟩
      intro x hx hr
      have := seedBlock_none hg hc hk0 hk hy x.height
      have := hr.2.2
      omega
    | some y =>
      left
      obtain ⟨m, h1, h2, h3⟩ := (seedBlock_exact hg hc hk0 hk y).1 hy
      refine ⟨y, by simp, m, ⟨h1, by omega, by omega⟩, ?_⟩
      intro z hz hr
      by_contra hlt
      have := seedsFrom_lt (c := c) m h1 (Nat.le_refl _) (by omega : z.height < y.height) h2
      have := hr.2.2
      omega
  · rw [if_neg es]
    by_cases ek : k = 0
    · subst ek
      rw [if_pos rfl]
      cases hh : headerAt c (confirm + s - 1) with
      | none =>
        right
        refine ⟨by simp, ?_⟩
        intro x hx' hr
        obtain ⟨w, hw⟩ := headerAt_isSome (c := c) (h := confirm + s - 1) (by omega) (by have := (mem_height hg hx').2; have := hr.2.1; omega)
        rw [hh] at hw
        exact absurd hw (by simp)
      | some x =>
        left
        obtain ⟨m, e⟩ := hx hh
        refine ⟨x, by simp, m, ⟨by omega, by omega, by omega⟩, ?_⟩
        intro z hz hr
        have := hr.2.1
        omega
    · rw [if_neg ek]
      cases hh : headerAt c (confirm + s - 1) with
      | none =>
        right
        refine ⟨by simp, ?_⟩
        intro x hx' hr
        obtain ⟨w, hw⟩ := headerAt_isSome (c := c) (h := confirm + s - 1) (by omega) (by have := (mem_height hg hx').2; have := hr.2.1; omega)
        rw [hh] at hw
        exact absurd hw (by simp)
      | some x =>
        obtain ⟨m, e⟩ := hx hh
        cases hy : seedConfirmed k (c.drop (confirm - 1)) 0 with
        | none =>
          right
          refine ⟨by simp, ?_⟩
          intro x hx hr
          have := seedBlock_none hg hc (by omega) hk hy x.height
          have := hr.2.2
          omega
        | some y =>
          left
          obtain ⟨my, h1, h2, h3⟩ := (seedBlock_exact hg hc (by omega) hk y).1 hy
          refine ⟨if x.height < y.height then y else x, by simp, ?_⟩
          split
          · refine ⟨my, ⟨h1, by omega, by omega⟩, ?_⟩
            intro z hz hr
            by_contra hlt
            have := seedsFrom_lt (c := c) my h1 (Nat.le_refl _) (by omega : z.height < y.height) h2
            have := hr.2.2
            omega
          · refine ⟨m, ⟨by omega, by omega, ?_⟩, ?_⟩
            · rw [← h3]; exact seedsFrom_mono (by omega)
            · intro z hz hr
              have := hr.2.1
              omega

/-- **C59** A contract that asks for `s` confirmations and `k` seeds is run on a send with the random number of the first block that gives both; as
long as there is none, the send cannot be received. -/
theorem limit_exact {c : Chain} (hg : Good c) {confirm s k : Nat} (hc : 1 ≤ confirm) (hk : k < 256) (hsk : 0 < s ∨ 0 < k) (x : Snap) :
    limitBlock c confirm s k = some (some x) ↔ FirstRipe c confirm s k x := by
  rcases limit_cases hg hc hk hsk with ⟨y, h1, h2⟩ | ⟨h1, h2⟩
  · rw [h1]
    constructor
    · intro h; injection h with h; injection h with h; subst h; exact h2
    · intro h; rw [firstRipe_unique hg h h2]
  · rw [h1]
    constructor
    · intro h; exact absurd h (by simp)
    · intro h; exact absurd h.2.1 (h2 x h.1)

/-- **C59** Without any such block there is an error. -/
theorem limit_error {c : Chain} (hg : Good c) {confirm s k : Nat} (hc : 1 ≤ confirm) (hk : k < 256) (hsk : 0 < s ∨ 0 < k) :
    limitBlock c confirm s k = none ↔ ∀ x ∈ c, ¬ Ripe c confirm s k x := by
  rcases limit_cases hg hc hk hsk with ⟨y, h1, h2⟩ | ⟨h1, h2⟩
  · rw [h1]
    constructor
    · intro h; exact absurd h (by simp)
    · intro h; exact absurd h2.2.1 (h y h2.1)
  · rw [h1]
    exact ⟨fun _ => h2, fun _ => rfl⟩

theorem Good.prefix {c d : Chain} (hg : Good (c ++ d)) (hne : c ≠ []) : Good c := by
  have := hg.take (n := c.length) (by cases c with | nil => exact absurd rfl hne | cons => simp)
  rwa [List.take_left] at this

/-- **C59** Once it is fixed it stays as the chain grows. -/
theorem limit_stays {c d : Chain} (hg : Good (c ++ d)) {confirm s k : Nat} (hc : 1 ≤ confirm) (hk : k < 256) (hsk : 0 < s ∨ 0 < k) {x : Snap}
    (h : limitBlock c confirm s k = some (some x)) : limitBlock (c ++ d) confirm s k = some (some x) := by
  have hne : c ≠ [] := by
    rintro rfl
    unfold limitBlock headerAt at h
    simp only [List.drop_nil, seedConfirmed, List.getElem?_nil, ite_self, Option.map_none] at h
    split at h <;> simp_all
  have hg' := hg.prefix hne
  have hcd : ∀ z ∈ c, z.height ≤ c.length := fun z hz => (mem_height hg' hz).2
  have hd : ∀ z ∈ c ++ d, z.height ≤ c.length → z ∈ c := by
    intro z hz hle
    have := (mem_take hg (n := c.length)).2 ⟨hz, hle⟩
    rwa [List.take_left] at this
  have hsame : ∀ hi ≤ c.length, seedsFrom (c ++ d) confirm hi = seedsFrom c confirm hi := by
    intro hi hle
    unfold seedsFrom
    rw [List.filter_append, List.length_append]
    have : d.filter (fun x => decide (confirm ≤ x.height ∧ x.height ≤ hi ∧ 0 < x.seed)) = [] := by
      rw [List.filter_eq_nil_iff]
      intro z hz
      rw [decide_eq_true_iff]
      obtain ⟨i, hi⟩ := List.mem_iff_getElem?.1 hz
      have := hg.height (c.length + i) z (by rw [List.getElem?_append_right (by omega)]; rw [show c.length + i - c.length = i by omega]; exact hi)
      omega
    rw [this]; rfl
  rw [limit_exact hg' hc hk hsk] at h
  rw [limit_exact hg hc hk hsk]
  obtain ⟨hm, hr, hfirst⟩ := h
  refine ⟨by simp [hm], ⟨hr.1, hr.2.1, by rw [hsame _ (hcd x hm)]; exact hr.2.2⟩, ?_⟩
  intro y hy hry
  by_cases e : y.height ≤ c.length
  · exact hfirst y (hd y hy e) ⟨hry.1, hry.2.1, by rw [← hsame _ e]; exact hry.2.2⟩
  · have := hcd x hm; omega

/-- **C59** The number itself stays too: what a contract gets for a send is the same however long it takes until it is received. -/
theorem seed_stays {g : Cfg} (hH : Function.Injective g.H) {c d : Chain} (hi : Inv g (c ++ d)) (hi' : Inv g c) {x : Snap} (hx : x ∈ c) (fromHash : Hash) :
    getSeed (c ++ d) x fromHash = getSeed c x fromHash := by
  unfold getSeed
  rw [randomSeed_window hH hi (by simp [hx]), randomSeed_window hH hi' hx]
  congr 2
  unfold window
  rw [List.filter_append]
  have : d.filter (fun y => decide (y.height ≤ x.height ∧ x.height < y.height + 601)) = [] := by
    rw [List.filter_eq_nil_iff]
    intro z hz
    rw [decide_eq_true_iff]
    obtain ⟨i, hiz⟩ := List.mem_iff_getElem?.1 hz
    have := hi.good.height (c.length + i) z (by rw [List.getElem?_append_right (by omega)]; rw [show c.length + i - c.length = i by omega]; exact hiz)
    have := (mem_height hi'.good hx).2
    omega
  rw [this, List.append_nil]

/-- **C59** Sends that are received under the same block get different numbers, unless their hashes agree in the last 64 bits. -/
theorem seed_differs (c : Chain) (x : Snap) (h h' : Hash) : getSeed c x h = getSeed c x h' ↔ h % 2 ^ 64 = h' % 2 ^ 64 := by
  unfold getSeed
  constructor
  · intro e
    have := congrArg (fun y => randomSeed c x.hash 25 ^^^ y) e
    simpa [← Nat.xor_assoc] using this
  · intro e; rw [e]

end Verif.Snap
