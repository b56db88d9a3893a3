import Verif.Snap.TimeModel
import Verif.Tactics

/-!
# C57: the last snapshot block before a time

For every chain whose times increase, and every time.
-/

namespace Verif.Snap

/-! ### Specification -/

/-- A chain: it has a first block, heights count from 1 and times increase. -/
structure Good (c : Chain) : Prop where
  ne : c ≠ []
  height : ∀ i b, c[i]? = some b → b.height = i + 1
  times : c.Pairwise (fun a b => a.time < b.time)

/-- All times are whole seconds. -/
def Whole (c : Chain) : Prop := ∀ b ∈ c, b.time % 1000000000 = 0

/-- The last block before a time. -/
def LastBefore (c : Chain) (t : Int) (b : Snap) : Prop := b ∈ c ∧ b.time < t ∧ ∀ x ∈ c, x.time < t → x.height ≤ b.height

/-! ### Chains -/

theorem headerAt_some {c : Chain} (hg : Good c) {h : Nat} {b : Snap} (e : headerAt c h = some b) : b.height = h ∧ b ∈ c ∧ 1 ≤ h ∧ h ≤ c.length := by
  unfold headerAt at e
  split at e
  · exact absurd e (by simp)
  · have hlt := (List.getElem?_eq_some_iff.1 e).1
    refine ⟨?_, List.mem_of_getElem? e, by omega, by omega⟩
    rw [hg.height _ _ e]; omega

theorem headerAt_isSome {c : Chain} {h : Nat} (h1 : 1 ≤ h) (h2 : h ≤ c.length) : ∃ b, headerAt c h = some b := by
  unfold headerAt
  rw [if_neg (by omega), List.getElem?_eq_getElem (by omega)]
  exact ⟨_, rfl⟩

theorem headerAt_mem {c : Chain} (hg : Good c) {b : Snap} (hb : b ∈ c) : headerAt c b.height = some b := by
  obtain ⟨i, hi⟩ := List.mem_iff_getElem?.1 hb
  have := hg.height i b hi
  unfold headerAt
  rw [if_neg (by omega), this, Nat.add_sub_cancel]; exact hi

/-- Higher blocks are later, and only they. -/
theorem time_lt_iff {c : Chain} (hg : Good c) {a b : Snap} (ha : a ∈ c) (hb : b ∈ c) : a.time < b.time ↔ a.height < b.height := by
  have key : ∀ {x y : Snap}, x ∈ c → y ∈ c → x.height < y.height → x.time < y.time := by
    intro x y hx hy hxy
    have ex := headerAt_mem hg hx
    have ey := headerAt_mem hg hy
    unfold headerAt at ex ey
    rw [if_neg (by omega)] at ey
    have hx0 := (headerAt_some hg (headerAt_mem hg hx)).2.2.1
    rw [if_neg (by omega)] at ex
    obtain ⟨hx1, hx2⟩ := List.getElem?_eq_some_iff.1 ex
    obtain ⟨hy1, hy2⟩ := List.getElem?_eq_some_iff.1 ey
    have := List.pairwise_iff_getElem.1 hg.times (x.height - 1) (y.height - 1) hx1 hy1 (by omega)
    rwa [hx2, hy2] at this
  refine ⟨fun h => ?_, key ha hb⟩
  by_contra hc
  rcases Nat.lt_or_eq_of_le (Nat.not_lt.1 hc) with h' | h'
  · have := key hb ha h'; omega
  · have e := headerAt_mem hg ha
    rw [← h', headerAt_mem hg hb] at e
    injection e with e
    rw [e] at h; omega

theorem Good.genesis {c : Chain} (hg : Good c) : ∃ g, c.head? = some g ∧ g ∈ c ∧ g.height = 1 := by
  cases c with
  | nil => exact absurd rfl hg.ne
  | cons g l => exact ⟨g, rfl, by simp, hg.height 0 g rfl⟩

theorem Good.latest {c : Chain} (hg : Good c) : ∃ l, c.getLast? = some l ∧ l ∈ c ∧ l.height = c.length := by
  obtain ⟨l, hl⟩ : ∃ l, c.getLast? = some l := by
    cases h : c.getLast? with
    | none => exact absurd (List.getLast?_eq_none_iff.1 h) hg.ne
    | some l => exact ⟨l, rfl⟩
  refine ⟨l, hl, List.mem_of_getLast? hl, ?_⟩
  rw [List.getLast?_eq_getElem?] at hl
  have h1 := (List.getElem?_eq_some_iff.1 hl).1
  rw [hg.height _ _ hl]; omega

theorem mem_height {c : Chain} (hg : Good c) {b : Snap} (hb : b ∈ c) : 1 ≤ b.height ∧ b.height ≤ c.length :=
  (headerAt_some hg (headerAt_mem hg hb)).2.2

/-- The block just before the first one at or after the time is the last before it. -/
theorem lastBefore_of_next {c : Chain} (hg : Good c) {t : Int} {l h : Snap} (hl : l ∈ c) (hh : h ∈ c) (hlt : l.time < t) (hht : h.time ≥ t)
    (e : h.height = l.height + 1) : LastBefore c t l := by
  refine ⟨hl, hlt, ?_⟩
  intro x hx hxt
  have := (time_lt_iff hg hx hh).1 (by omega)
  omega

/-! ### The search -/

theorem searchGo_spec {f : Nat → Bool} {n : Nat} (mono : ∀ x y, x ≤ y → y < n → f x = true → f y = true) :
    ∀ (k i j : Nat), i ≤ j → j ≤ n → j - i ≤ k → (∀ x < i, f x = false) → (∀ x, j ≤ x → x < n → f x = true) →
      searchGo f k i j ≤ n ∧ (∀ x < searchGo f k i j, f x = false) ∧ ∀ x, searchGo f k i j ≤ x → x < n → f x = true := by
  intro k
  induction k with
  | zero =>
    intro i j hij hjn hk hlo hhi
    unfold searchGo
    have : i = j := by omega
    subst this
    exact ⟨hjn, hlo, hhi⟩
  | succ k ih =>
    intro i j hij hjn hk hlo hhi
    unfold searchGo
    by_cases h : i < j
    · rw [if_pos h]
      simp only
      cases hf : f ((i + j) / 2) with
      | true =>
        rw [if_pos rfl]
        refine ih i ((i + j) / 2) (by omega) (by omega) (by omega) hlo ?_
        intro x hx hxn
        exact mono _ x hx hxn hf
      | false =>
        rw [if_neg (by simp)]
        refine ih ((i + j) / 2 + 1) j (by omega) hjn (by omega) ?_ hhi
        intro x hx
        cases hfx : f x with
        | false => rfl
        | true =>
          have := mono x ((i + j) / 2) (by omega) (by omega) hfx
          rw [hf] at this; exact absurd this (by simp)
    · rw [if_neg h]
      have : i = j := by omega
      subst this
      exact ⟨hjn, hlo, hhi⟩

/-- `sort.Search` finds the first index with the property, for a property that stays once it holds. -/
theorem search_spec {f : Nat → Bool} {n : Nat} (mono : ∀ x y, x ≤ y → y < n → f x = true → f y = true) :
    search n f ≤ n ∧ (∀ x < search n f, f x = false) ∧ ∀ x, search n f ≤ x → x < n → f x = true := by
  unfold search
  exact searchGo_spec mono n 0 n (by omega) (by omega) (by omega) (by intro x hx; omega) (by intro x hx hxn; omega)

theorem binarySearch_exact {c : Chain} (hg : Good c) {t : Int} {l h : Snap} (hl : l ∈ c) (hh : h ∈ c) (hlt : l.time < t) (hht : h.time ≥ t) :
    ∃ b, binarySearch c l h t = .found (some b) ∧ LastBefore c t b := by
  have hlh : l.height < h.height := (time_lt_iff hg hl hh).1 (by omega)
  have mh := mem_height hg hh
  have ml := mem_height hg hl
  have hsome : ∀ i, i < h.height - l.height + 1 → ∃ b, headerAt c (l.height + i) = some b := by
    intro i hi
    exact headerAt_isSome (by omega) (by omega)
  unfold binarySearch
  simp only
  rw [if_neg (by
    rw [List.any_eq_true]
    rintro ⟨i, hi, hn⟩
    obtain ⟨b, hb⟩ := hsome i (List.mem_range.1 hi)
    rw [hb] at hn
    exact absurd hn (by simp))]
  generalize hf : (fun i => match headerAt c (l.height + i) with | some b => decide (b.time ≥ t) | none => true) = f
  have fval : ∀ i b, headerAt c (l.height + i) = some b → f i = decide (b.time ≥ t) := by
    intro i b hb
    rw [← hf]; simp only [hb]
  generalize hn : h.height - l.height + 1 = n at *
  have mono : ∀ x y, x ≤ y → y < n → f x = true → f y = true := by
    intro x y hxy hyn hfx
    obtain ⟨bx, hbx⟩ := hsome x (by omega)
    obtain ⟨by', hby⟩ := hsome y hyn
    rw [fval x bx hbx] at hfx
    rw [fval y by' hby]
    have := of_decide_eq_true hfx
    apply decide_eq_true
    obtain ⟨ex, mx, -, -⟩ := headerAt_some hg hbx
    obtain ⟨ey, my, -, -⟩ := headerAt_some hg hby
    by_contra hc
    have := (time_lt_iff hg my mx).1 (by omega)
    omega
  obtain ⟨h1, h2, h3⟩ := search_spec mono
  generalize search n f = i at *
  have hi0 : 0 < i := by
    rcases Nat.eq_zero_or_pos i with e | e
    · subst e
      have := h3 0 (by omega) (by omega)
      rw [fval 0 l (by rw [Nat.add_zero]; exact headerAt_mem hg hl)] at this
      have := of_decide_eq_true this
      omega
    · exact e
  have hin : i < n := by
    by_contra hc
    have := h2 (n - 1) (by omega)
    rw [fval (n - 1) h (by rw [show l.height + (n - 1) = h.height by omega]; exact headerAt_mem hg hh)] at this
    exact absurd hht (of_decide_eq_false this)
  rw [if_neg (by omega)]
  obtain ⟨b, hb⟩ := hsome (i - 1) (by omega)
  obtain ⟨b', hb'⟩ := hsome i hin
  rw [show l.height + i - 1 = l.height + (i - 1) by omega, hb]
  refine ⟨b, rfl, ?_⟩
  have e1 := h2 (i - 1) (by omega)
  rw [fval _ b hb] at e1
  have e1 := of_decide_eq_false e1
  have e2 := h3 i (by omega) hin
  rw [fval _ b' hb'] at e2
  have e2 := of_decide_eq_true e2
  obtain ⟨ex, mx, -, -⟩ := headerAt_some hg hb
  obtain ⟨ey, my, -, -⟩ := headerAt_some hg hb'
  exact lastBefore_of_next hg mx my (by omega) e2 (by omega)

/-! ### The estimate -/

/-- What the boundaries are: blocks before the time, and blocks not before it. -/
structure ProbeOk (c : Chain) (t : Int) (p : Probe) : Prop where
  low : ∀ l, p.low = some l → l ∈ c ∧ l.time < t
  high : ∀ h, p.high = some h → h ∈ c ∧ h.time ≥ t

theorem probeStep_ok {c : Chain} (hg : Good c) {genesis latest : Snap} {t : Int} (hgen : genesis ∈ c ∧ genesis.time < t) (hlat : latest ∈ c ∧ latest.time ≥ t)
    {p p' : Probe} {br : Bool} (hp : ProbeOk c t p) (h : probeStep c genesis latest t p = some (p', br)) : ProbeOk c t p' := by
  unfold probeStep at h
  cases hb : headerAt c p.est with
  | none => rw [hb] at h; exact absurd h (by simp)
  | some b =>
    rw [hb] at h
    simp only at h
    obtain ⟨-, mb, -, -⟩ := headerAt_some hg hb
    by_cases ht : b.time ≥ t
    · rw [if_pos ht] at h
      have hhi : ∀ h' : Snap, some b = some h' → h' ∈ c ∧ h'.time ≥ t := by rintro h' e; injection e with e; subst e; exact ⟨mb, ht⟩
      split at h
      all_goals
        split at h
        · injection h with h; injection h with h1 h2; subst h1
          exact ⟨fun l e => by injection e with e; subst e; exact hgen, hhi⟩
        · injection h with h; injection h with h1 h2; subst h1
          exact ⟨hp.low, hhi⟩
    · rw [if_neg ht] at h
      injection h with h; injection h with h1 h2; subst h1
      refine ⟨fun l e => by injection e with e; subst e; exact ⟨mb, by omega⟩, ?_⟩
      intro h' e
      simp only at e
      split at e
      · injection e with e; subst e; exact hlat
      · exact hp.high h' e

theorem probe_ok {c : Chain} (hg : Good c) {genesis latest : Snap} {t : Int} (hgen : genesis ∈ c ∧ genesis.time < t) (hlat : latest ∈ c ∧ latest.time ≥ t) :
    ∀ (fuel : Nat) (p : Probe), ProbeOk c t p → ∀ l h, probe c genesis latest t fuel p = some (some (l, h)) → (l ∈ c ∧ l.time < t) ∧ (h ∈ c ∧ h.time ≥ t) := by
  intro fuel
  induction fuel with
  | zero => intro p _ l h e; exact absurd e (by simp [probe])
  | succ fuel ih =>
    intro p hp l h e
    unfold probe at e
    split at e
    · rename_i l' h' el eh
      injection e with e; injection e with e; injection e with e1 e2
      subst e1 e2
      exact ⟨hp.low _ el, hp.high _ eh⟩
    · split at e
      · exact absurd e (by simp)
      · rename_i hst
        have := probeStep_ok hg hgen hlat hp hst
        injection e with e; injection e with e; injection e with e1 e2
        subst e1 e2
        exact ⟨this.low _ rfl, this.high _ rfl⟩
      · rename_i hst
        exact ih _ (probeStep_ok hg hgen hlat hp hst) l h e

/-- Reads of headers do not fail. -/
theorem probeStep_some {c : Chain} (hg : Good c) {genesis latest : Snap} {t : Int} (hlat : latest.height = c.length) {p : Probe}
    (he : 1 ≤ p.est) (h : p.est ≤ c.length) : ∃ p' br, probeStep c genesis latest t p = some (p', br) ∧ 1 ≤ p'.est ∧
      (p'.low.isSome ∧ p'.high.isSome ∨ p'.est ≤ c.length) := by
  obtain ⟨b, hb⟩ := headerAt_isSome (c := c) he h
  obtain ⟨eb, mb, -, -⟩ := headerAt_some hg hb
  unfold probeStep
  rw [hb]
  simp only
  by_cases ht : b.time ≥ t
  · rw [if_pos ht]
    generalize hgap : (if (unix b.time - unix t).toNat = 0 then 1 else (unix b.time - unix t).toNat) = gap
    by_cases hle : b.height ≤ gap
    · rw [if_pos hle]; exact ⟨_, _, rfl, he, Or.inl ⟨rfl, rfl⟩⟩
    · rw [if_neg hle]; exact ⟨_, _, rfl, by simp only; omega, Or.inr (by simp only; omega)⟩
  · rw [if_neg ht]
    refine ⟨_, _, rfl, by simp only; omega, ?_⟩
    by_cases hgt : b.height + (unix t - unix b.time).toNat > latest.height
    · rw [if_pos hgt]; exact Or.inl ⟨rfl, rfl⟩
    · exact Or.inr (by simp only; omega)

theorem probe_no_err {c : Chain} (hg : Good c) {genesis latest : Snap} {t : Int} (hlat : latest.height = c.length) :
    ∀ (fuel : Nat) (p : Probe), (p.low.isSome ∧ p.high.isSome ∨ p.est ≤ c.length) → 1 ≤ p.est → probe c genesis latest t fuel p ≠ some none := by
  intro fuel
  induction fuel with
  | zero => intro p _ _ e; exact absurd e (by simp [probe])
  | succ fuel ih =>
    intro p hp h1 e
    unfold probe at e
    split at e
    · exact absurd e (by simp)
    · rename_i hnot
      have hle : p.est ≤ c.length := by
        rcases hp with ⟨ha, hb⟩ | h
        · obtain ⟨l, hl⟩ := Option.isSome_iff_exists.1 ha
          obtain ⟨h, hh⟩ := Option.isSome_iff_exists.1 hb
          exact absurd hh (hnot l h hl)
        · exact h
      obtain ⟨p', br, hs, hp1, hp2⟩ := probeStep_some (genesis := genesis) (t := t) hg hlat h1 hle
      rw [hs] at e
      split at e
      · rename_i hx; exact absurd hx (by simp)
      · exact absurd e (by simp)
      · rename_i hx
        injection hx with hx; injection hx with hx1 hx2; subst hx1
        exact ih _ hp2 hp1 e

/-! ### The property -/

/-- **C57** Whatever the query returns is exact: the last block before the time, or nothing if there is none. It never fails. -/
theorem before_exact {c : Chain} (hg : Good c) {t : Int} {fuel : Nat} {r : Res} (h : headerBefore c t fuel = some r) :
    (∃ b, r = .found (some b) ∧ LastBefore c t b) ∨ (r = .found none ∧ ∀ x ∈ c, t ≤ x.time) := by
  obtain ⟨g, eg, mg, hgh⟩ := hg.genesis
  obtain ⟨l, el, ml, hlh⟩ := hg.latest
  unfold headerBefore at h
  rw [eg, el] at h
  simp only at h
  by_cases h1 : g.time ≥ t
  · rw [if_pos h1] at h
    injection h with h
    refine Or.inr ⟨h.symm, ?_⟩
    intro x hx
    by_contra hc
    have := (time_lt_iff hg hx mg).1 (by omega)
    have := (mem_height hg hx).1
    omega
  rw [if_neg h1] at h
  by_cases h2 : l.time < t
  · rw [if_pos h2] at h
    injection h with h
    refine Or.inl ⟨l, h.symm, ml, h2, ?_⟩
    intro x hx _
    have := (mem_height hg hx).2
    omega
  rw [if_neg h2] at h
  generalize hest : (if l.height > (unix l.time - unix t).toNat then l.height - (unix l.time - unix t).toNat else 1) = est at h
  have he : 1 ≤ est ∧ est ≤ c.length := by
    have := mem_height hg ml
    rw [← hest]; split <;> omega
  have hok : ProbeOk c t ⟨est, none, none⟩ := ⟨fun _ e => absurd e (by simp), fun _ e => absurd e (by simp)⟩
  split at h
  · exact absurd h (by simp)
  · rename_i hp
    exact absurd hp (probe_no_err hg hlh fuel _ (Or.inr he.2) he.1)
  · rename_i lo hi hp
    obtain ⟨⟨m1, t1⟩, m2, t2⟩ := probe_ok hg ⟨mg, by omega⟩ ⟨ml, by omega⟩ fuel _ hok lo hi hp
    split at h
    · rename_i e
      injection h with h
      exact Or.inl ⟨lo, h.symm, lastBefore_of_next hg m1 m2 t1 t2 e⟩
    · injection h with h
      obtain ⟨b, hb, hl⟩ := binarySearch_exact hg m1 m2 t1 t2
      exact Or.inl ⟨b, by rw [← h, hb], hl⟩

/-- **C57** There is one answer. -/
theorem lastBefore_unique {c : Chain} (hg : Good c) {t : Int} {a b : Snap} (ha : LastBefore c t a) (hb : LastBefore c t b) : a = b := by
  have h1 := ha.2.2 b hb.1 hb.2.1
  have h2 := hb.2.2 a ha.1 ha.2.1
  have e := headerAt_mem hg ha.1
  rw [show a.height = b.height by omega, headerAt_mem hg hb.1] at e
  injection e with e; exact e.symm

/-- Blocks are a second apart or more. -/
theorem apart {c : Chain} (hg : Good c) (hw : Whole c) : ∀ (n : Nat) {a b : Snap}, a ∈ c → b ∈ c → b.height = a.height + n → unix a.time + n ≤ unix b.time := by
  intro n
  induction n with
  | zero =>
    intro a b ha hb e
    have e' := headerAt_mem hg ha
    rw [show a.height = b.height by omega, headerAt_mem hg hb] at e'
    injection e' with e'
    rw [e']; simp
  | succ n ih =>
    intro a b ha hb e
    have mb := mem_height hg hb
    have ma := mem_height hg ha
    obtain ⟨x, hx⟩ := headerAt_isSome (c := c) (h := a.height + n) (by omega) (by omega)
    obtain ⟨ex, mx, -, -⟩ := headerAt_some hg hx
    have h1 := ih ha mx ex
    have h2 := (time_lt_iff hg mx hb).2 (by omega)
    have w1 := hw x mx
    have w2 := hw b hb
    unfold unix at *
    push_cast
    omega

/-- **C57** For whole seconds the query ends. -/
theorem before_ends {c : Chain} (hg : Good c) (hw : Whole c) {t : Int} (ht : t % 1000000000 = 0) {fuel : Nat} (hf : c.length + 3 ≤ fuel) :
    headerBefore c t fuel ≠ none := by
  obtain ⟨g, eg, mg, hgh⟩ := hg.genesis
  obtain ⟨l, el, ml, hlh⟩ := hg.latest
  -- after a low boundary
  have lowEnds : ∀ (fuel : Nat) (b : Snap) (est : Nat) (hi : Option Snap), b ∈ c → b.time < t → est = b.height + (unix t - unix b.time).toNat → est ≤ c.length →
      2 ≤ fuel → probe c g l t fuel ⟨est, some b, hi⟩ ≠ none := by
    intro fuel b est hi mb hbt hest hle h2
    obtain ⟨f, rfl⟩ : ∃ f, fuel = f + 2 := ⟨fuel - 2, by omega⟩
    unfold probe
    cases hi with
    | some hi => simp
    | none =>
      have hb1 := mem_height hg mb
      obtain ⟨x, hx⟩ := headerAt_isSome (c := c) (h := est) (by omega) hle
      obtain ⟨ex, mx, -, -⟩ := headerAt_some hg hx
      have hxt : x.time ≥ t := by
        have h1 := apart hg hw (unix t - unix b.time).toNat mb mx (by omega)
        have w1 := hw x mx
        have w2 := hw b mb
        unfold unix at h1
        omega
      simp only
      unfold probeStep
      rw [hx]
      simp only
      rw [if_pos hxt]
      generalize (if (unix x.time - unix t).toNat = 0 then 1 else (unix x.time - unix t).toNat) = gap
      by_cases hle : x.height ≤ gap
      · rw [if_pos hle]; simp
      · rw [if_neg hle]; simp [probe]
  have highEnds : ∀ (k : Nat) (fuel est : Nat) (hi : Option Snap), est ≤ k → 1 ≤ est → est ≤ c.length → k + 3 ≤ fuel → probe c g l t fuel ⟨est, none, hi⟩ ≠ none := by
    intro k
    induction k with
    | zero => intro fuel est hi h1 h2; omega
    | succ k ih =>
      intro fuel est hi h1 h2 h3 hf
      obtain ⟨f, rfl⟩ : ∃ f, fuel = f + 1 := ⟨fuel - 1, by omega⟩
      unfold probe
      obtain ⟨x, hx⟩ := headerAt_isSome (c := c) h2 h3
      obtain ⟨ex, mx, -, -⟩ := headerAt_some hg hx
      simp only
      unfold probeStep
      rw [hx]
      simp only
      by_cases hxt : x.time ≥ t
      · rw [if_pos hxt]
        generalize hgap : (if (unix x.time - unix t).toNat = 0 then 1 else (unix x.time - unix t).toNat) = gap
        have hg1 : 1 ≤ gap := by rw [← hgap]; split <;> omega
        by_cases hle : x.height ≤ gap
        · rw [if_pos hle]; simp
        · rw [if_neg hle]
          simp only
          exact ih f (x.height - gap) (some x) (by omega) (by omega) (by omega) (by omega)
      · rw [if_neg hxt]
        by_cases hgt : x.height + (unix t - unix x.time).toNat > l.height
        · rw [if_pos hgt]
          obtain ⟨f', rfl⟩ : ∃ f', f = f' + 1 := ⟨f - 1, by omega⟩
          simp [probe]
        · rw [if_neg hgt]
          have hlow := lowEnds f x _ hi mx (by omega) rfl (by omega) (by omega)
          cases hi <;> exact hlow
  unfold headerBefore
  rw [eg, el]
  simp only
  by_cases h1 : g.time ≥ t
  · rw [if_pos h1]; simp
  rw [if_neg h1]
  by_cases h2 : l.time < t
  · rw [if_pos h2]; simp
  rw [if_neg h2]
  generalize hest : (if l.height > (unix l.time - unix t).toNat then l.height - (unix l.time - unix t).toNat else 1) = est
  have he : 1 ≤ est ∧ est ≤ c.length := by
    have := mem_height hg ml
    rw [← hest]; split <;> omega
  have := highEnds est fuel est none (Nat.le_refl _) he.1 he.2 (by omega)
  split
  · rename_i h; exact absurd h this
  · simp
  · split <;> simp

/-- **C57** For whole seconds: the query answers, with the last block before the time. -/
theorem before_answers {c : Chain} (hg : Good c) (hw : Whole c) {t : Int} (ht : t % 1000000000 = 0) :
    ∃ n, ∀ fuel ≥ n, (∃ b, headerBefore c t fuel = some (.found (some b)) ∧ LastBefore c t b) ∨
      (headerBefore c t fuel = some (.found none) ∧ ∀ x ∈ c, t ≤ x.time) := by
  refine ⟨c.length + 3, fun fuel hf => ?_⟩
  cases h : headerBefore c t fuel with
  | none => exact absurd h (before_ends hg hw ht hf)
  | some r =>
    rcases before_exact hg h with ⟨b, rfl, hl⟩ | ⟨rfl, hx⟩
    · exact Or.inl ⟨b, rfl, hl⟩
    · exact Or.inr ⟨rfl, hx⟩

/-- For a fraction of a second it may never end: if the first estimate hits a block of the same second, before the time, the next
estimate is that block again. -/
theorem before_hangs {c : Chain} (hg : Good c) {t : Int} {g l b : Snap} (eg : c.head? = some g) (el : c.getLast? = some l) (h1 : g.time < t) (h2 : t ≤ l.time)
    (hb : b ∈ c) (hbt : b.time < t) (hsec : unix b.time = unix t) (hest : b.height + (unix l.time - unix t).toNat = l.height) (fuel : Nat) :
    headerBefore c t fuel = none := by
  have hb1 := mem_height hg hb
  have hlh : b.height ≤ l.height := by omega
  have again : ∀ fuel lo, (lo = none ∨ lo = some b) → probe c g l t fuel ⟨b.height, lo, none⟩ = none := by
    intro fuel
    induction fuel with
    | zero => intro lo _; rfl
    | succ fuel ih =>
      intro lo hlo
      have hs : probeStep c g l t ⟨b.height, lo, none⟩ = some (⟨b.height, some b, none⟩, false) := by
        unfold probeStep
        simp only [headerAt_mem hg hb]
        rw [if_neg (by omega), hsec, Int.sub_self]
        simp only [Int.toNat_zero, Nat.add_zero]
        rw [if_neg (by omega)]
      rcases hlo with rfl | rfl
      · unfold probe
        simp only [hs]
        exact ih _ (Or.inr rfl)
      · unfold probe
        simp only [hs]
        exact ih _ (Or.inr rfl)
  unfold headerBefore
  rw [eg, el]
  simp only
  rw [if_neg (by omega), if_neg (by omega), if_pos (by omega)]
  rw [show l.height - (unix l.time - unix t).toNat = b.height by omega, again fuel none (Or.inl rfl)]

/-- Three blocks in three seconds. -/
def exChain : Chain :=
  [⟨1, 0, 1, 10000000000, 0, none, 1, []⟩, ⟨2, 1, 2, 11000000000, 0, none, 1, []⟩, ⟨3, 2, 3, 12000000000, 0, none, 2, []⟩]

theorem exChain_good : Good exChain := by
  refine ⟨by decide, ?_, by decide +kernel⟩
  intro i b h
  match i, h with
  | 0, h => injection h with h; subst h; rfl
  | 1, h => injection h with h; subst h; rfl
  | 2, h => injection h with h; subst h; rfl
  | (_ + 3), h => exact absurd h (by simp [exChain])

/-- A chain with blocks every second, and half a second past the second block: the query never ends. -/
theorem half_second_hangs (fuel : Nat) : headerBefore exChain 11500000000 fuel = none :=
  before_hangs exChain_good (g := ⟨1, 0, 1, 10000000000, 0, none, 1, []⟩) (l := ⟨3, 2, 3, 12000000000, 0, none, 2, []⟩)
    (b := ⟨2, 1, 2, 11000000000, 0, none, 1, []⟩) rfl rfl (by decide) (by decide) (by decide) (by decide) (by decide) (by decide) fuel

/-! ### The blocks from a time on -/

/-- **C57** The blocks from a time on up to a height, genesis excepted, the latest first. -/
theorem from_exact {c : Chain} (hg : Good c) {t : Int} {fuel e : Nat} {l : List Snap} (h : headersFrom c e t none fuel = some (some l)) :
    (∀ b, b ∈ l ↔ b ∈ c ∧ t ≤ b.time ∧ b.height ≤ e ∧ b.height ≠ 1) ∧ l.Pairwise (fun a b => b.height < a.height) := by
  obtain ⟨g, eg, mg, hgh⟩ := hg.genesis
  unfold headersFrom at h
  rw [eg] at h
  -- the start
  have key : ∀ s : Snap, s ∈ c → (∀ b ∈ c, s.height < b.height ↔ t ≤ b.time ∧ b.height ≠ 1) →
      (if s.height ≥ e then some (some ([] : List Snap)) else some (some (headersDown c e (e - s.height)))) = some (some l) →
      (∀ b, b ∈ l ↔ b ∈ c ∧ t ≤ b.time ∧ b.height ≤ e ∧ b.height ≠ 1) ∧ l.Pairwise (fun a b => b.height < a.height) := by
    intro s ms hs h
    have hm := mem_height hg ms
    by_cases h1 : s.height ≥ e
    · rw [if_pos h1] at h
      injection h with h; injection h with h; subst h
      refine ⟨?_, List.Pairwise.nil⟩
      intro b
      constructor
      · intro hb; exact absurd hb (by simp)
      · rintro ⟨mb, hb1, hb2, hb3⟩
        have := (hs b mb).2 ⟨hb1, hb3⟩
        omega
    · rw [if_neg h1] at h
      injection h with h; injection h with h; subst h
      unfold headersDown
      rw [if_neg (by omega)]
      simp only
      rw [show e - (e - s.height) + 1 - 1 = s.height by omega]
      have hget : ∀ i b, ((c.take e).drop s.height)[i]? = some b → b ∈ c ∧ b.height = s.height + i + 1 ∧ b.height ≤ e := by
        intro i b hb
        rw [List.getElem?_drop, List.getElem?_take] at hb
        split at hb
        · have := hg.height _ _ hb
          exact ⟨List.mem_of_getElem? hb, by omega, by omega⟩
        · exact absurd hb (by simp)
      refine ⟨?_, ?_⟩
      · intro b
        rw [List.mem_reverse]
        constructor
        · intro hb
          obtain ⟨i, hi⟩ := List.mem_iff_getElem?.1 hb
          obtain ⟨mb, h2, h3⟩ := hget i b hi
          have := (hs b mb).1 (by omega)
          exact ⟨mb, this.1, h3, this.2⟩
        · rintro ⟨mb, hb1, hb2, hb3⟩
          have hsb := (hs b mb).2 ⟨hb1, hb3⟩
          have hb4 := headerAt_mem hg mb
          unfold headerAt at hb4
          rw [if_neg (by omega)] at hb4
          refine List.mem_iff_getElem?.2 ⟨b.height - 1 - s.height, ?_⟩
          rw [List.getElem?_drop, List.getElem?_take, if_pos (by omega), show s.height + (b.height - 1 - s.height) = b.height - 1 by omega]
          exact hb4
      · rw [List.pairwise_reverse, List.pairwise_iff_getElem]
        intro i j hi hj hij
        have h2 := hget i _ (List.getElem?_eq_getElem hi)
        have h3 := hget j _ (List.getElem?_eq_getElem hj)
        omega
  cases hb : headerBefore c t fuel with
  | none => rw [hb] at h; exact absurd h (by simp)
  | some r =>
    rw [hb] at h
    rcases before_exact hg hb with ⟨b, rfl, mb, hbt, hmax⟩ | ⟨rfl, hx⟩
    · simp only [Option.getD_some] at h
      refine key b mb ?_ h
      intro x mx
      have hb1 := mem_height hg mb
      constructor
      · intro hlt
        refine ⟨?_, by omega⟩
        by_contra hc
        have := hmax x mx (by omega)
        omega
      · rintro ⟨h1, -⟩
        exact (time_lt_iff hg mb mx).1 (by omega)
    · simp only [Option.getD_none] at h
      refine key g mg ?_ h
      intro x mx
      have hx1 := mem_height hg mx
      constructor
      · intro hlt; exact ⟨hx x mx, by omega⟩
      · rintro ⟨-, h1⟩; omega

/-- Asked for the blocks of one producer, the query finds none, whatever the chain: the loop appends nothing. -/
theorem producer_filter_empty (c : Chain) (e : Nat) (t : Int) (p : Verif.Consensus.Addr) (fuel : Nat) {l : List Snap} (h : headersFrom c e t (some p) fuel = some (some l)) : l = [] := by
  unfold headersFrom at h
  split at h
  · exact absurd h (by simp)
  · exact absurd h (by simp)
  · exact absurd h (by simp)
  · simp only at h
    split at h
    · injection h with h; injection h with h; exact h.symm
    · injection h with h; injection h with h; exact h.symm

/-! ### Examples -/

example : Whole exChain := by unfold Whole exChain; decide +kernel
example : headerBefore exChain 12000000000 5 = some (.found (some ⟨2, 1, 2, 11000000000, 0, none, 1, []⟩)) := by decide +kernel
example : headersFrom exChain 3 11000000000 none 5 = some (some [⟨3, 2, 3, 12000000000, 0, none, 2, []⟩, ⟨2, 1, 2, 11000000000, 0, none, 1, []⟩]) := by decide +kernel
example : headersFrom exChain 3 11000000000 (some 2) 5 = some (some []) := by decide +kernel

end Verif.Snap
