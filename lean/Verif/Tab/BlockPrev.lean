import Verif.Tab.BlockLemmas

/-! # The iterator over a block: backwards and by key -/

namespace Verif.Tab
open Verif.Bytes Verif.Store

variable {O : Type} [LinearOrder O]
variable {ord : Bytes → O} {b : Block} {n : Nat} {K V : Nat → Bytes} {off st : Nat → Nat}

theorem frames_succ (m j : Nat) (h : m ≤ j) :
    frames K V off m (j + 1) = (K j, off (j + 1) - (V j).length, (V j).length) :: frames K V off m j := by
  show (if m ≤ j then _ else _) = _
  rw [if_pos h]

theorem frames_le (m j : Nat) (h : j ≤ m) : frames K V off m j = [] := by
  cases j with
  | zero => rfl
  | succ j => show (if m ≤ j then _ else _) = _; rw [if_neg (by omega)]

/-- The value of the entry before `q`, when it lies in the slice. -/
def valAt (V : Nat → Bytes) (m : Nat) : Nat → Option Bytes
  | 0 => none
  | q + 1 => if m ≤ q then some (V q) else none

/-- The entries in the cache when the walk is at `q`: those up to `q - 2`. -/
def cacheAt (K V : Nat → Bytes) (off : Nat → Nat) (m : Nat) : Nat → List (Bytes × Nat × Nat)
  | 0 => []
  | q + 1 => frames K V off m q

/-- The walk from a restart point fills the cache. -/
theorem build_spec (h : Rep ord b n K V off st) {j lo a : Nat} (hj : j < n) (hlo : lo ≤ j) (haj : a ≤ j) :
    ∀ (f q : Nat) (key : Bytes), j + 1 - q < f → a ≤ q → q ≤ j → KeyOk b n K st q key →
      (key = if q = a then [] else K (q - 1)) →
      BI.build b (off (j + 1)) (off lo) f (off q) key (valAt V (max lo a) q) (cacheAt K V off (max lo a) q) =
        some (K j, some (V j), frames K V off (max lo a) j) := by
  intro f
  induction f with
  | zero => intro q key hf; omega
  | succ f ih =>
    intro q key hf haq hq hk hkey
    unfold BI.build
    obtain ⟨e, he, hk1, hv1, hn1⟩ := h.load (by omega : q < n) hk
    rw [he]
    dsimp only
    rw [hn1, hk1, hv1]
    have hval : keepVal (off lo) (off q) (V q) (valAt V (max lo a) q) = valAt V (max lo a) (q + 1) := by
      unfold keepVal
      show _ = if max lo a ≤ q then some (V q) else none
      by_cases hlq : lo ≤ q
      · have : off lo ≤ off q := by
          rcases Nat.lt_or_ge lo q with h1 | h1
          · have := h.lt h1 (by omega); omega
          · have : lo = q := by omega
            subst this; omega
        rw [if_pos this, if_pos (by omega)]
      · have h1 := h.lt (i := q) (j := lo) (by omega) (by omega)
        rw [if_neg (by omega), if_neg (by omega)]
        cases q with
        | zero => rfl
        | succ q => show (if max lo a ≤ q then _ else _) = _; rw [if_neg (by omega)]
    have hst : keepStack (off lo) (off q) key (valAt V (max lo a) q) (cacheAt K V off (max lo a) q) = cacheAt K V off (max lo a) (q + 1) := by
      unfold keepStack
      show _ = frames K V off (max lo a) q
      cases q with
      | zero =>
        show (if off lo ≤ off 0 then [] else []) = []
        simp
      | succ q =>
        by_cases hmq : max lo a ≤ q
        · have h1 : off lo ≤ off (q + 1) := by
            have := h.lt (i := lo) (j := q + 1) (by omega) (by omega); omega
          have hv : valAt V (max lo a) (q + 1) = some (V q) := by
            show (if max lo a ≤ q then _ else _) = _; rw [if_pos hmq]
          rw [if_pos h1, hv]
          dsimp only
          rw [frames_succ _ _ hmq, hkey, if_neg (by omega)]
          rfl
        · have hv : valAt V (max lo a) (q + 1) = none := by
            show (if max lo a ≤ q then _ else _) = _; rw [if_neg hmq]
          rw [hv]
          show (if off lo ≤ off (q + 1) then frames K V off (max lo a) q else frames K V off (max lo a) q) = _
          rw [ite_self, frames_le _ q (by omega), frames_le _ (q + 1) (by omega)]
    rw [hval, hst]
    by_cases hqj : q = j
    · subst hqj
      rw [if_pos (le_refl _), if_pos rfl]
      have hv : valAt V (max lo a) (q + 1) = some (V q) := by
        show (if max lo a ≤ q then _ else _) = _; rw [if_pos (by omega)]
      rw [hv]; rfl
    · have := h.lt (i := q + 1) (j := j + 1) (by omega) (by omega)
      rw [if_neg (by omega)]
      exact ih (q + 1) (K q) (by omega) (by omega) (by omega) (Or.inr (Or.inr (Or.inr rfl))) (by rw [if_neg (by omega)]; rfl)

/-- Filling the cache brings the iterator to the entry before the offset. -/
theorem refill_spec (h : Rep ord b n K V off st) {lo hi j ri : Nat} {i : BI} (hlo : lo ≤ j) (hj : j < hi) (hhn : hi ≤ n)
    (hb : i.bad = false) (hd : i.dir = .back) (hs : i.stack = none) (ho : i.offset = off (j + 1)) (hreal : i.offsetRealStart = off lo)
    (h1 : i.riStart ≤ ri) (h2 : ri < i.riLimit) (h3 : i.riLimit ≤ b.rlen) (h4 : st ri ≤ j + 1) (h5 : st i.riStart ≤ j) :
    (BI.refill b i ri).2 = true ∧ Same i (BI.refill b i ri).1 ∧ Stands b K V off st lo hi (BI.refill b i ri).1 (.on j) := by
  have hre : b.restart ri = i.offset ↔ st ri = j + 1 := by
    rw [h.restart ri (by omega), ho]
    exact h.eq_iff (Nat.le_of_lt (h.stlt ri (by omega))) (by omega)
  have hr0 : st ri = j + 1 → i.riStart < ri := by
    intro he
    have := (h.st_lt_iff (r := i.riStart) (q := ri) (by omega) (by omega)).1 (by omega)
    exact this
  obtain ⟨r, hr, hra, hrb, hrc⟩ : ∃ r, (if b.restart ri = i.offset then ri - 1 else ri) = r ∧ i.riStart ≤ r ∧ r < i.riLimit ∧ st r ≤ j := by
    by_cases he : st ri = j + 1
    · rw [if_pos (hre.2 he)]
      have h6 := hr0 he
      have := h.st_lt (r := ri - 1) (q := ri) (by omega) (by omega)
      exact ⟨ri - 1, rfl, by omega, by omega, by omega⟩
    · rw [if_neg (fun hh => he (hre.1 hh))]
      exact ⟨ri, rfl, h1, h2, by omega⟩
  unfold BI.refill
  rw [if_neg (by rintro ⟨g1, g2⟩; have := hr0 (hre.1 g1); omega)]
  dsimp only
  rw [if_neg (by simpa using hs), hr, h.restart r (by omega)]
  have hbuild := build_spec h (j := j) (lo := lo) (a := st r) (by omega) hlo hrc b.fuel (st r) [] (by have := h.n_le; omega) (le_refl _) hrc
    (Or.inr (Or.inr (Or.inl ⟨r, by omega, rfl⟩))) (by rw [if_pos rfl])
  have hv0 : valAt V (max lo (st r)) (st r) = none := by
    cases hsr : st r with
    | zero => rfl
    | succ q => show (if max lo (q + 1) ≤ q then _ else _) = _; rw [if_neg (by omega)]
  have hc0 : cacheAt K V off (max lo (st r)) (st r) = [] := by
    cases hsr : st r with
    | zero => rfl
    | succ q => exact frames_le _ _ (by omega)
  rw [hv0, hc0, ← ho, ← hreal] at hbuild
  rw [hbuild]
  dsimp only
  refine ⟨rfl, ⟨rfl, rfl, rfl, rfl, rfl⟩, hb, hlo, hj, rfl, rfl, ho, hra, hrb, h3, hrc, Or.inr ⟨hd, rfl⟩⟩

/-- `Prev`. -/
theorem prev_stands (h : Rep ord b n K V off st) {lo hi : Nat} {i : BI} (c : Cut b n off st lo hi i) {p : At} (hp : Stands b K V off st lo hi i p) :
    Same i (BI.prev b i).1 ∧ (BI.prev b i).2 = (prevAt lo hi p).isOn ∧ Stands b K V off st lo hi (BI.prev b i).1 (prevAt lo hi p) := by
  have hle := c.le
  have hhn := c.hn
  cases p with
  | before =>
    obtain ⟨hb, hd, hs⟩ := hp
    have : BI.prev b i = (i, false) := by unfold BI.prev; rw [if_pos (Or.inl hd)]
    rw [this]
    exact ⟨Same.refl i, rfl, hb, hd, hs⟩
  | past =>
    obtain ⟨hb, hd, hs⟩ := hp
    unfold BI.prev
    rw [if_neg (by rw [hb, hd]; simp), if_neg (by rw [hd]; decide), if_pos hd]
    unfold prevAt
    dsimp only
    by_cases hlt : lo < hi
    · have : off lo < off hi := h.lt hlt hhn
      rw [if_neg (by rw [c.limit, c.real]; omega), if_pos hlt]
      rcases c.ends with ⟨h1, h2, h3, h4, h5, h6⟩ | ⟨h1, h2, _⟩
      · have he : hi - 1 + 1 = hi := by omega
        have := refill_spec h (lo := lo) (hi := hi) (j := hi - 1) (ri := i.riLimit - 1)
          (i := { i with restartIndex := i.riLimit, offset := i.offsetLimit, dir := .back })
          (by omega) (by omega) hhn hb rfl hs (by rw [he]; exact c.limit) c.real (by dsimp only; omega) (by dsimp only; omega) h2
          (by rw [he]; exact h6) (by dsimp only; omega)
        obtain ⟨g1, g2, g3⟩ := this
        exact ⟨⟨g2.1, g2.2, g2.3, g2.4, g2.5⟩, g1, g3⟩
      · omega
    · have : lo = hi := by omega
      rw [if_pos (by rw [c.limit, c.real, this]), if_neg hlt]
      exact ⟨⟨rfl, rfl, rfl, rfl, rfl⟩, rfl, hb, rfl, hs⟩
  | on j =>
    obtain ⟨hb, h1, h2, h3, h4, h5, h6, h7, h8, h9, h10⟩ := hp
    have hends : st i.riStart ≤ lo ∧ (∀ r, i.riStart < r → r < b.rlen → lo < st r) := by
      rcases c.ends with ⟨_, _, _, q4, q5, _⟩ | ⟨q1, q2, _⟩
      · exact ⟨q4, q5⟩
      · omega
    unfold BI.prev
    rcases h10 with ⟨q1, q2, q3⟩ | ⟨q1, q2⟩
    · rw [if_neg (by rw [hb, q1]; simp), if_pos q1]
      unfold prevAt
      dsimp only
      by_cases hlt : lo < j
      · have : off lo < off j := h.lt hlt (by omega)
        rw [if_neg (by rw [q2, c.real]; omega), if_pos hlt, q2]
        obtain ⟨g1, g2, g3, g4⟩ := h.restartIndex_spec h7 h8 (j := j) (by omega) h9
        have he : j - 1 + 1 = j := by omega
        have := refill_spec h (lo := lo) (hi := hi) (j := j - 1) (ri := b.restartIndex i.restartIndex i.riLimit (off j))
          (i := { i with offset := off j, prevOffset := off j, dir := .back })
          (by omega) (by omega) hhn hb rfl q3 (by rw [he]) c.real (by dsimp only; omega) (by dsimp only; omega) h8
          (by rw [he]; exact g3) (by dsimp only; omega)
        obtain ⟨g1, g2, g3⟩ := this
        exact ⟨⟨g2.1, g2.2, g2.3, g2.4, g2.5⟩, g1, g3⟩
      · have : lo = j := by omega
        rw [if_pos (by rw [q2, c.real, this]), if_neg hlt]
        exact ⟨⟨rfl, rfl, rfl, rfl, rfl⟩, rfl, hb, rfl, q3⟩
    · rw [if_neg (by rw [hb, q1]; simp), if_neg (by rw [q1]; decide), if_neg (by rw [q1]; decide), q2]
      unfold prevAt
      dsimp only
      by_cases hmj : max lo (st i.restartIndex) < j
      · have he : j - 1 + 1 = j := by omega
        rw [show frames K V off (max lo (st i.restartIndex)) j = frames K V off (max lo (st i.restartIndex)) (j - 1 + 1) by rw [he],
          frames_succ _ _ (by omega), he]
        dsimp only
        obtain ⟨v1, v2⟩ := h.value (j - 1) (by omega)
        rw [he] at v1 v2
        rw [if_pos (by omega)]
        refine ⟨⟨rfl, rfl, rfl, rfl, rfl⟩, rfl, hb, by omega, by omega, rfl, v2, ?_, h6, h7, h8, by dsimp only; omega, Or.inr ⟨q1, rfl⟩⟩
        rw [he]; dsimp only; omega
      · rw [frames_le _ _ (by omega)]
        dsimp only
        by_cases hri : i.restartIndex = i.riStart
        · rw [if_pos hri, if_neg (by rw [hri] at hmj; omega)]
          exact ⟨⟨rfl, rfl, rfl, rfl, rfl⟩, rfl, hb, rfl, rfl⟩
        · have g0 := hends.2 i.restartIndex (by omega) (by omega)
          have g1 : st i.restartIndex = j := by omega
          rw [if_neg hri, if_pos (by omega), g1]
          have he : j - 1 + 1 = j := by omega
          have g2 := h.st_lt (r := i.restartIndex - 1) (q := i.restartIndex) (by omega) (by omega)
          have := refill_spec h (lo := lo) (hi := hi) (j := j - 1) (ri := i.restartIndex - 1)
            (i := { i with offset := off j, stack := none, restartIndex := i.restartIndex - 1 })
            (by omega) (by omega) hhn hb q1 rfl (by rw [he]) c.real (by dsimp only; omega) (by dsimp only; omega) h8
            (by omega) (by dsimp only; omega)
          obtain ⟨g1, g2, g3⟩ := this
          exact ⟨⟨g2.1, g2.2, g2.3, g2.4, g2.5⟩, g1, g3⟩

/-- Where a search by key ends: the first entry of the slice that is not smaller. -/
def FirstGE (ord : Bytes → O) (K : Nat → Bytes) (lo hi : Nat) (k : Bytes) : At → Prop
  | .before => False
  | .on j => lo ≤ j ∧ j < hi ∧ ord k ≤ ord (K j) ∧ ∀ q, lo ≤ q → q < j → ord (K q) < ord k
  | .past => ∀ q, lo ≤ q → q < hi → ord (K q) < ord k

theorem seekLoop_spec (h : Rep ord b n K V off st) {lo hi : Nat} (k : Bytes) :
    ∀ (f : Nat) (i : BI) (m : Nat), Cut b n off st lo hi i → hi - m < f → i.bad = false → (i.dir = .fwd ∨ i.dir = .back) →
      (i.dir ≠ .back → i.stack = none) → m ≤ hi → i.offset = off m → KeyOk b n K st m i.key →
      (m < hi → i.riStart ≤ i.restartIndex ∧ i.restartIndex < i.riLimit ∧ i.riLimit ≤ b.rlen ∧ st i.restartIndex ≤ m) →
      (∀ q, lo ≤ q → q < m → ord (K q) < ord k) →
      ∃ p, FirstGE ord K lo hi k p ∧ Stands b K V off st lo hi (BI.seekLoop ord b k f i).1 p ∧ Same i (BI.seekLoop ord b k f i).1 ∧
        ((BI.seekLoop ord b k f i).2 = true ↔ ∃ j, p = .on j) ∧
        (∀ j, p = .on j → (BI.seekLoop ord b k f i).1.prevOffset = off j ∧ (BI.seekLoop ord b k f i).1.dir = .fwd ∧
          (BI.seekLoop ord b k f i).1.restartIndex = i.restartIndex) := by
  intro f
  induction f with
  | zero => intro i m _ hf; omega
  | succ f ih =>
    intro i m c hf hb hd hs hm ho hk hri hq
    have hd1 : i.dir ≠ .soi ∧ i.dir ≠ .eoi := by rcases hd with h1 | h1 <;> rw [h1] <;> exact ⟨by decide, by decide⟩
    unfold BI.seekLoop
    rcases next_core h c hb hd1.2 hs hm (by rw [if_neg hd1.1]; exact ho) hk with
      ⟨h1, i', h2, h3, h4⟩ | ⟨h1, i', h2, h3, h4, h5, h6, h7, h8, h9, h10, h11⟩
    · rw [h2]
      simp only [Bool.false_eq_true, if_false]
      refine ⟨.past, ?_, h4, h3, ⟨by intro hh; simp at hh, by rintro ⟨j, hj⟩; simp at hj⟩, by intro j hj; simp at hj⟩
      intro q q1 q2
      exact hq q q1 (by omega)
    · rw [if_neg hd1.1] at h11
      rw [h2]
      simp only [if_true]
      obtain ⟨r1, r2, r3, r4⟩ := hri (by omega)
      by_cases hlt : ord i'.key < ord k
      · rw [if_pos hlt]
        rw [h7] at hlt
        obtain ⟨p, g1, g2, g3, g4, g5⟩ := ih i' (max m lo + 1) (c.same h3) (by omega) h4 (Or.inl h5) (fun _ => h6) (by omega) h10
          (Or.inr (Or.inr (Or.inr (by rw [h7]; rfl))))
          (by intro _; rw [h3.1, h3.2, h11]; exact ⟨r1, r2, r3, by omega⟩)
          (by
            intro q q1 q2
            rcases Nat.lt_or_ge q m with q3 | q3
            · exact hq q q1 q3
            · have : q = max m lo := by omega
              rw [this]; exact hlt)
        exact ⟨p, g1, g2, h3.trans g3, g4, fun j hj => ⟨(g5 j hj).1, (g5 j hj).2.1, by rw [(g5 j hj).2.2, h11]⟩⟩
      · rw [if_neg hlt]
        rw [h7] at hlt
        refine ⟨.on (max m lo), ⟨by omega, h1, not_lt.1 hlt, ?_⟩, ?_, h3, ⟨fun _ => ⟨_, rfl⟩, fun _ => rfl⟩, ?_⟩
        · intro q q1 q2; exact hq q q1 (by omega)
        · refine ⟨h4, by omega, h1, h7, h8, h10, ?_, ?_, ?_, ?_, Or.inl ⟨h5, h9, h6⟩⟩
          · dsimp only; rw [h3.1, h11]; exact r1
          · dsimp only; rw [h3.2, h11]; exact r2
          · dsimp only; rw [h3.2]; exact r3
          · dsimp only; rw [h11]; omega
        · intro j hj
          injection hj with hj
          subst hj
          exact ⟨h9, h5, h11⟩

/-- `Seek`. -/
theorem seek_stands (h : Rep ord b n K V off st) {lo hi : Nat} {i : BI} (c : Cut b n off st lo hi i) (hb : i.bad = false)
    (hs : i.dir ≠ .back → i.stack = none) (k : Bytes) :
    ∃ p, FirstGE ord K lo hi k p ∧ Stands b K V off st lo hi (BI.seek ord b i k).1 p ∧ Same i (BI.seek ord b i k).1 ∧
      ((BI.seek ord b i k).2 = true ↔ ∃ j, p = .on j) ∧
      (∀ j, p = .on j → (BI.seek ord b i k).1.prevOffset = off j ∧ (BI.seek ord b i k).1.dir = .fwd) := by
  have hle := c.le
  have hhn := c.hn
  unfold BI.seek
  rw [if_neg (by rw [hb]; simp)]
  have hdir : (if i.dir = .soi ∨ i.dir = .eoi then Dir.fwd else i.dir) = .fwd ∨ (if i.dir = .soi ∨ i.dir = .eoi then Dir.fwd else i.dir) = .back := by
    cases i.dir <;> simp
  have hdir2 : (if i.dir = .soi ∨ i.dir = .eoi then Dir.fwd else i.dir) ≠ .back → i.stack = none := by
    intro hh
    apply hs
    intro hb'
    rw [hb'] at hh
    simp at hh
  rcases c.ends with ⟨h1, h2, h3, h4, h5, h6⟩ | ⟨h1, h2, h3, h4, h5⟩
  · obtain ⟨r, g1, g2, g3, g4⟩ := h.seek_spec h1 h2 k
    dsimp only
    rw [g1]
    dsimp only
    have hmax : max i.offsetStart (off (st r)) = off (st r) := by
      rw [h3]
      rcases Nat.lt_or_ge i.riStart r with q | q
      · have := h.lt (h.st_lt q (by omega)) (Nat.le_of_lt (h.stlt r (by omega))); omega
      · have : i.riStart = r := by omega
        rw [this]; omega
    rw [hmax]
    have hrhi : st r ≤ hi := by
      rcases Nat.lt_or_ge r (i.riLimit - 1) with q | q
      · have := h.st_lt q (by omega); omega
      · have : r = i.riLimit - 1 := by omega
        rw [this]; exact h6
    obtain ⟨p, p1, p2, p3, p4, p5⟩ := seekLoop_spec h (lo := lo) (hi := hi) k b.fuel
      { i with restartIndex := r, offset := off (st r), dir := if i.dir = .soi ∨ i.dir = .eoi then .fwd else i.dir } (st r)
      (c.same ⟨rfl, rfl, rfl, rfl, rfl⟩) (by have := h.n_le; omega) hb hdir hdir2 hrhi rfl (Or.inr (Or.inr (Or.inl ⟨r, by omega, rfl⟩)))
      (fun _ => ⟨g2, g3, h2, le_refl _⟩)
      (by
        intro q q1 q2
        have hr : i.riStart < r := by
          rcases Nat.lt_or_ge i.riStart r with q' | q'
          · exact q'
          · have : i.riStart = r := by omega
            rw [this] at h4; omega
        exact lt_of_lt_of_le (h.sorted q (st r) q2 (h.stlt r (by omega))) (g4 hr))
    exact ⟨p, p1, p2, ⟨p3.1, p3.2, p3.3, p3.4, p3.5⟩, p4, fun j hj => ⟨(p5 j hj).1, (p5 j hj).2.1⟩⟩
  · have hse : Block.seek ord b i.riStart i.riLimit k = (b.rlen, b.restart b.rlen) := by
      unfold Block.seek
      rw [h3, h4, Nat.sub_self]
      rfl
    dsimp only
    rw [hse]
    dsimp only
    have hmax : max i.offsetStart (b.restart b.rlen) = off n := by
      rw [h5]
      have := h.tail
      have := h.offn
      omega
    rw [hmax]
    obtain ⟨p, p1, p2, p3, p4, p5⟩ := seekLoop_spec h (lo := lo) (hi := hi) k b.fuel
      { i with restartIndex := b.rlen, offset := off n, dir := if i.dir = .soi ∨ i.dir = .eoi then .fwd else i.dir } n
      (c.same ⟨rfl, rfl, rfl, rfl, rfl⟩) (by have := h.n_le; omega) hb hdir hdir2 (by omega) rfl (Or.inl (le_refl _))
      (by intro hh; omega)
      (by intro q q1 q2; omega)
    exact ⟨p, p1, p2, ⟨p3.1, p3.2, p3.3, p3.4, p3.5⟩, p4, fun j hj => ⟨(p5 j hj).1, (p5 j hj).2.1⟩⟩

end Verif.Tab
