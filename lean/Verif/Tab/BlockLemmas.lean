import Verif.Tab.BlockModel
import Verif.Snap.TimeProps

/-! # A block that holds given entries, and the iterator over it -/

namespace Verif.Tab
open Verif.Bytes Verif.Store

variable {O : Type} [LinearOrder O]

/-- The block holds `n` entries with keys `K` and values `V`, the `j`-th at `off j`, and its `r`-th
restart point is at entry `st r`. -/
structure Rep (ord : Bytes → O) (b : Block) (n : Nat) (K V : Nat → Bytes) (off st : Nat → Nat) : Prop where
  pos : 0 < n
  off0 : off 0 = 0
  offn : off n = b.roff
  mono : ∀ j, j < n → off j < off (j + 1)
  len : b.roff ≤ b.data.length
  entry : ∀ j, j < n → ∃ s suf, b.entry (off j) = .ent ⟨suf, V j, s, off (j + 1) - off j⟩ ∧
    (K (j - 1)).take s ++ suf = K j ∧ (j = 0 → s = 0) ∧ (∀ r, r < b.rlen → st r = j → s = 0)
  value : ∀ j, j < n → off j + (V j).length ≤ off (j + 1) ∧
    (b.data.drop (off (j + 1) - (V j).length)).take (V j).length = V j
  rpos : 0 < b.rlen
  st0 : st 0 = 0
  stmono : ∀ r, r + 1 < b.rlen → st r < st (r + 1)
  stlt : ∀ r, r < b.rlen → st r < n
  restart : ∀ r, r < b.rlen → b.restart r = off (st r)
  /-- Where the restart points end there is a number that is not too large. -/
  tail : b.restart b.rlen ≤ b.roff
  rkey : ∀ r, r < b.rlen → b.restartKey (off (st r)) = K (st r)
  sorted : ∀ i j, i < j → j < n → ord (K i) < ord (K j)

variable {ord : Bytes → O} {b : Block} {n : Nat} {K V : Nat → Bytes} {off st : Nat → Nat}

theorem Rep.lt (h : Rep ord b n K V off st) {i j : Nat} (hij : i < j) (hj : j ≤ n) : off i < off j := by
  induction j with
  | zero => omega
  | succ j ih =>
    have := h.mono j (by omega)
    rcases Nat.lt_or_ge i j with h1 | h1
    · have := ih h1 (by omega); omega
    · have : i = j := by omega
      subst this; omega

theorem Rep.lt_iff (h : Rep ord b n K V off st) {i j : Nat} (hi : i ≤ n) (hj : j ≤ n) : off i < off j ↔ i < j := by
  constructor
  · intro ho
    rcases Nat.lt_or_ge i j with h1 | h1
    · exact h1
    · rcases Nat.lt_or_ge j i with h2 | h2
      · have := h.lt h2 hi; omega
      · have : i = j := by omega
        subst this; omega
  · intro hij; exact h.lt hij hj

theorem Rep.eq_iff (h : Rep ord b n K V off st) {i j : Nat} (hi : i ≤ n) (hj : j ≤ n) : off i = off j ↔ i = j := by
  constructor
  · intro ho
    have h1 := h.lt_iff hi hj
    have h2 := h.lt_iff hj hi
    by_contra hne
    rcases Nat.lt_or_ge i j with h3 | h3
    · have := h1.2 h3; omega
    · have := h2.2 (by omega); omega
  · rintro rfl; rfl

theorem Rep.le_off (h : Rep ord b n K V off st) : ∀ j, j ≤ n → j ≤ off j := by
  intro j
  induction j with
  | zero => intro _; omega
  | succ j ih => intro hj; have := h.mono j (by omega); have := ih (by omega); omega

theorem Rep.n_le (h : Rep ord b n K V off st) : n < b.fuel := by
  have h1 := h.le_off n (le_refl _)
  have h2 := h.offn
  have h3 := h.len
  unfold Block.fuel; omega

theorem Rep.st_lt (h : Rep ord b n K V off st) {r q : Nat} (hrq : r < q) (hq : q < b.rlen) : st r < st q := by
  induction q with
  | zero => omega
  | succ q ih =>
    have := h.stmono q hq
    rcases Nat.lt_or_ge r q with h1 | h1
    · have := ih h1 (by omega); omega
    · have : r = q := by omega
      subst this; omega

theorem Rep.st_lt_iff (h : Rep ord b n K V off st) {r q : Nat} (hr : r < b.rlen) (hq : q < b.rlen) : st r < st q ↔ r < q := by
  constructor
  · intro hs
    rcases Nat.lt_or_ge r q with h1 | h1
    · exact h1
    · rcases Nat.lt_or_ge q r with h2 | h2
      · have := h.st_lt h2 hr; omega
      · have : r = q := by omega
        subst this; omega
  · intro hrq; exact h.st_lt hrq hq

/-! ### The two searches over restart points -/

/-- The last restart point at or before an entry. -/
theorem Rep.restartIndex_spec (h : Rep ord b n K V off st) {a c j : Nat} (hac : a < c) (hc : c ≤ b.rlen) (hj : j ≤ n) (ha : st a ≤ j) :
    a ≤ b.restartIndex a c (off j) ∧ b.restartIndex a c (off j) < c ∧ st (b.restartIndex a c (off j)) ≤ j ∧
      ∀ r, b.restartIndex a c (off j) < r → r < c → j < st r := by
  have hval : ∀ i, i < c - a → decide (off j < b.restart (a + i)) = decide (j < st (a + i)) := by
    intro i hi
    rw [h.restart _ (by omega)]
    have := h.lt_iff hj (Nat.le_of_lt (h.stlt (a + i) (by omega)))
    simp only [this]
  have hs := Snap.search_spec (f := fun i => decide (off j < b.restart (a + i))) (n := c - a) (by
    intro x y hxy hy hx
    beta_reduce at hx ⊢
    rw [hval x (by omega)] at hx
    rw [hval y hy]
    simp only [decide_eq_true_eq] at hx ⊢
    rcases Nat.lt_or_ge x y with h1 | h1
    · have := h.st_lt (r := a + x) (q := a + y) (by omega) (by omega); omega
    · have : x = y := by omega
      subst this; exact hx)
  unfold Block.restartIndex
  generalize hq : Snap.search (c - a) (fun i => decide (off j < b.restart (a + i))) = q at hs ⊢
  obtain ⟨h1, h2, h3⟩ := hs
  have hq0 : q ≠ 0 := by
    intro hq0
    have := h3 0 (by omega) (by omega)
    rw [hval 0 (by omega)] at this
    simp at this
    omega
  refine ⟨by omega, by omega, ?_, ?_⟩
  · have := h2 (q - 1) (by omega)
    rw [hval _ (by omega)] at this
    simp only [decide_eq_false_iff_not, Nat.not_lt] at this
    have he : q + a - 1 = a + (q - 1) := by omega
    rw [he]; exact this
  · intro r hr hrc
    have := h3 (r - a) (by omega) (by omega)
    rw [hval _ (by omega)] at this
    simp only [decide_eq_true_eq] at this
    have he : a + (r - a) = r := by omega
    rw [he] at this; exact this

/-- The restart point from which a key is sought: all before it, other than the first, are too small,
and it holds a key that is at most the one sought, unless it is the first. -/
theorem Rep.seek_spec (h : Rep ord b n K V off st) {a c : Nat} (hac : a < c) (hc : c ≤ b.rlen) (k : Bytes) :
    ∃ r, b.seek ord a c k = (r, off (st r)) ∧ a ≤ r ∧ r < c ∧ (a < r → ord (K (st r)) ≤ ord k) := by
  have hval : ∀ i, i < c - a → decide (ord k < ord (b.restartKey (b.restart (a + i)))) = decide (ord k < ord (K (st (a + i)))) := by
    intro i hi
    rw [h.restart _ (by omega), h.rkey _ (by omega)]
  have hs := Snap.search_spec (f := fun i => decide (ord k < ord (b.restartKey (b.restart (a + i))))) (n := c - a) (by
    intro x y hxy hy hx
    beta_reduce at hx ⊢
    rw [hval x (by omega)] at hx
    rw [hval y hy]
    simp only [decide_eq_true_eq] at hx ⊢
    rcases Nat.lt_or_ge x y with h1 | h1
    · have h2 := h.st_lt (r := a + x) (q := a + y) (by omega) (by omega)
      exact lt_trans hx (h.sorted _ _ h2 (h.stlt _ (by omega)))
    · have : x = y := by omega
      subst this; exact hx)
  unfold Block.seek
  generalize Snap.search (c - a) (fun i => decide (ord k < ord (b.restartKey (b.restart (a + i))))) = q at hs ⊢
  obtain ⟨h1, h2, h3⟩ := hs
  dsimp only
  by_cases hq : q = 0
  · rw [if_pos hq]
    exact ⟨a, by rw [h.restart a (by omega)], le_refl _, hac, by intro hh; omega⟩
  · rw [if_neg hq]
    refine ⟨q + a - 1, by rw [h.restart _ (by omega)], by omega, by omega, ?_⟩
    intro _
    have := h2 (q - 1) (by omega)
    rw [hval _ (by omega)] at this
    simp only [decide_eq_false_iff_not, not_lt] at this
    have he : q + a - 1 = a + (q - 1) := by omega
    rw [he]; exact this

/-! ### Slices and states -/

/-- The iterator is cut to the entries from `lo` up to `hi`. -/
structure Cut (b : Block) (n : Nat) (off st : Nat → Nat) (lo hi : Nat) (i : BI) : Prop where
  le : lo ≤ hi
  hn : hi ≤ n
  real : i.offsetRealStart = off lo
  limit : i.offsetLimit = off hi
  ends : (i.riStart < i.riLimit ∧ i.riLimit ≤ b.rlen ∧ i.offsetStart = off (st i.riStart) ∧ st i.riStart ≤ lo ∧
      (∀ r, i.riStart < r → r < b.rlen → lo < st r) ∧ st (i.riLimit - 1) ≤ hi) ∨
    (lo = n ∧ hi = n ∧ i.riStart = b.rlen ∧ i.riLimit = b.rlen ∧ i.offsetStart = off n)

/-- A step leaves the slice alone. -/
structure Same (i i' : BI) : Prop where
  riStart : i'.riStart = i.riStart
  riLimit : i'.riLimit = i.riLimit
  offsetStart : i'.offsetStart = i.offsetStart
  real : i'.offsetRealStart = i.offsetRealStart
  limit : i'.offsetLimit = i.offsetLimit

theorem Same.refl (i : BI) : Same i i := ⟨rfl, rfl, rfl, rfl, rfl⟩

theorem Same.trans {i j k : BI} (h : Same i j) (g : Same j k) : Same i k :=
  ⟨g.1.trans h.1, g.2.trans h.2, g.3.trans h.3, g.4.trans h.4, g.5.trans h.5⟩

theorem Cut.same {lo hi : Nat} {i i' : BI} (c : Cut b n off st lo hi i) (s : Same i i') : Cut b n off st lo hi i' := by
  obtain ⟨s1, s2, s3, s4, s5⟩ := s
  refine ⟨c.le, c.hn, by rw [s4]; exact c.real, by rw [s5]; exact c.limit, ?_⟩
  rw [s1, s2, s3]; exact c.ends

/-- The cached entries from `j - 1` down to `m`. -/
def frames (K V : Nat → Bytes) (off : Nat → Nat) (m : Nat) : Nat → List (Bytes × Nat × Nat)
  | 0 => []
  | j + 1 => if m ≤ j then (K j, off (j + 1) - (V j).length, (V j).length) :: frames K V off m j else []

/-- Where the iterator stands, as an index. -/
inductive At where
  | before
  | on (j : Nat)
  | past

def At.isOn : At → Bool
  | .on _ => true
  | _ => false

/-- One on. -/
def nextAt (lo hi : Nat) : At → At
  | .past => .past
  | .before => if lo < hi then .on lo else .past
  | .on j => if j + 1 < hi then .on (j + 1) else .past

/-- One back. -/
def prevAt (lo hi : Nat) : At → At
  | .before => .before
  | .past => if lo < hi then .on (hi - 1) else .before
  | .on j => if lo < j then .on (j - 1) else .before

/-- The state of an iterator that stands somewhere. -/
def Stands (b : Block) (K V : Nat → Bytes) (off st : Nat → Nat) (lo hi : Nat) (i : BI) : At → Prop
  | .before => i.bad = false ∧ i.dir = .soi ∧ i.stack = none
  | .past => i.bad = false ∧ i.dir = .eoi ∧ i.stack = none
  | .on j => i.bad = false ∧ lo ≤ j ∧ j < hi ∧ i.key = K j ∧ i.value = V j ∧ i.offset = off (j + 1) ∧
      i.riStart ≤ i.restartIndex ∧ i.restartIndex < i.riLimit ∧ i.riLimit ≤ b.rlen ∧ st i.restartIndex ≤ j ∧
      ((i.dir = .fwd ∧ i.prevOffset = off j ∧ i.stack = none) ∨
       (i.dir = .back ∧ i.stack = some (off (st i.restartIndex), frames K V off (max lo (st i.restartIndex)) j)))

/-- The key is what the next entry is to be read with. -/
def KeyOk (b : Block) (n : Nat) (K : Nat → Bytes) (st : Nat → Nat) (m : Nat) (key : Bytes) : Prop :=
  n ≤ m ∨ m = 0 ∨ (∃ r, r < b.rlen ∧ st r = m) ∨ key = K (m - 1)

theorem Rep.load (h : Rep ord b n K V off st) {m : Nat} (hm : m < n) {key : Bytes} (hk : KeyOk b n K st m key) :
    ∃ e, b.entry (off m) = .ent e ∧ key.take e.shared ++ e.suffix = K m ∧ e.value = V m ∧ off m + e.n = off (m + 1) := by
  obtain ⟨s, suf, h1, h2, h3, h4⟩ := h.entry m hm
  refine ⟨_, h1, ?_, rfl, ?_⟩
  · dsimp only
    rcases hk with hk | rfl | ⟨r, hr, hs⟩ | rfl
    · omega
    · rw [h3 rfl] at h2 ⊢; simpa using h2
    · rw [h4 r hr hs] at h2 ⊢; simpa using h2
    · exact h2
  · dsimp only
    have := h.mono m hm; omega

/-- The walk up to the beginning of the slice. -/
theorem skip_spec (h : Rep ord b n K V off st) {lo : Nat} (hlo : lo ≤ n) :
    ∀ (f : Nat) (i : BI) (m : Nat), lo - m < f → i.offset = off m → m ≤ n → i.offsetRealStart = off lo → KeyOk b n K st m i.key →
      ∃ key value, BI.skip b f i = .go { i with key := key, value := value, offset := off (max m lo) } ∧ KeyOk b n K st (max m lo) key := by
  intro f
  induction f with
  | zero => intro i m hf; omega
  | succ f ih =>
    intro i m hf ho hm hr hk
    unfold BI.skip
    by_cases hlt : m < lo
    · have h1 : i.offset < i.offsetRealStart := by rw [ho, hr]; exact h.lt hlt hlo
      rw [if_pos h1]
      obtain ⟨e, he, hkey, hval, hnext⟩ := h.load (by omega : m < n) hk
      rw [ho, he]
      dsimp only
      obtain ⟨key, value, h2, h3⟩ := ih { i.load e with offset := off m + e.n } (m + 1) (by omega) hnext (by omega) hr
        (Or.inr (Or.inr (Or.inr (by simpa [BI.load] using hkey))))
      have he2 : max (m + 1) lo = max m lo := by omega
      rw [he2] at h2 h3
      exact ⟨key, value, by rw [h2]; rfl, h3⟩
    · have h1 : ¬ i.offset < i.offsetRealStart := by
        rw [ho, hr]
        have := h.lt_iff hm hlo
        rw [this]; exact hlt
      rw [if_neg h1]
      have he2 : max m lo = m := by omega
      rw [he2]
      exact ⟨i.key, i.value, by rw [← ho], hk⟩

/-- One step forward from an offset. -/
theorem next_core (h : Rep ord b n K V off st) {lo hi : Nat} {i : BI} (c : Cut b n off st lo hi i) (hb : i.bad = false)
    (hd : i.dir ≠ .eoi) (hs : i.dir ≠ .back → i.stack = none) {m : Nat} (hm : m ≤ hi)
    (ho : (if i.dir = .soi then i.offsetStart else i.offset) = off m) (hk : KeyOk b n K st m i.key) :
    (hi ≤ max m lo ∧ ∃ i', BI.next b i = (i', false) ∧ Same i i' ∧ i'.bad = false ∧ i'.dir = .eoi ∧ i'.stack = none) ∨
    (max m lo < hi ∧ ∃ i', BI.next b i = (i', true) ∧ Same i i' ∧ i'.bad = false ∧ i'.dir = .fwd ∧ i'.stack = none ∧
      i'.key = K (max m lo) ∧ i'.value = V (max m lo) ∧ i'.prevOffset = off (max m lo) ∧ i'.offset = off (max m lo + 1) ∧
      i'.restartIndex = if i.dir = .soi then i.riStart else i.restartIndex) := by
  have hhn := c.hn
  have hle := c.le
  obtain ⟨i0, hi0, s0, o0, k0, b0, st0, d0, r0⟩ : ∃ i0, i.enter = i0 ∧ Same i i0 ∧ i0.offset = off m ∧ i0.key = i.key ∧
      i0.bad = false ∧ i0.stack = none ∧ i0.dir = i.dir ∧
      i0.restartIndex = if i.dir = .soi then i.riStart else i.restartIndex := by
    unfold BI.enter
    by_cases h1 : i.dir = .soi
    · rw [if_pos h1] at ho
      rw [if_pos h1, if_pos h1]
      exact ⟨_, rfl, ⟨rfl, rfl, rfl, rfl, rfl⟩, ho, rfl, hb, hs (by rw [h1]; decide), rfl, rfl⟩
    · rw [if_neg h1] at ho
      rw [if_neg h1, if_neg h1]
      by_cases h2 : i.dir = .back
      · rw [if_pos h2]
        exact ⟨_, rfl, ⟨rfl, rfl, rfl, rfl, rfl⟩, ho, rfl, hb, rfl, rfl, rfl⟩
      · rw [if_neg h2]
        exact ⟨_, rfl, ⟨rfl, rfl, rfl, rfl, rfl⟩, ho, rfl, hb, hs h2, rfl, rfl⟩
  have c0 := c.same s0
  unfold BI.next
  rw [if_neg (by rw [hb]; simp [hd]), hi0]
  obtain ⟨key, value, h1, h2⟩ := skip_spec h (lo := lo) (by omega) b.fuel i0 m (by have := h.n_le; omega) o0 (by omega) c0.real
    (by rw [k0]; exact hk)
  rw [h1]
  dsimp only
  by_cases hx : hi ≤ max m lo
  · left
    refine ⟨hx, ?_⟩
    have hxe : max m lo = hi := by omega
    rw [if_pos (by rw [c0.limit, hxe])]
    refine ⟨_, rfl, ⟨s0.1, s0.2, s0.3, s0.4, s0.5⟩, ?_, rfl, st0⟩
    dsimp only
    rw [c0.limit, hxe]; simp
  · right
    refine ⟨by omega, ?_⟩
    have hlt : off (max m lo) < off hi := h.lt (by omega) hhn
    rw [if_neg (by rw [c0.limit]; omega)]
    obtain ⟨e, he, hkey, hval, hnext⟩ := h.load (by omega : max m lo < n) h2
    rw [he]
    dsimp only
    refine ⟨_, rfl, ⟨s0.1, s0.2, s0.3, s0.4, s0.5⟩, b0, rfl, st0, hkey, hval, rfl, hnext, r0⟩

/-- `Next`. -/
theorem next_stands (h : Rep ord b n K V off st) {lo hi : Nat} {i : BI} (c : Cut b n off st lo hi i) {p : At} (hp : Stands b K V off st lo hi i p) :
    Same i (BI.next b i).1 ∧ (BI.next b i).2 = (nextAt lo hi p).isOn ∧ Stands b K V off st lo hi (BI.next b i).1 (nextAt lo hi p) := by
  have hle := c.le
  have hhn := c.hn
  cases p with
  | past =>
    obtain ⟨hb, hd, hs⟩ := hp
    have : BI.next b i = (i, false) := by unfold BI.next; rw [if_pos (Or.inl hd)]
    rw [this]
    exact ⟨Same.refl i, rfl, hb, hd, hs⟩
  | before =>
    obtain ⟨hb, hd, hs⟩ := hp
    obtain ⟨m, hm, hmo, hmk, hmr⟩ : ∃ m, m ≤ lo ∧ i.offsetStart = off m ∧ KeyOk b n K st m i.key ∧
        (lo < hi → st i.riStart ≤ lo ∧ i.riStart < i.riLimit ∧ i.riLimit ≤ b.rlen) := by
      rcases c.ends with ⟨h1, h2, h3, h4, h5, h6⟩ | ⟨h1, h2, h3, h4, h5⟩
      · exact ⟨st i.riStart, h4, h3, Or.inr (Or.inr (Or.inl ⟨i.riStart, by omega, rfl⟩)), fun _ => ⟨h4, h1, h2⟩⟩
      · exact ⟨n, by omega, h5, Or.inl (le_refl _), by intro hh; omega⟩
    rcases next_core h c hb (by rw [hd]; decide) (fun _ => hs) (m := m) (by omega) (by rw [if_pos hd]; exact hmo) hmk with
      ⟨h1, i', h2, h3, h4⟩ | ⟨h1, i', h2, h3, h4, h5, h6, h7, h8, h9, h10, h11⟩
    · rw [h2]
      refine ⟨h3, ?_⟩
      unfold nextAt
      dsimp only
      rw [if_neg (by omega)]
      exact ⟨rfl, h4⟩
    · have he : max m lo = lo := by omega
      rw [he] at h1 h7 h8 h9 h10
      rw [h2]
      refine ⟨h3, ?_⟩
      unfold nextAt
      dsimp only
      rw [if_pos h1]
      obtain ⟨q1, q2, q3⟩ := hmr h1
      rw [if_pos hd] at h11
      refine ⟨rfl, h4, le_refl _, h1, h7, h8, h10, ?_, ?_, ?_, ?_, Or.inl ⟨h5, h9, h6⟩⟩
      · rw [h3.1, h11]
      · rw [h3.2, h11]; exact q2
      · rw [h3.2]; exact q3
      · rw [h11]; exact q1
  | on j =>
    obtain ⟨hb, h1, h2, h3, h4, h5, h6, h7, h8, h9, h10⟩ := hp
    have hd : i.dir ≠ .eoi ∧ i.dir ≠ .soi ∧ (i.dir ≠ .back → i.stack = none) := by
      rcases h10 with ⟨q1, q2, q3⟩ | ⟨q1, q2⟩
      · rw [q1]; exact ⟨by decide, by decide, fun _ => q3⟩
      · rw [q1]; exact ⟨by decide, by decide, fun hh => absurd rfl hh⟩
    have he : max (j + 1) lo = j + 1 := by omega
    rcases next_core h c hb hd.1 hd.2.2 (m := j + 1) (by omega) (by rw [if_neg hd.2.1]; exact h5)
      (Or.inr (Or.inr (Or.inr (by rw [h3]; rfl)))) with
      ⟨g1, i', g2, g3, g4⟩ | ⟨g1, i', g2, g3, g4, g5, g6, g7, g8, g9, g10, g11⟩
    · rw [g2]
      refine ⟨g3, ?_⟩
      unfold nextAt
      dsimp only
      rw [if_neg (by omega)]
      exact ⟨rfl, g4⟩
    · rw [he] at g1 g7 g8 g9 g10
      rw [g2]
      refine ⟨g3, ?_⟩
      unfold nextAt
      dsimp only
      rw [if_pos g1]
      rw [if_neg hd.2.1] at g11
      refine ⟨rfl, g4, by omega, g1, g7, g8, g10, ?_, ?_, ?_, ?_, Or.inl ⟨g5, g9, g6⟩⟩
      · rw [g3.1, g11]; exact h6
      · rw [g3.2, g11]; exact h7
      · rw [g3.2]; exact h8
      · rw [g11]; omega

end Verif.Tab
