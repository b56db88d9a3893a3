import Verif.Tab.BlockRep
import Verif.Tab.Spec

/-! # Blocks: what is written is read back, in any order of calls -/

namespace Verif.Tab
open Verif.Bytes Verif.Store

variable {O : Type} [LinearOrder O]
variable {ord : Bytes → O} {b : Block} {n : Nat} {K V : Nat → Bytes} {off st : Nat → Nat}

/-! ### Slices -/

theorem whole_cut (h : Rep ord b n K V off st) : Cut b n off st 0 n (BI.whole b) := by
  refine ⟨Nat.zero_le _, le_refl _, h.off0.symm, h.offn.symm, Or.inl ⟨h.rpos, le_refl _, ?_, ?_, ?_, ?_⟩⟩
  · show 0 = off (st 0); rw [h.st0, h.off0]
  · show st 0 ≤ 0; rw [h.st0]
  · intro r hr hrl
    have := h.st_lt (r := 0) (q := r) hr hrl
    omega
  · exact Nat.le_of_lt (h.stlt _ (by have := h.rpos; show b.rlen - 1 < _; omega))

/-- Ready for a search. -/
def Idle (i : BI) : Prop := i.bad = false ∧ (i.dir ≠ .back → i.stack = none)

theorem Stands.idle {lo hi : Nat} {i : BI} {p : At} (h : Stands b K V off st lo hi i p) : Idle i := by
  cases p with
  | before => exact ⟨h.1, fun _ => h.2.2⟩
  | past => exact ⟨h.1, fun _ => h.2.2⟩
  | on j =>
    refine ⟨h.1, ?_⟩
    rcases h.2.2.2.2.2.2.2.2.2.2 with ⟨_, _, h3⟩ | ⟨h1, _⟩
    · exact fun _ => h3
    · intro hh; exact absurd h1 hh

/-- The lower end. -/
theorem cutStart_spec (h : Rep ord b n K V off st) {i : BI} (c : Cut b n off st 0 n i) (hi : Idle i) (hl : i.riLimit = b.rlen) (k : Bytes) :
    ∃ lo, lo ≤ n ∧ (∀ q, q < lo → ord (K q) < ord k) ∧ (lo < n → ord k ≤ ord (K lo)) ∧
      Cut b n off st lo n (i.cutStart ord b k) ∧ Idle (i.cutStart ord b k) ∧ (i.cutStart ord b k).riLimit = b.rlen := by
  obtain ⟨p, p1, p2, p3, p4, p5⟩ := seek_stands h c hi.1 hi.2 k
  unfold BI.cutStart
  generalize hr : BI.seek ord b i k = r at p2 p3 p4 p5 ⊢
  dsimp only
  have hidle := Stands.idle p2
  cases p with
  | before => exact p1.elim
  | on j =>
    obtain ⟨q1, q2, q3, q4⟩ := p1
    obtain ⟨h1, h2, h3, h4, h5, h6, h7, h8, h9, h10, h11⟩ := p2
    rw [if_pos (p4.2 ⟨j, rfl⟩), (p5 j rfl).1]
    have hl' : r.1.riLimit = b.rlen := by rw [p3.2, hl]
    obtain ⟨g1, g2, g3, g4⟩ := h.restartIndex_spec (a := r.1.restartIndex) (c := b.rlen) (j := j) (by omega) (le_refl _) (by omega) h10
    refine ⟨j, by omega, fun q hq => q4 q (by omega) hq, fun _ => q3, ⟨by omega, le_refl _, rfl, ?_, Or.inl ⟨?_, ?_, ?_, g3, fun r' hr' hr'l => g4 r' hr' hr'l, ?_⟩⟩, hidle, hl'⟩
    · show r.1.offsetLimit = _; rw [p3.5]; exact c.limit
    · show _ < r.1.riLimit; rw [hl']; exact g2
    · show r.1.riLimit ≤ _; rw [hl']
    · show b.restart _ = _; rw [h.restart _ g2]
    · show st (r.1.riLimit - 1) ≤ n
      rw [hl']; exact Nat.le_of_lt (h.stlt _ (by have := h.rpos; omega))
  | past =>
    rw [if_neg (by rw [p4]; rintro ⟨j, hj⟩; cases hj)]
    have hl' : r.1.riLimit = b.rlen := by rw [p3.2, hl]
    refine ⟨n, le_refl _, fun q hq => p1 q (by omega) hq, by intro hh; omega, ⟨le_refl _, le_refl _, h.offn.symm, ?_, Or.inr ⟨rfl, rfl, rfl, hl', h.offn.symm⟩⟩, hidle, hl'⟩
    show r.1.offsetLimit = _; rw [p3.5]; exact c.limit

/-- After a step forward the iterator faces forward. -/
theorem next_fwd {i : BI} (h : (BI.next b i).2 = true) : (BI.next b i).1.dir = .fwd := by
  unfold BI.next at h ⊢
  split
  · rename_i hc; rw [if_pos hc] at h; cases h
  · rename_i hc
    rw [if_neg hc] at h
    cases hsk : BI.skip b b.fuel i.enter with
    | fail i' => rw [hsk] at h; cases h
    | go i' =>
      rw [hsk] at h
      dsimp only at h ⊢
      split
      · rename_i hc2; rw [if_pos hc2] at h; cases h
      · rename_i hc2
        rw [if_neg hc2] at h
        cases he : b.entry i'.offset with
        | bad => rw [he] at h; cases h
        | stop => rw [he] at h; cases h
        | ent e => rfl

/-- The upper end: before the first entry that is not smaller, or after it. -/
theorem cutLimit_spec (h : Rep ord b n K V off st) {lo : Nat} {i : BI} (c : Cut b n off st lo n i) (hi : Idle i) (k : Bytes) (incl : Bool) :
    ∃ m hi, lo ≤ m ∧ m ≤ n ∧ (∀ q, lo ≤ q → q < m → ord (K q) < ord k) ∧ (m < n → ord k ≤ ord (K m)) ∧
      hi = (if incl then min (m + 1) n else m) ∧
      Cut b n off st lo hi (i.cutLimit ord b k incl) ∧ Idle (i.cutLimit ord b k incl) := by
  have hle := c.le
  obtain ⟨p, p1, p2, p3, p4, p5⟩ := seek_stands h c hi.1 hi.2 k
  unfold BI.cutLimit
  generalize hr : BI.seek ord b i k = r at p2 p3 p4 p5 ⊢
  dsimp only
  have hidle := Stands.idle p2
  have c' := c.same p3
  cases p with
  | before => exact p1.elim
  | past =>
    rw [if_neg (by rw [p4]; rintro ⟨j, hj⟩; cases hj)]
    refine ⟨n, n, by omega, le_refl _, p1, by intro hh; omega, ?_, c', hidle⟩
    cases incl
    · rfl
    · show n = min (n + 1) n; omega
  | on j =>
    obtain ⟨q1, q2, q3, q4⟩ := p1
    rw [if_pos (p4.2 ⟨j, rfl⟩)]
    cases incl with
    | false =>
      obtain ⟨h1, h2, h3, h4, h5, h6, h7, h8, h9, h10, h11⟩ := p2
      refine ⟨j, j, q1, by omega, q4, fun _ => q3, rfl, ?_, hidle⟩
      simp only [Bool.false_eq_true, if_false]
      refine ⟨q1, by omega, c'.real, (p5 j rfl).1, Or.inl ?_⟩
      rcases c'.ends with ⟨g1, g2, g3, g4, g5, g6⟩ | ⟨g1, g2, _⟩
      · refine ⟨?_, ?_, g3, g4, g5, ?_⟩
        · show r.1.riStart < r.1.restartIndex + 1; omega
        · show r.1.restartIndex + 1 ≤ b.rlen; omega
        · show st (r.1.restartIndex + 1 - 1) ≤ j; rw [Nat.add_sub_cancel]; exact h10
      · omega
    | true =>
      simp only [if_true]
      obtain ⟨n1, n2, n3⟩ := next_stands h c' p2
      have hidle2 := Stands.idle n3
      have hfw := next_fwd (b := b) (i := r.1)
      generalize hr' : BI.next b r.1 = r' at n1 n2 n3 hidle2 hfw ⊢
      have hen : nextAt lo n (At.on j) = if j + 1 < n then At.on (j + 1) else .past := rfl
      by_cases hjn : j + 1 < n
      · rw [hen, if_pos hjn] at n2 n3
        obtain ⟨h1, h2, h3, h4, h5, h6, h7, h8, h9, h10, h11⟩ := n3
        have hd := hfw n2
        have hpo : r'.1.prevOffset = off (j + 1) := by
          rcases h11 with ⟨_, g, _⟩ | ⟨g, _⟩
          · exact g
          · rw [g] at hd; cases hd
        rw [if_pos (show r'.2 = true from n2)]
        refine ⟨j, j + 1, q1, by omega, q4, fun _ => q3, by omega, ?_, hidle2⟩
        have c2 := c'.same n1
        refine ⟨by omega, by omega, c2.real, hpo, Or.inl ?_⟩
        rcases c2.ends with ⟨g1, g2, g3, g4, g5, g6⟩ | ⟨g1, g2, _⟩
        · refine ⟨?_, ?_, g3, g4, g5, ?_⟩
          · show r'.1.riStart < r'.1.restartIndex + 1; omega
          · show r'.1.restartIndex + 1 ≤ b.rlen; omega
          · show st (r'.1.restartIndex + 1 - 1) ≤ j + 1; rw [Nat.add_sub_cancel]; exact h10
        · omega
      · rw [hen, if_neg hjn] at n2 n3
        rw [if_neg (show ¬ r'.2 = true by rw [n2]; simp [At.isOn])]
        exact ⟨j, n, q1, by omega, q4, fun _ => q3, by omega, c'.same n1, hidle2⟩

/-- A new iterator with a slice stands before the entries of the slice. -/
theorem slice_spec (h : Rep ord b n K V off st) (start limit : Option Bytes) (incl : Bool) :
    ∃ lo m hi, lo ≤ m ∧ m ≤ n ∧ (∀ s, start = some s → (∀ q, q < lo → ord (K q) < ord s) ∧ (lo < n → ord s ≤ ord (K lo))) ∧
      (start = none → lo = 0) ∧
      (∀ l, limit = some l → (∀ q, lo ≤ q → q < m → ord (K q) < ord l) ∧ (m < n → ord l ≤ ord (K m))) ∧ (limit = none → m = n) ∧
      hi = (if incl then min (m + 1) n else m) ∧
      Cut b n off st lo hi (BI.slice ord b start limit incl) ∧ Stands b K V off st lo hi (BI.slice ord b start limit incl) .before := by
  have hw := whole_cut h
  have hwi : Idle (BI.whole b) := ⟨rfl, fun _ => rfl⟩
  obtain ⟨lo, i1, e1, hlo, a1, a2, c1, d1⟩ : ∃ lo i1, (BI.whole b).cutStart? ord b start = i1 ∧ lo ≤ n ∧
      (∀ s, start = some s → (∀ q, q < lo → ord (K q) < ord s) ∧ (lo < n → ord s ≤ ord (K lo))) ∧ (start = none → lo = 0) ∧
      Cut b n off st lo n i1 ∧ Idle i1 := by
    cases start with
    | none => exact ⟨0, _, rfl, Nat.zero_le _, (by intro s hs; cases hs), fun _ => rfl, hw, hwi⟩
    | some s =>
      obtain ⟨lo, g1, g2, g3, g4, g5, _⟩ := cutStart_spec h hw hwi rfl s
      exact ⟨lo, _, rfl, g1, (by intro s' hs'; injection hs' with hs'; subst hs'; exact ⟨g2, g3⟩), (by intro hh; cases hh), g4, g5⟩
  obtain ⟨m, hi, i2, e2, hm1, hm2, b1, b2, b3, c2, d2⟩ : ∃ m hi i2, i1.cutLimit? ord b incl limit = i2 ∧ lo ≤ m ∧ m ≤ n ∧
      (∀ l, limit = some l → (∀ q, lo ≤ q → q < m → ord (K q) < ord l) ∧ (m < n → ord l ≤ ord (K m))) ∧ (limit = none → m = n) ∧
      hi = (if incl then min (m + 1) n else m) ∧ Cut b n off st lo hi i2 ∧ Idle i2 := by
    cases limit with
    | none => exact ⟨n, n, _, rfl, hlo, le_refl _, (by intro s hs; cases hs), fun _ => rfl, (by cases incl <;> simp), c1, d1⟩
    | some l =>
      obtain ⟨m, hi, g1, g2, g3, g4, g5, g6, g7⟩ := cutLimit_spec h c1 d1 l incl
      exact ⟨m, hi, _, rfl, g1, g2, (by intro s' hs'; injection hs' with hs'; subst hs'; exact ⟨g3, g4⟩), (by intro hh; cases hh), g5, g6, g7⟩
  refine ⟨lo, m, hi, hm1, hm2, a1, a2, b1, b2, b3, ?_⟩
  have hoff : ¬ i2.offsetLimit < i2.offsetStart := by
    rw [c2.limit]
    have h1 := c2.le
    have h2 := c2.hn
    rcases c2.ends with ⟨g1, g2, g3, g4, g5, g6⟩ | ⟨g1, g2, _, _, g5⟩
    · rw [g3]
      rcases Nat.lt_or_ge (st i2.riStart) hi with q | q
      · have := h.lt q h2; omega
      · have : st i2.riStart = hi := by omega
        rw [this]; omega
    · rw [g5, g2]; omega
  unfold BI.slice
  rw [e1, e2]
  unfold BI.checked BI.reset
  refine ⟨c2.same ⟨rfl, rfl, rfl, rfl, rfl⟩, ?_, rfl, ?_⟩
  · show (i2.bad || decide (i2.offsetLimit < i2.offsetStart)) = false
    rw [d2.1, decide_eq_false hoff]; rfl
  · show (if i2.dir = .back then none else i2.stack) = none
    by_cases hd : i2.dir = .back
    · rw [if_pos hd]
    · rw [if_neg hd]; exact d2.2 hd

/-! ### The iterator is a cursor -/

/-- The entries from one index up to another. -/
def part (es : List (Bytes × Bytes)) (lo hi : Nat) : List (Bytes × Bytes) := (es.drop lo).take (hi - lo)

/-- An index and a place in the slice. -/
def Place.at (lo : Nat) : Place → At
  | .before => .before
  | .on j => .on (lo + j)
  | .past => .past

theorem part_length {es : List (Bytes × Bytes)} {lo hi : Nat} (h1 : lo ≤ hi) (h2 : hi ≤ es.length) : (part es lo hi).length = hi - lo := by
  unfold part; rw [List.length_take, List.length_drop]; omega

theorem part_get {es : List (Bytes × Bytes)} {lo hi j : Nat} (h2 : hi ≤ es.length) (hj : lo + j < hi) :
    (part es lo hi)[j]? = some (keyOf es (lo + j), valOf es (lo + j)) := by
  unfold part keyOf valOf
  rw [List.getElem?_take, if_pos (by omega), List.getElem?_drop, List.getD_eq_getElem?_getD, List.getElem?_eq_getElem (by omega : lo + j < es.length)]
  rfl

theorem ask_stands {es : List (Bytes × Bytes)} (h : Rep ord b es.length (keyOf es) (valOf es) off st) {lo hi : Nat} {i : BI}
    (c : Cut b es.length off st lo hi i) {p : Place} (hp : Stands b (keyOf es) (valOf es) off st lo hi i (p.at lo)) (a : Ask) :
    Same i (i.ask ord b a).1 ∧ (i.ask ord b a).2 = ((goes ord (part es lo hi) p a).at lo).isOn ∧
      Stands b (keyOf es) (valOf es) off st lo hi (i.ask ord b a).1 ((goes ord (part es lo hi) p a).at lo) := by
  have hle := c.le
  have hhn := c.hn
  have hlen := part_length hle hhn
  have hnil : part es lo hi = [] ↔ ¬ lo < hi := by rw [← List.length_eq_zero_iff, hlen]; omega
  have hidle := Stands.idle hp
  have hnext0 : nextAt lo hi .before = ((if part es lo hi = [] then Place.past else .on 0).at lo) := by
    by_cases hlt : lo < hi
    · rw [if_neg (by rw [hnil]; simpa using hlt)]
      show (if lo < hi then _ else _) = _
      rw [if_pos hlt]; rfl
    · rw [if_pos (hnil.2 hlt)]
      show (if lo < hi then _ else _) = _
      rw [if_neg hlt]; rfl
  have hprev0 : prevAt lo hi .past = ((if part es lo hi = [] then Place.before else .on ((part es lo hi).length - 1)).at lo) := by
    by_cases hlt : lo < hi
    · rw [if_neg (by rw [hnil]; simpa using hlt), hlen]
      show (if lo < hi then _ else _) = _
      rw [if_pos hlt]
      show At.on (hi - 1) = At.on (lo + (hi - lo - 1))
      congr 1; omega
    · rw [if_pos (hnil.2 hlt)]
      show (if lo < hi then _ else _) = _
      rw [if_neg hlt]; rfl
  cases a with
  | first =>
    have hb : BI.ask ord b i .first = BI.next b { i with stack := if i.dir = .back then none else i.stack, dir := .soi } := by
      show BI.first b i = _
      unfold BI.first
      rw [if_neg (by rw [hidle.1]; simp)]
    rw [hb]
    have hs : (if i.dir = .back then none else i.stack) = none := by
      by_cases hd : i.dir = .back
      · rw [if_pos hd]
      · rw [if_neg hd]; exact hidle.2 hd
    obtain ⟨g1, g2, g3⟩ := next_stands h (i := { i with stack := if i.dir = .back then none else i.stack, dir := .soi })
      (c.same ⟨rfl, rfl, rfl, rfl, rfl⟩) (p := .before) ⟨hidle.1, rfl, hs⟩
    rw [hnext0] at g2 g3
    exact ⟨⟨g1.1, g1.2, g1.3, g1.4, g1.5⟩, g2, g3⟩
  | last =>
    have hb : BI.ask ord b i .last = BI.prev b { i with stack := if i.dir = .back then none else i.stack, dir := .eoi } := by
      show BI.last b i = _
      unfold BI.last
      rw [if_neg (by rw [hidle.1]; simp)]
    rw [hb]
    have hs : (if i.dir = .back then none else i.stack) = none := by
      by_cases hd : i.dir = .back
      · rw [if_pos hd]
      · rw [if_neg hd]; exact hidle.2 hd
    obtain ⟨g1, g2, g3⟩ := prev_stands h (i := { i with stack := if i.dir = .back then none else i.stack, dir := .eoi })
      (c.same ⟨rfl, rfl, rfl, rfl, rfl⟩) (p := .past) ⟨hidle.1, rfl, hs⟩
    rw [hprev0] at g2 g3
    exact ⟨⟨g1.1, g1.2, g1.3, g1.4, g1.5⟩, g2, g3⟩
  | next =>
    obtain ⟨g1, g2, g3⟩ := next_stands h c hp
    have he : nextAt lo hi (p.at lo) = (goes ord (part es lo hi) p .next).at lo := by
      cases p with
      | before => exact hnext0
      | past => rfl
      | on j =>
        show (if lo + j + 1 < hi then At.on (lo + j + 1) else .past) = (if j + 1 < (part es lo hi).length then Place.on (j + 1) else .past).at lo
        rw [hlen]
        by_cases hj : lo + j + 1 < hi
        · rw [if_pos hj, if_pos (by omega)]; rfl
        · rw [if_neg hj, if_neg (by omega)]; rfl
    rw [he] at g2 g3
    exact ⟨g1, g2, g3⟩
  | prev =>
    obtain ⟨g1, g2, g3⟩ := prev_stands h c hp
    have he : prevAt lo hi (p.at lo) = (goes ord (part es lo hi) p .prev).at lo := by
      cases p with
      | before => rfl
      | past => exact hprev0
      | on j =>
        show (if lo < lo + j then At.on (lo + j - 1) else .before) = (if 0 < j then Place.on (j - 1) else .before).at lo
        by_cases hj : 0 < j
        · rw [if_pos (by omega), if_pos hj]
          show At.on _ = At.on _
          congr 1; omega
        · rw [if_neg (by omega), if_neg hj]; rfl
    rw [he] at g2 g3
    exact ⟨g1, g2, g3⟩
  | seek k =>
    obtain ⟨q, q1, q2, q3, q4, q5⟩ := seek_stands h c hidle.1 hidle.2 k
    have he : q = (goes ord (part es lo hi) p (.seek k)).at lo := by
      show q = Place.at lo (match (part es lo hi).findIdx? (fun e => decide (ord k ≤ ord e.1)) with | some j => Place.on j | none => .past)
      have hg : ∀ j (hj : lo + j < hi), ∃ hj' : j < (part es lo hi).length, (part es lo hi)[j] = (keyOf es (lo + j), valOf es (lo + j)) := by
        intro j hj
        have hj' : j < (part es lo hi).length := by rw [hlen]; omega
        refine ⟨hj', ?_⟩
        have := part_get hhn hj
        rw [List.getElem?_eq_getElem hj'] at this
        exact Option.some.inj this
      cases q with
      | before => exact q1.elim
      | past =>
        have : (part es lo hi).findIdx? (fun e => decide (ord k ≤ ord e.1)) = none := by
          rw [List.findIdx?_eq_none_iff]
          intro e hemem
          obtain ⟨j, hj, rfl⟩ := List.getElem_of_mem hemem
          obtain ⟨_, hj2⟩ := hg j (by rw [hlen] at hj; omega)
          rw [hj2]
          have := q1 (lo + j) (by omega) (by rw [hlen] at hj; omega)
          exact decide_eq_false (not_le.2 this)
        rw [this]; rfl
      | on m =>
        obtain ⟨r1, r2, r3, r4⟩ := q1
        have hm : lo + (m - lo) = m := by omega
        have : (part es lo hi).findIdx? (fun e => decide (ord k ≤ ord e.1)) = some (m - lo) := by
          rw [List.findIdx?_eq_some_iff_getElem]
          obtain ⟨hj', hj2⟩ := hg (m - lo) (by omega)
          refine ⟨hj', ?_, ?_⟩
          · rw [hj2, hm]; exact decide_eq_true r3
          · intro j hj
            obtain ⟨_, hj2⟩ := hg j (by omega)
            rw [hj2]
            simp only [decide_eq_true_eq, not_le]
            exact r4 (lo + j) (by omega) (by omega)
        rw [this]
        show At.on m = At.on (lo + (m - lo))
        rw [hm]
    rw [← he]
    refine ⟨q3, ?_, q2⟩
    cases hq : q with
    | before => rw [hq] at q1; exact q1.elim
    | past =>
      rw [hq] at q4
      show _ = false
      rw [← Bool.not_eq_true]
      intro hh
      obtain ⟨j, hj⟩ := q4.1 hh
      cases hj
    | on j => exact q4.2 ⟨j, hq⟩

theorem stands_sees {es : List (Bytes × Bytes)} {lo hi : Nat} {i : BI} (hhn : hi ≤ es.length) {p : Place}
    (hp : Stands b (keyOf es) (valOf es) off st lo hi i (p.at lo)) :
    (i.bad, (p.at lo).isOn, i.shows) = sees (part es lo hi) p := by
  have hb := (Stands.idle hp).1
  unfold BI.shows
  cases p with
  | before =>
    obtain ⟨_, h2, _⟩ := hp
    rw [if_pos (Or.inr (Or.inl h2)), hb]; rfl
  | past =>
    obtain ⟨_, h2, _⟩ := hp
    rw [if_pos (Or.inr (Or.inr h2)), hb]; rfl
  | on j =>
    obtain ⟨h1, h2, h3, h4, h5, h6, h7, h8, h9, h10, h11⟩ := hp
    have hd : ¬ (i.bad = true ∨ i.dir = .soi ∨ i.dir = .eoi) := by
      rcases h11 with ⟨g, _, _⟩ | ⟨g, _⟩ <;> rw [g, hb] <;> simp
    rw [if_neg hd, hb, h4, h5]
    show (false, true, _) = (false, true, (part es lo hi)[j]?)
    rw [part_get hhn h3]

theorem asks_eq {es : List (Bytes × Bytes)} (h : Rep ord b es.length (keyOf es) (valOf es) off st) {lo hi : Nat} :
    ∀ (as : List Ask) {i : BI} (_ : Cut b es.length off st lo hi i) {p : Place} (_ : Stands b (keyOf es) (valOf es) off st lo hi i (p.at lo)),
      BI.asks ord b i as = cursor ord (part es lo hi) p as := by
  intro as
  induction as with
  | nil => intro i c p hp; rfl
  | cons a as ih =>
    intro i c p hp
    obtain ⟨g1, g2, g3⟩ := ask_stands h c hp a
    have := stands_sees c.hn g3
    unfold BI.asks cursor
    rw [g2, this, ih (c.same g1) g3]

/-- In a sorted list, the entries between two keys are a part of it. -/
theorem part_between {es : List (Bytes × Bytes)} (hs : es.Pairwise (fun x y => ord x.1 < ord y.1)) (start limit : Option Bytes) {lo m : Nat}
    (h1 : lo ≤ m) (h2 : m ≤ es.length)
    (h3 : ∀ s, start = some s → (∀ q, q < lo → ord (keyOf es q) < ord s) ∧ (lo < es.length → ord s ≤ ord (keyOf es lo))) (h4 : start = none → lo = 0)
    (h5 : ∀ l, limit = some l → (∀ q, lo ≤ q → q < m → ord (keyOf es q) < ord l) ∧ (m < es.length → ord l ≤ ord (keyOf es m)))
    (h6 : limit = none → m = es.length) : part es lo m = between ord start limit es := by
  have hmono : ∀ i j, i ≤ j → j < es.length → ord (keyOf es i) ≤ ord (keyOf es j) := by
    intro i j hij hj
    rcases Nat.lt_or_ge i j with h | h
    · have := List.pairwise_iff_getElem.1 hs i j (by omega) hj h
      unfold keyOf
      rw [List.getD_eq_getElem?_getD, List.getD_eq_getElem?_getD, List.getElem?_eq_getElem hj, List.getElem?_eq_getElem (by omega : i < _)]
      exact le_of_lt this
    · have : i = j := by omega
      rw [this]
  have hkey : ∀ j (hj : j < es.length), es[j].1 = keyOf es j := by
    intro j hj; unfold keyOf; rw [List.getD_eq_getElem?_getD, List.getElem?_eq_getElem hj]; rfl
  have hsplit : es = es.take lo ++ (part es lo m ++ es.drop m) := by
    unfold part
    have : es.drop m = (es.drop lo).drop (m - lo) := by rw [List.drop_drop]; congr 1; omega
    rw [this, List.take_append_drop, List.take_append_drop]
  unfold between
  conv_rhs => rw [hsplit]
  rw [List.filter_append, List.filter_append]
  have f1 : (es.take lo).filter (fun e => fromKey ord start e && toKey ord limit e) = [] := by
    rw [List.filter_eq_nil_iff]
    intro e he
    obtain ⟨j, hj, rfl⟩ := List.getElem_of_mem he
    rw [List.length_take] at hj
    cases start with
    | none => have := h4 rfl; omega
    | some s =>
      have := (h3 s rfl).1 j (by omega)
      rw [List.getElem_take]
      rw [← hkey j (by omega)] at this
      simp [fromKey, not_le.2 this]
  have f2 : (es.drop m).filter (fun e => fromKey ord start e && toKey ord limit e) = [] := by
    rw [List.filter_eq_nil_iff]
    intro e he
    obtain ⟨j, hj, rfl⟩ := List.getElem_of_mem he
    rw [List.length_drop] at hj
    cases limit with
    | none => have := h6 rfl; omega
    | some l =>
      have h7 := (h5 l rfl).2 (by omega)
      have h8 := hmono m (m + j) (by omega) (by omega)
      rw [List.getElem_drop]
      rw [← hkey (m + j) (by omega)] at h8
      simp [toKey, le_trans h7 h8]
  have f3 : (part es lo m).filter (fun e => fromKey ord start e && toKey ord limit e) = part es lo m := by
    rw [List.filter_eq_self]
    intro e he
    obtain ⟨j, hj, rfl⟩ := List.getElem_of_mem he
    rw [part_length h1 h2] at hj
    have hg := part_get (j := j) h2 (by omega : lo + j < m)
    rw [List.getElem?_eq_getElem (by rw [part_length h1 h2]; exact hj)] at hg
    rw [Option.some.inj hg]
    rw [Bool.and_eq_true]
    constructor
    · cases start with
      | none => rfl
      | some s =>
        have := (h3 s rfl).2 (by omega)
        exact decide_eq_true (le_trans this (hmono lo (lo + j) (by omega) (by omega)))
    · cases limit with
      | none => rfl
      | some l => exact decide_eq_true ((h5 l rfl).1 (lo + j) (by omega) (by omega))
  rw [f1, f2, f3, List.append_nil, List.nil_append]

/-- **An iterator over a block is a cursor over the entries written, within its range**, whatever is
asked of it and in whatever order; and it reports no error. -/
theorem block_iterator_is_cursor {I : Nat} {es : List (Bytes × Bytes)} (hI : 0 < I) (hne : es ≠ [])
    (hs : es.Pairwise (fun x y => ord x.1 < ord y.1)) (hsz : (blockBytes I es).length < 2 ^ 32) (start limit : Option Bytes) (as : List Ask) :
    BI.asks ord (Block.ofBytes (blockBytes I es)) (BI.slice ord (Block.ofBytes (blockBytes I es)) start limit false) as =
      cursor ord (between ord start limit es) .before as := by
  have h := rep_of_writer (ord := ord) hI hne hs hsz
  obtain ⟨lo, m, hi, g1, g2, g3, g4, g5, g6, g7, g8, g9⟩ := slice_spec h start limit false
  rw [if_neg (by simp)] at g7
  subst g7
  rw [asks_eq h as g8 (p := .before) g9, part_between hs start limit g1 g2 g3 g4 g5 g6]

end Verif.Tab
