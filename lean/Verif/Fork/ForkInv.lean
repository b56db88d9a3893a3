import Verif.Fork.ForkSpec

/-! What holds of every tree, and what reading a branch then gives. -/

namespace Verif.Fork

/-- The hash a branch has at a height of its own, its tail included. -/
def Br.hashAt (b : Br) (h : Nat) : Nat := if h = b.tail then b.tailHash else ((b.knots h).map (·.hash)).getD 0

/-- The blocks of a branch are a linked list from above its tail to its head. -/
structure BrOk (K : Knot → Prop) (b : Br) : Prop where
  le : b.tail ≤ b.head
  out : ∀ h, (h ≤ b.tail ∨ b.head < h) → b.knots h = none
  mem : ∀ h, b.tail ≤ h → h < b.head →
    ∃ k, b.knots (h + 1) = some k ∧ k.height = h + 1 ∧ K k ∧ k.prev = b.hashAt h
  last : b.headHash = b.hashAt b.head

/-- Where the tail of a branch is anchored: in a block of its root, or, if the root is the main branch, on disk; while
roots are exchanged also at the tail of the branch `s`. -/
def Holds (t : Tree) (s r h x : Nat) : Prop :=
  (∃ k, (t.br r).knots h = some k ∧ k.hash = x) ∨
  (r = t.main ∧ h ≤ (t.br t.main).tail ∧ ∃ k, t.disk[h]? = some k ∧ k.hash = x) ∨
  (r = s ∧ h = (t.br s).tail ∧ x = (t.br s).tailHash)

structure Inv (K : Knot → Prop) (t : Tree) (s : Nat) : Prop where
  disk : DiskOk K t.disk
  ok : ∀ i ∈ t.live, BrOk K (t.br i)
  main_live : t.main ∈ t.live
  main_root : (t.br t.main).root = none
  size : t.disk.length = (t.br t.main).tail + 1
  top : ∃ k, t.disk[(t.br t.main).tail]? = some k ∧ k.hash = (t.br t.main).tailHash
  anchored : ∀ i ∈ t.live, i ≠ t.main → ∃ r ∈ t.live, (t.br i).root = some r ∧
    Holds t s r (t.br i).tail (t.br i).tailHash
  kids : ∀ p c, (p, c) ∈ t.kids ↔ c ∈ t.live ∧ (t.br c).root = some p
  rank : ∃ rank : Nat → Nat, ∀ i ∈ t.live, ∀ r, (t.br i).root = some r → rank r < rank i
  nodup : t.live.Nodup
  ids : ∀ i ∈ t.live, i < t.next

variable {K : Knot → Prop}

theorem BrOk.get {b : Br} (ok : BrOk K b) {h : Nat} (h1 : b.tail < h) (h2 : h ≤ b.head) :
    ∃ k, b.knots h = some k ∧ k.height = h ∧ K k ∧ k.prev = b.hashAt (h - 1) ∧ k.hash = b.hashAt h := by
  obtain ⟨k, e, e1, e2, e3⟩ := ok.mem (h - 1) (by omega) (by omega)
  rw [show h - 1 + 1 = h by omega] at e e1
  refine ⟨k, e, e1, e2, e3, ?_⟩
  simp [Br.hashAt, e, show h ≠ b.tail by omega]

theorem BrOk.range {b : Br} (ok : BrOk K b) {h : Nat} {k : Knot} (e : b.knots h = some k) : b.tail < h ∧ h ≤ b.head := by
  by_cases g : h ≤ b.tail ∨ b.head < h
  · rw [ok.out h g] at e; exact absurd e (by simp)
  · omega

theorem BrOk.isSome {b : Br} (ok : BrOk K b) {h : Nat} : b.knots h ≠ none ↔ b.tail < h ∧ h ≤ b.head := by
  constructor
  · intro g
    cases e : b.knots h with
    | none => exact absurd e g
    | some k => exact ok.range e
  · rintro ⟨g1, g2⟩ e
    obtain ⟨k, e', -⟩ := ok.get g1 g2
    rw [e] at e'; exact absurd e' (by simp)

theorem BrOk.has_iff {b : Br} (ok : BrOk K b) (h x : Nat) : b.has h x = true ↔ ∃ k, b.knots h = some k ∧ k.hash = x := by
  unfold Br.has
  simp only [Bool.and_eq_true, decide_eq_true_eq, Option.any_eq_true]
  constructor
  · rintro ⟨-, k, e, e'⟩; exact ⟨k, e, e'⟩
  · rintro ⟨k, e, e'⟩
    exact ⟨ok.range e, k, e, e'⟩

/-- The branches above `i`, one after the other. -/
inductive Up (t : Tree) : Nat → List Nat → Prop
  | top {i : Nat} : (t.br i).root = none → Up t i []
  | up {i r : Nat} {l : List Nat} : (t.br i).root = some r → r ∈ t.live → Up t r l → Up t i (r :: l)

theorem Inv.root_live {t : Tree} {s : Nat} (inv : Inv K t s) {i r : Nat} (hi : i ∈ t.live) (e : (t.br i).root = some r) :
    r ∈ t.live ∧ Holds t s r (t.br i).tail (t.br i).tailHash ∧ i ≠ t.main := by
  have ne : i ≠ t.main := by rintro rfl; rw [inv.main_root] at e; exact absurd e (by simp)
  obtain ⟨r', hr', e', hh⟩ := inv.anchored i hi ne
  rw [e] at e'
  obtain rfl : r = r' := by simpa using e'
  exact ⟨hr', hh, ne⟩

theorem Inv.root_none {t : Tree} {s : Nat} (inv : Inv K t s) {i : Nat} (hi : i ∈ t.live) (e : (t.br i).root = none) :
    i = t.main := by
  by_contra ne
  obtain ⟨r', -, e', -⟩ := inv.anchored i hi ne
  rw [e] at e'; exact absurd e' (by simp)

theorem Inv.up {t : Tree} {s : Nat} (inv : Inv K t s) : ∀ i ∈ t.live, ∃ l, Up t i l ∧ l.length < t.next := by
  obtain ⟨rank, hr⟩ := inv.rank
  have key : ∀ n, ∀ i ∈ t.live, rank i < n → ∃ l, Up t i l ∧ (∀ x ∈ l, x ∈ t.live ∧ rank x < rank i) ∧ l.Nodup := by
    intro n
    induction n with
    | zero => intro i _ h; omega
    | succ n ih =>
      intro i hi hn
      cases e : (t.br i).root with
      | none => exact ⟨[], Up.top e, by simp, by simp⟩
      | some r =>
        obtain ⟨hl, -, -⟩ := inv.root_live hi e
        have := hr i hi r e
        obtain ⟨l, u, m, nd⟩ := ih r hl (by omega)
        refine ⟨r :: l, Up.up e hl u, ?_, ?_⟩
        · intro x hx
          rcases List.mem_cons.mp hx with rfl | hx
          · exact ⟨hl, this⟩
          · exact ⟨(m x hx).1, by have := (m x hx).2; omega⟩
        · refine List.nodup_cons.mpr ⟨fun hx => ?_, nd⟩
          have := (m r hx).2; omega
  intro i hi
  obtain ⟨l, u, m, nd⟩ := key (rank i + 1) i hi (by omega)
  refine ⟨l, u, ?_⟩
  have hnd : (i :: l).Nodup := List.nodup_cons.mpr ⟨fun hx => by have := (m i hx).2; omega, nd⟩
  have hs : (i :: l) ⊆ List.range t.next := by
    intro x hx
    rcases List.mem_cons.mp hx with rfl | hx
    · exact List.mem_range.mpr (inv.ids _ hi)
    · exact List.mem_range.mpr (inv.ids _ (m x hx).1)
  have := (List.subperm_of_subset hnd hs).length_le
  simp only [List.length_cons, List.length_range] at this
  omega

/-- What the loop over the roots finds. -/
structure Found (K : Knot → Prop) (t : Tree) (b : Br) (f : Nat) (h : Nat) (k : Knot) : Prop where
  read : ∃ w, t.walk f b.root h = some (k, w)
  height : k.height = h
  known : K k
  tail : h = b.tail → k.hash = b.tailHash
  link : ∀ k' w, h < b.tail → t.walk f b.root (h + 1) = some (k', w) → k'.prev = k.hash

theorem Inv.found {t : Tree} {s : Nat} (inv : Inv K t s) {i : Nat} {l : List Nat} (u : Up t i l) (hi : i ∈ t.live) :
    ∀ f, l.length ≤ f → ∀ h, h ≤ (t.br i).tail → ∃ k, Found K t (t.br i) f h k := by
  induction u with
  | @top i e =>
    intro f _ h hh
    obtain rfl := inv.root_none hi e
    have hlt : h < t.disk.length := by have := inv.size; omega
    have eg := List.getElem?_eq_getElem hlt
    have ⟨h1, h2⟩ := inv.disk.ok h _ eg
    refine ⟨t.disk[h], ⟨none, ?_⟩, h1, h2, ?_, ?_⟩
    · rw [e]; cases f <;> simp [Tree.walk, eg]
    · intro eh
      obtain ⟨k, ek, ek'⟩ := inv.top
      rw [← eh, eg] at ek
      obtain rfl : t.disk[h] = k := by simpa using ek
      exact ek'
    · intro k' w _ e'
      rw [e] at e'
      have : t.disk[h + 1]? = some k' := by cases f <;> (simp [Tree.walk] at e'; obtain ⟨e', -⟩ := e'; simpa using e')
      exact inv.disk.link h _ _ eg this
  | @up i r l e hr u ih =>
    intro f hf h hh
    obtain ⟨f, rfl⟩ : ∃ g, f = g + 1 := ⟨f - 1, by simp at hf; omega⟩
    simp only [List.length_cons, Nat.add_le_add_iff_right] at hf
    obtain ⟨-, hold, -⟩ := inv.root_live hi e
    have okr := inv.ok r hr
    -- what is read at a height, from the root on
    have stepLow : ∀ h, h ≤ (t.br r).tail → t.walk (f + 1) (t.br i).root h = t.walk f (t.br r).root h := by
      intro h g
      rw [e]; simp only [Tree.walk, okr.out h (Or.inl g)]
    have stepHigh : ∀ h k, (t.br r).knots h = some k → t.walk (f + 1) (t.br i).root h = some (k, some r) := by
      intro h k g
      rw [e]; simp only [Tree.walk, g]
    have ih := ih hr f hf
    -- the tail is not above the head of the root
    have hle : (t.br i).tail ≤ (t.br r).head := by
      rcases hold with ⟨k, e1, -⟩ | ⟨rfl, e1, -⟩ | ⟨rfl, e1, -⟩
      · exact (okr.range e1).2
      · have := okr.le; omega
      · have := okr.le; omega
    by_cases g : h ≤ (t.br r).tail
    · obtain ⟨k, F⟩ := ih h g
      refine ⟨k, ?_, F.height, F.known, ?_, ?_⟩
      · obtain ⟨w, e1⟩ := F.read
        exact ⟨w, by rw [stepLow h g]; exact e1⟩
      · intro eh
        rcases hold with ⟨k1, e1, -⟩ | ⟨rfl, e1, k1, e2, e3⟩ | ⟨rfl, e1, e2⟩
        · have := (okr.range e1).1; omega
        · obtain ⟨w, e4⟩ := F.read
          rw [inv.main_root] at e4
          have : t.disk[h]? = some k := by cases f <;> (simp [Tree.walk] at e4; obtain ⟨e4, -⟩ := e4; simpa using e4)
          rw [← eh, this] at e2
          obtain rfl : k = k1 := by simpa using e2
          exact e3
        · rw [e2]; exact F.tail (by omega)
      · intro k' w hlt e'
        by_cases g' : h < (t.br r).tail
        · rw [stepLow (h + 1) (by omega)] at e'
          exact F.link k' w g' e'
        · obtain ⟨k2, e2, e3, e4, e5, -⟩ := okr.get (h := h + 1) (by omega) (by omega)
          rw [stepHigh (h + 1) k2 e2] at e'
          obtain rfl : k2 = k' := by simp at e'; exact e'.1
          rw [e5, Nat.add_sub_cancel, Br.hashAt, if_pos (by omega)]
          exact (F.tail (by omega)).symm
    · obtain ⟨k, e2, e3, e4, e5, e6⟩ := okr.get (h := h) (by omega) (by omega)
      refine ⟨k, ⟨some r, stepHigh h k e2⟩, e3, e4, ?_, ?_⟩
      · intro eh
        rcases hold with ⟨k1, e1, e1'⟩ | ⟨rfl, e1, -⟩ | ⟨rfl, e1, -⟩
        · rw [← eh, e2] at e1
          obtain rfl : k = k1 := by simpa using e1
          exact e1'
        · omega
        · omega
      · intro k' w hlt e'
        obtain ⟨k2, e7, -, -, e8, -⟩ := okr.get (h := h + 1) (by omega) (by omega)
        rw [stepHigh (h + 1) k2 e7] at e'
        obtain rfl : k2 = k' := by simp at e'; exact e'.1
        rw [e8, e6, Nat.add_sub_cancel]

/-- What reading a branch through its roots gives at a height. -/
structure Reads (K : Knot → Prop) (t : Tree) (i h : Nat) (k : Knot) : Prop where
  read : t.knot i h true = some k
  height : k.height = h
  known : K k
  head : h = (t.br i).head → k.hash = (t.br i).headHash
  tail : h = (t.br i).tail → k.hash = (t.br i).tailHash
  link : ∀ k', h < (t.br i).head → t.knot i (h + 1) true = some k' → k'.prev = k.hash

theorem Tree.knot_local {t : Tree} {i h : Nat} {k : Knot} {full : Bool} (e : (t.br i).knots h = some k) : t.knot i h full = some k := by
  simp [Tree.knot, e]

theorem Tree.knot_low {t : Tree} {i h : Nat} (e : (t.br i).knots h = none) (g : h ≤ (t.br i).head) :
    t.knot i h true = (t.walk t.next (t.br i).root h).map (·.1) := by
  simp [Tree.knot, Tree.find, e, show ¬ (t.br i).head < h by omega]

theorem Tree.find_local {t : Tree} {i h : Nat} {k : Knot} (e : (t.br i).knots h = some k) (g : h ≤ (t.br i).head) :
    t.find i h = some (k, some i) := by
  simp [Tree.find, e, show ¬ (t.br i).head < h by omega]

theorem Tree.find_fst {t : Tree} {i h : Nat} (g : h ≤ (t.br i).head) : (t.find i h).map (·.1) = t.knot i h true := by
  unfold Tree.knot
  cases e : (t.br i).knots h with
  | none => simp
  | some k => simp [Tree.find_local e g]

theorem Inv.above {t : Tree} {s : Nat} (inv : Inv K t s) {i : Nat} (hi : i ∈ t.live) {h : Nat} (g : (t.br i).head < h) :
    t.knot i h true = none ∧ t.find i h = none := by
  have e := (inv.ok i hi).out h (Or.inr g)
  simp [Tree.knot, Tree.find, e, g]

theorem Inv.reads {t : Tree} {s : Nat} (inv : Inv K t s) {i : Nat} (hi : i ∈ t.live) {h : Nat} (hh : h ≤ (t.br i).head) :
    ∃ k, Reads K t i h k := by
  have ok := inv.ok i hi
  obtain ⟨l, u, hl⟩ := inv.up i hi
  have fnd := inv.found u hi t.next (by omega)
  have last := ok.last
  by_cases g : h ≤ (t.br i).tail
  · obtain ⟨k, F⟩ := fnd h g
    have low : ∀ h, h ≤ (t.br i).tail → t.knot i h true = (t.walk t.next (t.br i).root h).map (·.1) :=
      fun h g => Tree.knot_low (ok.out h (Or.inl g)) (by have := ok.le; omega)
    refine ⟨k, ?_, F.height, F.known, ?_, F.tail, ?_⟩
    · obtain ⟨w, e⟩ := F.read
      rw [low h g, e]; rfl
    · intro eh
      have : h = (t.br i).tail := by have := ok.le; omega
      rw [last, Br.hashAt, if_pos (by omega)]
      exact F.tail this
    · intro k' hlt e'
      by_cases g' : h < (t.br i).tail
      · rw [low (h + 1) (by omega)] at e'
        obtain ⟨⟨k2, w⟩, e2, rfl⟩ := Option.map_eq_some_iff.mp e'
        exact F.link k2 w g' e2
      · obtain ⟨k2, e2, -, -, e3, -⟩ := ok.get (h := h + 1) (by omega) (by omega)
        rw [Tree.knot_local e2] at e'
        obtain rfl : k2 = k' := by simpa using e'
        rw [e3, Nat.add_sub_cancel, Br.hashAt, if_pos (by omega)]
        exact (F.tail (by omega)).symm
  · obtain ⟨k, e2, e3, e4, e5, e6⟩ := ok.get (h := h) (by omega) hh
    refine ⟨k, Tree.knot_local e2, e3, e4, ?_, by omega, ?_⟩
    · intro eh; rw [last, ← eh]; exact e6
    · intro k' hlt e'
      obtain ⟨k2, e7, -, -, e8, -⟩ := ok.get (h := h + 1) (by omega) (by omega)
      rw [Tree.knot_local e7] at e'
      obtain rfl : k2 = k' := by simpa using e'
      rw [e8, e6, Nat.add_sub_cancel]

theorem Inv.reads_of {t : Tree} {s : Nat} (inv : Inv K t s) {i : Nat} (hi : i ∈ t.live) {h : Nat} {k : Knot}
    (e : t.knot i h true = some k) : h ≤ (t.br i).head ∧ Reads K t i h k := by
  have hh : h ≤ (t.br i).head := by
    by_contra g
    rw [(inv.above hi (by omega)).1] at e
    exact absurd e (by simp)
  obtain ⟨k', R⟩ := inv.reads hi hh
  have := R.read
  rw [e] at this
  obtain rfl : k = k' := by simpa using this
  exact ⟨hh, R⟩

/-- Below its tail a branch reads what its root reads. -/
theorem Inv.below {t : Tree} {s : Nat} (inv : Inv K t s) {i r : Nat} (hi : i ∈ t.live) (e : (t.br i).root = some r)
    {h : Nat} (hh : h ≤ (t.br i).tail) : t.knot i h true = t.knot r h true ∧ h ≤ (t.br r).head := by
  have ok := inv.ok i hi
  obtain ⟨hr, hold, -⟩ := inv.root_live hi e
  have okr := inv.ok r hr
  have hle : (t.br i).tail ≤ (t.br r).head := by
    rcases hold with ⟨k, e1, -⟩ | ⟨rfl, e1, -⟩ | ⟨rfl, e1, -⟩
    · exact (okr.range e1).2
    · have := okr.le; omega
    · have := okr.le; omega
  refine ⟨?_, by omega⟩
  obtain ⟨l, u, hl⟩ := inv.up i hi
  rw [Tree.knot_low (ok.out h (Or.inl hh)) (by have := ok.le; omega), e]
  obtain ⟨n, en⟩ : ∃ n, t.next = n + 1 := ⟨t.next - 1, by omega⟩
  cases g : (t.br r).knots h with
  | some k => rw [Tree.knot_local g, en]; simp [Tree.walk, g]
  | none =>
    have hlow : h ≤ (t.br r).tail := by
      by_contra c
      exact (okr.isSome.mpr ⟨by omega, by omega⟩) g
    rw [Tree.knot_low g (by omega)]
    cases u with
    | top e' => rw [e] at e'; exact absurd e' (by simp)
    | @up _ r' l e' _ u =>
      rw [e] at e'
      obtain rfl : r = r' := by simpa using e'
      simp only [List.length_cons] at hl
      obtain ⟨k1, F1⟩ := inv.found u hr n (by omega) h hlow
      obtain ⟨k2, F2⟩ := inv.found u hr t.next (by omega) h hlow
      obtain ⟨w1, e1⟩ := F1.read
      obtain ⟨w2, e2⟩ := F2.read
      have mono : ∀ f (o : Option Nat) x, t.walk f o h = some x → t.walk (f + 1) o h = some x := by
        intro f
        induction f with
        | zero => intro o x ex; cases o <;> simp [Tree.walk] at ex ⊢; exact ex
        | succ f ih =>
          intro o x ex
          cases o with
          | none => simpa [Tree.walk] using ex
          | some j =>
            rw [Tree.walk] at ex ⊢
            cases ej : (t.br j).knots h with
            | some k => rw [ej] at ex; exact ex
            | none => rw [ej] at ex; exact ih _ _ ex
      have := mono n _ _ e1
      rw [← en, e2] at this
      obtain ⟨rfl, -⟩ : k2 = k1 ∧ w2 = w1 := by simpa using this
      rw [e2, en]
      simp [Tree.walk, g, e1]

/-- Where blocks are anchored, and that this can be read. -/
theorem Inv.holds_read {t : Tree} {s : Nat} (inv : Inv K t s) {r h x : Nat} (hr : r ∈ t.live) (H : Holds t s r h x) :
    ∃ k, t.knot r h true = some k ∧ k.hash = x ∧ h ≤ (t.br r).head := by
  have okr := inv.ok r hr
  rcases H with ⟨k, e1, e2⟩ | ⟨rfl, e1, k, e2, e3⟩ | ⟨rfl, e1, e2⟩
  · exact ⟨k, Tree.knot_local e1, e2, (okr.range e1).2⟩
  · refine ⟨k, ?_, e3, by have := okr.le; omega⟩
    rw [Tree.knot_low (okr.out h (Or.inl e1)) (by have := okr.le; omega), inv.main_root]
    cases t.next <;> simp [Tree.walk, e2]
  · have hle : h ≤ (t.br r).head := by have := okr.le; omega
    obtain ⟨k, R⟩ := inv.reads hr hle
    exact ⟨k, R.read, by rw [R.tail e1, e2], hle⟩

/-- The main branch reads the disk up to its tail. -/
theorem Inv.main_low {t : Tree} {s : Nat} (inv : Inv K t s) {h : Nat} (g : h ≤ (t.br t.main).tail) :
    t.knot t.main h true = t.disk[h]? := by
  have ok := inv.ok _ inv.main_live
  rw [Tree.knot_low (ok.out h (Or.inl g)) (by have := ok.le; omega), inv.main_root]
  cases t.next <;> (simp only [Tree.walk]; cases t.disk[h]? <;> rfl)

/-- A block read in a branch is held there, or lies below its tail. -/
theorem Inv.held {t : Tree} {s : Nat} (inv : Inv K t s) {r h : Nat} {k : Knot} (hr : r ∈ t.live) (e : t.knot r h true = some k)
    (g : r ≠ t.main → (t.br r).tail < h) : Holds t s r h k.hash := by
  have okr := inv.ok r hr
  have ⟨hh, R⟩ := inv.reads_of hr e
  by_cases c : (t.br r).tail < h
  · obtain ⟨k', e', -⟩ := okr.get c hh
    rw [Tree.knot_local e'] at e
    obtain rfl : k' = k := by simpa using e
    exact Or.inl ⟨_, e', rfl⟩
  · have : r = t.main := by by_contra ne; exact c (g ne)
    subst this
    rw [inv.main_low (by omega)] at e
    exact Or.inr (Or.inl ⟨rfl, by omega, k, e, rfl⟩)

end Verif.Fork
