import Verif.Tab.MergeModel
import Verif.Tab.IterProps
import Mathlib.Data.List.TakeWhile

/-! # The merged iterator is a cursor over all entries in order -/

namespace Verif.Tab
open Verif.Bytes

variable {O : Type} [LinearOrder O] {I : Type}

/-! ### Specification -/

/-- The keys grow. -/
def Grows (ord : Bytes → O) (l : List (Bytes × Bytes)) : Prop := l.Pairwise (fun x y => ord x.1 < ord y.1)

/-- An iterator of this kind is a cursor over the list, and stands at the place. -/
structure IsCursor (ord : Bytes → O) (kind : Kind I) (R : I → List (Bytes × Bytes) → Place → Prop) : Prop where
  ask : ∀ i l p a, R i l p → R (kind.ask i a).1 l (goes ord l p a) ∧ (kind.ask i a).2 = (goes ord l p a).isOn ∧ kind.bad (kind.ask i a).1 = false
  shows : ∀ i l p, R i l p → kind.shows i = (sees l p).2.2

/-! ### Cuts -/

/-- Down-closed. -/
def Low (b : O → Bool) : Prop := ∀ x y, x ≤ y → b y = true → b x = true

/-- How many entries are below the cut. -/
def cut (ord : Bytes → O) (b : O → Bool) (l : List (Bytes × Bytes)) : Nat := (l.takeWhile (fun e => b (ord e.1))).length

def fwdAt (ord : Bytes → O) (b : O → Bool) (l : List (Bytes × Bytes)) : Place := if cut ord b l < l.length then .on (cut ord b l) else .past

def backAt (ord : Bytes → O) (b : O → Bool) (l : List (Bytes × Bytes)) : Place := if 0 < cut ord b l then .on (cut ord b l - 1) else .before

variable {ord : Bytes → O} {b : O → Bool} {l : List (Bytes × Bytes)}

theorem cut_le : cut ord b l ≤ l.length := by
  unfold cut
  exact (List.takeWhile_prefix _).length_le

theorem cut_below {i : Nat} (h : i < cut ord b l) : b (ord (l[i]'(lt_of_lt_of_le h cut_le)).1) = true := by
  unfold cut at h
  have h1 : (l.takeWhile (fun e => b (ord e.1)))[i] = l[i]'(lt_of_lt_of_le h cut_le) :=
    List.IsPrefix.getElem (List.takeWhile_prefix _) h
  have h2 := List.mem_takeWhile_imp (List.getElem_mem h)
  rw [h1] at h2
  exact h2

theorem cut_stop (h : cut ord b l < l.length) : b (ord l[cut ord b l].1) = false := by
  induction l with
  | nil => simp at h
  | cons a l ih =>
    by_cases ha : b (ord a.1) = true
    · have hc : cut ord b (a :: l) = cut ord b l + 1 := by
        unfold cut
        rw [List.takeWhile_cons, if_pos ha, List.length_cons]
      have h' : cut ord b l < l.length := by rw [hc, List.length_cons] at h; omega
      have := ih h'
      simp only [hc, List.getElem_cons_succ]
      exact this
    · have hc : cut ord b (a :: l) = 0 := by
        unfold cut
        rw [List.takeWhile_cons, if_neg ha]; rfl
      simp only [hc, List.getElem_cons_zero]
      simpa using ha

theorem grows_lt (hs : Grows ord l) {i j : Nat} (hj : j < l.length) (h : i < j) : ord (l[i]'(by omega)).1 < ord l[j].1 :=
  (List.pairwise_iff_getElem.1 hs) i j (by omega) hj h

theorem cut_above (hb : Low b) (hs : Grows ord l) {i : Nat} (hi : i < l.length) (h : cut ord b l ≤ i) : b (ord l[i].1) = false := by
  have h0 := cut_stop (ord := ord) (b := b) (l := l) (by omega)
  rcases Nat.lt_or_ge (cut ord b l) i with q | q
  · by_contra hc
    have := hb _ _ (le_of_lt (grows_lt hs hi q)) (by simpa using hc)
    rw [h0] at this; cases this
  · have : i = cut ord b l := by omega
    subst this; exact h0

/-- The cut is where it has to be. -/
theorem cut_eq {n : Nat} (hn : n ≤ l.length) (h1 : ∀ i (hi : i < n), b (ord (l[i]'(by omega)).1) = true)
    (h2 : ∀ (h : n < l.length), b (ord l[n].1) = false) : cut ord b l = n := by
  rcases lt_trichotomy (cut ord b l) n with h | h | h
  · have := cut_stop (ord := ord) (b := b) (l := l) (by omega)
    rw [h1 _ h] at this; cases this
  · exact h
  · have h3 := cut_below h
    have hl := cut_le (ord := ord) (b := b) (l := l)
    rw [h2 (by omega)] at h3; cases h3

theorem cut_congr {b' : O → Bool} (h : ∀ e ∈ l, b (ord e.1) = b' (ord e.1)) : cut ord b l = cut ord b' l := by
  apply cut_eq cut_le
  · intro i hi
    rw [h _ (List.getElem_mem _)]; exact cut_below hi
  · intro hi
    rw [h _ (List.getElem_mem _)]; exact cut_stop hi

theorem low_lt (m : O) : Low (fun x => decide (x < m)) := by
  intro x y hxy hy
  simp only [decide_eq_true_eq] at *
  exact lt_of_le_of_lt hxy hy

theorem low_le (m : O) : Low (fun x => decide (x ≤ m)) := by
  intro x y hxy hy
  simp only [decide_eq_true_eq] at *
  exact le_trans hxy hy

theorem goes_first (p : Place) : goes ord l p .first = fwdAt ord (fun _ => false) l := by
  have hc : cut ord (fun _ => false) l = 0 := cut_eq (Nat.zero_le _) (by intro i hi; omega) (fun _ => rfl)
  show (if l = [] then Place.past else .on 0) = _
  unfold fwdAt
  rw [hc]
  by_cases h : l = []
  · rw [if_pos h, if_neg (by rw [h]; simp)]
  · rw [if_neg h, if_pos (List.length_pos_iff.2 h)]

theorem goes_last (p : Place) : goes ord l p .last = backAt ord (fun _ => true) l := by
  have hc : cut ord (fun _ => true) l = l.length := cut_eq (le_refl _) (fun _ _ => rfl) (by intro h; omega)
  show (if l = [] then Place.before else .on (l.length - 1)) = _
  unfold backAt
  rw [hc]
  by_cases h : l = []
  · rw [if_pos h, if_neg (by rw [h]; simp)]
  · rw [if_neg h, if_pos (List.length_pos_iff.2 h)]

theorem goes_seek (p : Place) (k : Bytes) : goes ord l p (.seek k) = fwdAt ord (fun x => decide (x < ord k)) l := by
  show (match l.findIdx? (fun e => decide (ord k ≤ ord e.1)) with | some j => Place.on j | none => .past) = _
  unfold fwdAt
  cases hf : l.findIdx? (fun e => decide (ord k ≤ ord e.1)) with
  | none =>
    have hc : cut ord (fun x => decide (x < ord k)) l = l.length := by
      refine cut_eq (le_refl _) ?_ (by intro h; omega)
      intro i hi
      have := List.findIdx?_eq_none_iff.1 hf l[i] (List.getElem_mem hi)
      simpa using this
    rw [hc, if_neg (lt_irrefl _)]
  | some j =>
    obtain ⟨hj, h1, h2⟩ := List.findIdx?_eq_some_iff_getElem.1 hf
    have hc : cut ord (fun x => decide (x < ord k)) l = j := by
      refine cut_eq (le_of_lt hj) ?_ ?_
      · intro i hi
        have := h2 i hi
        simpa using this
      · intro _
        simpa using h1
    rw [hc, if_pos hj]

/-- A turn: the last entry below. -/
theorem goes_turn (p : Place) (k : Bytes) :
    (if (goes ord l p (.seek k)).isOn = true then goes ord l (goes ord l p (.seek k)) .prev else goes ord l (goes ord l p (.seek k)) .last) =
      backAt ord (fun x => decide (x < ord k)) l := by
  rw [goes_seek]
  unfold fwdAt backAt
  have hle := cut_le (ord := ord) (b := fun x => decide (x < ord k)) (l := l)
  by_cases h : cut ord (fun x => decide (x < ord k)) l < l.length
  · rw [if_pos h, if_pos (show (Place.on _).isOn = true from rfl)]; rfl
  · rw [if_neg h, if_neg (by simp [Place.isOn])]
    have : cut ord (fun x => decide (x < ord k)) l = l.length := by omega
    rw [this]
    show (if l = [] then Place.before else .on (l.length - 1)) = _
    by_cases h : l = []
    · rw [if_pos h, if_neg (by rw [h]; simp)]
    · rw [if_neg h, if_pos (List.length_pos_iff.2 h)]

/-! ### The loops -/

/-- What the loop leaves of an iterator and its key. -/
def MEnv.upd (v : MEnv O I) (p : I × Option Bytes) : Option (I × Bool) → I × Option Bytes
  | none => p
  | some r => (r.1, if r.2 = true then v.key r.1 else none)

theorem sweep_spec (v : MEnv O I) (f : Nat → I → Option (I × Bool)) : ∀ (l : List (I × Option Bytes)) (x : Nat),
    (∀ y p r, l[y]? = some p → f (x + y) p.1 = some r → v.kind.bad r.1 = false) →
    (v.sweep f x l).2 = false ∧ (v.sweep f x l).1.length = l.length ∧
      ∀ y p, l[y]? = some p → (v.sweep f x l).1[y]? = some (v.upd p (f (x + y) p.1)) := by
  intro l
  induction l with
  | nil => intro x _; exact ⟨rfl, rfl, by intro y p h; simp at h⟩
  | cons a l ih =>
    intro x h
    obtain ⟨i1, i2, i3⟩ := ih (x + 1) (by
      intro y p r hp hf
      exact h (y + 1) p r (by simpa using hp) (by rw [← hf]; congr 1; omega))
    have hcons : ∃ q, v.sweep f x (a :: l) = (q :: (v.sweep f (x + 1) l).1, (v.sweep f (x + 1) l).2) ∧ q = v.upd a (f x a.1) := by
      rw [show v.sweep f x (a :: l) = (match f x a.1 with
        | none => (a :: (v.sweep f (x + 1) l).1, (v.sweep f (x + 1) l).2)
        | some r =>
          if r.2 = true then ((r.1, v.key r.1) :: (v.sweep f (x + 1) l).1, (v.sweep f (x + 1) l).2)
          else if v.stops r.1 = true then ((r.1, a.2) :: l, true)
          else ((r.1, none) :: (v.sweep f (x + 1) l).1, (v.sweep f (x + 1) l).2)) from rfl]
      cases hf : f x a.1 with
      | none => exact ⟨a, rfl, rfl⟩
      | some r =>
        have hbad := h 0 a r (by simp) (by simpa using hf)
        dsimp only
        by_cases hr : r.2 = true
        · rw [if_pos hr]
          refine ⟨_, rfl, ?_⟩
          show _ = (r.1, if r.2 = true then v.key r.1 else none)
          rw [if_pos hr]
        · rw [if_neg hr, if_neg (by unfold MEnv.stops; rw [hbad]; simp)]
          refine ⟨_, rfl, ?_⟩
          show _ = (r.1, if r.2 = true then v.key r.1 else none)
          rw [if_neg hr]
    obtain ⟨q, hq, hqe⟩ := hcons
    rw [hq]
    refine ⟨i1, by rw [List.length_cons, List.length_cons, i2], ?_⟩
    intro y p hp
    cases y with
    | zero =>
      have : a = p := by simpa using hp
      subst this
      rw [hqe]; rfl
    | succ y =>
      have := i3 y p (by simpa using hp)
      rw [show x + (y + 1) = x + 1 + y by omega]
      exact this

theorem pick_spec (better : Bytes → Bytes → Bool) (keys : List (Option Bytes)) (hirr : ∀ a, better a a = false)
    (htrans : ∀ a b c, better a b = true → better b c = true → better a c = true) :
    ∀ (l pre : List (Option Bytes)) (a : Option Bytes × Nat), pre ++ l = keys → (∀ m, a.1 = some m → keys[a.2]? = some (some m)) →
      (∀ m t, a.1 = some m → some t ∈ pre → better t m = false) → (a.1 = none → ∀ t, some t ∉ pre) →
      (∀ m, (pick better pre.length l a).1 = some m → keys[(pick better pre.length l a).2]? = some (some m) ∧ ∀ t, some t ∈ keys → better t m = false) ∧
      ((pick better pre.length l a).1 = none → ∀ t, some t ∉ keys) := by
  intro l
  induction l with
  | nil =>
    intro pre a hk h1 h2 h3
    rw [List.append_nil] at hk
    subst hk
    exact ⟨fun m hm => ⟨h1 m hm, fun t ht => h2 m t hm ht⟩, h3⟩
  | cons o l ih =>
    intro pre a hk h1 h2 h3
    have hk' : (pre ++ [o]) ++ l = keys := by rw [← hk]; simp
    have hlen : (pre ++ [o]).length = pre.length + 1 := by simp
    cases o with
    | none =>
      have := ih (pre ++ [none]) a hk' h1 (by
        intro m t hm ht
        rcases List.mem_append.1 ht with ht | ht
        · exact h2 m t hm ht
        · simp at ht) (by
        intro ha t ht
        rcases List.mem_append.1 ht with ht | ht
        · exact h3 ha t ht
        · simp at ht)
      rw [hlen] at this
      exact this
    | some t =>
      have hat : keys[pre.length]? = some (some t) := by
        rw [← hk, List.getElem?_append_right (le_refl _), Nat.sub_self]; rfl
      have hun : pick better pre.length (some t :: l) a =
          if (a.1.all (fun k => better t k)) = true then pick better (pre.length + 1) l (some t, pre.length) else pick better (pre.length + 1) l a := rfl
      rw [hun]
      by_cases hb : (a.1.all (fun k => better t k)) = true
      · rw [if_pos hb, ← hlen]
        have h4 := ih (pre ++ [some t]) (some t, pre.length) hk' (by intro m hm; cases hm; exact hat) (by
          intro m u hm hu
          cases hm
          rcases List.mem_append.1 hu with hu | hu
          · cases ha : a.1 with
            | none => exact absurd hu (h3 ha u)
            | some k =>
              rw [ha] at hb
              by_contra hc
              have := htrans u t k (by simpa using hc) (by simpa using hb)
              rw [h2 k u ha hu] at this; cases this
          · have : u = t := by simpa using hu
            rw [this]; exact hirr t) (by intro h; cases h)
        exact h4
      · rw [if_neg hb, ← hlen]
        refine ih (pre ++ [some t]) a hk' h1 ?_ ?_
        · intro m u hm hu
          rcases List.mem_append.1 hu with hu | hu
          · exact h2 m u hm hu
          · have : u = t := by simpa using hu
            rw [hm] at hb
            rw [this]
            simpa using hb
        · intro ha
          rw [ha] at hb
          exact absurd rfl hb

/-! ### The iterators merged, and where they stand -/

section
variable (v : MEnv O I) (R : I → List (Bytes × Bytes) → Place → Prop) (Ls : List (List (Bytes × Bytes)))

/-- The iterators stand at these places and their keys are noted. -/
def Cfg (P : Nat → List (Bytes × Bytes) → Place) (ins : List (I × Option Bytes)) : Prop :=
  ins.length = Ls.length ∧ ∀ (y : Nat) (p : I × Option Bytes) (L : List (Bytes × Bytes)), ins[y]? = some p → Ls[y]? = some L → R p.1 L (P y L) ∧ p.2 = (sees L (P y L)).2.2.map Prod.fst

def Any (ins : List (I × Option Bytes)) : Prop :=
  ins.length = Ls.length ∧ ∀ (y : Nat) (p : I × Option Bytes) (L : List (Bytes × Bytes)), ins[y]? = some p → Ls[y]? = some L → ∃ q, R p.1 L q

/-- The iterator chosen shows this entry. -/
def Chosen (s : MI I) (P : Nat → List (Bytes × Bytes) → Place) (e : Bytes × Bytes) : Prop :=
  ∃ p L c, s.ins[s.index]? = some p ∧ Ls[s.index]? = some L ∧ P s.index L = .on c ∧ L[c]? = some e

variable (M : List (Bytes × Bytes))

/-- Going forwards. -/
def Fwd (s : MI I) (p : Place) : Prop :=
  s.err = false ∧ ((p = .past ∧ s.dir = .eoi ∧ Any R Ls s.ins) ∨
    ∃ j e, p = .on j ∧ M[j]? = some e ∧ s.dir = .fwd ∧ Cfg R Ls (fun _ => fwdAt v.ord (fun x => decide (x < v.ord e.1))) s.ins ∧
      Chosen Ls s (fun _ => fwdAt v.ord (fun x => decide (x < v.ord e.1))) e)

/-- Going backwards. -/
def Back (s : MI I) (p : Place) : Prop :=
  s.err = false ∧ ((p = .before ∧ s.dir = .soi ∧ Any R Ls s.ins) ∨
    ∃ j e, p = .on j ∧ M[j]? = some e ∧ s.dir = .back ∧ Cfg R Ls (fun _ => backAt v.ord (fun x => decide (x ≤ v.ord e.1))) s.ins ∧
      Chosen Ls s (fun _ => backAt v.ord (fun x => decide (x ≤ v.ord e.1))) e)

end

variable {v : MEnv O I} {R : I → List (Bytes × Bytes) → Place → Prop} {Ls : List (List (Bytes × Bytes))} {M : List (Bytes × Bytes)}

theorem Cfg.any {P : Nat → List (Bytes × Bytes) → Place} {ins : List (I × Option Bytes)} (h : Cfg R Ls P ins) : Any R Ls ins :=
  ⟨h.1, fun y p L h1 h2 => ⟨_, (h.2 y p L h1 h2).1⟩⟩

theorem Any.at {ins : List (I × Option Bytes)} (h : Any R Ls ins) {y : Nat} {p : I × Option Bytes} (hp : ins[y]? = some p) : ∃ L, Ls[y]? = some L := by
  obtain ⟨hy, _⟩ := List.getElem?_eq_some_iff.1 hp
  exact ⟨Ls[y]'(by rw [← h.1]; exact hy), List.getElem?_eq_getElem _⟩

theorem Any.at' {ins : List (I × Option Bytes)} (h : Any R Ls ins) {y : Nat} {L : List (Bytes × Bytes)} (hp : Ls[y]? = some L) : ∃ p, ins[y]? = some p := by
  obtain ⟨hy, _⟩ := List.getElem?_eq_some_iff.1 hp
  exact ⟨ins[y]'(by rw [h.1]; exact hy), List.getElem?_eq_getElem _⟩

theorem Cfg.congr {P Q : Nat → List (Bytes × Bytes) → Place} {ins : List (I × Option Bytes)} (h : Cfg R Ls P ins)
    (hPQ : ∀ y L, Ls[y]? = some L → P y L = Q y L) : Cfg R Ls Q ins := by
  refine ⟨h.1, ?_⟩
  intro y p L h1 h2
  rw [← hPQ y L h2]
  exact h.2 y p L h1 h2

theorem upd_key (hR : IsCursor v.ord v.kind R) {p : I × Option Bytes} {r : I × Bool} {L : List (Bytes × Bytes)} {q : Place} (h1 : R r.1 L q) (h2 : r.2 = q.isOn) :
    R (v.upd p (some r)).1 L q ∧ (v.upd p (some r)).2 = (sees L q).2.2.map Prod.fst := by
  refine ⟨h1, ?_⟩
  show (if r.2 = true then v.key r.1 else none) = _
  by_cases h : r.2 = true
  · rw [if_pos h]
    unfold MEnv.key
    rw [hR.shows _ _ _ h1]
  · rw [if_neg h]
    rw [h2] at h
    cases q with
    | on j => exact absurd rfl h
    | before => rfl
    | past => rfl

/-- A loop over the iterators. -/
theorem sweep_cfg (hR : IsCursor v.ord v.kind R) {ins : List (I × Option Bytes)} {f : Nat → I → Option (I × Bool)}
    {Q : Nat → List (Bytes × Bytes) → Place} (ha : Any R Ls ins)
    (hm : ∀ y p L r, ins[y]? = some p → Ls[y]? = some L → f y p.1 = some r → R r.1 L (Q y L) ∧ r.2 = (Q y L).isOn ∧ v.kind.bad r.1 = false)
    (hk : ∀ (y : Nat) (p : I × Option Bytes) (L : List (Bytes × Bytes)), ins[y]? = some p → Ls[y]? = some L → f y p.1 = none → R p.1 L (Q y L) ∧ p.2 = (sees L (Q y L)).2.2.map Prod.fst) :
    (v.sweep f 0 ins).2 = false ∧ Cfg R Ls Q (v.sweep f 0 ins).1 := by
  obtain ⟨s1, s2, s3⟩ := sweep_spec v f ins 0 (by
    intro y p r hp hf
    rw [Nat.zero_add] at hf
    obtain ⟨L, hL⟩ := ha.at hp
    exact (hm y p L r hp hL hf).2.2)
  refine ⟨s1, by rw [s2, ha.1], ?_⟩
  intro y p L hp hL
  obtain ⟨p0, hp0⟩ := ha.at' hL
  have h := s3 y p0 hp0
  rw [Nat.zero_add, hp] at h
  cases hf : f y p0.1 with
  | none =>
    rw [hf] at h
    cases h
    exact hk y p0 L hp0 hL hf
  | some r =>
    rw [hf] at h
    cases h
    obtain ⟨a, b, _⟩ := hm y p0 L r hp0 hL hf
    exact upd_key hR a b

/-- What is merged. -/
structure Merged (ord : Bytes → O) (Ls : List (List (Bytes × Bytes))) (M : List (Bytes × Bytes)) : Prop where
  grows : Grows ord M
  perm : M.Perm Ls.flatten
  each : ∀ L ∈ Ls, Grows ord L

theorem Merged.mem (h : Merged ord Ls M) {e : Bytes × Bytes} : e ∈ M ↔ ∃ L ∈ Ls, e ∈ L := by
  rw [h.perm.mem_iff, List.mem_flatten]

/-- Different iterators have different keys. -/
theorem Merged.apart (h : Merged ord Ls M) {x y : Nat} {L L' : List (Bytes × Bytes)} (hx : Ls[x]? = some L) (hy : Ls[y]? = some L') (hxy : x ≠ y)
    {e e' : Bytes × Bytes} (he : e ∈ L) (he' : e' ∈ L') : ord e.1 ≠ ord e'.1 := by
  have h1 : M.Pairwise (fun x y => ord x.1 ≠ ord y.1) := h.grows.imp (fun q => ne_of_lt q)
  have h2 : Ls.flatten.Pairwise (fun x y => ord x.1 ≠ ord y.1) := (h.perm.pairwise_iff (fun q => q.symm)).1 h1
  have h3 := (List.pairwise_flatten.1 h2).2
  obtain ⟨hx1, hx2⟩ := List.getElem?_eq_some_iff.1 hx
  obtain ⟨hy1, hy2⟩ := List.getElem?_eq_some_iff.1 hy
  subst hx2
  subst hy2
  rcases lt_or_gt_of_ne hxy with q | q
  · exact (List.pairwise_iff_getElem.1 h3) x y hx1 hy1 q e he e' he'
  · exact ((List.pairwise_iff_getElem.1 h3) y x hy1 hx1 q e' he' e he).symm

theorem sees_fwd {m : Bytes} (h : (sees l (fwdAt ord b l)).2.2.map Prod.fst = some m) :
    ∃ hc : cut ord b l < l.length, fwdAt ord b l = .on (cut ord b l) ∧ l[cut ord b l].1 = m := by
  unfold fwdAt at h ⊢
  by_cases hc : cut ord b l < l.length
  · rw [if_pos hc] at h
    have h' : (l[cut ord b l]?).map Prod.fst = some m := h
    rw [List.getElem?_eq_getElem hc] at h'
    exact ⟨hc, if_pos hc, by simpa using h'⟩
  · rw [if_neg hc] at h
    cases h

theorem sees_back {m : Bytes} (h : (sees l (backAt ord b l)).2.2.map Prod.fst = some m) :
    ∃ hc : 0 < cut ord b l, backAt ord b l = .on (cut ord b l - 1) ∧ (l[cut ord b l - 1]'(by have := cut_le (ord := ord) (b := b) (l := l); omega)).1 = m := by
  unfold backAt at h ⊢
  by_cases hc : 0 < cut ord b l
  · rw [if_pos hc] at h
    have h' : (l[cut ord b l - 1]?).map Prod.fst = some m := h
    rw [List.getElem?_eq_getElem (by have := cut_le (ord := ord) (b := b) (l := l); omega)] at h'
    exact ⟨hc, if_pos hc, by simpa using h'⟩
  · rw [if_neg hc] at h
    cases h

theorem keyAt_keys {s : MI I} {m : Bytes} (h : s.keyAt = some m) : (s.ins.map Prod.snd)[s.index]? = some (some m) := by
  unfold MI.keyAt at h
  cases hp : s.ins[s.index]? with
  | none => rw [hp] at h; cases h
  | some p =>
    rw [hp] at h
    rw [List.getElem?_map, hp]
    exact congrArg some h

/-- The smallest of the keys is the next. -/
theorem next0_spec (hM : Merged v.ord Ls M) (hb : Low b) {s : MI I} (herr : s.err = false) (hc : Cfg R Ls (fun _ => fwdAt v.ord b) s.ins) :
    Fwd v R Ls M (v.next0 s).1 (fwdAt v.ord b M) ∧ (v.next0 s).2 = (fwdAt v.ord b M).isOn := by
  obtain ⟨k1, k2⟩ := pick_spec (fun t k => decide (v.ord t < v.ord k)) (s.ins.map Prod.snd) (by intro a; simp) (by
      intro a b c h1 h2
      simp only [decide_eq_true_eq] at *
      exact lt_trans h1 h2) (s.ins.map Prod.snd) [] (if s.dir = .fwd then s.keyAt else none, s.index) rfl (by
      intro m hm
      by_cases hd : s.dir = .fwd
      · rw [if_pos hd] at hm; exact keyAt_keys hm
      · rw [if_neg hd] at hm; cases hm) (by intro m t _ h; cases h) (by intro _ t h; cases h)
  rw [List.length_nil] at k1 k2
  unfold MEnv.next0
  dsimp only
  cases ha : (pick (fun t k => decide (v.ord t < v.ord k)) 0 (s.ins.map Prod.snd) (if s.dir = .fwd then s.keyAt else none, s.index)).1 with
  | none =>
    rw [if_pos rfl]
    have hall : ∀ L ∈ Ls, cut v.ord b L = L.length := by
      intro L hL
      obtain ⟨y, hy, hyL⟩ := List.getElem_of_mem hL
      have hL' : Ls[y]? = some L := by rw [List.getElem?_eq_getElem hy, hyL]
      obtain ⟨p, hp⟩ := hc.any.at' hL'
      have h1 := (hc.2 y p L hp hL').2
      by_contra hne
      have hlt : cut v.ord b L < L.length := lt_of_le_of_ne cut_le hne
      have hfw : fwdAt v.ord b L = .on (cut v.ord b L) := if_pos hlt
      dsimp only at h1
      rw [hfw] at h1
      have h2 : p.2 = some L[cut v.ord b L].1 := by
        rw [h1]
        show (L[cut v.ord b L]?).map Prod.fst = _
        rw [List.getElem?_eq_getElem hlt]; rfl
      exact k2 ha _ (List.mem_map.2 ⟨p, List.mem_of_getElem? hp, h2⟩)
    have hcM : cut v.ord b M = M.length := by
      refine cut_eq (le_refl _) ?_ (by intro h; omega)
      intro i hi
      obtain ⟨L, hL, he⟩ := hM.mem.1 (List.getElem_mem hi)
      obtain ⟨q, hq, hqe⟩ := List.getElem_of_mem he
      rw [← hqe]
      exact cut_below (by rw [hall L hL]; exact hq)
    have hp : fwdAt v.ord b M = .past := by unfold fwdAt; rw [hcM, if_neg (lt_irrefl _)]
    rw [hp]
    exact ⟨⟨herr, Or.inl ⟨rfl, rfl, hc.any⟩⟩, rfl⟩
  | some m =>
    rw [if_neg (by simp)]
    obtain ⟨h1, h2⟩ := k1 m ha
    generalize (pick (fun t k => decide (v.ord t < v.ord k)) 0 (s.ins.map Prod.snd) (if s.dir = .fwd then s.keyAt else none, s.index)).2 = x at h1
    rw [List.getElem?_map] at h1
    obtain ⟨p, hp, hpm⟩ := Option.map_eq_some_iff.1 h1
    obtain ⟨L, hL⟩ := hc.any.at hp
    obtain ⟨r1, r2⟩ := hc.2 x p L hp hL
    rw [hpm] at r2
    obtain ⟨hlt, hfw, hmk⟩ := sees_fwd r2.symm
    have hLm : L ∈ Ls := List.mem_of_getElem? hL
    have hbm : b (v.ord m) = false := by rw [← hmk]; exact cut_stop hlt
    have hmin : ∀ L' ∈ Ls, ∀ h : cut v.ord b L' < L'.length, v.ord m ≤ v.ord L'[cut v.ord b L'].1 := by
      intro L' hL' h
      obtain ⟨y, hy, hyL⟩ := List.getElem_of_mem hL'
      have hL'' : Ls[y]? = some L' := by rw [List.getElem?_eq_getElem hy, hyL]
      obtain ⟨p', hp'⟩ := hc.any.at' hL''
      have q1 := (hc.2 y p' L' hp' hL'').2
      have hfw : fwdAt v.ord b L' = .on (cut v.ord b L') := if_pos h
      dsimp only at q1
      rw [hfw] at q1
      have q2 : p'.2 = some L'[cut v.ord b L'].1 := by
        rw [q1]
        show (L'[cut v.ord b L']?).map Prod.fst = _
        rw [List.getElem?_eq_getElem h]; rfl
      have := h2 _ (List.mem_map.2 ⟨p', List.mem_of_getElem? hp', q2⟩)
      simpa using this
    have hcut : ∀ L' ∈ Ls, cut v.ord b L' = cut v.ord (fun x => decide (x < v.ord m)) L' := by
      intro L' hL'
      refine (cut_eq cut_le ?_ ?_).symm
      · intro i hi
        have := cut_below hi
        simp only [decide_eq_true_eq]
        by_contra hge
        rw [hb _ _ (not_lt.1 hge) this] at hbm; cases hbm
      · intro h
        simpa using hmin L' hL' h
    have hat : ∀ L' ∈ Ls, fwdAt v.ord b L' = fwdAt v.ord (fun x => decide (x < v.ord m)) L' := by
      intro L' hL'
      unfold fwdAt
      rw [hcut L' hL']
    have hem : L[cut v.ord b L] ∈ M := hM.mem.2 ⟨L, hLm, List.getElem_mem _⟩
    obtain ⟨j, hj, hje⟩ := List.getElem_of_mem hem
    have hcM : cut v.ord b M = j := by
      refine cut_eq (le_of_lt hj) ?_ ?_
      · intro i hi
        by_contra hne
        have hbf : b (v.ord M[i].1) = false := by simpa using hne
        obtain ⟨L', hL', he⟩ := hM.mem.1 (List.getElem_mem (l := M) (n := i) (by omega))
        obtain ⟨q, hq, hqe⟩ := List.getElem_of_mem he
        have hqc : cut v.ord b L' ≤ q := by
          by_contra hlt'
          have := cut_below (ord := v.ord) (b := b) (l := L') (not_le.1 hlt')
          rw [hqe, hbf] at this; cases this
        have h3 := hmin L' hL' (by omega)
        have h4 : v.ord L'[cut v.ord b L'].1 ≤ v.ord L'[q].1 := by
          rcases Nat.lt_or_ge (cut v.ord b L') q with hh | hh
          · exact le_of_lt (grows_lt (hM.each L' hL') hq hh)
          · have : cut v.ord b L' = q := by omega
            simp only [this]; exact le_refl _
        have h5 := grows_lt hM.grows hj hi
        rw [hje, hmk, ← hqe] at h5
        exact absurd (lt_of_lt_of_le h5 (le_trans h3 h4)) (lt_irrefl _)
      · intro _
        rw [hje, hmk]; exact hbm
    have hfM : fwdAt v.ord b M = .on j := by unfold fwdAt; rw [hcM, if_pos hj]
    rw [hfM]
    have hfst : M[j].1 = m := by rw [hje, hmk]
    refine ⟨⟨herr, Or.inr ⟨j, M[j], rfl, List.getElem?_eq_getElem hj, rfl, ?_, ?_⟩⟩, rfl⟩
    · rw [hfst]
      exact hc.congr (fun y L' h => hat L' (List.mem_of_getElem? h))
    · rw [hfst]
      refine ⟨p, L, cut v.ord b L, hp, hL, ?_, ?_⟩
      · show fwdAt v.ord (fun x => decide (x < v.ord m)) L = _
        rw [← hat L hLm]; exact hfw
      · rw [List.getElem?_eq_getElem hlt, hje]

/-- The greatest of the keys is the one before. -/
theorem prev0_spec (hM : Merged v.ord Ls M) (hb : Low b) {s : MI I} (herr : s.err = false) (hc : Cfg R Ls (fun _ => backAt v.ord b) s.ins) :
    Back v R Ls M (v.prev0 s).1 (backAt v.ord b M) ∧ (v.prev0 s).2 = (backAt v.ord b M).isOn := by
  obtain ⟨k1, k2⟩ := pick_spec (fun t k => decide (v.ord k < v.ord t)) (s.ins.map Prod.snd) (by intro a; simp) (by
      intro a b c h1 h2
      simp only [decide_eq_true_eq] at *
      exact lt_trans h2 h1) (s.ins.map Prod.snd) [] (if s.dir = .back then s.keyAt else none, s.index) rfl (by
      intro m hm
      by_cases hd : s.dir = .back
      · rw [if_pos hd] at hm; exact keyAt_keys hm
      · rw [if_neg hd] at hm; cases hm) (by intro m t _ h; cases h) (by intro _ t h; cases h)
  rw [List.length_nil] at k1 k2
  unfold MEnv.prev0
  dsimp only
  have hkey : ∀ L ∈ Ls, ∀ h : 0 < cut v.ord b L, some (L[cut v.ord b L - 1]'(by have := cut_le (ord := v.ord) (b := b) (l := L); omega)).1 ∈ s.ins.map Prod.snd := by
    intro L hL h
    obtain ⟨y, hy, hyL⟩ := List.getElem_of_mem hL
    have hL' : Ls[y]? = some L := by rw [List.getElem?_eq_getElem hy, hyL]
    obtain ⟨p, hp⟩ := hc.any.at' hL'
    have h1 := (hc.2 y p L hp hL').2
    have hfw : backAt v.ord b L = .on (cut v.ord b L - 1) := if_pos h
    dsimp only at h1
    rw [hfw] at h1
    refine List.mem_map.2 ⟨p, List.mem_of_getElem? hp, ?_⟩
    rw [h1]
    show (L[cut v.ord b L - 1]?).map Prod.fst = _
    rw [List.getElem?_eq_getElem (by have := cut_le (ord := v.ord) (b := b) (l := L); omega)]; rfl
  cases ha : (pick (fun t k => decide (v.ord k < v.ord t)) 0 (s.ins.map Prod.snd) (if s.dir = .back then s.keyAt else none, s.index)).1 with
  | none =>
    rw [if_pos rfl]
    have hall : ∀ L ∈ Ls, cut v.ord b L = 0 := by
      intro L hL
      by_contra hne
      exact k2 ha _ (hkey L hL (Nat.pos_of_ne_zero hne))
    have hcM : cut v.ord b M = 0 := by
      refine cut_eq (Nat.zero_le _) (by intro i hi; omega) ?_
      intro hi
      obtain ⟨L, hL, he⟩ := hM.mem.1 (List.getElem_mem hi)
      obtain ⟨q, hq, hqe⟩ := List.getElem_of_mem he
      rw [← hqe]
      exact cut_above hb (hM.each L hL) hq (by rw [hall L hL]; omega)
    have hp : backAt v.ord b M = .before := by unfold backAt; rw [hcM, if_neg (lt_irrefl _)]
    rw [hp]
    exact ⟨⟨herr, Or.inl ⟨rfl, rfl, hc.any⟩⟩, rfl⟩
  | some m =>
    rw [if_neg (by simp)]
    obtain ⟨h1, h2⟩ := k1 m ha
    generalize (pick (fun t k => decide (v.ord k < v.ord t)) 0 (s.ins.map Prod.snd) (if s.dir = .back then s.keyAt else none, s.index)).2 = x at h1
    rw [List.getElem?_map] at h1
    obtain ⟨p, hp, hpm⟩ := Option.map_eq_some_iff.1 h1
    obtain ⟨L, hL⟩ := hc.any.at hp
    obtain ⟨r1, r2⟩ := hc.2 x p L hp hL
    rw [hpm] at r2
    obtain ⟨hlt, hfw, hmk⟩ := sees_back r2.symm
    have hLm : L ∈ Ls := List.mem_of_getElem? hL
    have hcl : cut v.ord b L - 1 < L.length := by have := cut_le (ord := v.ord) (b := b) (l := L); omega
    have hbm : b (v.ord m) = true := by rw [← hmk]; exact cut_below (by omega)
    have hmax : ∀ L' ∈ Ls, ∀ i (h : i < cut v.ord b L'), v.ord (L'[i]'(lt_of_lt_of_le h cut_le)).1 ≤ v.ord m := by
      intro L' hL' i h
      have h3 := h2 _ (hkey L' hL' (by omega))
      have h4 : v.ord (L'[cut v.ord b L' - 1]'(by have := cut_le (ord := v.ord) (b := b) (l := L'); omega)).1 ≤ v.ord m := by simpa using h3
      rcases Nat.lt_or_ge i (cut v.ord b L' - 1) with hh | hh
      · exact le_trans (le_of_lt (grows_lt (hM.each L' hL') (by have := cut_le (ord := v.ord) (b := b) (l := L'); omega) hh)) h4
      · have : i = cut v.ord b L' - 1 := by omega
        simp only [this]; exact h4
    have hcut : ∀ L' ∈ Ls, cut v.ord b L' = cut v.ord (fun x => decide (x ≤ v.ord m)) L' := by
      intro L' hL'
      refine (cut_eq cut_le ?_ ?_).symm
      · intro i hi
        simpa using hmax L' hL' i hi
      · intro h
        have := cut_stop h
        simp only [decide_eq_false_iff_not]
        intro hle
        rw [hb _ _ hle hbm] at this; cases this
    have hat : ∀ L' ∈ Ls, backAt v.ord b L' = backAt v.ord (fun x => decide (x ≤ v.ord m)) L' := by
      intro L' hL'
      unfold backAt
      rw [hcut L' hL']
    have hem : L[cut v.ord b L - 1] ∈ M := hM.mem.2 ⟨L, hLm, List.getElem_mem _⟩
    obtain ⟨j, hj, hje⟩ := List.getElem_of_mem hem
    have hfst : M[j].1 = m := by rw [hje, hmk]
    have hcM : cut v.ord b M = j + 1 := by
      refine cut_eq hj ?_ ?_
      · intro i hi
        rcases Nat.lt_or_ge i j with hh | hh
        · have := grows_lt hM.grows hj hh
          rw [hfst] at this
          exact hb _ _ (le_of_lt this) hbm
        · have : i = j := by omega
          simp only [this]; rw [hfst]; exact hbm
      · intro hi
        by_contra hne
        have hbt : b (v.ord M[j + 1].1) = true := by simpa using hne
        obtain ⟨L', hL', he⟩ := hM.mem.1 (List.getElem_mem hi)
        obtain ⟨q, hq, hqe⟩ := List.getElem_of_mem he
        have hqc : q < cut v.ord b L' := by
          by_contra hge
          have := cut_above hb (hM.each L' hL') hq (not_lt.1 hge)
          rw [hqe, hbt] at this; cases this
        have h3 := hmax L' hL' q hqc
        have h5 := grows_lt hM.grows hi (Nat.lt_succ_self j)
        rw [hfst] at h5
        rw [hqe] at h3
        exact absurd (lt_of_lt_of_le h5 h3) (lt_irrefl _)
    have hfM : backAt v.ord b M = .on j := by unfold backAt; rw [hcM, if_pos (Nat.succ_pos _)]; rfl
    rw [hfM]
    refine ⟨⟨herr, Or.inr ⟨j, M[j], rfl, List.getElem?_eq_getElem hj, rfl, ?_, ?_⟩⟩, rfl⟩
    · rw [hfst]
      exact hc.congr (fun y L' h => hat L' (List.mem_of_getElem? h))
    · rw [hfst]
      refine ⟨p, L, cut v.ord b L - 1, hp, hL, ?_, ?_⟩
      · show backAt v.ord (fun x => decide (x ≤ v.ord m)) L = _
        rw [← hat L hLm]; exact hfw
      · rw [List.getElem?_eq_getElem hcl, hje]

/-! ### The calls -/

section
variable (hR : IsCursor v.ord v.kind R) (hM : Merged v.ord Ls M)
include hR hM

/-- All iterators are moved forwards to a cut. -/
theorem allFwd {s : MI I} {a : Ask} {b : O → Bool} (hb : Low b) (hgo : ∀ L p, goes v.ord L p a = fwdAt v.ord b L) (herr : s.err = false) (ha : Any R Ls s.ins) :
    (v.sweep (fun _ i => some (v.kind.ask i a)) 0 s.ins).2 = false ∧
    Fwd v R Ls M (v.next0 { s with ins := (v.sweep (fun _ i => some (v.kind.ask i a)) 0 s.ins).1, dir := .soi }).1 (fwdAt v.ord b M) ∧
    (v.next0 { s with ins := (v.sweep (fun _ i => some (v.kind.ask i a)) 0 s.ins).1, dir := .soi }).2 = (fwdAt v.ord b M).isOn := by
  obtain ⟨h1, h2⟩ := sweep_cfg (f := fun _ i => some (v.kind.ask i a)) (Q := fun _ => fwdAt v.ord b) hR ha (by
      intro y p L r hp hL hr
      cases hr
      obtain ⟨q, hq⟩ := ha.2 y p L hp hL
      have := hR.ask _ _ _ a hq
      rw [hgo] at this
      exact this) (by intro y p L _ _ h; cases h)
  exact ⟨h1, next0_spec hM hb herr h2⟩

theorem first_spec {s : MI I} {p : Place} (herr : s.err = false) (ha : Any R Ls s.ins) :
    Fwd v R Ls M (v.first s).1 (goes v.ord M p .first) ∧ (v.first s).2 = (goes v.ord M p .first).isOn := by
  obtain ⟨h1, h2⟩ := allFwd hR hM (a := .first) (b := fun _ => false) (by intro x y _ h; cases h) (fun _ _ => goes_first _) herr ha
  rw [goes_first]
  unfold MEnv.first
  rw [if_neg (by rw [herr]; simp)]
  dsimp only
  rw [if_neg (by rw [h1]; simp)]
  exact h2

theorem seek_spec {s : MI I} {p : Place} (k : Bytes) (herr : s.err = false) (ha : Any R Ls s.ins) :
    Fwd v R Ls M (v.seek s k).1 (goes v.ord M p (.seek k)) ∧ (v.seek s k).2 = (goes v.ord M p (.seek k)).isOn := by
  obtain ⟨h1, h2⟩ := allFwd hR hM (a := .seek k) (low_lt (v.ord k)) (fun _ _ => goes_seek _ _) herr ha
  rw [goes_seek]
  unfold MEnv.seek
  rw [if_neg (by rw [herr]; simp)]
  dsimp only
  rw [if_neg (by rw [h1]; simp)]
  exact h2

theorem last_spec {s : MI I} {p : Place} (herr : s.err = false) (ha : Any R Ls s.ins) :
    Back v R Ls M (v.last s).1 (goes v.ord M p .last) ∧ (v.last s).2 = (goes v.ord M p .last).isOn := by
  obtain ⟨h1, h2⟩ := sweep_cfg (f := fun _ i => some (v.kind.ask i .last)) (Q := fun _ => backAt v.ord (fun _ => true)) hR ha (by
      intro y p L r hp hL hr
      cases hr
      obtain ⟨q, hq⟩ := ha.2 y p L hp hL
      have := hR.ask _ _ _ .last hq
      rw [goes_last] at this
      exact this) (by intro y p L _ _ h; cases h)
  rw [goes_last]
  unfold MEnv.last
  rw [if_neg (by rw [herr]; simp)]
  dsimp only
  rw [if_neg (by rw [h1]; simp)]
  exact prev0_spec hM (by intro x y _ _; rfl) herr h2

/-- The cut behind an entry, in the list that has it. -/
theorem cut_own {L : List (Bytes × Bytes)} (hL : L ∈ Ls) {c : Nat} {e : Bytes × Bytes} (hc : L[c]? = some e) :
    cut v.ord (fun x => decide (x ≤ v.ord e.1)) L = c + 1 ∧ cut v.ord (fun x => decide (x < v.ord e.1)) L = c := by
  obtain ⟨hlt, he⟩ := List.getElem?_eq_some_iff.1 hc
  subst he
  have hg := hM.each L hL
  constructor
  · refine cut_eq hlt ?_ ?_
    · intro i hi
      simp only [decide_eq_true_eq]
      rcases Nat.lt_or_ge i c with h | h
      · exact le_of_lt (grows_lt hg hlt h)
      · have : i = c := by omega
        simp only [this]; exact le_refl _
    · intro h
      simpa using grows_lt hg h (Nat.lt_succ_self c)
  · refine cut_eq (le_of_lt hlt) ?_ ?_
    · intro i hi
      simpa using grows_lt hg hlt hi
    · intro _
      simp

/-- In the other lists the two cuts are the same. -/
theorem cut_other {x y : Nat} {L L' : List (Bytes × Bytes)} (hx : Ls[x]? = some L) (hy : Ls[y]? = some L') (hxy : y ≠ x) {c : Nat} {e : Bytes × Bytes}
    (hc : L[c]? = some e) : cut v.ord (fun z => decide (z ≤ v.ord e.1)) L' = cut v.ord (fun z => decide (z < v.ord e.1)) L' := by
  apply cut_congr
  intro e' he'
  have := hM.apart hy hx hxy he' (List.mem_of_getElem? hc)
  rw [decide_eq_decide]
  exact ⟨fun h => lt_of_le_of_ne h this, le_of_lt⟩

/-- The merged list has the entry, too. -/
theorem cut_all {j : Nat} {e : Bytes × Bytes} (hj : M[j]? = some e) :
    cut v.ord (fun x => decide (x ≤ v.ord e.1)) M = j + 1 ∧ cut v.ord (fun x => decide (x < v.ord e.1)) M = j := by
  refine cut_own (Ls := [M]) hR ⟨hM.grows, by simp, ?_⟩ (List.mem_singleton.2 rfl) hj
  intro L hL
  rw [List.mem_singleton.1 hL]
  exact hM.grows

theorem next_at {j : Nat} {e : Bytes × Bytes} (hj : M[j]? = some e) : goes v.ord M (.on j) .next = fwdAt v.ord (fun x => decide (x ≤ v.ord e.1)) M := by
  unfold fwdAt
  rw [(cut_all hR hM hj).1]
  rfl

theorem prev_at {j : Nat} {e : Bytes × Bytes} (hj : M[j]? = some e) : goes v.ord M (.on j) .prev = backAt v.ord (fun x => decide (x < v.ord e.1)) M := by
  unfold backAt
  rw [(cut_all hR hM hj).2]
  rfl

theorem step_spec {s : MI I} {j : Nat} {e : Bytes × Bytes} (hj : M[j]? = some e) (herr : s.err = false)
    (hc : Cfg R Ls (fun _ => fwdAt v.ord (fun x => decide (x < v.ord e.1))) s.ins)
    (hch : Chosen Ls s (fun _ => fwdAt v.ord (fun x => decide (x < v.ord e.1))) e) :
    Fwd v R Ls M (v.step s).1 (goes v.ord M (.on j) .next) ∧ (v.step s).2 = (goes v.ord M (.on j) .next).isOn := by
  obtain ⟨p0, L0, c, hp0, hL0, hP, hLc⟩ := hch
  have own := cut_own hR hM (List.mem_of_getElem? hL0) hLc
  obtain ⟨h1, h2⟩ := sweep_cfg (f := fun x i => if x = s.index then some (v.kind.ask i .next) else none)
    (Q := fun _ => fwdAt v.ord (fun x => decide (x ≤ v.ord e.1))) hR hc.any (by
      intro y p L r hp hL hr
      by_cases hy : y = s.index
      · rw [if_pos hy] at hr
        cases hr
        subst hy
        rw [hL0] at hL
        cases hL
        have h := (hc.2 _ p L0 hp hL0).1
        rw [hP] at h
        have := hR.ask _ _ _ .next h
        have hg : goes v.ord L0 (.on c) .next = fwdAt v.ord (fun x => decide (x ≤ v.ord e.1)) L0 := by
          unfold fwdAt; rw [own.1]; rfl
        rw [hg] at this
        exact this
      · rw [if_neg hy] at hr; cases hr) (by
      intro y p L hp hL hn
      by_cases hy : y = s.index
      · rw [if_pos hy] at hn; cases hn
      · have h := hc.2 y p L hp hL
        have hg : fwdAt v.ord (fun x => decide (x < v.ord e.1)) L = fwdAt v.ord (fun x => decide (x ≤ v.ord e.1)) L := by
          unfold fwdAt; rw [cut_other hR hM hL0 hL hy hLc]
        dsimp only at h
        rw [hg] at h
        exact h)
  rw [next_at hR hM hj]
  unfold MEnv.step
  dsimp only
  rw [if_neg (by rw [h1]; simp)]
  exact next0_spec hM (low_le _) herr h2

/-- Going back from an entry: the iterator chosen is on it, the others are before it. -/
theorem back_spec {s : MI I} {j : Nat} {e : Bytes × Bytes} (hj : M[j]? = some e) (herr : s.err = false) {P : Nat → List (Bytes × Bytes) → Place}
    (hc : Cfg R Ls P s.ins) (hch : Chosen Ls s P e) (ho : ∀ y L, Ls[y]? = some L → y ≠ s.index → P y L = backAt v.ord (fun x => decide (x < v.ord e.1)) L) :
    Back v R Ls M (v.back s).1 (goes v.ord M (.on j) .prev) ∧ (v.back s).2 = (goes v.ord M (.on j) .prev).isOn := by
  obtain ⟨p0, L0, c, hp0, hL0, hP, hLc⟩ := hch
  have own := cut_own hR hM (List.mem_of_getElem? hL0) hLc
  obtain ⟨h1, h2⟩ := sweep_cfg (f := fun x i => if x = s.index then some (v.kind.ask i .prev) else none)
    (Q := fun _ => backAt v.ord (fun x => decide (x < v.ord e.1))) hR hc.any (by
      intro y p L r hp hL hr
      by_cases hy : y = s.index
      · rw [if_pos hy] at hr
        cases hr
        subst hy
        rw [hL0] at hL
        cases hL
        have h := (hc.2 _ p L0 hp hL0).1
        rw [hP] at h
        have := hR.ask _ _ _ .prev h
        have hg : goes v.ord L0 (.on c) .prev = backAt v.ord (fun x => decide (x < v.ord e.1)) L0 := by
          unfold backAt; rw [own.2]; rfl
        rw [hg] at this
        exact this
      · rw [if_neg hy] at hr; cases hr) (by
      intro y p L hp hL hn
      by_cases hy : y = s.index
      · rw [if_pos hy] at hn; cases hn
      · have h := hc.2 y p L hp hL
        rw [ho y L hL hy] at h
        exact h)
  rw [prev_at hR hM hj]
  unfold MEnv.back
  dsimp only
  rw [if_neg (by rw [h1]; simp)]
  exact prev0_spec hM (low_lt _) herr h2

theorem Chosen.keyAt {s : MI I} {P : Nat → List (Bytes × Bytes) → Place} {e : Bytes × Bytes} (hc : Cfg R Ls P s.ins) (hch : Chosen Ls s P e) :
    s.keyAt = some e.1 ∧ (s.ins[s.index]?).bind (fun p => p.2.bind (fun k => (v.kind.shows p.1).map (fun e => (k, e.2)))) = some e := by
  obtain ⟨p, L, c, hp, hL, hP, hLc⟩ := hch
  obtain ⟨r1, r2⟩ := hc.2 _ p L hp hL
  rw [hP] at r1 r2
  have hs : (sees L (.on c)).2.2 = some e := hLc
  rw [hs] at r2
  have hk : p.2 = some e.1 := r2
  have hsh := hR.shows _ _ _ r1
  rw [hs] at hsh
  constructor
  · unfold MI.keyAt
    rw [hp]; exact hk
  · rw [hp, Option.bind_some, hk, Option.bind_some, hsh]; rfl

/-- Each call goes where the cursor goes. -/
theorem merge_ask {s : MI I} {p : Place} (h : Fwd v R Ls M s p ∨ Back v R Ls M s p) (a : Ask) :
    (Fwd v R Ls M (v.ask s a).1 (goes v.ord M p a) ∨ Back v R Ls M (v.ask s a).1 (goes v.ord M p a)) ∧ (v.ask s a).2 = (goes v.ord M p a).isOn := by
  have herr : s.err = false := by rcases h with h | h <;> exact h.1
  have hany : Any R Ls s.ins := by
    rcases h with h | h
    · rcases h.2 with h | ⟨_, _, _, _, _, h, _⟩
      · exact h.2.2
      · exact h.any
    · rcases h.2 with h | ⟨_, _, _, _, _, h, _⟩
      · exact h.2.2
      · exact h.any
  cases a with
  | first => exact ⟨Or.inl (first_spec hR hM herr hany).1, (first_spec hR hM herr hany).2⟩
  | last => exact ⟨Or.inr (last_spec hR hM herr hany).1, (last_spec hR hM herr hany).2⟩
  | seek k => exact ⟨Or.inl (seek_spec hR hM k herr hany).1, (seek_spec hR hM k herr hany).2⟩
  | next =>
    show (Fwd v R Ls M (v.next s).1 _ ∨ Back v R Ls M (v.next s).1 _) ∧ (v.next s).2 = _
    unfold MEnv.next
    rcases h with h | h
    · rcases h.2 with ⟨rfl, hd, _⟩ | ⟨j, e, rfl, hj, hd, hc, hch⟩
      · rw [if_pos (Or.inl hd)]
        exact ⟨Or.inl h, rfl⟩
      · rw [if_neg (by rw [hd, herr]; simp), if_neg (by rw [hd]; simp), if_neg (by rw [hd]; simp)]
        obtain ⟨x1, x2⟩ := step_spec hR hM hj herr hc hch
        exact ⟨Or.inl x1, x2⟩
    · rcases h.2 with ⟨rfl, hd, _⟩ | ⟨j, e, rfl, hj, hd, hc, hch⟩
      · rw [if_neg (by rw [hd, herr]; simp), if_pos hd]
        obtain ⟨x1, x2⟩ := first_spec hR hM (p := .before) herr hany
        exact ⟨Or.inl x1, x2⟩
      · rw [if_neg (by rw [hd, herr]; simp), if_neg (by rw [hd]; simp), if_pos hd]
        dsimp only
        rw [(Chosen.keyAt hR hM hc hch).1, Option.getD_some]
        obtain ⟨x1, x2⟩ := seek_spec hR hM (p := .before) e.1 herr hany
        have hgo : goes v.ord M .before (.seek e.1) = .on j := by
          rw [goes_seek]
          unfold fwdAt
          rw [(cut_all hR hM hj).2, if_pos (List.getElem?_eq_some_iff.1 hj).1]
        rw [hgo] at x1 x2
        rw [if_pos (by rw [x2]; rfl)]
        rcases x1.2 with ⟨q, _⟩ | ⟨j', e', q, hj', _, hc', hch'⟩
        · cases q
        · cases q
          obtain ⟨y1, y2⟩ := step_spec hR hM hj' x1.1 hc' hch'
          exact ⟨Or.inl y1, y2⟩
  | prev =>
    show (Fwd v R Ls M (v.prev s).1 _ ∨ Back v R Ls M (v.prev s).1 _) ∧ (v.prev s).2 = _
    unfold MEnv.prev
    rcases h with h | h
    · rcases h.2 with ⟨rfl, hd, _⟩ | ⟨j, e, rfl, hj, hd, hc, hch⟩
      · rw [if_neg (by rw [hd, herr]; simp), if_pos hd]
        obtain ⟨x1, x2⟩ := last_spec hR hM (p := .past) herr hany
        exact ⟨Or.inr x1, x2⟩
      · rw [if_neg (by rw [hd, herr]; simp), if_neg (by rw [hd]; simp), if_pos hd]
        dsimp only
        rw [(Chosen.keyAt hR hM hc hch).1, Option.getD_some]
        obtain ⟨h1, h2⟩ := sweep_cfg (f := fun x i => if x = s.index then none else some (v.kind.turn e.1 i))
          (Q := fun y => if y = s.index then fwdAt v.ord (fun x => decide (x < v.ord e.1)) else backAt v.ord (fun x => decide (x < v.ord e.1))) hR hany (by
            intro y p L r hp hL hr
            by_cases hy : y = s.index
            · rw [if_pos hy] at hr; cases hr
            · rw [if_neg hy] at hr ⊢
              cases hr
              obtain ⟨q, hq⟩ := hany.2 y p L hp hL
              obtain ⟨t1, t2, _⟩ := hR.ask _ _ _ (.seek e.1) hq
              rw [← goes_turn q e.1]
              unfold Kind.turn
              dsimp only
              rw [t2]
              by_cases ht : (goes v.ord L q (.seek e.1)).isOn = true
              · rw [if_pos ht, if_pos ht]
                exact hR.ask _ _ _ .prev t1
              · rw [if_neg ht, if_neg ht]
                exact hR.ask _ _ _ .last t1) (by
            intro y p L hp hL hn
            by_cases hy : y = s.index
            · rw [if_pos hy]
              exact hc.2 y p L hp hL
            · rw [if_neg hy] at hn; cases hn)
        rw [if_neg (by rw [h1]; simp)]
        obtain ⟨p0, L0, c, hp0, hL0, hP, hLc⟩ := hch
        obtain ⟨p1, hp1⟩ := h2.any.at' hL0
        obtain ⟨x1, x2⟩ := back_spec hR hM (s := { s with ins := (v.sweep (fun x i => if x = s.index then none else some (v.kind.turn e.1 i)) 0 s.ins).1 }) hj herr h2
          ⟨p1, L0, c, hp1, hL0, by dsimp only; rw [if_pos rfl]; exact hP, hLc⟩ (by
            intro y L _ hy
            rw [if_neg hy])
        exact ⟨Or.inr x1, x2⟩
    · rcases h.2 with ⟨rfl, hd, _⟩ | ⟨j, e, rfl, hj, hd, hc, hch⟩
      · rw [if_pos (Or.inl hd)]
        exact ⟨Or.inr h, rfl⟩
      · rw [if_neg (by rw [hd, herr]; simp), if_neg (by rw [hd]; simp), if_neg (by rw [hd]; simp)]
        have hL0 := hch
        obtain ⟨p0, L0, c, hp0, hL0, hP, hLc⟩ := hL0
        obtain ⟨x1, x2⟩ := back_spec hR hM hj herr hc hch (by
          intro y L hL hy
          show backAt v.ord (fun x => decide (x ≤ v.ord e.1)) L = _
          unfold backAt
          rw [cut_other hR hM hL0 hL hy hLc])
        exact ⟨Or.inr x1, x2⟩

theorem merge_shows {s : MI I} {p : Place} (h : Fwd v R Ls M s p ∨ Back v R Ls M s p) : s.err = false ∧ v.shows s = (sees M p).2.2 := by
  unfold MEnv.shows
  rcases h with h | h
  · refine ⟨h.1, ?_⟩
    rcases h.2 with ⟨rfl, hd, _⟩ | ⟨j, e, rfl, hj, hd, hc, hch⟩
    · rw [if_pos (Or.inr (Or.inr hd))]; rfl
    · rw [if_neg (by rw [hd, h.1]; simp), (Chosen.keyAt hR hM hc hch).2]
      exact hj.symm
  · refine ⟨h.1, ?_⟩
    rcases h.2 with ⟨rfl, hd, _⟩ | ⟨j, e, rfl, hj, hd, hc, hch⟩
    · rw [if_pos (Or.inr (Or.inl hd))]; rfl
    · rw [if_neg (by rw [hd, h.1]; simp), (Chosen.keyAt hR hM hc hch).2]
      exact hj.symm

theorem merge_asks (as : List Ask) {s : MI I} {p : Place} (h : Fwd v R Ls M s p ∨ Back v R Ls M s p) : v.asks s as = cursor v.ord M p as := by
  induction as generalizing s p with
  | nil => rfl
  | cons a as ih =>
    obtain ⟨h1, h2⟩ := merge_ask hR hM h a
    obtain ⟨h3, h4⟩ := merge_shows hR hM h1
    show ((v.ask s a).1.err, (v.ask s a).2, v.shows (v.ask s a).1) :: v.asks (v.ask s a).1 as = sees M (goes v.ord M p a) :: cursor v.ord M (goes v.ord M p a) as
    rw [ih h1, h2, h3, h4]
    congr 1
    cases goes v.ord M p a <;> rfl

end

/-- **The merged iterator over cursors is a cursor over all their entries, in order.**  The cursors
may stand anywhere. -/
theorem merged_iterator_is_cursor (v : MEnv O I) (R : I → List (Bytes × Bytes) → Place → Prop) (hR : IsCursor v.ord v.kind R)
    {is : List I} {Ls : List (List (Bytes × Bytes))} (his : List.Forall₂ (fun i L => ∃ p, R i L p) is Ls) (hLs : ∀ L ∈ Ls, Grows v.ord L)
    {M : List (Bytes × Bytes)} (hM : Grows v.ord M) (hperm : M.Perm Ls.flatten) (as : List Ask) :
    v.asks (MI.new is) as = cursor v.ord M .before as := by
  refine merge_asks hR ⟨hM, hperm, hLs⟩ as (Or.inr ⟨rfl, Or.inl ⟨rfl, rfl, ?_⟩⟩)
  refine ⟨by show (is.map _).length = _; rw [List.length_map]; exact his.length_eq, ?_⟩
  intro y p L hp hL
  have hp' : (is.map (fun i => (i, (none : Option Bytes))))[y]? = some p := hp
  rw [List.getElem?_map] at hp'
  obtain ⟨i, hi, rfl⟩ := Option.map_eq_some_iff.1 hp'
  obtain ⟨hy1, hi1⟩ := List.getElem?_eq_some_iff.1 hi
  obtain ⟨hy2, hL1⟩ := List.getElem?_eq_some_iff.1 hL
  have := (List.forall₂_iff_get.1 his).2 y hy1 hy2
  simp only [List.get_eq_getElem] at this
  rw [hi1, hL1] at this
  exact this

theorem tabKind_cursor (o : Opts O) : IsCursor o.ord tabKind (TabAt o) := by
  constructor
  · rintro ⟨w, s⟩ l p a ⟨X, Ls, IAt, DAt, y, ho, hat, rfl⟩
    have ho' : w.o = o := ho
    subst ho'
    obtain ⟨h1, h2⟩ := ask2 y hat a
    exact ⟨⟨X, Ls, IAt, DAt, y, rfl, h1, rfl⟩, h2, h1.1⟩
  · rintro ⟨w, s⟩ l p ⟨X, Ls, IAt, DAt, y, ho, hat, rfl⟩
    have := sees2 y _ _ hat
    exact congrArg (fun z => z.2.2) this

theorem listKind_cursor (ord : Bytes → O) : IsCursor ord (listKind ord) (fun x l p => x = (l, p)) := by
  constructor
  · rintro x l p a rfl
    refine ⟨rfl, ?_, rfl⟩
    show (sees l (goes ord l p a)).2.1 = _
    cases goes ord l p a <;> rfl
  · rintro x l p rfl
    rfl

/-- `o.ord`-growing lists of entries, none empty and no key empty, and the iterator of the table made of it. -/
def tableIter (o : Opts O) (start limit : Option Bytes) (strict : Bool) (es : List (Bytes × Bytes)) : Option (IEnv O) :=
  (tableOf o es).bind (fun w => (openT o w.file).bind (fun r => r.iter o start limit strict))

/-- **Tables merged.**  Entries are spread over tables in any way; a merged iterator over the iterators
of the tables, all with the same bounds, is a cursor over all entries within the bounds, in order. -/
theorem merged_tables {o : Opts O} {fk : Bytes → Bytes} (g : Good o fk) {ess : List (List (Bytes × Bytes))}
    (hess : ∀ es ∈ ess, es ≠ [] ∧ (∀ e ∈ es, e.1 ≠ []) ∧ Grows o.ord es)
    (hsize : ∀ es ∈ ess, ∀ w, tableOf o es = some w → (∀ d ∈ w.log, d.length < 2 ^ 32) ∧ w.file.length < 2 ^ 63)
    {all : List (Bytes × Bytes)} (hall : Grows o.ord all) (hperm : all.Perm ess.flatten) (start limit : Option Bytes) (strict strict' : Bool) :
    ∃ vs, ess.mapM (tableIter o start limit strict) = some vs ∧
      ∀ as, (⟨o.ord, tabKind, strict'⟩ : MEnv O (IEnv O × II)).asks (MI.new (vs.map (fun v => (v, v.new)))) as =
        cursor o.ord (between o.ord start limit all) .before as := by
  have key : ∀ ess : List (List (Bytes × Bytes)), (∀ es ∈ ess, es ≠ [] ∧ (∀ e ∈ es, e.1 ≠ []) ∧ Grows o.ord es) →
      (∀ es ∈ ess, ∀ w, tableOf o es = some w → (∀ d ∈ w.log, d.length < 2 ^ 32) ∧ w.file.length < 2 ^ 63) →
      ∃ vs, ess.mapM (tableIter o start limit strict) = some vs ∧
        List.Forall₂ (fun i L => ∃ p, TabAt o i L p) (vs.map (fun v => (v, v.new))) (ess.map (between o.ord start limit)) := by
    intro ess
    induction ess with
    | nil => intro _ _; exact ⟨[], rfl, .nil⟩
    | cons es ess ih =>
      intro h1 h2
      obtain ⟨vs, hv, hf⟩ := ih (fun x hx => h1 x (List.mem_cons_of_mem _ hx)) (fun x hx => h2 x (List.mem_cons_of_mem _ hx))
      obtain ⟨a, b, c⟩ := h1 es List.mem_cons_self
      obtain ⟨w, hw, hw2⟩ := table_at g a b c
      obtain ⟨s1, s2⟩ := h2 es List.mem_cons_self w hw
      obtain ⟨r, hr, hr2⟩ := hw2 s1 s2
      obtain ⟨v, hv1, hv2, _⟩ := hr2 start limit strict
      have ht : tableIter o start limit strict es = some v := by
        unfold tableIter
        rw [hw, Option.bind_some, hr, Option.bind_some, hv1]
      exact ⟨v :: vs, by rw [List.mapM_cons, ht, hv]; rfl, .cons ⟨_, hv2⟩ hf⟩
  obtain ⟨vs, hv, hf⟩ := key ess hess hsize
  refine ⟨vs, hv, fun as => ?_⟩
  refine merged_iterator_is_cursor ⟨o.ord, tabKind, strict'⟩ (TabAt o) (tabKind_cursor o) hf ?_ (M := between o.ord start limit all) ?_ ?_ as
  · intro L hL
    obtain ⟨es, hes, rfl⟩ := List.mem_map.1 hL
    exact (hess es hes).2.2.sublist List.filter_sublist
  · exact hall.sublist List.filter_sublist
  · have := hperm.filter (fun e => fromKey o.ord start e && toKey o.ord limit e)
    rw [List.filter_flatten] at this
    exact this

end Verif.Tab
