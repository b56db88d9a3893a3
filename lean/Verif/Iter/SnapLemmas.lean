import Verif.Iter.StorageLemmas

/-! # Lemmas about the iterator over the storage at a snapshot -/

namespace Verif.Iter

open Verif.Bytes Verif.Consensus Verif.State

/-! ## Seeking in an ordered list -/

abbrev Sorted (l : List Entry) : Prop := l.Pairwise (fun a b => lt a.1 b.1 = true)

theorem seek_index {l : List Entry} (hs : Sorted l) (K : Bytes) {i : Nat} {e : Entry} (h : l[i]? = some e) :
    lt e.1 K = true ↔ i < (l.takeWhile (fun e => lt e.1 K)).length := by
  induction l generalizing i with
  | nil => cases h
  | cons a l ih =>
    obtain ⟨h1, h2⟩ := List.pairwise_cons.mp hs
    rw [List.takeWhile_cons]
    cases i with
    | zero =>
      simp only [List.getElem?_cons_zero, Option.some.injEq] at h
      subst h
      split
      · rename_i ha; simp [ha]
      · rename_i ha; simp [ha]
    | succ i =>
      simp only [List.getElem?_cons_succ] at h
      split
      · rw [ih h2 h]; simp
      · rename_i ha
        simp only [List.length_nil, Nat.not_lt_zero, iff_false]
        intro hb
        exact ha (lt_trans (h1 e (List.mem_of_getElem? h)) hb)

theorem sorted_index {l : List Entry} (hs : Sorted l) {i j : Nat} {a b : Entry} (hi : l[i]? = some a) (hj : l[j]? = some b) (h : i < j) :
    lt a.1 b.1 = true := by
  obtain ⟨h1, rfl⟩ := List.getElem?_eq_some_iff.mp hi
  obtain ⟨h2, rfl⟩ := List.getElem?_eq_some_iff.mp hj
  exact (List.pairwise_iff_getElem.mp hs) i j h1 h2 h

theorem seek_entry (c : Cursor) (K : Bytes) : (c.seek K).entry = c.items[(c.items.takeWhile (fun e => lt e.1 K)).length]? := by
  simp [Cursor.seek, Cursor.entry]

theorem seek_some {c : Cursor} (hs : Sorted c.items) {K : Bytes} {e : Entry} (h : (c.seek K).entry = some e) :
    e ∈ c.items ∧ lt e.1 K = false ∧ ∀ e' ∈ c.items, lt e'.1 K = false → e' = e ∨ lt e.1 e'.1 = true := by
  rw [seek_entry] at h
  have hlt : ∀ {j : Nat} {x : Entry}, c.items[j]? = some x → (lt x.1 K = true ↔ j < _) := fun hj => seek_index hs K hj
  refine ⟨List.mem_of_getElem? h, ?_, ?_⟩
  · cases hl : lt e.1 K with
    | false => rfl
    | true => exact absurd ((hlt h).mp hl) (Nat.lt_irrefl _)
  · intro e' he' hk
    obtain ⟨j, hj⟩ := List.mem_iff_getElem?.mp he'
    have h1 : ¬ j < (c.items.takeWhile (fun e => lt e.1 K)).length := by rw [← hlt hj, hk]; simp
    rcases Nat.lt_or_ge (c.items.takeWhile (fun e => lt e.1 K)).length j with h2 | h2
    · exact .inr (sorted_index hs h hj h2)
    · have : j = (c.items.takeWhile (fun e => lt e.1 K)).length := by omega
      subst this
      rw [h] at hj
      exact .inl (Option.some.inj hj).symm

theorem seek_none {c : Cursor} (hs : Sorted c.items) {K : Bytes} (h : (c.seek K).entry = none) : ∀ e' ∈ c.items, lt e'.1 K = true := by
  intro e' he'
  rw [seek_entry, List.getElem?_eq_none_iff] at h
  obtain ⟨j, hj⟩ := List.mem_iff_getElem?.mp he'
  rw [seek_index hs K hj]
  have := (List.getElem?_eq_some_iff.mp hj).1
  omega

theorem seek_prev_some {c : Cursor} (hs : Sorted c.items) {K : Bytes} {e : Entry} (h : (c.seek K).prev.entry = some e) :
    e ∈ c.items ∧ lt e.1 K = true ∧ ∀ e' ∈ c.items, lt e'.1 K = true → e' = e ∨ lt e'.1 e.1 = true := by
  simp only [Cursor.seek, Cursor.prev, Cursor.entry, Nat.add_sub_cancel] at h
  split at h
  · rename_i hp
    refine ⟨List.mem_of_getElem? h, (seek_index hs K h).mpr (by omega), ?_⟩
    intro e' he' hk
    obtain ⟨j, hj⟩ := List.mem_iff_getElem?.mp he'
    have h1 := (seek_index hs K hj).mp hk
    rcases Nat.lt_or_ge j ((c.items.takeWhile (fun e => lt e.1 K)).length - 1) with h2 | h2
    · exact .inr (sorted_index hs hj h h2)
    · have : j = (c.items.takeWhile (fun e => lt e.1 K)).length - 1 := by omega
      subst this
      rw [h] at hj
      exact .inl (Option.some.inj hj).symm
  · cases h

theorem seek_prev_none {c : Cursor} (hs : Sorted c.items) {K : Bytes} (h : (c.seek K).prev.entry = none) :
    ∀ e' ∈ c.items, lt e'.1 K = false := by
  intro e' he'
  obtain ⟨j, hj⟩ := List.mem_iff_getElem?.mp he'
  have hle := takeWhile_le (fun e : Entry => lt e.1 K) c.items
  simp only [Cursor.seek, Cursor.prev, Cursor.entry, Nat.add_sub_cancel] at h
  split at h
  · rw [List.getElem?_eq_none_iff] at h; omega
  · cases hl : lt e'.1 K with
    | false => rfl
    | true => have := (seek_index hs K hj).mp hl; omega

theorem valid_iff {c : Cursor} : c.valid = true ↔ ∃ e, c.entry = some e := by
  simp only [Cursor.valid, Cursor.entry, Bool.and_eq_true, decide_eq_true_eq]
  constructor
  · rintro ⟨h1, h2⟩
    rw [if_pos h1]
    exact ⟨_, List.getElem?_eq_getElem (by omega)⟩
  · rintro ⟨e, h⟩
    split at h
    · have := (List.getElem?_eq_some_iff.mp h).1
      omega
    · cases h

theorem valid_false {c : Cursor} : c.valid = false ↔ c.entry = none := by
  rw [← Bool.not_eq_true, valid_iff]
  cases c.entry <;> simp

theorem last_seek {c : Cursor} {K : Bytes} (h : (c.seek K).entry = none) : c.last = (c.seek K).prev := by
  have hle := takeWhile_le (fun e : Entry => lt e.1 K) c.items
  rw [seek_entry, List.getElem?_eq_none_iff] at h
  simp only [Cursor.last, Cursor.seek, Cursor.prev, Nat.add_sub_cancel]
  congr 1
  omega

/-! ## Raw keys with a height -/

/-- Every key consists of a trunk of `T` bytes and a height that is not the greatest one. -/
def Shaped (T : Nat) (l : List Entry) : Prop := ∀ e ∈ l, ∃ t j, t.length = T ∧ j < 2 ^ 64 - 1 ∧ e.1 = t ++ be 8 j

theorem trunk_append (t : Bytes) (j : Nat) : trunk (t ++ be 8 j) = t := by
  simp [trunk]

theorem stamp_append (t : Bytes) {j : Nat} (hj : j < 2 ^ 64) : stamp (t ++ be 8 j) = j := by
  have : stamp (t ++ be 8 j) = num (be 8 j) := by simp [stamp]
  rw [this, num_be, Nat.mod_eq_of_lt (by norm_num; omega)]

theorem Shaped.eq {T : Nat} {l : List Entry} (h : Shaped T l) {e : Entry} (he : e ∈ l) :
    e.1 = trunk e.1 ++ be 8 (stamp e.1) ∧ (trunk e.1).length = T ∧ stamp e.1 < 2 ^ 64 - 1 := by
  obtain ⟨t, j, h1, h2, h3⟩ := h e he
  rw [h3, trunk_append, stamp_append t (by omega)]
  exact ⟨rfl, h1, h2⟩

theorem lt_pair {t t' : Bytes} {j j' : Nat} (hl : t.length = t'.length) (hj : j < 2 ^ 64) (hj' : j' < 2 ^ 64) :
    lt (t ++ be 8 j) (t' ++ be 8 j') = true ↔ lt t t' = true ∨ (t = t' ∧ j < j') := by
  rw [lt, bcmp_append hl, bcmp_eq_compare (a := be 8 j) (b := be 8 j') (by simp), num_be, num_be, Nat.mod_eq_of_lt (by norm_num; omega),
    Nat.mod_eq_of_lt (by norm_num; omega)]
  cases h : bcmp t t' with
  | lt => simp [lt, h]
  | gt =>
    have : t ≠ t' := by rintro rfl; rw [bcmp_self] at h; cases h
    simp [lt, h, this]
  | eq =>
    have := eq_of_bcmp h
    subst this
    simp [lt, h, Nat.compare_eq_lt]

/-- The entry of a trunk that counts at height `h`: the one of the greatest height that is not above `h`. -/
def IsAt (R : List Entry) (h : Nat) (e : Entry) : Prop :=
  e ∈ R ∧ stamp e.1 ≤ h ∧ ∀ e' ∈ R, trunk e'.1 = trunk e.1 → stamp e'.1 ≤ h → stamp e'.1 ≤ stamp e.1

theorem key_of_entry {c : Cursor} {e : Entry} (h : c.entry = some e) : c.key = e.1 := by simp [Cursor.key, h]

theorem correct_spec {R : List Entry} {T : Nat} (hs : Sorted R) (hR : Shaped T R) {s : Snap} (hi : s.cur.items = R) (hh : s.height < 2 ^ 64)
    {t : Bytes} (ht : trunk s.lastKey = t) (hT : t.length = T) :
    s.correct.1.cur.items = R ∧ s.correct.1.height = s.height ∧ s.correct.1.ok = s.ok ∧ s.correct.1.lastKey = t ++ be 8 s.height ∧
      ((s.correct.2 = true ∧ ∃ e, s.correct.1.cur.entry = some e ∧ trunk e.1 = t ∧ IsAt R s.height e) ∨
        (s.correct.2 = false ∧ ∀ e ∈ R, trunk e.1 = t → s.height < stamp e.1)) := by
  subst hi
  have hkeylt : ∀ e ∈ s.cur.items, (lt e.1 (t ++ be 8 s.height) = true ↔ lt (trunk e.1) t = true ∨ (trunk e.1 = t ∧ stamp e.1 < s.height)) := by
    intro e he
    obtain ⟨h1, h2, h3⟩ := hR.eq he
    have := lt_pair (t := trunk e.1) (t' := t) (j := stamp e.1) (j' := s.height) (by rw [h2, hT]) (by omega) hh
    rw [← h1] at this
    exact this
  -- the case of the entry before
  have hprev : (((s.cur.seek (t ++ be 8 s.height)).prev.valid && decide (trunk (s.cur.seek (t ++ be 8 s.height)).prev.key = t)) = true ∧
        (∀ e ∈ s.cur.items, ¬ (trunk e.1 = t ∧ stamp e.1 = s.height)) →
        ∃ e, (s.cur.seek (t ++ be 8 s.height)).prev.entry = some e ∧ trunk e.1 = t ∧ IsAt s.cur.items s.height e) ∧
      (((s.cur.seek (t ++ be 8 s.height)).prev.valid && decide (trunk (s.cur.seek (t ++ be 8 s.height)).prev.key = t)) = false →
        (∀ e ∈ s.cur.items, ¬ (trunk e.1 = t ∧ stamp e.1 = s.height)) →
        ∀ e ∈ s.cur.items, trunk e.1 = t → s.height < stamp e.1) := by
    constructor
    · rintro ⟨h1, hno⟩
      rw [Bool.and_eq_true, decide_eq_true_eq, valid_iff] at h1
      obtain ⟨⟨e, he⟩, h2⟩ := h1
      rw [key_of_entry he] at h2
      obtain ⟨h3, h4, h5⟩ := seek_prev_some hs he
      refine ⟨e, he, h2, h3, ?_, ?_⟩
      · rcases (hkeylt e h3).mp h4 with h | h
        · rw [h2, lt_irrefl] at h; cases h
        · omega
      · intro e' he' ht' hst
        rw [h2] at ht'
        have hne : stamp e'.1 ≠ s.height := fun h => hno e' he' ⟨ht', h⟩
        rcases h5 e' he' ((hkeylt e' he').mpr (.inr ⟨ht', by omega⟩)) with h | h
        · rw [h]
        · obtain ⟨a1, a2, a3⟩ := hR.eq he'
          obtain ⟨b1, b2, b3⟩ := hR.eq h3
          rw [a1, b1, lt_pair (by rw [a2, b2]) (by omega) (by omega), ht', h2, lt_irrefl] at h
          rcases h with h | h
          · cases h
          · omega
    · intro h1 hno e he ht'
      by_contra hcon
      have hlt : lt e.1 (t ++ be 8 s.height) = true :=
        (hkeylt e he).mpr (.inr ⟨ht', by have := hno e he; rw [not_and] at this; have := this ht'; omega⟩)
      cases hp : (s.cur.seek (t ++ be 8 s.height)).prev.entry with
      | none => rw [seek_prev_none hs hp e he] at hlt; cases hlt
      | some x =>
        obtain ⟨h3, h4, h5⟩ := seek_prev_some hs hp
        have hv : (s.cur.seek (t ++ be 8 s.height)).prev.valid = true := valid_iff.mpr ⟨x, hp⟩
        rw [hv, key_of_entry hp, Bool.true_and, decide_eq_false_iff_not] at h1
        rcases h5 e he hlt with h | h
        · rw [h] at ht'; exact h1 ht'
        · obtain ⟨a1, a2, a3⟩ := hR.eq he
          obtain ⟨b1, b2, b3⟩ := hR.eq h3
          rw [a1, b1, lt_pair (by rw [a2, b2]) (by omega) (by omega), ht'] at h
          rcases h with h | h
          · rcases (hkeylt x h3).mp h4 with h' | h'
            · exact absurd h' (by rw [lt_asymm h]; simp)
            · exact h1 h'.1
          · exact h1 h.1.symm
  have hcase : ∀ b : Bool, ((s.cur.seek (t ++ be 8 s.height)).prev.valid && decide (trunk (s.cur.seek (t ++ be 8 s.height)).prev.key = t)) = b →
      (∀ e ∈ s.cur.items, ¬ (trunk e.1 = t ∧ stamp e.1 = s.height)) →
      (b = true ∧ ∃ e, (s.cur.seek (t ++ be 8 s.height)).prev.entry = some e ∧ trunk e.1 = t ∧ IsAt s.cur.items s.height e) ∨
      (b = false ∧ ∀ e ∈ s.cur.items, trunk e.1 = t → s.height < stamp e.1) := by
    intro b hb hno
    cases b with
    | true => exact .inl ⟨rfl, hprev.1 ⟨hb, hno⟩⟩
    | false => exact .inr ⟨rfl, hprev.2 hb hno⟩
  unfold Snap.correct
  simp only [ht]
  cases hv : (s.cur.seek (t ++ be 8 s.height)).valid with
  | true =>
    simp only [if_true]
    obtain ⟨x, hx⟩ := valid_iff.mp hv
    obtain ⟨h3, h4, h5⟩ := seek_some hs hx
    rw [key_of_entry hx]
    split
    · rename_i hc
      simp only [Bool.and_eq_true, decide_eq_true_eq] at hc
      refine ⟨rfl, rfl, rfl, rfl, .inl ⟨rfl, x, hx, hc.1, h3, hc.2, ?_⟩⟩
      intro e' he' ht' hst
      have hge : ¬ lt x.1 (t ++ be 8 s.height) = true := by rw [h4]; simp
      rw [hkeylt x h3, not_or, not_and] at hge
      have := hge.2 hc.1
      omega
    · rename_i hc
      refine ⟨rfl, rfl, rfl, rfl, ?_⟩
      refine hcase _ rfl ?_
      rintro e he ⟨h1, h2⟩
      have hnl : lt e.1 (t ++ be 8 s.height) = false := by
        rw [← Bool.not_eq_true, hkeylt e he, h1, lt_irrefl, h2]; simp
      rcases h5 e he hnl with h | h
      · rw [h] at h1 h2
        exact hc (by simp [h1, h2])
      · obtain ⟨a1, a2, a3⟩ := hR.eq he
        rw [h1, h2] at a1
        rw [← a1, h] at h4
        cases h4
  | false =>
    simp only [Bool.false_eq_true, if_false]
    have hn := valid_false.mp hv
    have hl : (s.cur.seek (t ++ be 8 s.height)).last = (s.cur.seek (t ++ be 8 s.height)).prev := by
      rw [← last_seek hn]; rfl
    rw [hl]
    refine ⟨by trivial, by trivial, by trivial, by trivial, ?_⟩
    refine hcase _ rfl ?_
    rintro e he ⟨h1, h2⟩
    have := seek_none hs hn e he
    rw [hkeylt e he, h1, h2, lt_irrefl] at this
    simp at this

/-! ## A step -/

/-- Where the iterator stands, seen from the trunks. -/
structure SnapInv (T : Nat) (R : List Entry) (h : Nat) (d : Bool) (s : Snap) (lo : Bound) : Prop where
  items : s.cur.items = R
  height : s.height = h
  ok : s.ok = true
  pos : (lo = .start ∧ s.lastKey = [] ∧ d = true ∧ s.cur.pos = 0) ∨
    ∃ t, lo = .past t ∧ s.lastKey ≠ [] ∧ trunk s.lastKey = t ∧ t.length = T ∧ ∃ e ∈ R, trunk e.1 = t

theorem advance_spec {T : Nat} {R : List Entry} {h : Nat} {d : Bool} (hs : Sorted R) (hR : Shaped T R) {s : Snap} {lo : Bound}
    (hi : SnapInv T R h d s lo) :
    (s.advance d).cur.items = R ∧ (s.advance d).height = h ∧
      (((s.advance d).ok = true ∧ ∃ e ∈ R, (s.advance d).cur.key = e.1 ∧ after d lo (trunk e.1) ∧
          ∀ e' ∈ R, after d lo (trunk e'.1) → trunk e'.1 = trunk e.1 ∨ before d (trunk e.1) (trunk e'.1) = true) ∨
        ((s.advance d).ok = false ∧ ∀ e ∈ R, ¬ after d lo (trunk e.1))) := by
  have key2 : ∀ a ∈ R, ∀ b ∈ R, lt a.1 b.1 = true → trunk a.1 = trunk b.1 ∨ lt (trunk a.1) (trunk b.1) = true := by
    intro a ha b hb hab
    obtain ⟨a1, a2, a3⟩ := hR.eq ha
    obtain ⟨b1, b2, b3⟩ := hR.eq hb
    rw [a1, b1, lt_pair (by rw [a2, b2]) (by omega) (by omega)] at hab
    rcases hab with h | h
    · exact .inr h
    · exact .inl h.1
  rcases hi.pos with ⟨rfl, hlk, rfl, hpos⟩ | ⟨t, rfl, hlk, ht, hT, x, hx, hxt⟩
  · -- the first step
    unfold Snap.advance
    rw [if_pos hlk]
    simp only [Cursor.move, if_true]
    refine ⟨hi.items, hi.height, ?_⟩
    cases hR0 : R with
    | nil =>
      right
      refine ⟨?_, by simp⟩
      rw [valid_false]
      simp [Cursor.next, Cursor.entry, hi.items, hR0, hpos]
    | cons a l =>
      left
      have he : s.cur.next.entry = some a := by simp [Cursor.next, Cursor.entry, hi.items, hR0, hpos]
      refine ⟨valid_iff.mpr ⟨a, he⟩, a, List.mem_cons_self, key_of_entry he, trivial, ?_⟩
      intro e' he' _
      rcases List.mem_cons.mp he' with h1 | h1
      · exact .inl (by rw [h1])
      · rw [hR0] at hs key2
        rcases key2 a List.mem_cons_self e' he' ((List.pairwise_cons.mp hs).1 e' h1) with h2 | h2
        · exact .inl h2.symm
        · exact .inr h2
  · have hitems : Sorted s.cur.items := by rw [hi.items]; exact hs
    have hbnd : ∀ e ∈ R, ∀ j, j < 2 ^ 64 → (lt e.1 (t ++ be 8 j) = true ↔ lt (trunk e.1) t = true ∨ (trunk e.1 = t ∧ stamp e.1 < j)) := by
      intro e he j hj
      obtain ⟨h1, h2, h3⟩ := hR.eq he
      have := lt_pair (t := trunk e.1) (t' := t) (j := stamp e.1) (j' := j) (by rw [h2, hT]) (by omega) hj
      rw [← h1] at this
      exact this
    have hex : ∀ e ∈ R, ∀ j, e.1 = t ++ be 8 j → True := fun _ _ _ _ => trivial
    unfold Snap.advance
    rw [if_neg hlk, ht]
    cases d with
    | true =>
      simp only [if_true]
      refine ⟨hi.items, hi.height, ?_⟩
      have hup : ∀ e ∈ R, (lt e.1 (t ++ be 8 (2 ^ 64 - 1)) = false ↔ lt t (trunk e.1) = true) := by
        intro e he
        rw [← Bool.not_eq_true, hbnd e he _ (by omega), not_or]
        have h3 := (hR.eq he).2.2
        constructor
        · rintro ⟨h1, h2⟩
          rcases lt_total (trunk e.1) t with h | h | h
          · exact absurd h h1
          · exact absurd ⟨h, h3⟩ h2
          · exact h
        · intro h
          refine ⟨by rw [lt_asymm h]; simp, fun h' => ?_⟩
          rw [h'.1, lt_irrefl] at h
          cases h
      cases hv : (s.cur.seek (t ++ be 8 (2 ^ 64 - 1))).valid with
      | true =>
        left
        obtain ⟨e, he⟩ := valid_iff.mp hv
        obtain ⟨h1, h2, h3⟩ := seek_some hitems he
        rw [hi.items] at h1 h3
        refine ⟨rfl, e, h1, key_of_entry he, (hup e h1).mp h2, ?_⟩
        intro e' he' ha
        rcases h3 e' he' ((hup e' he').mpr ha) with h | h
        · exact .inl (by rw [h])
        · rcases key2 e h1 e' he' h with h | h
          · exact .inl h.symm
          · exact .inr h
      | false =>
        right
        refine ⟨rfl, ?_⟩
        intro e he ha
        have h1 := seek_none hitems (valid_false.mp hv) e (by rw [hi.items]; exact he)
        rw [(hup e he).mpr ha] at h1
        cases h1
    | false =>
      simp only [Bool.false_eq_true, if_false]
      have hdn : ∀ e ∈ R, (lt e.1 (t ++ be 8 0) = true ↔ lt (trunk e.1) t = true) := by
        intro e he
        rw [hbnd e he 0 (by omega)]
        constructor
        · rintro (h | h)
          · exact h
          · omega
        · exact .inl
      have hv : (s.cur.seek (t ++ be 8 0)).valid = true := by
        rw [← Bool.not_eq_false]
        intro hv
        have h1 := seek_none hitems (valid_false.mp hv) x (by rw [hi.items]; exact hx)
        rw [hdn x hx, hxt, lt_irrefl] at h1
        cases h1
      rw [if_pos hv]
      refine ⟨hi.items, hi.height, ?_⟩
      simp only
      cases hp : (s.cur.seek (t ++ be 8 0)).prev.valid with
      | true =>
        left
        obtain ⟨e, he⟩ := valid_iff.mp hp
        obtain ⟨h1, h2, h3⟩ := seek_prev_some hitems he
        rw [hi.items] at h1 h3
        refine ⟨rfl, e, h1, key_of_entry he, (hdn e h1).mp h2, ?_⟩
        intro e' he' ha
        rcases h3 e' he' ((hdn e' he').mpr ha) with h | h
        · exact .inl (by rw [h])
        · exact key2 e' he' e h1 h
      | false =>
        right
        refine ⟨rfl, ?_⟩
        intro e he ha
        have h1 := seek_prev_none hitems (valid_false.mp hp) e (by rw [hi.items]; exact he)
        rw [(hdn e he).mpr ha] at h1
        cases h1

theorem shaped_ne {T : Nat} {R : List Entry} (hR : Shaped T R) {e : Entry} (he : e ∈ R) : e.1 ≠ [] := by
  obtain ⟨t, j, _, _, h⟩ := hR e he
  rw [h]
  intro h0
  have := congrArg List.length h0
  simp at this

instance (d : Bool) (lo : Bound) (k : Bytes) : Decidable (after d lo k) := by
  cases lo <;> unfold after <;> infer_instance

/-- What a step of the snapshot iterator finds. -/
theorem snap_step {T : Nat} {R : List Entry} {h : Nat} {d : Bool} (hs : Sorted R) (hR : Shaped T R) (hh : h < 2 ^ 64) {n : Nat} {s : Snap}
    {lo : Bound} (hi : SnapInv T R h d s lo) (hn : (R.filter (fun e => decide (after d lo (trunk e.1)))).length < n) :
    ((s.step d n).ok = true ∧ ∃ e, (s.step d n).cur.entry = some e ∧ IsAt R h e ∧ after d lo (trunk e.1) ∧
        (∀ e' ∈ R, stamp e'.1 ≤ h → after d lo (trunk e'.1) → trunk e'.1 = trunk e.1 ∨ before d (trunk e.1) (trunk e'.1) = true) ∧
        ∀ d', SnapInv T R h d' (s.step d n) (.past (trunk e.1))) ∨
      ((s.step d n).ok = false ∧ ∀ e ∈ R, stamp e.1 ≤ h → ¬ after d lo (trunk e.1)) := by
  induction n generalizing s lo with
  | zero => omega
  | succ n ih =>
    unfold Snap.step
    rw [if_pos hi.ok]
    obtain ⟨a1, a2, a3⟩ := advance_spec hs hR hi
    simp only
    rcases a3 with ⟨b1, e, b2, b3, b4, b5⟩ | ⟨b1, b2⟩
    · rw [if_pos b1]
      have hlen := (hR.eq b2).2.1
      obtain ⟨c1, c2, c3, c4, c5⟩ := correct_spec hs hR (s := { s.advance d with lastKey := (s.advance d).cur.key }) a1
        (by simp only; rw [a2]; exact hh) (t := trunk e.1) (by simp only; rw [b3]) hlen
      replace c2 := c2.trans a2
      replace c4 := c4.trans (congrArg (fun x => trunk e.1 ++ be 8 x) a2)
      have hinv : ∀ d', SnapInv T R h d' ({ s.advance d with lastKey := (s.advance d).cur.key : Snap }.correct).1 (.past (trunk e.1)) := by
        intro d'
        refine ⟨c1, c2, by rw [c3, b1], .inr ⟨trunk e.1, rfl, ?_, ?_, hlen, e, b2, rfl⟩⟩
        · rw [c4]; intro h0; have := congrArg List.length h0; simp at this
        · rw [c4, trunk_append]
      rcases c5 with ⟨d1, e', d2, d3, d4⟩ | ⟨d1, d2⟩
      · have d4 : IsAt R h e' := by rw [← a2]; exact d4
        rw [if_pos d1]
        left
        refine ⟨by rw [c3, b1], e', d2, d4, by rw [d3]; exact b4, ?_, by rw [d3]; exact hinv⟩
        intro x hx _ hax
        rw [d3]
        exact b5 x hx hax
      · rw [if_neg (by rw [d1]; simp)]
        have d2 : ∀ x ∈ R, trunk x.1 = trunk e.1 → h < stamp x.1 := by rw [← a2]; exact d2
        have hdec : (R.filter (fun x => decide (after d (.past (trunk e.1)) (trunk x.1)))).length < n := by
          have hsub : ((R.filter (fun x => decide (after d (.past (trunk e.1)) (trunk x.1)))).length <
              (R.filter (fun x => decide (after d lo (trunk x.1)))).length) := by
            have hp : List.filter (fun x => decide (after d (.past (trunk e.1)) (trunk x.1))) (R.filter (fun x => decide (after d lo (trunk x.1)))) =
                R.filter (fun x => decide (after d (.past (trunk e.1)) (trunk x.1))) := by
              rw [List.filter_filter]
              apply List.filter_congr
              intro x _
              by_cases hxa : after d (.past (trunk e.1)) (trunk x.1)
              · simp [hxa, after_trans b4 hxa]
              · simp [hxa]
            rw [← hp]
            refine List.length_filter_lt_length_iff_exists.mpr ⟨e, ?_, ?_⟩
            · simp [List.mem_filter, b2, b4]
            · simp [after, before_irrefl]
          omega
        rcases ih (hinv d) hdec with ⟨g1, x, g2, g3, g4, g5, g6⟩ | ⟨g1, g2⟩
        · left
          refine ⟨g1, x, g2, g3, after_trans b4 g4, ?_, g6⟩
          intro y hy hsy hay
          rcases b5 y hy hay with h1 | h1
          · have := d2 y hy h1; omega
          · exact g5 y hy hsy h1
        · right
          refine ⟨g1, ?_⟩
          intro y hy hsy hay
          rcases b5 y hy hay with h1 | h1
          · have := d2 y hy h1; omega
          · exact g2 y hy hsy h1
    · rw [if_neg (by rw [b1]; simp)]
      right
      exact ⟨b1, fun x hx _ => b2 x hx⟩

end Verif.Iter
