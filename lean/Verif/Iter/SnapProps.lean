import Verif.Iter.SnapLemmas

/-! # Iterating over a contract's storage as it was at a snapshot -/

namespace Verif.Iter

open Verif.Bytes Verif.Consensus Verif.State

/-! ## Landing on an entry -/

/-- What `Last` and `Seek` do once the raw iterator stands on an entry. -/
def Snap.land (d : Bool) (s : Snap) : Snap :=
  let r := { s with lastKey := s.cur.key : Snap }.correct
  if r.2 then r.1 else r.1.step d r.1.bound

theorem land_spec {T : Nat} {R : List Entry} {h : Nat} {d : Bool} (hs : Sorted R) (hR : Shaped T R) (hh : h < 2 ^ 64) {s : Snap}
    (hi : s.cur.items = R) (hht : s.height = h) (hok : s.ok = true) {e : Entry} (he : e ∈ R) (hk : s.cur.key = e.1) {P : Bytes → Prop}
    (hP : P (trunk e.1)) (hP' : ∀ a b, P a → before d a b = true → P b)
    (hleast : ∀ e' ∈ R, P (trunk e'.1) → trunk e'.1 = trunk e.1 ∨ before d (trunk e.1) (trunk e'.1) = true) :
    ((s.land d).ok = true ∧ ∃ x, (s.land d).cur.entry = some x ∧ IsAt R h x ∧ P (trunk x.1) ∧
        (∀ e' ∈ R, stamp e'.1 ≤ h → P (trunk e'.1) → trunk e'.1 = trunk x.1 ∨ before d (trunk x.1) (trunk e'.1) = true) ∧
        ∀ d', SnapInv T R h d' (s.land d) (.past (trunk x.1))) ∨
      ((s.land d).ok = false ∧ ∀ x ∈ R, stamp x.1 ≤ h → ¬ P (trunk x.1)) := by
  have hlen := (hR.eq he).2.1
  obtain ⟨c1, c2, c3, c4, c5⟩ := correct_spec hs hR (s := { s with lastKey := s.cur.key }) hi
    (by simp only; rw [hht]; exact hh) (t := trunk e.1) (by simp only; rw [hk]) hlen
  replace c2 := c2.trans hht
  replace c4 := c4.trans (congrArg (fun x => trunk e.1 ++ be 8 x) hht)
  have hinv : ∀ d', SnapInv T R h d' ({ s with lastKey := s.cur.key : Snap }.correct).1 (.past (trunk e.1)) := by
    intro d'
    refine ⟨c1, c2, by rw [c3, hok], .inr ⟨trunk e.1, rfl, ?_, ?_, hlen, e, he, rfl⟩⟩
    · rw [c4]; intro h0; have := congrArg List.length h0; simp at this
    · rw [c4, trunk_append]
  unfold Snap.land
  simp only
  rcases c5 with ⟨d1, e', d2, d3, d4⟩ | ⟨d1, d2⟩
  · have d4 : IsAt R h e' := by rw [← hht]; exact d4
    rw [if_pos d1]
    left
    refine ⟨by rw [c3, hok], e', d2, d4, by rw [d3]; exact hP, ?_, by rw [d3]; exact hinv⟩
    intro x hx _ hax
    rw [d3]
    exact hleast x hx hax
  · have d2 : ∀ x ∈ R, trunk x.1 = trunk e.1 → h < stamp x.1 := by rw [← hht]; exact d2
    rw [if_neg (by rw [d1]; simp)]
    have hb : (R.filter (fun x => decide (after d (.past (trunk e.1)) (trunk x.1)))).length <
        ({ s with lastKey := s.cur.key : Snap }.correct).1.bound := by
      rw [Snap.bound, c1]
      exact Nat.lt_succ_of_le (List.length_filter_le _ _)
    rcases snap_step hs hR hh (hinv d) hb with ⟨g1, x, g2, g3, g4, g5, g6⟩ | ⟨g1, g2⟩
    · left
      refine ⟨g1, x, g2, g3, hP' _ _ hP g4, ?_, g6⟩
      intro y hy hsy hay
      rcases hleast y hy hay with h1 | h1
      · have := d2 y hy h1; omega
      · exact g5 y hy hsy h1
    · right
      refine ⟨g1, ?_⟩
      intro y hy hsy hay
      rcases hleast y hy hay with h1 | h1
      · have := d2 y hy h1; omega
      · exact g2 y hy hsy h1

/-! ## Decoding -/

/-- The entries of the history of a contract's slots among those of the database: keys in order, keys of the history table made from an
address, a key and a height below the greatest one. -/
structure HistWf (db : Store) : Prop where
  sorted : Sorted db
  shape : ∀ e ∈ db, e.1.head? = some 2 →
    ∃ addr k j, addr.length = 21 ∧ k.length ≤ 32 ∧ j < 2 ^ 64 - 1 ∧ e.1 = histKey addr k j

/-- The entries in the range of the iterator. -/
def histRange (db : Store) (addr p : Bytes) : List Entry := db.filter (fun e => inRange (histPrefix addr p) e.1)

theorem histRange_items {db : Store} (hdb : HistWf db) {addr p : Bytes} (ha : addr.length = 21) {e : Entry} (he : e ∈ histRange db addr p) :
    ∃ k j, k.length ≤ 32 ∧ j < 2 ^ 64 - 1 ∧ e.1 = histKey addr k j ∧ trunk e.1 = 2 :: addr ++ keyBytes k ∧ stamp e.1 = j ∧
      decodeKey e.1 = k ∧ e ∈ db ∧ (PlainPrefix p → p <+: k) := by
  simp only [histRange, List.mem_filter] at he
  obtain ⟨h1, h2⟩ := he
  rw [inRange_iff] at h2
  obtain ⟨r, hr⟩ := h2
  have hh : e.1.head? = some 2 := by rw [← hr]; rfl
  obtain ⟨a', k, j, ha', hk, hj, hek⟩ := hdb.shape e h1 hh
  have hr' := hr
  rw [hek] at hr'
  simp only [histPrefix, histKey, List.cons_append, List.cons.injEq, true_and, List.append_assoc] at hr'
  obtain ⟨e1, e2⟩ := List.append_inj hr' (by rw [ha, ha'])
  subst e1
  refine ⟨k, j, hk, hj, hek, by rw [hek]; exact trunk_append _ _, by rw [hek]; exact stamp_append _ (by omega), ?_, h1, ?_⟩
  · rw [hek]; exact decode_aux ha hk
  · intro hp
    refine (prefix_keyBytes hp hk).mp ?_
    refine List.prefix_of_prefix_length_le ⟨r, e2⟩ (List.prefix_append _ _) ?_
    rw [keyBytes_length hk]
    have := hp.1
    omega

theorem histRange_sorted {db : Store} (hdb : HistWf db) (addr p : Bytes) : Sorted (histRange db addr p) := hdb.sorted.filter _

theorem histRange_shaped {db : Store} (hdb : HistWf db) {addr p : Bytes} (ha : addr.length = 21) : Shaped 55 (histRange db addr p) := by
  intro e he
  obtain ⟨k, j, h1, h2, h3, _⟩ := histRange_items hdb ha he
  exact ⟨2 :: addr ++ keyBytes k, j, by simp [keyBytes_length h1, ha], h2, h3⟩

theorem trunk_order {db : Store} (hdb : HistWf db) {addr p : Bytes} (ha : addr.length = 21) {a b : Entry} (hma : a ∈ histRange db addr p)
    (hmb : b ∈ histRange db addr p) : lt (trunk a.1) (trunk b.1) = lt (decodeKey a.1) (decodeKey b.1) := by
  obtain ⟨ka, ja, h1, _, _, h2, _, h3, _⟩ := histRange_items hdb ha hma
  obtain ⟨kb, jb, g1, _, _, g2, _, g3, _⟩ := histRange_items hdb ha hmb
  rw [h2, h3, g2, g3, lt_append_left, keyBytes_lt h1 g1]

theorem trunk_eq {db : Store} (hdb : HistWf db) {addr p : Bytes} (ha : addr.length = 21) {a b : Entry} (hma : a ∈ histRange db addr p)
    (hmb : b ∈ histRange db addr p) : trunk a.1 = trunk b.1 ↔ decodeKey a.1 = decodeKey b.1 := by
  obtain ⟨ka, ja, h1, _, _, h2, _, h3, _⟩ := histRange_items hdb ha hma
  obtain ⟨kb, jb, g1, _, _, g2, _, g3, _⟩ := histRange_items hdb ha hmb
  rw [h2, h3, g2, g3]
  constructor
  · intro h
    exact keyBytes_inj h1 g1 (List.append_cancel_left h)
  · rintro rfl; rfl

theorem before_order {db : Store} (hdb : HistWf db) {addr p : Bytes} (ha : addr.length = 21) (d : Bool) {a b : Entry}
    (hma : a ∈ histRange db addr p) (hmb : b ∈ histRange db addr p) :
    before d (trunk a.1) (trunk b.1) = before d (decodeKey a.1) (decodeKey b.1) := by
  unfold before
  rw [trunk_order hdb ha hma hmb, trunk_order hdb ha hmb hma]

/-- An entry that counts at height `h` is a slot with the value it has at that height. -/
theorem isAt_iff {db : Store} (hdb : HistWf db) {addr p : Bytes} (ha : addr.length = 21) (hp : PlainPrefix p) {h : Nat} (hh : h < 2 ^ 64 - 1)
    (k v : Bytes) : (∃ e, IsAt (histRange db addr p) h e ∧ decodeKey e.1 = k ∧ e.2 = v) ↔ ValueAt db addr k h v ∧ p <+: k := by
  constructor
  · rintro ⟨e, ⟨h1, h2, h3⟩, rfl, rfl⟩
    obtain ⟨k, j, g1, g2, g3, g4, g5, g6, g7, g8⟩ := histRange_items hdb ha h1
    rw [g6]
    refine ⟨⟨j, by omega, by rw [← g3]; exact g7, ?_⟩, g8 hp⟩
    intro i hji hih w hw
    have hmem : (histKey addr k i, w) ∈ histRange db addr p := by
      simp only [histRange, List.mem_filter]
      refine ⟨hw, ?_⟩
      rw [inRange_iff, histPrefix, histKey, List.append_assoc]
      exact (List.prefix_append_right_inj _).mpr (((prefix_keyBytes hp g1).mpr (g8 hp)).trans (List.prefix_append _ _))
    have hst : stamp (histKey addr k i) = i := stamp_append _ (by omega)
    have htr : trunk (histKey addr k i) = 2 :: addr ++ keyBytes k := trunk_append _ _
    have := h3 _ hmem (by simp only; rw [htr, g4]) (by simp only; rw [hst]; exact hih)
    simp only at this
    rw [hst] at this
    omega
  · rintro ⟨⟨j, hj, hm, hno⟩, hpk⟩
    obtain ⟨a', k', j', ha', hk', hj', hek⟩ := hdb.shape _ hm rfl
    have hlen := congrArg List.length hek
    simp only [histKey, List.length_append, List.length_cons, keyBytes_length hk', ha, ha', be_length] at hlen
    simp only [keyBytes, List.length_append, List.length_replicate, List.length_cons, List.length_nil] at hlen
    have hk : k.length ≤ 32 := by omega
    have hmem : (histKey addr k j, v) ∈ histRange db addr p := by
      simp only [histRange, List.mem_filter]
      refine ⟨hm, ?_⟩
      rw [inRange_iff, histPrefix, histKey, List.append_assoc]
      exact (List.prefix_append_right_inj _).mpr (((prefix_keyBytes hp hk).mpr hpk).trans (List.prefix_append _ _))
    have hst : stamp (histKey addr k j) = j := stamp_append _ (by omega)
    refine ⟨(histKey addr k j, v), ⟨hmem, by simp only; rw [hst]; exact hj, ?_⟩, decode_aux ha hk, rfl⟩
    intro e' he' ht' hs'
    simp only at ht' ⊢
    rw [hst]
    by_contra hcon
    obtain ⟨k2, j2, g1, g2, g3, g4, g5, g6, g7, g8⟩ := histRange_items hdb ha he'
    have htr : trunk (histKey addr k j) = 2 :: addr ++ keyBytes k := trunk_append _ _
    rw [g4, htr] at ht'
    have := keyBytes_inj g1 hk (List.append_cancel_left ht')
    subst this
    refine hno j2 (by omega) (by omega) e'.2 ?_
    rw [← g3]
    exact g7

/-! ## To the end -/

/-- A slot that has a value at height `h`, seen from the raw entries. -/
def Seen (R : List Entry) (h : Nat) (k v : Bytes) : Prop := ∃ e, IsAt R h e ∧ decodeKey e.1 = k ∧ e.2 = v

theorem seen_unique {R : List Entry} {T h : Nat} (hs : Sorted R) (hR : Shaped T R) {a b : Entry} (ha : IsAt R h a) (hb : IsAt R h b)
    (ht : trunk a.1 = trunk b.1) : a = b := by
  have h1 := ha.2.2 b hb.1 ht.symm hb.2.1
  have h2 := hb.2.2 a ha.1 ht ha.2.1
  have hk : a.1 = b.1 := by
    rw [(hR.eq ha.1).1, (hR.eq hb.1).1, ht, show stamp a.1 = stamp b.1 by omega]
  have h3 := lookup_of_mem hs (k := a.1) (v := a.2) ha.1
  have h4 := lookup_of_mem hs (k := b.1) (v := b.2) hb.1
  rw [hk, h4] at h3
  exact Prod.ext hk (Option.some.inj h3).symm

theorem snap_drain_sound {db : Store} (hdb : HistWf db) {addr p : Bytes} (ha : addr.length = 21) {h : Nat} (hh : h < 2 ^ 64) {d : Bool}
    (n : Nat) {s : Snap} {lo : Bound} (hi : SnapInv 55 (histRange db addr p) h d s lo) :
    InOrder d (s.drain d n) ∧
      (∀ x ∈ s.drain d n, ∃ e, IsAt (histRange db addr p) h e ∧ x = (decodeKey e.1, e.2) ∧ after d lo (trunk e.1)) ∧
      ((s.drain d n).length < n → ∀ e, IsAt (histRange db addr p) h e → after d lo (trunk e.1) → (decodeKey e.1, e.2) ∈ s.drain d n) := by
  have hs := histRange_sorted hdb addr p
  have hR := histRange_shaped hdb (p := p) ha
  induction n generalizing s lo with
  | zero => exact ⟨List.Pairwise.nil, (by intro x h; cases h), (by intro h; simp at h)⟩
  | succ n ih =>
    unfold Snap.drain
    simp only
    have hb : ((histRange db addr p).filter (fun x => decide (after d lo (trunk x.1)))).length < s.bound := by
      rw [Snap.bound, hi.items]
      exact Nat.lt_succ_of_le (List.length_filter_le _ _)
    rcases snap_step hs hR hh hi hb with ⟨g1, x, g2, g3, g4, g5, g6⟩ | ⟨g1, g2⟩
    · rw [if_pos g1, key_of_entry g2, g2]
      obtain ⟨i1, i2, i3⟩ := ih (g6 d)
      refine ⟨List.pairwise_cons.mpr ⟨?_, i1⟩, ?_, ?_⟩
      · intro y hy
        obtain ⟨e, h1, rfl, h2⟩ := i2 y hy
        simp only
        rw [← before_order hdb ha d g3.1 h1.1]
        exact h2
      · intro y hy
        rcases List.mem_cons.mp hy with h1 | h1
        · exact ⟨x, g3, h1, g4⟩
        · obtain ⟨e, h2, h3, h4⟩ := i2 y h1
          exact ⟨e, h2, h3, after_trans g4 h4⟩
      · intro hlen e he hae
        rcases g5 e he.1 he.2.1 hae with h1 | h1
        · rw [seen_unique hs hR he g3 h1]
          exact List.mem_cons_self
        · exact List.mem_cons_of_mem _ (i3 (by simpa using hlen) e he h1)
    · rw [if_neg (by rw [g1]; simp)]
      exact ⟨List.Pairwise.nil, (by intro x h; cases h), fun _ e he hae => absurd hae (g2 e he.1 he.2.1)⟩

theorem snap_drain_exact {db : Store} (hdb : HistWf db) {addr p : Bytes} (ha : addr.length = 21) {h : Nat} (hh : h < 2 ^ 64) {d : Bool}
    {n : Nat} (hn : (histRange db addr p).length < n) {s : Snap} {lo : Bound} (hi : SnapInv 55 (histRange db addr p) h d s lo) :
    InOrder d (s.drain d n) ∧ ∀ k v, (k, v) ∈ s.drain d n ↔
      ∃ e, IsAt (histRange db addr p) h e ∧ decodeKey e.1 = k ∧ e.2 = v ∧ after d lo (trunk e.1) := by
  obtain ⟨h1, h2, h3⟩ := snap_drain_sound hdb ha hh n hi
  have hlen : (s.drain d n).length ≤ (histRange db addr p).length := by
    have := List.Subperm.length_le ((inOrder_nodup h1).subperm
      (l₂ := (histRange db addr p).map (fun e => (decodeKey e.1, e.2))) (by
        intro x hx
        obtain ⟨e, g1, g2, _⟩ := h2 x hx
        rw [g2]
        exact List.mem_map_of_mem (f := fun e : Entry => (decodeKey e.1, e.2)) g1.1))
    simpa using this
  refine ⟨h1, fun k v => ⟨?_, ?_⟩⟩
  · intro hkv
    obtain ⟨e, g1, g2, g3⟩ := h2 _ hkv
    exact ⟨e, g1, (Prod.mk.inj g2).1.symm, (Prod.mk.inj g2).2.symm, g3⟩
  · rintro ⟨e, g1, rfl, rfl, g3⟩
    exact h3 (by omega) e g1 g3

/-- **Iterating over the storage at a snapshot.** An iterator for a prefix and a snapshot height, read to its end with `Next`, gives every
slot whose key begins with the prefix and that has been written at a height not above the snapshot, once, in ascending order of the keys,
with the value written last at or before that height, also when that value is empty; and nothing else. -/
theorem snapshot_iterate {db : Store} (hdb : HistWf db) {addr p : Bytes} (ha : addr.length = 21) (hp : PlainPrefix p) {h : Nat}
    (hh : h < 2 ^ 64 - 1) {n : Nat} (hn : (histRange db addr p).length < n) :
    InOrder true ((newSnap db addr p h).drain true n) ∧
      ∀ k v, (k, v) ∈ (newSnap db addr p h).drain true n ↔ ValueAt db addr k h v ∧ p <+: k := by
  have hi : SnapInv 55 (histRange db addr p) h true (newSnap db addr p h) .start := ⟨rfl, rfl, rfl, .inl ⟨rfl, rfl, rfl, rfl⟩⟩
  obtain ⟨h1, h2⟩ := snap_drain_exact hdb ha (by omega) hn hi
  refine ⟨h1, fun k v => ?_⟩
  rw [h2, ← isAt_iff hdb ha hp hh]
  simp [after]

/-- What an operation may leave: the same raw entries, the same height. -/
structure Same (R : List Entry) (h : Nat) (s : Snap) : Prop where
  items : s.cur.items = R
  height : s.height = h

theorem Same.correct {R : List Entry} {h : Nat} {s : Snap} (hs : Same R h s) : Same R h s.correct.1 := by
  unfold Snap.correct
  simp only
  split
  · split
    · exact ⟨hs.items, hs.height⟩
    · exact ⟨hs.items, hs.height⟩
  · exact ⟨hs.items, hs.height⟩

theorem Same.step {R : List Entry} {h : Nat} {d : Bool} {n : Nat} {s : Snap} (hs : Same R h s) : Same R h (s.step d n) := by
  induction n generalizing s with
  | zero => exact hs
  | succ n ih =>
    have hadv : Same R h (s.advance d) := by
      unfold Snap.advance
      split
      · exact ⟨(Cursor.move_items d s.cur).trans hs.items, hs.height⟩
      · split
        · exact ⟨hs.items, hs.height⟩
        · simp only
          split <;> exact ⟨hs.items, hs.height⟩
    unfold Snap.step
    simp only
    split
    · split
      · have hc : Same R h ({ s.advance d with lastKey := (s.advance d).cur.key : Snap }.correct).1 :=
          Same.correct ⟨hadv.items, hadv.height⟩
        split
        · exact hc
        · exact ih hc
      · exact hadv
    · exact hs

/-- Reading backwards: `Last`, then `Prev` to the end. -/
def Snap.readBack (n : Nat) (s : Snap) : List Entry :=
  if s.last.ok then (decodeKey s.last.cur.key, (s.last.cur.entry.map (·.2)).getD []) :: s.last.drain false n else []

/-- Reading from a key on: `Seek`, then `Next` to the end (`iteration.go:67-75` makes the raw key). -/
def Snap.readFrom (addr q : Bytes) (n : Nat) (s : Snap) : List Entry :=
  let s := s.seek (histKey addr q 0)
  if s.ok then (decodeKey s.cur.key, (s.cur.entry.map (·.2)).getD []) :: s.drain true n else []

theorem last_entry_max {R : List Entry} (hs : Sorted R) {c : Cursor} (hc : c.items = R) {e : Entry} (he : c.last.entry = some e) :
    e ∈ R ∧ ∀ e' ∈ R, e' = e ∨ lt e'.1 e.1 = true := by
  subst hc
  by_cases hl : 1 ≤ c.items.length
  · have he : c.items[c.items.length - 1]? = some e := by simpa [Cursor.last, Cursor.entry, hl] using he
    refine ⟨List.mem_of_getElem? he, ?_⟩
    intro e' he'
    obtain ⟨j, hj⟩ := List.mem_iff_getElem?.mp he'
    have hjl := (List.getElem?_eq_some_iff.mp hj).1
    rcases Nat.lt_or_ge j (c.items.length - 1) with h1 | h1
    · exact .inr (sorted_index hs hj he h1)
    · have : j = c.items.length - 1 := by omega
      subst this
      rw [he] at hj
      exact .inl (Option.some.inj hj).symm
  · simp [Cursor.last, Cursor.entry, hl] at he

theorem trunk_le {R : List Entry} {T : Nat} (hR : Shaped T R) {a b : Entry} (ha : a ∈ R) (hb : b ∈ R) (hab : lt a.1 b.1 = true) :
    trunk a.1 = trunk b.1 ∨ lt (trunk a.1) (trunk b.1) = true := by
  obtain ⟨a1, a2, a3⟩ := hR.eq ha
  obtain ⟨b1, b2, b3⟩ := hR.eq hb
  rw [a1, b1, lt_pair (by rw [a2, b2]) (by omega) (by omega)] at hab
  rcases hab with h | h
  · exact .inr h
  · exact .inl h.1

/-- Reading on from an entry on which `Last` or `Seek` has come to stand. -/
theorem read_on {db : Store} (hdb : HistWf db) {addr p : Bytes} (ha : addr.length = 21) {h : Nat} (hh : h < 2 ^ 64) {d : Bool}
    {n : Nat} (hn : (histRange db addr p).length ≤ n) {s : Snap} {P : Bytes → Prop}
    (hstand : (s.ok = true ∧ ∃ x, s.cur.entry = some x ∧ IsAt (histRange db addr p) h x ∧ P (trunk x.1) ∧
        (∀ e' ∈ histRange db addr p, stamp e'.1 ≤ h → P (trunk e'.1) → trunk e'.1 = trunk x.1 ∨ before d (trunk x.1) (trunk e'.1) = true) ∧
        ∀ d', SnapInv 55 (histRange db addr p) h d' s (.past (trunk x.1))) ∨
      (s.ok = false ∧ ∀ x ∈ histRange db addr p, stamp x.1 ≤ h → ¬ P (trunk x.1)))
    (hP' : ∀ a b, P a → before d a b = true → P b) :
    InOrder d (if s.ok then (decodeKey s.cur.key, (s.cur.entry.map (·.2)).getD []) :: s.drain d n else []) ∧
      ∀ k v, (k, v) ∈ (if s.ok then (decodeKey s.cur.key, (s.cur.entry.map (·.2)).getD []) :: s.drain d n else []) ↔
        ∃ e, IsAt (histRange db addr p) h e ∧ decodeKey e.1 = k ∧ e.2 = v ∧ P (trunk e.1) := by
  have hs := histRange_sorted hdb addr p
  have hR := histRange_shaped hdb (p := p) ha
  rcases hstand with ⟨h1, x, h2, h3, h4, h5, h6⟩ | ⟨h1, h2⟩
  · rw [if_pos h1, key_of_entry h2, h2]
    simp only [Option.map_some, Option.getD_some]
    have hlen : (s.drain d n).length ≤ n := by
      clear hn
      generalize hs0 : s = s0
      clear hs0 h1 h2 h6 s
      induction n generalizing s0 with
      | zero => simp [Snap.drain]
      | succ n ih =>
        unfold Snap.drain
        simp only
        split
        · simpa using ih _
        · simp
    obtain ⟨i1, i2, i3⟩ := snap_drain_sound hdb ha hh n (h6 d)
    have hord : InOrder d ((decodeKey x.1, x.2) :: s.drain d n) := by
      refine List.pairwise_cons.mpr ⟨?_, i1⟩
      intro y hy
      obtain ⟨e, g1, rfl, g2⟩ := i2 y hy
      simp only
      rw [← before_order hdb ha d h3.1 g1.1]
      exact g2
    refine ⟨hord, ?_⟩
    have hcount : ((decodeKey x.1, x.2) :: s.drain d n).length ≤ (histRange db addr p).length := by
      have := List.Subperm.length_le ((inOrder_nodup hord).subperm
        (l₂ := (histRange db addr p).map (fun e => (decodeKey e.1, e.2))) (by
          intro y hy
          rcases List.mem_cons.mp hy with g | g
          · rw [g]; exact List.mem_map_of_mem (f := fun e : Entry => (decodeKey e.1, e.2)) h3.1
          · obtain ⟨e, g1, g2, _⟩ := i2 y g
            rw [g2]
            exact List.mem_map_of_mem (f := fun e : Entry => (decodeKey e.1, e.2)) g1.1))
      simpa using this
    intro k v
    constructor
    · intro hkv
      rcases List.mem_cons.mp hkv with g | g
      · exact ⟨x, h3, (Prod.mk.inj g).1.symm, (Prod.mk.inj g).2.symm, h4⟩
      · obtain ⟨e, g1, g2, g3⟩ := i2 _ g
        exact ⟨e, g1, (Prod.mk.inj g2).1.symm, (Prod.mk.inj g2).2.symm, hP' _ _ h4 g3⟩
    · rintro ⟨e, g1, rfl, rfl, g2⟩
      rcases h5 e g1.1 g1.2.1 g2 with g | g
      · rw [seen_unique hs hR g1 h3 g]; exact List.mem_cons_self
      · refine List.mem_cons_of_mem _ (i3 ?_ e g1 g)
        simp only [List.length_cons] at hcount
        omega
  · rw [if_neg (by rw [h1]; simp)]
    refine ⟨List.Pairwise.nil, fun k v => ⟨(by intro h; cases h), ?_⟩⟩
    rintro ⟨e, g1, _, _, g2⟩
    exact absurd g2 (h2 e g1.1 g1.2.1)

/-- **`Last` and then `Prev` to the end** gives the same slots in descending order, whatever was done with the iterator before. -/
theorem snapshot_iterate_back {db : Store} (hdb : HistWf db) {addr p : Bytes} (ha : addr.length = 21) (hp : PlainPrefix p) {h : Nat}
    (hh : h < 2 ^ 64 - 1) {n : Nat} (hn : (histRange db addr p).length ≤ n) {s : Snap} (hsame : Same (histRange db addr p) h s) :
    InOrder false (s.readBack n) ∧ ∀ k v, (k, v) ∈ s.readBack n ↔ ValueAt db addr k h v ∧ p <+: k := by
  have hs := histRange_sorted hdb addr p
  have hR := histRange_shaped hdb (p := p) ha
  have hstand : (s.last.ok = true ∧ ∃ x, s.last.cur.entry = some x ∧ IsAt (histRange db addr p) h x ∧ True ∧
        (∀ e' ∈ histRange db addr p, stamp e'.1 ≤ h → True → trunk e'.1 = trunk x.1 ∨ before false (trunk x.1) (trunk e'.1) = true) ∧
        ∀ d', SnapInv 55 (histRange db addr p) h d' s.last (.past (trunk x.1))) ∨
      (s.last.ok = false ∧ ∀ x ∈ histRange db addr p, stamp x.1 ≤ h → ¬ True) := by
    unfold Snap.last
    simp only
    cases hv : s.cur.last.valid with
    | false =>
      simp only [Bool.false_eq_true, if_false]
      right
      refine ⟨trivial, ?_⟩
      intro x hx _ _
      rcases Cursor.last_ahead (c := s.cur) with ⟨_, h2⟩ | ⟨e, h1, _⟩
      · rw [hsame.items] at h2; rw [h2] at hx; cases hx
      · rw [valid_false, h1] at hv; cases hv
    | true =>
      simp only [if_true]
      obtain ⟨e, he⟩ := valid_iff.mp hv
      obtain ⟨g1, g2⟩ := last_entry_max hs hsame.items he
      refine land_spec (s := { s with cur := s.cur.last, ok := true }) (P := fun _ => True) hs hR (by omega) hsame.items hsame.height rfl g1
        (key_of_entry he) trivial (fun _ _ _ _ => trivial) ?_
      intro e' he' _
      rcases g2 e' he' with h1 | h1
      · exact .inl (by rw [h1])
      · exact trunk_le hR he' g1 h1
  obtain ⟨h1, h2⟩ := read_on (P := fun _ => True) hdb ha (by omega) hn hstand (fun _ _ _ _ => trivial)
  refine ⟨h1, fun k v => ?_⟩
  rw [Snap.readBack, h2, ← isAt_iff hdb ha hp hh]
  simp

/-- **`Seek(q)` and then `Next` to the end** gives the slots whose key is not below `q`, whatever was done with the iterator before. -/
theorem snapshot_iterate_from {db : Store} (hdb : HistWf db) {addr p q : Bytes} (ha : addr.length = 21) (hp : PlainPrefix p)
    (hq : q.length ≤ 32) {h : Nat} (hh : h < 2 ^ 64 - 1) {n : Nat} (hn : (histRange db addr p).length ≤ n) {s : Snap}
    (hsame : Same (histRange db addr p) h s) :
    InOrder true (s.readFrom addr q n) ∧ ∀ k v, (k, v) ∈ s.readFrom addr q n ↔ (ValueAt db addr k h v ∧ p <+: k) ∧ lt k q = false := by
  have hs := histRange_sorted hdb addr p
  have hR := histRange_shaped hdb (p := p) ha
  have hitems : Sorted s.cur.items := by rw [hsame.items]; exact hs
  have hTq : (2 :: addr ++ keyBytes q).length = 55 := by simp [keyBytes_length hq, ha]
  have hge : ∀ e ∈ histRange db addr p, (lt e.1 (histKey addr q 0) = true ↔ lt (trunk e.1) (2 :: addr ++ keyBytes q) = true) := by
    intro e he
    obtain ⟨h1, h2, h3⟩ := hR.eq he
    have := lt_pair (t := trunk e.1) (t' := 2 :: addr ++ keyBytes q) (j := stamp e.1) (j' := 0) (by rw [h2, hTq]) (by omega) (by omega)
    rw [← h1] at this
    rw [histKey, this]
    simp
  have hup : ∀ a b, lt a (2 :: addr ++ keyBytes q) = false → before true a b = true → lt b (2 :: addr ++ keyBytes q) = false := by
    intro a b h1 h2
    cases h3 : lt b (2 :: addr ++ keyBytes q) with
    | false => rfl
    | true => rw [lt_trans h2 h3] at h1; cases h1
  have hstand : ((s.seek (histKey addr q 0)).ok = true ∧ ∃ x, (s.seek (histKey addr q 0)).cur.entry = some x ∧
        IsAt (histRange db addr p) h x ∧ lt (trunk x.1) (2 :: addr ++ keyBytes q) = false ∧
        (∀ e' ∈ histRange db addr p, stamp e'.1 ≤ h → lt (trunk e'.1) (2 :: addr ++ keyBytes q) = false →
          trunk e'.1 = trunk x.1 ∨ before true (trunk x.1) (trunk e'.1) = true) ∧
        ∀ d', SnapInv 55 (histRange db addr p) h d' (s.seek (histKey addr q 0)) (.past (trunk x.1))) ∨
      ((s.seek (histKey addr q 0)).ok = false ∧
        ∀ x ∈ histRange db addr p, stamp x.1 ≤ h → ¬ lt (trunk x.1) (2 :: addr ++ keyBytes q) = false) := by
    unfold Snap.seek
    simp only
    cases hv : (s.cur.seek (histKey addr q 0)).valid with
    | false =>
      simp only [Bool.false_eq_true, if_false]
      right
      refine ⟨trivial, ?_⟩
      intro x hx _ hcon
      have := seek_none hitems (valid_false.mp hv) x (by rw [hsame.items]; exact hx)
      rw [hge x hx, hcon] at this
      cases this
    | true =>
      simp only [if_true]
      obtain ⟨e, he⟩ := valid_iff.mp hv
      obtain ⟨g1, g2, g3⟩ := seek_some hitems he
      rw [hsame.items] at g1 g3
      refine land_spec (s := { s with cur := s.cur.seek (histKey addr q 0), ok := true })
        (P := fun t => lt t (2 :: addr ++ keyBytes q) = false) hs hR (by omega) hsame.items hsame.height rfl g1
        (key_of_entry he) ?_ hup ?_
      · rw [← Bool.not_eq_true, ← hge e g1, g2]; simp
      · intro e' he' hP
        have : lt e'.1 (histKey addr q 0) = false := by rw [← Bool.not_eq_true, hge e' he', hP]; simp
        rcases g3 e' he' this with h1 | h1
        · exact .inl (by rw [h1])
        · rcases trunk_le hR g1 he' h1 with h2 | h2
          · exact .inl h2.symm
          · exact .inr h2
  obtain ⟨h1, h2⟩ := read_on (P := fun t => lt t (2 :: addr ++ keyBytes q) = false) hdb ha (by omega) hn hstand hup
  refine ⟨h1, fun k v => ?_⟩
  rw [Snap.readFrom, h2, ← isAt_iff hdb ha hp hh]
  constructor
  · rintro ⟨e, g1, g2, g3, g4⟩
    refine ⟨⟨e, g1, g2, g3⟩, ?_⟩
    obtain ⟨k', j, a1, _, _, a2, _, a3, _⟩ := histRange_items hdb ha g1.1
    rw [a2, lt_append_left, keyBytes_lt a1 hq] at g4
    rw [← g2, a3]
    exact g4
  · rintro ⟨⟨e, g1, g2, g3⟩, g4⟩
    refine ⟨e, g1, g2, g3, ?_⟩
    obtain ⟨k', j, a1, _, _, a2, _, a3, _⟩ := histRange_items hdb ha g1.1
    rw [a2, lt_append_left, keyBytes_lt a1 hq, ← a3, g2]
    exact g4

/-! ## One step in either direction -/

/-- The iterator stands on the slot `k`. -/
def Stands (db : Store) (addr p : Bytes) (h : Nat) (s : Snap) (k : Bytes) : Prop :=
  ∃ e ∈ histRange db addr p, decodeKey e.1 = k ∧ ∀ d, SnapInv 55 (histRange db addr p) h d s (.past (trunk e.1))

/-- **From a slot, `Next` goes to the next one and `Prev` to the one before**, however the two are mixed: a step from the slot `k` comes to
stand on the nearest slot in its direction that has a value at the height, with that value, or says that there is none. -/
theorem snapshot_step {db : Store} (hdb : HistWf db) {addr p : Bytes} (ha : addr.length = 21) (hp : PlainPrefix p) {h : Nat}
    (hh : h < 2 ^ 64 - 1) (d : Bool) {s : Snap} {k : Bytes} (hst : Stands db addr p h s k) :
    ((s.step d s.bound).ok = true ∧ ∃ k' v, decodeKey (s.step d s.bound).cur.key = k' ∧ (s.step d s.bound).cur.entry.map (·.2) = some v ∧
        (ValueAt db addr k' h v ∧ p <+: k') ∧ before d k k' = true ∧
        (∀ k'' w, ValueAt db addr k'' h w → p <+: k'' → before d k k'' = true → k'' = k' ∨ before d k' k'' = true) ∧
        Stands db addr p h (s.step d s.bound) k') ∨
      ((s.step d s.bound).ok = false ∧ ∀ k'' w, ValueAt db addr k'' h w → p <+: k'' → before d k k'' = false) := by
  have hs := histRange_sorted hdb addr p
  have hR := histRange_shaped hdb (p := p) ha
  obtain ⟨e, he, hk, hinv⟩ := hst
  have hb : ((histRange db addr p).filter (fun x => decide (after d (.past (trunk e.1)) (trunk x.1)))).length < s.bound := by
    rw [Snap.bound, (hinv d).items]
    exact Nat.lt_succ_of_le (List.length_filter_le _ _)
  rcases snap_step hs hR (by omega) (hinv d) hb with ⟨g1, x, g2, g3, g4, g5, g6⟩ | ⟨g1, g2⟩
  · left
    refine ⟨g1, decodeKey x.1, x.2, by rw [key_of_entry g2], by rw [g2]; rfl, (isAt_iff hdb ha hp hh _ _).mp ⟨x, g3, rfl, rfl⟩, ?_, ?_,
      x, g3.1, rfl, g6⟩
    · rw [← hk, ← before_order hdb ha d he g3.1]; exact g4
    · intro k'' w hv hpre hbk
      obtain ⟨y, y1, rfl, rfl⟩ := (isAt_iff hdb ha hp hh k'' w).mpr ⟨hv, hpre⟩
      rw [← hk, ← before_order hdb ha d he y1.1] at hbk
      rcases g5 y y1.1 y1.2.1 hbk with h1 | h1
      · exact .inl ((trunk_eq hdb ha y1.1 g3.1).mp h1)
      · exact .inr (by rw [← before_order hdb ha d g3.1 y1.1]; exact h1)
  · right
    refine ⟨g1, ?_⟩
    intro k'' w hv hpre
    obtain ⟨y, y1, rfl, rfl⟩ := (isAt_iff hdb ha hp hh k'' w).mpr ⟨hv, hpre⟩
    rw [← hk, ← before_order hdb ha d he y1.1, ← Bool.not_eq_true]
    exact g2 y y1.1 y1.2.1

/-- The first `Next` of a new iterator that succeeds comes to stand on a slot, so `snapshot_step` applies from then on. -/
theorem snapshot_first {db : Store} (hdb : HistWf db) {addr p : Bytes} (ha : addr.length = 21) {h : Nat} (hh : h < 2 ^ 64 - 1)
    (hok : (newSnap db addr p h).next.ok = true) : Stands db addr p h (newSnap db addr p h).next (decodeKey (newSnap db addr p h).next.cur.key) := by
  have hs := histRange_sorted hdb addr p
  have hR := histRange_shaped hdb (p := p) ha
  have hi : SnapInv 55 (histRange db addr p) h true (newSnap db addr p h) .start := ⟨rfl, rfl, rfl, .inl ⟨rfl, rfl, rfl, rfl⟩⟩
  have hb : ((histRange db addr p).filter (fun x => decide (after true .start (trunk x.1)))).length < (newSnap db addr p h).bound := by
    rw [Snap.bound, hi.items]
    exact Nat.lt_succ_of_le (List.length_filter_le _ _)
  rcases snap_step hs hR (by omega) hi hb with ⟨g1, x, g2, g3, g4, g5, g6⟩ | ⟨g1, _⟩
  · exact ⟨x, g3.1, by rw [Snap.next, key_of_entry g2], g6⟩
  · rw [Snap.next, g1] at hok; cases hok

end Verif.Iter
