import Verif.Iter.MergeLemmas

/-! # Reading a merged iterator -/

namespace Verif.Iter

open Verif.Bytes

/-! ## To the end -/

theorem drain_sound {d : Bool} {del : Bytes → Bool} {L : List (List Entry)} (hL : ∀ l ∈ L, Source l) (n : Nat) {m : Merged} {lo : Bound}
    (h : Inv d del L m lo) :
    InOrder d (drain d del n m) ∧ (∀ k v, (k, v) ∈ drain d del n m → newest L del k = some v ∧ after d lo k) ∧
      ((drain d del n m).length < n → ∀ k v, newest L del k = some v → after d lo k → (k, v) ∈ drain d del n m) := by
  induction n generalizing m lo with
  | zero => exact ⟨List.Pairwise.nil, (by intro k v h; cases h), (by intro h; simp at h)⟩
  | succ n ih =>
    unfold drain
    simp only
    rcases step_spec hL h with ⟨h1, h2, h3, h4, h5⟩ | ⟨h1, h2⟩
    · rw [if_pos h1]
      obtain ⟨i1, i2, i3⟩ := ih h5
      refine ⟨List.pairwise_cons.mpr ⟨fun e he => (i2 e.1 e.2 he).2, i1⟩, ?_, ?_⟩
      · intro k v hkv
        rcases List.mem_cons.mp hkv with e | e
        · rw [(Prod.mk.inj e).1, (Prod.mk.inj e).2]; exact ⟨h2, h3⟩
        · obtain ⟨g1, g2⟩ := i2 k v e
          exact ⟨g1, after_trans h3 g2⟩
      · intro hlen k v hn ha
        rcases h4 k v hn ha with e | e
        · subst e
          rw [h2] at hn
          rw [Option.some.inj hn]
          exact List.mem_cons_self
        · exact List.mem_cons_of_mem _ (i3 (by simpa using hlen) k v hn e)
    · rw [if_neg (by rw [h1]; decide)]
      exact ⟨List.Pairwise.nil, (by intro k v h; cases h), fun _ k v hn ha => absurd ha (h2 k v hn)⟩

theorem inOrder_nodup {d : Bool} {l : List Entry} (h : InOrder d l) : l.Nodup := by
  refine List.Pairwise.imp ?_ h
  intro a b hab e
  exact before_ne hab (by rw [e])

/-- The number of entries of the sources: no reading gives more. -/
def total (L : List (List Entry)) : Nat := L.flatten.length

theorem drain_exact {d : Bool} {del : Bytes → Bool} {L : List (List Entry)} (hL : ∀ l ∈ L, Source l) {n : Nat} (hn : total L < n)
    {m : Merged} {lo : Bound} (h : Inv d del L m lo) :
    InOrder d (drain d del n m) ∧ (∀ k v, (k, v) ∈ drain d del n m ↔ newest L del k = some v ∧ after d lo k) := by
  obtain ⟨h1, h2, h3⟩ := drain_sound hL n h
  have hlen : (drain d del n m).length ≤ total L := by
    refine List.Subperm.length_le ((inOrder_nodup h1).subperm ?_)
    intro e he
    exact newest_mem (h2 e.1 e.2 he).1
  exact ⟨h1, fun k v => ⟨h2 k v, fun hkv => h3 (by omega) k v hkv.1 hkv.2⟩⟩

/-! ## Where a reading starts -/

theorem inv_new {del : Bytes → Bool} {L : List (List Entry)} : Inv true del L (Merged.new (L.map Cursor.new)) .start := by
  have hs : ∀ s ∈ clearAt (some 0) ((L.map Cursor.new).map (fun c => (⟨c, .head, none⟩ : Slot))),
      ∃ l, s = ⟨Cursor.new l, .head, none⟩ := by
    intro s hs
    obtain ⟨j, s0, hj, hc⟩ := clearAt_mem hs
    simp only [List.map_map, List.getElem?_map, Option.map_eq_some_iff, Function.comp] at hj
    obtain ⟨l, _, rfl⟩ := hj
    rcases hc with ⟨_, rfl⟩ | ⟨_, rfl⟩ <;> exact ⟨l, rfl⟩
  refine ⟨rfl, ?_, ?_, rfl, ?_, ?_⟩
  · simp [Merged.new, Cursor.new, Function.comp_def]
  · intro s h
    obtain ⟨l, rfl⟩ := hs s h
    exact ⟨by simp [Cursor.new], (by intro k hk; cases hk), (by intro h; cases h)⟩
  · intro s h e he _ _
    obtain ⟨l, rfl⟩ := hs s h
    simpa [Slot.rest, Cursor.ahead, Cursor.new] using he
  · intro s h e he; trivial

/-- The state `Last` steps back from. -/
def Merged.atLast (m : Merged) : Merged := { m.reset with slots := m.reset.slots.map Slot.toLast, forward := false }

theorem Cursor.last_ahead {c : Cursor} : (c.last.entry = none ∧ c.items = []) ∨
    ∃ e, c.last.entry = some e ∧ e :: c.last.ahead false = c.items.reverse := by
  obtain ⟨items, pos⟩ := c
  rcases List.eq_nil_or_concat items with rfl | ⟨l, e, rfl⟩
  · left; simp [Cursor.last, Cursor.entry]
  · right
    exact ⟨e, by simp [Cursor.last, Cursor.entry], by simp [Cursor.last, Cursor.ahead]⟩

theorem inv_last {del : Bytes → Bool} {L : List (List Entry)} {m : Merged} (hm : m.slots.map (·.cur.items) = L) :
    Inv false del L m.atLast .start := by
  have hs : ∀ s ∈ m.atLast.slots, ∃ c : Cursor, s.cur = c.last ∧ c.items ∈ L ∧
      ((c.items = [] ∧ s.status = .head ∧ s.key = none ∧ c.last.entry = none) ∨
        ∃ e, s.status = .tail ∧ s.key = some e.1 ∧ c.last.entry = some e ∧ e :: c.last.ahead false = c.items.reverse) := by
    intro s h
    simp only [Merged.atLast, Merged.reset, List.map_map, List.mem_map, Function.comp] at h
    obtain ⟨s0, hs0, rfl⟩ := h
    refine ⟨s0.cur, ?_, ?_, ?_⟩
    · simp only [Slot.toLast]; split <;> rfl
    · rw [← hm]; exact List.mem_map_of_mem (f := fun s : Slot => s.cur.items) hs0
    · simp only [Slot.toLast]
      rcases Cursor.last_ahead (c := s0.cur) with ⟨h1, h2⟩ | ⟨e, h1, h2⟩
      · left; rw [h1]; exact ⟨h2, rfl, rfl, rfl⟩
      · right; rw [h1]; exact ⟨e, rfl, rfl, rfl, h2⟩
  have hidx : m.atLast.index = none := rfl
  refine ⟨rfl, ?_, ?_, rfl, ?_, ?_⟩
  · rw [← hm]
    simp only [Merged.atLast, Merged.reset, List.map_map]
    apply List.map_congr_left
    intro s _
    simp only [Function.comp, Slot.toLast]
    split <;> rfl
  · intro s h
    rw [hidx] at h
    obtain ⟨c, h1, _, h2⟩ := hs s h
    refine ⟨by rw [h1]; simp [Cursor.last], ?_, ?_⟩
    · intro k hk
      rcases h2 with ⟨_, _, h3, _⟩ | ⟨e, _, h3, h4, _⟩
      · rw [h3] at hk; cases hk
      · rw [h3] at hk
        rw [h1, h4, ← Option.some.inj hk]
        exact ⟨e.2, rfl⟩
    · intro hst
      rcases h2 with ⟨h2, _, h3, _⟩ | ⟨e, h2, _⟩
      · simp only [Slot.rest, h3, h1]
        simp [Cursor.ahead, Cursor.last, h2]
      · rw [h2] at hst; cases hst
  · intro s h e he _ _
    rw [hidx] at h
    obtain ⟨c, h1, _, h2⟩ := hs s h
    have hc : e ∈ c.items := by rw [h1] at he; exact he
    rcases h2 with ⟨h2, _⟩ | ⟨e', _, h3, h4, h5⟩
    · rw [h2] at hc; cases hc
    · simp only [Slot.rest, h3, h1, h4, Option.toList_some, List.singleton_append]
      rw [h5, List.mem_reverse]
      exact hc
  · intro s h e he; trivial

/-! ## The three readings -/

/-- **A new iterator read with `Next` to its end** gives every visible key once, in ascending order, with the value of its newest source. -/
theorem read_forward {L : List (List Entry)} {del : Bytes → Bool} (hL : ∀ l ∈ L, Source l) {n : Nat} (hn : total L < n) :
    InOrder true (drain true del n (Merged.new (L.map Cursor.new))) ∧
      ∀ k v, (k, v) ∈ drain true del n (Merged.new (L.map Cursor.new)) ↔ newest L del k = some v := by
  obtain ⟨h1, h2⟩ := drain_exact hL hn (inv_new (del := del) (L := L))
  exact ⟨h1, fun k v => by rw [h2]; simp [after]⟩

/-- Reading backwards: `Last`, then `Prev` to the end. -/
def readBack (del : Bytes → Bool) (n : Nat) (m : Merged) : List Entry :=
  let r := m.last del
  if r.2 then (r.1.key, r.1.value) :: drain false del n r.1 else []

/-- **`Last` and then `Prev` to the end** gives the same entries in descending order, whatever was done with the iterator before. -/
theorem read_backward {L : List (List Entry)} {del : Bytes → Bool} (hL : ∀ l ∈ L, Source l) {n : Nat} (hn : total L ≤ n) {m : Merged}
    (hm : m.slots.map (·.cur.items) = L) :
    InOrder false (readBack del n m) ∧ ∀ k v, (k, v) ∈ readBack del n m ↔ newest L del k = some v := by
  have h0 : readBack del n m = drain false del (n + 1) m.atLast := rfl
  obtain ⟨h1, h2⟩ := drain_exact hL (Nat.lt_succ_of_le hn) (inv_last (del := del) hm)
  rw [h0]
  exact ⟨h1, fun k v => by rw [h2]; simp [after]⟩

/-! ## From a key on -/

theorem skip_fetch {del : Bytes → Bool} {st : Status} {n : Nat} {c c' : Cursor} (hne : ∀ e ∈ c.items, e.1 ≠ []) (hi : c'.items = c.items)
    (hp : c.pos = c'.pos + 1) (hle : c.pos ≤ c.items.length + 1) (hn : c.items.length + 2 ≤ n + c.pos) :
    Slot.fetch true del [] n ⟨c', st, none⟩ =
      match (c.skip del n).entry with
      | none => ⟨c.skip del n, .tail, none⟩
      | some e => ⟨c.skip del n, st, some e.1⟩ := by
  induction n generalizing c c' with
  | zero => omega
  | succ n ih =>
    have hmove : c'.move true = c := by
      obtain ⟨i, p⟩ := c
      obtain ⟨i', p'⟩ := c'
      simp only at hi hp hle
      subst hi; subst hp
      simp only [Cursor.move, Cursor.next, if_true, Cursor.mk.injEq, true_and]
      omega
    unfold Slot.fetch Cursor.skip
    simp only [Slot.fill, hmove]
    cases he : c.entry with
    | none => simp [endStatus, he]
    | some e =>
      have hek := hne e (Cursor.entry_mem he)
      have hpos : c.pos ≤ c.items.length := by
        rw [Cursor.entry] at he
        split at he
        · have := (List.getElem?_eq_some_iff.mp he).1; omega
        · cases he
      simp only [hek, decide_false, Bool.or_false]
      cases hd : del e.1 with
      | true =>
        simp only [if_true]
        have hnext : c.next.pos = c.pos + 1 := by simp [Cursor.next]; omega
        exact ih (c := c.next) (c' := c) (by simpa [Cursor.next] using hne) (by simp [Cursor.next]) hnext
          (by rw [hnext]; simp [Cursor.next]; omega) (by rw [hnext]; simp [Cursor.next]; omega)
      | false => simp [he]

/-- The state from which a step does what `Seek` does. -/
def Merged.beforeSeek (q : Bytes) (m : Merged) : Merged :=
  { slots := m.slots.map (fun s => ⟨{ s.cur with pos := (s.cur.items.takeWhile (fun e => lt e.1 q)).length }, .middle, none⟩)
    index := none, prevKey := [], forward := true }

theorem takeWhile_le {α : Type} (p : α → Bool) (l : List α) : (l.takeWhile p).length ≤ l.length :=
  (List.takeWhile_sublist p).length_le

theorem seek_step {del : Bytes → Bool} {L : List (List Entry)} (hL : ∀ l ∈ L, Source l) {m : Merged} (hm : m.slots.map (·.cur.items) = L)
    (q : Bytes) : m.seek del q = (m.beforeSeek q).step true del := by
  have h1 : ∀ s ∈ m.slots, Slot.turn true del [] ⟨{ s.cur with pos := (s.cur.items.takeWhile (fun e => lt e.1 q)).length }, .middle, none⟩ =
      (Slot.seek del q { s with status := .middle, key := none }, (Slot.seek del q { s with status := .middle, key := none }).key) := by
    intro s hs
    have hsrc : Source s.cur.items := hL _ (by rw [← hm]; exact List.mem_map_of_mem (f := fun s : Slot => s.cur.items) hs)
    have hle := takeWhile_le (fun e : Entry => lt e.1 q) s.cur.items
    have h2 := skip_fetch (del := del) (st := .middle) (n := s.cur.items.length + 2) (c := s.cur.seek q)
      (c' := { s.cur with pos := (s.cur.items.takeWhile (fun e => lt e.1 q)).length }) (by simpa [Cursor.seek] using hsrc.nonempty)
      (by simp [Cursor.seek]) (by simp [Cursor.seek]) (by simp [Cursor.seek]; omega) (by simp [Cursor.seek])
    unfold Slot.turn
    rw [if_neg (by simp [endStatus])]
    simp only [h2, Slot.seek]
    rfl
  have h3 : (m.beforeSeek q).slots.map (Slot.turn true del []) =
      m.slots.map (fun s => (Slot.seek del q { s with status := .middle, key := none }, (Slot.seek del q { s with status := .middle, key := none }).key)) := by
    simp only [Merged.beforeSeek, List.map_map]
    exact List.map_congr_left h1
  unfold Merged.step
  have h4 : ¬ (m.beforeSeek q).forward ≠ true := by simp [Merged.beforeSeek]
  rw [if_neg h4]
  have h5 : clearAt (m.beforeSeek q).index (m.beforeSeek q).slots = (m.beforeSeek q).slots := rfl
  have h6 : (m.beforeSeek q).prevKey = [] := rfl
  simp only [h5, h6, h3, List.map_map]
  unfold Merged.seek
  simp only [Merged.reset, List.map_map]
  rfl

theorem inv_seek {del : Bytes → Bool} {L : List (List Entry)} (hL : ∀ l ∈ L, Source l) {m : Merged} (hm : m.slots.map (·.cur.items) = L)
    (q : Bytes) : Inv true del L (m.beforeSeek q) (.at q) := by
  have hs : ∀ s ∈ (m.beforeSeek q).slots, ∃ l ∈ L, s = ⟨⟨l, (l.takeWhile (fun e => lt e.1 q)).length⟩, .middle, none⟩ := by
    intro s h
    simp only [Merged.beforeSeek, List.mem_map] at h
    obtain ⟨s0, h0, rfl⟩ := h
    exact ⟨s0.cur.items, by rw [← hm]; exact List.mem_map_of_mem (f := fun s : Slot => s.cur.items) h0, rfl⟩
  have hdrop : ∀ l : List Entry, l.drop (l.takeWhile (fun e => lt e.1 q)).length = l.dropWhile (fun e => lt e.1 q) := by
    intro l
    conv_lhs => rw [← List.takeWhile_append_dropWhile (p := fun e : Entry => lt e.1 q) (l := l)]
    rw [List.drop_left']
    rw [List.takeWhile_append_dropWhile]
  refine ⟨rfl, ?_, ?_, rfl, ?_, ?_⟩
  · rw [← hm]; simp [Merged.beforeSeek, Function.comp_def]
  · intro s h
    obtain ⟨l, _, rfl⟩ := hs s h
    exact ⟨Nat.le_succ_of_le (takeWhile_le _ _), (by intro k hk; cases hk), (by intro h; cases h)⟩
  · intro s h e he _ ha
    obtain ⟨l, _, rfl⟩ := hs s h
    simp only [Slot.rest, Cursor.ahead, if_true, hdrop]
    exact mem_dropWhile he (by simpa [after, before] using ha)
  · intro s h e he
    obtain ⟨l, hl, rfl⟩ := hs s h
    simp only [Slot.rest, Cursor.ahead, if_true, hdrop] at he
    show before true e.1 q = false
    simp only [before, if_true]
    have hsort : (l.dropWhile (fun e => lt e.1 q)).Pairwise (fun a b => lt a.1 b.1 = true) :=
      (hL l hl).sorted.sublist (List.dropWhile_sublist _)
    cases hd : l.dropWhile (fun e => lt e.1 q) with
    | nil => rw [hd] at he; cases he
    | cons a r =>
      have ha := (head_dropWhile (p := fun e : Entry => lt e.1 q) (l := l) (a := a) (by rw [hd]; rfl)).1
      rw [hd] at he hsort
      rcases List.mem_cons.mp he with h1 | h1
      · rw [h1]; exact ha
      · cases hq : lt e.1 q with
        | false => rfl
        | true => rw [lt_trans ((List.pairwise_cons.mp hsort).1 e h1) hq] at ha; cases ha

/-- Reading from a key on: `Seek`, then `Next` to the end. -/
def readFrom (del : Bytes → Bool) (q : Bytes) (n : Nat) (m : Merged) : List Entry :=
  let r := m.seek del q
  if r.2 then (r.1.key, r.1.value) :: drain true del n r.1 else []

/-- **`Seek(q)` and then `Next` to the end** gives the visible keys that are not below `q`, in ascending order, whatever was done with the
iterator before. -/
theorem read_from {L : List (List Entry)} {del : Bytes → Bool} (hL : ∀ l ∈ L, Source l) {n : Nat} (hn : total L ≤ n) {m : Merged}
    (hm : m.slots.map (·.cur.items) = L) (q : Bytes) :
    InOrder true (readFrom del q n m) ∧ ∀ k v, (k, v) ∈ readFrom del q n m ↔ newest L del k = some v ∧ lt k q = false := by
  have h0 : readFrom del q n m = drain true del (n + 1) (m.beforeSeek q) := by
    simp only [readFrom, drain, seek_step hL hm]
  obtain ⟨h1, h2⟩ := drain_exact hL (Nat.lt_succ_of_le hn) (inv_seek (del := del) hL hm q)
  rw [h0]
  exact ⟨h1, fun k v => by rw [h2]; simp [after, before]⟩

/-- Every operation leaves the sources as they were. -/
theorem step_sources (d : Bool) (del : Bytes → Bool) (m : Merged) : (m.step d del).1.slots.map (·.cur.items) = m.slots.map (·.cur.items) := by
  have hfill : ∀ s : Slot, (s.fill d).cur.items = s.cur.items := by
    intro s
    unfold Slot.fill
    split
    · rfl
    · split <;> exact Cursor.move_items d s.cur
  have hfetch : ∀ (pk : Bytes) (n : Nat) (s : Slot), (s.fetch d del pk n).cur.items = s.cur.items := by
    intro pk n
    induction n with
    | zero => intro s; rfl
    | succ n ih =>
      intro s
      unfold Slot.fetch
      simp only
      split
      · exact hfill s
      · split
        · rw [ih]; exact hfill s
        · exact hfill s
  have hturn : ∀ (pk : Bytes) (s : Slot), (s.turn d del pk).1.cur.items = s.cur.items := by
    intro pk s
    unfold Slot.turn
    split
    · rfl
    · exact hfetch pk _ s
  have key : ∀ m' : Merged, m'.slots.map (·.cur.items) = m.slots.map (·.cur.items) →
      (((clearAt m'.index m'.slots).map (Slot.turn d del m'.prevKey)).map (·.1)).map (·.cur.items) = m.slots.map (·.cur.items) := by
    intro m' hm'
    rw [← hm', ← clearAt_items m'.index m'.slots, List.map_map, List.map_map]
    apply List.map_congr_left
    intro s _
    exact hturn _ s
  unfold Merged.step
  have hm' : (if m.forward ≠ d then m.reset else m).slots.map (·.cur.items) = m.slots.map (·.cur.items) := by
    split
    · simp [Merged.reset, Function.comp_def]
    · rfl
  have := key _ hm'
  simp only
  split <;> exact this

end Verif.Iter
