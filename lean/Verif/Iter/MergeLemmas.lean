import Verif.Iter.IterSpec
import Verif.Consensus.ElectLemmas

/-! # Lemmas about the merged iterator -/

namespace Verif.Iter

open Verif.Bytes Verif.Consensus

theorem lt_iff {a b : Bytes} : lt a b = true ↔ bcmp a b = .lt := by simp [lt]

theorem lt_irrefl (a : Bytes) : lt a a = false := by simp [lt, bcmp_self]

theorem lt_asymm {a b : Bytes} (h : lt a b = true) : lt b a = false := by
  rw [lt_iff] at h
  rw [lt, bcmp_swap, h]; rfl

theorem lt_trans {a b c : Bytes} (h1 : lt a b = true) (h2 : lt b c = true) : lt a c = true := by
  rw [lt_iff] at h1 h2 ⊢
  have h3 : bcmp a c ≠ .gt := bcmp_trans (by rw [h1]; decide) (by rw [h2]; decide)
  cases h : bcmp a c with
  | lt => rfl
  | gt => exact absurd h h3
  | eq =>
    have := eq_of_bcmp h
    subst this
    rw [bcmp_swap, h1] at h2
    cases h2

theorem lt_total (a b : Bytes) : lt a b = true ∨ a = b ∨ lt b a = true := by
  cases h : bcmp a b with
  | lt => exact .inl (by simp [lt, h])
  | eq => exact .inr (.inl (eq_of_bcmp h))
  | gt => exact .inr (.inr (by rw [lt, bcmp_swap, h]; rfl))

theorem before_irrefl (d : Bool) (a : Bytes) : before d a a = false := by cases d <;> simp [before, lt_irrefl]

theorem before_trans {d : Bool} {a b c : Bytes} (h1 : before d a b = true) (h2 : before d b c = true) : before d a c = true := by
  cases d
  · simp only [before, Bool.false_eq_true, if_false] at *; exact lt_trans h2 h1
  · simp only [before, if_true] at *; exact lt_trans h1 h2

theorem before_total (d : Bool) (a b : Bytes) : before d a b = true ∨ a = b ∨ before d b a = true := by
  cases d
  · simp only [before, Bool.false_eq_true, if_false]
    rcases lt_total a b with h | h | h
    · exact .inr (.inr h)
    · exact .inr (.inl h)
    · exact .inl h
  · simp only [before, if_true]; exact lt_total a b

theorem before_ne {d : Bool} {a b : Bytes} (h : before d a b = true) : a ≠ b := by
  rintro rfl; rw [before_irrefl] at h; cases h

theorem before_asymm {d : Bool} {a b : Bytes} (h : before d a b = true) : before d b a = false := by
  cases h' : before d b a with
  | false => rfl
  | true => exact absurd rfl (before_ne (before_trans h h'))

/-! ## Cursors -/

/-- The entries that lie ahead of a cursor in direction `d`. -/
def Cursor.ahead (d : Bool) (c : Cursor) : List Entry := if d then c.items.drop c.pos else (c.items.take (c.pos - 1)).reverse

theorem Cursor.move_items (d : Bool) (c : Cursor) : (c.move d).items = c.items := by
  cases d <;> simp [Cursor.move, Cursor.next, Cursor.prev]

theorem Cursor.move_pos {d : Bool} {c : Cursor} (h : c.pos ≤ c.items.length + 1) : (c.move d).pos ≤ (c.move d).items.length + 1 := by
  cases d <;> simp [Cursor.move, Cursor.next, Cursor.prev] <;> omega

theorem Cursor.move_none {d : Bool} {c : Cursor} (hp : c.pos ≤ c.items.length + 1) (h : (c.move d).entry = none) :
    c.ahead d = [] ∧ (c.move d).ahead d = [] := by
  cases d
  · simp only [Cursor.move, Cursor.prev, Cursor.entry, Cursor.ahead, Bool.false_eq_true, if_false] at *
    have : c.pos - 1 = 0 := by
      by_contra h0
      rw [if_pos (by omega), List.getElem?_eq_none_iff] at h
      omega
    simp [this]
  · simp only [Cursor.move, Cursor.next, Cursor.entry, Cursor.ahead, if_true] at *
    rw [if_pos (by omega), List.getElem?_eq_none_iff] at h
    simp only [List.drop_eq_nil_iff]
    omega

theorem Cursor.move_some {d : Bool} {c : Cursor} {e : Entry} (hp : c.pos ≤ c.items.length + 1) (h : (c.move d).entry = some e) :
    c.ahead d = e :: (c.move d).ahead d := by
  cases d
  · simp only [Cursor.move, Cursor.prev, Cursor.entry, Cursor.ahead, Bool.false_eq_true, if_false] at *
    split at h
    · rename_i h1
      obtain ⟨p, hpe⟩ : ∃ p, c.pos - 1 = p + 1 := ⟨c.pos - 1 - 1, by omega⟩
      rw [hpe] at h ⊢
      simp only [Nat.add_sub_cancel] at h ⊢
      rw [List.take_succ, h]
      simp
    · cases h
  · simp only [Cursor.move, Cursor.next, Cursor.entry, Cursor.ahead, if_true] at *
    rw [if_pos (by omega)] at h
    rw [List.getElem?_eq_some_iff] at h
    obtain ⟨hl, h⟩ := h
    have hm : min (c.pos + 1) (c.items.length + 1) = c.pos + 1 := by omega
    have hm' : min (c.pos + 1) (c.items.length + 1) - 1 = c.pos := by omega
    have hl' : c.pos < c.items.length := by omega
    simp only [hm'] at h
    rw [hm, List.drop_eq_getElem_cons hl', h]

theorem Cursor.ahead_sublist (d : Bool) (c : Cursor) : ∀ e ∈ c.ahead d, e ∈ c.items := by
  intro e he
  cases d
  · simp only [Cursor.ahead, Bool.false_eq_true, if_false, List.mem_reverse] at he
    exact List.mem_of_mem_take he
  · simp only [Cursor.ahead, if_true] at he
    exact List.mem_of_mem_drop he

theorem Cursor.entry_mem {c : Cursor} {e : Entry} (h : c.entry = some e) : e ∈ c.items := by
  rw [Cursor.entry] at h
  split at h
  · exact List.mem_of_getElem? h
  · cases h

/-! ## One iterator of a merged iterator -/

/-- The entries an iterator has still to offer: the one whose key is kept, and those ahead. -/
def Slot.rest (d : Bool) (s : Slot) : List Entry :=
  match s.key with
  | none => s.cur.ahead d
  | some _ => s.cur.entry.toList ++ s.cur.ahead d

/-- What holds for each iterator between two steps in direction `d`. -/
structure SInv (d : Bool) (s : Slot) : Prop where
  pos : s.cur.pos ≤ s.cur.items.length + 1
  key : ∀ k, s.key = some k → ∃ v, s.cur.entry = some (k, v)
  status : s.status = endStatus d → s.rest d = []

theorem SInv.clear {d : Bool} {s : Slot} (h : SInv d s) : SInv d { s with key := none } := by
  refine ⟨h.pos, (by intro k hk; cases hk), fun hs => ?_⟩
  have h1 := h.status hs
  simp only [Slot.rest] at h1 ⊢
  split at h1
  · exact h1
  · exact (List.append_eq_nil_iff.mp h1).2

theorem Slot.rest_clear {d : Bool} {s : Slot} (h : SInv d s) {k : Bytes} (hk : s.key = some k) :
    ∃ v, s.cur.entry = some (k, v) ∧ s.rest d = (k, v) :: Slot.rest d { s with key := none } := by
  obtain ⟨v, hv⟩ := h.key k hk
  exact ⟨v, hv, by simp [Slot.rest, hk, hv]⟩

theorem fill_spec {d : Bool} {s : Slot} (h : SInv d s) :
    SInv d (s.fill d) ∧ (s.fill d).rest d = s.rest d ∧ (s.fill d).cur.items = s.cur.items ∧
      (s.fill d).key = (s.rest d).head?.map (·.1) := by
  unfold Slot.fill
  cases hk : s.key with
  | some k =>
    simp only
    obtain ⟨v, hv, hr⟩ := Slot.rest_clear h hk
    exact ⟨h, trivial, trivial, by rw [hr, hk]; rfl⟩
  | none =>
    simp only
    have hrest : s.rest d = s.cur.ahead d := by simp [Slot.rest, hk]
    cases he : (s.cur.move d).entry with
    | none =>
      simp only
      obtain ⟨h1, h2⟩ := Cursor.move_none h.pos he
      refine ⟨⟨Cursor.move_pos h.pos, ?_, ?_⟩, ?_, Cursor.move_items d s.cur, ?_⟩
      · intro k hk'; cases hk'
      · intro _; exact h2
      · simp only [Slot.rest, hk]; rw [h1, h2]
      · rw [hrest, h1]; rfl
    | some e =>
      simp only
      have h1 := Cursor.move_some h.pos he
      refine ⟨⟨Cursor.move_pos h.pos, ?_, ?_⟩, ?_, Cursor.move_items d s.cur, ?_⟩
      · intro k hk'
        simp only [Option.some.injEq] at hk'
        subst hk'
        exact ⟨e.2, he⟩
      · intro hs
        have := h.status hs
        rw [hrest, h1] at this
        cases this
      · rw [hrest, h1]; simp [Slot.rest, he]
      · rw [hrest, h1]; rfl

/-- Whether `step` passes over an entry. -/
def skips (del : Bytes → Bool) (prevKey : Bytes) (e : Entry) : Bool := del e.1 || decide (e.1 = prevKey)

theorem fetch_spec {d : Bool} {del : Bytes → Bool} {pk : Bytes} {n : Nat} {s : Slot} (h : SInv d s) (hn : (s.rest d).length < n) :
    SInv d (s.fetch d del pk n) ∧ (s.fetch d del pk n).rest d = (s.rest d).dropWhile (skips del pk) ∧
      (s.fetch d del pk n).cur.items = s.cur.items ∧
      (s.fetch d del pk n).key = ((s.rest d).dropWhile (skips del pk)).head?.map (·.1) := by
  induction n generalizing s with
  | zero => omega
  | succ n ih =>
    obtain ⟨f1, f2, f3, f4⟩ := fill_spec h
    unfold Slot.fetch
    simp only
    cases hk : (s.fill d).key with
    | none =>
      simp only
      rw [hk] at f4
      have hr : s.rest d = [] := by
        cases hr : s.rest d with
        | nil => rfl
        | cons a l => rw [hr] at f4; cases f4
      refine ⟨f1, ?_, f3, ?_⟩
      · rw [f2, hr]; rfl
      · rw [hk, hr]; rfl
    | some k =>
      simp only
      obtain ⟨v, hv, hr⟩ := Slot.rest_clear f1 hk
      rw [f2] at hr
      split
      · rename_i hs
        have hlen : (Slot.rest d { s.fill d with key := none }).length < n := by
          rw [hr] at hn; exact Nat.lt_of_succ_lt_succ hn
        obtain ⟨g1, g2, g3, g4⟩ := ih f1.clear hlen
        have hd : (s.rest d).dropWhile (skips del pk) = (Slot.rest d { s.fill d with key := none }).dropWhile (skips del pk) := by
          rw [hr, List.dropWhile_cons, if_pos (by simpa [skips] using hs)]
        refine ⟨g1, ?_, ?_, ?_⟩
        · rw [g2, hd]
        · rw [g3]; exact f3
        · rw [g4, hd]
      · rename_i hs
        have hd : (s.rest d).dropWhile (skips del pk) = s.rest d := by
          rw [hr, List.dropWhile_cons, if_neg (by simpa [skips] using hs)]
        refine ⟨f1, ?_, f3, ?_⟩
        · rw [hd, f2]
        · rw [hd, hk, hr]; rfl

theorem Cursor.ahead_length {d : Bool} {c : Cursor} : (c.ahead d).length ≤ c.items.length := by
  cases d <;> simp [Cursor.ahead]

theorem rest_length {d : Bool} {s : Slot} : (s.rest d).length < s.cur.items.length + 2 := by
  have h1 := Cursor.ahead_length (d := d) (c := s.cur)
  have h2 : s.cur.entry.toList.length ≤ 1 := by cases s.cur.entry <;> simp
  unfold Slot.rest
  split
  · omega
  · simp only [List.length_append]; omega

theorem turn_spec {d : Bool} {del : Bytes → Bool} {pk : Bytes} {s : Slot} (h : SInv d s) :
    SInv d (s.turn d del pk).1 ∧ (s.turn d del pk).1.rest d = (s.rest d).dropWhile (skips del pk) ∧
      (s.turn d del pk).1.cur.items = s.cur.items ∧
      (s.turn d del pk).2 = ((s.rest d).dropWhile (skips del pk)).head?.map (·.1) ∧
      (∀ k, (s.turn d del pk).2 = some k → (s.turn d del pk).1.key = some k) := by
  unfold Slot.turn
  split
  · rename_i hs
    have hr := h.status hs
    exact ⟨h, by rw [hr]; rfl, rfl, by rw [hr]; rfl, (by intro k hk; cases hk)⟩
  · obtain ⟨g1, g2, g3, g4⟩ := fetch_spec (del := del) (pk := pk) h rest_length
    exact ⟨g1, g2, g3, g4, fun k hk => hk⟩

theorem rest_mem {d : Bool} {s : Slot} : ∀ e ∈ s.rest d, e ∈ s.cur.items := by
  intro e he
  unfold Slot.rest at he
  split at he
  · exact Cursor.ahead_sublist d _ e he
  · rw [List.mem_append] at he
    rcases he with he | he
    · rw [Option.mem_toList] at he
      exact Cursor.entry_mem he
    · exact Cursor.ahead_sublist d _ e he

theorem rest_sorted {d : Bool} {s : Slot} (hs : s.cur.items.Pairwise (fun a b => lt a.1 b.1 = true)) : InOrder d (s.rest d) := by
  have h1 : InOrder d (s.cur.ahead d) := by
    unfold InOrder
    cases d
    · simp only [Cursor.ahead, Bool.false_eq_true, if_false, List.pairwise_reverse, before]
      exact hs.take
    · simp only [Cursor.ahead, if_true, before]
      exact hs.drop
  unfold Slot.rest
  split
  · exact h1
  · cases he : s.cur.entry with
    | none => simpa using h1
    | some e =>
      simp only [Option.toList_some, List.singleton_append]
      refine List.pairwise_cons.mpr ⟨?_, h1⟩
      intro b hb
      rw [Cursor.entry] at he
      split at he
      · rename_i hp
        rw [List.getElem?_eq_some_iff] at he
        obtain ⟨hl, he⟩ := he
        rw [List.pairwise_iff_getElem] at hs
        cases d
        · simp only [Cursor.ahead, Bool.false_eq_true, if_false, List.mem_reverse, before] at hb ⊢
          obtain ⟨i, hi, rfl⟩ := List.mem_iff_getElem.mp hb
          simp only [List.length_take] at hi
          rw [List.getElem_take, ← he]
          exact hs i _ (by omega) hl (by omega)
        · simp only [Cursor.ahead, if_true, before] at hb ⊢
          obtain ⟨i, hi, rfl⟩ := List.mem_iff_getElem.mp hb
          simp only [List.length_drop] at hi
          rw [List.getElem_drop, ← he]
          exact hs _ _ hl (by omega) (by omega)
      · cases he

/-! ## The choice -/

theorem pick_spec {d : Bool} {l : List (Option Bytes)} (hl : ∀ k, some k ∈ l → k ≠ []) {i : Nat} {best : Option Nat × Bytes}
    (hb : best.1 = none ↔ best.2 = []) :
    (pick d i best l = best ∧ ∀ k, some k ∈ l → best.2 ≠ [] ∧ before d k best.2 = false) ∨
    (∃ (j : Nat) (k : Bytes), pick d i best l = (some (i + j), k) ∧ l[j]? = some (some k) ∧
      (∀ (j' : Nat) (k' : Bytes), l[j']? = some (some k') → before d k' k = false) ∧
      (∀ (j' : Nat) (k' : Bytes), j' < j → l[j']? = some (some k') → before d k k' = true) ∧
      (best.2 = [] ∨ before d k best.2 = true)) := by
  induction l generalizing i best with
  | nil => exact .inl ⟨rfl, by simp⟩
  | cons c l ih =>
    have hl' : ∀ k, some k ∈ l → k ≠ [] := fun k hk => hl k (List.mem_cons_of_mem _ hk)
    cases c with
    | none =>
      unfold pick
      rcases ih hl' (i := i + 1) hb with ⟨h1, h2⟩ | ⟨j, k, h1, h2, h3, h4, h5⟩
      · refine .inl ⟨h1, fun k hk => h2 k ?_⟩
        simpa using hk
      · refine .inr ⟨j + 1, k, by rw [h1]; congr 2; omega, by simpa using h2, ?_, ?_, h5⟩
        · intro j' k' hj
          cases j' with
          | zero => simp at hj
          | succ j' => exact h3 j' k' (by simpa using hj)
        · intro j' k' hlt hj
          cases j' with
          | zero => simp at hj
          | succ j' => exact h4 j' k' (by omega) (by simpa using hj)
    | some q =>
      have hq : q ≠ [] := hl q List.mem_cons_self
      unfold pick
      split
      · rename_i hc
        simp only [Bool.or_eq_true, decide_eq_true_eq] at hc
        rcases ih hl' (i := i + 1) (best := (some i, q)) (by simp [hq]) with ⟨h1, h2⟩ | ⟨j, k, h1, h2, h3, h4, h5⟩
        · refine .inr ⟨0, q, by rw [h1]; rfl, rfl, ?_, by intro j' k' hj; omega, ?_⟩
          · intro j' k' hj
            cases j' with
            | zero => simp at hj; subst hj; exact before_irrefl d _
            | succ j' =>
              simp only [List.getElem?_cons_succ] at hj
              exact (h2 k' (List.mem_of_getElem? hj)).2
          · exact hc.symm
        · have h5' : before d k q = true := by
            rcases h5 with h5 | h5
            · exact absurd h5 hq
            · exact h5
          refine .inr ⟨j + 1, k, by rw [h1]; congr 2; omega, by simpa using h2, ?_, ?_, ?_⟩
          · intro j' k' hj
            cases j' with
            | zero => simp at hj; subst hj; exact before_asymm h5'
            | succ j' => exact h3 j' k' (by simpa using hj)
          · intro j' k' hlt hj
            cases j' with
            | zero => simp at hj; subst hj; exact h5'
            | succ j' => exact h4 j' k' (by omega) (by simpa using hj)
          · rcases hc with hc | hc
            · exact .inr (before_trans h5' hc)
            · exact .inl hc
      · rename_i hc
        simp only [Bool.or_eq_true, decide_eq_true_eq, not_or, Bool.not_eq_true] at hc
        rcases ih hl' (i := i + 1) hb with ⟨h1, h2⟩ | ⟨j, k, h1, h2, h3, h4, h5⟩
        · refine .inl ⟨h1, fun k hk => ?_⟩
          rcases List.mem_cons.mp hk with hk | hk
          · simp only [Option.some.injEq] at hk; subst hk; exact ⟨hc.2, hc.1⟩
          · exact h2 k hk
        · have h5' : before d k best.2 = true := by
            rcases h5 with h5 | h5
            · exact absurd h5 hc.2
            · exact h5
          have hkq : before d k q = true := by
            rcases before_total d q best.2 with h | h | h
            · rw [hc.1] at h; cases h
            · rw [h]; exact h5'
            · exact before_trans h5' h
          refine .inr ⟨j + 1, k, by rw [h1]; congr 2; omega, by simpa using h2, ?_, ?_, .inr h5'⟩
          · intro j' k' hj
            cases j' with
            | zero => simp at hj; subst hj; exact before_asymm hkq
            | succ j' => exact h3 j' k' (by simpa using hj)
          · intro j' k' hlt hj
            cases j' with
            | zero => simp at hj; subst hj; exact hkq
            | succ j' => exact h4 j' k' (by omega) (by simpa using hj)

/-! ## A step -/

/-- What is left of a key when the reading stands at a bound: `after`, or the key emitted last. -/
def onward (d : Bool) : Bound → Bytes → Prop
  | .past l, k => k = l ∨ before d l k = true
  | b, k => after d b k

/-- The key emitted last. -/
def Bound.emitted : Bound → Bytes
  | .past k => k
  | _ => []

theorem after_trans {d : Bool} {lo : Bound} {a b : Bytes} (h : after d lo a) (hab : before d a b = true) : after d lo b := by
  cases lo with
  | start => trivial
  | «at» q =>
    simp only [after] at h ⊢
    cases hb : before d b q with
    | false => rfl
    | true => rw [before_trans hab hb] at h; cases h
  | past k => exact before_trans h hab

/-- What holds between two steps in direction `d` when the reading stands at `lo`; `L` are the sources. -/
structure Inv (d : Bool) (del : Bytes → Bool) (L : List (List Entry)) (m : Merged) (lo : Bound) : Prop where
  fwd : m.forward = d
  sources : m.slots.map (·.cur.items) = L
  slot : ∀ s ∈ clearAt m.index m.slots, SInv d s
  prev : m.prevKey = lo.emitted
  complete : ∀ s ∈ clearAt m.index m.slots, ∀ e ∈ s.cur.items, del e.1 = false → after d lo e.1 → e ∈ s.rest d
  sound : ∀ s ∈ clearAt m.index m.slots, ∀ e ∈ s.rest d, onward d lo e.1

theorem clearAt_items (i : Option Nat) (l : List Slot) : (clearAt i l).map (·.cur.items) = l.map (·.cur.items) := by
  cases i with
  | none => rfl
  | some i =>
    simp only [clearAt]
    apply List.ext_getElem?
    intro j
    simp only [List.getElem?_map, List.getElem?_modify]
    cases h : l[j]? with
    | none => rfl
    | some s => simp only [Option.map_some]; split <;> rfl

theorem clearAt_mem {i : Option Nat} {l : List Slot} {s : Slot} (h : s ∈ clearAt i l) :
    ∃ j s0, l[j]? = some s0 ∧ ((i ≠ some j ∧ s = s0) ∨ (i = some j ∧ s = { s0 with key := none })) := by
  obtain ⟨j, hj⟩ := List.mem_iff_getElem?.mp h
  cases i with
  | none => exact ⟨j, s, hj, .inl ⟨by simp, rfl⟩⟩
  | some i =>
    simp only [clearAt, List.getElem?_modify] at hj
    cases h0 : l[j]? with
    | none => rw [h0] at hj; cases hj
    | some s0 =>
      rw [h0] at hj
      replace hj := Option.some.inj hj
      dsimp only at hj
      refine ⟨j, s0, h0, ?_⟩
      by_cases hij : i = j
      · subst hij; simp only [if_true] at hj; exact .inr ⟨rfl, hj.symm⟩
      · rw [if_neg hij] at hj; exact .inl ⟨by simpa using hij, hj.symm⟩

theorem mem_dropWhile {α : Type} {p : α → Bool} {l : List α} {a : α} (h : a ∈ l) (hp : p a = false) : a ∈ l.dropWhile p := by
  induction l with
  | nil => cases h
  | cons b l ih =>
    rw [List.dropWhile_cons]
    split
    · rename_i hb
      rcases List.mem_cons.mp h with h | h
      · subst h; rw [hp] at hb; cases hb
      · exact ih h
    · exact h

theorem head_dropWhile {α : Type} {p : α → Bool} {l : List α} {a : α} (h : (l.dropWhile p).head? = some a) : p a = false ∧ a ∈ l := by
  induction l with
  | nil => cases h
  | cons b l ih =>
    rw [List.dropWhile_cons] at h
    split at h
    · obtain ⟨h1, h2⟩ := ih h
      exact ⟨h1, List.mem_cons_of_mem _ h2⟩
    · rename_i hb
      simp only [List.head?_cons, Option.some.injEq] at h
      subst h
      exact ⟨by simpa using hb, List.mem_cons_self⟩

theorem lookup_mem {l : List Entry} {k v : Bytes} (h : lookup l k = some v) : (k, v) ∈ l := by
  simp only [lookup, Option.map_eq_some_iff] at h
  obtain ⟨e, h1, h2⟩ := h
  have h3 := List.find?_some h1
  simp only [decide_eq_true_eq] at h3
  have h4 := List.mem_of_find?_eq_some h1
  subst h2; subst h3
  exact h4

theorem lookup_none {l : List Entry} {k : Bytes} (h : lookup l k = none) : ∀ v, (k, v) ∉ l := by
  intro v hv
  simp only [lookup, Option.map_eq_none_iff, List.find?_eq_none] at h
  exact h _ hv (by simp)

theorem lookup_of_mem {l : List Entry} {k v : Bytes} (hs : l.Pairwise (fun a b => lt a.1 b.1 = true)) (h : (k, v) ∈ l) :
    lookup l k = some v := by
  cases h1 : lookup l k with
  | none => exact absurd h (lookup_none h1 v)
  | some w =>
    have h2 := lookup_mem h1
    by_contra hne
    have hvw : w ≠ v := by simpa using hne
    obtain ⟨i, hi, ei⟩ := List.mem_iff_getElem.mp h
    obtain ⟨j, hj, ej⟩ := List.mem_iff_getElem.mp h2
    rw [List.pairwise_iff_getElem] at hs
    rcases Nat.lt_trichotomy i j with hij | hij | hij
    · have := hs i j hi hj hij
      rw [ei, ej] at this
      simp [lt_irrefl] at this
    · subst hij; rw [ei] at ej; exact hvw (Prod.mk.inj ej).2.symm
    · have := hs j i hj hi hij
      rw [ei, ej] at this
      simp [lt_irrefl] at this

theorem newest_some {L : List (List Entry)} {del : Bytes → Bool} {k v : Bytes} :
    newest L del k = some v ↔ del k = false ∧ ∃ (i : Nat) (l : List Entry), L[i]? = some l ∧ lookup l k = some v ∧
      ∀ (j : Nat) (l' : List Entry), j < i → L[j]? = some l' → lookup l' k = none := by
  unfold newest
  cases hd : del k with
  | true => simp
  | false =>
    simp only [Bool.false_eq_true, if_false, true_and]
    induction L with
    | nil => simp
    | cons a L ih =>
      rw [List.findSome?_cons]
      cases ha : lookup a k with
      | some w =>
        simp only [Option.some.injEq]
        constructor
        · rintro rfl
          exact ⟨0, a, rfl, ha, by intro j l' hj; omega⟩
        · rintro ⟨i, l, h1, h2, h3⟩
          cases i with
          | zero => simp only [List.getElem?_cons_zero, Option.some.injEq] at h1; subst h1; rw [ha] at h2; exact Option.some.inj h2
          | succ i => rw [h3 0 a (by omega) rfl] at ha; cases ha
      | none =>
        simp only
        rw [ih]
        constructor
        · rintro ⟨i, l, h1, h2, h3⟩
          refine ⟨i + 1, l, by simpa using h1, h2, ?_⟩
          intro j l' hj h4
          cases j with
          | zero => simp only [List.getElem?_cons_zero, Option.some.injEq] at h4; subst h4; exact ha
          | succ j => exact h3 j l' (by omega) (by simpa using h4)
        · rintro ⟨i, l, h1, h2, h3⟩
          cases i with
          | zero => simp only [List.getElem?_cons_zero, Option.some.injEq] at h1; subst h1; rw [ha] at h2; cases h2
          | succ i => exact ⟨i, l, by simpa using h1, h2, fun j l' hj h4 => h3 (j + 1) l' (by omega) (by simpa using h4)⟩

theorem newest_mem {L : List (List Entry)} {del : Bytes → Bool} {k v : Bytes} (h : newest L del k = some v) : (k, v) ∈ L.flatten := by
  obtain ⟨_, i, l, h1, h2, _⟩ := newest_some.mp h
  exact List.mem_flatten.mpr ⟨l, List.mem_of_getElem? h1, lookup_mem h2⟩

theorem step_spec {d : Bool} {del : Bytes → Bool} {L : List (List Entry)} {m : Merged} {lo : Bound} (hL : ∀ l ∈ L, Source l)
    (h : Inv d del L m lo) :
    ((m.step d del).2 = true ∧ newest L del (m.step d del).1.key = some (m.step d del).1.value ∧ after d lo (m.step d del).1.key ∧
      (∀ k v, newest L del k = some v → after d lo k → k = (m.step d del).1.key ∨ before d (m.step d del).1.key k = true) ∧
      Inv d del L (m.step d del).1 (.past (m.step d del).1.key)) ∨
    ((m.step d del).2 = false ∧ ∀ k v, newest L del k = some v → ¬ after d lo k) := by
  have hitems : ∀ s ∈ clearAt m.index m.slots, s.cur.items ∈ L := by
    intro s hs
    rw [← h.sources, ← clearAt_items m.index]
    exact List.mem_map_of_mem hs
  -- what an iterator offers
  have hoffer : ∀ s ∈ clearAt m.index m.slots, ∀ k, (s.turn d del m.prevKey).2 = some k →
      ∃ v, ((s.turn d del m.prevKey).1.rest d) = (k, v) :: Slot.rest d { (s.turn d del m.prevKey).1 with key := none } ∧
        (s.turn d del m.prevKey).1.cur.entry = some (k, v) ∧ (s.turn d del m.prevKey).1.key = some k ∧
        del k = false ∧ after d lo k ∧ (k, v) ∈ s.cur.items := by
    intro s hs k hk
    obtain ⟨t1, t2, t3, t4, t5⟩ := turn_spec (del := del) (pk := m.prevKey) (h.slot s hs)
    have t6 := t5 k hk
    obtain ⟨v, hv, hr⟩ := Slot.rest_clear t1 t6
    rw [t2] at hr
    have hh : ((s.rest d).dropWhile (skips del m.prevKey)).head? = some (k, v) := by rw [hr]; rfl
    obtain ⟨h1, h2⟩ := head_dropWhile hh
    simp only [skips, Bool.or_eq_false_iff, decide_eq_false_iff_not] at h1
    refine ⟨v, by rw [t2]; exact hr, hv, t6, h1.1, ?_, rest_mem _ h2⟩
    have h3 := h.sound s hs _ h2
    have h4 := h.prev
    cases lo with
    | start => trivial
    | «at» q => exact h3
    | past l =>
      rcases h3 with h3 | h3
      · exact absurd (h3.trans h4.symm) h1.2
      · exact h3
  -- what is visible is offered, or comes later
  have hvis : ∀ s ∈ clearAt m.index m.slots, ∀ k v, (k, v) ∈ s.cur.items → del k = false → after d lo k →
      (k, v) ∈ (s.turn d del m.prevKey).1.rest d := by
    intro s hs k v hkv hd ha
    obtain ⟨t1, t2, t3, t4, t5⟩ := turn_spec (del := del) (pk := m.prevKey) (h.slot s hs)
    rw [t2]
    refine mem_dropWhile (h.complete s hs _ hkv hd ha) ?_
    simp only [skips, Bool.or_eq_false_iff, decide_eq_false_iff_not]
    refine ⟨hd, ?_⟩
    rw [h.prev]
    cases lo with
    | start => exact (hL _ (hitems s hs)).nonempty _ hkv
    | «at» q => exact (hL _ (hitems s hs)).nonempty _ hkv
    | past l => exact fun e => before_ne ha e.symm
  have hoff : ∀ s ∈ clearAt m.index m.slots, ∀ k v, (k, v) ∈ (s.turn d del m.prevKey).1.rest d →
      ∃ k', (s.turn d del m.prevKey).2 = some k' ∧ (k' = k ∨ before d k' k = true) := by
    intro s hs k v hkv
    obtain ⟨t1, t2, t3, t4, t5⟩ := turn_spec (del := del) (pk := m.prevKey) (h.slot s hs)
    have hso : InOrder d ((s.turn d del m.prevKey).1.rest d) := rest_sorted (by rw [t3]; exact (hL _ (hitems s hs)).sorted)
    rw [← t2] at t4
    cases hr : (s.turn d del m.prevKey).1.rest d with
    | nil => rw [hr] at hkv; cases hkv
    | cons a l =>
      rw [hr] at hkv hso t4
      refine ⟨a.1, t4, ?_⟩
      rcases List.mem_cons.mp hkv with h1 | h1
      · exact .inl (by rw [← h1])
      · exact .inr ((List.pairwise_cons.mp hso).1 _ h1)
  have hcands : ∀ k, some k ∈ ((clearAt m.index m.slots).map (Slot.turn d del m.prevKey)).map (·.2) → k ≠ [] := by
    intro k hk
    simp only [List.map_map, List.mem_map, Function.comp] at hk
    obtain ⟨s, hs, hk⟩ := hk
    obtain ⟨v, _, _, _, _, _, hm⟩ := hoffer s hs k hk
    exact (hL _ (hitems s hs)).nonempty _ hm
  have hstep : m.step d del = (match pick d 0 (none, []) (((clearAt m.index m.slots).map (Slot.turn d del m.prevKey)).map (·.2)) with
      | (none, _) => ({ m with slots := ((clearAt m.index m.slots).map (Slot.turn d del m.prevKey)).map (·.1), index := none, prevKey := [] }, false)
      | (some i, k) => ({ m with slots := ((clearAt m.index m.slots).map (Slot.turn d del m.prevKey)).map (·.1), index := some i, prevKey := k }, true)) := by
    unfold Merged.step
    simp only [ne_eq, h.fwd, not_true_eq_false, if_false]
    rfl
  rcases pick_spec (d := d) hcands (i := 0) (best := (none, [])) (by simp) with ⟨h1, h2⟩ | ⟨i, k, h1, h2, h3, h4, _⟩
  · -- nothing is offered
    right
    rw [h1] at hstep
    refine ⟨by rw [hstep], ?_⟩
    intro k v hn ha
    obtain ⟨hd, i, l, hi, hl, _⟩ := newest_some.mp hn
    rw [← h.sources, ← clearAt_items m.index, List.getElem?_map, Option.map_eq_some_iff] at hi
    obtain ⟨s, hs, rfl⟩ := hi
    have hs := List.mem_of_getElem? hs
    obtain ⟨k', hk', _⟩ := hoff s hs k v (hvis s hs k v (lookup_mem hl) hd ha)
    exact absurd rfl (h2 k' (by
      simp only [List.map_map, List.mem_map, Function.comp]
      exact ⟨s, hs, hk'⟩)).1
  · left
    rw [Nat.zero_add] at h1
    rw [h1] at hstep
    simp only at hstep
    simp only [List.map_map, List.getElem?_map, Option.map_eq_some_iff, Function.comp] at h2 h3 h4
    obtain ⟨s, hsi, hk⟩ := h2
    have hs := List.mem_of_getElem? hsi
    obtain ⟨v, hrest, hent, hkey, hdel, haft, hmem⟩ := hoffer s hs k hk
    have hkne : k ≠ [] := (hL _ (hitems s hs)).nonempty _ hmem
    have hslot : (m.step d del).1.slots[i]? = some (s.turn d del m.prevKey).1 := by
      rw [hstep]; simp only [List.map_map, List.getElem?_map, hsi, Option.map_some]; rfl
    have hidx : (m.step d del).1.index = some i := by rw [hstep]
    have hK : (m.step d del).1.key = k := by
      simp only [Merged.key, hidx, hslot, Option.bind_some, hkey, Option.getD_some]
    have hV : (m.step d del).1.value = v := by
      simp only [Merged.value, hidx, hslot, hkey, Option.getD_some, hkne, if_false, hent, Option.map_some]
    have hLi : ∀ (j : Nat) (s' : Slot), (clearAt m.index m.slots)[j]? = some s' → L[j]? = some s'.cur.items := by
      intro j s' hj
      rw [← h.sources, ← clearAt_items m.index, List.getElem?_map, hj]; rfl
    have hge : ∀ k' v', newest L del k' = some v' → after d lo k' → k' = k ∨ before d k k' = true := by
      intro k' v' hn ha
      obtain ⟨hd, j, l, hj, hl, _⟩ := newest_some.mp hn
      rw [← h.sources, ← clearAt_items m.index, List.getElem?_map, Option.map_eq_some_iff] at hj
      obtain ⟨s', hs', rfl⟩ := hj
      have hs'm := List.mem_of_getElem? hs'
      obtain ⟨q, hq, hqk⟩ := hoff s' hs'm k' v' (hvis s' hs'm k' v' (lookup_mem hl) hd ha)
      have hnb := h3 j q ⟨s', hs', hq⟩
      have hkq : k = q ∨ before d k q = true := by
        rcases before_total d k q with h | h | h
        · exact .inr h
        · exact .inl h
        · rw [hnb] at h; cases h
      rcases hkq with rfl | hkq
      · rcases hqk with h | h
        · exact .inl h.symm
        · exact .inr h
      · rcases hqk with rfl | h
        · exact .inr hkq
        · exact .inr (before_trans hkq h)
    have hnew : newest L del k = some v := by
      rw [newest_some]
      refine ⟨hdel, i, s.cur.items, hLi i s hsi, lookup_of_mem (hL _ (hitems s hs)).sorted hmem, ?_⟩
      intro j l' hj hl'
      rw [← h.sources, ← clearAt_items m.index, List.getElem?_map, Option.map_eq_some_iff] at hl'
      obtain ⟨s', hs', rfl⟩ := hl'
      have hs'm := List.mem_of_getElem? hs'
      cases hlk : lookup s'.cur.items k with
      | none => rfl
      | some w =>
        exfalso
        obtain ⟨q, hq, hqk⟩ := hoff s' hs'm k w (hvis s' hs'm k w (lookup_mem hlk) hdel haft)
        have hb := h4 j q hj ⟨s', hs', hq⟩
        rcases hqk with rfl | hqk
        · exact before_ne hb rfl
        · exact before_ne (before_trans hb hqk) rfl
    rw [hK, hV]
    refine ⟨by rw [hstep], hnew, haft, hge, ?_⟩
    -- the invariant
    have hcl : ∀ s' ∈ clearAt (m.step d del).1.index (m.step d del).1.slots, ∃ s0 ∈ clearAt m.index m.slots,
        s'.cur.items = s0.cur.items ∧ SInv d s' ∧
        (∀ e ∈ s'.rest d, e ∈ (s0.turn d del m.prevKey).1.rest d) ∧
        (∀ e ∈ (s0.turn d del m.prevKey).1.rest d, e.1 ≠ k → e ∈ s'.rest d) := by
      intro s' hs'
      rw [hidx] at hs'
      obtain ⟨j, s1, hj, hcase⟩ := clearAt_mem hs'
      rw [hstep] at hj
      simp only [List.map_map, List.getElem?_map, Option.map_eq_some_iff, Function.comp] at hj
      obtain ⟨s0, hs0, rfl⟩ := hj
      have hs0m := List.mem_of_getElem? hs0
      obtain ⟨t1, t2, t3, t4, t5⟩ := turn_spec (del := del) (pk := m.prevKey) (h.slot s0 hs0m)
      refine ⟨s0, hs0m, ?_⟩
      rcases hcase with ⟨_, rfl⟩ | ⟨hij, rfl⟩
      · exact ⟨t3, t1, fun e he => he, fun e he _ => he⟩
      · have hij : i = j := by simpa using hij
        subst hij
        have : s0 = s := by rw [hsi] at hs0; exact (Option.some.inj hs0).symm
        subst this
        refine ⟨t3, t1.clear, ?_, ?_⟩
        · intro e he; rw [hrest]; exact List.mem_cons_of_mem _ he
        · intro e he hne
          rw [hrest] at he
          rcases List.mem_cons.mp he with he | he
          · rw [he] at hne; exact absurd rfl hne
          · exact he
    refine ⟨by rw [hstep]; exact h.fwd, ?_, ?_, by rw [hstep]; rfl, ?_, ?_⟩
    · rw [hstep]
      simp only [List.map_map]
      rw [← h.sources, ← clearAt_items m.index]
      apply List.map_congr_left
      intro s0 hs0
      exact (turn_spec (del := del) (pk := m.prevKey) (h.slot s0 hs0)).2.2.1
    · intro s' hs'
      obtain ⟨_, _, _, h1, _, _⟩ := hcl s' hs'
      exact h1
    · intro s' hs' e he hde hae
      obtain ⟨s0, hs0, hi, _, _, hin⟩ := hcl s' hs'
      have hae : before d k e.1 = true := hae
      refine hin e (hvis s0 hs0 e.1 e.2 (by rw [← hi]; exact he) hde ?_) (fun e' => before_ne hae e'.symm)
      exact after_trans haft hae
    · intro s' hs' e he
      show e.1 = k ∨ before d k e.1 = true
      obtain ⟨s0, hs0, hi, _, hin, _⟩ := hcl s' hs'
      obtain ⟨q, hq, hqe⟩ := hoff s0 hs0 e.1 e.2 (hin e he)
      obtain ⟨j, hj⟩ := List.mem_iff_getElem?.mp hs0
      have hnb := h3 j q ⟨s0, hj, hq⟩
      have hkq : k = q ∨ before d k q = true := by
        rcases before_total d k q with h | h | h
        · exact .inr h
        · exact .inl h
        · rw [hnb] at h; cases h
      rcases hkq with rfl | hkq
      · rcases hqe with h | h
        · exact .inl h.symm
        · exact .inr h
      · rcases hqe with rfl | h
        · exact .inr hkq
        · exact .inr (before_trans hkq h)

end Verif.Iter
