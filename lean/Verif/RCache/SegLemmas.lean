import Verif.RCache.RCacheLemmas

/-! # The rounds of a chain, and the slots of the cache -/

namespace Verif.RCache

open Verif.Bytes Verif.Iter
open Verif.Block (bigBytes num_bigBytes)

/-- The blocks of round `r` are those above height `lo` up to `hi`, and there are some. -/
structure Seg (c : Chain) (r lo hi : Nat) : Prop where
  lt : lo < hi
  le : hi ≤ c.length
  before : ∀ i b, c[i]? = some b → (b.round < r ↔ i < lo)
  upto : ∀ i b, c[i]? = some b → (b.round ≤ r ↔ i < hi)

/-- The chains have the same first `n` blocks. -/
abbrev SameTo (n : Nat) (c c' : Chain) : Prop := c'.take n = c.take n

theorem SameTo.get {n : Nat} {c c' : Chain} (h : SameTo n c c') {i : Nat} (hi : i < n) : c'[i]? = c[i]? := by
  have := congrArg (fun l : Chain => l[i]?) h
  simpa [List.getElem?_take, hi] using this

theorem SameTo.mono {n m : Nat} {c c' : Chain} (h : SameTo n c c') (hm : m ≤ n) : SameTo m c c' := by
  have := congrArg (List.take m) h
  simpa [List.take_take, Nat.min_eq_left hm] using this

theorem Seg.move {c c' : Chain} {r lo hi : Nat} (h : Seg c r lo hi) (hs : SameTo hi c c') (hl : hi ≤ c'.length)
    (hr : ∀ i b, hi ≤ i → c'[i]? = some b → r < b.round) : Seg c' r lo hi where
  lt := h.lt
  le := hl
  before := by
    intro i b hb
    by_cases hi' : i < hi
    · exact h.before i b (by rw [← hs.get hi']; exact hb)
    · have := hr i b (by omega) hb
      have := h.lt
      omega
  upto := by
    intro i b hb
    by_cases hi' : i < hi
    · exact h.upto i b (by rw [← hs.get hi']; exact hb)
    · have := hr i b (by omega) hb
      omega

theorem Agrees.move {c c' : Chain} {n : Nat} {m : Mem} (h : Agrees c n m) (hs : SameTo n c c') : Agrees c' n m where
  sorted := h.sorted
  storage := by intro k; rw [storageAt_eq, hs]; exact h.storage k
  balance := by intro a v hv; unfold balanceAt; rw [hs]; exact h.balance a v hv

theorem redos_move {c c' : Chain} {lo hi : Nat} (hs : SameTo hi c c') : redos c' lo hi = redos c lo hi := by unfold redos; rw [hs]

/-- A slot with its data: those of the block of height `hi`, the last of the round. -/
def Full (c : Chain) (d : Slot) (hi : Nat) : Prop := ∃ m b, d.cur = some m ∧ d.last = some b ∧ c[hi - 1]? = some b ∧ Agrees c hi m

theorem Full.move {c c' : Chain} {d : Slot} {hi : Nat} (h : Full c d hi) (h0 : 0 < hi) (hs : SameTo hi c c') : Full c' d hi := by
  obtain ⟨m, b, h1, h2, h3, h4⟩ := h
  exact ⟨m, b, h1, h2, by rw [hs.get (by omega)]; exact h3, h4.move hs⟩

/-- Slots of consecutive rounds with their data and logs, for the blocks above `lo` up to `hi`. -/
inductive Fulls (c : Chain) : Nat → List Slot → Nat → Prop
  | nil (n : Nat) : Fulls c n [] n
  | cons {lo mid hi : Nat} {d : Slot} {l : List Slot} : Seg c d.round lo mid → Full c d mid → d.logs = some (redos c lo mid) →
      Fulls c mid l hi → Fulls c lo (d :: l) hi

/-- The slot of the round that goes on: its logs up to the end of the chain. -/
structure Open (c : Chain) (lo : Nat) (d : Slot) : Prop where
  seg : Seg c d.round lo c.length
  cur : d.cur = none
  last : d.last = none
  logs : d.logs = some (redos c lo c.length)

theorem Fulls.le {c : Chain} {lo hi : Nat} {l : List Slot} (h : Fulls c lo l hi) : lo ≤ hi := by
  induction h with
  | nil => omega
  | cons h1 _ _ _ ih => have := h1.lt; omega

theorem Fulls.snoc {c : Chain} {lo mid hi : Nat} {l : List Slot} {d : Slot} (h : Fulls c lo l mid) (hs : Seg c d.round mid hi)
    (hf : Full c d hi) (hl : d.logs = some (redos c mid hi)) : Fulls c lo (l ++ [d]) hi := by
  induction h with
  | nil n => exact .cons hs hf hl (.nil _)
  | cons h1 h2 h3 _ ih => exact .cons h1 h2 h3 (ih hs hl)

/-- Blocks after the end of the slots are of later rounds. -/
theorem Fulls.later {c : Chain} {lo hi : Nat} {l : List Slot} (h : Fulls c lo l hi) {d : Slot} (hd : d ∈ l) {i : Nat} {b : Blk}
    (hi' : hi ≤ i) (hb : c[i]? = some b) : d.round < b.round := by
  induction h with
  | nil => cases hd
  | @cons lo mid hi d' l h1 h2 h3 h4 ih =>
    rcases List.mem_cons.mp hd with rfl | hd
    · have := (h1.upto i b hb)
      have := h4.le
      omega
    · exact ih hd hi'

theorem Fulls.move {c c' : Chain} {lo hi : Nat} {l : List Slot} (h : Fulls c lo l hi) (hs : SameTo hi c c') (hl : hi ≤ c'.length)
    (hr : ∀ d ∈ l, ∀ i b, hi ≤ i → c'[i]? = some b → d.round < b.round) : Fulls c' lo l hi := by
  induction h with
  | nil n => exact .nil n
  | @cons lo mid hi d l h1 h2 h3 h4 ih =>
    have hmh := h4.le
    have hs' := hs.mono hmh
    refine .cons (h1.move hs' (by omega) ?_) (h2.move (by have := h1.lt; omega) hs') (by rw [redos_move hs']; exact h3)
      (ih hs hl fun d hd => hr d (List.mem_cons_of_mem _ hd))
    intro i b hi' hb
    by_cases hlt : i < hi
    · have hb' : c[i]? = some b := by rw [← hs.get hlt]; exact hb
      have := h1.upto i b hb'
      omega
    · exact hr d List.mem_cons_self i b (by omega) hb

/-- The cache's slots are right. -/
inductive Slots (c : Chain) : List Slot → Prop
  | empty : Slots c []
  | some {d e : Slot} {l : List Slot} {lo hi mid : Nat} : Seg c d.round lo hi → Full c d hi → Fulls c hi l mid → Open c mid e →
      Slots c (d :: (l ++ [e]))

/-! ## Rounds of a chain -/

theorem round_mono {c : Chain} (h : c.Pairwise (fun a b => a.round ≤ b.round)) {i j : Nat} {a b : Blk} (ha : c[i]? = some a) (hb : c[j]? = some b)
    (hij : i ≤ j) : a.round ≤ b.round := by
  rcases Nat.lt_or_ge i j with hlt | hge
  · rw [List.pairwise_iff_getElem] at h
    obtain ⟨hi, rfl⟩ := List.getElem?_eq_some_iff.mp ha
    obtain ⟨hj, rfl⟩ := List.getElem?_eq_some_iff.mp hb
    exact h i j hi hj hlt
  · have : i = j := by omega
    subst this
    rw [ha] at hb
    rw [Option.some.inj hb]

theorem index_upto {c : Chain} (h : c.Pairwise (fun a b => a.round ≤ b.round)) (r : Nat) : ∀ i b, c[i]? = some b →
    (b.round ≤ r ↔ i < (c.filter (fun b => decide (b.round ≤ r))).length) := by
  induction c with
  | nil => intro i b hb; simp at hb
  | cons x c ih =>
    have hx := List.pairwise_cons.mp h
    intro i b hb
    rw [List.filter_cons]
    by_cases hxr : x.round ≤ r
    · simp only [hxr, decide_true, if_true, List.length_cons]
      cases i with
      | zero => simp at hb; subst hb; simp [hxr]
      | succ i => rw [ih hx.2 i b (by simpa using hb)]; omega
    · have hnil : c.filter (fun b => decide (b.round ≤ r)) = [] := by
        rw [List.filter_eq_nil_iff]
        intro y hy
        have := hx.1 y hy
        simp; omega
      simp only [hxr, decide_false, Bool.false_eq_true, if_false, hnil, List.length_nil]
      cases i with
      | zero => simp at hb; subst hb; omega
      | succ i =>
        have := hx.1 b (List.mem_of_getElem? (by simpa using hb))
        omega

theorem filter_take {c : Chain} (h : c.Pairwise (fun a b => a.round ≤ b.round)) (r : Nat) :
    c.filter (fun b => decide (b.round ≤ r)) = c.take (c.filter (fun b => decide (b.round ≤ r))).length := by
  induction c with
  | nil => rfl
  | cons x c ih =>
    have hx := List.pairwise_cons.mp h
    rw [List.filter_cons]
    by_cases hxr : x.round ≤ r
    · simp only [hxr, decide_true, if_true, List.length_cons, List.take_succ_cons]
      rw [← ih hx.2]
    · have hnil : c.filter (fun b => decide (b.round ≤ r)) = [] := by
        rw [List.filter_eq_nil_iff]
        intro y hy
        have := hx.1 y hy
        simp; omega
      simp [hxr, hnil]

theorem seg_exists {c : Chain} (h : c.Pairwise (fun a b => a.round ≤ b.round)) {b : Blk} (hb : b ∈ c) :
    ∃ lo hi, Seg c b.round lo hi := by
  have hlt : ∀ i x, c[i]? = some x → (x.round < b.round ↔ i < if b.round = 0 then 0 else (c.filter (fun x => decide (x.round ≤ b.round - 1))).length) := by
    intro i x hx
    by_cases h0 : b.round = 0
    · simp [h0]
    · rw [if_neg h0, ← index_upto h (b.round - 1) i x hx]; omega
  obtain ⟨j, hj⟩ := List.mem_iff_getElem?.mp hb
  refine ⟨_, (c.filter (fun x => decide (x.round ≤ b.round))).length, ?_, List.length_filter_le _ _, hlt, index_upto h b.round⟩
  have h1 := (hlt j b hj)
  have h2 := (index_upto h b.round j b hj)
  have : ¬ b.round < b.round := by omega
  omega

theorem seg_unique {c : Chain} {r lo hi lo' hi' : Nat} (h : Seg c r lo hi) (h' : Seg c r lo' hi') : lo = lo' ∧ hi = hi' := by
  have key : ∀ {n n' : Nat}, n ≤ c.length → n' ≤ c.length → (∀ i b, c[i]? = some b → (i < n ↔ i < n')) → n = n' := by
    intro n n' hn hn' hall
    by_contra hne
    rcases Nat.lt_or_gt_of_ne hne with hlt | hlt
    · have := hall n _ (List.getElem?_eq_getElem (by omega)); omega
    · have := hall n' _ (List.getElem?_eq_getElem (by omega)); omega
  have l1 := h.lt; have l2 := h.le; have l3 := h'.lt; have l4 := h'.le
  exact ⟨key (by omega) (by omega) fun i b hb => (h.before i b hb).symm.trans (h'.before i b hb),
    key h.le h'.le fun i b hb => (h.upto i b hb).symm.trans (h'.upto i b hb)⟩

theorem Seg.mem {c : Chain} {r lo hi : Nat} (h : Seg c r lo hi) {i : Nat} {b : Blk} (hb : c[i]? = some b) : b.round = r ↔ lo ≤ i ∧ i < hi := by
  have h1 := h.before i b hb
  have h2 := h.upto i b hb
  omega

theorem Seg.last {c : Chain} {r lo hi : Nat} (h : Seg c r lo hi) : ∃ b, c[hi - 1]? = some b ∧ b.round = r := by
  have l1 := h.lt; have l2 := h.le
  have hb : c[hi - 1]? = some c[hi - 1] := List.getElem?_eq_getElem (by omega)
  exact ⟨_, hb, (h.mem hb).mpr (by omega)⟩

theorem Seg.filter_upto {c : Chain} {r lo hi : Nat} (h : Seg c r lo hi) (hr : c.Pairwise (fun a b => a.round ≤ b.round)) :
    c.filter (fun b => decide (b.round ≤ r)) = c.take hi := by
  rw [filter_take hr]
  congr 1
  by_contra hne
  have hl := List.length_filter_le (fun b : Blk => decide (b.round ≤ r)) c
  have l2 := h.le
  rcases Nat.lt_or_gt_of_ne hne with hlt | hlt
  · have e := List.getElem?_eq_getElem (l := c) (i := (c.filter (fun b => decide (b.round ≤ r))).length) (by omega)
    have := index_upto hr r _ _ e
    have := h.upto _ _ e
    omega
  · have e := List.getElem?_eq_getElem (l := c) (i := hi) (by omega)
    have := index_upto hr r _ _ e
    have := h.upto _ _ e
    omega

theorem Seg.lastOfRound {c : Chain} {r lo hi : Nat} (h : Seg c r lo hi) (hr : c.Pairwise (fun a b => a.round ≤ b.round)) :
    lastOfRound c r = c[hi - 1]? := by
  obtain ⟨b, hb, hbr⟩ := h.last
  have l1 := h.lt; have l2 := h.le
  unfold RCache.lastOfRound
  rw [h.filter_upto hr, List.getLast?_eq_getElem?, List.length_take, Nat.min_eq_left l2, List.getElem?_take, if_pos (by omega), hb]
  simp [hbr]

theorem lastOfRound_some {c : Chain} {r : Nat} {b : Blk} (h : lastOfRound c r = some b) : b ∈ c ∧ b.round = r := by
  unfold lastOfRound at h
  cases hl : (c.filter (fun b => decide (b.round ≤ r))).getLast? with
  | none => rw [hl] at h; cases h
  | some x =>
    rw [hl] at h
    simp only at h
    split at h
    · cases h
      exact ⟨(List.mem_filter.mp (List.mem_of_getLast? hl)).1, by assumption⟩
    · cases h

/-- The blocks of a round, lowest first. -/
theorem Seg.blocks {c : Chain} {r lo hi : Nat} (h : Seg c r lo hi) : c.filter (fun b => decide (b.round = r)) = (c.take hi).drop lo := by
  have l1 := h.lt; have l2 := h.le
  have e : c = (c.take lo) ++ ((c.take hi).drop lo ++ c.drop hi) := by
    rw [← List.append_assoc, ← take_split c (by omega), List.take_append_drop]
  have h1 : (c.take lo).filter (fun b => decide (b.round = r)) = [] := by
    rw [List.filter_eq_nil_iff]
    intro b hb
    obtain ⟨i, hi'⟩ := List.mem_iff_getElem?.mp hb
    rw [List.getElem?_take] at hi'
    split at hi'
    · have := h.mem hi'; simp; omega
    · cases hi'
  have h2 : ((c.take hi).drop lo).filter (fun b => decide (b.round = r)) = (c.take hi).drop lo := by
    rw [List.filter_eq_self]
    intro b hb
    obtain ⟨i, hi'⟩ := List.mem_iff_getElem?.mp hb
    rw [List.getElem?_drop, List.getElem?_take] at hi'
    split at hi'
    · have := h.mem hi'; simp; omega
    · cases hi'
  have h3 : (c.drop hi).filter (fun b => decide (b.round = r)) = [] := by
    rw [List.filter_eq_nil_iff]
    intro b hb
    obtain ⟨i, hi'⟩ := List.mem_iff_getElem?.mp hb
    rw [List.getElem?_drop] at hi'
    have := h.mem hi'; simp; omega
  conv_lhs => rw [e]
  rw [List.filter_append, List.filter_append, h1, h2, h3]
  simp

end Verif.RCache
