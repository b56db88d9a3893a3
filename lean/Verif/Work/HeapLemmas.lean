import Verif.Work.HeapSpec

/-!
The queue is a heap, with each task where its index says, and no contract twice.
-/

namespace Verif.Work.Heap

/-- A task of the contract with the quota is among the first `m`. -/
def Has (q : Pq) (m a k : Nat) : Prop := ∃ i < m, (q.get i).addr = a ∧ (q.get i).quota = k

/-- The first `m` are where their indices say, and no contract is there twice. -/
def Fit (q : Pq) (m : Nat) : Prop :=
  (∀ i < m, (q.get i).index = i) ∧ ∀ i < m, ∀ j < m, (q.get i).addr = (q.get j).addr → i = j

/-- The first `m` are rearranged, the rest is left. -/
structure Kin (m : Nat) (q q' : Pq) : Prop where
  has : ∀ a k, Has q' m a k ↔ Has q m a k
  fit : Fit q m → Fit q' m
  rest : ∀ i, m ≤ i → q'.get i = q.get i
  len : q'.len = q.len

theorem Kin.refl (m : Nat) (q : Pq) : Kin m q q := ⟨fun _ _ => Iff.rfl, id, fun _ _ => rfl, rfl⟩

theorem Kin.trans {m : Nat} {q q' q'' : Pq} (h : Kin m q q') (h' : Kin m q' q'') : Kin m q q'' :=
  ⟨fun a k => (h'.has a k).trans (h.has a k), fun hf => h'.fit (h.fit hf), fun i hi => (h'.rest i hi).trans (h.rest i hi), h'.len.trans h.len⟩

theorem swap_left (q : Pq) (i j : Nat) : (q.swap i j).get i = { q.get j with index := i } := by simp [Pq.swap]

theorem swap_right (q : Pq) (i j : Nat) : (q.swap i j).get j = { q.get i with index := j } := by
  unfold Pq.swap
  by_cases h : j = i
  · subst h; simp
  · simp [h]

theorem swap_other (q : Pq) {i j k : Nat} (h1 : k ≠ i) (h2 : k ≠ j) : (q.swap i j).get k = q.get k := by simp [Pq.swap, h1, h2]

/-- Where the task at `k` goes when `i` and `j` are swapped. -/
def tr (i j k : Nat) : Nat := if k = i then j else if k = j then i else k

theorem swap_get (q : Pq) (i j k : Nat) : ((q.swap i j).get k).addr = (q.get (tr i j k)).addr ∧ ((q.swap i j).get k).quota = (q.get (tr i j k)).quota := by
  unfold tr
  by_cases h1 : k = i
  · subst h1; rw [swap_left]; simp
  · by_cases h2 : k = j
    · subst h2; rw [swap_right]; simp [h1]
    · rw [swap_other q h1 h2]; simp [h1, h2]

theorem tr_lt {i j k m : Nat} (hi : i < m) (hj : j < m) (hk : k < m) : tr i j k < m := by
  unfold tr; split
  · exact hj
  · split
    · exact hi
    · exact hk

theorem tr_tr (i j k : Nat) : tr i j (tr i j k) = k := by
  unfold tr; grind

theorem swap_kin (q : Pq) {i j m : Nat} (hi : i < m) (hj : j < m) : Kin m q (q.swap i j) := by
  refine ⟨?_, ?_, ?_, rfl⟩
  · intro a k
    constructor
    · rintro ⟨x, hx, h1, h2⟩
      refine ⟨tr i j x, tr_lt hi hj hx, ?_, ?_⟩
      · rw [← (swap_get q i j x).1]; exact h1
      · rw [← (swap_get q i j x).2]; exact h2
    · rintro ⟨x, hx, h1, h2⟩
      refine ⟨tr i j x, tr_lt hi hj hx, ?_, ?_⟩
      · rw [(swap_get q i j _).1, tr_tr]; exact h1
      · rw [(swap_get q i j _).2, tr_tr]; exact h2
  · rintro ⟨h1, h2⟩
    refine ⟨?_, ?_⟩
    · intro x hx
      by_cases hxi : x = i
      · subst hxi; rw [swap_left]
      · by_cases hxj : x = j
        · subst hxj; rw [swap_right]
        · rw [swap_other q hxi hxj]; exact h1 x hx
    · intro x hx y hy hxy
      rw [(swap_get q i j x).1, (swap_get q i j y).1] at hxy
      have := h2 _ (tr_lt hi hj hx) _ (tr_lt hi hj hy) hxy
      have := congrArg (tr i j) this
      rwa [tr_tr, tr_tr] at this
  · intro x hx
    exact swap_other q (by omega) (by omega)

theorem less_iff (q : Pq) (i j : Nat) : q.less i j = true ↔ (q.get j).quota ≤ (q.get i).quota := by
  unfold Pq.less
  by_cases h : (q.get i).quota < (q.get j).quota
  · simp [h]
  · simp [h]; omega

theorem up_kin (q : Pq) (j m : Nat) (hj : j < m) : Kin m q (q.up j) := by
  fun_induction Pq.up q j with
  | case1 q => exact Kin.refl _ _
  | case2 q j h0 hl ih => exact (swap_kin q (by omega) hj).trans (ih (by omega))
  | case3 q j h0 hl => exact Kin.refl _ _

theorem child_lt (q : Pq) {i n : Nat} (h : ¬ n ≤ 2 * i + 1) : q.child i n < n := by
  unfold Pq.child
  split <;> omega

theorem down_kin (q : Pq) (i n m : Nat) (hi : i < m) (hn : n ≤ m) : Kin m q (q.down i n).1 := by
  fun_induction Pq.down q i n with
  | case1 q i h => exact Kin.refl _ _
  | case2 q i h hl ih =>
    have hj := child_lt q h
    exact (swap_kin q hi (by omega)).trans (ih (by omega))
  | case3 q i h hl => exact Kin.refl _ _

/-- The quota at a position. -/
def Pq.qt (q : Pq) (i : Nat) : Nat := (q.get i).quota

theorem swap_qt (q : Pq) (i j k : Nat) : (q.swap i j).qt k = if k = i then q.qt j else if k = j then q.qt i else q.qt k := by
  unfold Pq.qt
  rw [(swap_get q i j k).2]
  unfold tr
  split
  · rfl
  · split <;> rfl

theorem less_qt (q : Pq) (i j : Nat) : q.less i j = true ↔ q.qt j ≤ q.qt i := less_iff q i j

/-- The first `n` are a heap below `lo`. -/
def HeapOn (q : Pq) (lo n : Nat) : Prop := ∀ c, 0 < c → c < n → lo ≤ (c - 1) / 2 → q.qt c ≤ q.qt ((c - 1) / 2)

/-- All of the first `n` are a heap. -/
def IsHeap (q : Pq) (n : Nat) : Prop := ∀ c, 0 < c → c < n → q.qt c ≤ q.qt ((c - 1) / 2)

theorem up_heap (q : Pq) (j n : Nat) (hj : j < n) (h1 : ∀ c, 0 < c → c < n → c ≠ j → q.qt c ≤ q.qt ((c - 1) / 2))
    (h2 : 0 < j → ∀ c, 0 < c → c < n → (c - 1) / 2 = j → q.qt c ≤ q.qt ((j - 1) / 2)) : IsHeap (q.up j) n := by
  fun_induction Pq.up q j with
  | case1 q =>
    intro c hc hcn
    exact h1 c hc hcn (by omega)
  | case2 q j h0 hl ih =>
    have hl := (less_qt _ _ _).1 hl
    have hpj : (j - 1) / 2 < j := by omega
    generalize hi : (j - 1) / 2 = i at *
    apply ih (by omega)
    · intro c hc hcn hci
      rw [swap_qt, swap_qt]
      have hA := h1 c hc hcn
      have hB := h2 (by omega) c hc hcn
      grind
    · intro hi0 c hc hcn hpc
      rw [swap_qt, swap_qt]
      have hA := h1 c hc hcn
      have hB := h1 i hi0 (by omega) (by omega)
      have hpi : (i - 1) / 2 < i := by omega
      rw [hpc] at hA
      grind
  | case3 q j h0 hl =>
    have hl : ¬ q.qt ((j - 1) / 2) ≤ q.qt j := fun hh => hl ((less_qt _ _ _).2 hh)
    intro c hc hcn
    by_cases hcj : c = j
    · subst hcj; omega
    · exact h1 c hc hcn hcj

theorem child_max (q : Pq) (i n c : Nat) (hc : 0 < c) (hcn : c < n) (hp : (c - 1) / 2 = i) : q.qt c ≤ q.qt (q.child i n) := by
  have hcc : c = 2 * i + 1 ∨ c = 2 * i + 2 := by omega
  unfold Pq.child
  split
  · rename_i hh
    have := (less_qt _ _ _).1 hh.2
    rcases hcc with rfl | rfl
    · exact this
    · exact Nat.le_refl _
  · rename_i hh
    rcases hcc with rfl | rfl
    · exact Nat.le_refl _
    · have : ¬ q.qt (2 * i + 1) ≤ q.qt (2 * i + 2) := fun hx => hh ⟨hcn, (less_qt _ _ _).2 hx⟩
      omega

theorem down_heap (q : Pq) (i n lo : Nat) (hlo : lo ≤ i) (h1 : ∀ c, 0 < c → c < n → lo ≤ (c - 1) / 2 → (c - 1) / 2 ≠ i → q.qt c ≤ q.qt ((c - 1) / 2))
    (h2 : 0 < i → lo ≤ (i - 1) / 2 → ∀ c, 0 < c → c < n → (c - 1) / 2 = i → q.qt c ≤ q.qt ((i - 1) / 2)) :
    HeapOn (q.down i n).1 lo n := by
  fun_induction Pq.down q i n with
  | case1 q i h =>
    intro c hc hcn hp
    exact h1 c hc hcn hp (by omega)
  | case2 q i h hl ih =>
    have hl := (less_qt _ _ _).1 hl
    have hjn := child_lt q h
    have hmax := child_max q i n
    have hj := q.child_eq i n
    generalize q.child i n = j at *
    have hpj : (j - 1) / 2 = i := by omega
    apply ih (by omega)
    · intro c hc hcn hp hpc
      rw [swap_qt, swap_qt]
      have hA := h1 c hc hcn hp
      have hM := hmax c hc hcn
      have hlt : (c - 1) / 2 < c := by omega
      by_cases hci : c = i
      · subst hci
        have hB := h2 hc hp j (by omega) hjn hpj
        rw [if_pos rfl, if_neg (by omega), if_neg (by omega)]
        exact hB
      · rw [if_neg hci]
        by_cases hcj : c = j
        · subst hcj
          rw [if_pos rfl, hpj, if_pos rfl]
          exact hl
        · rw [if_neg hcj]
          by_cases hpi : (c - 1) / 2 = i
          · rw [if_pos hpi]; exact hM hpi
          · rw [if_neg hpi, if_neg hpc]; exact hA hpi
    · intro hj0 hp c hc hcn hpc
      have hA := h1 c hc hcn (by omega) (by omega)
      rw [hpc] at hA
      rw [swap_qt, swap_qt, hpj, if_pos rfl, if_neg (by omega), if_neg (by omega)]
      exact hA
  | case3 q i h hl =>
    have hl : ¬ q.qt i ≤ q.qt (q.child i n) := fun hh => hl ((less_qt _ _ _).2 hh)
    intro c hc hcn hp
    by_cases hpc : (c - 1) / 2 = i
    · have := child_max q i n c hc hcn hpc
      rw [hpc]
      show q.qt c ≤ q.qt i
      omega
    · exact h1 c hc hcn hp hpc

theorem heapOn_zero {q : Pq} {n : Nat} : HeapOn q 0 n ↔ IsHeap q n :=
  ⟨fun h c hc hcn => h c hc hcn (Nat.zero_le _), fun h c hc hcn _ => h c hc hcn⟩

/-- The root has the greatest quota. -/
theorem root_max {q : Pq} {n : Nat} (h : IsHeap q n) (c : Nat) (hc : c < n) : q.qt c ≤ q.qt 0 := by
  induction c using Nat.strongRecOn with
  | _ c ih =>
    by_cases h0 : c = 0
    · subst h0; exact Nat.le_refl _
    · exact Nat.le_trans (h c (by omega) hc) (ih _ (by omega) (by omega))

theorem initLoop_ok (q : Pq) (k : Nat) (hk : k ≤ q.len) (h : HeapOn q k q.len) : IsHeap (q.initLoop k) q.len ∧ Kin q.len q (q.initLoop k) := by
  induction k generalizing q with
  | zero => exact ⟨heapOn_zero.1 h, Kin.refl _ _⟩
  | succ k ih =>
    have hkin := down_kin q k q.len q.len (by omega) (Nat.le_refl _)
    have hh : HeapOn (q.down k q.len).1 k q.len := by
      apply down_heap q k q.len k (Nat.le_refl _)
      · intro c hc hcn hp hpc
        exact h c hc hcn (by omega)
      · intro hk0 hp; omega
    have := ih (q.down k q.len).1 (by rw [hkin.len]; omega) (by rw [hkin.len]; exact hh)
    rw [hkin.len] at this
    exact ⟨this.1, hkin.trans this.2⟩

/-- A queue that stands for a table. -/
structure Rep (q : Pq) (m : Table) : Prop where
  fit : Fit q q.len
  heap : IsHeap q q.len
  has : ∀ a k, Has q q.len a k ↔ m a = some k

theorem Rep.kin {q q' : Pq} {m : Table} (hf : Fit q q.len) (hh : ∀ a k, Has q q.len a k ↔ m a = some k) (hk : Kin q.len q q') (hp : IsHeap q' q.len) : Rep q' m :=
  ⟨by rw [hk.len]; exact hk.fit hf, by rw [hk.len]; exact hp, fun a k => by rw [hk.len, hk.has]; exact hh a k⟩

theorem of_mem {l : List (Nat × Nat)} (hn : (l.map (·.1)).Nodup) (a k : Nat) : Table.of l a = some k ↔ (a, k) ∈ l := by
  unfold Table.of
  induction l with
  | nil => simp
  | cons e l ih =>
    rw [List.map_cons, List.nodup_cons] at hn
    rw [List.find?_cons]
    by_cases he : e.1 = a
    · simp only [he, decide_true]
      constructor
      · intro h
        have h : e.2 = k := by simpa using h
        rw [← he, ← h]
        exact List.mem_cons_self
      · intro h
        rcases List.mem_cons.1 h with h | h
        · simp [← h]
        · exact absurd (List.mem_map_of_mem (f := (·.1)) h) (by simpa [he] using hn.1)
    · simp only [he, decide_false]
      rw [ih hn.2]
      constructor
      · intro h; exact List.mem_cons_of_mem _ h
      · intro h
        rcases List.mem_cons.1 h with h | h
        · subst h; simp at he
        · exact h

theorem getD_lt {l : List (Nat × Nat)} {i : Nat} (h : i < l.length) : l.getD i (0, 0) = l[i] := by
  simp [List.getD, h]

theorem make_rep (l : List (Nat × Nat)) (hn : (l.map (·.1)).Nodup) : Rep (Pq.make l) (Table.of l) := by
  unfold Pq.make
  generalize hq : ({ len := l.length, get := fun i => { addr := (l.getD i (0, 0)).1, quota := (l.getD i (0, 0)).2, index := i } } : Pq) = q
  have hlen : q.len = l.length := by rw [← hq]
  have hget : ∀ i, q.get i = { addr := (l.getD i (0, 0)).1, quota := (l.getD i (0, 0)).2, index := i } := by intro i; rw [← hq]
  have hok := initLoop_ok q (q.len / 2) (by omega) (by intro c hc hcn hp; omega)
  refine Rep.kin ⟨?_, ?_⟩ ?_ hok.2 hok.1
  · intro i _; rw [hget]
  · intro i hi j hj hij
    rw [hget, hget] at hij
    rw [hlen] at hi hj
    simp only [getD_lt hi, getD_lt hj] at hij
    have := (List.nodup_iff_injective_getElem.1 hn)
    have hi' : i < (l.map (·.1)).length := by simpa using hi
    have hj' : j < (l.map (·.1)).length := by simpa using hj
    have := @this ⟨i, hi'⟩ ⟨j, hj'⟩ (by simpa using hij)
    simpa using this
  · intro a k
    rw [of_mem hn]
    constructor
    · rintro ⟨i, hi, h1, h2⟩
      rw [hget] at h1 h2
      rw [hlen] at hi
      simp only [getD_lt hi] at h1 h2
      rw [← h1, ← h2]
      exact List.getElem_mem hi
    · intro h
      obtain ⟨i, hi, hh⟩ := List.getElem_of_mem h
      refine ⟨i, by omega, ?_, ?_⟩ <;> (rw [hget]; simp only [getD_lt hi]; rw [hh])

theorem find_some {q : Pq} {a i : Nat} (h : q.find a = some i) : i < q.len ∧ (q.get i).addr = a := by
  have h1 := List.mem_of_find?_eq_some h
  have h2 := List.find?_some h
  exact ⟨by simpa using h1, by simpa using h2⟩

theorem find_none {q : Pq} {a : Nat} (h : q.find a = none) : ∀ i < q.len, (q.get i).addr ≠ a := by
  intro i hi
  have := List.find?_eq_none.1 h i (by simpa using hi)
  simpa using this

theorem fix_ok (q : Pq) (i : Nat) (hi : i < q.len) (h1 : ∀ c, 0 < c → c < q.len → (c - 1) / 2 ≠ i → c ≠ i → q.qt c ≤ q.qt ((c - 1) / 2))
    (h2 : 0 < i → ∀ c, 0 < c → c < q.len → (c - 1) / 2 = i → q.qt c ≤ q.qt ((i - 1) / 2))
    (h3 : (0 < i → q.qt i ≤ q.qt ((i - 1) / 2)) ∨ ∀ c, 0 < c → c < q.len → (c - 1) / 2 = i → q.qt c < q.qt i) :
    IsHeap (q.fix i) q.len ∧ Kin q.len q (q.fix i) := by
  have hk := down_kin q i q.len q.len hi (Nat.le_refl _)
  unfold Pq.fix
  dsimp only
  have hkin : Kin q.len q (if (q.down i q.len).2 > i then (q.down i q.len).1 else (q.down i q.len).1.up i) := by
    split
    · exact hk
    · exact hk.trans (up_kin _ i q.len hi)
  refine ⟨?_, hkin⟩
  rcases h3 with h3 | h3
  · have hheap : IsHeap (q.down i q.len).1 q.len := by
      apply heapOn_zero.1
      apply down_heap q i q.len 0 (Nat.zero_le _)
      · intro c hc hcn _ hpc
        by_cases hci : c = i
        · subst hci; exact h3 hc
        · exact h1 c hc hcn hpc hci
      · intro hi0 _ c hc hcn hpc
        exact h2 hi0 c hc hcn hpc
    split
    · exact hheap
    · apply up_heap _ i q.len hi
      · intro c hc hcn _; exact hheap c hc hcn
      · intro hi0 c hc hcn hpc
        have := hheap c hc hcn
        rw [hpc] at this
        exact Nat.le_trans this (hheap i hi0 hi)
  · have hstay : q.down i q.len = (q, i) := by
      rw [Pq.down]
      split
      · rfl
      · rename_i hn
        have hno : ∀ c, 0 < c → c < q.len → (c - 1) / 2 = i → q.less c i = false := by
          intro c hc hcn hpc
          have := h3 c hc hcn hpc
          rw [← Bool.not_eq_true, less_qt]
          omega
        have hlt := child_lt q hn
        have heq := q.child_eq i q.len
        rw [hno _ (by omega) hlt (by omega)]
        rfl
    rw [hstay]
    simp only [gt_iff_lt, Nat.lt_irrefl, if_false]
    apply up_heap q i q.len hi
    · intro c hc hcn hci
      by_cases hpc : (c - 1) / 2 = i
      · have := h3 c hc hcn hpc
        rw [hpc]; omega
      · exact h1 c hc hcn hpc hci
    · exact h2

theorem setQuota_qt (q : Pq) (i k c : Nat) : (q.setQuota i k).qt c = if c = i then k else q.qt c := by
  unfold Pq.setQuota Pq.qt
  dsimp only
  split <;> rfl

theorem setQuota_get (q : Pq) (i k c : Nat) : ((q.setQuota i k).get c).addr = (q.get c).addr ∧ ((q.setQuota i k).get c).index = (q.get c).index := by
  unfold Pq.setQuota
  dsimp only
  split
  · rename_i h; subst h; exact ⟨rfl, rfl⟩
  · exact ⟨rfl, rfl⟩

theorem push_rep {q : Pq} {m : Table} (h : Rep q m) (a k : Nat) : Rep (q.push a k) (m.put a k) := by
  unfold Pq.push
  rcases hf : q.find a with _ | i
  · have hno := find_none hf
    dsimp only
    have hlen : (q.append a k).len = q.len + 1 := rfl
    have hget : ∀ c, (q.append a k).get c = if c = q.len then { addr := a, quota := k, index := q.len } else q.get c := fun _ => rfl
    have hqt : ∀ c, (q.append a k).qt c = if c = q.len then k else q.qt c := by
      intro c; unfold Pq.qt; rw [hget]; split <;> rfl
    refine Rep.kin (q := q.append a k) ⟨?_, ?_⟩ ?_ (up_kin _ _ _ (by rw [hlen]; omega)) ?_
    · intro c hc
      rw [hget]
      split
      · rename_i h; exact h.symm
      · exact h.fit.1 c (by omega)
    · intro c hc d hd hcd
      rw [hget, hget] at hcd
      by_cases h1 : c = q.len <;> by_cases h2 : d = q.len
      · omega
      · rw [if_pos h1, if_neg h2] at hcd
        exact absurd hcd.symm (hno d (by omega))
      · rw [if_neg h1, if_pos h2] at hcd
        exact absurd hcd (hno c (by omega))
      · rw [if_neg h1, if_neg h2] at hcd
        exact h.fit.2 c (by omega) d (by omega) hcd
    · intro b k'
      unfold Table.put
      constructor
      · rintro ⟨c, hc, h1, h2⟩
        rw [hget] at h1 h2
        by_cases hcl : c = q.len
        · rw [if_pos hcl] at h1 h2
          rw [if_pos h1.symm]; exact congrArg some h2
        · rw [if_neg hcl] at h1 h2
          have hba : b ≠ a := fun hh => hno c (by omega) (h1.trans hh)
          rw [if_neg hba]
          exact (h.has b k').1 ⟨c, by omega, h1, h2⟩
      · intro hb
        by_cases hba : b = a
        · rw [if_pos hba] at hb
          refine ⟨q.len, by omega, ?_, ?_⟩ <;> rw [hget, if_pos rfl]
          · exact hba.symm
          · exact Option.some.inj hb
        · rw [if_neg hba] at hb
          obtain ⟨c, hc, h1, h2⟩ := (h.has b k').2 hb
          refine ⟨c, by omega, ?_, ?_⟩ <;> rw [hget, if_neg (by omega)]
          · exact h1
          · exact h2
    · apply up_heap _ _ _ (by omega)
      · intro c hc hcn hcl
        rw [hqt, hqt, if_neg hcl, if_neg (by omega)]
        exact h.heap c hc (by omega)
      · intro h0 c hc hcn hpc; omega
  · obtain ⟨hi, ha⟩ := find_some hf
    dsimp only
    rw [h.fit.1 i hi]
    have hlen : (q.setQuota i k).len = q.len := rfl
    have hok := fix_ok (q.setQuota i k) i hi ?_ ?_ ?_
    · refine Rep.kin (q := q.setQuota i k) ⟨?_, ?_⟩ ?_ hok.2 hok.1
      · intro c hc
        rw [(setQuota_get q i k c).2]
        exact h.fit.1 c hc
      · intro c hc d hd hcd
        rw [(setQuota_get q i k c).1, (setQuota_get q i k d).1] at hcd
        exact h.fit.2 c hc d hd hcd
      · intro b k'
        unfold Table.put
        constructor
        · rintro ⟨c, hc, h1, h2⟩
          have h2 : (q.setQuota i k).qt c = k' := h2
          rw [setQuota_qt] at h2
          rw [(setQuota_get q i k c).1] at h1
          by_cases hci : c = i
          · rw [if_pos hci] at h2
            rw [hci, ha] at h1
            rw [if_pos h1.symm, h2]
          · rw [if_neg hci] at h2
            have hba : b ≠ a := fun hh => hci (h.fit.2 c hc i hi (by rw [h1, hh, ha]))
            rw [if_neg hba]
            exact (h.has b k').1 ⟨c, hc, h1, h2⟩
        · intro hb
          by_cases hba : b = a
          · rw [if_pos hba] at hb
            refine ⟨i, hi, ?_, ?_⟩
            · rw [(setQuota_get q i k i).1, ha, hba]
            · show (q.setQuota i k).qt i = k'
              rw [setQuota_qt, if_pos rfl]
              exact Option.some.inj hb
          · rw [if_neg hba] at hb
            obtain ⟨c, hc, h1, h2⟩ := (h.has b k').2 hb
            have hci : c ≠ i := by
              intro hh; subst hh; exact hba (h1.symm.trans ha)
            refine ⟨c, hc, ?_, ?_⟩
            · rw [(setQuota_get q i k c).1]; exact h1
            · show (q.setQuota i k).qt c = k'
              rw [setQuota_qt, if_neg hci]; exact h2
    · intro c hc hcn hp hci
      rw [setQuota_qt, setQuota_qt, if_neg hci, if_neg hp]
      exact h.heap c hc hcn
    · intro hi0 c hc hcn hp
      rw [setQuota_qt, setQuota_qt, if_neg (by omega), if_neg (by omega)]
      have := h.heap c hc hcn
      rw [hp] at this
      exact Nat.le_trans this (h.heap i hi0 hi)
    · rcases Nat.lt_or_ge (q.qt i) k with hlt | hge
      · right
        intro c hc hcn hp
        rw [setQuota_qt, setQuota_qt, if_neg (by omega), if_pos rfl]
        have := h.heap c hc hcn
        rw [hp] at this
        omega
      · left
        intro hi0
        rw [setQuota_qt, setQuota_qt, if_pos rfl, if_neg (by omega)]
        exact Nat.le_trans hge (h.heap i hi0 hi)

theorem pop_rep {q q' : Pq} {m : Table} {a k : Nat} (h : Rep q m) (hp : q.pop = some ((a, k), q')) :
    m a = some k ∧ (∀ b k', m b = some k' → k' ≤ k) ∧ a = (q.get 0).addr ∧ q'.len + 1 = q.len ∧ Rep q' (m.drop a) := by
  unfold Pq.pop at hp
  split at hp
  · simp at hp
  · rename_i h0
    generalize hn : q.len - 1 = n at hp
    have hlen : q.len = n + 1 := by omega
    simp only [Option.some.injEq, Prod.mk.injEq] at hp
    obtain ⟨⟨ha, hk⟩, hq'⟩ := hp
    have hsw := swap_kin q (i := 0) (j := n) (m := n + 1) (by omega) (by omega)
    have hrest : ((q.swap 0 n).down 0 n).1.get n = { q.get 0 with index := n } := by
      by_cases hn0 : n = 0
      · subst hn0
        have : (q.swap 0 0).down 0 0 = (q.swap 0 0, 0) := by rw [Pq.down]; rfl
        rw [this]
        exact swap_right q 0 0
      · rw [(down_kin (q.swap 0 n) 0 n n (by omega) (Nat.le_refl _)).rest n (Nat.le_refl _)]
        exact swap_right q 0 n
    rw [hrest] at ha hk
    dsimp only at ha hk
    have hroot : ∀ c < q.len, q.qt c ≤ k := fun c hc => hk ▸ root_max h.heap c hc
    have hswget : ∀ c, c ≠ 0 → c < n → (q.swap 0 n).get c = q.get c := fun c h1 h2 => swap_other q h1 (by omega)
    -- the first `n` after the swap
    have hfitS : Fit (q.swap 0 n) n := by
      have := hsw.fit (by rw [← hlen]; exact h.fit)
      exact ⟨fun c hc => this.1 c (by omega), fun c hc d hd => this.2 c (by omega) d (by omega)⟩
    have hkin : Kin n (q.swap 0 n) ((q.swap 0 n).down 0 n).1 := by
      by_cases hn0 : n = 0
      · subst hn0
        have : (q.swap 0 0).down 0 0 = (q.swap 0 0, 0) := by rw [Pq.down]; rfl
        rw [this]
        exact Kin.refl _ _
      · exact down_kin (q.swap 0 n) 0 n n (by omega) (Nat.le_refl _)
    refine ⟨?_, ?_, ha.symm, by rw [← hq']; exact hlen.symm, ?_⟩
    · exact (h.has a k).1 ⟨0, by omega, ha, hk⟩
    · intro b k' hb
      obtain ⟨c, hc, _, h2⟩ := (h.has b k').2 hb
      have := hroot c hc
      unfold Pq.qt at this
      omega
    · rw [← hq']
      refine ⟨hkin.fit hfitS, ?_, ?_⟩
      · have : IsHeap ((q.swap 0 n).down 0 n).1 n := by
          apply heapOn_zero.1
          apply down_heap _ 0 n 0 (Nat.le_refl _)
          · intro c hc hcn _ hpc
            rw [swap_qt, swap_qt, if_neg (by omega), if_neg (by omega), if_neg hpc, if_neg (by omega)]
            exact h.heap c hc (by omega)
          · intro hh; omega
        exact this
      · intro b k'
        show Has ((q.swap 0 n).down 0 n).1 n b k' ↔ _
        rw [hkin.has]
        unfold Table.drop
        constructor
        · rintro ⟨c, hc, h1, h2⟩
          rw [(swap_get q 0 n c).1] at h1
          rw [(swap_get q 0 n c).2] at h2
          have hlt : tr 0 n c < q.len := by rw [hlen]; exact tr_lt (by omega) (by omega) (by omega)
          have hne : b ≠ a := by
            intro hh
            have := h.fit.2 _ hlt 0 (by omega) (by rw [h1, hh, ha])
            have := congrArg (tr 0 n) this
            rw [tr_tr] at this
            have : c = n := by rw [this]; rfl
            omega
          rw [if_neg hne]
          exact (h.has b k').1 ⟨_, hlt, h1, h2⟩
        · intro hb
          by_cases hba : b = a
          · rw [if_pos hba] at hb; simp at hb
          · rw [if_neg hba] at hb
            obtain ⟨c, hc, h1, h2⟩ := (h.has b k').2 hb
            have hc0 : c ≠ 0 := by intro hh; subst hh; exact hba (h1.symm.trans ha)
            refine ⟨tr 0 n c, ?_, ?_, ?_⟩
            · unfold tr; rw [if_neg hc0]; split <;> omega
            · rw [(swap_get q 0 n _).1, tr_tr]; exact h1
            · rw [(swap_get q 0 n _).2, tr_tr]; exact h2

theorem Reach.rep {q : Pq} {m : Table} (h : Reach q m) : Rep q m := by
  induction h with
  | make l hn => exact make_rep l hn
  | push a k _ ih => exact push_rep ih a k
  | pop _ hp ih => exact (pop_rep ih hp).2.2.2.2

/-- A task that is not smaller than any goes to the root. -/
theorem up_root (q : Pq) (j n : Nat) (hj : j < n) (h : ∀ c < n, q.qt c ≤ q.qt j) : ((q.up j).get 0).addr = (q.get j).addr := by
  fun_induction Pq.up q j with
  | case1 q => rfl
  | case2 q j h0 hl ih =>
    rw [ih (by omega)]
    · rw [swap_left]
    · intro c hc
      rw [swap_qt, swap_qt, if_pos rfl]
      have h1 := h c hc
      have h2 := h ((j - 1) / 2) (by omega)
      split
      · exact Nat.le_refl _
      · split
        · exact h2
        · exact h1
  | case3 q j h0 hl =>
    exact absurd ((less_qt _ _ _).2 (h _ (by omega))) hl

end Verif.Work.Heap
