import Verif.State.DbDeep

/-!
# The bytes of the keys

`ledger/chain/utils/keys_state_db.go`, `generate_key.go`, `key_prefix.go`. Different keys have different bytes, and the history entries
of a slot lie next to each other in the order of their heights, so that `iter.Last()` and `Seek` followed by `Prev` find what
`histAt` says.
-/

namespace Verif.State
open Verif.Bytes

/-- The bytes of a key. `keys_state_db.go:52-260`, `generate_key.go:95-230`, `key_prefix.go:36-60`. A key written once has its bytes
as its name. -/
def Key.bytes : Key → Bytes
  | .latest a (.stor k) => 1 :: (a ++ keyBytes k)
  | .hist a (.stor k) h => 2 :: (a ++ keyBytes k ++ be 8 h)
  | .latest a (.bal t) => 3 :: (a ++ t)
  | .hist a (.bal t) h => 4 :: (a ++ t ++ be 8 h)
  | .once i => i

/-- Addresses have 21 bytes, tokens 10, storage keys up to 32, heights are below 2^64. Code, contract meta, VM log and call depth keys
start with 5, 7, 10 and 11. -/
def Key.Wf : Key → Prop
  | .latest a (.stor k) => a.length = 21 ∧ k.length ≤ 32
  | .hist a (.stor k) h => a.length = 21 ∧ k.length ≤ 32 ∧ h < 2 ^ 64
  | .latest a (.bal t) => a.length = 21 ∧ t.length = 10
  | .hist a (.bal t) h => a.length = 21 ∧ t.length = 10 ∧ h < 2 ^ 64
  | .once i => ∃ p, (p = 5 ∨ p = 7 ∨ p = 10 ∨ p = 11) ∧ i.head? = some p

theorem keyBytes_length {k : Bytes} (h : k.length ≤ 32) : (keyBytes k).length = 33 := by
  unfold keyBytes
  rw [List.length_append, List.length_append, List.length_replicate]
  simp; omega

theorem keyBytes_inj {k k' : Bytes} (h : k.length ≤ 32) (h' : k'.length ≤ 32) (e : keyBytes k = keyBytes k') : k = k' := by
  unfold keyBytes at e
  have hl : (k ++ List.replicate (32 - k.length) 0).length = (k' ++ List.replicate (32 - k'.length) (0 : UInt8)).length := by
    simp only [List.length_append, List.length_replicate]; omega
  obtain ⟨e1, e2⟩ := List.append_inj e hl
  have hn : k.length = k'.length := by
    simp only [List.cons.injEq, and_true] at e2
    have := congrArg UInt8.toNat e2
    rw [UInt8.toNat_ofNat', UInt8.toNat_ofNat', Nat.mod_eq_of_lt (by omega), Nat.mod_eq_of_lt (by omega)] at this
    exact this
  exact (List.append_inj e1 hn).1

theorem be_inj {h h' : Nat} (hh : h < 2 ^ 64) (hh' : h' < 2 ^ 64) (e : be 8 h = be 8 h') : h = h' := by
  have := congrArg num e
  rw [num_be, num_be, Nat.mod_eq_of_lt (by norm_num; omega), Nat.mod_eq_of_lt (by norm_num; omega)] at this
  exact this

/-- Different keys have different bytes. -/
theorem Key.bytes_inj {x y : Key} (hx : x.Wf) (hy : y.Wf) (e : x.bytes = y.bytes) : x = y := by
  have once : ∀ i z, Key.Wf (.once i) → (z = (1 : UInt8) ∨ z = 2 ∨ z = 3 ∨ z = 4) → ∀ t, i ≠ z :: t := by
    rintro i z ⟨p, hp, hi⟩ hz t rfl
    simp only [List.head?_cons, Option.some.injEq] at hi
    rcases hp with rfl | rfl | rfl | rfl <;> rcases hz with rfl | rfl | rfl | rfl <;> simp at hi
  cases x with
  | once i =>
    cases y with
    | once j => simp only [Key.bytes] at e; rw [e]
    | latest a f => cases f <;> exact absurd e (once i _ hx (by simp) _)
    | hist a f h => cases f <;> exact absurd e (once i _ hx (by simp) _)
  | latest a f =>
    cases y with
    | once j => cases f <;> exact absurd e.symm (once j _ hy (by simp) _)
    | latest a' f' =>
      cases f <;> cases f' <;> simp only [Key.bytes, List.cons.injEq, reduceCtorEq, false_and, true_and] at e <;> simp only [Key.Wf] at hx hy
      · obtain ⟨rfl, e2⟩ := List.append_inj e (by omega)
        rw [keyBytes_inj hx.2 hy.2 e2]
      · simp at e
      · simp at e
      · obtain ⟨rfl, rfl⟩ := List.append_inj e (by omega)
        rfl
    | hist a' f' h => cases f <;> cases f' <;> simp [Key.bytes] at e
  | hist a f h =>
    cases y with
    | once j => cases f <;> exact absurd e.symm (once j _ hy (by simp) _)
    | latest a' f' => cases f <;> cases f' <;> simp [Key.bytes] at e
    | hist a' f' h' =>
      cases f <;> cases f' <;> simp only [Key.bytes, List.cons.injEq, reduceCtorEq, false_and, true_and] at e <;> simp only [Key.Wf] at hx hy
      · have := keyBytes_length hx.2.1
        have := keyBytes_length hy.2.1
        obtain ⟨e, e3⟩ := List.append_inj e (by simp only [List.length_append]; omega)
        obtain ⟨rfl, e2⟩ := List.append_inj e (by omega)
        rw [keyBytes_inj hx.2.1 hy.2.1 e2, be_inj hx.2.2 hy.2.2 e3]
      · simp at e
      · simp at e
      · obtain ⟨e, e3⟩ := List.append_inj e (by simp only [List.length_append]; omega)
        obtain ⟨rfl, rfl⟩ := List.append_inj e (by omega)
        rw [be_inj hx.2.2 hy.2.2 e3]

/-! ### Order -/

theorem bytesLt_append (p x y : Bytes) : bytesLt (p ++ x) (p ++ y) = bytesLt x y := by
  induction p with
  | nil => rfl
  | cons a p ih =>
    rw [List.cons_append, List.cons_append, bytesLt_cons]
    have : ¬ a < a := by simp [UInt8.lt_iff_toNat_lt]
    simp only [this, if_false]
    exact ih

theorem bytesLt_num {x y : Bytes} (h : x.length = y.length) : bytesLt x y = decide (num x < num y) := by
  induction x generalizing y with
  | nil =>
    cases y with
    | nil => rfl
    | cons b y => simp at h
  | cons a x ih =>
    cases y with
    | nil => simp at h
    | cons b y =>
      simp only [List.length_cons, Nat.add_right_cancel_iff] at h
      rw [bytesLt_cons, num_cons, num_cons, h, ih h]
      have h1 := num_lt x
      have h2 := num_lt y
      rw [h] at h1
      simp only [UInt8.lt_iff_toNat_lt]
      split
      · rename_i q
        symm; rw [decide_eq_true_eq]; nlinarith
      · split
        · rename_i q q'
          symm; rw [decide_eq_false_iff_not]; nlinarith
        · rename_i q q'
          have : a.toNat = b.toNat := by omega
          rw [this, decide_eq_decide]
          omega

/-- The history entries of a slot start with these bytes. -/
def slotBytes (a : Addr) : Field → Bytes
  | .stor k => 2 :: (a ++ keyBytes k)
  | .bal t => 4 :: (a ++ t)

theorem hist_bytes (a : Addr) (f : Field) (h : Nat) : (Key.hist a f h).bytes = slotBytes a f ++ be 8 h := by
  cases f <;> simp [Key.bytes, slotBytes]

/-- The history entries of a slot are in the order of their heights. -/
theorem hist_order {a : Addr} {f : Field} {h h' : Nat} (hh : h < 2 ^ 64) (hh' : h' < 2 ^ 64) :
    bytesLt (Key.hist a f h).bytes (Key.hist a f h').bytes = true ↔ h < h' := by
  rw [hist_bytes, hist_bytes, bytesLt_append, bytesLt_num (by simp), num_be, num_be, Nat.mod_eq_of_lt (by norm_num; omega),
    Nat.mod_eq_of_lt (by norm_num; omega), decide_eq_true_eq]

/-- What lies between two byte strings that start alike starts so too. -/
theorem between_prefix {p u v x : Bytes} (h1 : bytesLt x (p ++ u) = false) (h2 : bytesLt x (p ++ v) = true) : ∃ w, x = p ++ w := by
  induction p generalizing x with
  | nil => exact ⟨x, rfl⟩
  | cons a p ih =>
    cases x with
    | nil => simp [bytesLt] at h1
    | cons b x =>
      rw [List.cons_append, bytesLt_cons] at h1 h2
      by_cases q1 : b < a
      · simp [q1] at h1
      · by_cases q2 : a < b
        · simp [q1, q2] at h2
        · simp only [q1, q2, if_false] at h1 h2
          obtain ⟨w, rfl⟩ := ih h1 h2
          have : a = b := by
            apply UInt8.toNat_inj.mp
            simp only [UInt8.lt_iff_toNat_lt] at q1 q2
            omega
          exact ⟨w, by rw [this]; rfl⟩

theorem slotBytes_length {a : Addr} {f : Field} {h : Nat} (hw : (Key.hist a f h).Wf) :
    (slotBytes a f).length = match f with | .stor _ => 55 | .bal _ => 32 := by
  cases f with
  | stor k =>
    simp only [Key.Wf] at hw
    simp only [slotBytes, List.length_cons, List.length_append]
    rw [keyBytes_length hw.2.1, hw.1]
  | bal t =>
    simp only [Key.Wf] at hw
    simp only [slotBytes, List.length_cons, List.length_append, hw.1, hw.2.1]

/-- A key whose bytes start like the history entries of a slot is one of them. -/
theorem of_slotBytes {x : Key} {a : Addr} {f : Field} {h : Nat} {w : Bytes} (hx : x.Wf) (hf : (Key.hist a f h).Wf)
    (e : x.bytes = slotBytes a f ++ w) : ∃ j, j < 2 ^ 64 ∧ x = .hist a f j := by
  cases x with
  | once i =>
    obtain ⟨p, hp, hi⟩ := hx
    simp only [Key.bytes] at e
    subst e
    cases f <;> simp only [slotBytes, List.cons_append, List.head?_cons, Option.some.injEq] at hi <;> subst hi <;> simp at hp
  | latest a' f' => cases f <;> cases f' <;> simp [Key.bytes, slotBytes] at e
  | hist a' f' j =>
    cases f with
    | stor k =>
      cases f' with
      | bal t => simp [Key.bytes, slotBytes] at e
      | stor k' =>
        simp only [Key.Wf] at hx hf
        simp only [Key.bytes, slotBytes, List.cons_append, List.cons.injEq, true_and] at e
        have h1 := keyBytes_length hx.2.1
        have h2 := keyBytes_length hf.2.1
        obtain ⟨e, _⟩ := List.append_inj e (by simp only [List.length_append]; omega)
        obtain ⟨rfl, e2⟩ := List.append_inj e (by omega)
        exact ⟨j, hx.2.2, by rw [keyBytes_inj hx.2.1 hf.2.1 e2]⟩
    | bal t =>
      cases f' with
      | stor k => simp [Key.bytes, slotBytes] at e
      | bal t' =>
        simp only [Key.Wf] at hx hf
        simp only [Key.bytes, slotBytes, List.cons_append, List.cons.injEq, true_and] at e
        obtain ⟨e, _⟩ := List.append_inj e (by simp only [List.length_append]; omega)
        obtain ⟨rfl, rfl⟩ := List.append_inj e (by omega)
        exact ⟨j, hx.2.2, rfl⟩

/-- The entries of other keys do not come between. -/
theorem hist_contiguous {x : Key} {a : Addr} {f : Field} {h h' : Nat} (hx : x.Wf) (hf : (Key.hist a f h).Wf)
    (h1 : bytesLt x.bytes (Key.hist a f h).bytes = false) (h2 : bytesLt x.bytes (Key.hist a f h').bytes = true) :
    ∃ j, j < 2 ^ 64 ∧ x = .hist a f j := by
  rw [hist_bytes] at h1 h2
  obtain ⟨w, hw⟩ := between_prefix h1 h2
  exact of_slotBytes hx hf hw

/-! ### Iterators -/

theorem histAt_none {m : KMap} {a : Addr} {f : Field} {h : Nat} : histAt m a f h = none ↔ ∀ j, j ≤ h → m (.hist a f j) = none := by
  induction h with
  | zero =>
    unfold histAt
    constructor
    · intro h j hj
      have : j = 0 := by omega
      subst this; exact h
    · intro h; exact h 0 (Nat.le_refl _)
  | succ h ih =>
    unfold histAt
    cases hm : m (.hist a f (h + 1)) with
    | some v =>
      simp only [reduceCtorEq, false_iff]
      intro q
      rw [q (h + 1) (Nat.le_refl _)] at hm; simp at hm
    | none =>
      simp only
      rw [ih]
      constructor
      · intro q j hj
        by_cases e : j = h + 1
        · subst e; exact hm
        · exact q j (by omega)
      · intro q j hj; exact q j (by omega)

theorem histAt_last {m : KMap} {a : Addr} {f : Field} {h j : Nat} (hj : j ≤ h) (hm : m (.hist a f j) ≠ none)
    (hl : ∀ i, j < i → i ≤ h → m (.hist a f i) = none) : histAt m a f h = m (.hist a f j) := by
  induction h with
  | zero =>
    have : j = 0 := by omega
    subst this; rfl
  | succ h ih =>
    unfold histAt
    by_cases e : j = h + 1
    · subst e
      cases hv : m (.hist a f (h + 1)) with
      | some v => rfl
      | none => exact absurd hv hm
    · rw [hl (h + 1) (by omega) (Nat.le_refl _)]
      exact ih (by omega) (fun i h1 h2 => hl i h1 (by omega))

/-- `x` is the last key of the store below `hi`. -/
def IsLastBelow (m : KMap) (hi : Bytes) (x : Key) : Prop :=
  x.Wf ∧ m x ≠ none ∧ bytesLt x.bytes hi = true ∧ ∀ y : Key, y.Wf → m y ≠ none → bytesLt y.bytes hi = true → bytesLt x.bytes y.bytes = false

/-- `Seek` to the height after `h`, then `Prev`, with the check that the entry found is one of the slot (`state_db.go:402-413`,
`delete.go:359-364`, `delete.go:478-505`): the value is that of the last entry up to `h`. -/
theorem seek_prev_exact {m : KMap} {a : Addr} {f : Field} {h : Nat} (hw : (Key.hist a f (h + 1)).Wf) {x : Key}
    (hx : IsLastBelow m (Key.hist a f (h + 1)).bytes x) :
    (∀ j, x = .hist a f j → m x = histAt m a f h) ∧ ((∀ j, x ≠ .hist a f j) → histAt m a f h = none) := by
  obtain ⟨x1, x2, x3, x4⟩ := hx
  have hh : h + 1 < 2 ^ 64 := by cases f <;> exact hw.2.2
  have wf : ∀ j, j < 2 ^ 64 → (Key.hist a f j).Wf := by
    intro j hj
    cases f <;> exact ⟨hw.1, hw.2.1, hj⟩
  constructor
  · rintro j rfl
    have hj : j < 2 ^ 64 := by cases f <;> exact x1.2.2
    have hlt := (hist_order hj hh).mp x3
    rw [histAt_last (j := j) (by omega) x2]
    intro i h1 h2
    by_contra hc
    have := x4 (.hist a f i) (wf i (by omega)) hc ((hist_order (by omega) hh).mpr (by omega))
    rw [(hist_order hj (by omega)).mpr h1] at this
    simp at this
  · intro hne
    rw [histAt_none]
    intro j hj
    by_contra hc
    have h1 := x4 (.hist a f j) (wf j (by omega)) hc ((hist_order (by omega) hh).mpr (by omega))
    obtain ⟨i, _, e⟩ := hist_contiguous x1 (wf j (by omega)) h1 x3
    exact hne i e

/-- There is no key below: no entry. -/
theorem seek_prev_none {m : KMap} {a : Addr} {f : Field} {h : Nat} (hw : (Key.hist a f (h + 1)).Wf)
    (hx : ∀ y : Key, y.Wf → m y ≠ none → bytesLt y.bytes (Key.hist a f (h + 1)).bytes = false) : histAt m a f h = none := by
  have hh : h + 1 < 2 ^ 64 := by cases f <;> exact hw.2.2
  rw [histAt_none]
  intro j hj
  by_contra hc
  have := hx (.hist a f j) (by cases f <;> exact ⟨hw.1, hw.2.1, by omega⟩) hc
  rw [(hist_order (by omega) hh).mpr (by omega)] at this
  simp at this

/-- `Last` in the range from height 0 to the height after `h` (`state_db.go:317-325`). -/
theorem last_in_range_exact {m : KMap} {a : Addr} {f : Field} {h : Nat} (hw : (Key.hist a f (h + 1)).Wf) {x : Key} (x1 : x.Wf) (x2 : m x ≠ none)
    (x0 : bytesLt x.bytes (Key.hist a f 0).bytes = false) (x3 : bytesLt x.bytes (Key.hist a f (h + 1)).bytes = true)
    (x4 : ∀ y : Key, y.Wf → m y ≠ none → bytesLt y.bytes (Key.hist a f 0).bytes = false → bytesLt y.bytes (Key.hist a f (h + 1)).bytes = true →
      bytesLt x.bytes y.bytes = false) : m x = histAt m a f h := by
  have wf0 : (Key.hist a f 0).Wf := by cases f <;> exact ⟨hw.1, hw.2.1, by norm_num⟩
  obtain ⟨j, hj, rfl⟩ := hist_contiguous x1 wf0 x0 x3
  refine (seek_prev_exact hw ⟨x1, x2, x3, ?_⟩).1 j rfl
  intro y y1 y2 y3
  by_cases hy : bytesLt y.bytes (Key.hist a f 0).bytes = true
  · by_contra hc
    have hc' : bytesLt (Key.hist a f j).bytes y.bytes = true := by simpa using hc
    -- a key before the first entry cannot be after one of them
    rw [bytesLt_trans_not (bytesLt_asymm hc') x0] at hy
    simp at hy
  · exact x4 y y1 y2 (by simpa using hy) y3

/-- Concrete: three entries of one slot among others. -/
example : bytesLt (Key.hist (List.replicate 21 1) (.stor [7]) 255).bytes (Key.hist (List.replicate 21 1) (.stor [7]) 256).bytes = true ∧
    bytesLt (Key.hist (List.replicate 21 1) (.stor [7]) 256).bytes (Key.hist (List.replicate 21 1) (.stor [7, 0]) 1).bytes = true := by
  decide +kernel

example : (Key.hist (List.replicate 21 1) (.stor [7]) 255).Wf ∧ (Key.latest (List.replicate 21 1) (.bal (List.replicate 10 3))).Wf := by
  refine ⟨⟨rfl, by decide, by norm_num⟩, rfl, rfl⟩

end Verif.State
