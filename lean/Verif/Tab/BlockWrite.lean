import Verif.Tab.BlockPrev
import Verif.Store.BatchProps

/-! # What the writer writes is a block that holds the entries -/

namespace Verif.Tab
open Verif.Bytes Verif.Store

variable {O : Type} [LinearOrder O]

/-- The writer after some entries. -/
def runW (I : Nat) (es : List (Bytes × Bytes)) : BW := es.foldl BW.append (BW.new I)

theorem shared_take : ∀ a b : Bytes, a.take (shared a b) = b.take (shared a b)
  | [], b => by simp [shared]
  | a :: l, [] => by simp [shared]
  | a :: l, b :: m => by
    by_cases h : a = b
    · subst h; simp [shared, shared_take l m]
    · simp [shared, h]

theorem get4_put4 (v : Nat) (hv : v < 2 ^ 32) (rest : Bytes) : get4 (put4 v ++ rest) = v := by
  have h1 : (UInt8.ofNat (v % 256)).toNat = v % 256 := by simp [UInt8.toNat_ofNat']
  have h2 : (UInt8.ofNat (v / 256 % 256)).toNat = v / 256 % 256 := by simp [UInt8.toNat_ofNat']
  have h3 : (UInt8.ofNat (v / 65536 % 256)).toNat = v / 65536 % 256 := by simp [UInt8.toNat_ofNat']
  have h4 : (UInt8.ofNat (v / 16777216 % 256)).toNat = v / 16777216 % 256 := by simp [UInt8.toNat_ofNat']
  show (UInt8.ofNat (v % 256)).toNat + 256 * (UInt8.ofNat (v / 256 % 256)).toNat + 65536 * (UInt8.ofNat (v / 65536 % 256)).toNat +
    16777216 * (UInt8.ofNat (v / 16777216 % 256)).toNat = v
  rw [h1, h2, h3, h4]; omega

theorem put4_length (v : Nat) : (put4 v).length = 4 := rfl

theorem flat4_length (l : List Nat) : ((l.map put4).flatten).length = 4 * l.length := by
  induction l with
  | nil => rfl
  | cons a l ih => simp only [List.map_cons, List.flatten_cons, List.length_append, ih, put4_length, List.length_cons]; omega

/-- The `r`-th of a list of numbers, four bytes each. -/
theorem get4_flat (l : List Nat) (hl : ∀ x ∈ l, x < 2 ^ 32) (rest : Bytes) : ∀ r (hr : r < l.length), get4 ((((l.map put4).flatten) ++ rest).drop (4 * r)) = l[r] := by
  induction l with
  | nil => intro r hr; simp at hr
  | cons a l ih =>
    intro r hr
    cases r with
    | zero =>
      simp only [List.map_cons, List.flatten_cons, List.append_assoc, Nat.mul_zero, List.drop_zero, List.getElem_cons_zero]
      exact get4_put4 a (hl a (List.mem_cons_self ..)) _
    | succ r =>
      have he : 4 * (r + 1) = (put4 a).length + 4 * r := by rw [put4_length]; omega
      simp only [List.map_cons, List.flatten_cons, List.append_assoc, List.getElem_cons_succ]
      rw [he, ← List.drop_drop, List.drop_left]
      exact ih (fun x hx => hl x (List.mem_cons_of_mem _ hx)) r (by simpa using hr)

section
variable (I : Nat) (es : List (Bytes × Bytes))

/-- Keys and values by index, offsets and restart points. -/
def keyOf (j : Nat) : Bytes := (es.getD j ([], [])).1
def valOf (j : Nat) : Bytes := (es.getD j ([], [])).2
def offOf (j : Nat) : Nat := (runW I (es.take j)).buf.length
def starts : List Nat := (List.range es.length).filter (fun j => decide (j % I = 0))
def startOf (r : Nat) : Nat := (starts I es).getD r 0
def shareOf (j : Nat) : Nat := if j % I = 0 then 0 else shared (keyOf es (j - 1)) (keyOf es j)

theorem runW_interval : ∀ l : List (Bytes × Bytes), (runW I l).interval = I ∧ (runW I l).n = l.length := by
  intro l
  induction l using List.reverseRecOn with
  | nil => exact ⟨rfl, rfl⟩
  | append_singleton l a ih =>
    have : runW I (l ++ [a]) = (runW I l).append a := by unfold runW; rw [List.foldl_append]; rfl
    rw [this]
    unfold BW.append
    split
    · exact ⟨ih.1, by simp [ih.2]⟩
    · exact ⟨ih.1, by simp [ih.2]⟩

theorem runW_prev (l : List (Bytes × Bytes)) (a : Bytes × Bytes) : (runW I (l ++ [a])).prev = a.1 := by
  have : runW I (l ++ [a]) = (runW I l).append a := by unfold runW; rw [List.foldl_append]; rfl
  rw [this]; unfold BW.append; split <;> rfl

theorem take_succ_get {j : Nat} (hj : j < es.length) : es.take (j + 1) = es.take j ++ [es.getD j ([], [])] := by
  rw [List.take_succ_eq_append_getElem hj]
  simp [List.getD_eq_getElem?_getD, List.getElem?_eq_getElem hj]

theorem runW_succ {j : Nat} (hj : j < es.length) :
    (runW I (es.take (j + 1))).buf = (runW I (es.take j)).buf ++ encEntry (shareOf I es j) (es.getD j ([], [])) ∧
    (runW I (es.take (j + 1))).restarts = (runW I (es.take j)).restarts ++ (if j % I = 0 then [offOf I es j] else []) := by
  have h1 : runW I (es.take (j + 1)) = (runW I (es.take j)).append (es.getD j ([], [])) := by
    rw [take_succ_get es hj]; unfold runW; rw [List.foldl_append]; rfl
  have hn := (runW_interval I (es.take j)).2
  have hi := (runW_interval I (es.take j)).1
  rw [List.length_take, Nat.min_eq_left (by omega)] at hn
  rw [h1]
  unfold BW.append shareOf
  rw [hn, hi]
  by_cases hm : j % I = 0
  · rw [if_pos hm, if_pos hm, if_pos hm]; exact ⟨rfl, rfl⟩
  · rw [if_neg hm, if_neg hm, if_neg hm]
    refine ⟨?_, by simp⟩
    have hj0 : j ≠ 0 := by rintro rfl; simp at hm
    obtain ⟨q, rfl⟩ : ∃ q, j = q + 1 := ⟨j - 1, by omega⟩
    have hp : (runW I (es.take (q + 1))).prev = keyOf es q := by
      rw [take_succ_get es (by omega), runW_prev]; rfl
    rw [hp]; rfl

theorem buf_prefix {j : Nat} : ∀ m, j ≤ m → m ≤ es.length → ∃ rest, (runW I (es.take m)).buf = (runW I (es.take j)).buf ++ rest := by
  intro m
  induction m with
  | zero => intro h _; have : j = 0 := by omega
            subst this; exact ⟨[], by simp⟩
  | succ m ih =>
    intro h hm
    rcases Nat.lt_or_ge m j with h1 | h1
    · have : j = m + 1 := by omega
      subst this; exact ⟨[], by simp⟩
    · obtain ⟨rest, hr⟩ := ih h1 (by omega)
      exact ⟨rest ++ _, by rw [(runW_succ I es (by omega : m < es.length)).1, hr, List.append_assoc]⟩

theorem restarts_eq : ∀ m, m ≤ es.length →
    (runW I (es.take m)).restarts = ((List.range m).filter (fun j => decide (j % I = 0))).map (offOf I es) := by
  intro m
  induction m with
  | zero => intro _; rfl
  | succ m ih =>
    intro hm
    rw [(runW_succ I es (by omega : m < es.length)).2, ih (by omega), List.range_succ, List.filter_append, List.map_append]
    congr 1
    by_cases h : m % I = 0
    · simp [h]
    · simp [h]

theorem encEntry_pos (s : Nat) (e : Bytes × Bytes) : 0 < (encEntry s e).length := by
  unfold encEntry
  rw [List.length_append]
  have : 0 < (uvarint s).length := by
    unfold uvarint
    split <;> simp
  omega

theorem starts_sorted : (starts I es).Pairwise (· < ·) := List.Pairwise.filter _ List.pairwise_lt_range

theorem mem_starts {x : Nat} : x ∈ starts I es ↔ x < es.length ∧ x % I = 0 := by
  unfold starts; simp

end

end Verif.Tab
