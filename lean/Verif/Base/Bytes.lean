import Verif.Tactics

/-!
# Byte strings: big-endian numbers and lexicographic comparison

Shared library. `be k n` is what `binary.BigEndian.PutUintXX` writes (the low `k` bytes of `n`),
`num` is what `binary.BigEndian.UintXX` and `big.Int.SetBytes` read, `bcmp` is Go's `bytes.Compare`.
-/

namespace Verif.Bytes

/-- Go `[]byte`. -/
abbrev Bytes := List UInt8

/-- Big-endian value of a byte string (Go `binary.BigEndian.Uint32/Uint64`, `big.Int.SetBytes`). -/
def num (l : Bytes) : Nat := l.foldl (fun a b => a * 256 + b.toNat) 0

/-- The `k` low-order bytes of `n`, big-endian (Go `binary.BigEndian.PutUint32/PutUint64` and slicing off the top). -/
def be : Nat → Nat → Bytes
  | 0, _ => []
  | k + 1, n => be k (n / 256) ++ [UInt8.ofNat (n % 256)]

/-- Go `bytes.Compare`: lexicographic comparison. -/
def bcmp : Bytes → Bytes → Ordering
  | [], [] => .eq
  | [], _ :: _ => .lt
  | _ :: _, [] => .gt
  | a :: as, b :: bs => if a.toNat < b.toNat then .lt else if b.toNat < a.toNat then .gt else bcmp as bs

/-- Go `bytes.Equal`-style bitwise complement of every byte. -/
def bnot (l : Bytes) : Bytes := l.map (fun b => ~~~b)

theorem num_snoc (l : Bytes) (b : UInt8) : num (l ++ [b]) = num l * 256 + b.toNat := by
  simp [num]

@[simp] theorem num_nil : num [] = 0 := rfl

theorem foldl_num (l : Bytes) (a : Nat) :
    l.foldl (fun a b => a * 256 + b.toNat) a = a * 256 ^ l.length + num l := by
  induction l generalizing a with
  | nil => simp
  | cons b l ih =>
    simp only [List.foldl_cons, List.length_cons, num]
    rw [ih, ih (0 * 256 + b.toNat)]; ring

theorem num_cons (b : UInt8) (l : Bytes) : num (b :: l) = b.toNat * 256 ^ l.length + num l := by
  show (b :: l).foldl _ 0 = _
  rw [List.foldl_cons, foldl_num]; simp

theorem num_append (a b : Bytes) : num (a ++ b) = num a * 256 ^ b.length + num b := by
  unfold num; rw [List.foldl_append, foldl_num]; rfl

theorem num_lt (l : Bytes) : num l < 256 ^ l.length := by
  induction l with
  | nil => simp
  | cons b l ih =>
    rw [num_cons, List.length_cons, pow_succ]
    have := b.toNat_lt
    nlinarith [Nat.zero_le (256 ^ l.length)]

@[simp] theorem be_length (k n : Nat) : (be k n).length = k := by
  induction k generalizing n with
  | zero => rfl
  | succ k ih => simp [be, ih]

theorem num_be (k n : Nat) : num (be k n) = n % 256 ^ k := by
  induction k generalizing n with
  | zero => simp [be, Nat.mod_one]
  | succ k ih =>
    rw [be, num_snoc, ih, pow_succ, Nat.mul_comm (256 ^ k), Nat.mod_mul]
    have : (UInt8.ofNat (n % 256)).toNat = n % 256 := by
      simp
    rw [this]; ring

theorem num_inj {a b : Bytes} (hl : a.length = b.length) (h : num a = num b) : a = b := by
  induction a generalizing b with
  | nil => cases b with
    | nil => rfl
    | cons => simp at hl
  | cons x a ih =>
    cases b with
    | nil => simp at hl
    | cons y b =>
      simp only [List.length_cons, Nat.add_right_cancel_iff] at hl
      rw [num_cons, num_cons, hl] at h
      have h1 := num_lt a; have h2 := num_lt b
      rw [hl] at h1
      have hxy : x.toNat = y.toNat := by
        rcases Nat.lt_trichotomy x.toNat y.toNat with h3 | h3 | h3
        · nlinarith
        · exact h3
        · nlinarith
      rw [hxy] at h
      rw [UInt8.toNat_inj.1 hxy, ih hl (by omega)]

theorem be_num (l : Bytes) : be l.length (num l) = l := by
  apply num_inj (by simp)
  rw [num_be, Nat.mod_eq_of_lt (num_lt l)]

theorem bcmp_eq_compare {a b : Bytes} (hl : a.length = b.length) : bcmp a b = compare (num a) (num b) := by
  induction a generalizing b with
  | nil => cases b with
    | nil => rfl
    | cons => simp at hl
  | cons x a ih =>
    cases b with
    | nil => simp at hl
    | cons y b =>
      simp only [List.length_cons, Nat.add_right_cancel_iff] at hl
      rw [bcmp, num_cons, num_cons, ih hl, hl]
      have h1 := num_lt a; have h2 := num_lt b
      rw [hl] at h1
      split
      · rename_i h; symm; rw [Nat.compare_eq_lt]; nlinarith
      · split
        · rename_i h; symm; rw [Nat.compare_eq_gt]; nlinarith
        · rename_i h h'
          have : x.toNat = y.toNat := by omega
          rw [this]
          rcases Nat.lt_trichotomy (num a) (num b) with h3 | h3 | h3
          · rw [Nat.compare_eq_lt.2 h3, Nat.compare_eq_lt.2 (by omega)]
          · rw [h3]; simp
          · rw [Nat.compare_eq_gt.2 h3, Nat.compare_eq_gt.2 (by omega)]

@[simp] theorem bnot_length (l : Bytes) : (bnot l).length = l.length := by simp [bnot]

theorem bnot_bnot (l : Bytes) : bnot (bnot l) = l := by
  simp [bnot, Function.comp_def]

theorem toNat_not (b : UInt8) : (~~~b).toNat = 255 - b.toNat := by
  rw [UInt8.toNat_not]; rfl

theorem num_bnot (l : Bytes) : num (bnot l) = 256 ^ l.length - 1 - num l := by
  induction l with
  | nil => rfl
  | cons b l ih =>
    have h : bnot (b :: l) = (~~~b) :: bnot l := rfl
    rw [h, num_cons, num_cons, ih, bnot_length, List.length_cons, pow_succ, toNat_not]
    have h1 := num_lt l; have h2 := b.toNat_lt
    have h3 : b.toNat * 256 ^ l.length ≤ 255 * 256 ^ l.length := Nat.mul_le_mul_right _ (by omega)
    rw [Nat.sub_mul]
    omega

theorem bcmp_append {a b c d : Bytes} (hl : a.length = b.length) :
    bcmp (a ++ c) (b ++ d) = (bcmp a b).then (bcmp c d) := by
  induction a generalizing b with
  | nil => cases b with
    | nil => rfl
    | cons => simp at hl
  | cons x a ih =>
    cases b with
    | nil => simp at hl
    | cons y b =>
      simp only [List.length_cons, Nat.add_right_cancel_iff] at hl
      simp only [List.cons_append, bcmp, ih hl]
      split
      · rfl
      · split <;> rfl

end Verif.Bytes
