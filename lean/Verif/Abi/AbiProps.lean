import Verif.Abi.AbiModel

/-!
# C33: what is packed is unpacked
-/

namespace Verif.Abi
open Verif.Bytes

/-! ### Specification -/

/-- Values that are kept: those of a Go integer, non-negative 256-bit numbers for all other sizes, fixed bytes of at most a word, and all else. -/
def Elem.Fits (e : Elem) (v : Val) : Prop :=
  e.has v = true ∧
  match e, v with
  | .int bits, .num i => native bits = true ∨ (0 ≤ i ∧ i < (2 : Int) ^ 256)
  | .uint bits, .num i => native bits = true ∨ (0 ≤ i ∧ i < (2 : Int) ^ 256)
  | .fixed n, _ => n ≤ 32
  | _, _ => True

/-- Arguments that are kept: lists not of strings or bytes. -/
def Ty.Fits : Ty → Arg → Prop
  | .one e, .one v => e.Fits v
  | .slice e, .list l => e.prefixed = false ∧ ∀ v ∈ l, e.Fits v
  | .array n e, .list l => 1 ≤ n ∧ l.length = n ∧ e.prefixed = false ∧ ∀ v ∈ l, e.Fits v
  | _, _ => False

/-! ### Words -/

@[simp] theorem packNum_length (i : Int) : (packNum i).length = 32 := by unfold packNum; exact be_length _ _

theorem num_packNum (i : Int) : num (packNum i) = (i % (2 : Int) ^ 256).toNat := by
  unfold packNum
  rw [num_be]
  apply Nat.mod_eq_of_lt
  have h1 : i % (2 : Int) ^ 256 < (2 : Int) ^ 256 := Int.emod_lt_of_pos _ (by norm_num)
  have h2 : 0 ≤ i % (2 : Int) ^ 256 := Int.emod_nonneg _ (by norm_num)
  have : (256 : Nat) ^ 32 = 2 ^ 256 := by norm_num
  rw [this]
  zify
  rw [Int.toNat_of_nonneg h2]
  exact h1

theorem num_packNat {n : Nat} (h : n < 2 ^ 256) : num (packNum (n : Int)) = n := by
  rw [num_packNum, Int.emod_eq_of_lt (by omega) (by exact_mod_cast h)]
  rfl

theorem slice_mid (A w R : Bytes) : slice (A ++ w ++ R) A.length (A.length + w.length) = .ok w := by
  unfold slice
  rw [if_pos ⟨by omega, by simp only [List.length_append]; omega⟩, List.append_assoc, List.drop_left, Nat.add_sub_cancel_left, List.take_left]

theorem slice_at {A w R : Bytes} {i j : Nat} (hi : i = A.length) (hj : j = i + w.length) : slice (A ++ w ++ R) i j = .ok w := by
  subst hi hj; exact slice_mid A w R

theorem leftPad_length {b : Bytes} {n : Nat} (h : b.length ≤ n) : (leftPad b n).length = n := by unfold leftPad; simp; omega

theorem rightPad_length {b : Bytes} {n : Nat} (h : b.length ≤ n) : (rightPad b n).length = n := by unfold rightPad; simp; omega

theorem num_drop {w : Bytes} {k : Nat} (hk : k ≤ w.length) : num (w.drop (w.length - k)) = num w % 256 ^ k := by
  have h := num_append (w.take (w.length - k)) (w.drop (w.length - k))
  rw [List.take_append_drop] at h
  have hl : (w.drop (w.length - k)).length = k := by rw [List.length_drop]; omega
  rw [hl] at h
  rw [h, Nat.mul_add_mod_self_right, Nat.mod_eq_of_lt]
  have := num_lt (w.drop (w.length - k))
  rwa [hl] at this

theorem toNat_emod_emod (i : Int) (m : Nat) (hm : 0 < m) (hd : (m : Int) ∣ (2 : Int) ^ 256) : (i % (2 : Int) ^ 256).toNat % m = (i % (m : Int)).toNat := by
  have h2 : 0 ≤ i % (2 : Int) ^ 256 := Int.emod_nonneg _ (by norm_num)
  have h3 : 0 ≤ i % (m : Int) := Int.emod_nonneg _ (by omega)
  zify
  rw [Int.toNat_of_nonneg h2, Int.toNat_of_nonneg h3]
  exact Int.emod_emod_of_dvd i hd

/-- A Go integer is read as it was packed. -/
theorem readInteger_native {bits : Nat} (hb : native bits = true) (sign : Bool) {i : Int}
    (h : if sign then -(2 : Int) ^ (bits - 1) ≤ i ∧ i < (2 : Int) ^ (bits - 1) else 0 ≤ i ∧ i < (2 : Int) ^ bits) : readInteger sign bits (packNum i) = i := by
  unfold readInteger
  rw [if_pos hb]
  have hnum : ∀ k : Nat, k ≤ 32 → num ((packNum i).drop ((packNum i).length - k)) = (i % ((256 ^ k : Nat) : Int)).toNat := by
    intro k hk
    rw [num_drop (by rw [packNum_length]; exact hk), num_packNum]
    apply toNat_emod_emod _ _ (by positivity)
    have : ((256 ^ k : Nat) : Int) = 2 ^ (8 * k) := by push_cast; rw [pow_mul]; norm_num
    rw [this]
    exact pow_dvd_pow _ (by omega)
  have key : ∀ b : Nat, 8 * (b / 8) = b → 1 ≤ b → b ≤ 256 → (if sign then -(2 : Int) ^ (b - 1) ≤ i ∧ i < (2 : Int) ^ (b - 1) else 0 ≤ i ∧ i < (2 : Int) ^ b) →
      (let n := num ((packNum i).drop ((packNum i).length - b / 8)); if sign = true then signed b n else (n : Int)) = i := by
    intro b h8 h1 h256 hr
    simp only
    rw [hnum (b / 8) (by omega)]
    have hp : ((256 ^ (b / 8) : Nat) : Int) = 2 ^ b := by push_cast; rw [show (256 : Int) = 2 ^ 8 by norm_num, ← pow_mul, h8]
    rw [hp]
    have hpos : (0 : Int) < 2 ^ b := by positivity
    have hhalf : (2 : Int) ^ b = 2 * 2 ^ (b - 1) := by
      conv => lhs; rw [show b = (b - 1) + 1 by omega]
      rw [pow_succ]; ring
    have hpos' : (0 : Int) < 2 ^ (b - 1) := by positivity
    have hn : 0 ≤ i % (2 : Int) ^ b := Int.emod_nonneg _ (by omega)
    cases sign with
    | false =>
      simp only [Bool.false_eq_true, if_false] at hr ⊢
      rw [Int.toNat_of_nonneg hn, Int.emod_eq_of_lt hr.1 hr.2]
    | true =>
      simp only [if_true] at hr ⊢
      unfold signed
      by_cases h0 : 0 ≤ i
      · rw [Int.emod_eq_of_lt h0 (by omega), if_pos (by zify; rw [Int.toNat_of_nonneg h0]; exact hr.2), Int.toNat_of_nonneg h0]
      · have he : i % (2 : Int) ^ b = i + 2 ^ b := by
          rw [← Int.add_emod_right, Int.emod_eq_of_lt (by omega) (by omega)]
        rw [he, if_neg (by zify; rw [Int.toNat_of_nonneg (by omega)]; omega), Int.toNat_of_nonneg (by omega)]
        omega
  have hb' : bits = 8 ∨ bits = 16 ∨ bits = 32 ∨ bits = 64 := of_decide_eq_true hb
  apply key bits _ _ _ h <;> omega

theorem readInteger_big {bits : Nat} (hb : native bits = false) (sign : Bool) {i : Int} (h : 0 ≤ i ∧ i < (2 : Int) ^ 256) : readInteger sign bits (packNum i) = i := by
  unfold readInteger
  rw [if_neg (by simp [hb]), num_packNum, Int.emod_eq_of_lt h.1 h.2, Int.toNat_of_nonneg h.1]

theorem readBool_pack (b : Bool) : readBool (packNum (if b then 1 else 0)) = .ok (.bool b) := by cases b <;> decide +kernel

theorem static_length {e : Elem} {v : Val} (h : e.Fits v) (hs : e.prefixed = false) : (packElem e v).length = 32 := by
  obtain ⟨h1, h2⟩ := h
  cases e <;> cases v <;> simp only [Elem.has, Elem.prefixed, Bool.false_eq_true, Bool.true_eq_false] at h1 h2 hs <;> simp only [packElem, packNum_length] <;>
    first
    | exact leftPad_length (by have := of_decide_eq_true h1; omega)
    | exact rightPad_length (by have := of_decide_eq_true h1; omega)

theorem drop_leftPad {b : Bytes} {n k : Nat} (h : b.length + k = n) : (leftPad b n).drop k = b := by
  unfold leftPad
  rw [List.drop_left' (by rw [List.length_replicate]; omega)]

/-- One word is read as it was packed. -/
theorem readElem_static {e : Elem} {v : Val} (h : e.Fits v) (hs : e.prefixed = false) (A R : Bytes) : readElem A.length e (A ++ packElem e v ++ R) = .ok v := by
  have hl := static_length h hs
  unfold readElem
  rw [if_neg (by simp only [List.length_append, hl]; omega), if_neg (by simp [hs]), slice_at rfl (by rw [hl])]
  obtain ⟨h1, h2⟩ := h
  cases e with
  | int bits =>
    cases v <;> simp only [Elem.has, Bool.false_eq_true] at h1
    rename_i i
    simp only [packElem]
    have hi : readInteger true bits (packNum i) = i := by
      cases hb : native bits with
      | true =>
        apply readInteger_native hb true
        rw [hb, Bool.not_true, Bool.false_or] at h1
        have := of_decide_eq_true h1
        simpa only [if_true, Bool.false_eq_true, if_false] using this
      | false =>
        apply readInteger_big hb true
        simp only [hb] at h2
        exact h2.resolve_left (by simp)
    rw [hi]
  | uint bits =>
    cases v <;> simp only [Elem.has, Bool.false_eq_true] at h1
    rename_i i
    simp only [packElem]
    have hi : readInteger false bits (packNum i) = i := by
      cases hb : native bits with
      | true =>
        apply readInteger_native hb false
        rw [hb, Bool.not_true, Bool.false_or] at h1
        have := of_decide_eq_true h1
        simpa only [if_true, Bool.false_eq_true, if_false] using this
      | false =>
        apply readInteger_big hb false
        simp only [hb] at h2
        exact h2.resolve_left (by simp)
    rw [hi]
  | bool =>
    cases v <;> simp only [Elem.has, Bool.false_eq_true] at h1
    exact readBool_pack _
  | address =>
    cases v <;> simp only [Elem.has, Bool.false_eq_true] at h1
    simp only [packElem]
    rw [drop_leftPad (by have := of_decide_eq_true h1; omega)]
  | gid =>
    cases v <;> simp only [Elem.has, Bool.false_eq_true] at h1
    simp only [packElem]
    rw [drop_leftPad (by have := of_decide_eq_true h1; omega)]
  | token =>
    cases v <;> simp only [Elem.has, Bool.false_eq_true] at h1
    simp only [packElem]
    rw [drop_leftPad (by have := of_decide_eq_true h1; omega)]
  | string => simp [Elem.prefixed] at hs
  | bytes => simp [Elem.prefixed] at hs
  | fixed n =>
    cases v <;> simp only [Elem.has, Bool.false_eq_true] at h1
    rename_i b
    have hb := of_decide_eq_true h1
    simp only at h2
    simp only [packElem]
    rw [if_pos h2]
    congr 2
    unfold rightPad
    rw [List.take_left' hb]

/-- A list of words. -/
theorem readList_static {e : Elem} (hs : e.prefixed = false) : ∀ (l : List Val), (∀ v ∈ l, e.Fits v) → ∀ (A R : Bytes),
    readList e (A ++ (l.map (packElem e)).flatten ++ R) A.length l.length = .ok l := by
  intro l
  induction l with
  | nil => intro _ A R; rfl
  | cons v l ih =>
    intro h A R
    have hv := h v (by simp)
    have h1 := readElem_static hv hs A ((l.map (packElem e)).flatten ++ R)
    have h2 := ih (fun x hx => h x (by simp [hx])) (A ++ packElem e v) R
    rw [List.length_append, static_length hv hs] at h2
    have hd : A ++ ((v :: l).map (packElem e)).flatten ++ R = A ++ packElem e v ++ ((l.map (packElem e)).flatten ++ R) := by simp
    have hd2 : A ++ packElem e v ++ (l.map (packElem e)).flatten ++ R = A ++ packElem e v ++ ((l.map (packElem e)).flatten ++ R) := by simp
    rw [hd]
    rw [hd2] at h2
    simp only [List.length_cons, readList]
    rw [h1]
    simp only
    rw [h2]

theorem flatten_length {e : Elem} (hs : e.prefixed = false) : ∀ (l : List Val), (∀ v ∈ l, e.Fits v) → (l.map (packElem e)).flatten.length = 32 * l.length := by
  intro l
  induction l with
  | nil => intro _; rfl
  | cons v l ih =>
    intro h
    rw [List.map_cons, List.flatten_cons, List.length_append, static_length (h v (by simp)) hs, ih (fun x hx => h x (by simp [hx])), List.length_cons]
    omega

/-! ### What is behind an offset -/

/-- Where something with its length lies. -/
theorem pointsTo_of {d A R X Y : Bytes} {off l : Nat} (h1 : d = A ++ packNum (off : Int) ++ R) (h2 : d = X ++ packNum (l : Int) ++ Y) (hX : X.length = off)
    (hl : l ≤ Y.length) (hd : d.length < 2 ^ 63) : pointsTo A.length d = .ok (off + 32, l) := by
  have hlen : d.length = off + 32 + Y.length := by rw [h2]; simp only [List.length_append, packNum_length, hX]
  unfold pointsTo
  have e1 : slice d A.length (A.length + 32) = .ok (packNum (off : Int)) := by rw [h1]; exact slice_at rfl (by rw [packNum_length])
  have e2 : slice d (off + 32 - 32) (off + 32) = .ok (packNum (l : Int)) := by rw [h2]; exact slice_at (by omega) (by rw [packNum_length]; omega)
  have b1 : off < 2 ^ 256 := by have : (2 : Nat) ^ 63 < 2 ^ 256 := by norm_num
                                omega
  have b2 : l < 2 ^ 256 := by have : (2 : Nat) ^ 63 < 2 ^ 256 := by norm_num
                              omega
  rw [e1]
  simp only
  rw [num_packNat b1, if_neg (by omega), if_neg (by omega), e2]
  simp only
  rw [num_packNat b2, if_neg (by omega), if_neg (by omega)]

/-- What is packed of an argument with its length before it. -/
theorem pack_fits {t : Ty} {a : Arg} (h : t.Fits a) : ∃ p, pack t a = some p := by
  unfold pack
  have hh : t.has a = true := by
    cases t with
    | one e => cases a <;> simp only [Ty.Fits] at h; exact h.1
    | slice e =>
      cases a <;> simp only [Ty.Fits] at h
      simp only [Ty.has, List.all_eq_true]
      exact fun v hv => (h.2 v hv).1
    | array n e =>
      cases a <;> simp only [Ty.Fits] at h
      simp only [Ty.has, Bool.and_eq_true, decide_eq_true_iff, List.all_eq_true]
      exact ⟨h.2.1, fun v hv => (h.2.2.2 v hv).1⟩
  rw [if_neg (by simp [hh])]
  cases t <;> cases a <;> simp only [Ty.Fits] at h
  · exact ⟨_, rfl⟩
  · exact ⟨_, rfl⟩
  · exact ⟨_, rfl⟩

theorem pack_val {t : Ty} {a : Arg} {p : Bytes} (h : pack t a = some p) :
    match t, a with
    | .one e, .one v => p = packElem e v
    | .slice e, .list l => p = packBytesSlice (l.map (packElem e)).flatten l.length
    | .array _ e, .list l => p = (l.map (packElem e)).flatten
    | _, _ => False := by
  unfold pack at h
  split at h
  · exact absurd h (by simp)
  · cases t <;> cases a <;> simp only [Option.some.injEq, reduceCtorEq] at h ⊢ <;> exact h.symm

theorem rightPad_len {b : Bytes} {n : Nat} : b.length ≤ (rightPad b n).length := by unfold rightPad; simp

/-- An argument with an offset is read. -/
theorem read_prefixed {t : Ty} {a : Arg} (h : t.Fits a) (hp : t.prefixed = true) {p : Bytes} (hpk : pack t a = some p) {d A R X Y : Bytes}
    (h1 : d = A ++ packNum (X.length : Int) ++ R) (h2 : d = X ++ p ++ Y) (hd : d.length < 2 ^ 63) : read A.length t d = .ok a := by
  have hA : A.length + 32 ≤ d.length := by rw [h1]; simp only [List.length_append, packNum_length]; omega
  have hv := pack_val hpk
  cases t with
  | one e =>
    cases a with
    | list l => exact absurd h (by simp [Ty.Fits])
    | one v =>
      simp only at hv
      have hb : ∃ b, v = .raw b ∧ packElem e v = packBytesSlice b b.length ∧ e.prefixed = true := by
        have h1 := h.1
        cases e <;> cases v <;> simp only [Ty.prefixed, Elem.prefixed, Bool.false_eq_true, Elem.has] at hp h1 <;> exact ⟨_, rfl, rfl, rfl⟩
      obtain ⟨b, rfl, hb, he⟩ := hb
      rw [hv, hb] at h2
      have h3 : d = X ++ packNum (b.length : Int) ++ (rightPad b ((b.length + 31) / 32 * 32) ++ Y) := by rw [h2]; simp [packBytesSlice]
      have hpt := pointsTo_of h1 h3 rfl (by rw [List.length_append]; have := rightPad_len (b := b) (n := (b.length + 31) / 32 * 32); omega) hd
      have h4 : d = (X ++ packNum (b.length : Int)) ++ b ++ (List.replicate ((b.length + 31) / 32 * 32 - b.length) 0 ++ Y) := by rw [h3]; simp [rightPad]
      have hsl : slice d (X.length + 32) (X.length + 32 + b.length) = .ok b := by
        conv => lhs; rw [h4]
        exact slice_at (by simp) rfl
      unfold read readElem
      simp only
      rw [if_neg (by omega), if_pos he, hpt]
      simp only
      rw [hsl]
  | slice e =>
    cases a with
    | one v => exact absurd h (by simp [Ty.Fits])
    | list l =>
      simp only at hv
      obtain ⟨hs, hf⟩ := h
      have hfl := flatten_length hs l hf
      have hpad : rightPad (l.map (packElem e)).flatten ((l.length + 31) / 32 * 32) = (l.map (packElem e)).flatten := by
        unfold rightPad
        rw [hfl, show (l.length + 31) / 32 * 32 - 32 * l.length = 0 by omega]
        simp
      unfold packBytesSlice at hv
      rw [hpad] at hv
      have h3 : d = X ++ packNum (l.length : Int) ++ ((l.map (packElem e)).flatten ++ Y) := by rw [h2, hv]; simp
      have hpt := pointsTo_of h1 h3 rfl (by rw [List.length_append, hfl]; omega) hd
      have h4 : d = (X ++ packNum (l.length : Int)) ++ (l.map (packElem e)).flatten ++ Y := by rw [h3]; simp
      have hr := readList_static hs l hf (X ++ packNum (l.length : Int)) Y
      rw [← h4] at hr
      have hxl : (X ++ packNum (l.length : Int)).length = X.length + 32 := by simp
      rw [hxl] at hr
      unfold read
      simp only
      rw [if_neg (by omega), hpt]
      simp only
      unfold forEach
      rw [if_neg, hr]
      rw [h4]
      simp only [List.length_append, packNum_length, hfl]
      omega
  | array n e => simp [Ty.prefixed] at hp

/-- An argument in the first part is read. -/
theorem read_plain {t : Ty} {a : Arg} (h : t.Fits a) (hp : t.prefixed = false) {p : Bytes} (hpk : pack t a = some p) (A R : Bytes) :
    read A.length t (A ++ p ++ R) = .ok a ∧ p.length = 32 * t.words := by
  have hv := pack_val hpk
  cases t with
  | one e =>
    cases a with
    | list l => exact absurd h (by simp [Ty.Fits])
    | one v =>
      simp only at hv
      subst hv
      refine ⟨?_, static_length h hp⟩
      unfold read
      simp only
      rw [readElem_static h hp A R]
  | slice e => simp [Ty.prefixed] at hp
  | array n e =>
    cases a with
    | one v => exact absurd h (by simp [Ty.Fits])
    | list l =>
      simp only at hv
      subst hv
      obtain ⟨h1, hl, hs, hf⟩ := h
      have hfl := flatten_length hs l hf
      refine ⟨?_, by rw [hfl, hl]; rfl⟩
      have hr := readList_static hs l hf A R
      rw [hl] at hr
      unfold read
      simp only
      rw [if_neg (by simp only [List.length_append, hfl]; omega)]
      unfold forEach
      rw [if_neg (by simp only [List.length_append, hfl]; omega), hr]

/-! ### All arguments -/

/-- The first part, if the second begins at `off`, and the second part. -/
def heads : List (Ty × Bytes) → Nat → Bytes
  | [], _ => []
  | (t, p) :: l, off => if t.prefixed then packNum (off : Int) ++ heads l (off + p.length) else p ++ heads l off

def tails : List (Ty × Bytes) → Bytes
  | [] => []
  | (t, p) :: l => if t.prefixed then p ++ tails l else tails l

/-- Packed forms of arguments. -/
inductive Packed : List Ty → List Arg → List (Ty × Bytes) → Prop
  | nil : Packed [] [] []
  | cons {t a p ts as l} : t.Fits a → pack t a = some p → Packed ts as l → Packed (t :: ts) (a :: as) ((t, p) :: l)

theorem packed_exists : ∀ {ts : List Ty} {as : List Arg}, List.Forall₂ Ty.Fits ts as → ∃ l, Packed ts as l := by
  intro ts as h
  induction h with
  | nil => exact ⟨[], .nil⟩
  | cons h _ ih =>
    obtain ⟨l, hl⟩ := ih
    obtain ⟨p, hp⟩ := pack_fits h
    exact ⟨_, .cons h hp hl⟩

theorem packLoop_eq (H : Nat) {ts : List Ty} {as : List Arg} {l : List (Ty × Bytes)} (h : Packed ts as l) : ∀ ret var,
    packLoop H ts as ret var = some (ret ++ heads l (H + var.length) ++ (var ++ tails l)) := by
  induction h with
  | nil => intro ret var; simp [packLoop, heads, tails]
  | @cons t a p ts as l _ hp _ ih =>
    intro ret var
    simp only [packLoop, hp]
    by_cases e : t.prefixed = true
    · rw [if_pos e, ih]
      simp only [heads, tails, e, if_true, List.length_append]
      simp only [List.append_assoc, Nat.add_assoc]
    · rw [if_neg e, ih]
      have e' : t.prefixed = false := by simpa using e
      simp only [heads, tails, e', Bool.false_eq_true, if_false]
      simp only [List.append_assoc]

theorem heads_length {ts : List Ty} {as : List Arg} {l : List (Ty × Bytes)} (h : Packed ts as l) : ∀ off, (heads l off).length = (ts.map Ty.words).sum * 32 := by
  induction h with
  | nil => intro off; rfl
  | @cons t a p ts as l hf hp _ ih =>
    intro off
    simp only [heads, List.map_cons, List.sum_cons]
    cases e : t.prefixed with
    | true =>
      rw [if_pos rfl, List.length_append, packNum_length, ih]
      have : t.words = 1 := by cases t <;> first | rfl | simp [Ty.prefixed] at e
      rw [this]
      omega
    | false =>
      rw [if_neg (by simp), List.length_append, ih, (read_plain hf e hp [] []).2]
      omega

theorem unpackLoop_eq {ts : List Ty} {as : List Arg} {l : List (Ty × Bytes)} (h : Packed ts as l) : ∀ (d A B C : Bytes) (off index virt : Nat),
    d = A ++ heads l off ++ B ++ tails l ++ C → (A ++ heads l off ++ B).length = off → A.length = (index + virt) * 32 → d.length < 2 ^ 63 → unpackLoop d index virt ts = .ok as := by
  induction h with
  | nil => intro d A B C off index virt _ _ _ _; rfl
  | @cons t a p ts as l hf hp hrest ih =>
    intro d A B C off index virt hd hoff hA hlen
    simp only [unpackLoop]
    rw [← hA]
    cases e : t.prefixed with
    | true =>
      simp only [heads, tails, e, if_true] at hd hoff
      have hw : t.virtual = 0 := by cases t <;> first | rfl | simp [Ty.prefixed] at e
      rw [hw]
      have hr : read A.length t d = .ok a := by
        refine read_prefixed hf e hp (X := A ++ (packNum (off : Int) ++ heads l (off + p.length)) ++ B) (R := heads l (off + p.length) ++ B ++ (p ++ tails l) ++ C)
          (Y := tails l ++ C) ?_ ?_ hlen
        · rw [hoff, hd]; simp
        · rw [hd]; simp
      rw [hr]
      simp only
      rw [ih d (A ++ packNum (off : Int)) (B ++ p) C (off + p.length) (index + 1) (virt + 0) (by rw [hd]; simp only [List.append_assoc])
        (by simp only [List.length_append] at hoff ⊢; omega) (by simp only [List.length_append, packNum_length, hA]; omega) hlen]
    | false =>
      simp only [heads, tails, e, Bool.false_eq_true, if_false] at hd hoff
      obtain ⟨hr, hpl⟩ := read_plain hf e hp A (heads l off ++ B ++ tails l ++ C)
      have hd' : d = A ++ p ++ (heads l off ++ B ++ tails l ++ C) := by rw [hd]; simp
      rw [← hd'] at hr
      rw [hr]
      simp only
      have hw : (index + 1 + (virt + t.virtual)) = index + virt + t.words := by
        cases t with
        | one e => simp only [Ty.words, Ty.virtual]; omega
        | slice e => simp only [Ty.words, Ty.virtual]; omega
        | array n e =>
          cases a with
          | one v => exact absurd hf (by simp [Ty.Fits])
          | list l => have := hf.1; simp only [Ty.words, Ty.virtual]; omega
      rw [ih d (A ++ p) B C off _ _ (by rw [hd]; simp only [List.append_assoc]) (by simp only [List.length_append] at hoff ⊢; omega) (by rw [hw, List.length_append, hpl, hA]; omega) hlen]

/-- **C33.** Arguments that are packed with types are unpacked with the same types to what they were, also if more bytes follow: for every list of arguments of fitting
types, as long as the whole is not longer than Go's integers count. -/
theorem roundtrip_partial {ts : List Ty} {as : List Arg} (h : List.Forall₂ Ty.Fits ts as) :
    ∃ d, packArgs ts as = some d ∧ ∀ more : Bytes, (d ++ more).length < 2 ^ 63 → unpackArgs ts (d ++ more) = .ok as := by
  obtain ⟨l, hl⟩ := packed_exists h
  have hlen : as.length = ts.length := h.length_eq.symm
  refine ⟨_, by unfold packArgs; rw [if_neg (by omega)]; exact packLoop_eq _ hl [] [], ?_⟩
  intro more hm
  unfold unpackArgs
  refine unpackLoop_eq hl _ [] [] more ((ts.map Ty.words).sum * 32) 0 0 ?_ ?_ rfl hm
  · simp
  · rw [List.nil_append, List.append_nil, heads_length hl]

/-- **C33.** Different arguments have different packed forms. -/
theorem pack_inj {ts : List Ty} {as bs : List Arg} (ha : List.Forall₂ Ty.Fits ts as) (hb : List.Forall₂ Ty.Fits ts bs) {d : Bytes} (h1 : packArgs ts as = some d)
    (h2 : packArgs ts bs = some d) (hd : d.length < 2 ^ 63) : as = bs := by
  obtain ⟨x, hx, hx'⟩ := roundtrip_partial ha
  obtain ⟨y, hy, hy'⟩ := roundtrip_partial hb
  rw [h1] at hx
  rw [h2] at hy
  injection hx with hx
  injection hy with hy
  have e1 := hx' [] (by simpa [← hx] using hd)
  have e2 := hy' [] (by simpa [← hy] using hd)
  rw [← hx] at e1
  rw [← hy, e1] at e2
  injection e2

end Verif.Abi
