import Verif.Evm.RefSpec
import Verif.Evm.InterpMem

/-! # C43: the interpreter executes the reference machine -/

namespace Verif.Evm

open Verif.Bytes (Bytes num be)
open Verif.Evm.Word

/-! ### Opcodes -/

/-- **C43.** A byte is decoded to the instruction that has this opcode and is available in the instruction set. -/
theorem decode_iff {set : Set} {b : Nat} (hb : b < 256) {i : Instr} :
    decode set b = some i ↔ Ref.opcode i = b ∧ Ref.available set i := by
  constructor
  · intro h
    have table : ∀ (set : Set) (b : Fin 256), ((decode set b.val).map Ref.opcode).getD b.val = b.val := by
      intro set
      cases set <;> decide +kernel
    have h1 := table set ⟨b, hb⟩
    simp only [h, Option.map_some, Option.getD_some] at h1
    refine ⟨h1, ?_⟩
    cases i with
    | push n =>
      simp only [Ref.opcode] at h1
      have hsk := decode_push h
      simp only [immediates, Instr.skip] at hsk
      simp only [Ref.available]
      by_cases hr : 0x60 ≤ b ∧ b ≤ 0x7f
      · omega
      · unfold decode at h
        rw [if_neg hr] at h
        repeat' split at h
        all_goals simp at h
    | dup n =>
      have := decode_dup h
      simp only [Ref.opcode] at h1
      simp only [Ref.available]
      refine ⟨this, ?_⟩
      by_contra hc
      unfold decode at h
      rw [if_neg (by omega), if_neg (by omega)] at h
      repeat' split at h
      all_goals simp at h
    | swap n =>
      simp only [Ref.opcode] at h1
      simp only [Ref.available]
      by_contra hc
      unfold decode at h
      rw [if_neg (by omega)] at h
      split at h
      · simp at h
      rw [if_neg (by omega)] at h
      repeat' split at h
      all_goals simp at h
    | log n =>
      simp only [Ref.opcode] at h1
      simp only [Ref.available]
      by_contra hc
      unfold decode at h
      rw [if_neg (by omega), if_neg (by omega), if_neg (by omega), if_neg (by omega)] at h
      repeat' split at h
      all_goals simp at h
    | src s =>
      cases s with
      | random =>
        simp only [Ref.opcode] at h1
        subst h1
        simp only [Ref.available]
        rintro rfl
        simp [decode] at h
      | _ => trivial
    | call2 =>
      simp only [Ref.opcode] at h1
      subst h1
      simp only [Ref.available]
      by_contra hc
      simp [decode, hc] at h
    | _ => trivial
  · rintro ⟨h, ha⟩
    cases i with
    | push n =>
      simp only [Ref.opcode, Ref.available] at h ha
      unfold decode
      rw [if_pos (by omega)]
      simp; omega
    | dup n =>
      simp only [Ref.opcode, Ref.available] at h ha
      unfold decode
      rw [if_neg (by omega), if_pos (by omega)]
      simp; omega
    | swap n =>
      simp only [Ref.opcode, Ref.available] at h ha
      unfold decode
      rw [if_neg (by omega), if_neg (by omega), if_pos (by omega)]
      simp; omega
    | log n =>
      simp only [Ref.opcode, Ref.available] at h ha
      unfold decode
      rw [if_neg (by omega), if_neg (by omega), if_neg (by omega), if_pos (by omega)]
      simp; omega
    | bin b => cases b <;> (simp only [Ref.opcode] at h; subst h; rfl)
    | src s =>
      cases s with
      | random =>
        simp only [Ref.opcode, Ref.available] at h ha
        subst h
        simp [decode, ha]
      | _ => simp only [Ref.opcode] at h; subst h; rfl
    | call2 =>
      simp only [Ref.opcode, Ref.available] at h ha
      subst h
      simp [decode, ha]
    | _ => simp only [Ref.opcode] at h; subst h; rfl

/-! ### Words -/

/-- The word of an integer. -/
abbrev toW (x : Int) : Ref.Word := BitVec.ofInt 256 x

theorem toW_val (b : BitVec 256) : toW (val b) = b := by
  unfold toW Word.val
  apply BitVec.eq_of_toNat_eq
  rw [BitVec.toNat_ofInt]
  have := b.isLt
  norm_cast
  rw [Nat.mod_eq_of_lt this, Int.toNat_natCast]

theorem val_toW {x : Int} (h : IsWord x) : val (toW x) = x := by
  obtain ⟨b, rfl⟩ := h.val
  rw [toW_val]

theorem toW_nat (n : Nat) : toW (n : Int) = BitVec.ofNat 256 n := by
  apply BitVec.eq_of_toNat_eq
  rw [BitVec.toNat_ofInt, BitVec.toNat_ofNat]
  norm_cast

theorem toW_toNat {x : Int} (h : IsWord x) : (toW x).toNat = x.toNat := by
  have := val_toW h
  unfold Word.val at this
  omega

theorem toW_num (b : Bytes) : toW (num b : Int) = Ref.wordOf b := toW_nat _

theorem toW_flag (b : Bool) : toW (flag b) = Ref.truth b := by
  cases b
  · show toW ((0 : Nat) : Int) = _
    rw [toW_nat]; rfl
  · show toW ((1 : Nat) : Int) = _
    rw [toW_nat]; rfl

theorem toW_zero : toW 0 = 0 := by
  show toW ((0 : Nat) : Int) = _
  rw [toW_nat]; rfl

/-- **C08, C43.** Every two-operand instruction computes the reference result, except SAR of zero by 256 or more. -/
theorem binary_refines (b : Bin) {x y : Int} (hx : IsWord x) (hy : IsWord y)
    (hd : ¬ (b = .sar ∧ 256 ≤ x ∧ y = 0)) : toW (b.eval x y) = Ref.binary b (toW x) (toW y) := by
  obtain ⟨x, rfl⟩ := hx.val
  obtain ⟨y, rfl⟩ := hy.val
  rw [toW_val, toW_val]
  cases b <;> simp only [Bin.eval, Ref.binary]
  · rw [opAdd_spec, toW_val]
  · rw [opMul_spec, toW_val]
  · rw [opSub_spec, toW_val]
  · rw [opDiv_spec, toW_val]
  · rw [opSdiv_spec, toW_val]
  · rw [opMod_spec]; split
    · exact toW_zero
    · exact toW_val _
  · rw [opSmod_spec]; split
    · exact toW_zero
    · exact toW_val _
  · rw [opExp_spec, toW_nat]
    apply BitVec.eq_of_toNat_eq
    simp only [BitVec.toNat_ofNat, Nat.mod_mod]
  · rw [opSignExtend_spec]; split <;> exact toW_val _
  · rw [opLt_spec, toW_flag]
  · rw [opGt_spec, toW_flag]
  · rw [opSlt_spec, toW_flag]
  · rw [opSgt_spec, toW_flag]
  · rw [opEq_spec, toW_flag]
  · rw [opAnd_spec, toW_val]
  · rw [opOr_spec, toW_val]
  · rw [opXor_spec, toW_val]
  · rw [opByte_spec]; split
    · exact toW_nat _
    · exact toW_zero
  · rw [opSHL_spec, toW_val]
  · rw [opSHR_spec, toW_val]
  · rw [opSAR_spec_partial, toW_val]
    by_contra hc
    push Not at hc
    apply hd
    refine ⟨rfl, ?_, ?_⟩
    · unfold Word.val; have := hc.1; omega
    · rw [hc.2]; rfl

/-! ### Byte sequences -/

theorem range_getD (b : Bytes) (o n : Nat) (h : o + n ≤ b.length) :
    (List.range n).map (fun k => b.getD (o + k) 0) = (b.drop o).take n := by
  apply List.ext_getElem
  · simp; omega
  · intro k h1 h2
    simp only [List.getElem_map, List.getElem_range, List.getElem_take, List.getElem_drop]
    rw [List.getD_eq_getElem]

theorem getD_append_zeros (b : Bytes) (k j : Nat) : (b ++ List.replicate k (0 : UInt8)).getD j 0 = b.getD j 0 := by
  simp only [List.getD_eq_getElem?_getD]
  by_cases h : j < b.length
  · rw [List.getElem?_append_left h]
  · rw [List.getElem?_append_right (by omega), List.getElem?_eq_none (l := b) (by omega), List.getElem?_replicate]
    split <;> rfl

/-- Padding a part of the data on the right. -/
theorem slice_eq (b : Bytes) (o n p : Nat) (hp : p = min o b.length) :
    Ref.slice b o n = rightPad ((b.drop p).take (min (p + n) b.length - p)) n := by
  subst hp
  have hl : ((b.drop (min o b.length)).take (min (min o b.length + n) b.length - min o b.length)).length ≤ n :=
    le_trans (List.length_take_le _ _) (by omega)
  apply List.ext_getElem
  · rw [rightPad_length hl]; simp [Ref.slice]
  · intro k h1 h2
    have hk : k < n := by simpa [Ref.slice] using h1
    simp only [Ref.slice, List.getElem_map, List.getElem_range]
    rw [← List.getD_eq_getElem (d := 0)]
    unfold rightPad
    have e : ∀ l : Bytes, (if n ≤ l.length then l else l ++ List.replicate (n - l.length) 0).getD k 0 = l.getD k 0 := by
      intro l; split
      · rfl
      · exact getD_append_zeros _ _ _
    rw [e]
    simp only [List.getD_eq_getElem?_getD]
    by_cases h : o + k < b.length
    · rw [List.getElem?_take_of_lt (by omega), List.getElem?_drop, show min o b.length + k = o + k by omega]
    · rw [List.getElem?_eq_none (l := b) (by omega), List.getElem?_eq_none]
      rw [List.length_take, List.length_drop]; omega

theorem getData_eq {b : Bytes} {o n : Int} (ho : 0 ≤ o) (h0 : 0 ≤ n) (h1 : n < 2 ^ 62) :
    getData b o n = Ref.slice b o.toNat n.toNat := by
  rw [slice_eq b o.toNat n.toNat _ rfl]
  unfold getData
  rw [toUint64_small h0 h1]
  have e1 : (min o (b.length : Int)).toNat = min o.toNat b.length := by omega
  have e2 : (min (min o (b.length : Int) + n) b.length).toNat = min (min o.toNat b.length + n.toNat) b.length := by omega
  rw [e1, e2]

theorem slice_length (b : Bytes) (o n : Nat) : (Ref.slice b o n).length = n := by simp [Ref.slice]

/-! ### Memory -/

theorem abs_read (e : Env) (m : Machine) {o n : Nat} (h : n = 0 ∨ o + n ≤ m.mem.store.length) :
    (abs e m).read o n = (m.mem.store.drop o).take n := by
  rcases h with rfl | h
  · simp [Ref.State.read]
  · exact range_getD _ _ _ h

theorem abs_splice (e : Env) (m : Machine) {o : Nat} {b : Bytes} (h : o + b.length ≤ m.mem.store.length) {c l : Nat} :
    abs e { m with mem := ⟨splice m.mem.store o b, c, l⟩ } = (abs e m).write o b := by
  unfold abs Ref.State.write
  simp only [splice_length h, Ref.State.mk.injEq, and_true, true_and]
  funext k
  simp only [List.getD_eq_getElem?_getD, splice_get h]
  split
  · rfl
  · rfl

theorem write_nil (σ : Ref.State) (o : Nat) : σ.write o [] = σ := by
  unfold Ref.State.write
  have : (fun k => if o ≤ k ∧ k < o + ([] : Bytes).length then ([] : Bytes).getD (k - o) 0 else σ.mem k) = σ.mem := by
    funext k
    rw [if_neg (by simp)]
  rw [this]

/-- Growing the memory brings the range of the instruction into use, and changes nothing else. -/
theorem abs_touch {e : Env} {m : Machine} (hw : ∀ x ∈ m.stack, IsWord x) {i : Instr} {sz : Nat}
    (hp : i.pops ≤ m.stack.length) (hs : memorySize i m.stack = some sz) (hb : sz ≤ 0xffffffffe0)
    (hc : i = .call2 → (i.range m.stack).2 = 0 ∨
      (i.range m.stack).1 + (i.range m.stack).2 ≤ m.mem.store.length) (h32 : ∃ w, m.mem.store.length = 32 * w) :
    max m.mem.store.length sz = ((abs e m).touch (i.range m.stack).1.toNat (i.range m.stack).2.toNat).msize := by
  have key : ∀ (off l : Int), 0 ≤ off → 0 ≤ l → i.range m.stack = (off, l) → i.memSize m.stack = some (calcMemSize off l) →
      max m.mem.store.length sz = ((abs e m).touch (i.range m.stack).1.toNat (i.range m.stack).2.toNat).msize := by
    intro off l h0 h1 hr hm
    rw [hr]
    unfold memorySize at hs
    rw [hm] at hs
    dsimp only at hs
    simp only [Ref.State.touch, abs]
    unfold calcMemSize at hs
    by_cases hl : l = 0
    · rw [if_pos hl, if_neg (by norm_num)] at hs
      have : sz = 0 := by
        rw [if_neg (by decide)] at hs
        simp only [Option.some.injEq] at hs
        rw [← hs]; decide
      subst hl
      simp [this]
    · rw [if_neg hl] at hs
      rw [if_neg (by omega)]
      split at hs
      · simp at hs
      · split at hs
        · simp at hs
        · simp only [Option.some.injEq] at hs
          unfold toWordSize maxUint64 at hs
          split at hs
          · omega
          · omega
  have none : i.range m.stack = (0, 0) → i.memSize m.stack = none →
      max m.mem.store.length sz = ((abs e m).touch (i.range m.stack).1.toNat (i.range m.stack).2.toNat).msize := by
    intro hr hm
    rw [hr]
    unfold memorySize at hs
    rw [hm] at hs
    simp only [Option.some.injEq] at hs
    simp [Ref.State.touch, abs, ← hs]
  cases i with
  | call2 =>
    have hz : sz = 0 := by simpa [memorySize, Instr.memSize] using hs.symm
    obtain ⟨a, b, c, d, f, t, hss⟩ := cons5 hp
    have hd := hw d (by simp [hss])
    have hf := hw f (by simp [hss])
    have := hc rfl
    obtain ⟨w, hw32⟩ := h32
    rw [hss] at this ⊢
    dsimp only [Instr.range] at this ⊢
    simp only [Ref.State.touch, abs, hz]
    have h1 := hd.1
    have h2 := hf.1
    split <;> omega
  | sha3 =>
    obtain ⟨a, b, t, hss⟩ := cons2 hp
    exact key a b (hw a (by simp [hss])).1 (hw b (by simp [hss])).1 (by rw [hss]; rfl) (by rw [hss]; rfl)
  | blake2b =>
    obtain ⟨a, b, t, hss⟩ := cons2 hp
    exact key a b (hw a (by simp [hss])).1 (hw b (by simp [hss])).1 (by rw [hss]; rfl) (by rw [hss]; rfl)
  | ret =>
    obtain ⟨a, b, t, hss⟩ := cons2 hp
    exact key a b (hw a (by simp [hss])).1 (hw b (by simp [hss])).1 (by rw [hss]; rfl) (by rw [hss]; rfl)
  | revert =>
    obtain ⟨a, b, t, hss⟩ := cons2 hp
    exact key a b (hw a (by simp [hss])).1 (hw b (by simp [hss])).1 (by rw [hss]; rfl) (by rw [hss]; rfl)
  | log n =>
    obtain ⟨a, b, t, hss⟩ := cons2 (le_trans (by simp [Instr.pops]) hp : 2 ≤ m.stack.length)
    exact key a b (hw a (by simp [hss])).1 (hw b (by simp [hss])).1 (by rw [hss]; rfl) (by rw [hss]; rfl)
  | calldatacopy =>
    obtain ⟨a, b, c, t, hss⟩ := cons3 hp
    exact key a c (hw a (by simp [hss])).1 (hw c (by simp [hss])).1 (by rw [hss]; rfl) (by rw [hss]; rfl)
  | codecopy =>
    obtain ⟨a, b, c, t, hss⟩ := cons3 hp
    exact key a c (hw a (by simp [hss])).1 (hw c (by simp [hss])).1 (by rw [hss]; rfl) (by rw [hss]; rfl)
  | returndatacopy =>
    obtain ⟨a, b, c, t, hss⟩ := cons3 hp
    exact key a c (hw a (by simp [hss])).1 (hw c (by simp [hss])).1 (by rw [hss]; rfl) (by rw [hss]; rfl)
  | mload =>
    obtain ⟨a, t, hss⟩ := cons1 hp
    exact key a 32 (hw a (by simp [hss])).1 (by norm_num) (by rw [hss]; rfl) (by rw [hss]; rfl)
  | mstore =>
    obtain ⟨a, b, t, hss⟩ := cons2 hp
    exact key a 32 (hw a (by simp [hss])).1 (by norm_num) (by rw [hss]; rfl) (by rw [hss]; rfl)
  | mstore8 =>
    obtain ⟨a, b, t, hss⟩ := cons2 hp
    exact key a 1 (hw a (by simp [hss])).1 (by norm_num) (by rw [hss]; rfl) (by rw [hss]; rfl)
  | call =>
    obtain ⟨a, b, c, d, f, t, hss⟩ := cons5 hp
    exact key d f (hw d (by simp [hss])).1 (hw f (by simp [hss])).1 (by rw [hss]; rfl) (by rw [hss]; rfl)
  | _ => exact none (by simp [Instr.range]) rfl

/-! ### Storage -/

theorem getValue_setValue (orig : Nat → Bytes) (store : List (Nat × Bytes)) (k j : Nat) (v : Bytes) :
    getValue orig (setValue store k v) j = if j = k then v else getValue orig store j := by
  induction store with
  | nil =>
    simp only [setValue, getValue]
    by_cases h : j = k
    · rw [if_pos h.symm, if_pos h]
    · rw [if_neg (fun h' => h h'.symm), if_neg h]
  | cons kw rest ih =>
    obtain ⟨k', w⟩ := kw
    simp only [setValue]
    by_cases hk : k' = k
    · subst hk
      simp only [if_true, getValue]
      by_cases h : j = k'
      · subst h; simp
      · rw [if_neg (fun h' => h h'.symm), if_neg h, if_neg (fun h' => h h'.symm)]
    · simp only [if_neg hk, getValue, ih]
      by_cases h : k' = j
      · subst h; simp [hk]
      · simp [h]

theorem abs_store {e : Env} {m : Machine} {k v : Int} (hk : IsWord k) (hv : IsWord v) :
    (fun j : Ref.Word => Ref.wordOf (getValue e.orig (setValue m.store k.toNat (bytesOf v)) j.toNat)) =
      fun j => if j = toW k then toW v else Ref.wordOf (getValue e.orig m.store j.toNat) := by
  funext j
  rw [getValue_setValue]
  by_cases h : j = toW k
  · subst h
    rw [toW_toNat hk]
    simp only [if_true]
    rw [← toW_num, num_bytesOf hv.1]
  · rw [if_neg, if_neg h]
    intro hh
    apply h
    apply BitVec.eq_of_toNat_eq
    rw [hh, toW_toNat hk]

theorem bigToFixed_eq {x : Int} (h : IsWord x) (n : Nat) : bigToFixed n x = Ref.idOf n (toW x) := by
  unfold bigToFixed Ref.idOf
  rw [toW_toNat h]
  have : (x < 256 ^ n) ↔ (x.toNat < 256 ^ n) := by
    have := h.1
    constructor
    · intro hh
      have : (x.toNat : Int) < ((256 ^ n : Nat) : Int) := by push_cast; omega
      exact_mod_cast this
    · intro hh
      have : (x.toNat : Int) < ((256 ^ n : Nat) : Int) := by exact_mod_cast hh
      push_cast at this; omega
  by_cases hh : x < 256 ^ n
  · rw [if_pos hh, if_pos (this.mp hh)]
  · rw [if_neg hh, if_neg (fun h' => hh (this.mpr h'))]

theorem srcWord_eq (e : Env) (s : Src) : toW (srcWord e s) = Ref.envWord e s := by
  cases s <;> simp only [srcWord, Ref.envWord, Src.hidden, Bool.and_true, Bool.and_false, Bool.false_eq_true, if_false]
  case calldatasize => exact toW_nat _
  case codesize => exact toW_nat _
  case returndatasize => exact toW_zero
  all_goals (split <;> first | exact toW_zero | rfl)

end Verif.Evm
