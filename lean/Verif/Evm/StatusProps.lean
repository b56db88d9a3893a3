import Verif.Evm.StatusModel
import Verif.Evm.InterpExamples
import Verif.Evm.InterpProps

/-! # Which contracts are found to read the state of the chain -/

namespace Verif.Evm
open Verif.Bytes (Bytes)

/-! ### Specification -/

/-- An instruction with one of these codes begins at this place of the code. -/
def Has (code : Bytes) (ops : List Nat) (q : Nat) : Prop := q < code.length ∧ InstrStart code q ∧ getOp code q ∈ ops

/-- What the compiler puts at the end of the code begins here, in the place of an instruction: `fe a1 65 "bzzr0" 58 20` with at
least 34 bytes after it. -/
def Trailer (code : Bytes) (p : Nat) : Prop :=
  p + 44 ≤ code.length ∧ [0xfe, 0xa1, 0x65, 0x62, 0x7a, 0x7a, 0x72, 0x30, 0x58, 0x20] <+: code.drop p ∧ InstrStart code p

/-! ### The bitmap -/

theorem bitmap_spec (code : Bytes) : ∃ m, codeBitmap code = some m ∧ ∀ q, q < code.length → ∃ b, codeSegment m q = some b ∧ (b = true ↔ InstrStart code q) := by
  obtain ⟨b, e1, l1, m1⟩ := bitmapLoop_spec (code := code) (pc := 0) (bits := List.replicate (code.length / 8 + 1 + 4) 0) (by simp)
  refine ⟨b, e1, fun q hq => ?_⟩
  have hb : q / 8 < b.length := by rw [l1]; simp only [List.length_replicate]; omega
  unfold codeSegment
  rw [List.getElem?_eq_getElem hb, Option.map_some]
  refine ⟨_, rfl, ?_⟩
  rw [decide_eq_true_iff]
  have hm := m1 q hq
  rw [from_zero] at hm
  have hk : b[q / 8] &&& 128 >>> UInt8.ofNat (q % 8) = 0 ↔ ¬ Marked b q := by
    unfold Marked
    rw [List.getElem?_eq_getElem hb]
    simp
  rw [hk, hm]
  have := not_marked_zero (code.length / 8 + 1 + 4) q
  simp only [this, false_or, Nat.zero_le, true_and, not_not]

/-! ### Lists -/

theorem prefix_at {pat l : Bytes} {p k : Nat} (h : pat <+: l.drop p) (hk : k < pat.length) : l[p + k]? = pat[k]? := by
  obtain ⟨t, ht⟩ := h
  rw [← List.getElem?_drop, ← ht, List.getElem?_append_left hk]

theorem index_some {pat : Bytes} (hp : pat ≠ []) (l : Bytes) : ∀ i, indexOf pat l = some i → pat <+: l.drop i ∧ ∀ j < i, ¬ pat <+: l.drop j := by
  induction l with
  | nil =>
    intro i h
    unfold indexOf at h
    split at h
    · rename_i q
      rw [List.isPrefixOf_iff_prefix, List.prefix_nil] at q
      exact absurd q hp
    · cases h
  | cons c cs ih =>
    intro i h
    unfold indexOf at h
    split at h
    · rename_i q
      cases h
      exact ⟨List.isPrefixOf_iff_prefix.1 q, fun j hj => absurd hj (Nat.not_lt_zero _)⟩
    · rename_i q
      obtain ⟨i', hi, rfl⟩ := Option.map_eq_some_iff.1 h
      obtain ⟨a, b⟩ := ih i' hi
      refine ⟨a, fun j hj => ?_⟩
      cases j with
      | zero => exact fun x => q (List.isPrefixOf_iff_prefix.2 x)
      | succ j => exact b j (by omega)

theorem index_none {pat : Bytes} (hp : pat ≠ []) (l : Bytes) : indexOf pat l = none → ∀ j, ¬ pat <+: l.drop j := by
  induction l with
  | nil =>
    intro _ j q
    rw [List.drop_nil, List.prefix_nil] at q
    exact hp q
  | cons c cs ih =>
    intro h j
    unfold indexOf at h
    split at h
    · cases h
    · rename_i q
      rw [Option.map_eq_none_iff] at h
      cases j with
      | zero => exact fun x => q (List.isPrefixOf_iff_prefix.2 x)
      | succ j => exact ih h j

theorem start_take {l : Bytes} {k q : Nat} (hq : q < k) : InstrStart (l.take k) q ↔ InstrStart l q := by
  have hop : ∀ p, p < k → getOp (l.take k) p = getOp l p := by
    intro p hp; unfold getOp; rw [List.getElem?_take, if_pos hp]
  constructor
  · intro h
    clear hq
    induction h with
    | first => exact .first
    | after h1 h2 ih =>
      rw [List.length_take] at h2
      rw [hop _ (by omega)]
      exact .after ih (by omega)
  · intro h
    induction h with
    | first => exact .first
    | @after p h1 h2 ih =>
      have hp : p < k := by omega
      rw [← hop p hp]
      refine .after (ih hp) ?_
      rw [List.length_take]; omega

/-! ### Dropping what the compiler added -/

theorem data_spec {full : Bytes} {m : Bitvec} (hm : ∀ q, q < full.length → ∃ b, codeSegment m q = some b ∧ (b = true ↔ InstrStart full q))
    {p : Nat} (hp : auxPrefixFE <+: full.drop p) (hl : p + 44 ≤ full.length) :
    ∃ f, dataAt m p 3 = some f ∧ (f = false ↔ InstrStart full p) := by
  obtain ⟨b0, c0, i0⟩ := hm p (by omega)
  obtain ⟨b1, c1, i1⟩ := hm (p + 1) (by omega)
  obtain ⟨b2, c2, i2⟩ := hm (p + 1 + 1) (by omega)
  have o0 : getOp full p = 0xfe := by
    have := prefix_at hp (k := 0) (by decide)
    unfold getOp; rw [Nat.add_zero] at this; rw [this]; rfl
  have o1 : getOp full (p + 1) = 0xa1 := by
    have := prefix_at hp (k := 1) (by decide)
    unfold getOp; rw [this]; rfl
  have n1 : InstrStart full p → InstrStart full (p + 1) := by
    intro h
    have := InstrStart.after h (by omega)
    rw [o0] at this; exact this
  have n2 : InstrStart full (p + 1) → InstrStart full (p + 1 + 1) := by
    intro h
    have := InstrStart.after h (by omega)
    rw [o1] at this; exact this
  unfold dataAt; rw [c0, Option.bind_some]
  cases b0 with
  | false => exact ⟨true, by simp, by simpa using i0⟩
  | true =>
    have s0 := i0.1 rfl
    have t1 : b1 = true := i1.2 (n1 s0)
    have t2 : b2 = true := i2.2 (n2 (n1 s0))
    subst t1; subst t2
    rw [if_pos rfl]
    unfold dataAt; rw [c1, Option.bind_some, if_pos rfl]
    unfold dataAt; rw [c2, Option.bind_some, if_pos rfl]
    exact ⟨false, rfl, fun _ => s0, fun _ => rfl⟩

/-- The result of dropping: all of the code, or what is before the first trailer, with its first byte. -/
def Stripped (full r : Bytes) : Prop :=
  (r = full ∧ ∀ p, ¬ Trailer full p) ∨ ∃ p, Trailer full p ∧ (∀ q < p, ¬ Trailer full q) ∧ r = full.take (p + 1)

theorem strip_loop {full : Bytes} {m : Bitvec} (hm : ∀ q, q < full.length → ∃ b, codeSegment m q = some b ∧ (b = true ↔ InstrStart full q)) :
    ∀ (n : Nat) (res code : Bytes), code.length = n → full = res ++ code → (∀ q < res.length, ¬ Trailer full q) →
    ∃ r, stripLoop m res.length res code = some r ∧ Stripped full r := by
  intro n
  induction n using Nat.strong_induction_on with
  | _ n ih =>
    intro res code hn hf hbefore
    have hdrop : ∀ j, full.drop (res.length + j) = code.drop j := by
      intro j; rw [hf, List.drop_append, List.drop_of_length_le (by omega)]; simp
    have hne : auxPrefixFE ≠ [] := by decide
    have hlen : full.length = res.length + code.length := by rw [hf, List.length_append]
    unfold stripLoop
    cases hi : indexOf auxPrefixFE code with
    | none =>
      refine ⟨res ++ code, rfl, Or.inl ⟨hf.symm, fun p hp => ?_⟩⟩
      by_cases q : p < res.length
      · exact hbefore p q hp
      · have := index_none hne code hi (p - res.length)
        rw [← hdrop, show res.length + (p - res.length) = p by omega] at this
        exact this hp.2.1
    | some i =>
      obtain ⟨a1, a2⟩ := index_some hne code i hi
      have hbetween : ∀ q < res.length + i, ¬ Trailer full q := by
        intro q hq hp
        by_cases q' : q < res.length
        · exact hbefore q q' hp
        · have := a2 (q - res.length) (by omega)
          rw [← hdrop, show res.length + (q - res.length) = q by omega] at this
          exact this hp.2.1
      dsimp only
      by_cases hs : code.length < i + 44
      · rw [dif_pos hs]
        refine ⟨res ++ code, rfl, Or.inl ⟨hf.symm, fun p hp => ?_⟩⟩
        by_cases q : p < res.length + i
        · exact hbetween p q hp
        · have := hp.1; omega
      · rw [dif_neg hs]
        have hpat : auxPrefixFE <+: full.drop (res.length + i) := by rw [hdrop]; exact a1
        obtain ⟨f, hd, hfi⟩ := data_spec hm hpat (by omega)
        rw [hd, Option.bind_some]
        cases f with
        | false =>
          rw [if_neg (by decide)]
          refine ⟨_, rfl, Or.inr ⟨res.length + i, ⟨by omega, hpat, hfi.1 rfl⟩, hbetween, ?_⟩⟩
          have : full.take (res.length + i + 1) = res ++ code.take (i + 1) := by
            rw [hf, show res.length + i + 1 = res.length + (i + 1) by omega, List.take_length_add_append]
          exact this.symm
        | true =>
          rw [if_pos rfl]
          have h10 : auxPrefixFE.length = 10 := rfl
          have hl : (res ++ code.take (i + auxPrefixFE.length)).length = res.length + (i + auxPrefixFE.length) := by
            rw [List.length_append, List.length_take]; omega
          rw [← hl]
          refine ih (code.drop (i + auxPrefixFE.length)).length (by rw [List.length_drop]; omega) _ _ rfl ?_ ?_
          · rw [List.append_assoc, List.take_append_drop]; exact hf
          · intro q hq hp
            rw [hl, h10] at hq
            by_cases q1 : q < res.length + i
            · exact hbetween q q1 hp
            · by_cases q2 : q = res.length + i
              · rw [q2] at hp
                have := hfi.2 hp.2.2
                cases this
              · have hk : q - (res.length + i) < auxPrefixFE.length := by rw [h10]; omega
                have e1 := prefix_at hpat hk
                have e2 := prefix_at hp.2.1 (k := 0) (by decide)
                rw [show res.length + i + (q - (res.length + i)) = q by omega] at e1
                rw [Nat.add_zero, e1] at e2
                have hall : ∀ k : Fin 10, 0 < k.val → auxPrefixFE[k.val]? ≠ some 0xfe := by decide +kernel
                exact hall ⟨q - (res.length + i), by omega⟩ (by simp only; omega) e2

theorem strip_spec (code : Bytes) : ∃ r, strip code = some r ∧ Stripped code r := by
  obtain ⟨m, h1, h2⟩ := bitmap_spec code
  unfold strip
  rw [h1, Option.bind_some]
  exact strip_loop h2 _ [] code rfl rfl (fun q hq => absurd hq (Nat.not_lt_zero _))

/-! ### Looking through -/

theorem op_here {full pre cs : Bytes} {c : UInt8} (hf : full = pre ++ c :: cs) : getOp full pre.length = c.toNat := by
  unfold getOp; rw [hf]; simp

theorem has_split {full pre cs : Bytes} {c : UInt8} (hf : full = pre ++ c :: cs) (ops : List Nat) :
    (∃ q, pre.length ≤ q ∧ Has full ops q) ↔ (InstrStart full pre.length ∧ c.toNat ∈ ops) ∨ ∃ q, (pre ++ [c]).length ≤ q ∧ Has full ops q := by
  have hl : pre.length < full.length := by rw [hf]; simp
  constructor
  · rintro ⟨q, hq, h⟩
    by_cases e : q = pre.length
    · left
      rw [e] at h
      exact ⟨h.2.1, by rw [← op_here hf]; exact h.2.2⟩
    · exact Or.inr ⟨q, by rw [List.length_append, List.length_singleton]; omega, h⟩
  · rintro (⟨h1, h2⟩ | ⟨q, hq, h⟩)
    · exact ⟨pre.length, le_refl _, hl, h1, by rw [op_here hf]; exact h2⟩
    · exact ⟨q, by rw [List.length_append] at hq; omega, h⟩

theorem status_loop {full : Bytes} {m : Bitvec} (hm : ∀ q, q < full.length → ∃ b, codeSegment m q = some b ∧ (b = true ↔ InstrStart full q)) (cs : Bytes) :
    ∀ pre : Bytes, full = pre ++ cs → ∃ a, statusLoop m pre.length cs = some a ∧ (a = true ↔ ∃ q, pre.length ≤ q ∧ Has full statusOps q) := by
  induction cs with
  | nil =>
    intro pre hf
    refine ⟨false, rfl, ?_⟩
    simp only [Bool.false_eq_true, false_iff]
    rintro ⟨q, hq, h⟩
    have := h.1
    rw [hf, List.append_nil] at this; omega
  | cons c cs ih =>
    intro pre hf
    obtain ⟨b, hb, hbi⟩ := hm pre.length (by rw [hf]; simp)
    unfold statusLoop
    rw [hb, Option.bind_some, has_split hf]
    obtain ⟨a, ha, hai⟩ := ih (pre ++ [c]) (by rw [hf]; simp)
    have hcl : (pre ++ [c]).length = pre.length + 1 := by simp
    by_cases hc : (b && statusOps.contains c.toNat) = true
    · rw [if_pos hc]
      rw [Bool.and_eq_true, List.contains_iff_mem] at hc
      exact ⟨true, rfl, by simp only [true_iff]; exact Or.inl ⟨hbi.1 hc.1, hc.2⟩⟩
    · rw [if_neg hc]
      refine ⟨a, by rw [← hcl]; exact ha, ?_⟩
      rw [hai]
      rw [Bool.and_eq_true, List.contains_iff_mem, hbi] at hc
      exact ⟨Or.inr, fun h => h.resolve_left hc⟩

theorem certain_loop {full : Bytes} {m : Bitvec} (hm : ∀ q, q < full.length → ∃ b, codeSegment m q = some b ∧ (b = true ↔ InstrStart full q)) (cs : Bytes) :
    ∀ (pre : Bytes) (r : Bool × Bool), full = pre ++ cs → ∃ a, certainLoop m pre.length cs r = some a ∧
      (a.1 = true ↔ r.1 = true ∨ ∃ q, pre.length ≤ q ∧ Has full snapshotOps q) ∧
      (a.2 = true ↔ r.2 = true ∨ ∃ q, pre.length ≤ q ∧ Has full seedOps q) := by
  induction cs with
  | nil =>
    intro pre r hf
    have : ∀ ops, ¬ ∃ q, pre.length ≤ q ∧ Has full ops q := by
      rintro ops ⟨q, hq, h⟩
      have := h.1
      rw [hf, List.append_nil] at this; omega
    refine ⟨r, rfl, ?_, ?_⟩
    · simp only [this, or_false]
    · simp only [this, or_false]
  | cons c cs ih =>
    intro pre r hf
    obtain ⟨b, hb, hbi⟩ := hm pre.length (by rw [hf]; simp)
    unfold certainLoop
    rw [hb, Option.bind_some, has_split hf, has_split hf]
    have hcl : (pre ++ [c]).length = pre.length + 1 := by simp
    cases b with
    | false =>
      rw [if_neg (by decide)]
      obtain ⟨a, ha, h1, h2⟩ := ih (pre ++ [c]) r (by rw [hf]; simp)
      have hno : ¬ InstrStart full pre.length := fun h => by have := hbi.2 h; cases this
      refine ⟨a, by rw [← hcl]; exact ha, ?_, ?_⟩
      · rw [h1]; simp only [hno, false_and, false_or]
      · rw [h2]; simp only [hno, false_and, false_or]
    | true =>
      rw [if_pos rfl]
      have hst := hbi.1 rfl
      simp only [hst, true_and]
      by_cases hboth : ((r.1 || snapshotOps.contains c.toNat) && (r.2 || seedOps.contains c.toNat)) = true
      · rw [if_pos hboth]
        rw [Bool.and_eq_true, Bool.or_eq_true, Bool.or_eq_true, List.contains_iff_mem, List.contains_iff_mem] at hboth
        refine ⟨_, rfl, ?_, ?_⟩
        · simp only [Bool.or_eq_true, List.contains_iff_mem]
          exact ⟨fun h => by tauto, fun _ => hboth.1⟩
        · simp only [Bool.or_eq_true, List.contains_iff_mem]
          exact ⟨fun h => by tauto, fun _ => hboth.2⟩
      · rw [if_neg hboth]
        obtain ⟨a, ha, h1, h2⟩ := ih (pre ++ [c]) (r.1 || snapshotOps.contains c.toNat, r.2 || seedOps.contains c.toNat) (by rw [hf]; simp)
        refine ⟨a, by rw [← hcl]; exact ha, ?_, ?_⟩
        · rw [h1]; simp only [Bool.or_eq_true, List.contains_iff_mem, or_assoc]
        · rw [h2]; simp only [Bool.or_eq_true, List.contains_iff_mem, or_assoc]

/-! ### What is found -/

theorem has_take {l : Bytes} {k q : Nat} {ops : List Nat} : Has (l.take k) ops q ↔ q < k ∧ Has l ops q := by
  unfold Has
  rw [List.length_take]
  by_cases hq : q < k
  · have hop : getOp (l.take k) q = getOp l q := by unfold getOp; rw [List.getElem?_take, if_pos hq]
    rw [start_take hq, hop]
    constructor
    · rintro ⟨a, b, c⟩; exact ⟨hq, by omega, b, c⟩
    · rintro ⟨-, a, b, c⟩; exact ⟨by omega, b, c⟩
  · constructor
    · rintro ⟨a, -⟩; omega
    · rintro ⟨a, -⟩; exact absurd a hq

/-- **What is found when a contract is made**: an instruction that reads the height, the time, the code of another contract or runs
it, or one that takes a random number, before the first trailer of the compiler.  Nothing is read out of range. -/
theorem containsCertain_exact (code : Bytes) : ∃ a b, containsCertain code = some (a, b) ∧
    (a = true ↔ ∃ q, Has code [0x3b, 0x3c, 0x42, 0x43, 0xf4] q ∧ ∀ p, Trailer code p → q < p) ∧
    (b = true ↔ ∃ q, Has code [0x4a, 0x4b] q ∧ ∀ p, Trailer code p → q < p) := by
  have hperm : ∀ q, Has code snapshotOps q ↔ Has code [0x3b, 0x3c, 0x42, 0x43, 0xf4] q := by
    intro q; unfold Has snapshotOps; simp only [List.mem_cons, List.not_mem_nil, or_false]; tauto
  have hseed : ∀ q, Has code seedOps q ↔ Has code [0x4a, 0x4b] q := fun q => Iff.rfl
  unfold containsCertain
  by_cases h0 : code.length = 0
  · rw [if_pos h0]
    refine ⟨false, false, rfl, ?_, ?_⟩ <;>
    · simp only [Bool.false_eq_true, false_iff]
      rintro ⟨q, h, -⟩
      have := h.1; omega
  · rw [if_neg h0]
    obtain ⟨r, hr, hs⟩ := strip_spec code
    obtain ⟨m, h1, h2⟩ := bitmap_spec r
    obtain ⟨⟨a, b⟩, hc, ha, hb⟩ := certain_loop h2 r [] (false, false) rfl
    rw [hr, Option.bind_some, h1, Option.bind_some]
    refine ⟨a, b, hc, ?_, ?_⟩
    · rw [ha]
      simp only [Bool.false_eq_true, false_or, List.length_nil, Nat.zero_le, true_and]
      rcases hs with ⟨e, hno⟩ | ⟨p, hp, hmin, e⟩
      · rw [e]
        exact exists_congr fun q => (hperm q).trans ⟨fun h => ⟨h, fun p hp => absurd hp (hno p)⟩, fun h => h.1⟩
      · rw [e]
        refine exists_congr fun q => ?_
        rw [has_take, hperm]
        constructor
        · rintro ⟨hq, h⟩
          refine ⟨h, fun p' hp' => ?_⟩
          have h1 : p ≤ p' := by by_contra x; exact hmin p' (by omega) hp'
          have h2 : q ≠ p := by
            rintro rfl
            have o := prefix_at hp.2.1 (k := 0) (by decide)
            have : getOp code q = 0xfe := by unfold getOp; rw [Nat.add_zero] at o; rw [o]; rfl
            have := h.2.2
            simp_all
          omega
        · rintro ⟨h, hq⟩
          exact ⟨by have := hq p hp; omega, h⟩
    · rw [hb]
      simp only [Bool.false_eq_true, false_or, List.length_nil, Nat.zero_le, true_and]
      rcases hs with ⟨e, hno⟩ | ⟨p, hp, hmin, e⟩
      · rw [e]
        exact exists_congr fun q => (hseed q).trans ⟨fun h => ⟨h, fun p hp => absurd hp (hno p)⟩, fun h => h.1⟩
      · rw [e]
        refine exists_congr fun q => ?_
        rw [has_take, hseed]
        constructor
        · rintro ⟨hq, h⟩
          refine ⟨h, fun p' hp' => ?_⟩
          have h1 : p ≤ p' := by by_contra x; exact hmin p' (by omega) hp'
          have h2 : q ≠ p := by
            rintro rfl
            have o := prefix_at hp.2.1 (k := 0) (by decide)
            have : getOp code q = 0xfe := by unfold getOp; rw [Nat.add_zero] at o; rw [o]; rfl
            have := h.2.2
            simp_all
          omega
        · rintro ⟨h, hq⟩
          exact ⟨by have := hq p hp; omega, h⟩

/-- **A code in which nothing is found does not read the state of the chain when it is run**, if it has no trailer before
the place that is run. -/
theorem run_reads_nothing_partial {e : Env} (ok : e.Ok) {quota : Nat} (hq : quota < 2 ^ 32) {m : Machine} (h : Reach e (init quota) m)
    (hp : ∀ p, Trailer e.code p → m.pc < p) :
    (∀ b, containsCertain e.code = some (false, b) → getOp e.code m.pc ∉ [0x3b, 0x3c, 0x42, 0x43, 0xf4]) ∧
    (∀ a, containsCertain e.code = some (a, false) → getOp e.code m.pc ∉ [0x4a, 0x4b]) := by
  obtain ⟨a, b, hc, ha, hb⟩ := containsCertain_exact e.code
  have hst := executed_are_instructions ok hq h
  have hin : ∀ ops : List Nat, 0 ∉ ops → getOp e.code m.pc ∈ ops → m.pc < e.code.length := by
    intro ops h0 hm
    by_contra x
    rw [getOp_beyond (by omega)] at hm
    exact h0 hm
  constructor
  · intro b' hb' hm
    rw [hc] at hb'
    have : a = false := congrArg Prod.fst (Option.some.inj hb')
    have ht := ha.2 ⟨m.pc, ⟨hin _ (by decide) hm, hst, hm⟩, hp⟩
    rw [this] at ht; cases ht
  · intro a' ha' hm
    rw [hc] at ha'
    have : b = false := congrArg Prod.snd (Option.some.inj ha')
    have ht := hb.2 ⟨m.pc, ⟨hin _ (by decide) hm, hst, hm⟩, hp⟩
    rw [this] at ht; cases ht

/-- **What was found before the fork**: one of these instructions, but for the last 43 bytes if they are as the compiler adds them. -/
theorem containsStatus_exact (code : Bytes) : ∃ a, containsStatus code = some a ∧
    (a = true ↔ ∃ q, Has code [0x3b, 0x3c, 0x42, 0x43, 0x4a, 0xf4] q ∧
      ((43 < code.length ∧ [0xa1, 0x65, 0x62, 0x7a, 0x7a, 0x72, 0x30, 0x58, 0x20] <+: code.drop (code.length - 43) ∧ [0x00, 0x29] <:+ code) →
        q + 43 < code.length)) := by
  have hperm : ∀ q, Has code statusOps q ↔ Has code [0x3b, 0x3c, 0x42, 0x43, 0x4a, 0xf4] q := by
    intro q; unfold Has statusOps; simp only [List.mem_cons, List.not_mem_nil, or_false]; tauto
  have haux : hasAux code = true ↔ (43 < code.length ∧ [0xa1, 0x65, 0x62, 0x7a, 0x7a, 0x72, 0x30, 0x58, 0x20] <+: code.drop (code.length - 43) ∧ [0x00, 0x29] <:+ code) := by
    unfold hasAux
    rw [decide_eq_true_iff]
    refine and_congr_right fun hl => and_congr ?_ ?_
    · rw [List.prefix_iff_eq_take, List.drop_take, show code.length - 34 - (code.length - 43) = 9 by omega]
      exact eq_comm
    · rw [List.suffix_iff_eq_drop]
      exact eq_comm
  unfold containsStatus
  dsimp only
  by_cases hx : hasAux code = true
  · rw [if_pos hx]
    obtain ⟨m, h1, h2⟩ := bitmap_spec (code.take (code.length - 43))
    obtain ⟨a, hc, ha⟩ := status_loop h2 (code.take (code.length - 43)) [] rfl
    rw [h1, Option.bind_some]
    refine ⟨a, hc, ?_⟩
    rw [ha]
    simp only [List.length_nil, Nat.zero_le, true_and]
    refine exists_congr fun q => ?_
    rw [has_take, hperm]
    constructor
    · rintro ⟨h, h'⟩; exact ⟨h', fun _ => by omega⟩
    · rintro ⟨h, h'⟩
      exact ⟨by have := h' (haux.1 hx); omega, h⟩
  · rw [if_neg hx]
    obtain ⟨m, h1, h2⟩ := bitmap_spec code
    obtain ⟨a, hc, ha⟩ := status_loop h2 code [] rfl
    rw [h1, Option.bind_some]
    refine ⟨a, hc, ?_⟩
    rw [ha]
    simp only [List.length_nil, Nat.zero_le, true_and]
    refine exists_congr fun q => ?_
    rw [hperm]
    exact ⟨fun h => ⟨h, fun x => absurd (haux.2 x) hx⟩, fun h => h.1⟩

/-! ### A contract that reads the time and is not found -/

/-- It jumps over what looks like the trailer of the compiler, and asks for the time there. -/
def hiddenCode : Bytes :=
  [0x60, 13, 0x56, 0xfe, 0xa1, 0x65, 0x62, 0x7a, 0x7a, 0x72, 0x30, 0x58, 0x20, 0x5b, 0x42] ++ List.replicate 32 0

/-- **A contract that reads the time may be made without waiting for snapshot blocks**: nothing is found in this code, and when it
is run it comes to the instruction that reads the time. -/
theorem hidden_read : containsCertain hiddenCode = some (false, false) ∧
    ∃ m, Reach (sampleEnv hiddenCode []) (init 100000) m ∧ getOp hiddenCode m.pc = 0x42 ∧ ∃ m', step (sampleEnv hiddenCode []) m = .next m' ∧ m'.stack.length = 1 := by
  refine ⟨by decide +kernel, ?_⟩
  have h : ((steps (sampleEnv hiddenCode []) 3 (init 100000)).any (fun m => decide (getOp hiddenCode m.pc = 0x42) &&
      (match step (sampleEnv hiddenCode []) m with | .next m' => decide (m'.stack.length = 1) | .stop _ _ => false))) = true := by decide +kernel
  cases hm : steps (sampleEnv hiddenCode []) 3 (init 100000) with
  | none => rw [hm] at h; cases h
  | some m =>
  rw [hm] at h
  have hp : (decide (getOp hiddenCode m.pc = 0x42) &&
      (match step (sampleEnv hiddenCode []) m with | .next m' => decide (m'.stack.length = 1) | .stop _ _ => false)) = true := h
  rw [Bool.and_eq_true, decide_eq_true_iff] at hp
  refine ⟨m, steps_reach .here hm, hp.1, ?_⟩
  have h2 := hp.2
  split at h2
  · rename_i m' hs; exact ⟨m', hs, of_decide_eq_true h2⟩
  · cases h2

example : containsCertain [0x60, 0x42, 0x42, 0x4b] = some (true, true) := by decide +kernel
example : containsCertain [0x60, 0x42, 0x61, 0x4a, 0x4b] = some (false, false) := by decide +kernel
example : containsStatus [0x60, 0x42, 0x42] = some true := by decide +kernel
example : Trailer hiddenCode 3 := by
  refine ⟨by decide, by decide +kernel, ?_⟩
  exact .after (.after .first (by decide)) (by decide)
/-- A place in a code without a trailer meets the hypotheses of `run_reads_nothing_partial`. -/
example : (∀ p, Trailer loopCode p → (init 100000).pc < p) ∧ containsCertain loopCode = some (false, false) := by
  refine ⟨fun p hp => absurd hp.1 ?_, by decide +kernel⟩
  have : loopCode.length = 31 := by decide
  omega

end Verif.Evm
