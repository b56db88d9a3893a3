import Verif.Abi.AbiProps

/-!
# C33: methods, events, and what is not kept
-/

namespace Verif.Abi
open Verif.Bytes

/-! ### Unpacking any bytes -/

/-- Types whose fixed bytes are at most a word. -/
def Elem.Small : Elem → Prop
  | .fixed n => n ≤ 32
  | _ => True

def Ty.Small : Ty → Prop
  | .one e => e.Small
  | .slice e => e.Small
  | .array _ e => e.Small

theorem slice_ok {d : Bytes} {s e : Nat} (h : s ≤ e ∧ e ≤ d.length) : ∃ w, slice d s e = .ok w ∧ w.length = e - s := by
  unfold slice
  rw [if_pos h]
  refine ⟨_, rfl, ?_⟩
  rw [List.length_take, List.length_drop]
  omega

theorem pointsTo_no_panic {index : Nat} {d : Bytes} (h : index + 32 ≤ d.length) :
    pointsTo index d = .err ∨ ∃ s l, pointsTo index d = .ok (s, l) ∧ s + l ≤ d.length := by
  unfold pointsTo
  obtain ⟨w, hw, -⟩ := slice_ok (d := d) (s := index) (e := index + 32) ⟨by omega, h⟩
  rw [hw]
  simp only
  split
  · exact Or.inl rfl
  split
  · exact Or.inl rfl
  rename_i h1 h2
  obtain ⟨lw, hlw, -⟩ := slice_ok (d := d) (s := num w + 32 - 32) (e := num w + 32) ⟨by omega, by omega⟩
  rw [hlw]
  simp only
  split
  · exact Or.inl rfl
  split
  · exact Or.inl rfl
  · refine Or.inr ⟨_, _, rfl, by omega⟩

theorem readBool_no_panic (w : Bytes) : readBool w ≠ .panic := by
  unfold readBool
  split
  · simp
  split
  · simp
  split <;> simp

/-- **C33** A truth value is read only from the two words that packing makes. -/
theorem readBool_strict {w : Bytes} (hw : w.length = 32) {b : Bool} (h : readBool w = .ok (.bool b)) : w = packNum (if b then 1 else 0) := by
  unfold readBool at h
  split at h
  · simp at h
  rename_i h0
  have hz : w.take 31 = List.replicate 31 0 := by
    apply List.eq_replicate_iff.2
    refine ⟨by simp [hw], ?_⟩
    intro x hx
    by_contra hne
    exact h0 (List.any_eq_true.2 ⟨x, hx, by simpa using hne⟩)
  have hw' : ∀ x, w[31]? = some x → w = List.replicate 31 0 ++ [x] := by
    intro x hx
    rw [← hz]
    obtain ⟨hl, hx⟩ := List.getElem?_eq_some_iff.1 hx
    conv_lhs => rw [← List.take_append_drop 31 w]
    rw [List.drop_eq_getElem_cons hl, hx, List.drop_of_length_le (by omega)]
  split at h
  · rename_i h1
    simp only [Res.ok.injEq, Val.bool.injEq] at h
    subst h
    rw [hw' _ h1]; decide +kernel
  split at h
  · rename_i h1
    simp only [Res.ok.injEq, Val.bool.injEq] at h
    subst h
    rw [hw' _ h1]; decide +kernel
  · simp at h

theorem readElem_no_panic {e : Elem} (hs : e.Small) (index : Nat) (d : Bytes) : readElem index e d ≠ .panic := by
  unfold readElem
  split
  · simp
  rename_i h
  split
  · rcases pointsTo_no_panic (index := index) (d := d) (by omega) with h1 | ⟨s, l, h1, h2⟩
    · rw [h1]; simp
    · rw [h1]
      obtain ⟨b, hb, -⟩ := slice_ok (d := d) (s := s) (e := s + l) ⟨by omega, h2⟩
      simp only
      rw [hb]
      simp
  · rename_i hp
    obtain ⟨w, hw, -⟩ := slice_ok (d := d) (s := index) (e := index + 32) ⟨by omega, by omega⟩
    rw [hw]
    cases e <;> simp only [ne_eq, reduceCtorEq, not_false_eq_true]
    · exact readBool_no_panic w
    · simp [Elem.prefixed] at hp
    · simp [Elem.prefixed] at hp
    · simp only [Elem.Small] at hs
      rw [if_pos hs]
      simp

theorem readList_no_panic {e : Elem} (hs : e.Small) (d : Bytes) : ∀ n index, readList e d index n ≠ .panic := by
  intro n
  induction n with
  | zero => intro index; simp [readList]
  | succ n ih =>
    intro index
    simp only [readList]
    have h1 := readElem_no_panic hs index d
    have h2 := ih (index + 32)
    cases he : readElem index e d with
    | err => simp
    | panic => exact absurd he h1
    | ok v =>
      simp only
      cases hl : readList e d (index + 32) n with
      | err => simp
      | panic => exact absurd hl h2
      | ok l => simp

theorem forEach_no_panic {e : Elem} (hs : e.Small) (d : Bytes) (start size : Nat) : forEach e d start size ≠ .panic := by
  unfold forEach
  split
  · simp
  · have := readList_no_panic hs d size start
    cases h : readList e d start size with
    | err => simp
    | panic => exact absurd h this
    | ok l => simp

theorem read_no_panic {t : Ty} (hs : t.Small) (index : Nat) (d : Bytes) : read index t d ≠ .panic := by
  unfold read
  cases t with
  | one e =>
    have := readElem_no_panic (e := e) hs index d
    simp only
    cases h : readElem index e d with
    | err => simp
    | panic => exact absurd h this
    | ok l => simp
  | slice e =>
    simp only
    split
    · simp
    · rcases pointsTo_no_panic (index := index) (d := d) (by omega) with h1 | ⟨s, l, h1, -⟩
      · rw [h1]; simp
      · rw [h1]; exact forEach_no_panic hs d s l
  | array n e =>
    simp only
    split
    · simp
    · exact forEach_no_panic hs d index n

/-- **C33.** Whatever the bytes are, unpacking ends with arguments or an error, for all types whose fixed bytes are at most a word. -/
theorem unpack_no_panic {ts : List Ty} (hs : ∀ t ∈ ts, t.Small) (d : Bytes) : unpackArgs ts d ≠ .panic := by
  suffices ∀ i v, unpackLoop d i v ts ≠ .panic from this 0 0
  induction ts with
  | nil => intro i v; simp [unpackLoop]
  | cons t ts ih =>
    intro i v
    simp only [unpackLoop]
    have h1 := read_no_panic (hs t (by simp)) ((i + v) * 32) d
    have h2 := ih (fun x hx => hs x (by simp [hx])) (i + 1) (v + t.virtual)
    cases h : read ((i + v) * 32) t d with
    | err => simp
    | panic => exact absurd h h1
    | ok a =>
      simp only
      cases h' : unpackLoop d (i + 1) (v + t.virtual) ts with
      | err => simp
      | panic => exact absurd h' h2
      | ok as => simp

/-- Fixed bytes of more than a word end the program at any input of a word or more. -/
theorem long_fixed_panics {n : Nat} (hn : 32 < n) {d : Bytes} (hd : 32 ≤ d.length) : unpackArgs [.one (.fixed n)] d = .panic := by
  obtain ⟨w, hw, -⟩ := slice_ok (d := d) (s := (0 + 0) * 32) (e := (0 + 0) * 32 + 32) ⟨by omega, by omega⟩
  simp only [unpackArgs, unpackLoop, read, readElem]
  rw [if_neg (by omega), if_neg (by simp [Elem.prefixed]), hw]
  simp only
  rw [if_neg (by omega)]

/-! ### Types that are kept are small, what comes back has its type -/

/-- Two's complement is in its range. -/
theorem signed_range {bits n : Nat} (hb : 1 ≤ bits) (hn : n < 2 ^ bits) : -(2 : Int) ^ (bits - 1) ≤ signed bits n ∧ signed bits n < (2 : Int) ^ (bits - 1) := by
  have hp : (2 : Nat) ^ bits = 2 * 2 ^ (bits - 1) := by
    conv => lhs; rw [show bits = (bits - 1) + 1 by omega]
    rw [pow_succ]; ring
  have hpi : (2 : Int) ^ bits = 2 * 2 ^ (bits - 1) := by exact_mod_cast hp
  have hpos : (0 : Int) < 2 ^ (bits - 1) := by positivity
  unfold signed
  split
  · rename_i h
    have : (n : Int) < (2 : Int) ^ (bits - 1) := by exact_mod_cast h
    constructor <;> omega
  · rename_i h
    have h1 : (2 : Int) ^ (bits - 1) ≤ n := by exact_mod_cast Nat.not_lt.mp h
    have h2 : (n : Int) < (2 : Int) ^ bits := by exact_mod_cast hn
    constructor <;> omega

theorem native_bits {bits : Nat} (h : native bits = true) : 1 ≤ bits ∧ bits / 8 ≤ 32 ∧ 256 ^ (bits / 8) = 2 ^ bits := by
  have hb' : bits = 8 ∨ bits = 16 ∨ bits = 32 ∨ bits = 64 := of_decide_eq_true h
  rcases hb' with rfl | rfl | rfl | rfl <;> norm_num

theorem native_num {bits : Nat} (h : native bits = true) {w : Bytes} (hw : w.length = 32) : num (w.drop (w.length - bits / 8)) < 2 ^ bits := by
  obtain ⟨-, h2, h3⟩ := native_bits h
  have := num_lt (w.drop (w.length - bits / 8))
  rw [List.length_drop, show w.length - (w.length - bits / 8) = bits / 8 by omega, h3] at this
  exact this

theorem readElem_has {e : Elem} {index : Nat} {d : Bytes} {v : Val} (h : readElem index e d = .ok v) : e.has v = true := by
  unfold readElem at h
  split at h
  · simp at h
  rename_i hlen
  split at h
  · rename_i hp
    have hr : ∃ b, v = .raw b := by
      cases hpt : pointsTo index d with
      | err => rw [hpt] at h; simp at h
      | panic => rw [hpt] at h; simp at h
      | ok sl =>
        obtain ⟨s, l⟩ := sl
        rw [hpt] at h
        simp only at h
        cases hs : slice d s (s + l) with
        | err => rw [hs] at h; simp at h
        | panic => rw [hs] at h; simp at h
        | ok b =>
          rw [hs] at h
          simp only [Res.ok.injEq] at h
          exact ⟨b, h.symm⟩
    obtain ⟨b, rfl⟩ := hr
    cases e <;> simp [Elem.prefixed] at hp <;> rfl
  · rename_i hp
    obtain ⟨w, hw, hwl⟩ := slice_ok (d := d) (s := index) (e := index + 32) ⟨by omega, by omega⟩
    have hw32 : w.length = 32 := by omega
    rw [hw] at h
    cases e with
    | int bits =>
      simp only [Res.ok.injEq] at h
      subst h
      simp only [Elem.has, readInteger]
      cases hn : native bits with
      | false => simp
      | true =>
        simp only [if_true, Bool.not_true, Bool.false_or, decide_eq_true_eq]
        exact signed_range (native_bits hn).1 (native_num hn hw32)
    | uint bits =>
      simp only [Res.ok.injEq] at h
      subst h
      simp only [Elem.has, readInteger]
      cases hn : native bits with
      | false => simp
      | true =>
        simp only [if_true, Bool.false_eq_true, if_false, Bool.not_true, Bool.false_or, decide_eq_true_eq]
        refine ⟨by omega, ?_⟩
        exact_mod_cast native_num hn hw32
    | bool =>
      simp only [readBool] at h
      split at h
      · simp at h
      split at h
      · simp at h; subst h; rfl
      split at h
      · simp at h; subst h; rfl
      · simp at h
    | address =>
      simp only [Res.ok.injEq] at h
      subst h
      simp only [Elem.has, List.length_drop, hw32, decide_eq_true_eq]
    | gid =>
      simp only [Res.ok.injEq] at h
      subst h
      simp only [Elem.has, List.length_drop, hw32, decide_eq_true_eq]
    | token =>
      simp only [Res.ok.injEq] at h
      subst h
      simp only [Elem.has, List.length_drop, hw32, decide_eq_true_eq]
    | string => simp at h
    | bytes => simp at h
    | fixed n =>
      simp only at h
      split at h
      · simp only [Res.ok.injEq] at h
        subst h
        simp only [Elem.has, List.length_take, hw32, decide_eq_true_eq]
        omega
      · simp at h

theorem readList_has {e : Elem} {d : Bytes} : ∀ (n index : Nat) (l : List Val), readList e d index n = .ok l → l.length = n ∧ ∀ v ∈ l, e.has v = true := by
  intro n
  induction n with
  | zero => intro index l h; simp only [readList, Res.ok.injEq] at h; subst h; simp
  | succ n ih =>
    intro index l h
    simp only [readList] at h
    cases he : readElem index e d with
    | err => rw [he] at h; simp at h
    | panic => rw [he] at h; simp at h
    | ok v =>
      rw [he] at h
      simp only at h
      cases hl : readList e d (index + 32) n with
      | err => rw [hl] at h; simp at h
      | panic => rw [hl] at h; simp at h
      | ok l' =>
        rw [hl] at h
        simp only [Res.ok.injEq] at h
        subst h
        obtain ⟨h1, h2⟩ := ih _ _ hl
        refine ⟨by simp [h1], fun x hx => ?_⟩
        rcases List.mem_cons.mp hx with rfl | hx
        · exact readElem_has he
        · exact h2 x hx

theorem forEach_has {e : Elem} {d : Bytes} {start size : Nat} {a : Arg} (h : forEach e d start size = .ok a) :
    ∃ l, a = .list l ∧ l.length = size ∧ ∀ v ∈ l, e.has v = true := by
  unfold forEach at h
  split at h
  · simp at h
  · cases hl : readList e d start size with
    | err => rw [hl] at h; simp at h
    | panic => rw [hl] at h; simp at h
    | ok l =>
      rw [hl] at h
      simp only [Res.ok.injEq] at h
      exact ⟨l, h.symm, readList_has _ _ _ hl⟩

theorem read_has {t : Ty} {index : Nat} {d : Bytes} {a : Arg} (h : read index t d = .ok a) : t.has a = true := by
  unfold read at h
  cases t with
  | one e =>
    simp only at h
    cases he : readElem index e d with
    | err => rw [he] at h; simp at h
    | panic => rw [he] at h; simp at h
    | ok v =>
      rw [he] at h
      simp only [Res.ok.injEq] at h
      subst h
      exact readElem_has he
  | slice e =>
    simp only at h
    split at h
    · simp at h
    · cases hp : pointsTo index d with
      | err => rw [hp] at h; simp at h
      | panic => rw [hp] at h; simp at h
      | ok sl =>
        rw [hp] at h
        obtain ⟨l, rfl, -, h2⟩ := forEach_has h
        simp only [Ty.has, List.all_eq_true]
        exact h2
  | array n e =>
    simp only at h
    split at h
    · simp at h
    · obtain ⟨l, rfl, h1, h2⟩ := forEach_has h
      simp only [Ty.has, Bool.and_eq_true, decide_eq_true_eq, List.all_eq_true]
      exact ⟨h1, h2⟩

/-- **C33.** Whatever the bytes are, the arguments that come out have the types asked for, one for each. -/
theorem unpack_typed {ts : List Ty} {d : Bytes} {as : List Arg} (h : unpackArgs ts d = .ok as) : List.Forall₂ (fun t a => t.has a = true) ts as := by
  suffices ∀ i v as, unpackLoop d i v ts = .ok as → List.Forall₂ (fun t a => t.has a = true) ts as from this 0 0 as h
  clear h as
  induction ts with
  | nil => intro i v as h; simp only [unpackLoop, Res.ok.injEq] at h; subst h; exact .nil
  | cons t ts ih =>
    intro i v as h
    simp only [unpackLoop] at h
    cases h1 : read ((i + v) * 32) t d with
    | err => rw [h1] at h; simp at h
    | panic => rw [h1] at h; simp at h
    | ok a =>
      rw [h1] at h
      simp only at h
      cases h' : unpackLoop d (i + 1) (v + t.virtual) ts with
      | err => rw [h'] at h; simp at h
      | panic => rw [h'] at h; simp at h
      | ok as' =>
        rw [h'] at h
        simp only [Res.ok.injEq] at h
        subst h
        exact .cons (read_has h1) (ih _ _ _ h')

/-! ### Methods -/

theorem fits_packed_length {ts : List Ty} {as : List Arg} (h : List.Forall₂ Ty.Fits ts as) {d : Bytes} (hd : packArgs ts as = some d) : ts.length * 32 ≤ d.length := by
  obtain ⟨l, hl⟩ := packed_exists h
  have hlen : as.length = ts.length := h.length_eq.symm
  have hw : ts.length ≤ (ts.map Ty.words).sum := by
    clear hl hlen hd
    induction h with
    | nil => simp
    | @cons t a ts as hf _ ih =>
      have : 1 ≤ t.words := by
        cases t with
        | array n e =>
          cases a with
          | one v => exact absurd hf (by simp [Ty.Fits])
          | list l => exact hf.1
        | one e => simp [Ty.words]
        | slice e => simp [Ty.words]
      simp only [List.length_cons, List.map_cons, List.sum_cons]
      omega
  unfold packArgs at hd
  rw [if_neg (by omega), packLoop_eq _ hl [] []] at hd
  injection hd with hd
  rw [← hd]
  simp only [List.nil_append, List.length_append, heads_length hl]
  omega

/-- **C33.** A call of a method with arguments is unpacked to these arguments. -/
theorem method_roundtrip_partial {id : Bytes} (hid : id.length = 4) {ts : List Ty} {as : List Arg} (hne : ts ≠ []) (h : List.Forall₂ Ty.Fits ts as) :
    ∃ d, packMethod id ts as = some d ∧ (d.length < 2 ^ 63 → unpackMethod id ts d = .ok as) := by
  obtain ⟨d, hd, hr⟩ := roundtrip_partial h
  refine ⟨id ++ d, by unfold packMethod; rw [hd]; rfl, fun hl => ?_⟩
  have h1 := fits_packed_length h hd
  have h2 : 1 ≤ ts.length := by cases ts <;> simp_all
  unfold unpackMethod
  rw [if_neg (by rw [List.length_append]; omega), if_neg (by rw [← hid, List.take_left]; simp), ← hid, List.drop_left]
  have := hr [] (by rw [List.append_nil]; rw [List.length_append] at hl; omega)
  rwa [List.append_nil] at this

/-- The call of a method without arguments is not unpacked. -/
theorem method_without_arguments {id : Bytes} (hid : id.length = 4) : packMethod id [] [] = some id ∧ unpackMethod id [] id = .err := by
  refine ⟨by simp [packMethod, packArgs, packLoop], ?_⟩
  unfold unpackMethod
  rw [if_pos (by omega)]

/-- A call of one method is not taken for a call of another. -/
theorem other_method_refused {id id' : Bytes} (h : id.length = 4) (hne : id ≠ id') {ts ts' : List Ty} {as : List Arg} {d : Bytes}
    (hd : packMethod id ts as = some d) : unpackMethod id' ts' d = .err := by
  unfold packMethod at hd
  cases hp : packArgs ts as with
  | none => rw [hp] at hd; simp at hd
  | some p =>
    rw [hp] at hd
    simp only [Option.map_some, Option.some.injEq] at hd
    subst hd
    unfold unpackMethod
    split
    · rfl
    · rw [if_pos (by rw [← h, List.take_left]; exact hne)]

/-! ### Events -/

/-- What comes back of an argument of an event: indexed lists, strings and bytes are known by a topic only. -/
def back (H : Bytes → Bytes) (i : Input) (a : Arg) : EvVal :=
  if i.indexed && i.ty.opaque then .topic (topic H ((pack i.ty a).getD [])) else .arg a

theorem leftPad_full {b : Bytes} (h : b.length = 32) : leftPad b 32 = b := by unfold leftPad; rw [h]; simp

theorem eventLoop_eq (H : Bytes → Bytes) {is : List Input} {as : List Arg} (h : List.Forall₂ (fun i a => i.ty.Fits a) is as) :
    ∃ ts r, packEvent H is as = some (ts, r) ∧ List.Forall₂ Ty.Fits ((is.filter (!·.indexed)).map (·.ty)) r ∧
      ∀ r', r' = r → eventLoop is ts r' = .ok (List.zipWith (back H) is as) := by
  induction h with
  | nil => exact ⟨[], [], rfl, .nil, fun _ _ => rfl⟩
  | @cons i a is as hf _ ih =>
    obtain ⟨ts, r, h1, h2, h3⟩ := ih
    obtain ⟨p, hp⟩ := pack_fits hf
    by_cases hi : i.indexed = true
    · refine ⟨topic H p :: ts, r, by simp only [packEvent, h1, hi, if_true, hp], by rw [List.filter_cons_of_neg (by simp [hi])]; exact h2, ?_⟩
      rintro r' rfl
      simp only [eventLoop, hi, if_true, List.zipWith_cons_cons]
      by_cases ho : i.ty.opaque = true
      · simp only [ho, if_true]
        rw [h3 _ rfl]
        simp only [back, hi, ho, Bool.and_true, if_true, hp, Option.getD_some]
      · rw [if_neg ho]
        have hpl : i.ty.prefixed = false := by
          cases hty : i.ty with
          | one e => rw [hty] at ho; simpa [Ty.opaque, Ty.prefixed] using ho
          | slice e => rw [hty] at ho; simp [Ty.opaque] at ho
          | array n e => rfl
        have hwd : i.ty.words = 1 := by
          cases hty : i.ty with
          | one e => rfl
          | slice e => rfl
          | array n e => rw [hty] at ho; simp [Ty.opaque] at ho
        obtain ⟨hr, hl⟩ := read_plain hf hpl hp [] []
        rw [hwd] at hl
        have ht : topic H p = p := by unfold topic; rw [if_pos (by omega), leftPad_full (by omega)]
        simp only [List.length_nil, List.nil_append, List.append_nil] at hr
        rw [ht, hr]
        simp only
        rw [h3 _ rfl]
        simp only [back, hi, Bool.true_and, ho, Bool.false_eq_true, if_false]
    · have hi' : i.indexed = false := by simpa using hi
      refine ⟨ts, a :: r, by simp only [packEvent, h1, hi', Bool.false_eq_true, if_false], ?_, ?_⟩
      · rw [List.filter_cons_of_pos (by simp [hi'])]
        exact .cons hf h2
      · rintro r' rfl
        simp only [eventLoop, hi', Bool.false_eq_true, if_false, List.zipWith_cons_cons]
        rw [h3 _ rfl]
        simp only [back, hi', Bool.false_and, Bool.false_eq_true, if_false]

/-- **C33.** The topics and the data of an event are unpacked to its arguments; of indexed lists, strings and bytes the topic comes back. -/
theorem event_roundtrip_partial (H : Bytes → Bytes) {is : List Input} {as : List Arg} (h : List.Forall₂ (fun i a => i.ty.Fits a) is as) :
    ∃ ts d, eventPack H is as = some (ts, d) ∧ (d.length < 2 ^ 63 → eventUnpack is ts d = .ok (List.zipWith (back H) is as)) := by
  obtain ⟨ts, r, h1, h2, h3⟩ := eventLoop_eq H h
  obtain ⟨d, hd, hr⟩ := roundtrip_partial h2
  cases hre : r with
  | nil =>
    subst hre
    refine ⟨ts, [], by simp [eventPack, h1], fun _ => ?_⟩
    have : (is.filter (!·.indexed)).map (·.ty) = [] := List.length_eq_zero_iff.mp h2.length_eq
    unfold eventUnpack
    rw [this]
    exact h3 _ rfl
  | cons a r' =>
    refine ⟨ts, d, by simp only [eventPack, h1, hd]; rw [hre]; rfl, fun hl => ?_⟩
    have := hr [] (by rwa [List.append_nil])
    rw [List.append_nil] at this
    unfold eventUnpack
    rw [this]
    exact h3 _ rfl

/-- With a topic missing the program ends. -/
theorem missing_topic_panics (ty : Ty) (d : Bytes) : eventUnpack [⟨ty, true⟩] [] d = .panic := by
  simp [eventUnpack, unpackArgs, unpackLoop, eventLoop]

/-! ### What is not kept -/

/-- A negative number of a size other than those of Go's integers comes back as another number. -/
theorem negative_lost {bits : Nat} (hb : native bits = false) {i : Int} (hi : i < 0) :
    ∃ d, packArgs [.one (.int bits)] [.one (.num i)] = some d ∧ ∃ j, unpackArgs [.one (.int bits)] d = .ok [.one (.num j)] ∧ 0 ≤ j ∧ j ≠ i := by
  have hp : pack (.one (.int bits)) (.one (.num i)) = some (packNum i) := by
    unfold pack
    rw [if_neg (by simp [Ty.has, Elem.has, hb])]
    rfl
  refine ⟨packNum i, by simp [packArgs, packLoop, hp, Ty.prefixed, Elem.prefixed], (num (packNum i) : Int), ?_, by omega, by omega⟩
  have hs : slice (packNum i) 0 32 = .ok (packNum i) := by
    have := slice_mid [] (packNum i) []
    simpa using this
  simp only [unpackArgs, unpackLoop, read, readElem, packNum_length, Nat.add_zero, Nat.zero_mul, Nat.zero_add]
  rw [if_neg (by omega), if_neg (by simp [Elem.prefixed]), hs]
  simp only [readInteger, hb, Bool.false_eq_true, if_false]

/-- A number of 256 bits or more comes back without its upper bits. -/
theorem large_lost : ∃ d, packArgs [.one (.uint 256)] [.one (.num (2 ^ 256 + 5))] = some d ∧ unpackArgs [.one (.uint 256)] d = .ok [.one (.num 5)] := by
  refine ⟨packNum 5, by decide +kernel, by decide +kernel⟩

/-- A list of strings, which has no offsets, does not come back. -/
theorem strings_lost : ∃ d, packArgs [.slice .string] [.list [.raw [1, 2]]] = some d ∧ unpackArgs [.slice .string] d = .err := by
  refine ⟨(packArgs [.slice .string] [.list [.raw [1, 2]]]).getD [], by decide +kernel, by decide +kernel⟩

/-- Arguments after an array of strings come back as others. -/
theorem after_strings_lost : ∃ d, packArgs [.array 1 .string, .one (.uint 256)] [.list [.raw [1, 2]], .one (.num 7)] = some d ∧
    unpackArgs [.array 1 .string, .one (.uint 256)] d ≠ .ok [.list [.raw [1, 2]], .one (.num 7)] := by
  refine ⟨(packArgs [.array 1 .string, .one (.uint 256)] [.list [.raw [1, 2]], .one (.num 7)]).getD [], by decide +kernel, by decide +kernel⟩

/-! ### Examples -/

/-- The signature `(uint256,int8,bool,address,string,uint16[],int64[2],bytes3)`. -/
def exTypes : List Ty :=
  [.one (.uint 256), .one (.int 8), .one .bool, .one .address, .one .string, .slice (.uint 16), .array 2 (.int 64), .one (.fixed 3)]

def exArgs : List Arg :=
  [.one (.num (10 ^ 30)), .one (.num (-3)), .one (.bool true), .one (.raw (List.replicate 21 7)), .one (.raw (List.replicate 40 65)), .list [.num 1, .num 2, .num 65535],
    .list [.num (-1), .num 5], .one (.raw [1, 2, 3])]

theorem exFits : List.Forall₂ Ty.Fits exTypes exArgs := by
  simp only [exTypes, exArgs]
  repeat' first | apply List.Forall₂.cons | exact List.Forall₂.nil
  all_goals simp [Ty.Fits, Elem.Fits, Elem.has, native, Elem.prefixed]

example : ∃ d, packArgs exTypes exArgs = some d ∧ d.length = 16 * 32 ∧ unpackArgs exTypes d = .ok exArgs :=
  ⟨(packArgs exTypes exArgs).getD [], by decide +kernel, by decide +kernel, by decide +kernel⟩

example : ∀ t ∈ exTypes, t.Small := by simp [exTypes, Ty.Small, Elem.Small]

/-- An event with an indexed number, an indexed string and a string. -/
example : ∃ ts d, eventPack id [⟨.one (.uint 64), true⟩, ⟨.one .string, true⟩, ⟨.one .string, false⟩] [.one (.num 9), .one (.raw [1]), .one (.raw [2, 3])] = some (ts, d) ∧
    ts.length = 2 ∧ d.length = 96 :=
  ⟨_, _, rfl, by decide +kernel, by decide +kernel⟩

end Verif.Abi
