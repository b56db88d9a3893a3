import Verif.Text.HexModel
import Verif.Text.TextProps
import Verif.Tactics

/-! # Hexadecimal text with a prefix is read as it is written -/

namespace Verif.Text
open Verif.Bytes

/-! ### Specification -/

/-- The number that digits stand for, the greatest first. -/
def numeral (ds : List Nat) : Nat := ds.foldl (fun a d => a * 16 + d) 0

/-- A text spells a number: a prefix, then at least one digit, of either case, and no leading zero. -/
def Spells (s : Bytes) (n : Nat) : Prop :=
  ∃ x cs ds, s = 48 :: x :: cs ∧ (x = 120 ∨ x = 88) ∧ cs ≠ [] ∧ (cs.head? = some 48 → cs = [48]) ∧ cs.map value = ds.map some ∧ n = numeral ds

/-! ### The text before the digits -/

theorem has0x_iff (s : Bytes) : has0x s = true ↔ ∃ x cs, s = 48 :: x :: cs ∧ (x = 120 ∨ x = 88) := by
  unfold has0x
  rw [decide_eq_true_eq]
  constructor
  · rintro ⟨h1, h2, h3⟩
    match s, h1 with
    | a :: x :: cs, _ =>
      simp only [List.head?_cons, Option.some.injEq, List.getElem?_cons_succ, List.getElem?_cons_zero] at h2 h3
      exact ⟨x, cs, by rw [h2], h3⟩
  · rintro ⟨x, cs, e, hx⟩
    subst e
    simp [hx]

theorem checkNumber_iff (s raw : Bytes) : checkNumber s = some raw ↔ ∃ x, s = 48 :: x :: raw ∧ (x = 120 ∨ x = 88) ∧ raw ≠ [] ∧ (raw.head? = some 48 → raw = [48]) := by
  unfold checkNumber
  by_cases h0 : s.length = 0
  · rw [if_pos h0]
    refine ⟨fun h => (by cases h), ?_⟩
    rintro ⟨x, e, _⟩
    rw [e] at h0; simp at h0
  · rw [if_neg h0]
    by_cases hp : has0x s = true
    · obtain ⟨x, cs, e, hx⟩ := (has0x_iff s).1 hp
      rw [if_neg (by rw [hp]; simp)]
      subst e
      show (if cs.length = 0 then none else if 1 < cs.length ∧ cs.head? = some 48 then none else some cs) = some raw ↔ _
      by_cases h1 : cs.length = 0
      · rw [if_pos h1]
        refine ⟨fun h => (by cases h), ?_⟩
        rintro ⟨y, e, _, hn, _⟩
        have : raw = cs := by simpa using (List.cons.inj (List.cons.inj e).2).2.symm
        rw [this] at hn
        exact absurd (List.length_eq_zero_iff.1 h1) hn
      · rw [if_neg h1]
        by_cases h2 : 1 < cs.length ∧ cs.head? = some 48
        · rw [if_pos h2]
          refine ⟨fun h => (by cases h), ?_⟩
          rintro ⟨y, e, _, hn, hz⟩
          have : raw = cs := by simpa using (List.cons.inj (List.cons.inj e).2).2.symm
          rw [this] at hz
          have := hz h2.2
          rw [this] at h2; simp at h2
        · rw [if_neg h2]
          constructor
          · intro h
            have e := Option.some.inj h
            subst e
            refine ⟨x, rfl, hx, fun e => h1 (by rw [e]; rfl), ?_⟩
            intro hh
            have hl : cs.length = 1 := by
              rcases Nat.lt_or_ge 1 cs.length with q | q
              · exact absurd ⟨q, hh⟩ h2
              · omega
            obtain ⟨a, ha⟩ := List.length_eq_one_iff.1 hl
            subst ha
            simp at hh; rw [hh]
          · rintro ⟨y, e, _⟩
            rw [(List.cons.inj (List.cons.inj e).2).2]
    · rw [if_pos (by simpa using hp)]
      refine ⟨fun h => (by cases h), ?_⟩
      rintro ⟨x, e, hx, _⟩
      exact absurd ((has0x_iff s).2 ⟨x, raw, e, hx⟩) hp

/-- A text spells a number if the check passes and the digits stand for it. -/
theorem spells_iff_check (s : Bytes) (n : Nat) : Spells s n ↔ ∃ (raw : Bytes) (ds : List Nat), checkNumber s = some raw ∧ raw.map value = ds.map some ∧ n = numeral ds := by
  constructor
  · rintro ⟨x, cs, ds, e, hx, hn, hz, hv, hd⟩
    exact ⟨cs, ds, (checkNumber_iff s cs).2 ⟨x, e, hx, hn, hz⟩, hv, hd⟩
  · rintro ⟨raw, ds, hc, hv, hd⟩
    obtain ⟨x, e, hx, hn, hz⟩ := (checkNumber_iff s raw).1 hc
    exact ⟨x, raw, ds, e, hx, hn, hz, hv, hd⟩

/-! ### Digits -/

theorem fold_eq (ds : List Nat) : ∀ n, ds.foldl (fun a d => a * 16 + d) n = n * 16 ^ ds.length + numeral ds := by
  induction ds with
  | nil => intro n; simp [numeral]
  | cons d ds ih =>
    intro n
    show ds.foldl (fun a d => a * 16 + d) (n * 16 + d) = n * 16 ^ (ds.length + 1) + ds.foldl (fun a d => a * 16 + d) (0 * 16 + d)
    rw [ih, ih (0 * 16 + d), pow_succ]; ring

theorem numeral_append (a b : List Nat) : numeral (a ++ b) = numeral a * 16 ^ b.length + numeral b := by
  unfold numeral
  rw [List.foldl_append, fold_eq]; rfl

theorem numeral_ofDigits (ds : List Nat) : numeral ds = Nat.ofDigits 16 ds.reverse := by
  induction ds with
  | nil => rfl
  | cons d ds ih =>
    have := numeral_append [d] ds
    rw [List.singleton_append] at this
    rw [this, ih, List.reverse_cons, Nat.ofDigits_append, List.length_reverse]
    simp [numeral]; ring

theorem values_lt {cs : Bytes} {ds : List Nat} (h : cs.map value = ds.map some) : ∀ d ∈ ds, d < 16 := by
  intro d hd
  have : some d ∈ cs.map value := by rw [h]; exact List.mem_map.2 ⟨d, hd, rfl⟩
  obtain ⟨c, _, hc⟩ := List.mem_map.1 this
  exact value_lt c hc

theorem numeral_lt {ds : List Nat} (h : ∀ d ∈ ds, d < 16) : numeral ds < 16 ^ ds.length := by
  rw [numeral_ofDigits, ← List.length_reverse]
  exact Nat.ofDigits_lt_base_pow_length (by norm_num) (fun x hx => h x (List.mem_reverse.1 hx))

theorem values_length {cs : Bytes} {ds : List Nat} (h : cs.map value = ds.map some) : cs.length = ds.length := by
  have := congrArg List.length h
  simpa using this

theorem value_zero (c : UInt8) : value c = some 0 ↔ c = 48 := by
  have h : ∀ n : Fin 256, value (UInt8.ofNat n.1) = some 0 ↔ UInt8.ofNat n.1 = 48 := by decide +kernel
  have := h ⟨c.toNat, c.toNat_lt⟩
  simpa using this

/-- Digits without a leading zero are those of the number. -/
theorem digits_unique {ds : List Nat} (h : ∀ d ∈ ds, d < 16) (hz : ds.head? ≠ some 0) : ds = (Nat.digits 16 (numeral ds)).reverse := by
  rw [numeral_ofDigits, Nat.digits_ofDigits 16 (by norm_num) _ (fun x hx => h x (List.mem_reverse.1 hx)), List.reverse_reverse]
  intro hne e
  apply hz
  rw [← List.getLast?_reverse, List.getLast?_eq_some_getLast hne, e]

theorem map_lower {cs : Bytes} {ds : List Nat} (h : ∀ d ∈ ds, d < 16) : cs.map value = ds.map some ↔ cs.map lower = ds.map digit := by
  induction cs generalizing ds with
  | nil => cases ds <;> simp
  | cons c cs ih =>
    cases ds with
    | nil => simp
    | cons d ds =>
      simp only [List.map_cons, List.cons.injEq]
      rw [value_iff c (h d List.mem_cons_self), ih (fun x hx => h x (List.mem_cons_of_mem _ hx))]

theorem digits_lt (n : Nat) : ∀ d ∈ (Nat.digits 16 n).reverse, d < 16 := fun _ hd => Nat.digits_lt_base (by norm_num) (List.mem_reverse.1 hd)

theorem lower_facts : lower 48 = 48 ∧ lower 120 = 120 ∧ lower 88 = 120 := by decide

theorem lower_48 : ∀ c : UInt8, lower c = 48 ↔ c = 48 := by
  intro c
  have h : ∀ n : Fin 256, lower (UInt8.ofNat n.1) = 48 ↔ UInt8.ofNat n.1 = 48 := by decide +kernel
  simpa using h ⟨c.toNat, c.toNat_lt⟩

theorem lower_120 : ∀ c : UInt8, lower c = 120 ↔ (c = 120 ∨ c = 88) := by
  intro c
  have h : ∀ n : Fin 256, lower (UInt8.ofNat n.1) = 120 ↔ (UInt8.ofNat n.1 = 120 ∨ UInt8.ofNat n.1 = 88) := by decide +kernel
  simpa using h ⟨c.toNat, c.toNat_lt⟩

/-! ### Loops -/

theorem parse_iff (cs : Bytes) : ∀ n r, n < 2 ^ 64 → (parseUint n cs = some r ↔ ∃ ds : List Nat, cs.map value = ds.map some ∧ r = ds.foldl (fun a d => a * 16 + d) n ∧ r < 2 ^ 64) := by
  induction cs with
  | nil =>
    intro n r hn
    constructor
    · intro h
      have e := Option.some.inj h
      exact ⟨[], rfl, e.symm, by omega⟩
    · rintro ⟨ds, e, hr, _⟩
      have : ds = [] := by simpa using e.symm
      subst this
      rw [hr]; rfl
  | cons c cs ih =>
    intro n r hn
    unfold parseUint
    cases hv : value c with
    | none =>
      refine ⟨fun h => (by cases h), ?_⟩
      rintro ⟨ds, e, _⟩
      cases ds with
      | nil => cases e
      | cons d ds => rw [List.map_cons, List.map_cons, hv] at e; cases (List.cons.inj e).1
    | some d =>
      have hd := value_lt c hv
      show (if 2 ^ 60 ≤ n then none else if (n * 16 + d) % 2 ^ 64 < n * 16 then none else parseUint ((n * 16 + d) % 2 ^ 64) cs) = some r ↔ _
      have hsplit : (∃ ds : List Nat, (c :: cs).map value = ds.map some ∧ r = ds.foldl (fun a d => a * 16 + d) n ∧ r < 2 ^ 64) ↔
          ∃ ds : List Nat, cs.map value = ds.map some ∧ r = ds.foldl (fun a d => a * 16 + d) (n * 16 + d) ∧ r < 2 ^ 64 := by
        constructor
        · rintro ⟨ds, e, hr⟩
          cases ds with
          | nil => cases e
          | cons d' ds =>
            rw [List.map_cons, List.map_cons, hv] at e
            have e1 := Option.some.inj (List.cons.inj e).1
            subst e1
            exact ⟨ds, (List.cons.inj e).2, hr⟩
        · rintro ⟨ds, e, hr⟩
          exact ⟨d :: ds, by rw [List.map_cons, List.map_cons, hv, e], hr⟩
      rw [hsplit]
      by_cases h1 : 2 ^ 60 ≤ n
      · rw [if_pos h1]
        refine ⟨fun h => (by cases h), ?_⟩
        rintro ⟨ds, _, hr, hlt⟩
        rw [fold_eq] at hr
        have : 1 ≤ 16 ^ ds.length := Nat.one_le_pow _ _ (by norm_num)
        have : n * 16 + d ≤ (n * 16 + d) * 16 ^ ds.length := Nat.le_mul_of_pos_right _ this
        omega
      · have hm : (n * 16 + d) % 2 ^ 64 = n * 16 + d := Nat.mod_eq_of_lt (by omega)
        rw [if_neg h1, hm, if_neg (by omega)]
        exact ih _ _ (by omega)

theorem word_iff (cs : Bytes) : ∀ n r, n < 2 ^ 64 → (wordLoop n cs = some r ↔ ∃ ds : List Nat, cs.map value = ds.map some ∧ r = ds.foldl (fun a d => a * 16 + d) n % 2 ^ 64) := by
  induction cs with
  | nil =>
    intro n r hn
    constructor
    · intro h
      have e := Option.some.inj h
      exact ⟨[], rfl, by rw [← e]; exact (Nat.mod_eq_of_lt hn).symm⟩
    · rintro ⟨ds, e, hr⟩
      have : ds = [] := by simpa using e.symm
      subst this
      rw [hr]
      show some n = some (n % 2 ^ 64)
      rw [Nat.mod_eq_of_lt hn]
  | cons c cs ih =>
    intro n r hn
    unfold wordLoop
    cases hv : value c with
    | none =>
      refine ⟨fun h => (by cases h), ?_⟩
      rintro ⟨ds, e, _⟩
      cases ds with
      | nil => cases e
      | cons d ds => rw [List.map_cons, List.map_cons, hv] at e; cases (List.cons.inj e).1
    | some d =>
      show wordLoop ((n * 16 % 2 ^ 64 + d) % 2 ^ 64) cs = some r ↔ _
      rw [ih _ _ (Nat.mod_lt _ (by norm_num))]
      have hm : (n * 16 % 2 ^ 64 + d) % 2 ^ 64 = (n * 16 + d) % 2 ^ 64 := by omega
      have hf : ∀ ds : List Nat, ds.foldl (fun a d => a * 16 + d) ((n * 16 + d) % 2 ^ 64) % 2 ^ 64 = ds.foldl (fun a d => a * 16 + d) (n * 16 + d) % 2 ^ 64 := by
        intro ds
        rw [fold_eq, fold_eq, Nat.add_mod, Nat.mod_mul_mod, ← Nat.add_mod]
      constructor
      · rintro ⟨ds, e, hr⟩
        refine ⟨d :: ds, by rw [List.map_cons, List.map_cons, hv, e], ?_⟩
        rw [hr, hm, hf]; rfl
      · rintro ⟨ds, e, hr⟩
        cases ds with
        | nil => cases e
        | cons d' ds =>
          rw [List.map_cons, List.map_cons, hv] at e
          have e1 := Option.some.inj (List.cons.inj e).1
          subst e1
          exact ⟨ds, (List.cons.inj e).2, by rw [hr, hm, hf]; rfl⟩

theorem word16_iff {cs : Bytes} (h : cs.length ≤ 16) (r : Nat) : wordLoop 0 cs = some r ↔ ∃ ds : List Nat, cs.map value = ds.map some ∧ r = numeral ds := by
  rw [word_iff cs 0 r (by norm_num)]
  have key : ∀ ds : List Nat, cs.map value = ds.map some → ds.foldl (fun a d => a * 16 + d) 0 % 2 ^ 64 = numeral ds := by
    intro ds e
    refine Nat.mod_eq_of_lt (lt_of_lt_of_le (numeral_lt (values_lt e)) ?_)
    rw [← values_length e]
    exact le_trans (Nat.pow_le_pow_right (by norm_num) h) (by norm_num)
  constructor
  · rintro ⟨ds, e, hr⟩; exact ⟨ds, e, by rw [hr, key ds e]⟩
  · rintro ⟨ds, e, hr⟩; exact ⟨ds, e, by rw [hr, key ds e]⟩

theorem words_iff (k : Nat) : ∀ (raw : Bytes) (r : Nat), raw.length ≤ 16 * k → ((bigWords k raw).map ofWords = some r ↔ ∃ ds : List Nat, raw.map value = ds.map some ∧ r = numeral ds) := by
  induction k with
  | zero =>
    intro raw r h
    have : raw = [] := List.length_eq_zero_iff.1 (by omega)
    subst this
    constructor
    · intro h; exact ⟨[], rfl, (Option.some.inj h).symm⟩
    · rintro ⟨ds, e, hr⟩
      have : ds = [] := by simpa using e.symm
      subst this; rw [hr]; rfl
  | succ k ih =>
    intro raw r h
    have hl1 : (raw.drop (raw.length - 16)).length ≤ 16 := by rw [List.length_drop]; omega
    have hl2 : (raw.take (raw.length - 16)).length ≤ 16 * k := by rw [List.length_take]; omega
    have hraw : raw = raw.take (raw.length - 16) ++ raw.drop (raw.length - 16) := (List.take_append_drop _ _).symm
    -- the last sixteen digits, or all of fewer
    have hmul : ∀ d1 d2 : List Nat, (raw.take (raw.length - 16)).map value = d1.map some → (raw.drop (raw.length - 16)).map value = d2.map some →
        numeral d2 + 2 ^ 64 * numeral d1 = numeral (d1 ++ d2) := by
      intro d1 d2 e1 e2
      rw [numeral_append]
      rcases Nat.lt_or_ge raw.length 16 with q | q
      · have : d1 = [] := by
          have := values_length e1
          rw [List.length_take] at this
          exact List.length_eq_zero_iff.1 (by omega)
        rw [this]; simp [numeral]
      · have : d2.length = 16 := by
          have := values_length e2
          rw [List.length_drop] at this
          omega
        rw [this]; ring
    unfold bigWords
    cases hw : wordLoop 0 (raw.drop (raw.length - 16)) with
    | none =>
      refine ⟨fun h => (by cases h), ?_⟩
      rintro ⟨ds, e, _⟩
      rw [hraw, List.map_append] at e
      obtain ⟨d1, d2, ed, e1, e2⟩ := List.map_eq_append_iff.1 e.symm
      have := (word16_iff hl1 (numeral d2)).2 ⟨d2, e2.symm, rfl⟩
      rw [hw] at this; cases this
    | some w =>
      obtain ⟨d2, e2, hw2⟩ := (word16_iff hl1 w).1 hw
      show ((bigWords k (raw.take (raw.length - 16))).map (fun ws => w :: ws)).map ofWords = some r ↔ _
      rw [Option.map_map]
      have hcomp : (bigWords k (raw.take (raw.length - 16))).map (ofWords ∘ fun ws => w :: ws) =
          ((bigWords k (raw.take (raw.length - 16))).map ofWords).map (fun x => w + 2 ^ 64 * x) := by
        rw [Option.map_map]; rfl
      rw [hcomp]
      constructor
      · intro hh
        obtain ⟨x, hx, hxr⟩ := Option.map_eq_some_iff.1 hh
        obtain ⟨d1, e1, hx1⟩ := (ih _ x hl2).1 hx
        refine ⟨d1 ++ d2, ?_, ?_⟩
        · rw [hraw, List.map_append, List.map_append, e1, e2]
        · rw [← hmul d1 d2 e1 e2, ← hxr, hx1, hw2]
      · rintro ⟨ds, e, hr⟩
        rw [hraw, List.map_append] at e
        obtain ⟨d1, d2', ed, e1, e2'⟩ := List.map_eq_append_iff.1 e.symm
        have : d2' = d2 := by
          have := e2'.trans e2
          exact List.map_injective_iff.2 (fun a b h => Option.some.inj h) this
        subst this
        refine Option.map_eq_some_iff.2 ⟨numeral d1, (ih _ _ hl2).2 ⟨d1, e1.symm, rfl⟩, ?_⟩
        rw [hr, ed, hw2, hmul d1 d2' e1.symm e2]

/-! ### The properties -/

/-- **A number has one spelling**, but for the case of letters: the one that is written. -/
theorem spells_iff (s : Bytes) (n : Nat) : Spells s n ↔ s.map lower = encodeUint64 n := by
  constructor
  · rintro ⟨x, cs, ds, e, hx, hn, hz, hv, hd⟩
    subst e
    have hlt := values_lt hv
    have hlow := (map_lower hlt).1 hv
    have hx' : lower x = 120 := (lower_120 x).2 hx
    show lower 48 :: lower x :: cs.map lower = 48 :: 120 :: hexNat n
    rw [hx', lower_facts.1, hlow]
    congr 2
    unfold hexNat
    by_cases h0 : cs.head? = some 48
    · rw [hz h0] at hv
      have : ds = [0] := by
        cases ds with
        | nil => cases hv
        | cons d ds =>
          cases ds with
          | nil =>
            have := (List.cons.inj hv).1
            rw [(value_zero 48).2 rfl] at this
            rw [← Option.some.inj this]
          | cons d' ds => cases (List.cons.inj hv).2
      rw [this] at hd ⊢
      rw [hd]; rfl
    · have hh : ds.head? ≠ some 0 := by
        intro q
        apply h0
        cases cs with
        | nil => exact absurd rfl hn
        | cons c cs =>
          cases ds with
          | nil => cases hv
          | cons d ds =>
            simp only [List.head?_cons, Option.some.injEq] at q ⊢
            have := (List.cons.inj hv).1
            rw [q] at this
            exact (value_zero c).1 this
      have hne : n ≠ 0 := by
        intro q
        have := digits_unique hlt hh
        rw [← hd, q] at this
        simp at this
        rw [this] at hv
        exact hn (by simpa using hv)
      rw [if_neg hne, hd, ← digits_unique hlt hh]
  · intro h
    match s, h with
    | [], h => cases h
    | [a], h => cases (List.cons.inj h).2
    | a :: x :: cs, h =>
      have h1 := (List.cons.inj h).1
      have h2 := (List.cons.inj (List.cons.inj h).2).1
      have h3 : cs.map lower = hexNat n := (List.cons.inj (List.cons.inj h).2).2
      rw [(lower_48 a).1 h1]
      unfold hexNat at h3
      by_cases h0 : n = 0
      · rw [if_pos h0] at h3
        have hc : cs = [48] := by
          cases cs with
          | nil => cases h3
          | cons c t =>
            have ht : t = [] := by simpa using (List.cons.inj h3).2
            rw [ht, (lower_48 c).1 (List.cons.inj h3).1]
        refine ⟨x, cs, [0], rfl, (lower_120 x).1 h2, by rw [hc]; simp, fun _ => hc, ?_, by rw [h0]; rfl⟩
        rw [hc]; decide
      · rw [if_neg h0] at h3
        have hv := (map_lower (digits_lt n)).2 h3
        refine ⟨x, cs, (Nat.digits 16 n).reverse, rfl, (lower_120 x).1 h2, ?_, ?_, hv, ?_⟩
        · intro q
          rw [q] at h3
          have : Nat.digits 16 n = [] := by simpa using h3.symm
          exact h0 (Nat.digits_eq_nil_iff_eq_zero.1 this)
        · intro q
          exfalso
          cases cs with
          | nil => cases q
          | cons c cs =>
            have hc : c = 48 := by simpa using q
            have hh := congrArg List.head? hv
            rw [List.map_cons, List.head?_cons, hc, (value_zero 48).2 rfl, List.head?_map, List.head?_reverse] at hh
            have hne : Nat.digits 16 n ≠ [] := fun e => h0 (Nat.digits_eq_nil_iff_eq_zero.1 e)
            rw [List.getLast?_eq_some_getLast hne] at hh
            have := Nat.getLast_digit_ne_zero 16 h0
            apply this
            simpa using hh.symm
        · rw [numeral_ofDigits, List.reverse_reverse, Nat.ofDigits_digits]

/-- A number below a power of sixteen has so many digits. -/
theorem spelled_length {s raw : Bytes} {ds : List Nat} (hc : checkNumber s = some raw) (hv : raw.map value = ds.map some) {k : Nat} (hk : 0 < k) :
    raw.length ≤ k ↔ numeral ds < 16 ^ k := by
  obtain ⟨x, e, hx, hn, hz⟩ := (checkNumber_iff s raw).1 hc
  have hlt := values_lt hv
  constructor
  · intro h
    refine lt_of_lt_of_le (numeral_lt hlt) ?_
    rw [← values_length hv]
    exact Nat.pow_le_pow_right (by norm_num) h
  · intro h
    by_cases h0 : raw.head? = some 48
    · rw [hz h0]; exact hk
    · have hh : ds.head? ≠ some 0 := by
        intro q
        apply h0
        cases raw with
        | nil => exact absurd rfl hn
        | cons c cs =>
          cases ds with
          | nil => cases hv
          | cons d ds =>
            simp only [List.head?_cons, Option.some.injEq] at q ⊢
            have := (List.cons.inj hv).1
            rw [q] at this
            exact (value_zero c).1 this
      have hu := congrArg List.length (digits_unique hlt hh)
      rw [values_length hv, hu, List.length_reverse]
      exact (Nat.digits_length_le_iff (by norm_num) _).2 h

/-- **Numbers of 64 bits**: a text is read exactly if it spells such a number. -/
theorem decodeUint64_iff (s : Bytes) (n : Nat) : decodeUint64 s = some n ↔ Spells s n ∧ n < 2 ^ 64 := by
  unfold decodeUint64
  rw [Option.bind_eq_some_iff, spells_iff_check]
  constructor
  · rintro ⟨raw, hc, hp⟩
    obtain ⟨ds, hv, hr, hlt⟩ := (parse_iff raw 0 n (by norm_num)).1 hp
    exact ⟨⟨raw, ds, hc, hv, hr⟩, hlt⟩
  · rintro ⟨⟨raw, ds, hc, hv, hr⟩, hlt⟩
    exact ⟨raw, hc, (parse_iff raw 0 n (by norm_num)).2 ⟨ds, hv, hr, hlt⟩⟩

theorem checkText_number (s raw : Bytes) : checkNumberText s = some raw ↔ (s = [] ∧ raw = []) ∨ checkNumber s = some raw := by
  unfold checkNumberText
  by_cases h : s.length = 0
  · have hs := List.length_eq_zero_iff.1 h
    rw [if_pos h, hs]
    constructor
    · intro e; exact Or.inl ⟨rfl, (Option.some.inj e).symm⟩
    · rintro (⟨_, e⟩ | e)
      · rw [e]
      · cases e
  · rw [if_neg h]
    constructor
    · exact Or.inr
    · rintro (⟨e, _⟩ | e)
      · rw [e] at h; exact absurd rfl h
      · exact e

/-- The same for a text in JSON, where the empty text is zero. -/
theorem uint64Text_iff (s : Bytes) (n : Nat) : uint64Text s = some n ↔ (s = [] ∧ n = 0) ∨ (Spells s n ∧ n < 2 ^ 64) := by
  unfold uint64Text
  rw [Option.bind_eq_some_iff, spells_iff_check]
  have key : ∀ (raw : Bytes) (ds : List Nat), checkNumber s = some raw → raw.map value = ds.map some → (raw.length ≤ 16 ↔ numeral ds < 2 ^ 64) := by
    intro raw ds hc hv
    rw [spelled_length hc hv (by norm_num)]; norm_num
  constructor
  · rintro ⟨raw, hc, hp⟩
    rcases (checkText_number s raw).1 hc with ⟨e1, e2⟩ | hc
    · subst e2
      exact Or.inl ⟨e1, (Option.some.inj hp).symm⟩
    · right
      by_cases hl : 16 < raw.length
      · rw [if_pos hl] at hp; cases hp
      · rw [if_neg hl] at hp
        obtain ⟨ds, hv, hr⟩ := (word16_iff (by omega) n).1 hp
        exact ⟨⟨raw, ds, hc, hv, hr⟩, by rw [hr]; exact (key raw ds hc hv).1 (by omega)⟩
  · rintro (⟨e1, e2⟩ | ⟨⟨raw, ds, hc, hv, hr⟩, hlt⟩)
    · exact ⟨[], (checkText_number s []).2 (Or.inl ⟨e1, rfl⟩), by rw [e2]; rfl⟩
    · have hl := (key raw ds hc hv).2 (by rw [← hr]; exact hlt)
      exact ⟨raw, (checkText_number s raw).2 (Or.inr hc), by rw [if_neg (by omega)]; exact (word16_iff hl n).2 ⟨ds, hv, hr⟩⟩

theorem bigRaw_iff {s raw : Bytes} (hc : checkNumber s = some raw) (n : Nat) : bigRaw raw = some n ↔ ∃ ds : List Nat, raw.map value = ds.map some ∧ n = numeral ds ∧ n < 2 ^ 256 := by
  have key : ∀ ds : List Nat, raw.map value = ds.map some → (raw.length ≤ 64 ↔ numeral ds < 2 ^ 256) := by
    intro ds hv
    rw [spelled_length hc hv (by norm_num)]; norm_num
  unfold bigRaw
  by_cases hl : 64 < raw.length
  · rw [if_pos hl]
    refine ⟨fun h => (by cases h), ?_⟩
    rintro ⟨ds, hv, hr, hlt⟩
    have := (key ds hv).2 (by rw [← hr]; exact hlt)
    omega
  · rw [if_neg hl, words_iff _ raw n (by omega)]
    constructor
    · rintro ⟨ds, hv, hr⟩; exact ⟨ds, hv, hr, by rw [hr]; exact (key ds hv).1 (by omega)⟩
    · rintro ⟨ds, hv, hr, _⟩; exact ⟨ds, hv, hr⟩

/-- **Numbers of 256 bits.** -/
theorem decodeBig_iff (s : Bytes) (n : Nat) : decodeBig s = some n ↔ Spells s n ∧ n < 2 ^ 256 := by
  unfold decodeBig
  rw [Option.bind_eq_some_iff, spells_iff_check]
  constructor
  · rintro ⟨raw, hc, hp⟩
    obtain ⟨ds, hv, hr, hlt⟩ := (bigRaw_iff hc n).1 hp
    exact ⟨⟨raw, ds, hc, hv, hr⟩, hlt⟩
  · rintro ⟨⟨raw, ds, hc, hv, hr⟩, hlt⟩
    exact ⟨raw, hc, (bigRaw_iff hc n).2 ⟨ds, hv, hr, hlt⟩⟩

theorem bigText_iff (s : Bytes) (n : Nat) : bigText s = some n ↔ (s = [] ∧ n = 0) ∨ (Spells s n ∧ n < 2 ^ 256) := by
  rw [← decodeBig_iff]
  unfold bigText decodeBig
  rw [Option.bind_eq_some_iff, Option.bind_eq_some_iff]
  constructor
  · rintro ⟨raw, hc, hp⟩
    rcases (checkText_number s raw).1 hc with ⟨e1, e2⟩ | hc
    · subst e2
      exact Or.inl ⟨e1, (Option.some.inj hp).symm⟩
    · exact Or.inr ⟨raw, hc, hp⟩
  · rintro (⟨e1, e2⟩ | ⟨raw, hc, hp⟩)
    · exact ⟨[], (checkText_number s []).2 (Or.inl ⟨e1, rfl⟩), by rw [e2]; rfl⟩
    · exact ⟨raw, (checkText_number s raw).2 (Or.inr hc), hp⟩

theorem lower_digit : ∀ d : Nat, d < 16 → lower (digit d) = digit d := by
  intro d hd
  have h : ∀ n : Fin 16, lower (digit n.1) = digit n.1 := by decide +kernel
  exact h ⟨d, hd⟩

/-- What is written is a spelling. -/
theorem spells_encode (n : Nat) : Spells (encodeUint64 n) n := by
  rw [spells_iff]
  show lower 48 :: lower 120 :: (hexNat n).map lower = 48 :: 120 :: hexNat n
  rw [lower_facts.1, lower_facts.2.1]
  congr 2
  unfold hexNat
  by_cases h : n = 0
  · rw [if_pos h]; decide
  · rw [if_neg h, List.map_map]
    refine List.map_congr_left ?_
    intro d hd
    exact lower_digit d (digits_lt n d hd)

theorem encodeBig_nonneg (n : Nat) : encodeBig n = encodeUint64 n := by
  unfold encodeBig encodeUint64 hexNat
  by_cases h : n = 0
  · subst h; rfl
  · rw [if_neg (by omega), if_neg (by omega), if_neg (by simpa using h), if_neg h]; simp

/-- **Numbers come back**, by both ways of reading. -/
theorem number_roundtrip (n : Nat) : (n < 2 ^ 64 → decodeUint64 (encodeUint64 n) = some n ∧ uint64Text (encodeUint64 n) = some n) ∧
    (n < 2 ^ 256 → decodeBig (encodeBig n) = some n ∧ bigText (encodeBig n) = some n) := by
  refine ⟨fun h => ⟨(decodeUint64_iff _ _).2 ⟨spells_encode n, h⟩, (uint64Text_iff _ _).2 (Or.inr ⟨spells_encode n, h⟩)⟩, fun h => ?_⟩
  rw [encodeBig_nonneg]
  exact ⟨(decodeBig_iff _ _).2 ⟨spells_encode n, h⟩, (bigText_iff _ _).2 (Or.inr ⟨spells_encode n, h⟩)⟩

/-- **A negative number is written with its sign**, which is said to be left out, and is not read back. -/
theorem negative_lost (n : Nat) : encodeBig (-(n + 1 : Nat)) = 45 :: encodeUint64 (n + 1) ∧ decodeBig (encodeBig (-(n + 1 : Nat))) = none ∧ bigText (encodeBig (-(n + 1 : Nat))) = none := by
  have e : encodeBig (-(n + 1 : Nat)) = 45 :: encodeUint64 (n + 1) := by
    unfold encodeBig encodeUint64
    rw [if_neg (by omega), if_pos (by omega), Int.natAbs_neg, Int.natAbs_natCast]; rfl
  have hno : ∀ k, ¬ Spells (45 :: encodeUint64 (n + 1)) k := by
    rintro k ⟨x, cs, ds, q, _⟩
    have := (List.cons.inj q).1
    exact absurd this (by decide)
  refine ⟨e, ?_, ?_⟩
  · rw [e, Option.eq_none_iff_forall_ne_some]
    intro k hk
    exact hno k ((decodeBig_iff _ _).1 hk).1
  · rw [e, Option.eq_none_iff_forall_ne_some]
    intro k hk
    rcases (bigText_iff _ _).1 hk with ⟨q, _⟩ | ⟨q, _⟩
    · cases q
    · exact hno k q

/-! ### Bytes -/

theorem prefixed_iff (s b : Bytes) : (has0x s = true ∧ (s.drop 2).map lower = encode b) ↔ s.map lower = encode0x b := by
  constructor
  · rintro ⟨h, h2⟩
    obtain ⟨x, cs, e, hx⟩ := (has0x_iff s).1 h
    subst e
    show lower 48 :: lower x :: cs.map lower = 48 :: 120 :: encode b
    rw [lower_facts.1, (lower_120 x).2 hx]
    congr 2
  · intro h
    match s, h with
    | [], h => cases h
    | [a], h => cases (List.cons.inj h).2
    | a :: x :: cs, h =>
      have h1 := (List.cons.inj h).1
      have h2 := (List.cons.inj (List.cons.inj h).2).1
      exact ⟨(has0x_iff _).2 ⟨x, cs, by rw [(lower_48 a).1 h1], (lower_120 x).1 h2⟩, (List.cons.inj (List.cons.inj h).2).2⟩

/-- **Bytes**: a text is read exactly if it is what is written for them, but for the case of letters. -/
theorem decode0x_iff (s b : Bytes) : decode0x s = some b ↔ s.map lower = encode0x b := by
  rw [← prefixed_iff, ← decode_iff]
  unfold decode0x
  by_cases h0 : s.length = 0
  · rw [if_pos h0, List.length_eq_zero_iff.1 h0]
    refine ⟨fun h => (by cases h), ?_⟩
    rintro ⟨h, _⟩; cases h
  · rw [if_neg h0]
    cases hp : has0x s with
    | true => simp
    | false => simp

theorem checkText_iff (want : Bool) (s raw : Bytes) : checkText want s = some raw ↔
    (s = [] ∧ raw = []) ∨ (s ≠ [] ∧ raw.length % 2 = 0 ∧ ((has0x s = true ∧ raw = s.drop 2) ∨ (has0x s = false ∧ want = false ∧ raw = s))) := by
  unfold checkText
  by_cases h0 : s.length = 0
  · rw [if_pos h0, List.length_eq_zero_iff.1 h0]
    constructor
    · intro h; exact Or.inl ⟨rfl, (Option.some.inj h).symm⟩
    · rintro (⟨_, e⟩ | ⟨e, _⟩)
      · rw [e]
      · exact absurd rfl e
  · have hne : s ≠ [] := fun e => h0 (by rw [e]; rfl)
    rw [if_neg h0]
    cases hp : has0x s with
    | true =>
      rw [if_pos rfl]
      by_cases hm : (s.drop 2).length % 2 ≠ 0
      · rw [if_pos hm]
        refine ⟨fun h => (by cases h), ?_⟩
        rintro (⟨e, _⟩ | ⟨_, hr, ⟨_, e⟩ | ⟨e, _⟩⟩)
        · exact absurd e hne
        · rw [e] at hr; exact absurd hr hm
        · cases e
      · rw [if_neg hm]
        constructor
        · intro h
          have e := Option.some.inj h
          exact Or.inr ⟨hne, by rw [← e]; omega, Or.inl ⟨rfl, e.symm⟩⟩
        · rintro (⟨e, _⟩ | ⟨_, hr, ⟨_, e⟩ | ⟨e, _⟩⟩)
          · exact absurd e hne
          · rw [e]
          · cases e
    | false =>
      rw [if_neg (by simp)]
      cases want with
      | true =>
        rw [if_pos rfl]
        refine ⟨fun h => (by cases h), ?_⟩
        rintro (⟨e, _⟩ | ⟨_, hr, ⟨e, _⟩ | ⟨_, e, _⟩⟩)
        · exact absurd e hne
        · cases e
        · cases e
      | false =>
        rw [if_neg (by simp)]
        by_cases hm : s.length % 2 ≠ 0
        · rw [if_pos hm]
          refine ⟨fun h => (by cases h), ?_⟩
          rintro (⟨e, _⟩ | ⟨_, hr, ⟨e, _⟩ | ⟨_, _, e⟩⟩)
          · exact absurd e hne
          · cases e
          · rw [e] at hr; exact absurd hr hm
        · rw [if_neg hm]
          constructor
          · intro h
            have e := Option.some.inj h
            exact Or.inr ⟨hne, by rw [← e]; omega, Or.inr ⟨rfl, rfl, e.symm⟩⟩
          · rintro (⟨e, _⟩ | ⟨_, hr, ⟨e, _⟩ | ⟨_, _, e⟩⟩)
            · exact absurd e hne
            · cases e
            · rw [e]

/-- In JSON the empty text stands for no bytes. -/
theorem bytesText_iff (s b : Bytes) : bytesText s = some b ↔ (s = [] ∧ b = []) ∨ s.map lower = encode0x b := by
  unfold bytesText
  rw [Option.bind_eq_some_iff, ← prefixed_iff]
  constructor
  · rintro ⟨raw, hc, hd⟩
    rcases (checkText_iff true s raw).1 hc with ⟨e1, e2⟩ | ⟨_, _, ⟨hp, e⟩ | ⟨_, e, _⟩⟩
    · rw [e2] at hd
      exact Or.inl ⟨e1, (Option.some.inj hd).symm⟩
    · rw [e] at hd
      exact Or.inr ⟨hp, (decode_iff _ _).1 hd⟩
    · cases e
  · rintro (⟨e1, e2⟩ | ⟨hp, hd⟩)
    · exact ⟨[], (checkText_iff true s []).2 (Or.inl ⟨e1, rfl⟩), by rw [e2]; rfl⟩
    · have hd' := (decode_iff _ _).2 hd
      refine ⟨s.drop 2, (checkText_iff true s _).2 (Or.inr ⟨?_, ?_, Or.inl ⟨hp, rfl⟩⟩), hd'⟩
      · intro e; rw [e] at hp; cases hp
      · rw [decode_length hd']; omega

theorem decode_all {raw : Bytes} {b : Bytes} (h : decode raw = some b) : raw.any (fun c => (value c).isNone) = false := by
  revert b
  fun_induction decode raw with
  | case1 => intro b _; rfl
  | case2 c => intro b h; cases h
  | case3 p q l a b' r ha hb hr ih =>
    intro b _
    rw [List.any_cons, List.any_cons, hr, hb, ih ha]; rfl
  | case4 => intro b h; cases h

/-- Bytes of a fixed number, with the prefix. -/
theorem fixedText_iff (n : Nat) (s b : Bytes) : fixedText true n s = some b ↔ b.length = n ∧ ((s = [] ∧ b = []) ∨ s.map lower = encode0x b) := by
  rw [← bytesText_iff]
  unfold fixedText bytesText
  rw [Option.bind_eq_some_iff, Option.bind_eq_some_iff]
  constructor
  · rintro ⟨raw, hc, hd⟩
    by_cases h1 : raw.length / 2 ≠ n
    · rw [if_pos h1] at hd; cases hd
    · rw [if_neg h1] at hd
      by_cases h2 : raw.any (fun c => (value c).isNone) = true
      · rw [if_pos h2] at hd; cases hd
      · rw [if_neg h2] at hd
        have := decode_length hd
        exact ⟨by omega, raw, hc, hd⟩
  · rintro ⟨hl, raw, hc, hd⟩
    have := decode_length hd
    refine ⟨raw, hc, ?_⟩
    rw [if_neg (by omega), if_neg (by rw [decode_all hd]; simp)]
    exact hd

/-- Bytes of a fixed number, with or without the prefix. -/
theorem fixedUnprefixed_iff (n : Nat) (s b : Bytes) : fixedText false n s = some b ↔ b.length = n ∧ (s.map lower = encode0x b ∨ s.map lower = encode b) := by
  have hx : ∀ {b : Bytes}, decode s = some b → has0x s = false := by
    intro b hd
    rw [Bool.eq_false_iff]
    intro h
    obtain ⟨x, cs, e, hx⟩ := (has0x_iff s).1 h
    have := decode_all hd
    rw [e, List.any_cons, List.any_cons] at this
    rcases hx with hx | hx
    · rw [hx] at this; simp [value] at this
    · rw [hx] at this; simp [value] at this
  unfold fixedText
  rw [Option.bind_eq_some_iff, ← prefixed_iff, ← decode_iff, ← decode_iff]
  constructor
  · rintro ⟨raw, hc, hd⟩
    by_cases h1 : raw.length / 2 ≠ n
    · rw [if_pos h1] at hd; cases hd
    · rw [if_neg h1] at hd
      by_cases h2 : raw.any (fun c => (value c).isNone) = true
      · rw [if_pos h2] at hd; cases hd
      · rw [if_neg h2] at hd
        have := decode_length hd
        refine ⟨by omega, ?_⟩
        rcases (checkText_iff false s raw).1 hc with ⟨e1, e2⟩ | ⟨_, _, ⟨hp, e⟩ | ⟨_, _, e⟩⟩
        · rw [e1]; rw [e2] at hd; exact Or.inr hd
        · rw [e] at hd; exact Or.inl ⟨hp, hd⟩
        · rw [e] at hd; exact Or.inr hd
  · rintro ⟨hl, ⟨hp, hd⟩ | hd⟩
    · have := decode_length hd
      refine ⟨s.drop 2, (checkText_iff false s _).2 (Or.inr ⟨?_, by omega, Or.inl ⟨hp, rfl⟩⟩), ?_⟩
      · intro e; rw [e] at hp; cases hp
      · rw [if_neg (by omega), if_neg (by rw [decode_all hd]; simp)]
        exact hd
    · have := decode_length hd
      refine ⟨s, ?_, ?_⟩
      · by_cases h0 : s = []
        · exact (checkText_iff false s _).2 (Or.inl ⟨h0, h0⟩)
        · exact (checkText_iff false s _).2 (Or.inr ⟨h0, by omega, Or.inr ⟨hx hd, rfl, rfl⟩⟩)
      · rw [if_neg (by omega), if_neg (by rw [decode_all hd]; simp)]
        exact hd

/-- **Bytes come back.** -/
theorem bytes0x_roundtrip (b : Bytes) : decode0x (encode0x b) = some b ∧ bytesText (encode0x b) = some b ∧ fixedText true b.length (encode0x b) = some b := by
  have h : (encode0x b).map lower = encode0x b := by
    show lower 48 :: lower 120 :: (encode b).map lower = _
    rw [lower_facts.1, lower_facts.2.1, (decode_iff (encode b) b).1 (decode_encode b)]; rfl
  exact ⟨(decode0x_iff _ _).2 h, (bytesText_iff _ _).2 (Or.inr h), (fixedText_iff _ _ _).2 ⟨rfl, Or.inr h⟩⟩

/-! ### Examples -/

/-- `0x1aB` is 427; `0x01`, `0x`, `1a` and `0xg` are refused, the empty text is zero only in JSON. -/
example : decodeUint64 [48, 120, 49, 97, 66] = some 427 ∧ decodeBig [48, 88, 49, 97, 66] = some 427 ∧ decodeUint64 [48, 120, 48, 49] = none ∧ decodeUint64 [48, 120] = none ∧
    decodeUint64 [49, 97] = none ∧ decodeBig [48, 120, 103] = none ∧ decodeBig [] = none ∧ bigText [] = some 0 := by decide +kernel

/-- Seventeen digits are too many for 64 bits, and well for 256. -/
example : decodeUint64 (encodeUint64 (2 ^ 64)) = none ∧ uint64Text (encodeUint64 (2 ^ 64)) = none ∧ decodeBig (encodeBig (2 ^ 64)) = some (2 ^ 64) ∧
    uint64Text (encodeUint64 (2 ^ 64 - 1)) = some (2 ^ 64 - 1) := by decide +kernel

end Verif.Text
