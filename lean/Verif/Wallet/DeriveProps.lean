import Verif.Wallet.DeriveSpec

/-!
# Derivation of keys

C113: a path is accepted exactly when it is well formed and its numbers are
below 2^31, and leads to the key that the children give; the account of an
index; the search for an address.
-/

namespace Verif.Wallet
open Verif.Bytes

/-- The part of a path after the `m`. -/
def flat (segs : List (List Char)) : List Char := segs.flatMap fun s => '/' :: s ++ ['\'']

theorem flat_cons (s : List Char) (segs : List (List Char)) :
    flat (s :: segs) = '/' :: (s ++ '\'' :: flat segs) := by simp [flat]

def Digits (s : List Char) : Prop := ∀ c ∈ s, isDigit c = true
def Segs (segs : List (List Char)) : Prop := ∀ s ∈ segs, s ≠ [] ∧ Digits s

theorem not_digit_slash : isDigit '/' = false := by decide
theorem not_digit_quote : isDigit '\'' = false := by decide

theorem accepts_iff (cs : List Char) :
    (accepts 1 cs = true ↔ ∃ s segs, s ≠ [] ∧ Digits s ∧ Segs segs ∧ cs = s ++ '\'' :: flat segs)
    ∧ (accepts 2 cs = true ↔ ∃ s segs, Digits s ∧ Segs segs ∧ cs = s ++ '\'' :: flat segs)
    ∧ (accepts 3 cs = true ↔ ∃ segs, Segs segs ∧ cs = flat segs) := by
  induction cs with
  | nil =>
    refine ⟨?_, ?_, ?_⟩
    · simp [accepts]
    · simp [accepts]
    · simp only [accepts, true_iff]; exact ⟨[], by simp [Segs], rfl⟩
  | cons c cs ih =>
    obtain ⟨ih1, ih2, ih3⟩ := ih
    refine ⟨?_, ?_, ?_⟩
    · simp only [accepts, Bool.and_eq_true, ih2]
      constructor
      · rintro ⟨hc, s, segs, h1, h2, rfl⟩
        exact ⟨c :: s, segs, by simp, by simpa [Digits, hc] using h1, h2, by simp⟩
      · rintro ⟨s, segs, hne, h1, h2, h3⟩
        cases s with
        | nil => exact absurd rfl hne
        | cons d s =>
          simp only [List.cons_append, List.cons.injEq] at h3
          obtain ⟨rfl, rfl⟩ := h3
          exact ⟨h1 c (by simp), s, segs, fun x hx => h1 x (by simp [hx]), h2, rfl⟩
    · cases hd : isDigit c with
      | true =>
        simp only [accepts, hd, if_true, ih2]
        constructor
        · rintro ⟨s, segs, h1, h2, rfl⟩
          exact ⟨c :: s, segs, by simpa [Digits, hd] using h1, h2, by simp⟩
        · rintro ⟨s, segs, h1, h2, h3⟩
          cases s with
          | nil =>
            simp only [List.nil_append, List.cons.injEq] at h3
            rw [h3.1, not_digit_quote] at hd; cases hd
          | cons d s =>
            simp only [List.cons_append, List.cons.injEq] at h3
            exact ⟨s, segs, fun x hx => h1 x (by simp [hx]), h2, h3.2⟩
      | false =>
        simp only [accepts, hd, Bool.false_eq_true, if_false, Bool.and_eq_true, beq_iff_eq, ih3]
        constructor
        · rintro ⟨rfl, segs, h2, rfl⟩
          exact ⟨[], segs, by simp [Digits], h2, rfl⟩
        · rintro ⟨s, segs, h1, h2, h3⟩
          cases s with
          | nil =>
            simp only [List.nil_append, List.cons.injEq] at h3
            exact ⟨h3.1, segs, h2, h3.2⟩
          | cons d s =>
            simp only [List.cons_append, List.cons.injEq] at h3
            have := h1 d (by simp)
            rw [← h3.1, hd] at this; cases this
    · simp only [accepts, Bool.and_eq_true, beq_iff_eq, ih1]
      constructor
      · rintro ⟨rfl, s, segs, hne, h1, h2, rfl⟩
        refine ⟨s :: segs, ?_, (flat_cons s segs).symm⟩
        intro x hx
        rcases List.mem_cons.1 hx with rfl | hx
        · exact ⟨hne, h1⟩
        · exact h2 x hx
      · rintro ⟨segs, h1, h2⟩
        cases segs with
        | nil => cases h2
        | cons s segs =>
          rw [flat_cons, List.cons.injEq] at h2
          exact ⟨h2.1, s, segs, (h1 s (by simp)).1, (h1 s (by simp)).2, fun x hx => h1 x (by simp [hx]), h2.2⟩

theorem matchesPath_iff (p : List Char) :
    matchesPath p = true ↔ ∃ segs, segs ≠ [] ∧ Segs segs ∧ p = pathText segs := by
  cases p with
  | nil => simp [matchesPath, pathText]
  | cons c cs =>
    simp only [matchesPath, Bool.and_eq_true, beq_iff_eq]
    constructor
    · rintro ⟨rfl, h⟩
      cases cs with
      | nil => cases h
      | cons d cs =>
        simp only [accepts, Bool.and_eq_true, beq_iff_eq, (accepts_iff cs).1] at h
        obtain ⟨rfl, s, segs, hne, h1, h2, rfl⟩ := h
        refine ⟨s :: segs, by simp, ?_, by rw [pathText]; exact congrArg _ (flat_cons s segs).symm⟩
        intro x hx
        rcases List.mem_cons.1 hx with rfl | hx
        · exact ⟨hne, h1⟩
        · exact h2 x hx
    · rintro ⟨segs, hne, h1, h2⟩
      cases segs with
      | nil => exact absurd rfl hne
      | cons s segs =>
        have h2' : c :: cs = 'm' :: flat (s :: segs) := h2
        rw [flat_cons, List.cons.injEq] at h2'
        obtain ⟨rfl, rfl⟩ := h2'
        refine ⟨rfl, ?_⟩
        simp only [accepts, Bool.and_eq_true, beq_iff_eq, (accepts_iff _).1, true_and]
        exact ⟨s, segs, (h1 s (by simp)).1, (h1 s (by simp)).2, fun x hx => h1 x (by simp [hx]), rfl⟩

theorem splitSlash_ne (cs : List Char) : splitSlash cs ≠ [] := by
  cases cs with
  | nil => simp [splitSlash]
  | cons c cs => simp only [splitSlash]; split <;> [simp; (split <;> simp)]

theorem splitSlash_app (s rest : List Char) (h : ∀ c ∈ s, c ≠ '/') :
    splitSlash (s ++ '/' :: rest) = s :: splitSlash rest := by
  induction s with
  | nil => simp [splitSlash]
  | cons c s ih =>
    simp only [List.cons_append, splitSlash, if_neg (h c (by simp)), ih (fun x hx => h x (by simp [hx]))]

theorem splitSlash_none (s : List Char) (h : ∀ c ∈ s, c ≠ '/') : splitSlash s = [s] := by
  induction s with
  | nil => rfl
  | cons c s ih =>
    simp only [splitSlash, if_neg (h c (by simp)), ih (fun x hx => h x (by simp [hx]))]

theorem digits_noslash {s : List Char} (h : Digits s) : ∀ c ∈ s, c ≠ '/' := by
  intro c hc he; have := h c hc; rw [he, not_digit_slash] at this; cases this

theorem splitSlash_flat (segs : List (List Char)) (h : Segs segs) :
    ∀ t : List Char, (∀ c ∈ t, c ≠ '/') → splitSlash (t ++ flat segs) = t :: segs.map (· ++ ['\'']) := by
  induction segs with
  | nil => intro t ht; simpa [flat] using splitSlash_none t ht
  | cons s segs ih =>
    intro t ht
    rw [flat_cons, splitSlash_app _ _ ht]
    have hs : ∀ c ∈ s ++ ['\''], c ≠ '/' := by
      intro c hc
      rcases List.mem_append.1 hc with hc | hc
      · exact digits_noslash (h s (by simp)).2 c hc
      · simp only [List.mem_singleton] at hc; subst hc; decide
    have := ih (fun x hx => h x (by simp [hx])) (s ++ ['\'']) hs
    rw [List.append_assoc] at this
    simp only [List.cons_append, List.nil_append] at this
    rw [this]; rfl

theorem splitSlash_path (segs : List (List Char)) (h : Segs segs) :
    (splitSlash (pathText segs)).tail = segs.map (· ++ ['\'']) := by
  have := splitSlash_flat segs h ['m'] (by simp)
  have h2 : pathText segs = ['m'] ++ flat segs := rfl
  rw [h2, this]; rfl

theorem trimQuote_seg (s : List Char) (h : Digits s) : trimQuote (s ++ ['\'']) = s := by
  have : ∀ l : List Char, Digits l → l.dropWhile (· == '\'') = l := by
    intro l hl
    cases l with
    | nil => rfl
    | cons c l =>
      have hc : (c == '\'') = false := by
        cases hb : (c == '\'') with
        | false => rfl
        | true =>
          have h1 := hl c (by simp)
          rw [beq_iff_eq.1 hb, not_digit_quote] at h1; cases h1
      simp [List.dropWhile, hc]
  have hr : Digits s.reverse := fun c hc => h c (by simpa using hc)
  simp [trimQuote, this _ hr]

theorem fold_ge (l : List Char) (m : Nat) : m ≤ l.foldl (fun n c => n * 10 + (c.toNat - 48)) m := by
  induction l generalizing m with
  | nil => exact Nat.le_refl _
  | cons d l ihl =>
    refine Nat.le_trans ?_ (ihl _)
    show m ≤ m * 10 + (d.toNat - 48)
    omega

theorem parseLoop_digits (s : List Char) (h : Digits s) (n : Nat) (hn : n < 2 ^ 32) :
    parseLoop n s = if s.foldl (fun n c => n * 10 + (c.toNat - 48)) n < 2 ^ 32 then
      some (s.foldl (fun n c => n * 10 + (c.toNat - 48)) n) else none := by
  induction s generalizing n with
  | nil => rw [parseLoop, List.foldl_nil, if_pos hn]
  | cons c s ih =>
    rw [parseLoop, if_neg (by rw [h c (by simp)]; decide), List.foldl_cons]
    have := fold_ge s (n * 10 + (c.toNat - 48))
    by_cases hb : 2 ^ 32 ≤ n * 10 + (c.toNat - 48)
    · rw [if_pos hb, if_neg (by omega)]
    · rw [if_neg hb, ih (fun x hx => h x (by simp [hx])) _ (by omega)]

theorem parseUint_digits (s : List Char) (hne : s ≠ []) (h : Digits s) :
    parseUint s = if number s < 2 ^ 32 then some (number s) else none := by
  rw [parseUint, if_neg hne, parseLoop_digits s h 0 (by decide)]
  rfl

theorem isValidPath_iff (p : List Char) :
    isValidPath p = true ↔ ∃ segs, segs ≠ [] ∧ Segs segs ∧ (∀ s ∈ segs, number s < 2 ^ 32) ∧ p = pathText segs := by
  simp only [isValidPath, Bool.and_eq_true, matchesPath_iff]
  constructor
  · rintro ⟨⟨segs, hne, h1, rfl⟩, h2⟩
    refine ⟨segs, hne, h1, ?_, rfl⟩
    intro s hs
    rw [splitSlash_path segs h1, List.all_eq_true] at h2
    have := h2 (s ++ ['\'']) (List.mem_map.2 ⟨s, hs, rfl⟩)
    rw [trimQuote_seg s (h1 s hs).2, parseUint_digits s (h1 s hs).1 (h1 s hs).2] at this
    by_contra hc
    rw [if_neg hc] at this; cases this
  · rintro ⟨segs, hne, h1, h2, rfl⟩
    refine ⟨⟨segs, hne, h1, rfl⟩, ?_⟩
    rw [splitSlash_path segs h1, List.all_eq_true]
    intro x hx
    obtain ⟨s, hs, rfl⟩ := List.mem_map.1 hx
    rw [trimQuote_seg s (h1 s hs).2, parseUint_digits s (h1 s hs).1 (h1 s hs).2, if_pos (h2 s hs)]; rfl

theorem be32_eq (n : Nat) : be32 n = fourBytes n := by
  simp only [be32, fourBytes, List.map_cons, List.map_nil, Nat.div_div_eq_div_mul]; rfl

theorem master_eq (L : Lib) (seed : Bytes) : newMasterKey L seed = master L seed := by
  have : seedModifier = seedText := by decide
  rw [newMasterKey, master, this]; rfl

theorem derive_small (L : Lib) (k : Key) (n : Nat) (h : n < 2 ^ 31) : k.derive L (harden n) = some (child L k n) := by
  have e : harden n = 2 ^ 31 + n := by unfold harden; omega
  have h2 : ¬ (2 ^ 31 + n < 2 ^ 31) := by omega
  unfold Key.derive child
  rw [e, be32_eq]
  exact if_neg h2

theorem derive_large (L : Lib) (k : Key) (n : Nat) (h1 : ¬ n < 2 ^ 31) (h2 : n < 2 ^ 32) :
    k.derive L (harden n) = none := by
  have e : harden n < 2 ^ 31 := by unfold harden; omega
  unfold Key.derive
  exact if_pos e

theorem deriveLoop_iff (L : Lib) (segs : List (List Char)) (h : Segs segs) (k r : Key) :
    deriveLoop L (segs.map (· ++ ['\''])) k = some r ↔
      (∀ s ∈ segs, number s < 2 ^ 31) ∧ r = (segs.map number).foldl (child L) k := by
  induction segs generalizing k with
  | nil =>
    simp only [List.map_nil, deriveLoop, Option.some.injEq, List.not_mem_nil, false_imp_iff, implies_true, true_and,
      List.foldl_nil]
    exact eq_comm
  | cons s segs ih =>
    have hs := h s (by simp)
    have ih' := ih (fun x hx => h x (List.mem_cons_of_mem _ hx))
    rw [List.map_cons, List.map_cons, deriveLoop, trimQuote_seg s hs.2, parseUint_digits s hs.1 hs.2, List.foldl_cons,
      List.forall_mem_cons]
    by_cases h32 : number s < 2 ^ 32
    · rw [if_pos h32, Option.bind_some]
      by_cases h31 : number s < 2 ^ 31
      · rw [derive_small L k _ h31, Option.bind_some, ih']
        exact ⟨fun ⟨x, y⟩ => ⟨⟨h31, x⟩, y⟩, fun ⟨⟨_, x⟩, y⟩ => ⟨x, y⟩⟩
      · rw [derive_large L k _ h31 h32, Option.bind_none]
        exact ⟨fun x => absurd x (by simp), fun ⟨⟨x, _⟩, _⟩ => absurd x h31⟩
    · have h31 : ¬ number s < 2 ^ 31 := by omega
      rw [if_neg h32, Option.bind_none]
      exact ⟨fun x => absurd x (by simp), fun ⟨⟨x, _⟩, _⟩ => absurd x h31⟩

/-- **C113 (paths).** A key is given for a path exactly if the path is `m`
followed by one or more numbers below 2^31, each between a slash and a quote;
and it is the key that the children with these numbers lead to. -/
theorem derive_path (L : Lib) (p : List Char) (seed : Bytes) (k : Key) :
    deriveForPath L p seed = some k ↔
      ∃ segs, segs ≠ [] ∧ (∀ s ∈ segs, GoodNumber s) ∧ p = pathText segs
        ∧ k = keyAt L seed (segs.map number) := by
  rw [deriveForPath, master_eq]
  constructor
  · intro h
    split at h
    · cases h
    · rename_i hv
      obtain ⟨segs, hne, h1, h2, rfl⟩ := (isValidPath_iff p).1 (by simpa using hv)
      rw [splitSlash_path segs h1, deriveLoop_iff L segs h1] at h
      exact ⟨segs, hne, fun s hs => ⟨(h1 s hs).1, (h1 s hs).2, h.1 s hs⟩, rfl, h.2⟩
  · rintro ⟨segs, hne, h1, rfl, rfl⟩
    have hs : Segs segs := fun s hs => ⟨(h1 s hs).1, (h1 s hs).2.1⟩
    have hv : isValidPath (pathText segs) = true :=
      (isValidPath_iff _).2 ⟨segs, hne, hs, fun s hs => by have := (h1 s hs).2.2; omega, rfl⟩
    rw [if_neg (by rw [hv]; decide), splitSlash_path segs hs, deriveLoop_iff L segs hs]
    exact ⟨fun s hs => (h1 s hs).2.2, rfl⟩

theorem digitChar_all : ∀ n : Fin 10, isDigit (digitChar n.1) = true ∧ (digitChar n.1).toNat - 48 = n.1 := by
  decide

theorem decimal_digits (fuel n : Nat) : Digits (decimalLoop fuel n) := by
  induction fuel generalizing n with
  | zero => simp [Digits, decimalLoop]
  | succ f ih =>
    simp only [decimalLoop]
    split
    · rename_i h
      intro c hc
      simp only [List.mem_singleton] at hc; subst hc
      exact (digitChar_all ⟨n, h⟩).1
    · intro c hc
      rcases List.mem_append.1 hc with hc | hc
      · exact ih _ c hc
      · simp only [List.mem_singleton] at hc; subst hc
        exact (digitChar_all ⟨n % 10, Nat.mod_lt _ (by decide)⟩).1

theorem decimal_number (fuel n : Nat) (h : n < 10 ^ fuel) : number (decimalLoop fuel n) = n := by
  induction fuel generalizing n with
  | zero => have : n = 0 := by simpa using h
            subst this; rfl
  | succ f ih =>
    simp only [decimalLoop]
    split
    · rename_i hn
      have := (digitChar_all ⟨n, hn⟩).2
      simpa [number] using this
    · have h1 := ih (n / 10) (by rw [Nat.pow_succ] at h; omega)
      have h2 := (digitChar_all ⟨n % 10, Nat.mod_lt _ (by decide)⟩).2
      simp only [number] at h1
      simp only [number, List.foldl_append, h1, List.foldl_cons, List.foldl_nil]
      simp only at h2
      omega

theorem decimal_ne (fuel n : Nat) : decimalLoop (fuel + 1) n ≠ [] := by
  simp only [decimalLoop]; split <;> simp

theorem number_44 : number ['4', '4'] = 44 := by
  simp [number]

theorem number_666666 : number ['6', '6', '6', '6', '6', '6'] = 666666 := by
  simp [number]

theorem indexPath_text (i : Nat) : indexPath i = pathText [['4', '4'], ['6', '6', '6', '6', '6', '6'], decimalLoop 10 i] := by
  simp only [indexPath, pathText, List.flatMap_cons, List.flatMap_nil, List.cons_append, List.nil_append, List.append_nil]

theorem pathText_inj (a b : List (List Char)) (ha : Segs a) (hb : Segs b) (h : pathText a = pathText b) : a = b := by
  have h1 := splitSlash_path a ha
  rw [h, splitSlash_path b hb] at h1
  have hinj : Function.Injective (fun s : List Char => s ++ ['\'']) := fun x y hxy => by simpa using hxy
  exact (List.map_injective_iff.2 hinj h1).symm

theorem segs_index (i : Nat) : Segs [['4', '4'], ['6', '6', '6', '6', '6', '6'], decimalLoop 10 i] := by
  intro s hs
  simp only [List.mem_cons, List.not_mem_nil, or_false] at hs
  rcases hs with rfl | rfl | rfl
  · exact ⟨by decide, by simp [Digits, isDigit]⟩
  · exact ⟨by decide, by simp [Digits, isDigit]⟩
  · exact ⟨decimal_ne 9 i, decimal_digits 10 i⟩

/-- **C113 (accounts).** The account with an index is there for the indices
below 2^31, and for no other. -/
theorem derive_index (L : Lib) (i : Nat) (hi : i < 2 ^ 32) (seed : Bytes) :
    deriveWithIndex L i seed = if i < 2 ^ 31 then some (account L seed i) else none := by
  have hn : number (decimalLoop 10 i) = i := decimal_number 10 i (by omega)
  have key : ∀ k, deriveWithIndex L i seed = some k ↔ i < 2 ^ 31 ∧ k = account L seed i := by
    intro k
    rw [deriveWithIndex, derive_path]
    constructor
    · rintro ⟨segs, hne, h1, h2, rfl⟩
      have := pathText_inj _ segs (segs_index i) (fun s hs => ⟨(h1 s hs).1, (h1 s hs).2.1⟩)
        ((indexPath_text i).symm.trans h2)
      subst this
      have := (h1 (decimalLoop 10 i) (by simp)).2.2
      rw [hn] at this
      refine ⟨this, ?_⟩
      simp only [account, List.map_cons, List.map_nil, hn, number_44, number_666666]
    · rintro ⟨hlt, rfl⟩
      refine ⟨_, by simp, ?_, indexPath_text i, ?_⟩
      · intro s hs
        refine ⟨(segs_index i s hs).1, (segs_index i s hs).2, ?_⟩
        simp only [List.mem_cons, List.not_mem_nil, or_false] at hs
        rcases hs with rfl | rfl | rfl
        · rw [number_44]; decide
        · rw [number_666666]; decide
        · rw [hn]; exact hlt
      · simp only [account, List.map_cons, List.map_nil, hn, number_44, number_666666]
  by_cases h : i < 2 ^ 31
  · rw [if_pos h]; exact (key _).2 ⟨h, rfl⟩
  · rw [if_neg h]
    cases hc : deriveWithIndex L i seed with
    | none => rfl
    | some k => exact absurd ((key k).1 hc).1 h

/-- **C113 (different indices).** Different indices have different paths. -/
theorem index_paths_differ (i j : Nat) (hi : i < 2 ^ 32) (hj : j < 2 ^ 32) (h : indexPath i = indexPath j) : i = j := by
  rw [indexPath_text, indexPath_text] at h
  have := pathText_inj _ _ (segs_index i) (segs_index j) h
  simp only [List.cons.injEq, and_true, true_and] at this
  rw [← decimal_number 10 i (by omega), ← decimal_number 10 j (by omega), this]

/-- A path may have zeros in front: the text is not unique. -/
theorem leading_zeros (L : Lib) (seed : Bytes) :
    deriveForPath L (pathText [['4', '4'], ['6', '6', '6', '6', '6', '6'], ['0', '0', '7']]) seed
      = deriveForPath L (pathText [['4', '4'], ['6', '6', '6', '6', '6', '6'], ['7']]) seed := by
  have h : ∀ s : List Char, GoodNumber s → number s = 7 →
      deriveForPath L (pathText [['4', '4'], ['6', '6', '6', '6', '6', '6'], s]) seed = some (keyAt L seed [44, 666666, 7]) := by
    intro s hs h7
    rw [derive_path]
    refine ⟨_, by simp, ?_, rfl, ?_⟩
    · intro x hx
      simp only [List.mem_cons, List.not_mem_nil, or_false] at hx
      rcases hx with rfl | rfl | rfl
      · exact ⟨by decide, by decide, by rw [number_44]; decide⟩
      · exact ⟨by decide, by decide, by rw [number_666666]; decide⟩
      · exact hs
    · simp only [List.map_cons, List.map_nil, h7, number_44, number_666666]
  exact (h ['0', '0', '7'] ⟨by decide, by decide, by decide⟩ (by decide)).trans
    (h ['7'] ⟨by decide, by decide, by decide⟩ (by decide)).symm

theorem findLoop_spec (L : Lib) (seed a : Bytes) (left i : Nat) (h : i + left ≤ 2 ^ 31) :
    findLoop L seed a left i =
      match (List.range' i left).find? fun j => a = (account L seed j).address L with
      | some j => .ok (account L seed j, j)
      | none => .notFound := by
  induction left generalizing i with
  | zero => rfl
  | succ n ih =>
    rw [findLoop, derive_index L i (by omega) seed, if_pos (by omega), List.range'_succ, List.find?_cons]
    simp only
    by_cases he : a = (account L seed i).address L
    · simp [he]
    · simp only [he, if_false, decide_false]
      exact ih (i + 1) (by omega)

/-- **C113 (the search).** An address is found exactly if it is the address of
an account with an index below the limit; the first such account is given. -/
theorem find_address (L : Lib) (seed a : Bytes) (max : Nat) (h : max ≤ 2 ^ 31) (k : Key) (i : Nat) :
    findAddrFromSeed L seed a max = .ok (k, i) ↔
      i < max ∧ k = account L seed i ∧ k.address L = a ∧ ∀ j < i, (account L seed j).address L ≠ a := by
  rw [findAddrFromSeed, findLoop_spec L seed a max 0 (by omega), ← List.range_eq_range']
  constructor
  · intro hf
    cases hfi : (List.range max).find? fun j => a = (account L seed j).address L with
    | none => rw [hfi] at hf; cases hf
    | some j =>
      rw [hfi] at hf
      simp only [Res.ok.injEq, Prod.mk.injEq] at hf
      obtain ⟨rfl, rfl⟩ := hf
      have hp := List.find?_some hfi
      rw [List.find?_range_eq_some] at hfi
      obtain ⟨h1, h2, h3⟩ := hfi
      refine ⟨by simpa using h2, rfl, (by simpa using h1 : a = _).symm, ?_⟩
      intro j' hj' he
      have := h3 j' hj'
      rw [he] at this
      simp at this
  · rintro ⟨h1, rfl, h2, h3⟩
    have : ((List.range max).find? fun j => a = (account L seed j).address L) = some i := by
      rw [List.find?_range_eq_some]
      refine ⟨by simpa using h2.symm, by simpa using h1, ?_⟩
      intro j hj
      have := h3 j hj
      simpa using fun he : a = _ => this he.symm
    rw [this]

/-- **C113 (the search fails).** It says "not found" exactly if no account below
the limit has the address. -/
theorem find_address_none (L : Lib) (seed a : Bytes) (max : Nat) (h : max ≤ 2 ^ 31) :
    findAddrFromSeed L seed a max = .notFound ↔ ∀ i < max, (account L seed i).address L ≠ a := by
  rw [findAddrFromSeed, findLoop_spec L seed a max 0 (by omega), ← List.range_eq_range']
  cases hfi : (List.range max).find? fun j => a = (account L seed j).address L with
  | none =>
    rw [List.find?_eq_none] at hfi
    simp only [true_iff]
    intro i hi
    have := hfi i (by simpa using hi)
    intro he
    simp [he] at this
  | some j =>
    have hp := List.find?_some hfi
    have hm := List.mem_of_find?_eq_some hfi
    simp only [decide_eq_true_eq] at hp
    simp only [List.mem_range] at hm
    simp only [reduceCtorEq, false_iff, not_forall]
    exact ⟨j, hm, by simpa using hp.symm⟩

end Verif.Wallet
