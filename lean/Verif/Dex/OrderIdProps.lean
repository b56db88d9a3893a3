import Verif.Dex.OrderIdModel
import Verif.Dex.OrderIdSpec

/-!
# C22: order ids
-/

namespace Verif.Dex

open Verif.Bytes Spec

/-! ### Helper lemmas -/

theorem priceToBytes_length (p : List Char) : (priceToBytes p).length = 10 := by
  have h : ∀ n s, (priceHalf n s).length = 5 := by intro n s; unfold priceHalf; split <;> simp
  simp [priceToBytes, h]

theorem foldl_digits (s : List Char) (a : Nat) :
    s.foldl (fun a c => a * 10 + (c.toNat - 48)) a = a * 10 ^ s.length + digitsVal s := by
  induction s generalizing a with
  | nil => simp [digitsVal]
  | cons c s ih =>
    simp only [List.foldl_cons, List.length_cons, digitsVal]
    rw [ih, ih (0 * 10 + _)]; ring

theorem digitsVal_cons (c : Char) (s : List Char) :
    digitsVal (c :: s) = (c.toNat - 48) * 10 ^ s.length + digitsVal s := by
  show (c :: s).foldl _ 0 = _
  rw [List.foldl_cons, foldl_digits]; simp

theorem digitsVal_append (a b : List Char) : digitsVal (a ++ b) = digitsVal a * 10 ^ b.length + digitsVal b := by
  unfold digitsVal; rw [List.foldl_append, foldl_digits]; rfl

theorem isDigit_le {c : Char} (h : c.isDigit) : c.toNat - 48 ≤ 9 := by
  simp only [Char.isDigit, Bool.and_eq_true, decide_eq_true_eq] at h
  have : c.toNat ≤ 57 := h.2
  omega

theorem digitsVal_lt (s : List Char) (h : ∀ c ∈ s, c.isDigit) : digitsVal s < 10 ^ s.length := by
  induction s with
  | nil => simp [digitsVal]
  | cons c s ih =>
    rw [digitsVal_cons, List.length_cons, pow_succ]
    have h1 := isDigit_le (h c List.mem_cons_self)
    have h2 := ih (fun c hc => h c (List.mem_cons_of_mem _ hc))
    nlinarith [Nat.zero_le (10 ^ s.length)]

theorem parseUintLoop_eq (s : List Char) (n : Nat) (h : ∀ c ∈ s, c.isDigit)
    (hb : (n + 1) * 10 ^ s.length ≤ 10 ^ 13) : parseUintLoop s n = n * 10 ^ s.length + digitsVal s := by
  induction s generalizing n with
  | nil => simp [parseUintLoop, digitsVal]
  | cons c s ih =>
    have h1 := h c List.mem_cons_self
    have hd := isDigit_le h1
    have hpos : 1 ≤ 10 ^ s.length := Nat.one_le_pow _ _ (by norm_num)
    rw [List.length_cons, pow_succ] at hb
    have hn : (n + 1) * 10 ≤ 10 ^ 13 := by nlinarith
    have hdig : digit c = c.toNat - 48 := rfl
    rw [parseUintLoop, if_pos h1, if_neg (by unfold maxU64; omega), hdig, if_neg (by unfold maxU64; omega),
      ih _ (fun c hc => h c (List.mem_cons_of_mem _ hc)) (by nlinarith), digitsVal_cons, List.length_cons, pow_succ]
    ring

theorem parseUint_eq (s : List Char) (h : ∀ c ∈ s, c.isDigit) (hl : s.length ≤ 12) : parseUint s = digitsVal s := by
  unfold parseUint
  rw [parseUintLoop_eq s 0 h]
  · simp
  · have : (10:Nat) ^ s.length ≤ 10 ^ 12 := Nat.pow_le_pow_right (by norm_num) hl
    omega

theorem digit_ne_dot {c : Char} (h : c.isDigit) : c ≠ '.' := by
  rintro rfl; exact absurd h (by decide)

theorem splitDot_digits (i : List Char) (h : ∀ c ∈ i, c.isDigit) : splitDot i = [i] := by
  induction i with
  | nil => rfl
  | cons c i ih =>
    rw [splitDot, if_neg (digit_ne_dot (h c List.mem_cons_self)), ih (fun c hc => h c (List.mem_cons_of_mem _ hc))]

theorem splitDot_frac (i f : List Char) (h : ∀ c ∈ i, c.isDigit) (hf : ∀ c ∈ f, c.isDigit) :
    splitDot (i ++ '.' :: f) = [i, f] := by
  induction i with
  | nil => simp [splitDot, splitDot_digits f hf]
  | cons c i ih =>
    rw [List.cons_append, splitDot, if_neg (digit_ne_dot (h c List.mem_cons_self)),
      ih (fun c hc => h c (List.mem_cons_of_mem _ hc))]

theorem digitsVal_replicate (n : Nat) : digitsVal (List.replicate n '0') = 0 := by
  induction n with
  | zero => rfl
  | succ n ih => rw [List.replicate_succ, digitsVal_cons, ih]; simp

theorem padDecimal_spec (f : List Char) (hf : ∀ c ∈ f, c.isDigit) (hl : f.length ≤ 12) :
    (∀ c ∈ padDecimal f, c.isDigit) ∧ (padDecimal f).length = 12 ∧
      digitsVal (padDecimal f) = digitsVal f * 10 ^ (12 - f.length) := by
  unfold padDecimal priceDecimalMaxLen
  split
  · refine ⟨?_, ?_, ?_⟩
    · intro c hc
      rcases List.mem_append.1 hc with h | h
      · exact hf c h
      · rw [List.eq_of_mem_replicate h]; decide
    · simp; omega
    · rw [digitsVal_append, digitsVal_replicate, List.length_replicate]; simp
  · have : f.length = 12 := by omega
    refine ⟨hf, this, ?_⟩
    rw [this]; simp

/-- The two five-byte fields of a price text: its integer part and its fraction in units of `10^-12`. -/
theorem priceToBytes_fields {s : List Char} {v : Nat} (h : PriceText s v) :
    num ((priceToBytes s).take 5) = v / 10 ^ 12 ∧ num ((priceToBytes s).drop 5) = v % 10 ^ 12 := by
  have hfin : ∀ a b : Nat, a < 10 ^ 12 → b < 10 ^ 12 →
      num ((be 5 a ++ be 5 b).take 5) = (a * 10 ^ 12 + b) / 10 ^ 12 ∧
      num ((be 5 a ++ be 5 b).drop 5) = (a * 10 ^ 12 + b) % 10 ^ 12 := by
    intro a b ha hb
    rw [List.take_append_of_le_length (by simp), List.take_of_length_le (by simp),
      List.drop_append_of_le_length (by simp), List.drop_of_length_le (by simp), List.nil_append, num_be, num_be]
    have : (256:Nat) ^ 5 = 1099511627776 := by norm_num
    rw [Nat.mod_eq_of_lt (by omega), Nat.mod_eq_of_lt (by omega)]
    omega
  have hint : ∀ i : List Char, (∀ c ∈ i, c.isDigit) → i.length ≤ 12 →
      priceHalf i.length i = be 5 (digitsVal i) := by
    intro i hi hl; unfold priceHalf
    split
    · rw [parseUint_eq i hi hl]
    · have : i = [] := List.length_eq_zero_iff.1 (by omega)
      rw [this]; rfl
  have hlt : ∀ i : List Char, (∀ c ∈ i, c.isDigit) → i.length ≤ 12 → digitsVal i < 10 ^ 12 := by
    intro i hi hl
    exact lt_of_lt_of_le (digitsVal_lt i hi) (Nat.pow_le_pow_right (by norm_num) hl)
  cases h with
  | int i hi hl =>
    have := hfin (digitsVal s) 0 (hlt s hi hl) (by norm_num)
    unfold priceToBytes
    rw [splitDot_digits s hi]
    have h0 : priceHalf (List.length ([] : List Char)) (padDecimal []) = be 5 0 := rfl
    simp only [List.headD_cons, List.length_cons, List.length_nil, zero_add, OfNat.one_ne_ofNat, if_false]
    simp only [List.length_nil] at h0
    rw [hint s hi hl, h0]
    simpa using this
  | frac i f hi hf hl hl' =>
    obtain ⟨h1, h2, h3⟩ := padDecimal_spec f hf hl'
    have hb := digitsVal_lt _ h1
    rw [h2, h3] at hb
    have := hfin (digitsVal i) (digitsVal f * 10 ^ (12 - f.length)) (hlt i hi hl) hb
    unfold priceToBytes
    rw [splitDot_frac i f hi hf]
    simp only [List.headD_cons, List.length_cons, List.length_nil, List.getD_cons_succ, List.getD_cons_zero,
      if_true]
    rw [hint i hi hl]
    have hd : priceHalf f.length (padDecimal f) = be 5 (digitsVal f * 10 ^ (12 - f.length)) := by
      unfold priceHalf
      split
      · rw [parseUint_eq _ h1 (by omega), h3]
      · have : f = [] := List.length_eq_zero_iff.1 (by omega)
        rw [this]; rfl
    rw [hd]
    exact this

theorem priceText_lt {s : List Char} {v : Nat} (h : PriceText s v) : v < 10 ^ 24 := by
  cases h with
  | int i hi hl =>
    have := lt_of_lt_of_le (digitsVal_lt s hi) (Nat.pow_le_pow_right (by norm_num) hl)
    omega
  | frac i f hi hf hl hl' =>
    obtain ⟨h1, h2, h3⟩ := padDecimal_spec f hf hl'
    have hb := digitsVal_lt _ h1
    rw [h2, h3] at hb
    have := lt_of_lt_of_le (digitsVal_lt i hi) (Nat.pow_le_pow_right (by norm_num) hl)
    omega

theorem compare_congr {a b c d : Nat} (h : a < b ↔ c < d) (h' : b < a ↔ d < c) : compare a b = compare c d := by
  rcases Nat.lt_trichotomy a b with h1 | h1 | h1
  · rw [Nat.compare_eq_lt.2 h1, Nat.compare_eq_lt.2 (h.1 h1)]
  · rw [Nat.compare_eq_eq.2 h1, Nat.compare_eq_eq.2 (by omega)]
  · rw [Nat.compare_eq_gt.2 h1, Nat.compare_eq_gt.2 (h'.1 h1)]

/-! ### Theorems -/

/-- **C22.** Comparing stored prices byte by byte is comparing the decimal numbers the user wrote. -/
theorem price_order {s₁ s₂ : List Char} {v₁ v₂ : Nat} (h₁ : PriceText s₁ v₁) (h₂ : PriceText s₂ v₂) :
    bcmp (priceToBytes s₁) (priceToBytes s₂) = compare v₁ v₂ := by
  rw [bcmp_eq_compare (by rw [priceToBytes_length, priceToBytes_length])]
  obtain ⟨a1, b1⟩ := priceToBytes_fields h₁
  obtain ⟨a2, b2⟩ := priceToBytes_fields h₂
  have e : ∀ s v, num ((priceToBytes s).take 5) = v / 10 ^ 12 → num ((priceToBytes s).drop 5) = v % 10 ^ 12 →
      num (priceToBytes s) = v / 10 ^ 12 * 256 ^ 5 + v % 10 ^ 12 := by
    intro s v h h'
    conv_lhs => rw [← List.take_append_drop 5 (priceToBytes s)]
    rw [num_append, h, h', List.length_drop, priceToBytes_length]
  rw [e _ _ a1 b1, e _ _ a2 b2]
  norm_num
  apply compare_congr <;> omega

/-- Every price the contract accepts (after the Stem upgrade) is a decimal text with a positive value. -/
theorem validPrice_text (s : List Char) (h : validPrice s true = true) : ∃ v, PriceText s v ∧ 0 < v := by
  unfold validPrice at h
  split at h
  · exact absurd h (by simp)
  split at h
  · exact absurd h (by simp)
  split at h
  · exact absurd h (by simp)
  rename_i hlen hchk hpf
  simp only [Bool.not_eq_true', Bool.not_eq_false] at hchk hpf
  simp only [checkPriceChar, List.all_eq_true, Bool.or_eq_true, decide_eq_true_eq] at hchk
  simp only [parseFloatPositive, Bool.and_eq_true, decide_eq_true_eq, List.any_eq_true] at hpf
  obtain ⟨⟨hcount, -⟩, c0, hc0, hc0d, hc0n⟩ := hpf
  have hpos : ∀ t : List Char, (∀ c ∈ t, c.isDigit) → c0 ∈ t → 0 < digitsVal t := by
    intro t
    induction t with
    | nil => simp
    | cons c t ih =>
      intro hd hm
      rw [digitsVal_cons]
      rcases List.mem_cons.1 hm with h | h
      · subst h
        have : c0.toNat ≠ 48 := by
          intro hh; apply hc0n
          exact Char.ext (UInt32.toNat_inj.1 hh)
        have h2 : 48 ≤ c0.toNat := by
          simp only [Char.isDigit, Bool.and_eq_true, decide_eq_true_eq] at hc0d
          exact hc0d.1
        have : 0 < (c0.toNat - 48) * 10 ^ t.length := by
          apply Nat.mul_pos (by omega); positivity
        omega
      · have := ih (fun c hc => hd c (List.mem_cons_of_mem _ hc)) h
        omega
  split at h
  · rename_i idx hidx
    split at h
    · exact absurd h (by simp)
    rename_i hi
    simp only [Bool.not_eq_true', decide_eq_false_iff_not, not_lt, gt_iff_lt] at h
    obtain ⟨hlt, hget, hbefore⟩ := List.idxOf?_eq_some_iff.1 hidx
    have hs : s = s.take idx ++ '.' :: s.drop (idx + 1) := by
      conv_lhs => rw [← List.take_append_drop idx s, List.drop_eq_getElem_cons hlt, hget]
    have hcf : (s.drop (idx + 1)).count '.' = 0 := by
      rw [hs, List.count_append, List.count_cons_self] at hcount
      omega
    have hdi : ∀ c ∈ s.take idx, c.isDigit := by
      intro c hc
      rcases hchk c (List.mem_of_mem_take hc) with h' | h'
      · exfalso
        obtain ⟨j, hj, hjj⟩ := List.getElem_of_mem hc
        rw [List.getElem_take] at hjj
        simp only [List.length_take] at hj
        exact hbefore j (by omega) (by rw [hjj, h'])
      · exact h'
    have hdf : ∀ c ∈ s.drop (idx + 1), c.isDigit := by
      intro c hc
      rcases hchk c (List.mem_of_mem_drop hc) with h' | h'
      · exfalso; subst h'
        have := List.count_pos_iff.2 hc
        omega
      · exact h'
    have ht := PriceText.frac _ _ hdi hdf
      (by simp only [List.length_take, priceIntMaxLen] at *; omega)
      (by simp only [List.length_drop, priceDecimalMaxLen] at *; omega)
    rw [← hs] at ht
    refine ⟨_, ht, ?_⟩
    rw [hs] at hc0
    rcases List.mem_append.1 hc0 with h1 | h1
    · have := hpos _ hdi h1
      positivity
    · rcases List.mem_cons.1 h1 with h2 | h2
      · subst h2; exact absurd hc0d (by decide)
      · have := hpos _ hdf h2
        positivity
  · rename_i hidx
    have hd : ∀ c ∈ s, c.isDigit := by
      intro c hc
      rcases hchk c hc with h' | h'
      · subst h'
        rw [List.idxOf?_eq_none_iff] at hidx
        exact absurd hc hidx
      · exact h'
    have hl : s.length ≤ 12 := by simpa [priceIntMaxLen] using h
    refine ⟨_, PriceText.int s hd hl, ?_⟩
    have := hpos s hd hc0
    positivity

/-- **C22.** Decoding an order id gives back market, side, price and time. -/
theorem decompose_compose (m : Nat) (side : Bool) (p : List Char) (t n : Nat) (hm : m < 2 ^ 24) (ht : t < 2 ^ 40) :
    decomposeOrderId (composeOrderId m side p t n) = some (m, side, priceToBytes p, t) := by
  have hp := priceToBytes_length p
  have hlen : (composeOrderId m side p t n).length = 22 := by
    unfold composeOrderId; cases side <;> simp [hp]
  unfold decomposeOrderId
  rw [if_neg (by rw [hlen]; simp)]
  have h1 : (composeOrderId m side p t n).take 3 = be 3 m := by
    unfold composeOrderId
    simp only [List.append_assoc]
    rw [List.take_append_of_le_length (by simp), List.take_of_length_le (by simp)]
  have h2 : (composeOrderId m side p t n).getD 3 0 = if side then 1 else 0 := by
    unfold composeOrderId
    simp only [List.append_assoc, List.getD_eq_getElem?_getD]
    rw [List.getElem?_append_right (by simp)]
    simp
  have h3 : ((composeOrderId m side p t n).drop 4).take 10 = if side then priceToBytes p else bnot (priceToBytes p) := by
    unfold composeOrderId
    rw [List.append_assoc, List.append_assoc, List.drop_append_of_le_length (by simp),
      List.drop_of_length_le (by simp), List.nil_append, List.take_append_of_le_length (by cases side <;> simp [hp]),
      List.take_of_length_le (by cases side <;> simp [hp])]
  have h4 : ((composeOrderId m side p t n).drop 14).take 5 = be 5 t := by
    unfold composeOrderId
    rw [List.append_assoc, List.drop_append_of_le_length (by cases side <;> simp [hp]),
      List.drop_of_length_le (by cases side <;> simp [hp]), List.nil_append, List.take_append_of_le_length (by simp),
      List.take_of_length_le (by simp)]
  simp only [h1, h2, h3, h4, num_be]
  rw [Nat.mod_eq_of_lt (by norm_num; omega), Nat.mod_eq_of_lt (by norm_num; omega)]
  cases side <;> simp [bnot_bnot]

theorem cmp_self (a : Bytes) : bcmp a a = .eq := by rw [bcmp_eq_compare rfl]; simp

theorem cmp_be {k a b : Nat} (ha : a < 256 ^ k) (hb : b < 256 ^ k) : bcmp (be k a) (be k b) = compare a b := by
  rw [bcmp_eq_compare (by simp), num_be, num_be, Nat.mod_eq_of_lt ha, Nat.mod_eq_of_lt hb]

theorem cmp_bnot {a b : Bytes} (h : a.length = b.length) : bcmp (bnot a) (bnot b) = bcmp b a := by
  rw [bcmp_eq_compare (by simp [h]), bcmp_eq_compare h.symm, num_bnot, num_bnot, h]
  have h1 := num_lt a; have h2 := num_lt b
  rw [h] at h1
  apply compare_congr <;> omega

/-- **C22.** Within one side of one market, the storage order of order ids is price-time-serial priority, for the
prices as the users wrote them. -/
theorem id_order_is_priority (m : Nat) (side : Bool) {p₁ p₂ : List Char} {v₁ v₂ : Nat} (t₁ n₁ t₂ n₂ : Nat)
    (h₁ : PriceText p₁ v₁) (h₂ : PriceText p₂ v₂)
    (ht₁ : t₁ < 2 ^ 40) (ht₂ : t₂ < 2 ^ 40) (hn₁ : n₁ < 2 ^ 24) (hn₂ : n₂ < 2 ^ 24) :
    bcmp (composeOrderId m side p₁ t₁ n₁) (composeOrderId m side p₂ t₂ n₂) =
      priority side v₁ t₁ n₁ v₂ t₂ n₂ := by
  unfold composeOrderId priority
  have l1 := priceToBytes_length p₁; have l2 := priceToBytes_length p₂
  have e : (256:Nat) ^ 3 = 2 ^ 24 := by norm_num
  have e' : (256:Nat) ^ 5 = 2 ^ 40 := by norm_num
  rw [bcmp_append (by cases side <;> simp [l1, l2]), bcmp_append (by cases side <;> simp [l1, l2]),
    bcmp_append (by simp), cmp_self, cmp_be (e' ▸ ht₁) (e' ▸ ht₂), cmp_be (e ▸ hn₁) (e ▸ hn₂)]
  cases side
  · simp only [Bool.false_eq_true, if_false]
    rw [cmp_bnot (by rw [l1, l2]), price_order h₂ h₁]; rfl
  · simp only [if_true]
    rw [price_order h₁ h₂]; rfl

/-- **C22.** An order id starts with the prefix of exactly one book: that of its market and side. -/
theorem prefix_iff (m m' : Nat) (side side' : Bool) (p : List Char) (t n : Nat) (hm : m < 2 ^ 24) (hm' : m' < 2 ^ 24) :
    bookPrefix m' side' <+: composeOrderId m side p t n ↔ m' = m ∧ side' = side := by
  unfold bookPrefix composeOrderId
  simp only [List.append_assoc]
  constructor
  · rintro ⟨r, hr⟩
    have h := congrArg (List.take 4) hr
    rw [← List.append_assoc (be 3 m), List.take_append_of_le_length (by simp), List.take_of_length_le (by simp),
      List.take_append_of_le_length (by simp), List.take_of_length_le (by simp)] at h
    have h3 := List.append_inj h (by simp)
    have hn := congrArg num h3.1
    rw [num_be, num_be, Nat.mod_eq_of_lt (by norm_num; omega), Nat.mod_eq_of_lt (by norm_num; omega)] at hn
    refine ⟨hn, ?_⟩
    have := h3.2
    revert this
    cases side <;> cases side' <;> simp
  · rintro ⟨rfl, rfl⟩
    rw [← List.append_assoc (be 3 m')]
    exact List.prefix_append _ _

/-- Fourth byte of a key with a book prefix is 0 or 1. -/
theorem prefix_fourth {m : Nat} {side : Bool} {k : Bytes} (h : bookPrefix m side <+: k) : k.getD 3 9 = 0 ∨ k.getD 3 9 = 1 := by
  obtain ⟨r, rfl⟩ := h
  have : (bookPrefix m side ++ r).getD 3 9 = if side then 1 else 0 := by
    unfold bookPrefix
    rw [List.append_assoc, List.getD_eq_getElem?_getD, List.getElem?_append_right (by simp)]
    simp
  rw [this]; cases side <;> simp

/-- **C22.** Iterating a book never meets the contract's other records, whatever the market ids and hashes. -/
theorem book_excludes_other_keys (m m' : Nat) (side : Bool) (h : Bytes) :
    ¬ bookPrefix m side <+: marketInfoKey m' ∧ ¬ bookPrefix m side <+: tradeTimestampKey ∧
    ¬ bookPrefix m side <+: hashMapOrderIdKey h := by
  have a1 : ∀ r, (ascii "mkIf:" ++ r).getD 3 9 = 102 := fun r => rfl
  have a2 : tradeTimestampKey.getD 3 9 = 115 := by decide
  have a3 : ∀ r, (ascii "hmId:" ++ r).getD 3 9 = 100 := fun r => rfl
  refine ⟨fun hp => ?_, fun hp => ?_, fun hp => ?_⟩ <;> have := prefix_fourth hp
  · unfold marketInfoKey at this; rw [a1] at this; revert this; decide
  · rw [a2] at this; revert this; decide
  · unfold hashMapOrderIdKey at this; rw [a3] at this; revert this; decide

/-! ### Uniqueness of ids over every history -/

/-- What can happen to the id generator: the time oracle sets a new time, or somebody places an order. -/
inductive IdOp
  | setTime (t : Nat)
  | order (market : Nat) (side : Bool) (price : List Char)

/-- Run a history; collects (timestamp, serial number, id) of every order, newest first. A refused time change leaves
the state as it is. `GetTimestampInt64` panics (no order is created) while no time has been set. -/
def runIds : IdState → List IdOp → List (Nat × Nat × Bytes) → List (Nat × Nat × Bytes)
  | _, [], acc => acc
  | st, .setTime t :: ops, acc => runIds ((setDexTimestamp st t).getD st) ops acc
  | st, .order m s p :: ops, acc =>
    if st.dexTime = 0 then runIds st ops acc
    else
      let r := newSerialNo st st.dexTime
      runIds r.2 ops ((st.dexTime, r.1, composeOrderId m s p st.dexTime r.1) :: acc)

/-- Invariant of the generator. -/
def IdInv (st : IdState) (acc : List (Nat × Nat × Bytes)) : Prop :=
  (∀ e ∈ acc, e.1 ≤ st.dexTime ∧ ∃ m s p, e.2.2 = composeOrderId m s p e.1 e.2.1) ∧
  (match st.serial with
    | none => acc = []
    | some (t, n) => t ≤ st.dexTime ∧ (∀ e ∈ acc, e.1 ≤ t) ∧ (∀ e ∈ acc, e.1 = t → e.2.1 ≤ n) ∧
        (acc.filter (fun e => e.1 = t)).length = n + 1) ∧
  acc.Pairwise (fun a b => b.1 < a.1 ∨ (b.1 = a.1 ∧ b.2.1 < a.2.1)) ∧
  ∀ e ∈ acc, e.2.1 < (acc.filter (fun x => x.1 = e.1)).length

theorem runIds_inv (ops : List IdOp) (st : IdState) (acc) (h : IdInv st acc) : ∃ st', IdInv st' (runIds st ops acc) := by
  induction ops generalizing st acc with
  | nil => exact ⟨st, h⟩
  | cons op ops ih =>
    cases op with
    | setTime t =>
      rw [runIds]
      apply ih
      unfold setDexTimestamp
      split
      · rename_i ht
        obtain ⟨h1, h2, h3, h4⟩ := h
        refine ⟨fun e he => ⟨?_, (h1 e he).2⟩, ?_, h3, h4⟩
        · have := (h1 e he).1; simp; omega
        · simp only [Option.getD_some]
          cases hs : st.serial with
          | none => rw [hs] at h2; exact h2
          | some x => rw [hs] at h2; refine ⟨?_, h2.2⟩; have := h2.1; show x.1 ≤ t; omega
      · exact h
    | order m s p =>
      rw [runIds]
      split
      · exact ih _ _ h
      apply ih
      obtain ⟨h1, h2, h3, h4⟩ := h
      cases hs : st.serial with
      | none =>
        rw [hs] at h2
        subst h2
        simp only [newSerialNo, hs]
        refine ⟨?_, ?_, ?_, ?_⟩
        · intro e he; simp at he; subst he; exact ⟨le_rfl, m, s, p, rfl⟩
        · simp
        · simp
        · intro e he; simp at he; subst he; simp
      | some x =>
        obtain ⟨t, n⟩ := x
        rw [hs] at h2
        obtain ⟨g1, g2, g3, g4⟩ := h2
        simp only [newSerialNo, hs]
        by_cases ht : st.dexTime = t
        · rw [if_pos ht]
          refine ⟨?_, ?_, ?_, ?_⟩
          · intro e he
            rcases List.mem_cons.1 he with h | h
            · subst h; exact ⟨le_rfl, m, s, p, rfl⟩
            · exact h1 e h
          · refine ⟨le_rfl, ?_, ?_, ?_⟩
            · intro e he
              rcases List.mem_cons.1 he with h | h
              · subst h; exact le_rfl
              · exact (h1 e h).1
            · intro e he het
              rcases List.mem_cons.1 he with h | h
              · subst h; exact le_rfl
              · have := g3 e h (by omega); omega
            · rw [List.filter_cons_of_pos (by simp), List.length_cons]
              congr 1
              rw [← g4]; simp only [ht]
          · refine List.Pairwise.cons ?_ h3
            intro e he
            rcases Nat.lt_or_ge e.1 st.dexTime with h | h
            · exact Or.inl h
            · have h5 : e.1 = t := by have := g2 e he; omega
              refine Or.inr ⟨by show e.1 = st.dexTime; omega, ?_⟩
              have := g3 e he h5
              show e.2.1 < n + 1
              omega
          · intro e he
            rcases List.mem_cons.1 he with h | h
            · subst h
              rw [List.filter_cons_of_pos (by simp), List.length_cons]
              simp only [ht]
              rw [g4]; omega
            · have := h4 e h
              rw [List.filter_cons]
              split <;> simp <;> omega
        · rw [if_neg ht]
          have hlt : ∀ e ∈ acc, e.1 < st.dexTime := by
            intro e he; have := g2 e he; omega
          refine ⟨?_, ?_, ?_, ?_⟩
          · intro e he
            rcases List.mem_cons.1 he with h | h
            · subst h; exact ⟨le_rfl, m, s, p, rfl⟩
            · exact h1 e h
          · refine ⟨le_rfl, ?_, ?_, ?_⟩
            · intro e he
              rcases List.mem_cons.1 he with h | h
              · subst h; exact le_rfl
              · exact (hlt e h).le
            · intro e he het
              rcases List.mem_cons.1 he with h | h
              · subst h; exact le_rfl
              · have := hlt e h; omega
            · rw [List.filter_cons_of_pos (by simp), List.length_cons]
              have : acc.filter (fun e => decide (e.1 = st.dexTime)) = [] := by
                rw [List.filter_eq_nil_iff]
                intro e he; have := hlt e he; simp; omega
              rw [this]; rfl
          · refine List.Pairwise.cons ?_ h3
            intro e he
            exact Or.inl (hlt e he)
          · intro e he
            rcases List.mem_cons.1 he with h | h
            · subst h
              rw [List.filter_cons_of_pos (by simp), List.length_cons]
              simp
            · have := h4 e h
              rw [List.filter_cons]
              split <;> simp <;> omega

theorem initIdInv (t0 : Nat) : IdInv ⟨t0, none⟩ [] := by
  refine ⟨by simp, rfl, by simp, by simp⟩

theorem compose_inj {m s p t n m' s' p' t' n'} (ht : t < 2 ^ 40) (ht' : t' < 2 ^ 40) (hn : n < 2 ^ 24) (hn' : n' < 2 ^ 24)
    (h : composeOrderId m s p t n = composeOrderId m' s' p' t' n') : t = t' ∧ n = n' := by
  have l1 := priceToBytes_length p; have l2 := priceToBytes_length p'
  unfold composeOrderId at h
  have h1 := List.append_inj' h (by simp)
  have h2 := List.append_inj' h1.1 (by simp)
  have e1 := congrArg num h2.2
  have e2 := congrArg num h1.2
  rw [num_be, num_be, Nat.mod_eq_of_lt (by norm_num; omega), Nat.mod_eq_of_lt (by norm_num; omega)] at e1 e2
  exact ⟨e1, e2⟩

/-- **C22.** No two orders ever get the same id: over every history of time updates and orders, as long as the DEX time
stays below `2^40` seconds and no single timestamp has more than `2^24` orders (the widths of the id fields). -/
theorem ids_unique (t0 : Nat) (ops : List IdOp)
    (hts : ∀ e ∈ runIds ⟨t0, none⟩ ops [], e.1 < 2 ^ 40)
    (hmany : ∀ t, ((runIds ⟨t0, none⟩ ops []).filter (fun e => e.1 = t)).length ≤ 2 ^ 24) :
    ((runIds ⟨t0, none⟩ ops []).map (fun e => e.2.2)).Nodup := by
  obtain ⟨st, h1, -, h3, h4⟩ := runIds_inv ops ⟨t0, none⟩ [] (initIdInv t0)
  unfold List.Nodup
  rw [List.pairwise_map]
  refine List.Pairwise.imp_of_mem ?_ h3
  intro a b ha hb hab heq
  obtain ⟨-, m, s, p, e1⟩ := h1 a ha
  obtain ⟨-, m', s', p', e2⟩ := h1 b hb
  rw [e1, e2] at heq
  have := compose_inj (hts a ha) (hts b hb) (lt_of_lt_of_le (h4 a ha) (hmany _)) (lt_of_lt_of_le (h4 b hb) (hmany _)) heq
  omega

/-! ### Printing prices -/

theorem digitChar (n : Nat) (h : n < 10) : (Char.ofNat (n + 48)).isDigit = true ∧ (Char.ofNat (n + 48)).toNat - 48 = n := by
  revert h; revert n; decide

theorem formatUint_spec (n : Nat) : (∀ c ∈ formatUint n, c.isDigit) ∧ digitsVal (formatUint n) = n ∧
    ∀ k, n < 10 ^ (k + 1) → (formatUint n).length ≤ k + 1 := by
  induction n using Nat.strong_induction_on with
  | _ n ih =>
    rw [formatUint]
    split
    · rename_i h
      have := digitChar n h
      refine ⟨?_, ?_, by intro k _; simp⟩
      · intro c hc; rw [List.mem_singleton.1 hc]; exact this.1
      · rw [digitsVal_cons]; simpa [digitsVal] using this.2
    · rename_i h
      obtain ⟨h1, h2, h3⟩ := ih (n / 10) (by omega)
      have := digitChar (n % 10) (by omega)
      refine ⟨?_, ?_, ?_⟩
      · intro c hc
        rcases List.mem_append.1 hc with h | h
        · exact h1 c h
        · rw [List.mem_singleton.1 h]; exact this.1
      · rw [digitsVal_append, h2, digitsVal_cons]
        simp only [digitsVal, List.foldl_nil, List.length_cons, List.length_nil, zero_add, pow_one, pow_zero, mul_one,
          add_zero]
        have e : (Char.ofNat (n % 10 + '0'.toNat)).toNat - 48 = n % 10 := this.2
        rw [e]; omega
      · intro k hk
        cases k with
        | zero => simp at hk; omega
        | succ k =>
          have := h3 k (by rw [pow_succ] at hk; omega)
          simp; omega

theorem dropTrailingZeros_spec (s : List Char) : ∃ k, s = dropTrailingZeros s ++ List.replicate k '0' := by
  unfold dropTrailingZeros
  refine ⟨(s.reverse.takeWhile (· = '0')).length, ?_⟩
  have h := List.takeWhile_append_dropWhile (p := fun c => decide (c = '0')) (l := s.reverse)
  have h2 : s.reverse.takeWhile (fun c => decide (c = '0')) =
      List.replicate (s.reverse.takeWhile (fun c => decide (c = '0'))).length '0' := by
    rw [List.eq_replicate_iff]
    refine ⟨rfl, fun c hc => ?_⟩
    simpa using List.all_eq_true.1 (List.all_takeWhile (p := fun c : Char => decide (c = '0')) (l := s.reverse)) c hc
  have h3 := congrArg List.reverse h
  rw [List.reverse_append, List.reverse_reverse, h2, List.reverse_replicate] at h3
  exact h3.symm

/-- **C22.** The price text shown for a stored order denotes the same number as the text the user submitted. -/
theorem price_text_roundtrip {s : List Char} {v : Nat} (h : PriceText s v) :
    PriceText (bytesToPrice (priceToBytes s)) v := by
  obtain ⟨h1, h2⟩ := priceToBytes_fields h
  have hv := priceText_lt h
  unfold bytesToPrice
  simp only [h1, h2]
  have hi : ∀ c ∈ (if v / 10 ^ 12 = 0 then ['0'] else formatUint (v / 10 ^ 12)), c.isDigit := by
    split
    · decide
    · exact (formatUint_spec _).1
  have hil : (if v / 10 ^ 12 = 0 then ['0'] else formatUint (v / 10 ^ 12)).length ≤ 12 := by
    split
    · decide
    · exact (formatUint_spec _).2.2 11 (by omega)
  have hiv : digitsVal (if v / 10 ^ 12 = 0 then ['0'] else formatUint (v / 10 ^ 12)) = v / 10 ^ 12 := by
    split
    · rename_i h; rw [h]; rfl
    · exact (formatUint_spec _).2.1
  split
  · rename_i h0
    have := PriceText.int _ hi hil
    rw [hiv] at this
    rwa [show v / 10 ^ 12 * 10 ^ 12 = v by omega] at this
  · rename_i h0
    obtain ⟨f1, f2, f3⟩ := formatUint_spec (v % 10 ^ 12)
    have fl := f3 11 (Nat.mod_lt _ (by norm_num))
    obtain ⟨k, hk⟩ := dropTrailingZeros_spec
      (List.replicate (priceDecimalMaxLen - (formatUint (v % 10 ^ 12)).length) '0' ++ formatUint (v % 10 ^ 12))
    generalize hd : dropTrailingZeros (List.replicate (priceDecimalMaxLen - (formatUint (v % 10 ^ 12)).length) '0' ++
      formatUint (v % 10 ^ 12)) = d at hk ⊢
    have hlen := congrArg List.length hk
    have hval := congrArg digitsVal hk
    simp only [List.length_append, List.length_replicate, priceDecimalMaxLen] at hlen
    rw [digitsVal_append, digitsVal_append, digitsVal_replicate, digitsVal_replicate, List.length_replicate, f2] at hval
    have hdd : ∀ c ∈ d, c.isDigit := by
      intro c hc
      have : c ∈ d ++ List.replicate k '0' := List.mem_append_left _ hc
      rw [← hk] at this
      rcases List.mem_append.1 this with h | h
      · rw [List.eq_of_mem_replicate h]; decide
      · exact f1 c h
    have := PriceText.frac _ d hi hdd hil (by omega)
    rw [hiv, show 12 - d.length = k by omega] at this
    rwa [show v / 10 ^ 12 * 10 ^ 12 + digitsVal d * 10 ^ k = v by omega] at this

/-! ### Concrete cases -/

example : PriceText "0.05".toList 50000000000 := PriceText.frac ['0'] ['0', '5'] (by decide) (by decide) (by decide) (by decide)
example : validPrice "0.05".toList true = true := by decide +kernel
example : bytesToPrice (priceToBytes "12.3400".toList) = "12.34".toList := by decide +kernel
example : (runIds ⟨0, none⟩ [.setTime 7, .order 1 true "2".toList, .order 1 false "2".toList] []).map (fun e => (e.1, e.2.1))
    = [(7, 1), (7, 0)] := by decide +kernel

end Verif.Dex
