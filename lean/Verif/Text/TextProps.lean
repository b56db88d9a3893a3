import Verif.Text.TextModel

/-!
# C31, C32: text forms and stored metadata are faithful
-/

namespace Verif.Text
open Verif.Bytes

/-! ### Specification -/

/-- The lower case of a letter of ASCII. -/
def lower (c : UInt8) : UInt8 := if 65 ≤ c.toNat ∧ c.toNat ≤ 90 then c + 32 else c

/-- An address of a user or a contract: twenty bytes and the kind. -/
def IsAddr (a : Bytes) : Prop := a.length = 21 ∧ (a[20]? = some 0 ∨ a[20]? = some 1)

/-- Digests have their size. -/
def Sized (D : Digest) : Prop := ∀ n b, (D n b).length = n

/-! ### Hexadecimal -/

theorem encode_length (b : Bytes) : (encode b).length = 2 * b.length := by
  induction b with
  | nil => rfl
  | cons x l ih => simp only [encode, List.length_cons, ih]; omega

theorem encode_append (a b : Bytes) : encode (a ++ b) = encode a ++ encode b := by
  induction a with
  | nil => rfl
  | cons x l ih => simp only [List.cons_append, encode, ih]

theorem digit_facts : ∀ n : Fin 16, value (digit n.1) = some n.1 ∧ digit n.1 ≠ 34 := by decide +kernel

theorem value_digit {n : Nat} (h : n < 16) : value (digit n) = some n := (digit_facts ⟨n, h⟩).1

theorem decode_encode (b : Bytes) : decode (encode b) = some b := by
  induction b with
  | nil => rfl
  | cons x l ih =>
    have hx := x.toNat_lt
    simp only [encode, decode, ih, value_digit (show x.toNat / 16 < 16 by omega), value_digit (show x.toNat % 16 < 16 by omega)]
    congr 2
    rw [show x.toNat / 16 * 16 + x.toNat % 16 = x.toNat by omega]
    exact UInt8.ofNat_toNat

theorem value_facts : ∀ n : Fin 256, ∀ v : Fin 16, value (UInt8.ofNat n.1) = some v.1 ↔ lower (UInt8.ofNat n.1) = digit v.1 := by decide +kernel

theorem value_lt (c : UInt8) {v : Nat} (h : value c = some v) : v < 16 := by
  unfold value at h
  simp only at h
  split at h
  · injection h; omega
  · split at h
    · injection h; omega
    · split at h
      · injection h; omega
      · exact absurd h (by simp)

theorem value_iff (c : UInt8) {v : Nat} (hv : v < 16) : value c = some v ↔ lower c = digit v := by
  have := value_facts ⟨c.toNat, c.toNat_lt⟩ ⟨v, hv⟩
  simpa using this

/-- A text is read as given bytes iff it is their hexadecimal form but for the case of letters. -/
theorem decode_iff (s : Bytes) : ∀ b, decode s = some b ↔ s.map lower = encode b := by
  fun_induction decode s with
  | case1 =>
    intro b
    cases b with
    | nil => simp [encode]
    | cons x l => simp [encode]
  | case2 x =>
    intro b
    cases b with
    | nil => simp [encode]
    | cons x l => simp [encode]
  | case3 p q l a b r hr hb ha ih =>
    intro w
    cases w with
    | nil => simp [encode]
    | cons x w =>
      have la := value_lt p ha
      have lb := value_lt q hb
      have hx := x.toNat_lt
      have e1 := (value_iff p la).1 ha
      have e2 := (value_iff q lb).1 hb
      simp only [List.map_cons, encode, List.cons.injEq, Option.some.injEq]
      rw [← ih w, hr, Option.some.injEq]
      constructor
      · rintro ⟨rfl, rfl⟩
        have : (UInt8.ofNat (a * 16 + b)).toNat = a * 16 + b := by
          rw [UInt8.toNat_ofNat']; omega
        rw [this, show (a * 16 + b) / 16 = a by omega, show (a * 16 + b) % 16 = b by omega]
        exact ⟨e1, e2, rfl⟩
      · rintro ⟨h1, h2, rfl⟩
        have := (value_iff p (show x.toNat / 16 < 16 by omega)).2 h1
        rw [ha] at this
        injection this with h3
        have := (value_iff q (show x.toNat % 16 < 16 by omega)).2 h2
        rw [hb] at this
        injection this with h4
        refine ⟨?_, rfl⟩
        rw [h3, h4, show x.toNat / 16 * 16 + x.toNat % 16 = x.toNat by omega]
        exact UInt8.ofNat_toNat
  | case4 p q l hn ih =>
    intro w
    cases w with
    | nil => simp [encode]
    | cons x w =>
      have hx := x.toNat_lt
      simp only [List.map_cons, encode, List.cons.injEq]
      constructor
      · intro h; exact absurd h (by simp)
      · rintro ⟨h1, h2, h3⟩
        exact absurd ((ih w).2 h3) (hn _ _ _ ((value_iff p (show x.toNat / 16 < 16 by omega)).2 h1) ((value_iff q (show x.toNat % 16 < 16 by omega)).2 h2))

theorem decode_length {s b : Bytes} (h : decode s = some b) : s.length = 2 * b.length := by
  have := congrArg List.length ((decode_iff s b).1 h)
  rw [List.length_map, encode_length] at this
  exact this

theorem encode_inj {a b : Bytes} (h : encode a = encode b) : a = b := by
  have := decode_encode a
  rw [h, decode_encode] at this
  injection this with this
  exact this.symm

/-! ### Addresses -/

theorem bnot_ne {b : Bytes} (h : 0 < b.length) : b ≠ bnot b := by
  cases b with
  | nil => simp at h
  | cons x l =>
    intro e
    simp only [bnot, List.map_cons, List.cons.injEq] at e
    have := congrArg UInt8.toNat e.1
    rw [toNat_not] at this
    have := x.toNat_lt
    omega

theorem addr_split {a : Bytes} (h : a.length = 21) {k : UInt8} (hk : a[20]? = some k) : a = a.take 20 ++ [k] := by
  have h1 := List.take_append_drop 20 a
  rw [← h1]
  have h2 : a.drop 20 = [k] := by
    have hl : (a.drop 20).length = 1 := by rw [List.length_drop]; omega
    obtain ⟨x, hx⟩ := List.length_eq_one_iff.1 hl
    have h3 : (a.drop 20)[0]? = some k := by rw [List.getElem?_drop]; exact hk
    rw [hx] at h3 ⊢
    simpa using h3
  rw [h2, List.take_append_of_le_length (by rw [List.length_take]; omega), List.take_take]
  simp

theorem addrHex_of (D : Digest) {core : Bytes} (hl : core.length = 20) {k : UInt8} (hk : k = 0 ∨ k = 1) :
    addrHex D (core ++ [k]) = addrPrefix ++ encode core ++ encode (if k = 0 then D 5 core else bnot (D 5 core)) := by
  unfold addrHex
  have h1 : (core ++ [k]).take 20 = core := by rw [List.take_append_of_le_length (by omega), List.take_of_length_le (by omega)]
  have h2 : (core ++ [k])[20]? = some k := by rw [List.getElem?_append_right (by omega), hl]; rfl
  rw [h1, h2]
  rcases hk with rfl | rfl
  · rfl
  · rfl

/-- **C32.** A text is read as an address iff it is the text of that address, but for the case of the hexadecimal digits. -/
theorem address_accepted (D : Digest) (hD : Sized D) (s a : Bytes) :
    hexAddr D s = some a ↔ IsAddr a ∧ s.take 5 = addrPrefix ∧ (s.drop 5).map lower = (addrHex D a).drop 5 := by
  have hdrop : ∀ x y : Bytes, (addrPrefix ++ x ++ y).drop 5 = x ++ y := by intro x y; rfl
  have hsplit : ∀ s : Bytes, s.drop 5 = (s.drop 5).take 40 ++ s.drop 45 := by
    intro s
    conv => lhs; rw [← List.take_append_drop 40 (s.drop 5)]
    rw [List.drop_drop]
  constructor
  · intro h
    unfold hexAddr at h
    split at h
    · exact absurd h (by simp)
    · rename_i hc
      rw [not_or, Decidable.not_not, Decidable.not_not] at hc
      split at h
      · rename_i core sum hcore hsum
        have l1 := decode_length hcore
        have l2 := decode_length hsum
        rw [List.length_take, List.length_drop] at l1
        rw [List.length_drop] at l2
        have lc : core.length = 20 := by omega
        have e1 := (decode_iff _ _).1 hcore
        have e2 := (decode_iff _ _).1 hsum
        split at h
        · rename_i hk
          injection h with h
          subst h
          refine ⟨⟨by simp [lc], Or.inl (by rw [List.getElem?_append_right (by omega), lc]; rfl)⟩, hc.2, ?_⟩
          rw [addrHex_of D lc (Or.inl rfl), hdrop, hsplit s, List.map_append, e1, e2, if_pos rfl, hk]
        · split at h
          · rename_i hk
            injection h with h
            subst h
            refine ⟨⟨by simp [lc], Or.inr (by rw [List.getElem?_append_right (by omega), lc]; rfl)⟩, hc.2, ?_⟩
            rw [addrHex_of D lc (Or.inr rfl), hdrop, hsplit s, List.map_append, e1, e2, if_neg (by decide), hk, bnot_bnot]
          · exact absurd h (by simp)
      · exact absurd h (by simp)
  · rintro ⟨⟨hl, hk⟩, hp, hs⟩
    obtain ⟨k, hk, hk'⟩ : ∃ k : UInt8, a[20]? = some k ∧ (k = 0 ∨ k = 1) := by
      rcases hk with hk | hk
      · exact ⟨0, hk, Or.inl rfl⟩
      · exact ⟨1, hk, Or.inr rfl⟩
    have hsp := addr_split hl hk
    have lc : (a.take 20).length = 20 := by rw [List.length_take]; omega
    generalize a.take 20 = core at hsp lc
    subst hsp
    rw [addrHex_of D lc hk', hdrop] at hs
    have hlen : s.length = 55 := by
      have h1 := congrArg List.length hs
      rw [List.length_map, List.length_drop, List.length_append, encode_length, encode_length, lc] at h1
      have h2 : (if k = 0 then D 5 core else bnot (D 5 core)).length = 5 := by split <;> simp [hD 5 core]
      rw [h2] at h1
      omega
    rw [hsplit s, List.map_append] at hs
    obtain ⟨h1, h2⟩ := List.append_inj hs (by rw [List.length_map, List.length_take, List.length_drop, encode_length]; omega)
    unfold hexAddr
    rw [if_neg (by rw [not_or, Decidable.not_not, Decidable.not_not]; exact ⟨hlen, hp⟩), (decode_iff _ _).2 h1, (decode_iff _ _).2 h2]
    simp only
    rcases hk' with rfl | rfl
    · rw [if_pos rfl, if_pos rfl]
    · rw [if_neg (show ¬ (1 : UInt8) = 0 by decide), if_neg (bnot_ne (by rw [hD]; omega)), if_pos (bnot_bnot _).symm]

/-- **C32.** The text of an address is read as that address. -/
theorem address_roundtrip (D : Digest) (hD : Sized D) {a : Bytes} (ha : IsAddr a) : hexAddr D (addrHex D a) = some a := by
  obtain ⟨hl, hk⟩ := ha
  obtain ⟨k, hk, hk'⟩ : ∃ k : UInt8, a[20]? = some k ∧ (k = 0 ∨ k = 1) := by
    rcases hk with hk | hk
    · exact ⟨0, hk, Or.inl rfl⟩
    · exact ⟨1, hk, Or.inr rfl⟩
  have hsp := addr_split hl hk
  have lc : (a.take 20).length = 20 := by rw [List.length_take]; omega
  have hlow : ∀ b, (encode b).map lower = encode b := fun b => (decode_iff _ _).1 (decode_encode b)
  rw [address_accepted D hD]
  refine ⟨⟨hl, by rcases hk' with rfl | rfl <;> simp [hk]⟩, ?_⟩
  rw [hsp, addrHex_of D lc hk']
  refine ⟨rfl, ?_⟩
  change (encode _ ++ encode _).map lower = encode _ ++ encode _
  rw [List.map_append, hlow, hlow]

/-- **C32.** Different addresses have different texts, even if case is disregarded. -/
theorem address_texts_differ (D : Digest) (hD : Sized D) {a b : Bytes} (ha : IsAddr a) (hb : IsAddr b) (h : (addrHex D a).map lower = (addrHex D b).map lower) : a = b := by
  have h1 := address_roundtrip D hD ha
  have h2 := (address_accepted D hD _ _).1 h1
  have h3 := address_roundtrip D hD hb
  obtain ⟨-, h4, h5⟩ := (address_accepted D hD _ _).1 h3
  have : hexAddr D (addrHex D b) = some a := by
    rw [address_accepted D hD]
    refine ⟨ha, h4, ?_⟩
    rw [← h2.2.2, List.map_drop, List.map_drop, h]
  rw [h3] at this
  injection this with this
  exact this.symm

/-- Twenty-one bytes of another kind have a text that is not read as any address. -/
theorem other_kind_refused (D : Digest) {a : Bytes} {k : UInt8} (hk : a[20]? = some k) (h0 : k ≠ 0) (h1 : k ≠ 1) : hexAddr D (addrHex D a) = none := by
  have he : addrHex D a = errPrefix ++ decimal k ++ [93] := by
    unfold addrHex
    rw [hk]
    simp only
    rw [if_neg h0, if_neg h1]
  unfold hexAddr
  rw [if_pos]
  left
  rw [he]
  have : (decimal k).length ≤ 3 := by
    unfold decimal
    simp only
    split
    · simp
    · split <;> simp
  have : errPrefix.length = 14 := rfl
  rw [List.length_append, List.length_append]
  simp only [List.length_cons, List.length_nil]
  omega

/-! ### Token ids -/

/-- **C32.** The same of token ids. -/
theorem token_accepted (D : Digest) (hD : Sized D) (s t : Bytes) :
    hexToken D s = some t ↔ t.length = 10 ∧ s.take 4 = tokenPrefix ∧ (s.drop 4).map lower = (tokenHex D t).drop 4 := by
  have hdrop : ∀ x y : Bytes, (tokenPrefix ++ x ++ y).drop 4 = x ++ y := by intro x y; rfl
  have hsplit : ∀ s : Bytes, s.drop 4 = (s.drop 4).take 20 ++ s.drop 24 := by
    intro s
    conv => lhs; rw [← List.take_append_drop 20 (s.drop 4)]
    rw [List.drop_drop]
  constructor
  · intro h
    unfold hexToken at h
    split at h
    · exact absurd h (by simp)
    · rename_i hc
      rw [not_or, Decidable.not_not, Decidable.not_not] at hc
      split at h
      · rename_i t' sum hcore hsum
        have l1 := decode_length hcore
        rw [List.length_take, List.length_drop] at l1
        have e1 := (decode_iff _ _).1 hcore
        have e2 := (decode_iff _ _).1 hsum
        split at h
        · rename_i hk
          injection h with h
          subst h
          refine ⟨by omega, hc.2, ?_⟩
          unfold tokenHex
          rw [hdrop, hsplit s, List.map_append, e1, e2, hk]
        · exact absurd h (by simp)
      · exact absurd h (by simp)
  · rintro ⟨hl, hp, hs⟩
    unfold tokenHex at hs
    rw [hdrop] at hs
    have hlen : s.length = 28 := by
      have h1 := congrArg List.length hs
      rw [List.length_map, List.length_drop, List.length_append, encode_length, encode_length, hl, hD] at h1
      omega
    rw [hsplit s, List.map_append] at hs
    obtain ⟨h1, h2⟩ := List.append_inj hs (by rw [List.length_map, List.length_take, List.length_drop, encode_length]; omega)
    unfold hexToken
    rw [if_neg (by rw [not_or, Decidable.not_not, Decidable.not_not]; exact ⟨hlen, hp⟩), (decode_iff _ _).2 h1, (decode_iff _ _).2 h2]
    simp only
    exact if_pos trivial

/-- **C32.** The text of a token id is read as that token id. -/
theorem token_roundtrip (D : Digest) (hD : Sized D) {t : Bytes} (ht : t.length = 10) : hexToken D (tokenHex D t) = some t := by
  have hlow : ∀ b, (encode b).map lower = encode b := fun b => (decode_iff _ _).1 (decode_encode b)
  rw [token_accepted D hD]
  refine ⟨ht, rfl, ?_⟩
  change (encode _ ++ encode _).map lower = encode _ ++ encode _
  rw [List.map_append, hlow, hlow]

/-- **C32.** Different token ids have different texts, even if case is disregarded. -/
theorem token_texts_differ (D : Digest) (hD : Sized D) {a b : Bytes} (ha : a.length = 10) (hb : b.length = 10) (h : (tokenHex D a).map lower = (tokenHex D b).map lower) : a = b := by
  have h2 := (token_accepted D hD _ _).1 (token_roundtrip D hD ha)
  have h3 := token_roundtrip D hD hb
  obtain ⟨-, h4, -⟩ := (token_accepted D hD _ _).1 h3
  have : hexToken D (tokenHex D b) = some a := by
    rw [token_accepted D hD]
    refine ⟨ha, h4, ?_⟩
    rw [← h2.2.2, List.map_drop, List.map_drop, h]
  rw [h3] at this
  injection this with this
  exact this.symm

/-! ### Hashes and group ids -/

/-- **C32.** A text is read as a hash (32 bytes) or a group id (10) iff it is its hexadecimal form but for case. -/
theorem bytes_accepted (n : Nat) (s b : Bytes) : hexBytes n s = some b ↔ b.length = n ∧ s.map lower = encode b := by
  unfold hexBytes
  constructor
  · intro h
    split at h
    · exact absurd h (by simp)
    · rename_i hc
      have := decode_length h
      exact ⟨by omega, (decode_iff _ _).1 h⟩
  · rintro ⟨hl, h⟩
    have h1 := (decode_iff _ _).2 h
    have := decode_length h1
    rw [if_neg (by omega), h1]

theorem bytes_roundtrip {n : Nat} {b : Bytes} (h : b.length = n) : hexBytes n (encode b) = some b :=
  (bytes_accepted n _ _).2 ⟨h, (decode_iff _ _).1 (decode_encode b)⟩

/-! ### JSON and text -/

theorem quote_isString (s : Bytes) : isString (quote s) = true := by
  unfold isString quote
  rw [decide_eq_true_iff]
  refine ⟨by simp, rfl, ?_⟩
  rw [← List.cons_append, List.getLast?_concat]

theorem trimOnce_quote (s : Bytes) : trimOnce (quote s) = s := by
  unfold trimOnce
  rw [if_pos (quote_isString s)]
  unfold quote
  simp

theorem dropWhile_self {l : Bytes} (h : l.head? ≠ some 34) : l.dropWhile (· == 34) = l := by
  cases l with
  | nil => rfl
  | cons x l =>
    rw [List.dropWhile_cons_of_neg]
    intro hx
    apply h
    simp at hx
    simp [hx]

theorem trimQuotes_quote {s : Bytes} (hh : s.head? ≠ some 34) (hl : s.getLast? ≠ some 34) (hn : s ≠ []) : trimQuotes (quote s) = s := by
  unfold trimQuotes quote
  rw [List.dropWhile_cons_of_pos (by rfl)]
  rw [dropWhile_self (l := s ++ [34]) (by cases s with | nil => exact absurd rfl hn | cons x l => simpa using hh)]
  rw [List.reverse_append]
  change (List.dropWhile (· == 34) (34 :: s.reverse)).reverse = s
  rw [List.dropWhile_cons_of_pos (by rfl), dropWhile_self (by rw [List.head?_reverse]; exact hl), List.reverse_reverse]

theorem encode_no_quote {b : Bytes} : 34 ∉ encode b := by
  induction b with
  | nil => simp [encode]
  | cons x l ih =>
    have hx := x.toNat_lt
    simp only [encode, List.mem_cons, not_or]
    exact ⟨(digit_facts ⟨x.toNat / 16, by omega⟩).2.symm, (digit_facts ⟨x.toNat % 16, by omega⟩).2.symm, ih⟩

theorem addrHex_no_quote (D : Digest) {a : Bytes} (ha : IsAddr a) : 34 ∉ addrHex D a ∧ addrHex D a ≠ [] := by
  obtain ⟨hl, hk⟩ := ha
  obtain ⟨k, hk, hk'⟩ : ∃ k : UInt8, a[20]? = some k ∧ (k = 0 ∨ k = 1) := by
    rcases hk with hk | hk
    · exact ⟨0, hk, Or.inl rfl⟩
    · exact ⟨1, hk, Or.inr rfl⟩
  have hsp := addr_split hl hk
  have lc : (a.take 20).length = 20 := by rw [List.length_take]; omega
  rw [hsp, addrHex_of D lc hk']
  constructor
  · rw [List.mem_append, List.mem_append, not_or, not_or]
    exact ⟨⟨by decide, encode_no_quote⟩, encode_no_quote⟩
  · simp [addrPrefix]

/-- **C32.** An address or token id in JSON is read back. -/
theorem address_json_roundtrip (D : Digest) (hD : Sized D) {a : Bytes} (ha : IsAddr a) : addrUnmarshal D (quote (addrMarshal D a)) = some a := by
  unfold addrUnmarshal addrMarshal
  obtain ⟨hq, hn⟩ := addrHex_no_quote D ha
  rw [if_pos (quote_isString _), trimQuotes_quote (fun h => hq (List.mem_of_head? h)) (fun h => hq (List.mem_of_getLast? h)) hn]
  exact address_roundtrip D hD ha

theorem token_json_roundtrip (D : Digest) (hD : Sized D) {t : Bytes} (ht : t.length = 10) : tokenUnmarshal D (quote (tokenMarshal D t)) = some t := by
  unfold tokenUnmarshal tokenMarshal
  rw [if_pos (quote_isString _), trimOnce_quote]
  exact token_roundtrip D hD ht

/-- What `MarshalText` writes is never read by `UnmarshalText`, which asks for quotes. -/
theorem text_not_read_back (D : Digest) {a t : Bytes} (ha : IsAddr a) : addrUnmarshal D (addrMarshal D a) = none ∧ tokenUnmarshal D (tokenMarshal D t) = none := by
  obtain ⟨hq, hn⟩ := addrHex_no_quote D ha
  constructor
  · unfold addrUnmarshal addrMarshal
    rw [if_neg]
    unfold isString
    rw [decide_eq_true_iff]
    rintro ⟨-, h, -⟩
    exact hq (List.mem_of_head? h)
  · unfold tokenUnmarshal tokenMarshal
    rw [if_neg]
    unfold isString tokenHex tokenPrefix
    rw [decide_eq_true_iff]
    rintro ⟨-, h, -⟩
    simp at h

/-! ### Contract metadata -/

/-- Metadata as it is: the sizes of the Go arrays. -/
def Meta.Ok (m : Meta) : Prop := m.gid.length = 10 ∧ m.createHash.length = 32

/-- **C31.** Metadata that is written is read back. -/
theorem meta_roundtrip {m : Meta} (h : m.Ok) : Meta.deserialize m.serialize = some m := by
  obtain ⟨g, s, c, q, d⟩ := m
  obtain ⟨hg, hc⟩ := h
  simp only at hg hc
  have h10 : (g ++ [s] ++ c ++ [q] ++ [d])[10]? = some s := by simp [hg]
  have h43 : (g ++ [s] ++ c ++ [q] ++ [d])[43]? = some q := by simp [hg, hc]
  have h44 : (g ++ [s] ++ c ++ [q] ++ [d])[44]? = some d := by simp [hg, hc]
  have ht : (g ++ [s] ++ c ++ [q] ++ [d]).take 10 = g := by
    simp only [List.append_assoc]; rw [List.take_append_of_le_length (by omega), List.take_of_length_le (by omega)]
  have hd : ((g ++ [s] ++ c ++ [q] ++ [d]).drop 11).take 32 = c := by
    have : (g ++ [s] ++ c ++ [q] ++ [d]).drop 11 = c ++ [q] ++ [d] := by
      rw [List.append_assoc, List.append_assoc, List.drop_append_of_le_length (by simp [hg]), List.drop_of_length_le (by simp [hg])]; simp
    rw [this, List.append_assoc, List.take_append_of_le_length (by omega), List.take_of_length_le (by omega)]
  unfold Meta.deserialize Meta.serialize
  simp only
  rw [h10, h43, h44, ht, hd]

/-- **C31.** The form of 44 bytes that was written before the seed fork is read with as many confirmations for seeds as for sends. -/
theorem meta_legacy {m : Meta} (h : m.Ok) : Meta.deserialize (m.serialize.take 44) = some { m with seedConfirmed := m.sendConfirmed } := by
  obtain ⟨g, s, c, q, d⟩ := m
  obtain ⟨hg, hc⟩ := h
  simp only at hg hc
  have ht44 : (g ++ [s] ++ c ++ [q] ++ [d]).take 44 = g ++ [s] ++ c ++ [q] := by
    rw [List.take_append_of_le_length (by simp [hg, hc]), List.take_of_length_le (by simp [hg, hc])]
  have h10 : (g ++ [s] ++ c ++ [q])[10]? = some s := by simp [hg]
  have h43 : (g ++ [s] ++ c ++ [q])[43]? = some q := by simp [hg, hc]
  have h44 : (g ++ [s] ++ c ++ [q])[44]? = none := by rw [List.getElem?_eq_none_iff]; simp [hg, hc]
  have ht : (g ++ [s] ++ c ++ [q]).take 10 = g := by
    simp only [List.append_assoc]; rw [List.take_append_of_le_length (by omega), List.take_of_length_le (by omega)]
  have hd : ((g ++ [s] ++ c ++ [q]).drop 11).take 32 = c := by
    have : (g ++ [s] ++ c ++ [q]).drop 11 = c ++ [q] := by
      rw [List.append_assoc, List.drop_append_of_le_length (by simp [hg]), List.drop_of_length_le (by simp [hg])]; simp
    rw [this, List.take_append_of_le_length (by omega), List.take_of_length_le (by omega)]
  unfold Meta.deserialize Meta.serialize
  simp only
  rw [ht44, h10, h43, h44, ht, hd]

/-- **C31.** Different metadata have different stored forms. -/
theorem meta_inj {a b : Meta} (ha : a.Ok) (hb : b.Ok) (h : a.serialize = b.serialize) : a = b := by
  have h1 := meta_roundtrip ha
  rw [h, meta_roundtrip hb] at h1
  injection h1 with h1
  exact h1.symm

/-- Fewer than 44 bytes stop the program; nothing else does. -/
theorem meta_panics_iff (b : Bytes) : Meta.deserialize b = none ↔ b.length < 44 := by
  unfold Meta.deserialize
  by_cases h : b.length < 44
  · have h43 : b[43]? = none := List.getElem?_eq_none_iff.2 (by omega)
    rw [h43]
    constructor
    · intro _; exact h
    · intro _; split <;> simp_all
  · have h1 : b[10]? = some b[10] := List.getElem?_eq_getElem (by omega)
    have h2 : b[43]? = some b[43] := List.getElem?_eq_getElem (by omega)
    rw [h1, h2]
    simp [h]

/-! ### A case -/

/-- A digest to try with. -/
def exDigest : Digest := fun n b => List.replicate n (UInt8.ofNat (num b))

theorem exDigest_sized : Sized exDigest := fun n b => by simp [exDigest]

example : IsAddr (List.replicate 20 171 ++ [1]) ∧ (addrHex exDigest (List.replicate 20 171 ++ [1])).length = 55 := by
  unfold IsAddr; decide +kernel

/-- Letters of both cases are read. -/
example : hexAddr exDigest (addrPrefix ++ List.replicate 40 65 ++ List.replicate 10 97) = some (List.replicate 20 170 ++ [0]) := by decide +kernel

example : hexToken exDigest (tokenHex exDigest [1, 2, 3, 4, 5, 6, 7, 8, 9, 250]) = some [1, 2, 3, 4, 5, 6, 7, 8, 9, 250] := by decide +kernel

example : (⟨List.replicate 10 2, 5, List.replicate 32 9, 10, 3⟩ : Meta).Ok := ⟨rfl, rfl⟩

end Verif.Text
