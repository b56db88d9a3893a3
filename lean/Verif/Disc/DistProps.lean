import Verif.Disc.DistSpec

/-!
# The distance is the one of a binary tree, and random identities have the
distance that is asked for
-/

namespace Verif.Disc

theorem byteBits_length (x : Byte) : (byteBits x).length = 8 := by simp [byteBits]

theorem bits_length (a : Id) : (bits a).length = 8 * a.length := by
  induction a with
  | nil => rfl
  | cons x xs ih =>
    have : bits (x :: xs) = byteBits x ++ bits xs := by simp [bits]
    rw [this, List.length_append, byteBits_length, ih, List.length_cons]; omega

theorem bits_cons (x : Byte) (xs : Id) : bits (x :: xs) = byteBits x ++ bits xs := by simp [bits]

theorem bits_append (xs ys : Id) : bits (xs ++ ys) = bits xs ++ bits ys := by simp [bits]

/-- Leading falses. -/
def zerosOf : List Bool → Nat
  | false :: xs => 1 + zerosOf xs
  | _ => 0

theorem agree_zipWith (xs ys : List Bool) (h : xs.length = ys.length) :
    agree xs ys = zerosOf (List.zipWith xor xs ys) := by
  induction xs generalizing ys with
  | nil => cases ys <;> simp_all [agree, zerosOf]
  | cons x xs ih =>
    cases ys with
    | nil => simp at h
    | cons y ys =>
      have := ih ys (by simpa using h)
      cases x <;> cases y <;> simp_all [agree, zerosOf]

theorem byteBits_xor (x y : Byte) :
    List.zipWith xor (byteBits x) (byteBits y) = byteBits (x ^^^ y) := by
  simp [byteBits, List.range, List.range.loop, BitVec.getMsbD_xor]

theorem lead_byteBits_all : ∀ i : Fin 256, i.val ≠ 0 →
    lead 8 (BitVec.ofFin i) = zerosOf (byteBits (BitVec.ofFin i)) := by
  decide +kernel

theorem lead_byteBits (x : Byte) (h : x ≠ 0) : lead 8 x = zerosOf (byteBits x) := by
  have := lead_byteBits_all x.toFin (by
    intro h0; apply h; apply BitVec.eq_of_toNat_eq; simpa using h0)
  simpa using this

theorem agree_self (xs : List Bool) : agree xs xs = xs.length := by
  induction xs with
  | nil => rfl
  | cons x xs ih => simp [agree, ih]; omega

theorem agree_append_same (xs ys zs : List Bool) :
    agree (xs ++ ys) (xs ++ zs) = xs.length + agree ys zs := by
  induction xs with
  | nil => simp
  | cons x xs ih => simp [agree, ih]; omega

theorem byteBits_inj (x y : Byte) (h : byteBits x = byteBits y) : x = y := by
  simp only [byteBits, List.map_inj_left, List.mem_range] at h
  apply BitVec.eq_of_getMsbD_eq
  intro i hi; exact h i hi

theorem agree_le_left (xs ys : List Bool) : agree xs ys ≤ xs.length := by
  induction xs generalizing ys with
  | nil => cases ys <;> simp [agree]
  | cons x xs ih =>
    cases ys with
    | nil => simp [agree]
    | cons y ys => have := ih ys; simp only [agree, List.length_cons]; split <;> omega

theorem agree_append_lt (xs ys us vs : List Bool) (hl : xs.length = ys.length) (hne : xs ≠ ys) :
    agree (xs ++ us) (ys ++ vs) = agree xs ys := by
  induction xs generalizing ys with
  | nil => cases ys <;> simp_all
  | cons x xs ih =>
    cases ys with
    | nil => simp at hl
    | cons y ys =>
      simp only [List.cons_append, agree]
      split
      · rename_i h; subst h
        rw [ih ys (by simpa using hl) (by intro h; exact hne (by rw [h]))]
      · rfl

theorem commonBits_agree (N : Nat) (a b : Id) (ha : a.length = N) (hb : b.length = N) :
    commonBits N a b = agree (bits a) (bits b) := by
  induction a generalizing b N with
  | nil =>
    simp only [List.length_nil] at ha; subst ha
    cases b with
    | nil => simp [commonBits, firstDiff, bits, agree]
    | cons y ys => simp at hb
  | cons x xs ih =>
    cases b with
    | nil => simp at ha hb; omega
    | cons y ys =>
      simp only [List.length_cons] at ha hb
      subst ha
      have hl : ys.length = xs.length := by omega
      rw [bits_cons, bits_cons]
      by_cases h : x = y
      · subst h
        rw [agree_append_same, byteBits_length, ← ih xs.length ys rfl hl]
        simp only [commonBits, firstDiff, ne_eq, not_true_eq_false, if_false]
        by_cases hd : firstDiff xs ys = xs.length
        · rw [if_pos (by omega), if_pos hd]; omega
        · rw [if_neg (by omega), if_neg hd]
          rw [Nat.add_comm 1 (firstDiff xs ys)]
          simp only [List.getD_cons_succ]; omega
      · rw [agree_append_lt _ _ _ _ (by rw [byteBits_length, byteBits_length])
          (fun hh => h (byteBits_inj _ _ hh))]
        simp only [commonBits, firstDiff, ne_eq, h, not_false_eq_true, if_true]
        rw [if_neg (by omega)]
        simp only [List.getD_cons_zero, Nat.mul_zero, Nat.zero_add]
        rw [agree_zipWith _ _ (by rw [byteBits_length, byteBits_length]), byteBits_xor]
        apply lead_byteBits
        intro hx; apply h
        exact BitVec.xor_eq_zero_iff.mp hx

/-- **C108 (distance).** The distance of two identities is the number of their
bits from the first place on in which they differ. -/
theorem distance_is_tree (N : Nat) (a b : Id) (ha : a.length = N) (hb : b.length = N) :
    distance N a b = 8 * N - agree (bits a) (bits b) := by
  rw [distance, commonBits_agree N a b ha hb]

theorem agree_comm (xs ys : List Bool) : agree xs ys = agree ys xs := by
  induction xs generalizing ys with
  | nil => cases ys <;> simp [agree]
  | cons x xs ih =>
    cases ys with
    | nil => simp [agree]
    | cons y ys =>
      simp only [agree]
      by_cases h : x = y
      · subst h; simp [ih ys]
      · rw [if_neg h, if_neg (fun hh => h hh.symm)]

theorem agree_trans (xs ys zs : List Bool) :
    min (agree xs ys) (agree ys zs) ≤ agree xs zs := by
  induction xs generalizing ys zs with
  | nil => simp [agree]
  | cons x xs ih =>
    cases ys with
    | nil => simp [agree]
    | cons y ys =>
      cases zs with
      | nil => simp [agree]
      | cons z zs =>
        have := ih ys zs
        simp only [agree]
        split <;> split <;> split <;> simp_all

theorem agree_full (xs ys : List Bool) (h : xs.length = ys.length)
    (ha : agree xs ys = xs.length) : xs = ys := by
  induction xs generalizing ys with
  | nil => cases ys <;> simp_all
  | cons x xs ih =>
    cases ys with
    | nil => simp at h
    | cons y ys =>
      simp only [agree, List.length_cons] at ha
      split at ha
      · rename_i hxy; subst hxy
        rw [ih ys (by simpa using h) (by omega)]
      · omega

theorem bits_inj (a b : Id) (hl : a.length = b.length) (h : bits a = bits b) : a = b := by
  induction a generalizing b with
  | nil => cases b <;> simp_all
  | cons x xs ih =>
    cases b with
    | nil => simp at hl
    | cons y ys =>
      rw [bits_cons, bits_cons] at h
      have := List.append_inj h (by rw [byteBits_length, byteBits_length])
      rw [byteBits_inj _ _ this.1, ih ys (by simpa using hl) this.2]

/-- **C108 (a metric).** The distance is 0 exactly for equal identities, it is
the same in both directions, it is at most the number of bits, and of three
distances none is above the larger of the two others. -/
theorem distance_metric (N : Nat) (a b c : Id) (ha : a.length = N) (hb : b.length = N)
    (hc : c.length = N) :
    (distance N a b = 0 ↔ a = b) ∧ distance N a b = distance N b a
      ∧ distance N a b ≤ 8 * N
      ∧ distance N a c ≤ max (distance N a b) (distance N b c) := by
  rw [distance_is_tree N a b ha hb, distance_is_tree N b a hb ha, distance_is_tree N a c ha hc,
    distance_is_tree N b c hb hc]
  have h1 := agree_le_left (bits a) (bits b)
  have hla := bits_length a
  have hlb := bits_length b
  rw [ha] at hla; rw [hb] at hlb
  refine ⟨⟨fun h => ?_, fun h => ?_⟩, by rw [agree_comm], by omega, ?_⟩
  · apply bits_inj _ _ (by rw [ha, hb])
    apply agree_full _ _ (by omega); omega
  · subst h; rw [agree_self]; omega
  · have := agree_trans (bits a) (bits b) (bits c)
    omega

theorem diff_all : ∀ i : Fin 256, ∀ bit : Fin 8,
    (0 < (((BitVec.ofFin i : Byte) <<< bit.val) >>> 7) <<< (7 - bit.val))
      ↔ (BitVec.ofFin i : Byte).getMsbD bit.val = true := by
  decide +kernel

theorem mask_all : ∀ i : Fin 256, ∀ bit : Fin 8, ∀ k : Fin 8,
    ((BitVec.ofFin i : Byte) &&& (255#8 - (1#8 <<< (7 - bit.val)))).getMsbD k.val
        = ((BitVec.ofFin i : Byte).getMsbD k.val && !decide (k = bit))
      ∧ ((BitVec.ofFin i : Byte) ||| (1#8 <<< (7 - bit.val))).getMsbD k.val
        = ((BitVec.ofFin i : Byte).getMsbD k.val || decide (k = bit)) := by
  decide +kernel

theorem keep_all : ∀ i : Fin 256, ∀ bit : Fin 8, ∀ k : Fin 8, k < bit →
    (((BitVec.ofFin i : Byte) <<< bit.val) >>> bit.val).getMsbD k.val = false
      ∧ (((BitVec.ofFin i : Byte) >>> (8 - bit.val)) <<< (8 - bit.val)).getMsbD k.val
        = (BitVec.ofFin i : Byte).getMsbD k.val := by
  decide +kernel

theorem mixByte_bits (x r : Byte) (bit : Nat) (hb : bit < 8) :
    (∀ i, i < bit → (mixByte x r bit).getMsbD i = x.getMsbD i)
      ∧ (mixByte x r bit).getMsbD bit = !x.getMsbD bit := by
  have hd := diff_all x.toFin ⟨bit, hb⟩
  simp only [BitVec.ofFin_toFin] at hd
  have hm := fun y : Byte => fun k : Fin 8 => mask_all y.toFin ⟨bit, hb⟩ k
  simp only [BitVec.ofFin_toFin] at hm
  have hk := fun y : Byte => fun k : Fin 8 => keep_all y.toFin ⟨bit, hb⟩ k
  simp only [BitVec.ofFin_toFin] at hk
  unfold mixByte
  split
  · rename_i h
    have h1 := hd.mp h
    refine ⟨fun i hi => ?_, ?_⟩
    · rw [(hm _ ⟨i, by omega⟩).1]
      have hr := hk r ⟨i, by omega⟩ hi
      have hx := hk x ⟨i, by omega⟩ hi
      rw [BitVec.getMsbD_or, hr.1, hx.2]
      have : ¬ ((⟨i, by omega⟩ : Fin 8) = ⟨bit, hb⟩) := by simp; omega
      simp [this]
    · rw [(hm _ ⟨bit, hb⟩).1, h1]; simp
  · rename_i h
    have h1 : x.getMsbD bit = false := by
      rw [← Bool.not_eq_true]; exact fun hh => h (hd.mpr hh)
    refine ⟨fun i hi => ?_, ?_⟩
    · rw [(hm _ ⟨i, by omega⟩).2]
      have hr := hk r ⟨i, by omega⟩ hi
      have hx := hk x ⟨i, by omega⟩ hi
      rw [BitVec.getMsbD_or, hr.1, hx.2]
      have : ¬ ((⟨i, by omega⟩ : Fin 8) = ⟨bit, hb⟩) := by simp; omega
      simp [this]
    · rw [(hm _ ⟨bit, hb⟩).2, h1]; simp

theorem agree_at (xs ys : List Bool) (k : Nat) (hx : k < xs.length) (hy : k < ys.length)
    (hsame : ∀ i, i < k → xs[i]? = ys[i]?) (hdiff : xs[k]? ≠ ys[k]?) : agree xs ys = k := by
  induction k generalizing xs ys with
  | zero =>
    cases xs with
    | nil => simp at hx
    | cons x xs =>
      cases ys with
      | nil => simp at hy
      | cons y ys => simp at hdiff; simp [agree, hdiff]
  | succ k ih =>
    cases xs with
    | nil => simp at hx
    | cons x xs =>
      cases ys with
      | nil => simp at hy
      | cons y ys =>
        have h0 := hsame 0 (by omega)
        simp at h0; subst h0
        simp only [agree, if_true]
        rw [ih xs ys (by simpa using hx) (by simpa using hy)
          (fun i hi => by have := hsame (i + 1) (by omega); simpa using this)
          (by simpa using hdiff)]
        omega

theorem agree_mix (x r : Byte) (bit : Nat) (hb : bit < 8) :
    agree (byteBits x) (byteBits (mixByte x r bit)) = bit := by
  obtain ⟨h1, h2⟩ := mixByte_bits x r bit hb
  apply agree_at _ _ _ (by rw [byteBits_length]; exact hb) (by rw [byteBits_length]; exact hb)
  · intro i hi
    simp [byteBits, List.getElem?_map, List.getElem?_range (show i < 8 by omega), h1 i hi]
  · simp [byteBits, List.getElem?_map, List.getElem?_range hb, h2]

/-- **C108 (random identities).** Whatever the random bytes are, the identity
made for a distance has that distance (the largest one, if more is asked for),
and it has the right length. -/
theorem rand_has_distance (N : Nat) (a rnd : Id) (d : Nat) (ha : a.length = N)
    (hr : rnd.length = N) :
    (randFromDistance N a d rnd).length = N
      ∧ distance N a (randFromDistance N a d rnd) = min d (8 * N) := by
  have hd : (if 8 * N ≤ d then 8 * N else d) = min d (8 * N) := by split <;> omega
  rw [randFromDistance, hd]
  have hm : min d (8 * N) ≤ 8 * N := by omega
  generalize min d (8 * N) = m at *
  unfold commonNBits
  split
  · rename_i h
    refine ⟨ha, ?_⟩
    rw [(distance_metric N a a a ha ha ha).1.mpr rfl]; omega
  · rename_i h
    have hlt : (8 * N - m) / 8 < N := by omega
    have hl : (a.take ((8 * N - m) / 8) ++ mixByte (a.getD ((8 * N - m) / 8) 0)
        (rnd.getD ((8 * N - m) / 8) 0) ((8 * N - m) % 8)
        :: rnd.drop ((8 * N - m) / 8 + 1)).length = N := by
      simp only [List.length_append, List.length_take, List.length_cons, List.length_drop]; omega
    refine ⟨hl, ?_⟩
    rw [distance_is_tree N _ _ ha hl]
    have hsplit : a = a.take ((8 * N - m) / 8) ++ a.getD ((8 * N - m) / 8) 0
        :: a.drop ((8 * N - m) / 8 + 1) := by
      conv_lhs => rw [← List.take_append_drop ((8 * N - m) / 8) a]
      congr 1
      rw [List.drop_eq_getElem_cons (by omega)]
      simp [List.getD_eq_getElem?_getD, List.getElem?_eq_getElem (show (8 * N - m) / 8 < a.length by omega)]
    have hbits : agree (bits a) (bits (a.take ((8 * N - m) / 8)
        ++ mixByte (a.getD ((8 * N - m) / 8) 0) (rnd.getD ((8 * N - m) / 8) 0) ((8 * N - m) % 8)
        :: rnd.drop ((8 * N - m) / 8 + 1))) = 8 * N - m := by
      have hba : bits a = bits (a.take ((8 * N - m) / 8)) ++ (byteBits (a.getD ((8 * N - m) / 8) 0)
          ++ bits (a.drop ((8 * N - m) / 8 + 1))) := by
        conv_lhs => rw [hsplit]
        rw [bits_append, bits_cons]
      rw [bits_append, hba, agree_append_same, bits_cons,
        agree_append_lt _ _ _ _ (by rw [byteBits_length, byteBits_length]), agree_mix _ _ _ (by omega),
        bits_length, List.length_take]
      · omega
      · intro hh
        have := agree_mix (a.getD ((8 * N - m) / 8) 0) (rnd.getD ((8 * N - m) / 8) 0)
          ((8 * N - m) % 8) (by omega)
        rw [← hh, agree_self, byteBits_length] at this
        omega
    rw [hbits]; omega

/-- Two identities of two bytes: 00000101 10000000 and 00000101 00000001 differ
from the ninth bit on, so that their distance is 8. -/
example : distance 2 [5, 128] [5, 1] = 8 := by decide +kernel

/-- With the same first byte and random bytes of ones: the first five bits are
kept, the sixth is turned, the rest is random. -/
example : randFromDistance 2 [5, 128] 11 [255, 255] = [3, 255]
    ∧ distance 2 [5, 128] [3, 255] = 11 := by decide +kernel

end Verif.Disc
