import Verif.Net.CodecModel

/-!
# Messages arrive as they were sent

Property C80. -/

namespace Verif.Net

open Verif.Bytes

/-- The compression gives back what was compressed. -/
def Zip.Faithful (z : Zip) : Prop := ∀ p, z.dec (z.enc p) = some p

/-- A message that can be sent: a 32-bit id, and a content that takes at most 2^24-1 bytes as it is sent. -/
def Fits (z : Zip) (min : Int) (m : Msg) : Prop := m.id < 2 ^ 32 ∧ (squeeze z min m.payload).1.length < 2 ^ 24

theorem varLen_lt (n : Nat) : n < 256 ^ varLen n := by
  induction n using varLen.induct with
  | case1 => simp [varLen]
  | case2 n h ih =>
    rw [varLen, if_neg h, Nat.add_comm, pow_succ]
    omega

theorem varLen_le {n k : Nat} (h : n < 256 ^ k) : varLen n ≤ k := by
  induction k generalizing n with
  | zero =>
    have : n = 0 := by simpa using h
    subst this
    simp [varLen]
  | succ k ih =>
    rw [varLen]
    split
    · omega
    · have := ih (n := n / 256) (by rw [pow_succ] at h; omega)
      omega

theorem le_varLen {n k : Nat} (h : 256 ^ k ≤ n) : k < varLen n := by
  by_contra hk
  have h1 := varLen_lt n
  have h2 : 256 ^ varLen n ≤ 256 ^ k := Nat.pow_le_pow_right (by omega) (by omega)
  omega

theorem putId_spec {id : Nat} (h : id < 2 ^ 32) : num (putId id) = id ∧ ((putId id).length = 0 ∨ (putId id).length = 1 ∨ (putId id).length = 2 ∨
    (putId id).length = 4) := by
  unfold putId
  split
  · rename_i h0; subst h0; simp
  · split
    · rw [num_be, be_length, Nat.mod_eq_of_lt (by norm_num at h ⊢; omega)]; simp
    · split
      · rw [num_be, be_length, Nat.mod_eq_of_lt (by norm_num; omega)]; simp
      · rw [num_be, be_length, Nat.mod_eq_of_lt (by norm_num; omega)]; simp

theorem meta_round {i l : Nat} (hi : i = 0 ∨ i = 1 ∨ i = 2 ∨ i = 4) (hl : l ≤ 3) (c : Bool) :
    retrieveMeta (storeMeta (UInt8.ofNat i) (UInt8.ofNat l) c) = (UInt8.ofNat i, UInt8.ofNat l, c) := by
  have : l = 0 ∨ l = 1 ∨ l = 2 ∨ l = 3 := by omega
  rcases hi with rfl | rfl | rfl | rfl <;> rcases this with rfl | rfl | rfl | rfl <;> cases c <;> decide

theorem readFull_append (a b : Bytes) : readFull a.length (a ++ b) = some (a, b) := by
  unfold readFull
  rw [if_pos (by simp)]
  simp

theorem readFull_append' {n : Nat} {a b : Bytes} (h : a.length = n) : readFull n (a ++ b) = some (a, b) := by rw [← h]; exact readFull_append a b

theorem squeeze_back {z : Zip} (hz : z.Faithful) (min : Int) (p : Bytes) :
    (if (squeeze z min p).2 then z.dec (squeeze z min p).1 else some (squeeze z min p).1) = some p := by
  unfold squeeze
  split
  · simp [hz p]
  · simp

/-- **C80.** A message that fits is written without a panic, and whoever reads the connection from there gets that message, whatever follows. -/
theorem read_write {z : Zip} (hz : z.Faithful) {min : Int} {m : Msg} (h : Fits z min m) :
    ∃ w, write z min m = some w ∧ ∀ rest, read z (w ++ rest) = .ok (m, rest) := by
  obtain ⟨hid, hlen⟩ := h
  obtain ⟨h1, h2⟩ := putId_spec hid
  have hv : varLen (squeeze z min m.payload).1.length ≤ 3 := varLen_le (by norm_num at hlen ⊢; omega)
  have hb := squeeze_back hz min m.payload
  unfold write
  generalize squeeze z min m.payload = sq at hlen hv hb
  obtain ⟨p, c⟩ := sq
  simp only at hlen hv hb ⊢
  have hput : putVarint (9 - 2 - (putId m.id).length) p.length = some (be (varLen p.length) p.length) := by
    unfold putVarint
    rw [if_pos (by omega)]
  rw [hput]
  refine ⟨_, rfl, fun rest => ?_⟩
  simp only [be_length]
  unfold read
  have e : ∀ x y : UInt8, x :: y :: (putId m.id ++ be (varLen p.length) p.length ++ p) ++ rest =
      [x, y] ++ (putId m.id ++ (be (varLen p.length) p.length ++ (p ++ rest))) := by simp
  rw [e, readFull_append' (n := 2) rfl]
  simp only [List.getD_cons_zero, List.getD_cons_succ, meta_round h2 hv c]
  have hi8 : (UInt8.ofNat (putId m.id).length).toNat = (putId m.id).length := by rcases h2 with h2 | h2 | h2 | h2 <;> rw [h2] <;> rfl
  have hl8 : (UInt8.ofNat (varLen p.length)).toNat = varLen p.length := by
    simp
    omega
  rw [hi8, readFull_append]
  simp only [hl8]
  rw [readFull_append' (be_length _ _)]
  simp only
  have hnum : num (be (varLen p.length) p.length) = p.length := by rw [num_be, Nat.mod_eq_of_lt (varLen_lt _)]
  rw [hnum, if_neg (by unfold maxPayloadSize; omega), readFull_append]
  simp only [h1]
  cases c with
  | true =>
    simp only [if_true] at hb ⊢
    rw [hb]
  | false =>
    simp only [Bool.false_eq_true, if_false, Option.some.injEq] at hb ⊢
    rw [hb]

/-- **C80.** Messages written one after the other are read one after the other, all of them and in their order. -/
theorem readAll_writeAll {z : Zip} (hz : z.Faithful) {min : Int} {l : List Msg} (h : ∀ m ∈ l, Fits z min m) :
    ∃ w, writeAll z min l = some w ∧ ∀ rest, readAll z l.length (w ++ rest) = (l, rest) := by
  induction l with
  | nil => exact ⟨[], rfl, fun rest => rfl⟩
  | cons m l ih =>
    obtain ⟨w1, h1, h2⟩ := read_write hz (h m List.mem_cons_self)
    obtain ⟨w2, h3, h4⟩ := ih (fun x hx => h x (List.mem_cons_of_mem _ hx))
    refine ⟨w1 ++ w2, by rw [writeAll, h1, h3], fun rest => ?_⟩
    rw [List.length_cons, readAll, List.append_assoc, h2]
    simp only [h4]

theorem readFull_some {n : Nat} {s a b : Bytes} (h : readFull n s = some (a, b)) : s = a ++ b ∧ a.length = n := by
  unfold readFull at h
  split at h
  · cases h
    exact ⟨(List.take_append_drop n s).symm, by simp; omega⟩
  · cases h

theorem readFull_more {n : Nat} {s a b : Bytes} (h : readFull n s = some (a, b)) (t : Bytes) : readFull n (s ++ t) = some (a, b ++ t) := by
  obtain ⟨h1, h2⟩ := readFull_some h
  rw [h1, List.append_assoc]
  exact readFull_append' h2

/-- **C80.** What is read does not depend on what comes after it. -/
theorem read_more {z : Zip} {s : Bytes} {m : Msg} {r : Bytes} (h : read z s = .ok (m, r)) (t : Bytes) : read z (s ++ t) = .ok (m, r ++ t) := by
  unfold read at h ⊢
  cases h1 : readFull 2 s with
  | none => rw [h1] at h; cases h
  | some p1 =>
    rw [h1] at h
    rw [readFull_more h1]
    simp only at h ⊢
    cases h2 : readFull (retrieveMeta (p1.1.getD 0 0)).1.toNat p1.2 with
    | none => rw [h2] at h; cases h
    | some p2 =>
      rw [h2] at h
      rw [readFull_more h2]
      simp only at h ⊢
      cases h3 : readFull (retrieveMeta (p1.1.getD 0 0)).2.1.toNat p2.2 with
      | none => rw [h3] at h; cases h
      | some p3 =>
        rw [h3] at h
        rw [readFull_more h3]
        simp only at h ⊢
        split
        · rename_i hl; rw [if_pos hl] at h; cases h
        · rename_i hl
          rw [if_neg hl] at h
          cases h4 : readFull (num p3.1) p3.2 with
          | none => rw [h4] at h; cases h
          | some p4 =>
            rw [h4] at h
            rw [readFull_more h4]
            simp only at h ⊢
            split
            · rename_i hc
              rw [if_pos hc] at h
              cases h5 : z.dec p4.1 with
              | none => rw [h5] at h; cases h
              | some q => rw [h5] at h; cases h; rfl
            · rename_i hc
              rw [if_neg hc] at h
              cases h
              rfl

/-- **C80.** A message that is cut off is not read as another: reading reports that the connection ended. -/
theorem cut_short {z : Zip} (hz : z.Faithful) {min : Int} {m : Msg} (h : Fits z min m) {w a b : Bytes} (hw : write z min m = some w)
    (hab : w = a ++ b) (hb : b ≠ []) : ∀ x, read z a ≠ .ok x := by
  rintro ⟨m', r⟩ hx
  obtain ⟨w', h1, h2⟩ := read_write hz h
  rw [hw] at h1
  cases h1
  have h3 := h2 []
  rw [List.append_nil, hab, read_more hx b] at h3
  simp only [Except.ok.injEq, Prod.mk.injEq, List.append_eq_nil_iff] at h3
  exact hb h3.2.2

/-- **C80.** Reading a message takes at least two bytes off the connection and at most 9 + (2^24 - 1), whatever the other side wrote. -/
theorem read_bounds {z : Zip} {s : Bytes} {m : Msg} {r : Bytes} (h : read z s = .ok (m, r)) :
    ∃ a, s = a ++ r ∧ 2 ≤ a.length ∧ a.length ≤ 9 + (2 ^ 24 - 1) ∧ m.id < 2 ^ 32 := by
  unfold read at h
  cases h1 : readFull 2 s with
  | none => rw [h1] at h; cases h
  | some p1 =>
    rw [h1] at h
    simp only at h
    cases h2 : readFull (retrieveMeta (p1.1.getD 0 0)).1.toNat p1.2 with
    | none => rw [h2] at h; cases h
    | some p2 =>
      rw [h2] at h
      simp only at h
      cases h3 : readFull (retrieveMeta (p1.1.getD 0 0)).2.1.toNat p2.2 with
      | none => rw [h3] at h; cases h
      | some p3 =>
        rw [h3] at h
        simp only at h
        split at h
        · cases h
        · rename_i hl
          cases h4 : readFull (num p3.1) p3.2 with
          | none => rw [h4] at h; cases h
          | some p4 =>
            rw [h4] at h
            simp only at h
            obtain ⟨a1, b1⟩ := readFull_some h1
            obtain ⟨a2, b2⟩ := readFull_some h2
            obtain ⟨a3, b3⟩ := readFull_some h3
            obtain ⟨a4, b4⟩ := readFull_some h4
            have hm : ∀ x : UInt8, (retrieveMeta x).1.toNat ≤ 4 ∧ (retrieveMeta x).2.1.toNat ≤ 3 := by
              intro x
              have key : ∀ i : Fin 256, (retrieveMeta (UInt8.ofNat i)).1.toNat ≤ 4 ∧ (retrieveMeta (UInt8.ofNat i)).2.1.toNat ≤ 3 := by decide +kernel
              have := key ⟨x.toNat, x.toNat_lt⟩
              simpa using this
            obtain ⟨m1, m2⟩ := hm (p1.1.getD 0 0)
            have key : s = (p1.1 ++ p2.1 ++ p3.1 ++ p4.1) ++ p4.2 := by rw [a1, a2, a3, a4]; simp
            have hlen : (p1.1 ++ p2.1 ++ p3.1 ++ p4.1).length = 2 + (retrieveMeta (p1.1.getD 0 0)).1.toNat + (retrieveMeta (p1.1.getD 0 0)).2.1.toNat + num p3.1 := by
              simp only [List.length_append, b1, b2, b3, b4]
            have hnum : num p2.1 < 2 ^ 32 := by
              have g1 := num_lt p2.1
              have g2 : 256 ^ p2.1.length ≤ 256 ^ 4 := Nat.pow_le_pow_right (by omega) (by omega)
              norm_num at g2 ⊢
              omega
            have fin : ∀ q : Msg, q.id = num p2.1 → ∀ r', r' = p4.2 → ∃ a, s = a ++ r' ∧ 2 ≤ a.length ∧ a.length ≤ 9 + (2 ^ 24 - 1) ∧ q.id < 2 ^ 32 := by
              intro q hq r' hr'
              subst hr'
              refine ⟨_, key, by omega, ?_, by omega⟩
              rw [hlen]
              unfold maxPayloadSize at hl
              omega
            split at h
            · cases h5 : z.dec p4.1 with
              | none => rw [h5] at h; cases h
              | some q => rw [h5] at h; cases h; exact fin _ rfl _ rfl
            · cases h; exact fin _ rfl _ rfl

/-! ## Contents that are too large -/

/-- **C80 fails for contents of 2^24 bytes and more.** `WriteMsg` does not test the size; the size of the length does not fit its two bits and
changes those of the id. The other side reads a message without content, and then the content as messages. -/
theorem large_misread {z : Zip} {min : Int} {m : Msg} (hid : m.id = 0) (hu : (squeeze z min m.payload).2 = false)
    (h1 : 2 ^ 24 ≤ m.payload.length) (h2 : m.payload.length < 2 ^ 32) :
    ∃ w, write z min m = some w ∧ ∀ rest, ∃ id t, t.length = 3 ∧ read z (w ++ rest) = .ok (⟨m.code, id, []⟩, t ++ (m.payload ++ rest)) := by
  have hp : squeeze z min m.payload = (m.payload, false) := by
    unfold squeeze at hu ⊢
    split
    · rename_i h; rw [if_pos h] at hu; cases hu
    · rfl
  have hv : varLen m.payload.length = 4 := by
    have := varLen_le (n := m.payload.length) (k := 4) (by norm_num at h2 ⊢; omega)
    have := le_varLen (n := m.payload.length) (k := 3) (by norm_num at h1 ⊢; omega)
    omega
  unfold write
  rw [hp, hid]
  simp only [putId, if_true, List.length_nil]
  have hput : putVarint (9 - 2 - 0) m.payload.length = some (be 4 m.payload.length) := by
    unfold putVarint
    rw [hv]
    rfl
  rw [hput]
  refine ⟨_, rfl, fun rest => ?_⟩
  obtain ⟨b0, t, hbt⟩ : ∃ b0 t, be 4 m.payload.length = b0 :: t := by
    cases h : be 4 m.payload.length with
    | nil => have := be_length 4 m.payload.length; rw [h] at this; simp at this
    | cons b t => exact ⟨b, t, rfl⟩
  have ht : t.length = 3 := by
    have := be_length 4 m.payload.length
    rw [hbt] at this
    simpa using this
  refine ⟨num [b0], t, ht, ?_⟩
  rw [hbt, List.length_cons, ht, List.nil_append]
  have hmeta : retrieveMeta (storeMeta (UInt8.ofNat 0) (UInt8.ofNat (3 + 1)) false) = (1, 0, false) := by decide
  unfold read
  have e : ∀ x : UInt8, x :: m.code :: (b0 :: t ++ m.payload) ++ rest = [x, m.code] ++ ([b0] ++ (t ++ (m.payload ++ rest))) := by simp
  rw [e, readFull_append' (n := 2) rfl]
  simp only [List.getD_cons_zero, List.getD_cons_succ, hmeta]
  rw [readFull_append' (n := (1 : UInt8).toNat) rfl]
  simp only
  rw [show (0 : UInt8).toNat = 0 from rfl]
  simp [readFull, maxPayloadSize]

/-- With an id of four bytes such a content makes the sender panic: the head does not fit its buffer. -/
theorem large_panics {z : Zip} {min : Int} {m : Msg} (hid : 65535 < m.id) (h : 2 ^ 24 ≤ (squeeze z min m.payload).1.length) :
    write z min m = none := by
  have hl : (putId m.id).length = 4 := by
    unfold putId
    rw [if_neg (by omega), if_pos hid, be_length]
  have hv := le_varLen (n := (squeeze z min m.payload).1.length) (k := 3) (by norm_num at h ⊢; omega)
  unfold write
  generalize squeeze z min m.payload = sq at h hv
  obtain ⟨p, c⟩ := sq
  simp only at h hv ⊢
  rw [hl]
  unfold putVarint
  rw [if_neg (by omega)]

end Verif.Net
