import Verif.Store.BatchModel
import Verif.Tactics

/-!
# Batches and redo logs can be read back

Part of C38: what is loaded is what was written, and a log that was cut loads as no log at all.
-/

namespace Verif.Store
open Verif.Bytes

theorem toNat_small {n : Nat} (h : n < 256) : (UInt8.ofNat n).toNat = n := by
  simp [UInt8.toNat_ofNat', Nat.mod_eq_of_lt h]

theorem readUvarint_spec (rest : Bytes) : ∀ (k i x n : Nat), n < 128 ^ (k + 1) → i + k < 9 →
    readUvarint i x (uvarint n ++ rest) = some (x + n * 128 ^ i, rest)
  | 0, i, x, n, hn, hi => by
    rw [uvarint, if_pos (by simpa using hn)]
    simp only [List.cons_append, List.nil_append, readUvarint]
    have h1 : (UInt8.ofNat n).toNat = n := toNat_small (by omega)
    rw [h1, if_neg (by omega), if_pos (by simpa using hn), if_neg (by omega)]
  | k + 1, i, x, n, hn, hi => by
    by_cases h : n < 128
    · rw [uvarint, if_pos h]
      simp only [List.cons_append, List.nil_append, readUvarint]
      have h1 : (UInt8.ofNat n).toNat = n := toNat_small (by omega)
      rw [h1, if_neg (by omega), if_pos h, if_neg (by omega)]
    · rw [uvarint, if_neg h]
      simp only [List.cons_append, readUvarint]
      have h1 : (UInt8.ofNat (n % 128 + 128)).toNat = n % 128 + 128 := toNat_small (by omega)
      rw [h1, if_neg (by omega), if_neg (by omega), Nat.add_sub_cancel,
        readUvarint_spec rest k (i + 1) _ (n / 128) (by rw [pow_succ] at hn; exact Nat.div_lt_of_lt_mul (by omega)) (by omega)]
      congr 2
      rw [pow_succ]
      have := Nat.div_add_mod n 128
      calc x + n % 128 * 128 ^ i + n / 128 * (128 ^ i * 128) = x + (128 * (n / 128) + n % 128) * 128 ^ i := by ring
        _ = x + n * 128 ^ i := by rw [this]

theorem readField_spec (a rest : Bytes) (h : a.length < 2 ^ 32) : readField (uvarint a.length ++ (a ++ rest)) = some (a, rest) := by
  unfold readField
  rw [readUvarint_spec _ 4 0 0 a.length (by omega) (by omega)]
  simp

theorem uvarint_ne (n : Nat) : 1 ≤ (uvarint n).length := by
  rw [uvarint]; split <;> simp

theorem Rec.encode_length (r : Rec) : 1 ≤ r.encode.length := by
  unfold Rec.encode; split <;> simp

theorem Rec.encode_key (r : Rec) : r.key.length < r.encode.length ∧ ∀ v, r.val = some v → v.length < r.encode.length := by
  unfold Rec.encode
  cases r.val with
  | none => simp; omega
  | some v => simp; constructor <;> omega

theorem decodeLoop_spec : ∀ (b : Batch) (n : Nat), b.length ≤ n → (∀ r ∈ b, r.encode.length ≤ 2 ^ 32) → decodeLoop n b.encode = some b
  | [], n, _, _ => by cases n <;> simp [Batch.encode, decodeLoop]
  | r :: b, 0, h, _ => by simp at h
  | r :: b, n + 1, h, hr => by
    have ih := decodeLoop_spec b n (by simpa using h) (fun x hx => hr x (by simp [hx]))
    have hk := r.encode_key
    have hrl := hr r (by simp)
    obtain ⟨k, v⟩ := r
    have hsplit : Batch.encode (⟨k, v⟩ :: b) = Rec.encode ⟨k, v⟩ ++ Batch.encode b := rfl
    rw [hsplit]
    simp only at hk
    cases v with
    | none =>
      simp only [Rec.encode, List.cons_append, List.append_assoc, decodeLoop]
      rw [if_neg (by decide), readField_spec k _ (by omega)]
      simp only
      rw [if_neg (by decide), ih]
      rfl
    | some v =>
      have hv := hk.2 v rfl
      simp only [Rec.encode, List.cons_append, List.append_assoc, decodeLoop]
      rw [if_neg (by decide), readField_spec k _ (by omega)]
      simp only
      rw [if_pos (by decide), readField_spec v _ (by omega)]
      simp only
      rw [ih]
      rfl

theorem Batch.length_le (b : Batch) : b.length ≤ b.encode.length := by
  induction b with
  | nil => simp
  | cons r b ih =>
    have := r.encode_length
    show b.length + 1 ≤ (r.encode ++ Batch.encode b).length
    rw [List.length_append]; omega

theorem Batch.rec_le (b : Batch) : ∀ r ∈ b, r.encode.length ≤ b.encode.length := by
  induction b with
  | nil => simp
  | cons x b ih =>
    intro r hr
    show _ ≤ (x.encode ++ Batch.encode b).length
    rw [List.length_append]
    rcases List.mem_cons.mp hr with rfl | hr
    · omega
    · have := ih r hr; omega

/-- **A batch is read back from its bytes**, up to 4 GB. -/
theorem batch_read_back (b : Batch) (h : b.encode.length ≤ 2 ^ 32) : decodeBatch b.encode = some b :=
  decodeLoop_spec b _ b.length_le (fun r hr => Nat.le_trans (b.rec_le r hr) h)

example : decodeBatch (Batch.encode [⟨[1, 2], some (List.replicate 200 7)⟩, ⟨[], none⟩, ⟨[5], some []⟩]) =
    some [⟨[1, 2], some (List.replicate 200 7)⟩, ⟨[], none⟩, ⟨[5], some []⟩] := by decide +kernel

theorem Batch.encode_nil {b : Batch} (h : b.encode = []) : b = [] := by
  have := b.length_le
  rw [h] at this
  exact List.length_eq_zero_iff.mp (by simpa using this)

/-! ### The redo log -/

/-- The entries of a log: an id of 32 bytes that is not the flag and is known, and a log of less than 4 GB. -/
def GoodEntry (flag : Bytes) (known : Bytes → Bool) (e : Bytes × Bytes) : Prop :=
  e.1.length = 32 ∧ e.1 ≠ flag ∧ known e.1 = true ∧ e.2.length < 2 ^ 32

theorem loadLoop_entry {flag : Bytes} {known : Bytes → Bool} {e : Bytes × Bytes} (h : GoodEntry flag known e) (he : e.2 ≠ []) (n : Nat)
    (rest : Bytes) (acc : List (Bytes × Bytes)) (f : Bool) :
    loadLoop flag known (n + 3) .id (logEntry e ++ rest) acc f = loadLoop flag known n .id rest (acc ++ [e]) f := by
  obtain ⟨id, log⟩ := e
  obtain ⟨h1, h2, h3, h4⟩ := h
  simp only at h1 h2 h3 h4 he
  unfold logEntry
  simp only [if_neg he, List.append_assoc]
  have hb : (be 4 log.length).length = 4 := be_length _ _
  rw [loadLoop, if_neg (by simp [h1]), List.take_append_of_le_length (by omega), List.take_of_length_le (by omega), if_neg h2, if_pos h3,
    List.drop_append_of_le_length (by omega), List.drop_of_length_le (by omega), List.nil_append]
  rw [loadLoop, if_neg (by simp [hb]), List.take_append_of_le_length (by omega), List.take_of_length_le (by omega),
    List.drop_append_of_le_length (by omega), List.drop_of_length_le (by omega), List.nil_append, num_be,
    Nat.mod_eq_of_lt (show log.length < 256 ^ 4 by omega)]
  rw [loadLoop, if_neg (by simp), List.take_left, List.drop_left]

theorem logEntry_length {e : Bytes × Bytes} (h1 : e.1.length = 32) (he : e.2 ≠ []) : (logEntry e).length = 36 + e.2.length := by
  unfold logEntry
  rw [if_neg he]
  simp only [List.length_append, h1, be_length]

theorem loadLoop_full {flag : Bytes} {known : Bytes → Bool} (hf : flag.length = 32) : ∀ (es : List (Bytes × Bytes)) (n : Nat) (acc : List (Bytes × Bytes)),
    (∀ e ∈ es, GoodEntry flag known e) → (writeLog flag es).length < n →
    loadLoop flag known n .id (writeLog flag es) acc false = some (acc ++ es.filter (fun e => e.2 ≠ []), true)
  | [], 0, _, _, hn => by simp at hn
  | [], 1, _, _, hn => by simp [writeLog, hf] at hn
  | [], n + 2, acc, _, _ => by
    have : writeLog flag [] = flag := by simp [writeLog]
    rw [this, loadLoop, if_neg (by omega), if_pos (by rw [List.take_of_length_le (by omega)]), List.drop_of_length_le (by omega), loadLoop]
    simp
  | e :: es, n, acc, h, hn => by
    have hsplit : writeLog flag (e :: es) = logEntry e ++ writeLog flag es := by simp [writeLog, List.append_assoc]
    rw [hsplit] at hn ⊢
    rw [List.length_append] at hn
    by_cases he : e.2 = []
    · have h0 : logEntry e = [] := by unfold logEntry; rw [if_pos he]
      rw [h0, List.nil_append, loadLoop_full hf es n acc (fun x hx => h x (by simp [hx])) (by rw [h0] at hn; simpa using hn)]
      simp [he]
    · have hl := logEntry_length (h e (by simp)).1 he
      obtain ⟨m, rfl⟩ : ∃ m, n = m + 3 := ⟨n - 3, by omega⟩
      rw [loadLoop_entry (h e (by simp)) he, loadLoop_full hf es m _ (fun x hx => h x (by simp [hx])) (by omega)]
      simp [he]

/-- **A complete redo log is read back.** -/
theorem log_read_back {flag : Bytes} {known : Bytes → Bool} (hf : flag.length = 32) {es : List (Bytes × Bytes)} (h : ∀ e ∈ es, GoodEntry flag known e) :
    loadLog flag known (writeLog flag es) = some (es.filter (fun e => e.2 ≠ [])) := by
  unfold loadLog
  rw [loadLoop_full hf es _ [] h (by omega)]
  simp

theorem loadLoop_cut {flag : Bytes} {known : Bytes → Bool} (hf : flag.length = 32) : ∀ (es : List (Bytes × Bytes)) (n k : Nat) (acc : List (Bytes × Bytes)),
    (∀ e ∈ es, GoodEntry flag known e) → k < (writeLog flag es).length →
    ∃ acc', loadLoop flag known n .id ((writeLog flag es).take k) acc false = some (acc', false)
  | [], 0, _, acc, _, _ => ⟨acc, rfl⟩
  | [], n + 1, k, acc, _, hk => by
    have h0 : writeLog flag [] = flag := by simp [writeLog]
    rw [h0] at hk ⊢
    exact ⟨acc, by rw [loadLoop, if_pos (by rw [List.length_take]; omega)]⟩
  | e :: es, n, k, acc, h, hk => by
    have hsplit : writeLog flag (e :: es) = logEntry e ++ writeLog flag es := by simp [writeLog, List.append_assoc]
    rw [hsplit] at hk ⊢
    rw [List.length_append] at hk
    by_cases he : e.2 = []
    · have h0 : logEntry e = [] := by unfold logEntry; rw [if_pos he]
      rw [h0, List.nil_append]
      exact loadLoop_cut hf es n k acc (fun x hx => h x (by simp [hx])) (by rw [h0] at hk; simpa using hk)
    · obtain ⟨g1, g2, g3, g4⟩ := h e (by simp)
      have hl := logEntry_length g1 he
      by_cases hc : (logEntry e).length ≤ k
      · have ht : (logEntry e ++ writeLog flag es).take k = logEntry e ++ (writeLog flag es).take (k - (logEntry e).length) := by
          rw [List.take_append, List.take_of_length_le hc]
        rw [ht]
        match n with
        | 0 => exact ⟨acc, rfl⟩
        | n + 3 =>
          rw [loadLoop_entry (h e (by simp)) he]
          exact loadLoop_cut hf es n _ _ (fun x hx => h x (by simp [hx])) (by omega)
        | 1 =>
          refine ⟨acc, ?_⟩
          obtain ⟨id, log⟩ := e
          unfold logEntry
          simp only at g1 g2 g3 g4 he ⊢
          simp only [if_neg he, List.append_assoc]
          rw [loadLoop, if_neg (by simp [g1]), List.take_append_of_le_length (by omega), List.take_of_length_le (by omega), if_neg g2, if_pos g3]
          rfl
        | 2 =>
          refine ⟨acc, ?_⟩
          obtain ⟨id, log⟩ := e
          unfold logEntry
          simp only at g1 g2 g3 g4 he ⊢
          simp only [if_neg he, List.append_assoc]
          have hb : (be 4 log.length).length = 4 := be_length _ _
          rw [loadLoop, if_neg (by simp [g1]), List.take_append_of_le_length (by omega), List.take_of_length_le (by omega), if_neg g2, if_pos g3,
            List.drop_append_of_le_length (by omega), List.drop_of_length_le (by omega), List.nil_append]
          rw [loadLoop, if_neg (by simp [hb])]
          rfl
      · -- the cut is within this entry
        refine ⟨acc, ?_⟩
        rw [List.take_append_of_le_length (by omega)]
        obtain ⟨id, log⟩ := e
        simp only at g1 g2 g3 g4 he hl
        have hb : (be 4 log.length).length = 4 := be_length _ _
        have hent : logEntry (id, log) = id ++ (be 4 log.length ++ log) := by unfold logEntry; simp [he]
        rw [hent] at hc ⊢
        rw [List.length_append, List.length_append, hb, g1] at hc
        match n with
        | 0 => rfl
        | n + 1 =>
          by_cases c1 : k < 32
          · rw [loadLoop, if_pos (by rw [List.length_take]; omega)]
          · have e1 : (id ++ (be 4 log.length ++ log)).take k = id ++ (be 4 log.length ++ log).take (k - 32) := by
              rw [List.take_append, List.take_of_length_le (by omega), g1]
            rw [e1, loadLoop, if_neg (by rw [List.length_append]; omega), List.take_append_of_le_length (by omega), List.take_of_length_le (by omega),
              if_neg g2, if_pos g3, List.drop_append_of_le_length (by omega), List.drop_of_length_le (by omega), List.nil_append]
            match n with
            | 0 => rfl
            | n + 1 =>
              by_cases c2 : k - 32 < 4
              · rw [loadLoop, if_pos (by rw [List.length_take]; omega)]
              · have e2 : (be 4 log.length ++ log).take (k - 32) = be 4 log.length ++ log.take (k - 32 - 4) := by
                  rw [List.take_append, List.take_of_length_le (by omega), hb]
                rw [e2, loadLoop, if_neg (by rw [List.length_append]; omega), List.take_append_of_le_length (by omega),
                  List.take_of_length_le (by omega), List.drop_append_of_le_length (by omega), List.drop_of_length_le (by omega), List.nil_append,
                  num_be, Nat.mod_eq_of_lt (show log.length < 256 ^ 4 by omega)]
                match n with
                | 0 => rfl
                | n + 1 => rw [loadLoop, if_pos (by rw [List.length_take]; omega)]

/-- **A redo log that is cut anywhere loads as nothing.** -/
theorem log_cut {flag : Bytes} {known : Bytes → Bool} (hf : flag.length = 32) {es : List (Bytes × Bytes)} (h : ∀ e ∈ es, GoodEntry flag known e)
    {k : Nat} (hk : k < (writeLog flag es).length) : loadLog flag known ((writeLog flag es).take k) = some [] := by
  unfold loadLog
  obtain ⟨acc, ha⟩ := loadLoop_cut hf es (((writeLog flag es).take k).length + 1) k [] h hk
  rw [ha]; rfl

example : ∀ e ∈ [(List.replicate 32 (1 : UInt8), [7, 8]), (List.replicate 32 2, []), (List.replicate 32 3, [9])],
    GoodEntry (List.replicate 32 255) (fun b => b.headD 0 < 10) e := by
  unfold GoodEntry; decide +kernel

end Verif.Store
