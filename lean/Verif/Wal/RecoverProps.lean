import Verif.Wal.RecoverSpec
import Verif.Wal.JournalProps
import Verif.Store.BatchProps

/-! # Coming up after a crash (C107) -/

namespace Verif.Wal
open Verif.Bytes Verif.Store

theorem bytes_nums (b : Bytes) : bytes (nums b) = b := by
  unfold bytes nums
  rw [List.map_map]
  conv_rhs => rw [← List.map_id b]
  apply List.map_congr_left
  intro x _
  simp

theorem nums_append (a b : Bytes) : nums (a ++ b) = nums a ++ nums b := by simp [nums]

theorem encode_append (a b : Batch) : Batch.encode (a ++ b) = Batch.encode a ++ Batch.encode b := by simp [Batch.encode]

theorem encode_flatten : ∀ bs : List Batch, (bs.map fun b => nums b.encode).flatten = nums (Batch.encode bs.flatten)
  | [] => by simp [nums, Batch.encode]
  | b :: bs => by
    rw [List.map_cons, List.flatten_cons, encode_flatten bs, List.flatten_cons, encode_append, nums_append]

theorem le8_length (v : Nat) : (le8 v).length = 8 := by simp [le8]

theorem un8_le8 (v : Nat) (hv : v < 2 ^ 64) (t : List Nat) : un8 (le8 v ++ t) = v := by
  have h : le8 v = [v / 256 ^ 0 % 256, v / 256 ^ 1 % 256, v / 256 ^ 2 % 256, v / 256 ^ 3 % 256, v / 256 ^ 4 % 256, v / 256 ^ 5 % 256, v / 256 ^ 6 % 256, v / 256 ^ 7 % 256] := by
    simp [le8, List.range_succ]
  rw [h]
  simp [un8, List.range_succ]
  omega

/-- What one write leaves in the journal is read back. -/
theorem decodeToMem_group (seq expect : Nat) (bs : List Batch) (he : expect ≤ seq) (hs : seq < 2 ^ 64) (hl : bs.flatten.length < 2 ^ 32) (hb : (Batch.encode bs.flatten).length ≤ 2 ^ 32) :
    decodeToMem (groupParts seq bs).flatten expect = some (seq, bs.flatten.length, entries seq bs.flatten) := by
  have h1 : (groupParts seq bs).flatten = le8 seq ++ (le4 bs.flatten.length ++ nums (Batch.encode bs.flatten)) := by
    unfold groupParts
    rw [List.flatten_cons, encode_flatten, Nat.mod_eq_of_lt hs, Nat.mod_eq_of_lt hl, List.append_assoc]
  have hl4 : (le4 bs.flatten.length).length = 4 := by simp [le4]
  have h2 : un8 (groupParts seq bs).flatten = seq := by rw [h1, un8_le8 seq hs]
  have h3 : un4 ((groupParts seq bs).flatten.drop 8) = bs.flatten.length := by
    rw [h1, List.drop_append_of_le_length (by rw [le8_length]), List.drop_of_length_le (by rw [le8_length]), List.nil_append, un4_le4 _ (by simpa using hl)]
  have h4 : (groupParts seq bs).flatten.drop 12 = nums (Batch.encode bs.flatten) := by
    have e : le8 seq ++ (le4 bs.flatten.length ++ nums (Batch.encode bs.flatten)) = (le8 seq ++ le4 bs.flatten.length) ++ nums (Batch.encode bs.flatten) := by rw [List.append_assoc]
    have e2 : (le8 seq ++ le4 bs.flatten.length).length = 12 := by rw [List.length_append, le8_length, hl4]
    rw [h1, e, show (12 : Nat) = (le8 seq ++ le4 bs.flatten.length).length from e2.symm, List.drop_left]
  have h5 : ¬ (groupParts seq bs).flatten.length < 12 := by rw [h1, List.length_append, List.length_append, le8_length, hl4]; omega
  unfold decodeToMem
  rw [if_neg h5, h2, if_neg (by omega), h3, h4, bytes_nums, batch_read_back _ hb]
  simp

/-- The records of the journal of some writes. -/
def recsOf : Nat → List (List Batch) → List (List (List Nat))
  | _, [] => []
  | seq, w :: ws => groupParts (seq + 1) w :: recsOf (seq + w.flatten.length) ws

/-- The entries of some writes. -/
def entriesOf : Nat → List (List Batch) → List Entry
  | _, [] => []
  | seq, w :: ws => entries (seq + 1) w.flatten ++ entriesOf (seq + w.flatten.length) ws

theorem written_eq (B : Nat) (crc : List Nat → Nat) : ∀ (ws : List (List Batch)) (db : DB),
    (ws.foldl (DB.write B crc) db).seq = db.seq + (ws.flatten.flatten).length ∧ (ws.foldl (DB.write B crc) db).mem = db.mem ++ entriesOf db.seq ws ∧
      (ws.foldl (DB.write B crc) db).w = (recsOf db.seq ws).foldl (putRec B crc) db.w
  | [], db => by simp [entriesOf, recsOf]
  | w :: ws, db => by
    obtain ⟨h1, h2, h3⟩ := written_eq B crc ws (db.write B crc w)
    rw [List.foldl_cons]
    refine ⟨?_, ?_, ?_⟩
    · rw [h1]; simp [DB.write]; omega
    · rw [h2]; simp [DB.write, entriesOf]
    · rw [h3]; simp [DB.write, recsOf]

theorem recsOf_take : ∀ (ws : List (List Batch)) (seq m : Nat), (recsOf seq ws).take m = recsOf seq (ws.take m)
  | [], _, m => by simp [recsOf]
  | w :: ws, seq, m => by
    cases m with
    | zero => simp [recsOf]
    | succ m => simp [recsOf, recsOf_take ws]

theorem recsOf_length : ∀ (ws : List (List Batch)) (seq : Nat), (recsOf seq ws).length = ws.length
  | [], _ => rfl
  | w :: ws, seq => by simp [recsOf, recsOf_length ws]

theorem replay_recs : ∀ (ws : List (List Batch)) (seq expect : Nat) (mem : List Entry), expect ≤ seq + 1 → Spec.Small seq ws →
    (replay expect mem ((recsOf seq ws).map List.flatten)).2 = mem ++ entriesOf seq ws ∧
      (ws ≠ [] → (replay expect mem ((recsOf seq ws).map List.flatten)).1 = seq + (ws.flatten.flatten).length + 1)
  | [], seq, expect, mem, _, _ => by simp [recsOf, replay, entriesOf]
  | w :: ws, seq, expect, mem, he, hs => by
    have hw := hs.2 w (by simp)
    have hlen : seq + w.flatten.length + (ws.flatten.flatten).length + 1 < 2 ^ 64 := by
      have := hs.1
      simp only [List.flatten_cons, List.flatten_append, List.length_append] at this
      omega
    have hd := decodeToMem_group (seq + 1) expect w he (by omega) hw.1 hw.2
    have hs' : Spec.Small (seq + w.flatten.length) ws := ⟨hlen, fun x hx => hs.2 x (by simp [hx])⟩
    have ih := replay_recs ws (seq + w.flatten.length) (seq + 1 + w.flatten.length) (mem ++ entries (seq + 1) w.flatten) (by omega) hs'
    simp only [recsOf, List.map_cons, replay, hd]
    refine ⟨?_, fun _ => ?_⟩
    · rw [ih.1, entriesOf, List.append_assoc]
    · by_cases hn : ws = []
      · subst hn; simp [recsOf, replay]; omega
      · rw [ih.2 hn]
        simp only [List.flatten_cons, List.flatten_append, List.length_append]
        omega

/-- In a list of entries whose numbers grow, the entry found is the last change of the key. -/
theorem lookup_after (key : Bytes) : ∀ es : List Entry, (es.map (·.seq)).Pairwise (· < ·) → (lookup key es).map (·.rec_.val) = Spec.after (es.map (·.rec_)) key
  | [], _ => rfl
  | e :: es, h => by
    rw [List.map_cons, List.pairwise_cons] at h
    have ih := lookup_after key es h.2
    have hmem : ∀ (l : List Entry) (e' : Entry), lookup key l = some e' → e' ∈ l := by
      intro l
      induction l with
      | nil => intro e' h; simp [lookup] at h
      | cons x xs ih2 =>
        intro e' h
        rw [lookup] at h
        cases hx : lookup key xs with
        | none =>
          rw [hx] at h
          simp only at h
          split at h
          · simp at h; simp [h]
          · simp at h
        | some y =>
          rw [hx] at h
          simp only at h
          split at h
          · simp at h; simp [h]
          · simp at h; subst h; exact List.mem_cons_of_mem _ (ih2 _ hx)
    rw [List.map_cons, Spec.after, ← ih, lookup]
    cases hl : lookup key es with
    | none =>
      simp only [Option.map_none]
      split <;> simp
    | some e' =>
      have hlt := h.1 e'.seq (List.mem_map.mpr ⟨e', hmem es e' hl, rfl⟩)
      have hn : ¬ (e.rec_.key = key ∧ e'.seq < e.seq) := fun hc => by omega
      dsimp only
      rw [if_neg hn]
      simp

theorem entries_seq : ∀ (b : Batch) (seq : Nat), (entries seq b).map (·.rec_) = b ∧ (∀ x ∈ (entries seq b).map (·.seq), seq ≤ x ∧ x < seq + b.length) ∧ ((entries seq b).map (·.seq)).Pairwise (· < ·)
  | [], seq => by simp [entries]
  | r :: rs, seq => by
    obtain ⟨h1, h2, h3⟩ := entries_seq rs (seq + 1)
    refine ⟨by simp [entries, h1], ?_, ?_⟩
    · intro x hx
      simp only [entries, List.map_cons, List.mem_cons] at hx
      rcases hx with h | h
      · subst h; simp
      · have := h2 x h; simp only [List.length_cons]; omega
    · simp only [entries, List.map_cons, List.pairwise_cons]
      exact ⟨fun x hx => by have := h2 x hx; omega, h3⟩

theorem entriesOf_seq : ∀ (ws : List (List Batch)) (seq : Nat), (entriesOf seq ws).map (·.rec_) = ws.flatten.flatten ∧ (∀ x ∈ (entriesOf seq ws).map (·.seq), seq < x) ∧ ((entriesOf seq ws).map (·.seq)).Pairwise (· < ·)
  | [], seq => by simp [entriesOf]
  | w :: ws, seq => by
    obtain ⟨h1, h2, h3⟩ := entriesOf_seq ws (seq + w.flatten.length)
    obtain ⟨g1, g2, g3⟩ := entries_seq w.flatten (seq + 1)
    refine ⟨by rw [entriesOf, List.map_append, h1, g1, List.flatten_cons, List.flatten_append], ?_, ?_⟩
    · intro x hx
      simp only [entriesOf, List.map_append, List.mem_append] at hx
      rcases hx with h | h
      · have := g2 x h; omega
      · have := h2 x h; omega
    · simp only [entriesOf, List.map_append]
      rw [List.pairwise_append]
      refine ⟨g3, h3, fun a ha b hb => ?_⟩
      have := g2 a ha; have := h2 b hb
      omega

/-- **C107 (part).** While the database runs, reading a key gives the last change of it. -/
theorem db_reads_last (B : Nat) (crc : List Nat → Nat) (seq : Nat) (ws : List (List Batch)) (key : Bytes) :
    (lookup key (Spec.written B crc seq ws).mem).map (·.rec_.val) = Spec.after (ws.flatten.flatten) key := by
  have h := (written_eq B crc ws ⟨seq, [], {}⟩).2.1
  obtain ⟨h1, _, h3⟩ := entriesOf_seq ws seq
  unfold Spec.written
  rw [h, List.nil_append, lookup_after key _ h3, h1]

/-- **C107 (part).** A crash leaves any first part of the journal. The database comes up with exactly the first `m` writes, each whole, for the greatest `m` whose bytes were there: a key has the value that these writes gave it, and the next sequence number is above all of theirs. `seq0` is the number in the manifest, which is not above the journal's first. -/
theorem db_after_crash (B : Nat) (crc : List Nat → Nat) (hB : 7 < B ∧ B ≤ 65535) (seq seq0 : Nat) (hseq : seq0 ≤ seq + 1) (ws : List (List Batch)) (hs : Spec.Small seq ws) (k : Nat) :
    ∃ m ≤ ws.length, (∀ key, (lookup key (recoverDB B crc seq0 ((Spec.written B crc seq ws).w.file.take k)).2).map (·.rec_.val) = Spec.after ((ws.take m).flatten.flatten) key) ∧
      (∀ e ∈ (recoverDB B crc seq0 ((Spec.written B crc seq ws).w.file.take k)).2, e.seq < (recoverDB B crc seq0 ((Spec.written B crc seq ws).w.file.take k)).1) ∧
      (Spec.written B crc seq (ws.take m)).w.file.length ≤ k ∧
      ∀ i, i ≤ ws.length → (Spec.written B crc seq (ws.take i)).w.file.length ≤ k → i ≤ m := by
  have hfile : ∀ ws : List (List Batch), (Spec.written B crc seq ws).w.file = journal B crc (recsOf seq ws) := by
    intro ws
    have := (written_eq B crc ws ⟨seq, [], {}⟩).2.2
    unfold Spec.written journal
    rw [this]
  obtain ⟨m, hm, h1, h2, h3⟩ := journal_crash B crc true hB (recsOf seq ws) k
  rw [recsOf_length] at hm
  have hs' : Spec.Small seq (ws.take m) := by
    refine ⟨?_, fun w hw => hs.2 w (List.mem_of_mem_take hw)⟩
    have h := hs.1
    have : ((ws.take m).flatten.flatten).length ≤ (ws.flatten.flatten).length := by
      conv_rhs => rw [← List.take_append_drop m ws]
      rw [List.flatten_append, List.flatten_append, List.length_append]
      omega
    omega
  have hr : recoverDB B crc seq0 ((Spec.written B crc seq ws).w.file.take k) = replay seq0 [] ((recsOf seq (ws.take m)).map List.flatten) := by
    unfold recoverDB
    rw [hfile, h1, recsOf_take]
  have hrep := replay_recs (ws.take m) seq seq0 [] hseq hs'
  obtain ⟨e1, e2, e3⟩ := entriesOf_seq (ws.take m) seq
  refine ⟨m, hm, ?_, ?_, ?_, ?_⟩
  · intro key
    rw [hr, hrep.1, List.nil_append, lookup_after key _ e3, e1]
  · intro e he
    rw [hr, hrep.1, List.nil_append] at he
    by_cases hn : ws.take m = []
    · rw [hn] at he; simp [entriesOf] at he
    · rw [hr, hrep.2 hn]
      have hub : ∀ (ws : List (List Batch)) (seq : Nat), ∀ e ∈ entriesOf seq ws, e.seq ≤ seq + (ws.flatten.flatten).length := by
        intro ws
        induction ws with
        | nil => intro seq e he; simp [entriesOf] at he
        | cons w ws ih =>
          intro seq e he
          simp only [entriesOf, List.mem_append] at he
          simp only [List.flatten_cons, List.flatten_append, List.length_append]
          rcases he with h | h
          · have := (entries_seq w.flatten (seq + 1)).2.1 e.seq (List.mem_map.mpr ⟨e, h, rfl⟩); omega
          · have := ih _ e h; omega
      have := hub _ _ e he
      omega
  · rw [hfile, ← recsOf_take]; exact h2
  · intro i hi hl
    rw [hfile, ← recsOf_take] at hl
    exact h3 i (by rw [recsOf_length]; exact hi) hl

end Verif.Wal
