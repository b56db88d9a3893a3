import Verif.Block.BlockSpec
import Verif.Consensus.ElectLemmas
import Verif.Tactics

/-! Lemmas for `BlockProps`. -/

namespace Verif.Block
open Verif.Bytes Spec

/-! ### Numbers as bytes -/

theorem num_replicate_zero (k : Nat) : num (List.replicate k 0) = 0 := by
  induction k with
  | zero => rfl
  | succ k ih => rw [List.replicate_succ, num_cons, ih]; simp

theorem num_leftPad (l : Bytes) (n : Nat) : num (leftPad l n) = num l := by
  rw [leftPad, num_append, num_replicate_zero]; omega

theorem leftPad_length (l : Bytes) (n : Nat) (h : l.length ≤ n) : (leftPad l n).length = n := by
  simp only [leftPad, List.length_append, List.length_replicate]; omega

theorem num_bigBytes (x : Int) : num (bigBytes x) = x.natAbs := by
  unfold bigBytes
  by_cases h : x.natAbs = 0
  · simp [h]
  · rw [if_neg h, num_be]
    apply Nat.mod_eq_of_lt
    have h1 : x.natAbs < 2 ^ (Nat.log2 x.natAbs + 1) := Nat.lt_log2_self
    have h2 : (256 : Nat) ^ (Nat.log2 x.natAbs / 8 + 1) = 2 ^ (8 * (Nat.log2 x.natAbs / 8 + 1)) := by
      rw [Nat.pow_mul]
    rw [h2]
    exact Nat.lt_of_lt_of_le h1 (Nat.pow_le_pow_right (by decide) (by omega))

theorem bigBytes_length (x : Int) (h : x.natAbs < 2 ^ 256) : (bigBytes x).length ≤ 32 := by
  unfold bigBytes
  by_cases h0 : x.natAbs = 0
  · simp [h0]
  · rw [if_neg h0, be_length]
    have := (Nat.log2_lt h0).mpr h
    omega

theorem bigBytes_nil (x : Int) : bigBytes x = [] ↔ x = 0 := by
  unfold bigBytes
  by_cases h : x.natAbs = 0
  · simp only [h, if_true, true_iff]; omega
  · rw [if_neg h]
    constructor
    · intro hh
      have := congrArg List.length hh
      simp at this
    · omega

theorem pad_bigBytes {x y : Int} (hx : x.natAbs < 2 ^ 256) (hy : y.natAbs < 2 ^ 256) (h : leftPad (bigBytes x) 32 = leftPad (bigBytes y) 32) : x.natAbs = y.natAbs := by
  have := congrArg num h
  simpa [num_leftPad, num_bigBytes] using this

theorem pad_bigBytes_length {x : Int} (hx : x.natAbs < 2 ^ 256) : (leftPad (bigBytes x) 32).length = 32 := leftPad_length _ _ (bigBytes_length x hx)

theorem be8_inj {m n : Nat} (hm : m < 2 ^ 64) (hn : n < 2 ^ 64) (h : be 8 m = be 8 n) : m = n := by
  have := congrArg num h
  rw [num_be, num_be] at this
  have e : (256 : Nat) ^ 8 = 2 ^ 64 := by norm_num
  rw [e, Nat.mod_eq_of_lt hm, Nat.mod_eq_of_lt hn] at this
  exact this

theorem be4_inj {m n : Nat} (hm : m < 2 ^ 32) (hn : n < 2 ^ 32) (h : be 4 m = be 4 n) : m = n := by
  have := congrArg num h
  rw [num_be, num_be] at this
  have e : (256 : Nat) ^ 4 = 2 ^ 32 := by norm_num
  rw [e, Nat.mod_eq_of_lt hm, Nat.mod_eq_of_lt hn] at this
  exact this

/-- The fee as it is hashed: none counts as zero. -/
theorem feeBytes (f : Option Int) : leftPad ((f.map bigBytes).getD []) 32 = leftPad (bigBytes (f.getD 0)) 32 := by
  cases f with
  | none => simp [(bigBytes_nil 0).mpr rfl]
  | some x => rfl

/-! ### Lists -/

theorem flatten_inj {n : Nat} : ∀ {l m : List Bytes}, n ≠ 0 → (∀ x ∈ l, x.length = n) → (∀ x ∈ m, x.length = n) → l.flatten = m.flatten → l = m := by
  intro l
  induction l with
  | nil =>
    intro m hn _ hm h
    cases m with
    | nil => rfl
    | cons y m =>
      have h1 := congrArg List.length h
      have h2 := hm y (List.mem_cons_self ..)
      simp only [List.flatten_nil, List.flatten_cons, List.length_nil, List.length_append] at h1
      omega
  | cons x l ih =>
    intro m hn hl hm h
    cases m with
    | nil =>
      have h1 := congrArg List.length h
      have h2 := hl x (List.mem_cons_self ..)
      simp only [List.flatten_nil, List.flatten_cons, List.length_nil, List.length_append] at h1
      omega
    | cons y m =>
      rw [List.flatten_cons, List.flatten_cons] at h
      obtain ⟨h1, h2⟩ := List.append_inj h (by rw [hl x (List.mem_cons_self ..), hm y (List.mem_cons_self ..)])
      rw [h1, ih hn (fun z hz => hl z (List.mem_cons_of_mem _ hz)) (fun z hz => hm z (List.mem_cons_of_mem _ hz)) h2]

theorem flatten_length {n : Nat} : ∀ {l : List Bytes}, (∀ x ∈ l, x.length = n) → l.flatten.length = n * l.length := by
  intro l
  induction l with
  | nil => simp
  | cons x l ih =>
    intro h
    rw [List.flatten_cons, List.length_append, h x (List.mem_cons_self ..), ih (fun z hz => h z (List.mem_cons_of_mem _ hz)), List.length_cons]
    ring

/-! ### Account blocks -/

/-- What is hashed after the fields of the head -/
def AccountBlock.body (H : Bytes → Hash) (b : AccountBlock) : Bytes :=
  (if b.data ≠ [] then H b.data else []) ++ leftPad (bigBytes (b.fee.getD 0)) 32 ++ (b.logHash.getD []) ++ leftPad b.nonce 8 ++ (b.sends.map (·.hash)).flatten

theorem source_eq (H : Bytes → Hash) (b : AccountBlock) (x : Bytes) :
    b.source H x = [b.blockType] ++ b.prevHash ++ be 8 b.height ++ b.account ++ b.middle ++ (b.body H ++ x) := by
  simp only [AccountBlock.source, AccountBlock.body, feeBytes]

theorem source_append (H : Bytes → Hash) (b : AccountBlock) (x : Bytes) : b.source H x = b.source H [] ++ x := by
  simp only [source_eq, List.append_nil, List.append_assoc]

theorem middle_length {b : AccountBlock} (f : Fits b) : b.middle.length = if isSend b.blockType then 63 else 32 := by
  unfold AccountBlock.middle
  split
  · simp only [List.length_append, f.toAddr, pad_bigBytes_length f.amount, f.token]
  · exact f.fromHash

theorem head_of_source {H : Bytes → Hash} {b c : AccountBlock} (fb : Fits b) (fc : Fits c) {x y : Bytes} (h : b.source H x = c.source H y) :
    SameHead b c ∧ b.body H ++ x = c.body H ++ y := by
  rw [source_eq, source_eq] at h
  have ht : b.blockType = c.blockType := by
    have := congrArg List.head? h
    simpa using this
  have hm : b.middle.length = c.middle.length := by rw [middle_length fb, middle_length fc, ht]
  obtain ⟨h, hbody⟩ := List.append_inj h (by simp [fb.prevHash, fc.prevHash, fb.account, fc.account, hm])
  obtain ⟨h, hmid⟩ := List.append_inj h (by simp [fb.prevHash, fc.prevHash, fb.account, fc.account])
  obtain ⟨h, hacc⟩ := List.append_inj h (by simp [fb.prevHash, fc.prevHash])
  obtain ⟨h, hhei⟩ := List.append_inj h (by simp [fb.prevHash, fc.prevHash])
  obtain ⟨_, hprev⟩ := List.append_inj h (by simp)
  refine ⟨⟨ht, hprev, be8_inj fb.height fc.height hhei, hacc, fun hs => ?_, fun hs => ?_⟩, hbody⟩
  · have hs' : isSend c.blockType = true := ht ▸ hs
    simp only [AccountBlock.middle, hs, hs', if_true] at hmid
    obtain ⟨h1, htok⟩ := List.append_inj hmid (by simp [fb.toAddr, fc.toAddr, pad_bigBytes_length fb.amount, pad_bigBytes_length fc.amount])
    obtain ⟨hto, ham⟩ := List.append_inj h1 (by simp [fb.toAddr, fc.toAddr])
    exact ⟨hto, pad_bigBytes fb.amount fc.amount ham, htok⟩
  · have hs' : isSend c.blockType = false := ht ▸ hs
    simpa [AccountBlock.middle, hs, hs'] using hmid

theorem nonce_length {b : AccountBlock} (f : Fits b) : (leftPad b.nonce 8).length = 8 := leftPad_length _ _ f.nonce

theorem sends_length {b : AccountBlock} (f : Fits b) : (b.sends.map (·.hash)).flatten.length = 32 * b.sends.length := by
  rw [flatten_length (n := 32), List.length_map]
  intro x hx
  obtain ⟨s, hs, rfl⟩ := List.mem_map.mp hx
  exact f.sends s hs

theorem sends_inj {b c : AccountBlock} (fb : Fits b) (fc : Fits c) (h : (b.sends.map (·.hash)).flatten = (c.sends.map (·.hash)).flatten) :
    b.sends.map (·.hash) = c.sends.map (·.hash) := by
  refine flatten_inj (n := 32) (by decide) ?_ ?_ h
  · intro x hx
    obtain ⟨s, hs, rfl⟩ := List.mem_map.mp hx
    exact fb.sends s hs
  · intro x hx
    obtain ⟨s, hs, rfl⟩ := List.mem_map.mp hx
    exact fc.sends s hs

theorem log_length {b : AccountBlock} (f : Fits b) : (b.logHash.getD []).length = if b.logHash = none then 0 else 32 := by
  cases h : b.logHash with
  | none => simp
  | some x => simp [f.logHash x h]

theorem data_length {H : Bytes → Hash} (hH : Sized H) (b : AccountBlock) : (if b.data ≠ [] then H b.data else []).length = if b.data = [] then 0 else 32 := by
  by_cases h : b.data = []
  · simp [h]
  · simpa [h] using hH b.data

/-- With the same parts present, what is hashed fixes the rest of the block. -/
theorem body_inj {H : Bytes → Hash} (hH : Sized H) {b c : AccountBlock} (fb : Fits b) (fc : Fits c) (hs : SameShape b c) (hn : NoClash H [b.data, c.data])
    (h : b.body H = c.body H) : SameBody b c := by
  unfold AccountBlock.body at h
  have hd : (if b.data ≠ [] then H b.data else []).length = (if c.data ≠ [] then H c.data else []).length := by
    rw [data_length hH, data_length hH]; simp only [hs.1]
  have hl : (b.logHash.getD []).length = (c.logHash.getD []).length := by
    rw [log_length fb, log_length fc]; simp only [hs.2]
  obtain ⟨h, hsend⟩ := List.append_inj h (by
    simp only [List.length_append, hd, hl, pad_bigBytes_length fb.fee, pad_bigBytes_length fc.fee, nonce_length fb, nonce_length fc])
  obtain ⟨h, hnon⟩ := List.append_inj h (by simp only [List.length_append, hd, hl, pad_bigBytes_length fb.fee, pad_bigBytes_length fc.fee])
  obtain ⟨h, hlog⟩ := List.append_inj h (by simp only [List.length_append, hd, pad_bigBytes_length fb.fee, pad_bigBytes_length fc.fee])
  obtain ⟨hdat, hfee⟩ := List.append_inj h hd
  refine ⟨?_, pad_bigBytes fb.fee fc.fee hfee, ?_, hnon, sends_inj fb fc hsend⟩
  · by_cases hb : b.data = []
    · rw [hb, hs.1.mp hb]
    · have hc : c.data ≠ [] := fun q => hb (hs.1.mpr q)
      simp only [ne_eq, hb, hc, not_false_eq_true, if_true] at hdat
      exact hn _ (by simp) _ (by simp) hdat
  · cases hb : b.logHash with
    | none => rw [hs.2.mp hb]
    | some x =>
      cases hc : c.logHash with
      | none => rw [hs.2.mpr hc] at hb; cases hb
      | some y => simpa [hb, hc] using hlog

end Verif.Block
