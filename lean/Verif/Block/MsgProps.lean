import Verif.Block.SnapshotProps

/-! # What arrives of a block that is sent or stored (C75) -/

namespace Verif.Block
open Verif.Bytes Spec

theorem num_bigBytes_abs (x : Int) : ((num (bigBytes x) : Nat) : Int) = |x| := by
  rw [num_bigBytes, Int.abs_eq_natAbs]

theorem type_back (t : UInt8) : UInt8.ofNat (((t.toNat : Int) % 256).toNat) = t := by
  apply UInt8.toNat.inj
  have := t.toNat_lt
  have h2 : ((t.toNat : Int) % 256).toNat = t.toNat := by omega
  rw [h2]
  simp

theorem deProtoList_ok {f : PbAccount → Except AccountBlock AccountBlock} {R : AccountBlock → AccountBlock → Prop} : ∀ {l : List AccountBlock},
    (∀ b ∈ l, ∃ c, f b.proto = .ok c ∧ R b c) → ∃ m, deProtoList f (l.map AccountBlock.proto) = (m, true) ∧ List.Forall₂ R l m := by
  intro l
  induction l with
  | nil => intro _; exact ⟨[], rfl, .nil⟩
  | cons b l ih =>
    intro h
    obtain ⟨c, h1, h2⟩ := h b (List.mem_cons_self ..)
    obtain ⟨m, h3, h4⟩ := ih (fun x hx => h x (List.mem_cons_of_mem _ hx))
    refine ⟨c :: m, ?_, .cons h2 h4⟩
    simp only [List.map_cons, deProtoList, h1, h3]

/-- **C75.** Every block arrives, and what arrives is what `Delivered` says. -/
theorem delivered : ∀ {n : Nat} {b : AccountBlock}, Typed n b → ∃ c, deProto n b.proto = .ok c ∧ Delivered n b c := by
  intro n
  induction n with
  | zero => intro b h; exact h.elim
  | succ n ih =>
    intro b h
    obtain ⟨t1, t2, t3, t4, t5, t6, t7, t8⟩ := h
    obtain ⟨m, hm, hr⟩ := deProtoList_ok (f := deProto n) (R := Delivered n) (fun s hs => ih (t8 s hs))
    obtain ⟨ty, hash, prev, height, account, pk, to', amount, token, fromHash, data, quota, used, fee, log, diff, nonce, sends, sig⟩ := b
    simp only at t1 t2 t3 t4 t5 t6 t7 t8 hm hr
    have hfee : ((num ((Option.map bigBytes fee).getD []) : Nat) : Int) = |fee.getD 0| := by
      cases fee with
      | none => rfl
      | some x => exact num_bigBytes_abs x
    have hdiff : (if ((Option.map bigBytes diff).getD []).length > 0 then some ((num ((Option.map bigBytes diff).getD []) : Nat) : Int) else none) =
        (if diff.getD 0 = 0 then none else some |diff.getD 0|) := by
      cases diff with
      | none => simp
      | some x =>
        simp only [Option.map_some, Option.getD_some, num_bigBytes_abs]
        by_cases hx : x = 0
        · simp [hx, (bigBytes_nil 0).mpr rfl]
        · have : (bigBytes x).length ≠ 0 := fun e => hx ((bigBytes_nil x).mp (List.length_eq_zero_iff.mp e))
          rw [if_pos (by omega), if_neg hx]
    have hlog1 : ¬((log.getD []).length > 0 ∧ (log.getD []).length ≠ 32) := by
      cases log with
      | none => simp
      | some x => have := t7 x rfl; simp [this]
    have hlog2 : (if (log.getD []).length > 0 then some (log.getD []) else none) = log := by
      cases log with
      | none => simp
      | some x => have := t7 x rfl; simp [this]
    rw [AccountBlock.proto]
    simp only [deProto, PbAccount.type, PbAccount.part1, PbAccount.part2, PbAccount.part3, PbAccount.part4, PbAccount.part5, PbAccount.part6, type_back, hm, hfee, hdiff, hlog2, if_neg hlog1]
    have hprev : (if height > 1 then toHash (if height > 1 then prev else []) else zeroHash) = if 1 < height then prev else List.replicate 32 0 := by
      by_cases hh : height > 1
      · simp [hh, toHash, t2]
      · simp [hh, zeroHash]
    rw [hprev]
    cases hs : isSend ty with
    | true =>
      simp only [hs, t1, t3, t4, t5, toHash, Bool.true_or, Bool.true_and, Bool.not_true, Bool.false_and, ne_eq, not_true, if_true, if_false, decide_false,
        Bool.and_false, Bool.false_eq_true, num_bigBytes_abs]
      exact ⟨_, rfl, by simp [Delivered, hs, AccountBlock.blank, zeroHash, hr]⟩
    | false =>
      by_cases h7 : ty = 7
      · subst h7
        simp only [hs, t1, t3, t5, t6, toHash, Bool.false_or, Bool.false_and, Bool.not_false, Bool.true_and, ne_eq, not_true, if_true, if_false, decide_false,
          Bool.and_false, Bool.false_eq_true, num_bigBytes_abs, beq_self_eq_true]
        exact ⟨_, rfl, by simp [Delivered, hs, AccountBlock.blank, zeroAddr, hr]⟩
      · have h7' : (ty == 7) = false := by simpa using h7
        simp only [hs, h7', t1, t3, t6, toHash, Bool.false_or, Bool.false_and, Bool.not_false, Bool.true_and, ne_eq, not_true, if_true, if_false, decide_false,
          Bool.and_false, Bool.false_eq_true]
        exact ⟨_, rfl, by simp [Delivered, hs, h7, AccountBlock.blank, zeroAddr, zeroToken, hr]⟩

theorem deProtoList_all {f : PbAccount → Except AccountBlock AccountBlock} : ∀ {l : List PbAccount}, (deProtoList f l).2 = true →
    List.Forall₂ (fun q c => f q = .ok c) l (deProtoList f l).1 := by
  intro l
  induction l with
  | nil => intro _; exact .nil
  | cons q l ih =>
    intro h
    unfold deProtoList at h ⊢
    cases hf : f q with
    | error e => rw [hf] at h; cases h
    | ok b => rw [hf] at h; exact .cons hf (ih h)

/-- **C75.** A message that is read without an error has fields of the right lengths, and so has every attached send, at any depth: as many sends are
read as are attached, each of them without an error. -/
theorem read_exact {n : Nat} {p : PbAccount} {b : AccountBlock} (h : deProto (n + 1) p = .ok b) :
    p.account.length = 21 ∧ (isSend p.type = true → p.toAddr.length = 21) ∧ (isSend p.type = false → p.fromHash.length = 32) ∧
      (isSend p.type = true ∨ p.type = 7 → p.token.length = 10) ∧ (p.logHash = [] ∨ p.logHash.length = 32) ∧
      List.Forall₂ (fun q c => deProto n q = .ok c) p.sends b.sends ∧ b.signature = p.signature := by
  unfold deProto at h
  split at h
  · cases h
  split at h
  · cases h
  split at h
  · cases h
  split at h
  · cases h
  split at h
  · cases h
  split at h
  · rename_i h1 h2 h3 h4 h5 h6
    cases h
    refine ⟨by simpa using h1, ?_, ?_, ?_, ?_, deProtoList_all h6, rfl⟩
    · intro hs; simpa [hs] using h2
    · intro hs; simpa [hs] using h3
    · intro hs
      rcases hs with hs | hs
      · simpa [hs] using h4
      · simpa [hs] using h4
    · rcases Nat.eq_zero_or_pos p.logHash.length with h0 | h0
      · exact .inl (List.length_eq_zero_iff.mp h0)
      · right
        by_contra hne
        exact h5 ⟨h0, hne⟩
  · cases h

theorem forall₂_eq {R : AccountBlock → AccountBlock → Prop} {l m : List AccountBlock} (h : List.Forall₂ R l m) (he : ∀ b ∈ l, ∀ c, R b c → c = b) : m = l := by
  induction h with
  | nil => rfl
  | cons h1 _ ih => rw [he _ (List.mem_cons_self ..) _ h1, ih (fun x hx => he x (List.mem_cons_of_mem _ hx))]

theorem delivered_eq : ∀ {n : Nat} {b c : AccountBlock}, Regular n b → Delivered n b c → c = b := by
  intro n
  induction n with
  | zero => intro b c h; exact h.elim
  | succ n ih =>
    intro b c h d
    obtain ⟨r1, r2, r3, r4, ⟨f, r5, r5'⟩, r6, r7⟩ := h
    obtain ⟨d1, d2, d3, d4, d5, d6, d7, d8, d9, d10, d11, d12, d13, d14, d15, d16, d17, d18, d19⟩ := d
    have e := forall₂_eq d19 (fun x hx y => ih (r7 x hx))
    have e12 : c.prevHash = b.prevHash := by
      rw [d12]; split
      · rfl
      · rename_i q; exact (r1 (by omega)).symm
    have e13 : c.toAddr = b.toAddr := by
      rw [d13]; split
      · rfl
      · rename_i q; exact (r3 (by simpa using q)).symm
    have e14 : c.fromHash = b.fromHash := by
      rw [d14]; split
      · rename_i q; exact (r2 q).symm
      · rfl
    have e15 : c.token = b.token ∧ c.amount = b.amount := by
      rw [d15, d16]
      by_cases q : isSend b.blockType = true ∨ b.blockType = 7
      · rw [if_pos q] at r4
        obtain ⟨x, hx, h0⟩ := r4
        rw [if_pos q, if_pos q, hx]
        exact ⟨rfl, by rw [Option.getD_some, abs_of_nonneg h0]⟩
      · rw [if_neg q] at r4
        rw [if_neg q, if_neg q]
        exact ⟨r4.2.symm, r4.1.symm⟩
    have e17 : c.fee = b.fee := by rw [d17, r5, Option.getD_some, abs_of_nonneg r5']
    have e18 : c.difficulty = b.difficulty := by
      rw [d18]
      cases hd : b.difficulty with
      | none => rfl
      | some x =>
        have := r6 x hd
        rw [Option.getD_some, if_neg (by omega), abs_of_pos this]
    cases b; cases c
    simp_all

/-- **C75.** A block that says nothing its message has no place for arrives as it was sent. -/
theorem round_trip {n : Nat} {b : AccountBlock} (ht : Typed n b) (hr : Regular n b) : deProto n b.proto = .ok b := by
  obtain ⟨c, h1, h2⟩ := delivered ht
  rw [h1, delivered_eq hr h2]

theorem delivered_hashes {n : Nat} {l m : List AccountBlock} (h : List.Forall₂ (Delivered n) l m) : m.map (·.hash) = l.map (·.hash) := by
  induction h with
  | nil => rfl
  | cons h1 _ ih =>
    cases n with
    | zero => exact h1.elim
    | succ n => rw [List.map_cons, List.map_cons, ih, h1.2.1]

theorem bigBytes_abs (x : Int) : bigBytes |x| = bigBytes x := by unfold bigBytes; rw [Int.natAbs_abs]

/-- **C75.** A block that passes the test of its hash passes it where it arrives: the hash of what arrives is that of what was sent. Only a first block with a previous hash
is changed in what is hashed. -/
theorem delivered_hash (H : Bytes → Hash) {n : Nat} {b c : AccountBlock} (h : Delivered n b c) (hp : b.height ≤ 1 → b.prevHash = List.replicate 32 0) :
    c.computeHash H = b.computeHash H ∧ c.hash = b.hash ∧ c.signature = b.signature ∧ c.publicKey = b.publicKey := by
  cases n with
  | zero => exact h.elim
  | succ n =>
    obtain ⟨d1, d2, d3, d4, d5, d6, d7, d8, d9, d10, d11, d12, d13, d14, d15, d16, d17, d18, d19⟩ := h
    refine ⟨?_, d2, d11, d5⟩
    have e12 : c.prevHash = b.prevHash := by
      rw [d12]; split
      · rfl
      · rename_i q; exact (hp (by omega)).symm
    have em : c.middle = b.middle := by
      unfold AccountBlock.middle
      rw [d1, d13, d14, d15, d16]
      cases hs : isSend b.blockType with
      | true => simp [bigBytes_abs]
      | false => simp
    have ef : leftPad ((c.fee.map bigBytes).getD []) 32 = leftPad ((b.fee.map bigBytes).getD []) 32 := by
      rw [feeBytes, feeBytes, d17, Option.getD_some, bigBytes_abs]
    simp only [AccountBlock.computeHash, AccountBlock.source, d1, d3, d4, d6, d9, d10, e12, em, ef, delivered_hashes d19]

/-- **C75.** What is made of a message with a fault never has a signature, so that no test of signatures passes it, but for the send of a contract. -/
theorem faulty_unsigned {n : Nat} {p : PbAccount} {b : AccountBlock} (h : deProto n p = .error b) (sig : Bytes → Hash → Bytes → Bool) :
    b.signature = [] ∧ (¬(isContract b.account = true ∧ isSend b.blockType = true) → verifySignature sig b = false) := by
  have k3 : p.part3.signature = [] := by unfold PbAccount.part3; split <;> rfl
  have k4 : p.part4.signature = [] := by
    unfold PbAccount.part4; split
    · exact k3
    · exact k3
  have key : b.signature = [] := by
    cases n with
    | zero => rw [deProto] at h; injection h with h; rw [← h]; rfl
    | succ n =>
      rw [deProto] at h
      split at h
      · injection h with h; rw [← h]; rfl
      split at h
      · injection h with h; rw [← h]; rfl
      split at h
      · injection h with h; rw [← h]; rfl
      split at h
      · injection h with h; rw [← h]; exact k3
      split at h
      · injection h with h; rw [← h]; exact k4
      split at h
      · cases h
      · injection h with h; rw [← h]; exact k4
  refine ⟨key, fun hc => ?_⟩
  unfold verifySignature
  have : (isContract b.account && isSend b.blockType) = false := by
    rw [Bool.eq_false_iff]
    intro q
    rw [Bool.and_eq_true] at q
    exact hc q
  rw [this]
  simp [key]

/-! ### Snapshot blocks -/

theorem contentOf_items : ∀ (xs : List Item) (c : List Item), (∀ x ∈ xs, x.addr.length = 21 ∧ x.hash.length = 32 ∧ x.height < 2 ^ 64) →
    ((c ++ xs).map (·.addr)).Nodup → contentOf xs.length ((xs.map Item.bytes).flatten) c = c ++ xs := by
  intro xs
  induction xs with
  | nil => intro c _ _; simp [contentOf]
  | cons x xs ih =>
    intro c h hn
    obtain ⟨h1, h2, h3⟩ := h x (List.mem_cons_self ..)
    have hx : x.bytes.length = 61 := item_length ⟨h1, h2, h3⟩
    have hl : (x.bytes ++ (xs.map Item.bytes).flatten).length ≠ 0 := by rw [List.length_append, hx]; omega
    simp only [List.length_cons, List.map_cons, List.flatten_cons, contentOf]
    rw [if_neg hl]
    have e1 : (x.bytes ++ (xs.map Item.bytes).flatten).drop 61 = (xs.map Item.bytes).flatten := by rw [← hx, List.drop_left]
    have e2 : (x.bytes ++ (xs.map Item.bytes).flatten).take 21 = x.addr := by
      simp only [Item.bytes, List.append_assoc]
      rw [← h1, List.take_left]
    have e3 : ((x.bytes ++ (xs.map Item.bytes).flatten).drop 21).take 32 = x.hash := by
      simp only [Item.bytes, List.append_assoc]
      rw [← h1, List.drop_left, ← h2, List.take_left]
    have e4 : ((x.bytes ++ (xs.map Item.bytes).flatten).drop 53).take 8 = be 8 x.height := by
      have : x.bytes ++ (xs.map Item.bytes).flatten = (x.addr ++ x.hash) ++ (be 8 x.height ++ (xs.map Item.bytes).flatten) := by simp [Item.bytes]
      rw [this]
      have q : (x.addr ++ x.hash).length = 53 := by simp [h1, h2]
      rw [← q, List.drop_left]
      have q8 : (be 8 x.height).length = 8 := be_length ..
      exact List.take_left' q8
    have e5 : num (be 8 x.height) = x.height := by rw [num_be]; exact Nat.mod_eq_of_lt (by norm_num; omega)
    rw [e1, e2, e3, e4, e5]
    have hset : setItem c ⟨x.addr, x.hash, x.height⟩ = c ++ [x] := by
      unfold setItem
      have : c.filter (fun y => decide (y.addr ≠ x.addr)) = c := by
        rw [List.filter_eq_self]
        intro y hy
        rw [List.map_append, List.nodup_append] at hn
        have := hn.2.2 y.addr (List.mem_map.mpr ⟨y, hy, rfl⟩) x.addr (by simp)
        simpa using this
      rw [this]
    rw [hset, ih _ (fun z hz => h z (List.mem_cons_of_mem _ hz)) (by simpa using hn)]
    simp

/-- **C75.** A snapshot block arrives as it was sent: the content with the same entries. -/
theorem snapshot_round_trip {b : SnapshotBlock} (f : FitsSnapshot b) :
    ∃ l, l.Perm b.content ∧ deProtoSnapshot b.proto = some { b with content := l } := by
  have hp := Consensus.sortBy_perm itemGe b.content
  have hitem : ∀ x ∈ Consensus.sortBy itemGe b.content, x.addr.length = 21 ∧ x.hash.length = 32 ∧ x.height < 2 ^ 64 := fun x hx => f.item x (hp.mem_iff.mp hx)
  have hlen : ((Consensus.sortBy itemGe b.content).map Item.bytes).flatten.length = 61 * (Consensus.sortBy itemGe b.content).length := by
    rw [flatten_length (n := 61), List.length_map]
    intro x hx
    obtain ⟨y, hy, rfl⟩ := List.mem_map.mp hx
    exact item_length (hitem y hy)
  refine ⟨Consensus.sortBy itemGe b.content, hp, ?_⟩
  have hsh1 : ¬((b.seedHash.getD []).length > 0 ∧ (b.seedHash.getD []).length ≠ 32) := by
    cases h : b.seedHash with
    | none => simp
    | some x => have := f.seedHash x h; simp [this]
  have hsh2 : (if (b.seedHash.getD []).length > 0 then some (b.seedHash.getD []) else none) = b.seedHash := by
    cases h : b.seedHash with
    | none => simp
    | some x => have := f.seedHash x h; simp [this]
  unfold deProtoSnapshot SnapshotBlock.proto
  simp only
  rw [if_neg]
  · rw [hsh2, hlen, Nat.mul_div_cancel_left _ (by decide : 0 < 61), contentOf_items _ [] hitem, List.nil_append]
    rw [List.nil_append]
    exact ((hp.map _).nodup_iff).mpr f.nodup
  · rw [hlen, f.hash, f.prevHash]
    push Not
    refine ⟨rfl, rfl, ?_, by omega⟩
    intro h
    by_contra q
    exact hsh1 ⟨h, q⟩

end Verif.Block
