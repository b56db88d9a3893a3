import Verif.Block.BlockLemmas

/-! # What a block's hash fixes (C73) -/

namespace Verif.Block
open Verif.Bytes Spec

/-- **C73.** Two blocks with one hash agree on type, account, height and previous block; two sends with one hash have the same addressee, token and amount,
two receives with one hash receive the same send. For blocks of every shape. -/
theorem hash_fixes_head {H : Bytes → Hash} {b c : AccountBlock} (fb : Fits b) (fc : Fits c) (hn : NoClash H [b.source H [], c.source H []])
    (h : b.computeHash H = c.computeHash H) : SameHead b c :=
  (head_of_source fb fc (hn _ (by simp) _ (by simp) h)).1

/-- **C73.** With data both or neither and logs both or neither the hash fixes everything that is hashed. -/
theorem hash_fixes_same_shape {H : Bytes → Hash} (hH : Sized H) {b c : AccountBlock} (fb : Fits b) (fc : Fits c)
    (hn : NoClash H [b.source H [], c.source H [], b.data, c.data]) (hs : SameShape b c) (h : b.computeHash H = c.computeHash H) : SameHead b c ∧ SameBody b c := by
  have hsrc := hn _ (by simp) _ (by simp) h
  obtain ⟨h1, h2⟩ := head_of_source fb fc hsrc
  simp only [List.append_nil] at h2
  refine ⟨h1, body_inj hH fb fc hs (fun x hx y hy => hn x ?_ y ?_) h2⟩
  · simp only [List.mem_cons, List.not_mem_nil, or_false] at hx ⊢; tauto
  · simp only [List.mem_cons, List.not_mem_nil, or_false] at hy ⊢; tauto

theorem plain_shape {H : Bytes → Hash} (hH : Sized H) {b c : AccountBlock} (fb : Fits b) (fc : Fits c) (pb : Plain b) (pc : Plain c)
    (h : b.body H = c.body H) : SameShape b c := by
  refine ⟨?_, by rw [pb.1, pc.1]⟩
  have hl := congrArg List.length h
  simp only [AccountBlock.body, List.length_append, data_length hH, pad_bigBytes_length fb.fee, pad_bigBytes_length fc.fee, nonce_length fb, nonce_length fc,
    pb.1, pc.1, pb.2, pc.2, Option.getD_none, List.map_nil, List.flatten_nil, List.length_nil] at hl
  by_cases h1 : b.data = [] <;> by_cases h2 : c.data = [] <;> simp [h1, h2] at hl ⊢

/-- **C73.** For blocks without logs and without a list of sends (all blocks of users as wallets make them) the hash fixes everything that is hashed. -/
theorem hash_fixes_plain {H : Bytes → Hash} (hH : Sized H) {b c : AccountBlock} (fb : Fits b) (fc : Fits c)
    (hn : NoClash H [b.source H [], c.source H [], b.data, c.data]) (pb : Plain b) (pc : Plain c) (h : b.computeHash H = c.computeHash H) :
    SameHead b c ∧ SameBody b c := by
  have hsrc := hn _ (by simp) _ (by simp) h
  obtain ⟨_, h2⟩ := head_of_source fb fc hsrc
  simp only [List.append_nil] at h2
  exact hash_fixes_same_shape hH fb fc hn (plain_shape hH fb fc pb pc h2) h

/-- The types that send: creation of a contract, call, reward and refund, as numbered in `account_block.go:19-28`. -/
theorem isSend_iff (t : UInt8) : isSend t = true ↔ t = 1 ∨ t = 2 ∨ t = 3 ∨ t = 6 := by
  simp [isSend, or_assoc]

/-- The types that receive; a block of any other type is neither. -/
theorem isReceive_iff (t : UInt8) : isReceive t = true ↔ t = 4 ∨ t = 5 ∨ t = 7 := by
  simp [isReceive, or_assoc]

theorem isSend_false_of {b c : AccountBlock} (h : SameHead b c) (hb : isSend b.blockType = false) : isSend c.blockType = false := h.blockType ▸ hb

/-- The body of a contract's receive -/
theorem contract_body {H : Bytes → Hash} {b : AccountBlock} (r : ContractReceive H b) :
    b.body H = (if b.data ≠ [] then H b.data else []) ++ List.replicate 32 0 ++ (b.logHash.getD []) ++ List.replicate 8 0 ++ (b.sends.map (·.hash)).flatten := by
  unfold AccountBlock.body
  rw [r.fee, r.nonce, (bigBytes_nil 0).mpr rfl]
  rfl

theorem contract_data {H : Bytes → Hash} (hH : Sized H) {b c : AccountBlock} (rb : ContractReceive H b) (rc : ContractReceive H c)
    (h : b.body H = c.body H) (hb : b.data ≠ []) : c.data ≠ [] := by
  intro hc
  rw [contract_body rb, contract_body rc] at h
  simp only [ne_eq, hb, hc, not_false_eq_true, not_true, if_true, if_false, List.nil_append, List.append_assoc] at h
  have h1 := (List.append_inj h (by rw [hH]; rfl)).1
  exact rb.data hb h1

theorem contract_log {b c : AccountBlock} (fc : Fits c) {H : Bytes → Hash} (rc : ContractReceive H c) {p q : Bytes}
    (h : (b.logHash.getD []) ++ List.replicate 8 0 ++ p = (c.logHash.getD []) ++ List.replicate 8 0 ++ q) (hb : b.logHash = none) : c.logHash = none := by
  cases hc : c.logHash with
  | none => rfl
  | some x =>
    exfalso
    rw [hb, hc] at h
    simp only [Option.getD_none, Option.getD_some, List.nil_append, List.append_assoc] at h
    have := congrArg (List.take 8) h
    rw [List.take_append_of_le_length (by simp), List.take_append_of_le_length (by rw [fc.logHash x hc]; decide)] at this
    exact rc.log x hc (by rw [← this]; rfl)

/-- **C73.** Two receives of a contract with one hash agree on everything that is hashed: the result, the logs and the sends. -/
theorem hash_fixes_contract_receive {H : Bytes → Hash} (hH : Sized H) {b c : AccountBlock} (fb : Fits b) (fc : Fits c)
    (hn : NoClash H [b.source H [], c.source H [], b.data, c.data]) (rb : ContractReceive H b) (rc : ContractReceive H c)
    (h : b.computeHash H = c.computeHash H) : SameHead b c ∧ SameBody b c := by
  have hsrc := hn _ (by simp) _ (by simp) h
  obtain ⟨_, h2⟩ := head_of_source fb fc hsrc
  simp only [List.append_nil] at h2
  refine hash_fixes_same_shape hH fb fc hn ?_ h
  have hd : b.data = [] ↔ c.data = [] :=
    ⟨fun q => by_contra fun r => contract_data hH rc rb h2.symm r q, fun q => by_contra fun r => contract_data hH rb rc h2 r q⟩
  refine ⟨hd, ?_⟩
  have hlen : (if b.data ≠ [] then H b.data else []).length = (if c.data ≠ [] then H c.data else []).length := by
    rw [data_length hH, data_length hH]; simp only [hd]
  rw [contract_body rb, contract_body rc] at h2
  simp only [List.append_assoc] at h2
  have h3 := (List.append_inj (List.append_inj h2 hlen).2 rfl).2
  simp only [← List.append_assoc] at h3
  exact ⟨contract_log fc rc h3, contract_log fb rb h3.symm⟩

/-- **C73.** The hash of a user's receive that passes the verifier fixes everything that is hashed. -/
theorem hash_fixes_user_receive {H : Bytes → Hash} (hH : Sized H) {b c : AccountBlock} (fb : Fits b) (fc : Fits c)
    (hn : NoClash H [b.source H [], c.source H [], b.data, c.data]) (hu : isContract b.account = false) (hb : receiveIntegrity b = true)
    (hc : receiveIntegrity c = true) (h : b.computeHash H = c.computeHash H) : SameHead b c ∧ SameBody b c := by
  have hsrc := hn _ (by simp) _ (by simp) h
  obtain ⟨h1, h2⟩ := head_of_source fb fc hsrc
  simp only [List.append_nil] at h2
  have key : ∀ x : AccountBlock, isContract x.account = false → receiveIntegrity x = true → x.data = [] ∧ x.sends = [] := by
    intro x hx hr
    unfold receiveIntegrity at hr
    split at hr; · cases hr
    split at hr; · cases hr
    split at hr; · cases hr
    split at hr; · cases hr
    split at hr; · cases hr
    split at hr; · cases hr
    rename_i h7
    split at hr; · cases hr
    rename_i h8
    simp only [hx, Bool.not_false, and_true, not_not] at h7 h8
    exact ⟨h7, h8⟩
  obtain ⟨b1, b2⟩ := key b hu hb
  obtain ⟨c1, c2⟩ := key c (h1.account ▸ hu) hc
  refine hash_fixes_same_shape hH fb fc hn ⟨by rw [b1, c1], ?_⟩ h
  have hl := congrArg List.length h2
  simp only [AccountBlock.body, List.length_append, data_length hH, pad_bigBytes_length fb.fee, pad_bigBytes_length fc.fee, nonce_length fb, nonce_length fc, b1, c1, b2, c2,
    List.map_nil, List.flatten_nil, List.length_nil] at hl
  cases hx : b.logHash with
  | none =>
    cases hy : c.logHash with
    | none => simp
    | some y => have := fc.logHash y hy; rw [hx, hy] at hl; simp only [Option.getD_none, Option.getD_some, List.length_nil] at hl; omega
  | some x =>
    cases hy : c.logHash with
    | some y => simp
    | none => have := fb.logHash x hx; rw [hx, hy] at hl; simp only [Option.getD_none, Option.getD_some, List.length_nil] at hl; omega

/-- **C73.** And blocks that agree on all this have one hash. -/
theorem hash_of_same (H : Bytes → Hash) {b c : AccountBlock} (h1 : SameHead b c) (h2 : SameBody b c) : b.computeHash H = c.computeHash H := by
  have hm : b.middle = c.middle := by
    unfold AccountBlock.middle
    rw [← h1.blockType]
    cases hs : isSend b.blockType with
    | true =>
      obtain ⟨s1, s2, s3⟩ := h1.send hs
      simp only [if_true, s1, s3, bigBytes, s2]
    | false => simpa using h1.receive hs
  have hf : bigBytes (b.fee.getD 0) = bigBytes (c.fee.getD 0) := by simp only [bigBytes, h2.fee]
  have hn : leftPad b.nonce 8 = leftPad c.nonce 8 := h2.nonce
  simp only [AccountBlock.computeHash, source_eq, AccountBlock.body, h1.blockType, h1.prevHash, h1.height, h1.account, hm, h2.data, hf, h2.logHash, hn, h2.sends]

/-! ### Sends of contracts -/

theorem source_length {H : Bytes → Hash} (hH : Sized H) {b : AccountBlock} (f : Fits b) :
    ∃ k, (b.source H []).length = (if isSend b.blockType then 133 else 102) + 32 * k := by
  rw [source_eq]
  simp only [List.length_append, middle_length f, f.prevHash, f.account, be_length, List.length_singleton, AccountBlock.body, data_length hH,
    pad_bigBytes_length f.fee, log_length f, nonce_length f, sends_length f, List.length_nil]
  refine ⟨(if b.data = [] then 0 else 1) + 1 + (if b.logHash = none then 0 else 1) + b.sends.length, ?_⟩
  split <;> split <;> split <;> omega

theorem hostBytes_length {host : AccountBlock} (f : Fits host) (i : Nat) : (hostBytes host i).length = 41 := by
  simp [hostBytes, f.prevHash]

/-- **C73.** The hash of a send of a contract is never that of a block of its own. -/
theorem send_hash_apart {H : Bytes → Hash} (hH : Sized H) {b host c : AccountBlock} (fb : Fits b) (fh : Fits host) (fc : Fits c) (i : Nat)
    (hn : NoClash H [b.source H (hostBytes host i), c.source H []]) : b.computeSendHash H host i ≠ c.computeHash H := by
  intro h
  have hs := hn _ (by simp) _ (by simp) h
  have hl := congrArg List.length hs
  obtain ⟨k, hk⟩ := source_length hH fb
  obtain ⟨m, hm⟩ := source_length hH fc
  rw [source_append, List.length_append, hostBytes_length fh, hk, hm] at hl
  split at hl <;> split at hl <;> omega

theorem hostBytes_inj {g h : AccountBlock} (fg : Fits g) (fh : Fits h) {i j : Nat} (e : hostBytes g i = hostBytes h j) :
    g.prevHash = h.prevHash ∧ g.height = h.height ∧ i % 256 = j % 256 := by
  unfold hostBytes at e
  obtain ⟨e, e3⟩ := List.append_inj e (by simp [fg.prevHash, fh.prevHash])
  obtain ⟨e1, e2⟩ := List.append_inj e (by simp [fg.prevHash, fh.prevHash])
  refine ⟨e1, be8_inj fg.height fh.height e2, ?_⟩
  have : UInt8.ofNat i = UInt8.ofNat j := by simpa using e3
  have := congrArg UInt8.toNat this
  simpa using this

/-- **C73.** Two sends of contracts with one hash are at the same place (up to multiples of 256), after the same block, and agree on all they say. -/
theorem send_hash_fixes {H : Bytes → Hash} (hH : Sized H) {b c g h : AccountBlock} (fb : Fits b) (fc : Fits c) (fg : Fits g) (fh : Fits h) (pb : Plain b) (pc : Plain c)
    {i j : Nat} (hn : NoClash H [b.source H (hostBytes g i), c.source H (hostBytes h j), b.data, c.data])
    (e : b.computeSendHash H g i = c.computeSendHash H h j) :
    SameHead b c ∧ SameBody b c ∧ g.prevHash = h.prevHash ∧ g.height = h.height ∧ i % 256 = j % 256 := by
  have hs := hn _ (by simp) _ (by simp) e
  rw [source_append H b, source_append H c] at hs
  obtain ⟨h1, h2⟩ := List.append_inj' hs (by rw [hostBytes_length fg, hostBytes_length fh])
  obtain ⟨h3, h4⟩ := head_of_source fb fc h1
  simp only [List.append_nil] at h4
  refine ⟨h3, body_inj hH fb fc (plain_shape hH fb fc pb pc h4) (fun x hx y hy => hn x ?_ y ?_) h4, hostBytes_inj fg fh h2⟩
  · simp only [List.mem_cons, List.not_mem_nil, or_false] at hx ⊢; tauto
  · simp only [List.mem_cons, List.not_mem_nil, or_false] at hy ⊢; tauto

/-- **C73**, limit. Two equal sends 256 places apart have one hash. -/
theorem send_hash_wraps (H : Bytes → Hash) (b host : AccountBlock) (i : Nat) : b.computeSendHash H host (i + 256) = b.computeSendHash H host i := by
  have : UInt8.ofNat (i + 256) = UInt8.ofNat i := by
    apply UInt8.toNat.inj
    simp
  simp only [AccountBlock.computeSendHash, hostBytes, this]

theorem verifySends_get {H : Bytes → Hash} {host : AccountBlock} : ∀ {l : List AccountBlock} {k : Nat}, verifySends H host k l = true →
    ∀ (i : Nat) (s : AccountBlock), l[i]? = some s → s.hash = s.computeSendHash H host (k + i) := by
  intro l
  induction l with
  | nil => intro k _ i s hs; simp at hs
  | cons a l ih =>
    intro k h i s hs
    simp only [verifySends, Bool.and_eq_true, decide_eq_true_eq] at h
    cases i with
    | zero =>
      simp only [List.getElem?_cons_zero, Option.some.injEq] at hs
      subst hs
      exact h.1
    | succ i =>
      have := ih h.2 i s (by simpa using hs)
      rw [this]
      congr 1
      omega

/-- What `verifyHash` asks of a contract's receive -/
theorem verifyHash_sends {H : Bytes → Hash} {b : AccountBlock} (hv : verifyHash H b = true) (hc : isContract b.account = true) (hr : isSend b.blockType = false)
    {i : Nat} {s : AccountBlock} (hs : b.sends[i]? = some s) : s.hash = s.computeSendHash H b i := by
  unfold verifyHash at hv
  split at hv
  · cases hv
  split at hv
  · cases hv
  split at hv
  · rename_i h
    simp only [hc, hr, Bool.not_true, Bool.false_or, decide_eq_true_eq] at h
    have : b.sends = [] := List.length_eq_zero_iff.mp (by omega)
    rw [this] at hs
    simp at hs
  · have := verifySends_get hv i s hs
    rwa [Nat.zero_add] at this

/-- **C73.** Two receives of a contract with one hash that both pass the test of hashes have the same sends: as many, and the i-th of the one agrees with the i-th of the
other on everything that is hashed. -/
theorem contract_sends_fixed {H : Bytes → Hash} (hH : Sized H) {b c : AccountBlock} (fb : Fits b) (fc : Fits c) (rb : ContractReceive H b) (rc : ContractReceive H c)
    (hcon : isContract b.account = true) (vb : verifyHash H b = true) (vc : verifyHash H c = true) (h : b.computeHash H = c.computeHash H)
    (hn : NoClash H [b.source H [], c.source H [], b.data, c.data])
    (hs : ∀ s ∈ b.sends, Fits s ∧ Plain s) (ht : ∀ s ∈ c.sends, Fits s ∧ Plain s)
    (hm : ∀ (i : Nat) (s t : AccountBlock), b.sends[i]? = some s → c.sends[i]? = some t → NoClash H [s.source H (hostBytes b i), t.source H (hostBytes c i), s.data, t.data]) :
    b.sends.length = c.sends.length ∧ ∀ (i : Nat) (s t : AccountBlock), b.sends[i]? = some s → c.sends[i]? = some t → SameHead s t ∧ SameBody s t := by
  obtain ⟨h1, h2⟩ := hash_fixes_contract_receive hH fb fc hn rb rc h
  have hlen : b.sends.length = c.sends.length := by
    have := congrArg List.length h2.sends
    simpa using this
  refine ⟨hlen, fun i s t e1 e2 => ?_⟩
  have g1 := verifyHash_sends vb hcon rb.receive e1
  have g2 := verifyHash_sends vc (h1.account ▸ hcon) rc.receive e2
  have g3 : s.hash = t.hash := by
    have := congrArg (fun l => l[i]?) h2.sends
    simpa [e1, e2] using this
  have m1 := List.mem_of_getElem? e1
  have m2 := List.mem_of_getElem? e2
  have := send_hash_fixes hH (hs s m1).1 (ht t m2).1 fb fc (hs s m1).2 (ht t m2).2 (hm i s t e1 e2) (by rw [← g1, ← g2, g3])
  exact ⟨this.1, this.2.1⟩

/-! ### What is not fixed -/

/-- **C73**, limit. Nothing of this is hashed: quota, public key, signature, difficulty, in a send the hash it would receive, in a receive addressee, amount and token;
of the attached sends only their hashes. -/
theorem hash_ignores (H : Bytes → Hash) (b : AccountBlock) (pk sig : Bytes) (q u : Nat) (d : Option Int) (hash : Hash) (l : List AccountBlock)
    (hl : l.map (·.hash) = b.sends.map (·.hash)) :
    AccountBlock.computeHash H { b with publicKey := pk, signature := sig, quota := q, quotaUsed := u, difficulty := d, hash := hash, sends := l } = b.computeHash H ∧
    (isSend b.blockType = true → ∀ f, AccountBlock.computeHash H { b with fromHash := f } = b.computeHash H) ∧
    (isSend b.blockType = false → ∀ a m t, AccountBlock.computeHash H { b with toAddr := a, amount := m, token := t } = b.computeHash H) := by
  refine ⟨?_, fun hs f => ?_, fun hs a m t => ?_⟩
  · simp only [AccountBlock.computeHash, AccountBlock.source, AccountBlock.middle, hl]
  · simp only [AccountBlock.computeHash, AccountBlock.source, AccountBlock.middle, hs, if_true]
  · simp [AccountBlock.computeHash, AccountBlock.source, AccountBlock.middle, hs]

/-- **C73** is false for sends that have logs or a list of sends, whatever the hash function: a block with logs and no list, and one with no logs and a list of one send,
have one hash; with one signature both pass every test of a user's send. -/
theorem two_sends_one_hash (H : Bytes → Hash) (sig : Bytes → Hash → Bytes → Bool) (addrOf : Bytes → Addr) (pow : Int → Bytes → Addr → Hash → Bool) (fee : Int)
    (b s : AccountBlock) (x : Bytes) (hno : b.nonce = []) (hlog : b.logHash = some (List.replicate 8 0 ++ x)) (hsend : b.sends = [])
    (hs : s.hash = x ++ List.replicate 8 0) :
    let c := { b with logHash := none, sends := [s] }
    c.computeHash H = b.computeHash H ∧ (sendAccepted H sig addrOf pow fee b = true → sendAccepted H sig addrOf pow fee c = true) := by
  have key : ∀ f q u, AccountBlock.source H { b with logHash := none, sends := [s], fee := f, quota := q, quotaUsed := u } [] =
      AccountBlock.source H { b with fee := f, quota := q, quotaUsed := u } [] := by
    intro f q u
    simp only [AccountBlock.source, AccountBlock.middle, hno, hlog, hsend, hs, leftPad, List.map_cons, List.map_nil, List.flatten_cons, List.flatten_nil,
      Option.getD_none, Option.getD_some, List.append_nil, List.append_assoc, List.length_nil, List.nil_append]
  have key0 := key b.fee b.quota b.quotaUsed
  refine ⟨congrArg H key0, fun ha => ?_⟩
  simp only [sendAccepted, Bool.and_eq_true, vmResultOk, decide_eq_true_eq] at ha ⊢
  obtain ⟨⟨⟨⟨⟨⟨⟨h1, h2⟩, h3⟩, h4⟩, h5⟩, h6⟩, h7⟩, h8⟩ := ha
  refine ⟨⟨⟨⟨⟨⟨⟨h1, h2⟩, ?_⟩, h4⟩, h5⟩, h6⟩, h7⟩, ?_⟩
  · unfold verifyHash at h3 ⊢
    have e : AccountBlock.computeHash H { b with logHash := none, sends := [s] } = b.computeHash H := congrArg H key0
    rw [e]
    simp only [h1, Bool.or_true, Bool.true_or] at h3 ⊢
    exact h3
  · rw [h8]
    simp only [vmSend, AccountBlock.computeHash]
    rw [← key (some fee) b.quota b.quotaUsed]
    rfl

theorem accepted_parts {H : Bytes → Hash} {sig : Bytes → Hash → Bytes → Bool} {addrOf : Bytes → Addr} {pow : Int → Bytes → Addr → Hash → Bool} {fee : Int}
    {b : AccountBlock} (h : sendAccepted H sig addrOf pow fee b = true) :
    isSend b.blockType = true ∧ isContract b.account = false ∧ b.computeHash H = b.hash ∧ 0 ≤ b.amount.getD 0 ∧ b.amount.getD 0 < 2 ^ 256 ∧ 0 ≤ b.fee.getD 0 ∧
      b.fee.getD 0 < 2 ^ 256 ∧ (b.nonce.length = 0 ∨ b.nonce.length = 8) ∧ 1 < b.height ∧ b.fromHash = zeroHash ∧ addrOf b.publicKey = b.account ∧
      sig b.publicKey b.hash b.signature = true ∧ b.hash = (vmSend H b fee b.quota b.quotaUsed).hash := by
  simp only [sendAccepted, Bool.and_eq_true, vmResultOk, decide_eq_true_eq] at h
  obtain ⟨⟨⟨⟨⟨⟨⟨h1, h2⟩, h3⟩, h4⟩, h5⟩, h6⟩, h7⟩, h8⟩ := h
  have h2' : isContract b.account = false := by simpa using h2
  have hh : b.computeHash H = b.hash := by
    unfold verifyHash at h3
    split at h3
    · cases h3
    · split at h3
      · cases h3
      · rename_i q; exact not_not.mp q
  have hsig : sig b.publicKey b.hash b.signature = true := by
    unfold verifySignature at h4
    simp only [h2', Bool.false_and, Bool.false_eq_true, if_false] at h4
    split at h4
    · cases h4
    · exact h4
  have hnon : b.nonce.length = 0 ∨ b.nonce.length = 8 := by
    unfold verifyNonce at h7
    split at h7
    · split at h7
      · cases h7
      · split at h7
        · cases h7
        · split at h7
          · cases h7
          · right; rename_i q; exact not_not.mp q
    · left; rename_i q; exact not_not.mp q
  unfold sendIntegrity at h5
  split at h5
  · cases h5
  split at h5
  · cases h5
  rename_i ham
  split at h5
  · cases h5
  rename_i hfee
  split at h5
  · cases h5
  rename_i hfrom
  simp only [h2', Bool.false_eq_true, if_false, decide_eq_true_eq] at h5
  have ha : 0 ≤ b.amount.getD 0 ∧ b.amount.getD 0 < 2 ^ 256 := by
    cases e : b.amount with
    | none => simp
    | some x =>
      rw [e] at ham
      simp only [Option.any_some, decide_eq_true_eq, not_or] at ham
      simp only [Option.getD_some]
      omega
  have hf : 0 ≤ b.fee.getD 0 ∧ b.fee.getD 0 < 2 ^ 256 := by
    cases e : b.fee with
    | none => simp
    | some x =>
      rw [e] at hfee
      simp only [Option.any_some, decide_eq_true_eq, not_or] at hfee
      simp only [Option.getD_some]
      omega
  exact ⟨h1, h2', hh, ha.1, ha.2, hf.1, hf.2, hnon, h5, not_not.mp hfrom, h6, hsig, h8⟩

/-- **C73.** Two accepted sends of users with one hash, without logs and lists: the same transfer, in all that matters. (The nonces may differ in one way: none, and eight zeros.) -/
theorem accepted_sends_agree {H : Bytes → Hash} (hH : Sized H) {sig : Bytes → Hash → Bytes → Bool} {addrOf : Bytes → Addr} {pow : Int → Bytes → Addr → Hash → Bool}
    {f g : Int} {b c : AccountBlock} (fb : Fits b) (fc : Fits c) (hn : NoClash H [b.source H [], c.source H [], b.data, c.data]) (pb : Plain b) (pc : Plain c)
    (ab : sendAccepted H sig addrOf pow f b = true) (ac : sendAccepted H sig addrOf pow g c = true) (h : b.hash = c.hash) :
    b.account = c.account ∧ b.height = c.height ∧ b.prevHash = c.prevHash ∧ b.blockType = c.blockType ∧ b.toAddr = c.toAddr ∧ b.token = c.token ∧
      b.amount.getD 0 = c.amount.getD 0 ∧ b.fee.getD 0 = c.fee.getD 0 ∧ b.data = c.data ∧ (b.nonce = c.nonce ∨ b.nonce ++ c.nonce = List.replicate 8 0) := by
  obtain ⟨b1, _, b3, b4, _, b6, _, b8, _⟩ := accepted_parts ab
  obtain ⟨_, _, c3, c4, _, c6, _, c8, _⟩ := accepted_parts ac
  obtain ⟨h1, h2⟩ := hash_fixes_plain hH fb fc hn pb pc (by rw [b3, c3, h])
  obtain ⟨s1, s2, s3⟩ := h1.send b1
  refine ⟨h1.account, h1.height, h1.prevHash, h1.blockType, s1, s3, by omega, by have := h2.fee; omega, h2.data, ?_⟩
  have hno := h2.nonce
  rcases b8 with b8 | b8 <;> rcases c8 with c8 | c8
  · left; rw [List.length_eq_zero_iff.mp b8, List.length_eq_zero_iff.mp c8]
  · right
    rw [List.length_eq_zero_iff.mp b8] at hno ⊢
    rw [c8] at hno
    simpa using hno.symm
  · right
    rw [List.length_eq_zero_iff.mp c8] at hno ⊢
    rw [b8] at hno
    simpa using hno
  · left
    rw [b8, c8] at hno
    simpa using hno

/-- **C73.** An accepted send pays the fee that its data ask for: the fee is part of the hash that the machine's block must have. -/
theorem accepted_fee {H : Bytes → Hash} (hH : Sized H) {sig : Bytes → Hash → Bytes → Bool} {addrOf : Bytes → Addr} {pow : Int → Bytes → Addr → Hash → Bool}
    {f : Int} (hf : 0 ≤ f ∧ f < 2 ^ 256) {b : AccountBlock} (fb : Fits b)
    (hn : NoClash H [b.source H [], AccountBlock.source H { b with fee := some f } [], b.data]) (ab : sendAccepted H sig addrOf pow f b = true) : b.fee.getD 0 = f := by
  obtain ⟨_, _, b3, _, _, b6, _, _, _, _, _, _, b13⟩ := accepted_parts ab
  have fc : Fits { b with fee := some f } :=
    ⟨fb.hash, fb.prevHash, fb.height, fb.account, fb.toAddr, fb.token, fb.fromHash, fb.logHash, fb.amount, by simp only [Option.getD_some]; omega, fb.nonce, fb.sends⟩
  have hq : b.computeHash H = AccountBlock.computeHash H { b with fee := some f } := by
    rw [b3, b13]
    simp only [vmSend, AccountBlock.computeHash, AccountBlock.source, AccountBlock.middle]
  have := hash_fixes_same_shape hH fb fc (fun x hx y hy => hn x (by simp at hx ⊢; tauto) y (by simp at hy ⊢; tauto)) ⟨Iff.rfl, Iff.rfl⟩ hq
  have h2 := this.2.fee
  simp only [Option.getD_some] at h2
  omega

end Verif.Block
