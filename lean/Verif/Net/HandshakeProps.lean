import Verif.Net.HandshakeModel

/-!
# What a handshake establishes

Property C81. -/

namespace Verif.Net

open Verif.Bytes

/-- What is assumed of the cryptographic functions: lengths, that both ends compute the same secret, and that signatures verify. -/
structure Crypto.Good (c : Crypto) : Prop where
  hash_len : ∀ b, (c.hash b).length = 32
  secret_len : ∀ k i, (c.secret k i).length = 32
  shared : ∀ k k', c.secret k (c.idOf k') = c.secret k' (c.idOf k)
  key_len : ∀ k, (c.keyOf k).length = 32
  signed : ∀ k m, c.verify (c.keyOf k) m (c.sign k m) = true

theorem xor_len {a b : Bytes} (h : a.length = b.length) : (xor a b).length = a.length := by simp [xor, h]

theorem xor_xor {a b : Bytes} (h : a.length = b.length) : xor a (xor a b) = b := by
  unfold xor
  induction a generalizing b with
  | nil => cases b with
    | nil => rfl
    | cons y b => simp at h
  | cons x a ih =>
    cases b with
    | nil => simp at h
    | cons y b =>
      have := ih (b := b) (by simpa using h)
      simp only [List.zipWith_cons_cons, this, ← UInt8.xor_assoc, UInt8.xor_self, UInt8.zero_xor]

/-- A message made with a secret passes the test with that secret. -/
theorem verify_make {c : Crypto} (hc : c.Good) (n : Node) (now : Nat) (s : Bytes) : verifyHello c (makeHello c n now s) s = .ok () := by
  unfold verifyHello makeHello
  cases n.key with
  | none => simp
  | some k => simp [hc.key_len k, hc.signed]

theorem judge_ok {c : Crypto} {n : Node} {m : Hello} {s : Bytes} {b : Bool} :
    judge c n m s = .ok b ↔ verifyHello c m s = .ok () ∧ m.netId = n.netId ∧ m.genesis = n.genesis ∧ authorize n.gate m = .ok b := by
  unfold judge
  cases h : verifyHello c m s with
  | panic => simp
  | err e => simp
  | ok u =>
    unfold checkChain
    by_cases h1 : m.netId = n.netId
    · by_cases h2 : m.genesis = n.genesis
      · simp [h1, h2]
      · simp [h1, h2]
    · simp [h1]

/-- **C81.** Two nodes of the same network whose lists admit each other accept each other, and each learns the id of the other's key. -/
theorem honest_pair {c : Crypto} (hc : c.Good) {a b : Node} (hn : a.netId = b.netId) (hg : a.genesis = b.genesis) (t1 t2 : Nat) {s1 s2 : Bool}
    (h1 : authorize b.gate (opening c a t1 (c.idOf b.peerKey)) = .ok s1)
    (h2 : authorize a.gate (makeHello c b t2 (c.secret b.peerKey (c.idOf a.peerKey))) = .ok s2) :
    ∃ answer, receive c b t2 (opening c a t1 (c.idOf b.peerKey)) = .ok (c.idOf a.peerKey, s1, answer) ∧
      finish c a (c.idOf b.peerKey) answer = .ok (c.idOf b.peerKey, s2) := by
  have e1 : judge c b (opening c a t1 (c.idOf b.peerKey)) (c.secret b.peerKey (c.idOf a.peerKey)) = .ok s1 := by
    rw [judge_ok]
    refine ⟨?_, hn, hg, h1⟩
    unfold opening
    rw [hc.shared a.peerKey b.peerKey]
    exact verify_make hc _ _ _
  have e2 : judge c a (makeHello c b t2 (c.secret b.peerKey (c.idOf a.peerKey))) (c.secret a.peerKey (c.idOf b.peerKey)) = .ok s2 := by
    rw [judge_ok]
    refine ⟨?_, hn.symm, hg.symm, h2⟩
    rw [hc.shared a.peerKey b.peerKey]
    exact verify_make hc _ _ _
  refine ⟨makeHello c b t2 (c.secret b.peerKey (c.idOf a.peerKey)), ?_, ?_⟩
  · unfold receive
    have : (opening c a t1 (c.idOf b.peerKey)).id = c.idOf a.peerKey := rfl
    rw [this, e1]
  · unfold finish
    rw [e2]
    rfl

/-- **C81.** Exactly when `authorize` admits a message, and whom it calls superior. -/
theorem authorize_iff (g : Gate) (m : Hello) (s : Bool) : authorize g m = .ok s ↔
    (m.id ≠ g.self ∧ m.id ∉ g.peers ∧ m.id ∉ g.deny ∧ m.key ∉ g.deny) ∧
      (s = true ↔ m.key ≠ [] ∧ g.isSBP m.key = true) ∧
      (m.id ∈ g.allow ∨ m.key ∈ g.allow ∨ s = true ∨ (g.count < g.maxPeers ∧ g.inbound < g.maxPeers / g.ratio ∧ g.any = true)) := by
  have hd : (g.deny.any (fun k => decide (k = m.id ∨ k = m.key))) = true ↔ m.id ∈ g.deny ∨ m.key ∈ g.deny := by
    simp only [List.any_eq_true, decide_eq_true_eq]
    constructor
    · rintro ⟨x, hx, rfl | rfl⟩ <;> tauto
    · rintro (h | h)
      · exact ⟨_, h, Or.inl rfl⟩
      · exact ⟨_, h, Or.inr rfl⟩
  have ha : (g.allow.any (fun k => decide (k = m.id ∨ k = m.key))) = true ↔ m.id ∈ g.allow ∨ m.key ∈ g.allow := by
    simp only [List.any_eq_true, decide_eq_true_eq]
    constructor
    · rintro ⟨x, hx, rfl | rfl⟩ <;> tauto
    · rintro (h | h)
      · exact ⟨_, h, Or.inl rfl⟩
      · exact ⟨_, h, Or.inr rfl⟩
  unfold authorize
  by_cases h1 : m.id = g.self
  · simp [h1]
  rw [if_neg h1]
  by_cases h2 : m.id ∈ g.peers
  · simp [h2]
  rw [if_neg h2]
  by_cases h3 : m.id ∈ g.deny ∨ m.key ∈ g.deny
  · rw [if_pos (hd.mpr h3)]
    simp only [reduceCtorEq, false_iff]
    tauto
  rw [if_neg (mt hd.mp h3)]
  have hs : (decide (m.key ≠ []) && g.isSBP m.key) = true ↔ m.key ≠ [] ∧ g.isSBP m.key = true := by simp
  have h3' : m.id ∉ g.deny ∧ m.key ∉ g.deny := by tauto
  simp only
  generalize (decide (m.key ≠ []) && g.isSBP m.key) = sup at hs
  have hsup : ∀ s : Bool, (s = true ↔ m.key ≠ [] ∧ g.isSBP m.key = true) ↔ sup = s := by
    intro s
    rw [← hs]
    cases s <;> cases sup <;> simp
  rw [hsup]
  by_cases h4 : m.id ∈ g.allow ∨ m.key ∈ g.allow
  · rw [if_pos (ha.mpr h4)]
    simp only [Res.ok.injEq]
    tauto
  rw [if_neg (mt ha.mp h4)]
  cases sup with
  | true =>
    simp only [if_true, Res.ok.injEq]
    constructor
    · intro h; subst h; tauto
    · tauto
  | false =>
    simp only [Bool.false_eq_true, if_false]
    by_cases h5 : g.count ≥ g.maxPeers
    · rw [if_pos h5]
      simp only [reduceCtorEq, false_iff]
      rintro ⟨-, rfl, h | h | h | h⟩
      · tauto
      · tauto
      · cases h
      · omega
    rw [if_neg h5]
    by_cases h6 : g.inbound ≥ g.maxPeers / g.ratio
    · rw [if_pos h6]
      simp only [reduceCtorEq, false_iff]
      rintro ⟨-, rfl, h | h | h | h⟩
      · tauto
      · tauto
      · cases h
      · omega
    rw [if_neg h6]
    by_cases h7 : g.any = true
    · rw [if_pos h7]
      simp only [Res.ok.injEq]
      have a1 : g.count < g.maxPeers := by omega
      have a2 : g.inbound < g.maxPeers / g.ratio := by omega
      tauto
    · rw [if_neg h7]
      simp only [reduceCtorEq, false_iff]
      rintro ⟨-, rfl, h | h | h | h⟩
      · tauto
      · tauto
      · cases h
      · tauto

/-- **C81.** A node that is called accepts a message exactly if it is of its network and genesis block, `authorize` admits it, and its token is that of
the secret it shares with the id in the message: as such if the message names no key, signed by the key if it names one. -/
theorem receive_iff {c : Crypto} {n : Node} {now : Nat} {m : Hello} {who : Bytes} {s : Bool} {ans : Hello} :
    receive c n now m = .ok (who, s, ans) ↔ who = m.id ∧ ans = makeHello c n now (c.secret n.peerKey m.id) ∧
      m.netId = n.netId ∧ m.genesis = n.genesis ∧ authorize n.gate m = .ok s ∧
      ((m.key = [] ∧ m.token = xor (c.hash (be 8 m.ts)) (c.secret n.peerKey m.id)) ∨
        (m.key.length = 32 ∧ c.verify m.key (xor (c.hash (be 8 m.ts)) (c.secret n.peerKey m.id)) m.token = true)) := by
  have hv : verifyHello c m (c.secret n.peerKey m.id) = .ok () ↔
      ((m.key = [] ∧ m.token = xor (c.hash (be 8 m.ts)) (c.secret n.peerKey m.id)) ∨
        (m.key.length = 32 ∧ c.verify m.key (xor (c.hash (be 8 m.ts)) (c.secret n.peerKey m.id)) m.token = true)) := by
    unfold verifyHello rawToken
    by_cases h0 : m.key = []
    · simp only [h0, List.length_nil, ne_eq, not_true, if_false, true_and]
      split
      · rename_i h; simp [h]
      · rename_i h; simp [Ne.symm h]
    · have : m.key.length ≠ 0 := by simpa using h0
      rw [if_pos this]
      by_cases h32 : m.key.length = 32
      · simp [h0, h32]
      · simp [h0, h32]
  unfold receive
  rw [← hv]
  cases h : judge c n m (c.secret n.peerKey m.id) with
  | panic =>
    simp only [reduceCtorEq, false_iff]
    rintro ⟨-, -, h1, h2, h3, h4⟩
    rw [judge_ok.mpr ⟨h4, h1, h2, h3⟩] at h
    cases h
  | err e =>
    simp only [reduceCtorEq, false_iff]
    rintro ⟨-, -, h1, h2, h3, h4⟩
    rw [judge_ok.mpr ⟨h4, h1, h2, h3⟩] at h
    cases h
  | ok b =>
    obtain ⟨h1, h2, h3, h4⟩ := judge_ok.mp h
    simp only [Res.ok.injEq, Prod.mk.injEq]
    constructor
    · rintro ⟨rfl, rfl, rfl⟩
      exact ⟨rfl, rfl, h2, h3, h4, h1⟩
    · rintro ⟨rfl, rfl, -, -, h5, -⟩
      rw [h4] at h5
      cases h5
      exact ⟨rfl, rfl, rfl⟩

/-- **C81.** The token of an accepted message without a key gives the secret of the two ids: whoever made the token could have computed it. -/
theorem accepted_knows {c : Crypto} (hc : c.Good) {n : Node} {now : Nat} {m : Hello} {who : Bytes} {s : Bool} {ans : Hello}
    (h : receive c n now m = .ok (who, s, ans)) (hk : m.key = []) : c.secret n.peerKey who = xor (c.hash (be 8 m.ts)) m.token := by
  obtain ⟨rfl, -, -, -, -, h1⟩ := receive_iff.mp h
  rcases h1 with ⟨-, h1⟩ | ⟨h1, -⟩
  · rw [h1, xor_xor (by rw [hc.hash_len, hc.secret_len])]
  · rw [hk] at h1; simp at h1

/-! ## What it does not establish -/

/-- **A message with a key of another length than 0 and 32 stops the node that gets it**: `ed25519.Verify` panics and nothing recovers. It needs no
key, no token and no permission. -/
theorem odd_key_panics {c : Crypto} (n : Node) (now : Nat) (m : Hello) (h0 : m.key ≠ []) (h32 : m.key.length ≠ 32) : receive c n now m = .panic := by
  have : verifyHello c m (c.secret n.peerKey m.id) = .panic := by
    unfold verifyHello
    rw [if_pos (by simpa using h0), if_pos h32]
  unfold receive judge
  rw [this]

/-- The same for a node that calls: the answer may stop it. -/
theorem odd_key_panics_caller {c : Crypto} (n : Node) (id : Bytes) (m : Hello) (h0 : m.key ≠ []) (h32 : m.key.length ≠ 32) :
    finish c n id m = .panic := by
  have : verifyHello c m (c.secret n.peerKey id) = .panic := by
    unfold verifyHello
    rw [if_pos (by simpa using h0), if_pos h32]
  unfold finish judge
  rw [this]

/-- **A node that calls accepts its own message back, under any other id**: whoever answers the call needs no key. It is then listed as the peer
`x`, which is neither the id that was called nor one that anybody answered for. -/
theorem echo_accepted {c : Crypto} (hc : c.Good) (n : Node) (now : Nat) (id x : Bytes) {s : Bool}
    (ha : authorize n.gate { opening c n now id with id := x } = .ok s) :
    finish c n id { opening c n now id with id := x } = .ok (x, s) := by
  have : judge c n { opening c n now id with id := x } (c.secret n.peerKey id) = .ok s := by
    rw [judge_ok]
    refine ⟨?_, rfl, rfl, ha⟩
    exact verify_make hc n now (c.secret n.peerKey id)
  unfold finish
  rw [this]

/-- **Who overhears one message without a key can make another**, with any time, height and head: messages are not encrypted, and the secret is the
token without the hash of the time. -/
theorem overheard_forges {c : Crypto} (hc : c.Good) {n : Node} {now : Nat} {m : Hello} {who : Bytes} {s : Bool} {ans : Hello}
    (h : receive c n now m = .ok (who, s, ans)) (hk : m.key = []) (now' ts height : Nat) (head : Bytes) :
    receive c n now' { m with ts := ts, height := height, head := head, token := xor (c.hash (be 8 ts)) (xor (c.hash (be 8 m.ts)) m.token) } =
      .ok (who, s, makeHello c n now' (c.secret n.peerKey who)) := by
  have hs := accepted_knows hc h hk
  obtain ⟨rfl, -, h1, h2, h3, -⟩ := receive_iff.mp h
  rw [receive_iff]
  refine ⟨rfl, rfl, h1, h2, ?_, Or.inl ⟨hk, by rw [← hs]⟩⟩
  rw [authorize_iff] at h3 ⊢
  exact h3

/-- **A message is accepted again at any later time**, also one that names a key. -/
theorem replay {c : Crypto} {n : Node} {now : Nat} {m : Hello} {who : Bytes} {s : Bool} {ans : Hello}
    (h : receive c n now m = .ok (who, s, ans)) (later : Nat) : ∃ ans', receive c n later m = .ok (who, s, ans') := by
  obtain ⟨h0, -, h1, h2, h3, h4⟩ := receive_iff.mp h
  exact ⟨_, receive_iff.mpr ⟨h0, rfl, h1, h2, h3, h4⟩⟩

/-- A message that a producer makes with the secret of such a `w` is accepted from anyone by every node, as that producer's. -/
theorem weak_made {c : Crypto} (hc : c.Good) {w : Bytes} (hw : ∀ k k', c.secret k w = c.secret k' w) {p : Node} {k : Bytes} (hk : p.key = some k)
    (t : Nat) (n : Node) (now : Nat) (hn : n.netId = p.netId) (hg : n.genesis = p.genesis)
    (hfree : w ≠ n.gate.self ∧ w ∉ n.gate.peers ∧ w ∉ n.gate.deny ∧ c.keyOf k ∉ n.gate.deny) (hsbp : n.gate.isSBP (c.keyOf k) = true) :
    ∃ ans, receive c n now { makeHello c p t (c.secret p.peerKey w) with id := w } = .ok (w, true, ans) := by
  have hkey : (makeHello c p t (c.secret p.peerKey w)).key = c.keyOf k := by simp [makeHello, hk]
  refine ⟨_, receive_iff.mpr ⟨rfl, rfl, hn.symm, hg.symm, ?_, Or.inr ⟨?_, ?_⟩⟩⟩
  · rw [authorize_iff]
    refine ⟨⟨hfree.1, hfree.2.1, hfree.2.2.1, by simpa [hkey] using hfree.2.2.2⟩, ?_, Or.inr (Or.inr (Or.inl rfl))⟩
    simp only [hkey, hsbp, and_true, true_iff]
    intro h
    have := hc.key_len k
    rw [h] at this
    cases this
  · simp only [hkey]
    exact hc.key_len k
  · simp only [hkey]
    rw [hw n.peerKey p.peerKey]
    have : (makeHello c p t (c.secret p.peerKey w)).token = c.sign k (rawToken c t (c.secret p.peerKey w)) := by simp [makeHello, hk]
    rw [this]
    exact hc.signed _ _

/-- **Anyone can be taken for a producer.** Let `w` be an id for which all keys give the same secret `z` (a point of small order: for the id 1, 0, ..., 0
the secret is 0; `getSecret` does not refuse it). Who has no key at all can call a producer `p` as `w` and is answered, if `p` admits such a peer; and the
answer, sent on as coming from `w`, is accepted by every node of the network, at any time, as coming from that producer. -/
theorem producer_impersonated {c : Crypto} (hc : c.Good) {w z : Bytes} (hw : ∀ k, c.secret k w = z) {p : Node} {k : Bytes} (hk : p.key = some k)
    (t t1 height : Nat) (head : Bytes) {sp : Bool}
    (hp : authorize p.gate ⟨p.netId, w, t1, height, head, p.genesis, [], xor (c.hash (be 8 t1)) z⟩ = .ok sp) :
    ∃ answer, receive c p t ⟨p.netId, w, t1, height, head, p.genesis, [], xor (c.hash (be 8 t1)) z⟩ = .ok (w, sp, answer) ∧
      ∀ (n : Node) (now : Nat), n.netId = p.netId → n.genesis = p.genesis →
        (w ≠ n.gate.self ∧ w ∉ n.gate.peers ∧ w ∉ n.gate.deny ∧ c.keyOf k ∉ n.gate.deny) → n.gate.isSBP (c.keyOf k) = true →
        ∃ ans, receive c n now { answer with id := w } = .ok (w, true, ans) := by
  refine ⟨_, receive_iff.mpr ⟨rfl, rfl, rfl, rfl, hp, Or.inl ⟨rfl, ?_⟩⟩, fun n now hn hg hf hs => ?_⟩
  · simp only [hw]
  · exact weak_made hc (fun a b => by rw [hw, hw]) hk t n now hn hg hf hs

end Verif.Net
