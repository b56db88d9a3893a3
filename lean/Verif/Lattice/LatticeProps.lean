import Verif.Lattice.LatticeReach

/-!
The theorems about the account ledger.
-/

namespace Verif.Lattice

variable {U : Blk → Prop} {g : Cfg} {c : Chain}

/-! ### C60: account chains -/

/-- The node never stops on an allowed operation. -/
theorem node_goes_on (S : Sound U) (h : Reach g U c) {o : Op} (ho : Allowed U c o) : ∃ c', step g c o = some c' :=
  let ⟨c', e, _⟩ := (h.inv S).step S ho
  ⟨c', e⟩

/-- Every account has one chain: at most one block per height, every block above the first follows the block below and
names its hash, and no height is left out. -/
theorem chains_linked (S : Sound U) (h : Reach g U c) :
    (∀ x ∈ c.all, ∀ y ∈ c.all, x.addr = y.addr → x.height = y.height → x = y) ∧
    (∀ b ∈ c.all, (b.height = 1 ∧ b.prev = 0) ∨ ∃ p ∈ c.all, p.addr = b.addr ∧ p.height + 1 = b.height ∧ p.hash = b.prev) ∧
    (∀ b ∈ c.all, ∀ n, 1 ≤ n → n ≤ b.height → ∃ p ∈ c.all, p.addr = b.addr ∧ p.height = n) := by
  have I := h.inv S
  refine ⟨I.ledger.place, I.ledger.linked, ?_⟩
  intro b hb n h1 h2
  obtain ⟨k, hk⟩ : ∃ k, b.height = n + k := ⟨b.height - n, by omega⟩
  clear h2
  induction k generalizing b with
  | zero => exact ⟨b, hb, rfl, by omega⟩
  | succ k ih =>
    rcases I.ledger.linked b hb with ⟨e, _⟩ | ⟨p, hp, e1, e2, _⟩
    · omega
    · obtain ⟨q, hq, e3, e4⟩ := ih p hp (by omega)
      exact ⟨q, hq, e3.trans e1, e4⟩

/-- Every confirmed chain is linked inside the confirmed ledger, and rests on confirmed sends. -/
theorem confirmed_closed (S : Sound U) (h : Reach g U c) : Ledger U c.confirmed := (h.inv S).ledger.left

/-- No account block is `latest` exactly if the account has none. -/
theorem latest_none (S : Sound U) (h : Reach g U c) (a : Nat) : c.latest a = none ↔ ∀ x ∈ c.all, x.addr ≠ a := by
  have I := h.inv S
  constructor
  · intro q x hx e
    obtain ⟨h1, h2⟩ := I.lastHeight a
    cases r : Lattice.lastHeight c.mem a with
    | none => exact h2 r x hx e
    | some n =>
      obtain ⟨d, hd, _⟩ := h1 n r
      rw [(I.latest S).mpr hd] at q; cases q
  · intro q
    cases r : c.latest a with
    | none => rfl
    | some b =>
      have := (I.latest S).mp r
      exact absurd this.2.1 (q b this.1)

/-- When a block is accepted: it continues the chain of its account; a receive names a send in the ledger, addressed to
its account and not received yet; and the other checks agree. -/
theorem accepts_exact (S : Sound U) (h : Reach g U c) {b : Blk} (hU : U b) :
    c.accepts g b = true ↔
      b.kind ≠ .genesis ∧ g.legal b = true ∧
      (((∀ x ∈ c.all, x.addr ≠ b.addr) ∧ b.height = 1 ∧ b.prev = 0) ∨
        ∃ l ∈ c.all, l.addr = b.addr ∧ (∀ x ∈ c.all, x.addr = b.addr → x.height ≤ l.height) ∧ b.height = l.height + 1 ∧ b.prev = l.hash) ∧
      (b.isSend = true → b.src = 0 ∧ (if g.contract b.addr then b.height = 0 else 1 < b.height)) ∧
      (b.isSend = false → b.dest = 0 ∧ 0 < b.height ∧ (b.sends = [] ∨ g.contract b.addr = true) ∧ b.src ≠ 0 ∧
        (∃ d ∈ c.all, ∃ s ∈ d.outs, s.hash = b.src ∧ s.dest = b.addr) ∧ ∀ x ∈ c.all, x.takes b.src = false) := by
  have I := h.inv S
  have hf : c.follows b = true ↔ (((∀ x ∈ c.all, x.addr ≠ b.addr) ∧ b.height = 1 ∧ b.prev = 0) ∨
        ∃ l ∈ c.all, l.addr = b.addr ∧ (∀ x ∈ c.all, x.addr = b.addr → x.height ≤ l.height) ∧ b.height = l.height + 1 ∧ b.prev = l.hash) := by
    unfold Chain.follows
    cases q : c.latest b.addr with
    | none =>
      have hn := (latest_none S h _).mp q
      simp only [Bool.and_eq_true, decide_eq_true_eq]
      constructor
      · exact fun r => .inl ⟨hn, r⟩
      · rintro (r | ⟨l, hl, e, _⟩)
        · exact r.2
        · exact absurd e (hn l hl)
    | some l =>
      obtain ⟨h1, h2, h3⟩ := (I.latest S).mp q
      simp only [Bool.and_eq_true, decide_eq_true_eq]
      constructor
      · exact fun r => .inr ⟨l, h1, h2, h3, r⟩
      · rintro (r | ⟨l', hl, e, h4, h5, h6⟩)
        · exact absurd h2 (r.1 l h1)
        · have e1 := h3 l' hl e
          have e2 := h4 l h1 h2
          have : l' = l := I.ledger.place l' hl l h1 (e.trans h2.symm) (by omega)
          subst this
          exact ⟨h5, h6⟩
  have hs : c.sendFits b = true ↔ b.src ≠ 0 ∧ (∃ d ∈ c.all, ∃ s ∈ d.outs, s.hash = b.src ∧ s.dest = b.addr) ∧ ∀ x ∈ c.all, x.takes b.src = false := by
    unfold Chain.sendFits
    simp only [Bool.and_eq_true, decide_eq_true_eq, Bool.not_eq_true', and_assoc]
    have e1 : c.isReceived b.src = false ↔ ∀ x ∈ c.all, x.takes b.src = false := by
      constructor
      · intro q x hx
        cases r : x.takes b.src with
        | false => rfl
        | true => rw [(I.isReceived b.src).mpr ⟨x, hx, r⟩] at q; cases q
      · intro q
        cases r : c.isReceived b.src with
        | false => rfl
        | true =>
          obtain ⟨x, hx, r⟩ := (I.isReceived b.src).mp r
          rw [q x hx] at r; cases r
    rw [e1]
    apply and_congr_right; intro _
    apply and_congr_left; intro _
    constructor
    · intro q
      cases r : c.byHash b.src with
      | none => rw [r] at q; cases q
      | some r' =>
        rw [r] at q
        simp only [decide_eq_true_eq] at q
        rcases (I.byHash S).mp r with ⟨hr', e⟩ | ⟨d, hd, s, hs, e, er⟩
        · cases hrr : r'.isRecv with
          | true =>
            rw [I.dest r' hr' hrr] at q
            exact absurd q.symm (S.owner b hU)
          | false =>
            have hsd : r'.isSend = true := by simpa [Blk.isRecv] using hrr
            exact ⟨r', hr', ⟨r'.hash, r'.dest⟩, by simp [Blk.outs, hsd], e, q⟩
        · refine ⟨d, hd, s, by simp [Blk.outs, hs], e, ?_⟩
          rw [er] at q; exact q
    · rintro ⟨d, hd, o, ho, e1, e2⟩
      unfold Blk.outs at ho
      rcases List.mem_append.mp ho with q | q
      · split at q
        · rename_i hsd
          simp only [List.mem_singleton] at q
          subst q
          rw [(I.byHash S).mpr (.inl ⟨hd, e1⟩)]
          simpa using e2
        · cases q
      · rw [(I.byHash S).mpr (.inr ⟨d, hd, o, q, e1, rfl⟩)]
        exact decide_eq_true e2
  unfold Chain.accepts
  simp only [Bool.and_eq_true, decide_eq_true_eq, hf]
  cases hsd : b.isSend with
  | true =>
    simp only [if_true, sendOk, Bool.and_eq_true, decide_eq_true_eq, forall_const, reduceCtorEq, false_imp_iff, and_true]
    have : (if g.contract b.addr = true then decide (b.height = 0) else decide (1 < b.height)) = true ↔
        (if g.contract b.addr = true then b.height = 0 else 1 < b.height) := by split <;> simp
    rw [this]
    constructor
    · rintro ⟨⟨⟨q1, q2⟩, q3⟩, q4⟩; exact ⟨q1, q4, q3, q2⟩
    · rintro ⟨q1, q4, q3, q2⟩; exact ⟨⟨⟨q1, q2⟩, q3⟩, q4⟩
  | false =>
    simp only [Bool.false_eq_true, if_false, recvOk, Bool.and_eq_true, Bool.or_eq_true, decide_eq_true_eq, forall_const, false_imp_iff, true_and, hs,
      List.isEmpty_iff]
    constructor
    · rintro ⟨⟨⟨q1, ⟨⟨q5, q6⟩, q7⟩, q2⟩, q3⟩, q4⟩; exact ⟨q1, q4, q3, q5, q6, q7, q2⟩
    · rintro ⟨q1, q4, q3, q5, q6, q7, q2⟩; exact ⟨⟨⟨q1, ⟨⟨q5, q6⟩, q7⟩, q2⟩, q3⟩, q4⟩

/-- An accepted block is added to the ledger; a refused one changes nothing. -/
theorem insert_exact (b : Blk) :
    (c.accepts g b = true → (c.insert g b).all = c.all ++ [b]) ∧ (c.accepts g b = false → c.insert g b = c) := by
  unfold Chain.insert
  constructor
  · intro q; rw [if_pos q]; simp [Chain.write, Chain.all, Chain.confirmed]
  · intro q; rw [if_neg (by rw [q]; simp)]

/-! ### C61: sends and receives -/

/-- A send is received at most once, by the account it is addressed to, and is in the ledger as long as its receive is.
Partial: this supposes that send blocks carry no send list and that snapshots take in the sends of their receives; the code
asks for neither (`attached_send_received_twice`, `open_snapshot_received_twice`). -/
theorem received_once_partial (S : Sound U) (h : Reach g U c) :
    (∀ x ∈ c.all, ∀ y ∈ c.all, ∀ s, x.takes s = true → y.takes s = true → x = y) ∧
    (∀ b ∈ c.all, ∀ s, b.takes s = true → ∃ r, c.byHash s = some r ∧ r.isSend = true ∧ r.dest = b.addr) := by
  have I := h.inv S
  refine ⟨I.ledger.once, ?_⟩
  intro b hb s hs
  obtain ⟨d, hd, o, ho, e1, e2⟩ := I.ledger.backed b hb s hs
  unfold Blk.outs at ho
  rcases List.mem_append.mp ho with q | q
  · split at q
    · rename_i hsd
      simp only [List.mem_singleton] at q
      subst q
      exact ⟨d, (I.byHash S).mpr (.inl ⟨hd, e1⟩), hsd, e2⟩
    · cases q
  · exact ⟨inner d o, (I.byHash S).mpr (.inr ⟨d, hd, o, q, e1, rfl⟩), rfl, e2⟩

/-! ### C62: what is deleted -/

/-- Deleting an unconfirmed block by its hash takes away exactly this block and what rests on it; it is refused exactly
for hashes of no unconfirmed block. -/
theorem delete_exact (S : Sound U) (h : Reach g U c) (x : Nat) :
    (∀ c', c.deleteHash x = some c' → ∃ b ∈ c.unconf, b.hash = x ∧ ∀ y, y ∈ c'.all ↔ y ∈ c.all ∧ ¬ Tainted (· = b) c.all y) ∧
    (c.deleteHash x = none ↔ ∀ b ∈ c.unconf, b.hash ≠ x) := by
  have I := h.inv S
  unfold Chain.deleteHash
  cases q : c.unconf.dropWhile (fun b => decide (b.hash ≠ x)) with
  | nil =>
    simp only [reduceCtorEq, false_imp_iff, implies_true, true_and, true_iff]
    intro b hb
    have := dropWhile_none q b hb
    simpa using this
  | cons b Q =>
    obtain ⟨P, e, hb⟩ := dropWhile_split q
    have hb' : b.hash = x := by simpa using hb
    have hm : b ∈ c.unconf := by rw [e]; simp
    simp only [Option.some.injEq, reduceCtorEq, false_iff]
    refine ⟨?_, fun hn => hn b hm hb'⟩
    rintro c' rfl
    exact ⟨b, hm, hb', (I.deletion S e).2⟩

/-- The same, by account and height. -/
theorem delete_height_exact (S : Sound U) (h : Reach g U c) (a n : Nat) :
    (∀ c', c.deleteHeight a n = some c' → ∃ b ∈ c.unconf, b.addr = a ∧ b.height = n ∧
      ∀ y, y ∈ c'.all ↔ y ∈ c.all ∧ ¬ Tainted (· = b) c.all y) ∧
    (c.deleteHeight a n = none ↔ ∀ b ∈ c.unconf, ¬ (b.addr = a ∧ b.height = n)) := by
  have I := h.inv S
  unfold Chain.deleteHeight
  cases q : c.unconf.dropWhile (fun b => decide (¬ (b.addr = a ∧ b.height = n))) with
  | nil =>
    simp only [reduceCtorEq, false_imp_iff, implies_true, true_and, true_iff]
    intro b hb
    have := dropWhile_none q b hb
    simpa only [decide_eq_true_eq] using this
  | cons b Q =>
    obtain ⟨P, e, hb⟩ := dropWhile_split q
    have hb' : b.addr = a ∧ b.height = n := by
      simpa only [decide_eq_false_iff_not, not_not] using hb
    have hm : b ∈ c.unconf := by rw [e]; simp
    simp only [Option.some.injEq, reduceCtorEq, false_iff]
    refine ⟨?_, fun hn => hn b hm hb'⟩
    rintro c' rfl
    exact ⟨b, hm, hb'.1, hb'.2, (I.deletion S e).2⟩

/-- A snapshot confirms exactly the blocks its content covers; then exactly the unconfirmed blocks that are not valid any
more, and what rests on them, are dropped. -/
theorem snapshot_exact (S : Sound U) (h : Reach g U c) {s : Snap} {e : Bool} {bad : Blk → Bool} (hcl : Closed c s.content)
    {c' : Chain} (hs : c.snapshot s e bad = some c') (hne : c'.chunks ≠ c.chunks) :
    c'.chunks = c.chunks ++ [⟨s, c.unconf.filter (cov s.content)⟩] ∧
    ∀ y, y ∈ c'.all ↔ y ∈ c.all ∧
      ¬ Tainted (fun b => (b ∈ c.unconf ∧ ¬ Covers s.content b) ∧ (e = true ∨ b.kind = .error ∨ bad b = true)) c.all y := by
  have I := h.inv S
  unfold Chain.snapshot at hs
  by_cases ok : c.snapOk s = true
  · rw [if_pos ok] at hs
    cases hb : toBeConfirmed s.content c.unconf with
    | none =>
      rw [hb] at hs
      injection hs with hs
      rw [hs] at hne; exact absurd rfl hne
    | some bs =>
      obtain ⟨e1, c1, h1, I1, h2, h3, h4⟩ := I.confirmed S ok hcl hb
      obtain ⟨_, h5, h6⟩ := I1.dropped S e bad
      rw [hb] at hs
      simp only [h1, Option.map_some, Option.some.injEq] at hs
      rw [hs] at h5 h6
      refine ⟨by rw [h5, h2, e1], ?_⟩
      intro y
      have hmw : ∀ b, b ∈ c1.unconf ↔ b ∈ c.unconf ∧ ¬ Covers s.content b := by
        intro b
        rw [h3, mem_without, e1, List.mem_filter, cov_iff]
        · exact ⟨fun q => ⟨q.1, fun hc => q.2 ⟨q.1, hc⟩⟩, fun q => ⟨q.1, fun hc => q.2 hc.2⟩⟩
        · intro x hx z hz ez
          rw [e1] at hz
          exact I.ledger.hash_inj S (mem_all.mpr (.inr hx)) (mem_all.mpr (.inr (List.mem_filter.mp hz).1)) ez
      rw [h6, h4]
      have ht : Tainted (fun b => b ∈ c1.unconf ∧ (e = true ∨ b.kind = .error ∨ bad b = true)) c1.all y ↔
          Tainted (fun b => (b ∈ c.unconf ∧ ¬ Covers s.content b) ∧ (e = true ∨ b.kind = .error ∨ bad b = true)) c.all y := by
        constructor
        · intro q
          induction q with
          | base hm hs' => exact .base ((h4 _).mp hm) ⟨(hmw _).mp hs'.1, hs'.2⟩
          | step hm _ hd ih => exact .step ((h4 _).mp hm) ih hd
        · intro q
          induction q with
          | base hm hs' => exact .base ((h4 _).mpr hm) ⟨(hmw _).mpr hs'.1, hs'.2⟩
          | step hm _ hd ih => exact .step ((h4 _).mpr hm) ih hd
      rw [ht]
  · rw [if_neg ok] at hs
    injection hs with hs
    rw [hs] at hne; exact absurd rfl hne

/-- A rollback to a height keeps exactly the snapshots below, with their blocks; if the redo log is at hand, the blocks of
the first snapshot deleted are unconfirmed again. It is refused exactly for heights above the top and below 2. -/
theorem rollback_exact (S : Sound U) (h : Reach g U c) (redo : Nat → Bool) (n : Nat) :
    (∀ c', c.rollback redo n = some c' → c'.chunks = c.chunks.take (n - 1) ∧
      c'.unconf = (if redo n then (c.chunks[n - 1]?.map (·.blocks)).getD [] else [])) ∧
    (c.rollback redo n = none ↔ n ≤ 1 ∨ c.top < n) := by
  have I := h.inv S
  constructor
  · intro c' hc
    obtain ⟨_, _, _, h1, h2⟩ := I.rollback S redo hc
    exact ⟨h1, h2⟩
  · unfold Chain.rollback
    split
    · rename_i q; simp only [true_iff]; omega
    · rename_i q; simp only [reduceCtorEq, false_iff]; omega

/-- Snapshots are numbered one after the other from 1. -/
theorem snapshots_numbered (S : Sound U) (h : Reach g U c) : c.chunks.map (·.snap.height) = List.range' 1 c.chunks.length :=
  (h.inv S).heights

/-- A restart leaves exactly the confirmed ledger. -/
theorem restart_confirmed : c.restart.chunks = c.chunks ∧ c.restart.unconf = [] := ⟨rfl, rfl⟩

/-! ### C63: queries -/

theorem by_hash_exact (S : Sound U) (h : Reach g U c) (x : Nat) (r : Blk) :
    c.byHash x = some r ↔ (r ∈ c.all ∧ r.hash = x) ∨ ∃ b ∈ c.all, ∃ s ∈ b.sends, s.hash = x ∧ r = inner b s := (h.inv S).byHash S

theorem by_height_exact (S : Sound U) (h : Reach g U c) (a n : Nat) (b : Blk) :
    c.byHeight a n = some b ↔ b ∈ c.all ∧ b.addr = a ∧ b.height = n := (h.inv S).byHeight

theorem latest_exact (S : Sound U) (h : Reach g U c) (a : Nat) (b : Blk) :
    c.latest a = some b ↔ b ∈ c.all ∧ b.addr = a ∧ ∀ x ∈ c.all, x.addr = a → x.height ≤ b.height := (h.inv S).latest S

theorem is_received_exact (S : Sound U) (h : Reach g U c) (x : Nat) : c.isReceived x = true ↔ ∃ b ∈ c.all, b.takes x = true :=
  (h.inv S).isReceived x

theorem receiver_exact (S : Sound U) (h : Reach g U c) (x : Nat) (r : Blk) :
    c.receiver x = some r ↔ r ∈ c.all ∧ r.takes x = true := (h.inv S).receiver S

/-- The send hash of an entry of the on-road list of an account. -/
def roadOf (a : Nat) (k : Key) : Option Nat := match k with
  | .road a' h => if a' = a then some h else none
  | _ => none

theorem roadOf_iff (a x : Nat) (k : Key) : x ∈ roadOf a k ↔ k = .road a x := by
  cases k with
  | road a' h =>
    simp only [roadOf, Option.mem_def, Key.road.injEq]
    by_cases q : a' = a
    · simp [q]
    · simp [q]
  | _ => simp [roadOf]

theorem onRoad_eq (c : Chain) (a : Nat) : c.onRoad a = (c.mem.map (·.1)).filterMap (roadOf a) := by
  unfold Chain.onRoad
  rw [List.filterMap_map]; rfl

/-- The sends on the way to an account: those addressed to it and not received, each once. -/
theorem on_road_exact (S : Sound U) (h : Reach g U c) (a : Nat) :
    (c.onRoad a).Nodup ∧
    ∀ x, x ∈ c.onRoad a ↔ (∃ d ∈ c.all, ∃ s ∈ d.outs, s.hash = x ∧ s.dest = a) ∧ ∀ b ∈ c.all, b.takes x = false := by
  have I := h.inv S
  constructor
  · rw [onRoad_eq]
    apply List.Nodup.filterMap _ I.pm
    intro k k' x h1 h2
    rw [roadOf_iff] at h1 h2
    rw [h1, h2]
  · intro x
    rw [onRoad_eq, List.mem_filterMap]
    constructor
    · rintro ⟨k, hk, hx⟩
      have hx' : x ∈ roadOf a k := hx
      rw [roadOf_iff] at hx'
      subst hx'
      obtain ⟨p, hp, e'⟩ := List.mem_map.mp hk
      have hg : Table.get (.road a x) c.mem = some p.2 := Table.mem_get I.pm (by rw [← e']; exact hp)
      rw [I.mem, wants_road] at hg
      exact hg.2
    · intro q
      have hg : Table.get (.road a x) c.mem = some .flag := (I.mem _ _).mpr (wants_road.mpr ⟨rfl, q⟩)
      exact ⟨.road a x, List.mem_map.mpr ⟨_, Table.get_mem hg, rfl⟩, (roadOf_iff _ _ _).mpr rfl⟩

/-! #### Confirmations -/

/-- One entry of the scan for the first confirmation. -/
def confStep (a n : Nat) (m : Option (Nat × Nat)) (x : Key × Val) : Option (Nat × Nat) := match x.1, x.2 with
  | .conf a' n', .num s =>
    if a' = a ∧ n ≤ n' then
      (match m with
       | none => some (n', s)
       | some (k, v) => if n' < k then some (n', s) else some (k, v))
    else m
  | _, _ => m

theorem confStep_hit (a n n' s : Nat) (m : Option (Nat × Nat)) (h : n ≤ n') : confStep a n m (.conf a n', .num s) = match m with
    | none => some (n', s)
    | some (k, v) => if n' < k then some (n', s) else some (k, v) := by
  simp [confStep, h]

theorem confStep_miss (a n : Nat) (m : Option (Nat × Nat)) (x : Key × Val) (q : ¬ ∃ n' s, x = (.conf a n', .num s) ∧ n ≤ n') :
    confStep a n m x = m := by
  obtain ⟨k, v⟩ := x
  cases k <;> cases v <;> simp only [confStep]
  rename_i a' n' s
  rw [if_neg]
  rintro ⟨rfl, hle⟩
  exact q ⟨n', s, rfl, hle⟩

theorem firstConf_fold (a n : Nat) (t : Tbl) : ∀ m : Option (Nat × Nat),
    (∀ k v, m = some (k, v) → ∃ j w, t.foldl (confStep a n) m = some (j, w) ∧ j ≤ k) ∧
    (∀ n' s, (Key.conf a n', Val.num s) ∈ t → n ≤ n' → ∃ j w, t.foldl (confStep a n) m = some (j, w) ∧ j ≤ n') ∧
    (∀ j w, t.foldl (confStep a n) m = some (j, w) → m = some (j, w) ∨ ((Key.conf a j, Val.num w) ∈ t ∧ n ≤ j)) := by
  induction t with
  | nil => intro m; exact ⟨fun k v h => ⟨k, v, h, Nat.le_refl k⟩, by simp, fun j w h => .inl h⟩
  | cons x t ih =>
    intro m
    rw [List.foldl_cons]
    obtain ⟨m', hm'⟩ : ∃ m', m' = confStep a n m x := ⟨_, rfl⟩
    rw [← hm']
    obtain ⟨i1, i2, i3⟩ := ih m'
    by_cases q : ∃ n' s, x = (.conf a n', .num s) ∧ n ≤ n'
    · obtain ⟨n', s, q, hle⟩ := q
      have e := confStep_hit a n n' s m hle
      rw [← q, ← hm'] at e
      have e' : ∃ k v, m' = some (k, v) ∧ k ≤ n' ∧ (∀ k' v', m = some (k', v') → k ≤ k') ∧ (m = some (k, v) ∨ (k = n' ∧ v = s)) := by
        rw [e]
        cases m with
        | none => exact ⟨n', s, rfl, Nat.le_refl _, by simp, .inr ⟨rfl, rfl⟩⟩
        | some p =>
          obtain ⟨k, v⟩ := p
          simp only
          split
          · rename_i hlt
            refine ⟨n', s, rfl, Nat.le_refl _, ?_, .inr ⟨rfl, rfl⟩⟩
            intro k' v' h
            injection h with h; injection h with h _; omega
          · rename_i hlt
            refine ⟨k, v, rfl, by omega, ?_, .inl rfl⟩
            intro k' v' h
            injection h with h; injection h with h _; omega
      obtain ⟨k, v, ek, hk1, hk2, hk3⟩ := e'
      obtain ⟨j, w, hj, hjk⟩ := i1 k v ek
      refine ⟨?_, ?_, ?_⟩
      · intro k' v' h
        exact ⟨j, w, hj, by have := hk2 k' v' h; omega⟩
      · intro n1 s1 h1 h2
        rcases List.mem_cons.mp h1 with h | h
        · rw [q] at h
          injection h with h _
          injection h with _ h
          exact ⟨j, w, hj, by omega⟩
        · exact i2 n1 s1 h h2
      · intro j' w' hj'
        rcases i3 j' w' hj' with h | h
        · rw [ek] at h
          injection h with h
          injection h with h1 h2
          subst h1 h2
          rcases hk3 with h | ⟨h1, h2⟩
          · exact .inl h
          · right
            subst h1 h2
            rw [q]; exact ⟨List.mem_cons_self, hle⟩
        · exact .inr ⟨List.mem_cons_of_mem _ h.1, h.2⟩
    · have e : m' = m := hm'.trans (confStep_miss a n m x q)
      refine ⟨fun k v h => i1 k v (e.trans h), ?_, ?_⟩
      · intro n1 s1 h1 h2
        rcases List.mem_cons.mp h1 with h | h
        · exact absurd ⟨n1, s1, h.symm, h2⟩ q
        · exact i2 n1 s1 h h2
      · intro j w hj
        rcases i3 j w hj with h | h
        · exact .inl (e.symm.trans h)
        · exact .inr ⟨List.mem_cons_of_mem _ h.1, h.2⟩

theorem firstConf_spec (t : Tbl) (a n : Nat) :
    (firstConf t a n = none → ∀ n' s, (Key.conf a n', Val.num s) ∈ t → ¬ n ≤ n') ∧
    (∀ s, firstConf t a n = some s → ∃ j, (Key.conf a j, Val.num s) ∈ t ∧ n ≤ j ∧ ∀ n' s', (Key.conf a n', Val.num s') ∈ t → n ≤ n' → j ≤ n') := by
  obtain ⟨_, h2, h3⟩ := firstConf_fold a n t none
  have e : firstConf t a n = (t.foldl (confStep a n) none).map (·.2) := rfl
  rw [e]
  constructor
  · intro h n' s hm hle
    obtain ⟨j, w, hj, _⟩ := h2 n' s hm hle
    rw [hj] at h; cases h
  · intro s h
    rw [Option.map_eq_some_iff] at h
    obtain ⟨⟨j, w⟩, hj, e⟩ := h
    simp only at e
    subst e
    rcases h3 j w hj with h | ⟨h, hle⟩
    · cases h
    · refine ⟨j, h, hle, ?_⟩
      intro n' s' hm hle'
      obtain ⟨j', w', hj', hle''⟩ := h2 n' s' hm hle'
      have : some (j, w) = some (j', w') := hj.symm.trans hj'
      injection this with this
      injection this with this _
      omega

/-- A block is in one chunk. -/
theorem Inv.chunk_unique (I : Inv U c) {k k' : Chunk} (hk : k ∈ c.chunks) (hk' : k' ∈ c.chunks) {b : Blk} (hb : b ∈ k.blocks) (hb' : b ∈ k'.blocks) :
    k = k' := by
  have n := (List.nodup_append.mp I.ledger.nodup).1
  unfold Chain.confirmed at n
  rw [List.nodup_flatMap] at n
  by_contra hne
  have hs : Std.Symm (fun x y : Chunk => List.Disjoint x.blocks y.blocks) := ⟨fun _ _ h => h.symm⟩
  have hp : List.Pairwise (fun x y : Chunk => List.Disjoint x.blocks y.blocks) c.chunks := n.2
  exact (hp.forall hk hk' hne) hb hb'

/-- Later chunks hold higher blocks of an account. -/
theorem Inv.chunk_order (I : Inv U c) {k k' : Chunk} (hk : k ∈ c.chunks) (hk' : k' ∈ c.chunks) {b d : Blk} (hb : b ∈ k.blocks) (hd : d ∈ k'.blocks)
    (ha : b.addr = d.addr) (hlt : b.height < d.height) : k.snap.height ≤ k'.snap.height := by
  by_contra hgt
  -- k' comes before k
  obtain ⟨e1, e2⟩ := filter_take (fun k : Chunk => k.snap.height) k.snap.height c.chunks 1 I.heights
  have hsplit := List.take_append_drop (k.snap.height - 1) c.chunks
  have h1 : k' ∈ c.chunks.take (k.snap.height - 1) := by
    rw [← e1, List.mem_filter]; exact ⟨hk', by simp; omega⟩
  have h2 : k ∈ c.chunks.drop (k.snap.height - 1) := by
    rw [← e2, List.mem_filter]; exact ⟨hk, by simp⟩
  have o := I.ledger.order
  unfold Chain.all Chain.confirmed at o
  rw [List.pairwise_append] at o
  have o1 := o.1
  rw [← hsplit, List.flatMap_append, List.pairwise_append] at o1
  exact o1.2.2 d (List.mem_flatMap.mpr ⟨k', h1, hd⟩) b (List.mem_flatMap.mpr ⟨k, h2, hb⟩) (.inl ⟨ha.symm, hlt⟩)

theorem Inv.firstConf (I : Inv U c) {b : Blk} (hb : b ∈ c.all) :
    (b ∈ c.unconf → firstConf c.mem b.addr b.height = none) ∧
    (∀ k ∈ c.chunks, b ∈ k.blocks → firstConf c.mem b.addr b.height = some k.snap.height) := by
  obtain ⟨h1, h2⟩ := firstConf_spec c.mem b.addr b.height
  have entry : ∀ n s, (Key.conf b.addr n, Val.num s) ∈ c.mem → ∃ k ∈ c.chunks, s = k.snap.height ∧ ∃ d, Last k.blocks b.addr d ∧ d.height = n := by
    intro n s hm
    have hg := (I.mem _ _).mp (Table.mem_get I.pm hm)
    rw [wants_conf] at hg
    obtain ⟨k, hk, e, x, hx⟩ := hg
    injection e with e
    obtain ⟨d, hd, e2, _⟩ := (I.content k hk b.addr n x).mp hx
    exact ⟨k, hk, e, d, hd, e2⟩
  constructor
  · intro hu
    cases q : Lattice.firstConf c.mem b.addr b.height with
    | none => rfl
    | some s =>
      exfalso
      obtain ⟨j, hm, hle, _⟩ := h2 s q
      obtain ⟨k, hk, _, d, hd, e⟩ := entry j s hm
      have o := I.ledger.order
      unfold Chain.all at o
      rw [List.pairwise_append] at o
      have hdc : d ∈ c.confirmed := List.mem_flatMap.mpr ⟨k, hk, hd.1⟩
      have hnd := o.2.2 d hdc b hu
      have hne : d ≠ b := by rintro rfl; exact I.unconf_not hu hdc
      have : d.height ≠ b.height := fun e' => hne (I.ledger.place d (mem_all.mpr (.inl hdc)) b hb hd.2.1 e')
      exact hnd (.inl ⟨hd.2.1, by omega⟩)
  · intro k hk hbk
    -- the entry of this chunk
    have hlast : ∃ d, Last k.blocks b.addr d := by
      have : ∀ (l : List Blk), (∃ x ∈ l, x.addr = b.addr) → ∃ d, Last l b.addr d := by
        intro l
        induction l with
        | nil => rintro ⟨x, hx, _⟩; cases hx
        | cons y l ih =>
          rintro ⟨x, hx, ex⟩
          by_cases q : ∃ z ∈ l, z.addr = b.addr
          · obtain ⟨d, hd1, hd2, hd3⟩ := ih q
            by_cases q2 : y.addr = b.addr ∧ d.height < y.height
            · refine ⟨y, List.mem_cons_self, q2.1, ?_⟩
              intro z hz ez
              rcases List.mem_cons.mp hz with r | r
              · rw [r]
              · have := hd3 z r ez; omega
            · refine ⟨d, List.mem_cons_of_mem _ hd1, hd2, ?_⟩
              intro z hz ez
              rcases List.mem_cons.mp hz with r | r
              · subst r; by_contra hc; exact q2 ⟨ez, by omega⟩
              · exact hd3 z r ez
          · have hy : y.addr = b.addr := by
              rcases List.mem_cons.mp hx with r | r
              · rw [← r]; exact ex
              · exact absurd ⟨x, r, ex⟩ q
            refine ⟨y, List.mem_cons_self, hy, ?_⟩
            intro z hz ez
            rcases List.mem_cons.mp hz with r | r
            · rw [r]
            · exact absurd ⟨z, r, ez⟩ q
      exact this k.blocks ⟨b, hbk, rfl⟩
    obtain ⟨d, hd⟩ := hlast
    have hdm : (Key.conf b.addr d.height, Val.num k.snap.height) ∈ c.mem :=
      Table.get_mem ((I.mem _ _).mpr (wants_conf.mpr ⟨k, hk, rfl, d.hash, (I.content k hk _ _ _).mpr ⟨d, hd, rfl, rfl⟩⟩))
    have hbd : b.height ≤ d.height := hd.2.2 b hbk rfl
    cases q : Lattice.firstConf c.mem b.addr b.height with
    | none => exact absurd hbd (h1 q _ _ hdm)
    | some s =>
      obtain ⟨j, hm, hle, hmin⟩ := h2 s q
      obtain ⟨k', hk', e, x, hx, ex⟩ := entry j s hm
      have hjd := hmin _ _ hdm hbd
      -- x is the last block of the account in k', between b and d
      have hkk : k'.snap.height = k.snap.height := by
        have ha : b.addr = x.addr := hx.2.1.symm
        have hda : d.addr = x.addr := hd.2.1.trans ha
        have hxa : x ∈ c.all := mem_all.mpr (.inl (List.mem_flatMap.mpr ⟨k', hk', hx.1⟩))
        have hda' : d ∈ c.all := mem_all.mpr (.inl (List.mem_flatMap.mpr ⟨k, hk, hd.1⟩))
        by_cases q1 : x.height = b.height
        · have : x = b := I.ledger.place x hxa b hb ha.symm q1
          subst this
          rw [I.chunk_unique hk' hk hx.1 hbk]
        · by_cases q2 : x.height = d.height
          · have : x = d := I.ledger.place x hxa d hda' hda.symm q2
            subst this
            rw [I.chunk_unique hk' hk hx.1 hd.1]
          · have u1 := I.chunk_order hk hk' hbk hx.1 ha (by omega)
            have u2 := I.chunk_order hk' hk hx.1 hd.1 hda.symm (by omega)
            omega
      rw [e, hkk]

theorem Inv.confirm_height (S : Sound U) (I : Inv U c) {b : Blk} (hb : b ∈ c.all) {x : Nat} (hx : x ∈ b.ids) :
    (b ∈ c.unconf → c.confirmHeight x = 0) ∧ (∀ k ∈ c.chunks, b ∈ k.blocks → c.confirmHeight x = k.snap.height) := by
  obtain ⟨h1, h2⟩ := I.firstConf hb
  have hv : c.value (.hash x) = some (.at b.addr b.height) := by
    rw [I.value]; exact (I.mem _ _).mpr (wants_hash.mpr ⟨b, hb, hx, rfl⟩)
  unfold Chain.confirmHeight
  cases q : Table.get x c.made with
  | none =>
    simp only [hv]
    constructor
    · intro hu; rw [h1 hu]; rfl
    · intro k hk hbk; rw [h2 k hk hbk]; rfl
  | some s =>
    simp only
    obtain ⟨d, hd, e, _, r⟩ := I.made x s q
    have : d = b := I.ledger.ids S hd hb (h := x) (by simp [Blk.ids, e]) hx
    subst this
    constructor
    · intro hu
      rcases r with ⟨_, r⟩ | ⟨k, hk, hbk, _⟩
      · exact r
      · exact absurd (List.mem_flatMap.mpr ⟨k, hk, hbk⟩) (I.unconf_not hu)
    · intro k hk hbk
      rcases r with ⟨hu, _⟩ | ⟨k', hk', hbk', r⟩
      · exact absurd (List.mem_flatMap.mpr ⟨k, hk, hbk⟩) (I.unconf_not hu)
      · rw [r, I.chunk_unique hk' hk hbk' hbk]

/-- A block, found by its hash or by that of one of its sends, is confirmed by the snapshot that holds it. -/
theorem confirm_height_exact (S : Sound U) (h : Reach g U c) (x : Nat) :
    (∀ k ∈ c.chunks, ∀ b ∈ k.blocks, x ∈ b.ids → c.confirmHeight x = k.snap.height) ∧
    (∀ b ∈ c.unconf, x ∈ b.ids → c.confirmHeight x = 0) ∧ ((∀ b ∈ c.all, x ∉ b.ids) → c.confirmHeight x = 0) := by
  have I := h.inv S
  refine ⟨?_, ?_, ?_⟩
  · intro k hk b hb hx
    exact (I.confirm_height S (mem_all.mpr (.inl (List.mem_flatMap.mpr ⟨k, hk, hb⟩))) hx).2 k hk hb
  · intro b hb hx
    exact (I.confirm_height S (mem_all.mpr (.inr hb)) hx).1 hb
  · intro hn
    unfold Chain.confirmHeight
    cases q : Table.get x c.made with
    | some s =>
      obtain ⟨d, hd, e, _⟩ := I.made x s q
      exact absurd (by simp [Blk.ids, e]) (hn d hd)
    | none =>
      simp only
      cases hv : c.value (.hash x) with
      | none => rfl
      | some v =>
        rw [I.value, I.mem, wants_hash] at hv
        obtain ⟨b, hb, hx, _⟩ := hv
        exact absurd hx (hn b hb)

/-- The number of confirmations: the snapshots from the confirming one to the latest. -/
theorem confirmed_times_exact (S : Sound U) (h : Reach g U c) (x : Nat) :
    (∀ k ∈ c.chunks, ∀ b ∈ k.blocks, x ∈ b.ids → c.confirmedTimes x + k.snap.height = c.chunks.length + 1) ∧
    (∀ b ∈ c.unconf, x ∈ b.ids → c.confirmedTimes x = 0) := by
  have I := h.inv S
  obtain ⟨h1, h2, _⟩ := confirm_height_exact S h x
  unfold Chain.confirmedTimes
  constructor
  · intro k hk b hb hx
    rw [h1 k hk b hb hx, I.top]
    have := I.height_mem hk
    simp only
    rw [if_neg (by omega), if_neg (by omega)]
    omega
  · intro b hb hx
    rw [h2 b hb hx]; simp

/-- Answers depend only on the snapshots and on which blocks are unconfirmed: not on caches, flushes or the way the node
came there. -/
theorem answers_determined (S : Sound U) {c c' : Chain} (h : Reach g U c) (h' : Reach g U c') (hk : c.chunks = c'.chunks)
    (hu : ∀ b, b ∈ c.unconf ↔ b ∈ c'.unconf) :
    (∀ x, c.byHash x = c'.byHash x) ∧ (∀ a n, c.byHeight a n = c'.byHeight a n) ∧ (∀ a, c.latest a = c'.latest a) ∧
    (∀ x, c.isReceived x = c'.isReceived x) ∧ (∀ x, c.receiver x = c'.receiver x) ∧ (∀ a, (c.onRoad a).Perm (c'.onRoad a)) ∧
    (∀ x, c.confirmHeight x = c'.confirmHeight x) ∧ (∀ x, c.confirmedTimes x = c'.confirmedTimes x) ∧
    (∀ b, c.accepts g b = c'.accepts g b) := by
  have hc : c.confirmed = c'.confirmed := by unfold Chain.confirmed; rw [hk]
  have ha : ∀ b, b ∈ c.all ↔ b ∈ c'.all := by intro b; rw [mem_all, mem_all, hc, hu]
  have ext : ∀ {o o' : Option Blk}, (∀ b, o = some b ↔ o' = some b) → o = o' := by
    intro o o' q
    cases o with
    | none =>
      cases o' with
      | none => rfl
      | some b => exact (q b).mpr rfl
    | some b => exact ((q b).mp rfl).symm
  have e1 : ∀ x, c.byHash x = c'.byHash x := fun x => ext fun b => by rw [by_hash_exact S h, by_hash_exact S h']; simp only [ha]
  have e3 : ∀ a, c.latest a = c'.latest a := fun x => ext fun b => by rw [latest_exact S h, latest_exact S h']; simp only [ha]
  have e4 : ∀ x, c.isReceived x = c'.isReceived x := fun x => by
    have q1 := is_received_exact S h x
    have q2 := is_received_exact S h' x
    simp only [ha] at q1
    exact Bool.eq_iff_iff.mpr (q1.trans q2.symm)
  have et : c.top = c'.top := by unfold Chain.top; rw [hk]
  have e7 : ∀ x, c.confirmHeight x = c'.confirmHeight x := by
    intro x
    obtain ⟨p1, p2, p3⟩ := confirm_height_exact S h x
    obtain ⟨r1, r2, r3⟩ := confirm_height_exact S h' x
    by_cases q : ∃ b ∈ c.all, x ∈ b.ids
    · obtain ⟨b, hb, hx⟩ := q
      rcases mem_all.mp hb with q | q
      · obtain ⟨k, hk', hb'⟩ := List.mem_flatMap.mp q
        rw [p1 k hk' b hb' hx, r1 k (by rw [← hk]; exact hk') b hb' hx]
      · rw [p2 b q hx, r2 b ((hu b).mp q) hx]
    · have q' : ∀ b ∈ c.all, x ∉ b.ids := fun b hb hx => q ⟨b, hb, hx⟩
      rw [p3 q', r3 (fun b hb => q' b ((ha b).mpr hb))]
  refine ⟨e1, ?_, e3, e4, ?_, ?_, e7, ?_, ?_⟩
  · exact fun a n => ext fun b => by rw [by_height_exact S h, by_height_exact S h']; simp only [ha]
  · exact fun x => ext fun b => by rw [receiver_exact S h, receiver_exact S h']; simp only [ha]
  · intro a
    obtain ⟨n1, m1⟩ := on_road_exact S h a
    obtain ⟨n2, m2⟩ := on_road_exact S h' a
    rw [List.perm_ext_iff_of_nodup n1 n2]
    intro x
    rw [m1, m2]; simp only [ha]
  · intro x
    unfold Chain.confirmedTimes
    rw [e7, et]
  · intro b
    unfold Chain.accepts Chain.sendFits Chain.follows
    rw [e1, e3, e4]

/-! ### C64: the snapshots a node makes -/

theorem contentOf_last {P0 L : List Blk} (w : Ledger U (P0 ++ L)) :
    ((contentOf L).map (·.1)).Nodup ∧ ∀ a n x, (a, n, x) ∈ contentOf L ↔ ∃ b, Last L a b ∧ b.height = n ∧ b.hash = x := by
  induction L generalizing P0 with
  | nil => simp [contentOf, Last]
  | cons b L ih =>
    have e : P0 ++ b :: L = (P0 ++ [b]) ++ L := by simp
    obtain ⟨i1, i2⟩ := ih (e ▸ w)
    have above : ∀ y ∈ L, y.addr = b.addr → b.height < y.height := by
      intro y hy ey
      obtain ⟨Q1, Q2, eq⟩ := List.append_of_mem hy
      have hw : Ledger U ((P0 ++ b :: Q1) ++ y :: Q2) := by
        have : P0 ++ b :: L = (P0 ++ b :: Q1) ++ y :: Q2 := by rw [eq]; simp
        rw [← this]; exact w
      exact hw.below (by simp) ey.symm
    unfold contentOf
    by_cases q : L.any (fun x => decide (x.addr = b.addr)) = true
    · rw [if_pos q]
      refine ⟨i1, ?_⟩
      intro a n x
      rw [i2]
      simp only [List.any_eq_true, decide_eq_true_eq] at q
      obtain ⟨y, hy, ey⟩ := q
      constructor
      · rintro ⟨d, ⟨h1, h2, h3⟩, r⟩
        refine ⟨d, ⟨List.mem_cons_of_mem _ h1, h2, ?_⟩, r⟩
        intro z hz ez
        rcases List.mem_cons.mp hz with e | e
        · subst e
          have := above y hy ey
          have := h3 y hy (ey.trans ez)
          omega
        · exact h3 z e ez
      · rintro ⟨d, ⟨h1, h2, h3⟩, r⟩
        have hd : d ∈ L := by
          rcases List.mem_cons.mp h1 with e | e
          · subst e
            have := above y hy ey
            have := h3 y (List.mem_cons_of_mem _ hy) (ey.trans h2)
            omega
          · exact e
        exact ⟨d, ⟨hd, h2, fun z hz => h3 z (List.mem_cons_of_mem _ hz)⟩, r⟩
    · rw [if_neg q]
      have hno : ∀ y ∈ L, y.addr ≠ b.addr := by
        intro y hy ey
        exact q (List.any_eq_true.mpr ⟨y, hy, by simp [ey]⟩)
      constructor
      · rw [List.map_cons, List.nodup_cons]
        refine ⟨?_, i1⟩
        intro hm
        obtain ⟨⟨a, n, x⟩, hx, ea⟩ := List.mem_map.mp hm
        obtain ⟨d, hd, _⟩ := (i2 a n x).mp hx
        exact hno d hd.1 (hd.2.1.trans ea)
      · intro a n x
        rw [List.mem_cons, i2, Prod.mk.injEq, Prod.mk.injEq]
        constructor
        · rintro (⟨e1, e2, e3⟩ | ⟨d, ⟨h1, h2, h3⟩, r⟩)
          · refine ⟨b, ⟨List.mem_cons_self, e1.symm, ?_⟩, e2.symm, e3.symm⟩
            intro z hz ez
            rcases List.mem_cons.mp hz with e | e
            · rw [e]
            · exact absurd (ez.trans e1) (hno z e)
          · refine ⟨d, ⟨List.mem_cons_of_mem _ h1, h2, ?_⟩, r⟩
            intro z hz ez
            rcases List.mem_cons.mp hz with e | e
            · subst e; exact absurd (h2.trans ez.symm) (hno d h1)
            · exact h3 z e ez
        · rintro ⟨d, ⟨h1, h2, h3⟩, r1, r2⟩
          rcases List.mem_cons.mp h1 with e | e
          · subst e; exact .inl ⟨h2.symm, r1.symm, r2.symm⟩
          · exact .inr ⟨d, ⟨e, h2, fun z hz => h3 z (List.mem_cons_of_mem _ hz)⟩, r1, r2⟩

theorem exists_last {L : List Blk} {a : Nat} (h : ∃ x ∈ L, x.addr = a) : ∃ d, Last L a d := by
  induction L with
  | nil => obtain ⟨x, hx, _⟩ := h; cases hx
  | cons y l ih =>
    obtain ⟨x, hx, ex⟩ := h
    by_cases q : ∃ z ∈ l, z.addr = a
    · obtain ⟨d, hd1, hd2, hd3⟩ := ih q
      by_cases q2 : y.addr = a ∧ d.height < y.height
      · refine ⟨y, List.mem_cons_self, q2.1, ?_⟩
        intro z hz ez
        rcases List.mem_cons.mp hz with r | r
        · rw [r]
        · have := hd3 z r ez; omega
      · refine ⟨d, List.mem_cons_of_mem _ hd1, hd2, ?_⟩
        intro z hz ez
        rcases List.mem_cons.mp hz with r | r
        · subst r; by_contra hc; exact q2 ⟨ez, by omega⟩
        · exact hd3 z r ez
    · have hy : y.addr = a := by
        rcases List.mem_cons.mp hx with r | r
        · rw [← r]; exact ex
        · exact absurd ⟨x, r, ex⟩ q
      refine ⟨y, List.mem_cons_self, hy, ?_⟩
      intro z hz ez
      rcases List.mem_cons.mp hz with r | r
      · rw [r]
      · exact absurd ⟨z, r, ez⟩ q

/-- The content a node puts into its own snapshot covers exactly the first 40000 unconfirmed blocks. -/
theorem need_covers (S : Sound U) (h : Reach g U c) {b : Blk} (hb : b ∈ c.unconf) :
    Covers c.needSnapshot b ↔ b ∈ c.unconf.take maxSnapshotLength := by
  have I := h.inv S
  set P := c.unconf.take maxSnapshotLength with hP
  set Q := c.unconf.drop maxSnapshotLength with hQ
  have hsplit : P ++ Q = c.unconf := List.take_append_drop _ _
  have w := I.ledger
  unfold Chain.all at w
  rw [← hsplit, ← List.append_assoc] at w
  obtain ⟨hn, hc⟩ := contentOf_last w.left
  have hup : ∀ a n, upTo c.needSnapshot a = some n ↔ ∃ d, Last P a d ∧ d.height = n := by
    intro a n
    unfold Chain.needSnapshot
    rw [← hP, upTo_iff hn]
    constructor
    · rintro ⟨x, hx⟩
      obtain ⟨d, hd, e, _⟩ := (hc a n x).mp hx
      exact ⟨d, hd, e⟩
    · rintro ⟨d, hd, e⟩
      exact ⟨d.hash, (hc a n d.hash).mpr ⟨d, hd, e, rfl⟩⟩
  constructor
  · rintro ⟨n, hu, hle⟩
    obtain ⟨d, hd, e⟩ := (hup _ _).mp hu
    rw [← hsplit, List.mem_append] at hb
    rcases hb with q | q
    · exact q
    · exfalso
      obtain ⟨Q1, Q2, eq⟩ := List.append_of_mem q
      have hw : Ledger U ((c.confirmed ++ P ++ Q1) ++ b :: Q2) := by
        have : c.confirmed ++ P ++ Q = (c.confirmed ++ P ++ Q1) ++ b :: Q2 := by rw [eq]; simp
        rw [← this]; exact w
      have := hw.below (List.mem_append_left _ (List.mem_append_right _ hd.1)) hd.2.1
      omega
  · intro hbP
    obtain ⟨d, hd⟩ := exists_last (L := P) ⟨b, hbP, rfl⟩
    exact ⟨d.height, (hup _ _).mpr ⟨d, hd, rfl⟩, hd.2.2 b hbP rfl⟩

/-- This content is closed: it takes in, with every receive, its send. -/
theorem need_closed (S : Sound U) (h : Reach g U c) : Closed c c.needSnapshot := by
  intro b hb hc d hd hdep
  rw [need_covers S h hb] at hc
  rw [need_covers S h hd]
  have I := h.inv S
  have hsplit : c.unconf.take maxSnapshotLength ++ c.unconf.drop maxSnapshotLength = c.unconf := List.take_append_drop _ _
  have hd' := hd
  rw [← hsplit, List.mem_append] at hd'
  rcases hd' with q | q
  · exact q
  · have o := I.ledger.order
    unfold Chain.all at o
    rw [List.pairwise_append] at o
    have o2 := o.2.1
    rw [← hsplit, List.pairwise_append] at o2
    exact absurd hdep (o2.2.2 b hc d q)

theorem toConfirm_none (content : List (Nat × Nat × Nat)) : ∀ (L : List Blk) (done : Nat), done < content.length → toConfirm content L done = none →
    done + (L.filter (hit content)).length < content.length := by
  intro L
  induction L with
  | nil => intro done h _; simpa using h
  | cons b L ih =>
    intro done hd h
    unfold toConfirm at h
    simp only [Option.map_eq_none_iff] at h
    by_cases hlen : content.length ≤ (if upTo content b.addr = some b.height then done + 1 else done)
    · rw [if_pos hlen] at h; cases h
    · rw [if_neg hlen] at h
      have := ih _ (by omega) h
      by_cases q : upTo content b.addr = some b.height
      · rw [if_pos q] at this
        rw [List.filter_cons_of_pos (by simp [hit, q]), List.length_cons]; omega
      · rw [if_neg q] at this
        rw [List.filter_cons_of_neg (by simp [hit, q])]; exact this

/-- The node's own snapshot is accepted, and confirms exactly the first 40000 unconfirmed blocks. -/
theorem own_snapshot_accepted (S : Sound U) (h : Reach g U c) (e : Bool) (bad : Blk → Bool) :
    ∃ c', c.snapshot ⟨c.top + 1, c.needSnapshot⟩ e bad = some c' ∧
      c'.chunks = c.chunks ++ [⟨⟨c.top + 1, c.needSnapshot⟩, c.unconf.take maxSnapshotLength⟩] := by
  have I := h.inv S
  set P := c.unconf.take maxSnapshotLength with hP
  set Q := c.unconf.drop maxSnapshotLength with hQ
  have hsplit : P ++ Q = c.unconf := List.take_append_drop _ _
  have w := I.ledger
  unfold Chain.all at w
  rw [← hsplit, ← List.append_assoc] at w
  obtain ⟨hn, hc⟩ := contentOf_last w.left
  have hcont : c.needSnapshot = contentOf P := rfl
  set s : Snap := ⟨c.top + 1, c.needSnapshot⟩ with hs
  have hmemP : ∀ x ∈ P, x ∈ c.unconf := by intro x hx; rw [← hsplit]; exact List.mem_append_left _ hx
  have ok : c.snapOk s = true := by
    unfold Chain.snapOk
    simp only [Bool.and_eq_true, decide_eq_true_eq, List.all_eq_true]
    refine ⟨⟨rfl, by rw [hs]; simp only [hcont]; exact hn⟩, ?_⟩
    rintro ⟨a, n, x⟩ hx
    obtain ⟨d, hd, e1, e2⟩ := (hc a n x).mp hx
    have : c.byHeight a n = some d := I.byHeight.mpr ⟨mem_all.mpr (.inr (hmemP d hd.1)), hd.2.1, e1⟩
    simp [this, e2]
  have hcl : Closed c s.content := need_closed S h
  have hne : ∃ bs, toBeConfirmed s.content c.unconf = some bs := by
    cases q : toBeConfirmed s.content c.unconf with
    | some bs => exact ⟨bs, rfl⟩
    | none =>
      exfalso
      unfold toBeConfirmed at q
      split at q
      · cases q
      · rename_i hemp
        have hpos : 0 < s.content.length := by
          cases hh : s.content with
          | nil => rw [hh] at hemp; simp at hemp
          | cons _ _ => simp
        have hlt := toConfirm_none s.content c.unconf 0 hpos q
        -- every entry is hit
        have hsub : s.content.map (·.1) ⊆ (c.unconf.filter (hit s.content)).map (·.addr) := by
          intro a ha
          obtain ⟨⟨a', n, x⟩, hx, rfl⟩ := List.mem_map.mp ha
          obtain ⟨d, hd, e1, e2⟩ := (hc a' n x).mp hx
          refine List.mem_map.mpr ⟨d, List.mem_filter.mpr ⟨hmemP d hd.1, ?_⟩, hd.2.1⟩
          unfold hit
          simp only [decide_eq_true_eq]
          have : upTo s.content d.addr = some n := (upTo_iff hn).mpr ⟨x, by rw [hd.2.1]; exact hx⟩
          rw [this, e1]
        have := ((show (s.content.map (·.1)).Nodup from hn).subperm hsub).length_le
        simp only [List.length_map] at this
        omega
  obtain ⟨bs, hbs⟩ := hne
  obtain ⟨e1, c1, h1, I1, h2, _, _⟩ := I.confirmed S ok hcl hbs
  obtain ⟨_, h5, _⟩ := I1.dropped S e bad
  have hsn : c.snapshot s e bad = some (if (toDrop e bad c1.unconf).isEmpty = true then c1 else c1.remove (toDrop e bad c1.unconf)) := by
    unfold Chain.snapshot; rw [if_pos ok, hbs]; simp only [h1, Option.map_some]
  refine ⟨_, hsn, ?_⟩
  rw [h5, h2, e1]
  congr 3
  -- the covered blocks are the prefix
  have hcov : ∀ b ∈ c.unconf, cov s.content b = true ↔ b ∈ P := by
    intro b hb; rw [cov_iff]; exact need_covers S h hb
  have hdis : ∀ x ∈ Q, x ∉ P := by
    have nn := (List.nodup_append.mp I.ledger.nodup).2.1
    rw [← hsplit, List.nodup_append] at nn
    exact fun x hx hx' => nn.2.2 x hx' x hx rfl
  rw [← hsplit, List.filter_append, List.filter_eq_self.mpr, List.filter_eq_nil_iff.mpr, List.append_nil]
  · intro x hx q
    exact hdis x hx ((hcov x (by rw [← hsplit]; exact List.mem_append_right _ hx)).mp q)
  · intro x hx
    exact (hcov x (hmemP x hx)).mpr hx

end Verif.Lattice
