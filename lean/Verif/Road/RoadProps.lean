import Verif.Road.RoadReach

/-!
The properties of the on-road pool, for every reachable state of a node.
-/

namespace Verif.Road

open Verif.Lattice

variable {U : Blk → Prop} {g : Cfg}

/-! ### C65: the pool is what waits -/

/-- **C65**: the handlers never panic: every operation, with its events in any order, ends in a state. -/
theorem pool_never_panics (S : Sound U) {n : Node} (h : Reach g U n) {o : Op} (ho : Allowed U n.chain o) {r : Option Node}
    (hs : NStep g n (.ledger o) r) : ∃ n', r = some n' := by
  obtain ⟨n', e, _⟩ := (h.good S).step S ho hs
  exact ⟨n', e⟩

/-- **C65**: after every history of insertions, snapshots, deletions, rollbacks and restarts, whatever the order of the
events, the pool holds for every contract exactly the sends addressed to it and not received. -/
theorem pool_exact (S : Sound U) {n : Node} (h : Reach g U n) {a : Nat} (hc : g.contract a = true) (x m s : Nat) :
    (∃ v, Table.get ⟨a, x, m, s⟩ n.pool.txs = some v) ↔ ∃ i, Waiting n.chain.all a x m i s := by
  have G := h.good S
  constructor
  · rintro ⟨v, hv⟩
    obtain ⟨_, i, hw, _⟩ := G.pool.right _ v hv
    exact ⟨i, hw⟩
  · rintro ⟨i, hw⟩
    exact G.pool.full a x m i s hc hw

/-- Nothing is held for accounts that are not contracts. -/
theorem pool_contracts (S : Sound U) {n : Node} (h : Reach g U n) {k : RKey} {v : Option Nat} (hv : Table.get k n.pool.txs = some v) :
    g.contract k.dest = true := ((h.good S).pool.right k v hv).1

/-- **C65**: the front of a caller is the first of its waiting sends, in the order of the blocks and of the send lists. -/
theorem front_exact (S : Sound U) {n : Node} (h : Reach g U n) (a x : Nat) (k : RKey) :
    front g n.chain n.pool a x = some k ↔ k.dest = a ∧ k.caller = x ∧ g.contract a = true ∧ ∃ i, Front n.chain.all a x k.height i k.hash :=
  front_ok S (h.good S).inv (h.good S).shaped (h.good S).pool a x k

theorem front_none (S : Sound U) {n : Node} (h : Reach g U n) {a x : Nat} (hc : g.contract a = true) :
    front g n.chain n.pool a x = none ↔ ∀ m i s, ¬ Waiting n.chain.all a x m i s := by
  have G := h.good S
  constructor
  · intro hn m i s hw
    -- some entry is lowest
    obtain ⟨l, hl, hF⟩ := resolve_ok S G.inv G.shaped G.pool a x
    unfold front at hn
    rw [hl] at hn
    simp only [Option.bind_some, Option.map_eq_none_iff] at hn
    have hnil := (minTx_ok (l := l)).2 hn
    obtain ⟨v, hv⟩ := G.pool.full a x m i s hc hw
    have hex : ∃ t, t ∈ n.pool.first a x := by
      have hne : (n.pool.txs.filter (fun t => t.1.dest = a && t.1.caller = x)) ≠ [] :=
        List.ne_nil_of_mem (List.mem_filter.mpr ⟨Table.get_mem hv, by simp⟩)
      obtain ⟨t, ht, hmin⟩ := exists_min_height _ hne
      simp only [List.mem_filter, Bool.and_eq_true, decide_eq_true_eq, and_imp] at ht hmin
      exact ⟨t, first_mem.mpr ⟨⟨ht.1, ht.2.1, ht.2.2⟩, fun u hu h1 h2 => hmin u hu h1 h2⟩⟩
    obtain ⟨t, ht⟩ := hex
    obtain ⟨j, hj⟩ := hF.full t ht
    rw [hnil] at hj; cases hj
  · intro hno
    cases q : front g n.chain n.pool a x with
    | none => rfl
    | some k =>
      obtain ⟨_, _, _, i, hf⟩ := (front_exact S h a x k).mp q
      exact absurd hf.1 (hno _ _ _)

/-- **C65**: the answer of IsFrontOnRoadOfCaller. -/
theorem is_front_exact (S : Sound U) {n : Node} (h : Reach g U n) (a x s : Nat) :
    isFront g n.chain n.pool a x s = true ↔ g.contract a = true ∧ ∃ m i, Front n.chain.all a x m i s :=
  isFront_ok S (h.good S).inv (h.good S).shaped (h.good S).pool a x s

/-! ### C66: contracts receive in order -/

/-- **C66**: in every reachable ledger a contract has received the sends of each account in the order in which they were
made: if it has received a send, it has received, earlier in its chain, every earlier send of that account to it. -/
theorem received_in_order (S : Sound U) {n : Node} (h : Reach g U n) : InOrder g n.chain.all := (h.good S).order

/-- **C66**: a receive of a contract is in turn exactly if its send is the first that waits. -/
theorem in_turn_exact (S : Sound U) {n : Node} (h : Reach g U n) {b : Blk} (hr : b.isRecv = true) (hc : g.contract b.addr = true)
    (hfit : n.chain.sendFits b = true) : n.inTurn g b = true ↔ ∃ x m i, Front n.chain.all b.addr x m i b.src := by
  have G := h.good S
  unfold Node.inTurn
  rw [if_pos ⟨hr, hc⟩]
  unfold Chain.sendFits at hfit
  cases hby : n.chain.byHash b.src with
  | none => rw [hby] at hfit; simp at hfit
  | some s =>
    rw [hby] at hfit
    simp only [Bool.and_eq_true, decide_eq_true_eq] at hfit
    have hs : s.hash = b.src := by
      rcases (G.inv.byHash S).mp hby with ⟨_, e⟩ | ⟨d, _, s', _, e, rfl⟩
      · exact e
      · exact e
    simp only [isFront_ok S G.inv G.shaped G.pool, hs, hfit.1.2]
    constructor
    · rintro ⟨_, m, i, hf⟩; exact ⟨_, m, i, hf⟩
    · rintro ⟨x, m, i, hf⟩
      refine ⟨hc, m, i, ?_⟩
      have hx : x = s.addr := by
        obtain ⟨⟨d, hd, r1, r2, r3⟩, _⟩ := hf.1
        have := byHash_send S G.inv hd (List.mem_of_getElem? r3)
        simp only at this
        rw [hby] at this
        injection this with this
        rw [this, (asBlk_hash S (G.inv.ledger.known d hd) (List.mem_of_getElem? r3)).2.2, r1]
      rw [← hx]; exact hf

/-- The order is unambiguous: at most one send of an account is first. -/
theorem front_one (S : Sound U) {n : Node} (h : Reach g U n) {a x m i s m' i' s' : Nat} (h1 : Front n.chain.all a x m i s)
    (h2 : Front n.chain.all a x m' i' s') : s = s' := (front_unique S (h.good S).inv.ledger h1 h2).2.2

/-! ### C67: what is offered to the producer of a contract -/

/-- **C67** (sound): what is offered is the front of its caller. -/
theorem offered_front (S : Sound U) {n : Node} (h : Reach g U n) {a : Nat} {k : RKey} (hk : k ∈ fronts g n.chain n.pool a) :
    k.dest = a ∧ ∃ i, Front n.chain.all a k.caller k.height i k.hash := by
  unfold fronts at hk
  split at hk
  · obtain ⟨x, _, hx⟩ := List.mem_filterMap.mp hk
    obtain ⟨h1, h2, _, i, hf⟩ := (front_exact S h a x k).mp hx
    subst h2
    exact ⟨h1, i, hf⟩
  · cases hk

/-- **C67** (qualified): what waits first of an account is offered exactly if the account is in the set of callers, which
is shared by all contracts. `hidden_caller` in RoadExamples shows that it may be missing. -/
theorem offered_exact_partial (S : Sound U) {n : Node} (h : Reach g U n) {a : Nat} (hc : g.contract a = true) (k : RKey) :
    k ∈ fronts g n.chain n.pool a ↔ k.caller ∈ n.pool.callers ∧ k.dest = a ∧ ∃ i, Front n.chain.all a k.caller k.height i k.hash := by
  unfold fronts
  constructor
  · intro hk
    split at hk
    · obtain ⟨x, hx, hf⟩ := List.mem_filterMap.mp hk
      obtain ⟨h1, h2, _, i, hf⟩ := (front_exact S h a x k).mp hf
      subst h2
      exact ⟨hx, h1, i, hf⟩
    · cases hk
  · rintro ⟨hx, h1, i, hf⟩
    obtain ⟨v, hv⟩ := (h.good S).pool.full a k.caller k.height i k.hash hc hf.1
    have hk := (h.good S).pool.known _ v hv
    simp only at hk
    rw [if_pos hk]
    exact List.mem_filterMap.mpr ⟨k.caller, hx, (front_exact S h a _ k).mpr ⟨h1, rfl, hc, i, hf⟩⟩

/-- **C67**: after a restart every front is offered. -/
theorem offered_after_restart (S : Sound U) {n n' : Node} (h : Reach g U n) (hs : NStep g n (.ledger .restart) (some n')) {a : Nat}
    (hc : g.contract a = true) (k : RKey) : k ∈ fronts g n'.chain n'.pool a ↔ k.dest = a ∧ ∃ i, Front n'.chain.all a k.caller k.height i k.hash := by
  have h' : Reach g U n' := Reach.step (o := .restart) h trivial hs
  have e : some n' = some ⟨n.chain.restart, load g n.chain.restart⟩ := hs
  injection e with e
  have G := h'.good S
  have hcl : Callers n'.pool := by
    have := (load_ok S (g := g) (c := n'.chain) G.inv G.shaped).2
    rw [e] at this ⊢
    exact this
  rw [offered_exact_partial S h' hc]
  constructor
  · exact fun h => h.2
  · rintro ⟨h1, i, hf⟩
    obtain ⟨v, hv⟩ := G.pool.full a k.caller k.height i k.hash hc hf.1
    exact ⟨hcl ⟨a, k.caller, k.height, k.hash⟩ v hv, h1, i, hf⟩

/-- **C67**: a new send of an account to a contract brings the account back for all contracts. -/
theorem send_brings_back (S : Sound U) {n n' : Node} (h : Reach g U n) {b : Blk} (hU : U b) (hb : b.isSend = true) (hd : g.contract b.dest = true)
    (ha : n.chain.accepts (n.cfg g) b = true) (hs : NStep g n (.ledger (.insert b)) (some n')) {a : Nat} (hc : g.contract a = true) {k : RKey}
    (hx : k.caller = b.addr) : k ∈ fronts g n'.chain n'.pool a ↔ k.dest = a ∧ ∃ i, Front n'.chain.all a k.caller k.height i k.hash := by
  have h' : Reach g U n' := Reach.step (o := .insert b) h hU hs
  have hin : b.addr ∈ n'.pool.callers := by
    obtain ⟨q, hq, e⟩ := hs
    dsimp only [calls] at hq
    rw [if_pos ha] at hq
    have G := h.good S
    have I' : Inv U (n.chain.write b) := by
      have := G.inv.insert S (g := n.cfg g) hU
      unfold Chain.insert at this
      rwa [if_pos ha] at this
    have hall : (n.chain.write b).all = n.chain.all ++ [b] := by simp [Chain.all, Chain.write, Chain.confirmed]
    have hch : n'.chain = n.chain.write b := by
      cases q with
      | none => simp at e
      | some p' =>
        simp only [Option.map_some, Option.some.injEq] at e
        rw [e]
        show n.chain.insert (n.cfg g) b = _
        unfold Chain.insert; rw [if_pos ha]
    have sh' : Shaped g (n.chain.write b).all := by rw [← hch]; exact (h'.good S).shaped
    obtain ⟨es, ee, E⟩ := events_ok S I' sh' (bs := [b]) (by rw [hall]; exact List.sublist_append_right _ _) true
    unfold Outcome at hq
    simp only [ee] at hq
    obtain ⟨es', hp, hq⟩ := hq
    have hba : b ∈ (n.chain.write b).all := by rw [hall]; simp
    have ho := outs_send S hU hb
    have hno : ∀ x, b.takes x = false := by intro x; simp [Blk.takes, Blk.isRecv, hb]
    -- every event adds the send
    have honly : ∀ e ∈ es', ∃ k i, e = Ev.add k i ∧ k.caller = b.addr := by
      intro e he
      obtain ⟨d, hd, i, s, hi, _, ⟨hf, h1⟩ | ⟨⟨_, r, hr, ht⟩, h1⟩⟩ := E.only e (hp.mem_iff.mp he)
      · have := hf.1
        simp only [List.mem_singleton] at this
        subst this
        exact ⟨_, _, h1, rfl⟩
      · simp only [List.mem_singleton] at hr
        subst hr
        rw [hno] at ht; cases ht
    have hne : es' ≠ [] := by
      have := E.fresh b hba 0 ⟨b.hash, b.dest⟩ (by rw [ho]; rfl) hd ⟨by simp, by
        intro r hr; simp only [List.mem_singleton] at hr; subst hr; exact hno _⟩
      exact List.ne_nil_of_mem (hp.mem_iff.mpr this)
    have hplay : ∀ (es : List Ev) (p p' : Pool), (∀ e ∈ es, ∃ k i, e = Ev.add k i ∧ k.caller = b.addr) → p.play es = some p' →
        (es ≠ [] ∨ b.addr ∈ p.callers) → b.addr ∈ p'.callers := by
      intro es
      induction es with
      | nil =>
        intro p p' _ h1 h2
        simp only [Pool.play, Option.some.injEq] at h1
        rw [← h1]
        rcases h2 with h2 | h2
        · exact absurd rfl h2
        · exact h2
      | cons e es ih =>
        intro p p' h0 h1 _
        obtain ⟨k', i', rfl, hk'⟩ := h0 e List.mem_cons_self
        simp only [Pool.play, Pool.play1, Option.bind_some] at h1
        refine ih _ p' (fun e he => h0 e (List.mem_cons_of_mem _ he)) h1 (.inr ?_)
        unfold Pool.add
        dsimp only
        rw [hk']
        split
        · assumption
        · simp
    cases hpl : n.pool.play es' with
    | none =>
      rw [hpl] at hq
      have hq' : q = none := hq
      rw [hq'] at e; simp at e
    | some p' =>
      rw [hpl] at hq
      have hq' : q = some p' := hq
      rw [hq'] at e
      simp only [Option.map_some, Option.some.injEq] at e
      rw [e]
      exact hplay es' n.pool p' honly hpl (.inl hne)
  rw [offered_exact_partial S h' hc]
  constructor
  · exact fun h => h.2
  · exact fun h1 => ⟨by rw [hx]; exact hin, h1⟩

/-- **C67**: a receive hides no account that has another send waiting at the same contract, and no other account: what is
hidden (`hidden_caller`) is hidden by a receive of the last send that waits at another contract. -/
theorem receive_hides_only_last {p p' : Pool} {k : RKey} (h : p.rm k = some p') {x : Nat} (hx : x ∈ p.callers) :
    x ∈ p'.callers ∨ (x = k.caller ∧ ∀ e ∈ p'.txs, ¬ (e.1.dest = k.dest ∧ e.1.caller = x)) := by
  unfold Pool.rm at h
  split at h
  · simp only [Option.some.injEq] at h
    subst h
    by_cases c : (({ p with txs := p.txs.filter (fun t => t.1 ≠ k) } : Pool).first k.dest k.caller).isEmpty
    · rw [if_pos c]
      by_cases g : x = k.caller
      · right
        refine ⟨g, ?_⟩
        rintro e he ⟨h1, h2⟩
        have hne : ((p.txs.filter (fun t => t.1 ≠ k)).filter (fun t => t.1.dest = k.dest && t.1.caller = k.caller)) ≠ [] :=
          List.ne_nil_of_mem (List.mem_filter.mpr ⟨he, by simp [h1, h2, g]⟩)
        obtain ⟨t, ht, hmin⟩ := exists_min_height _ hne
        simp only [List.mem_filter, Bool.and_eq_true, decide_eq_true_eq, and_imp] at ht hmin
        have hm : t ∈ ({ p with txs := p.txs.filter (fun t => t.1 ≠ k) } : Pool).first k.dest k.caller :=
          first_mem.mpr ⟨⟨by simp only [List.mem_filter, decide_eq_true_eq]; exact ht.1, ht.2.1, ht.2.2⟩,
            fun u hu h1 h2 => by
              simp only [List.mem_filter, decide_eq_true_eq] at hu
              exact hmin u hu.1 hu.2 h1 h2⟩
        rw [List.isEmpty_iff] at c
        rw [c] at hm; cases hm
      · left
        simp only [List.mem_filter, decide_eq_true_eq]
        exact ⟨hx, g⟩
    · rw [if_neg c]; exact Or.inl hx
  · exact absurd h (by simp)

/-- **C65**: a send and its receive cancel out in a list of blocks, in whatever order they come. -/
theorem pair_cancels {s r : Blk} (hs : s.isSend = true) (hr : r.isRecv = true) (hk : r.kind ≠ .genesis) (he : r.src = s.hash)
    (hn : r.sends = []) : cut g [s, r] = [] ∧ cut g [r, s] = [] := by
  have hr' : r.isSend = false := by simpa [Blk.isRecv] using hr
  have hs' : s.isRecv = false := by simp [Blk.isRecv, hs]
  constructor
  · simp [cut, cutStep, meet, meetRecv, hs, hr', hk, hn, he, Table.get, Table.put, Table.del]
  · simp [cut, cutStep, meet, meetRecv, hs, hr, hr', hk, hn, he, Table.get, Table.put, Table.del]

example : ∃ s r : Blk, s.isSend = true ∧ r.isRecv = true ∧ r.kind ≠ .genesis ∧ r.src = s.hash ∧ r.sends = [] :=
  ⟨⟨1, 1, 1, 0, .send, 2, 0, []⟩, ⟨2, 2, 1, 0, .recv, 0, 1, []⟩, by decide, by decide, by decide, rfl, rfl⟩

end Verif.Road
