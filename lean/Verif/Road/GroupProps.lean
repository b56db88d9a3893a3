import Verif.Road.GroupLemmas
import Verif.Road.RoadProps

/-!
The on-road pool is exact for contracts with a pool as long as no list of blocks mixes them with contracts without one.
-/

namespace Verif.Road

open Verif.Lattice

variable {U : Blk → Prop} {g : Cfg} {pooled : Nat → Bool}

theorem outcome_served {ks : List Call} {p : Pool} {q : Option Pool} : Outcome (served g pooled) ks p q ↔ Outcome g ks p q := by
  induction ks generalizing p with
  | nil => exact Iff.rfl
  | cons k ks ih =>
    unfold Outcome
    have e : events (served g pooled) k.chain k.write k.blocks = events g k.chain k.write k.blocks := rfl
    rw [e]
    cases events g k.chain k.write k.blocks with
    | none => exact Iff.rfl
    | some es =>
      dsimp only
      constructor
      · rintro ⟨es', h, h'⟩
        refine ⟨es', h, ?_⟩
        cases hp : p.play es' with
        | none => simp only [hp] at h' ⊢; exact h'
        | some p1 => simp only [hp] at h' ⊢; exact ih.mp h'
      · rintro ⟨es', h, h'⟩
        refine ⟨es', h, ?_⟩
        cases hp : p.play es' with
        | none => simp only [hp] at h' ⊢; exact h'
        | some p1 => simp only [hp] at h' ⊢; exact ih.mpr h'

/-- One operation beside the node all of whose contracts have a pool. -/
theorem gstep_part (S : Sound U) {c : Chain} {p pf : Pool} (R : Part pooled p pf) (h : Reach (served g pooled) U ⟨c, pf⟩) {o : Op}
    (ho : Allowed U c o) (hp : Plain g pooled ⟨c, p⟩ o) {r : Option Node} (hs : GStep g pooled ⟨c, p⟩ (.ledger o) r) :
    ∃ n' pf', r = some n' ∧ Reach (served g pooled) U ⟨n'.chain, pf'⟩ ∧ Part pooled n'.pool pf' := by
  have G := h.good S
  by_cases hres : o = .restart
  · subst hres
    have hs' : r = some ⟨c.restart, gload g pooled c.restart⟩ := hs
    refine ⟨_, _, hs', ?_, Part.load g pooled c.restart⟩
    exact .step (n := ⟨c, pf⟩) (o := .restart) h ho rfl
  · have hgo := go_step (served g pooled) ⟨c, pf⟩ o
    obtain ⟨m, hm, _⟩ := G.step S ho hgo
    rw [hm] at hgo
    have hinv := calls_inv S G ho hgo
    have key : ∀ c', Lattice.step (Node.gcfg g pooled ⟨c, p⟩) c o = some c' → (∃ q, GOutcome g pooled (gcalls g pooled ⟨c, p⟩ o) p q ∧ r = q.map (fun p => ⟨c', p⟩)) →
        (∀ qf, Outcome (served g pooled) (calls (served g pooled) ⟨c, pf⟩ o) pf qf → NStep (served g pooled) ⟨c, pf⟩ (.ledger o) (qf.map (fun p => ⟨c', p⟩))) →
        ∃ n' pf', r = some n' ∧ Reach (served g pooled) U ⟨n'.chain, pf'⟩ ∧ Part pooled n'.pool pf' := by
      intro c' hst hq hn
      obtain ⟨q, hq, hr⟩ := hq
      rw [calls_part R o] at hq
      have hplain : ∀ k ∈ calls (served g pooled) ⟨c, pf⟩ o, Unmixed g pooled k.blocks := by
        rw [← calls_part R o]; exact hp
      obtain ⟨qf, hqf, hrel⟩ := outcome_part (g := g) S _ R hinv hplain hq
      have hstep := hn qf (outcome_served.mpr hqf)
      obtain ⟨m', e', _⟩ := G.step S ho hstep
      cases qf with
      | none => cases e'
      | some pf' =>
        obtain ⟨p', hp', R'⟩ := hrel pf' rfl
        rw [hp'] at hr
        exact ⟨⟨c', p'⟩, pf', hr, .step h ho hstep, R'⟩
    have hex : ∃ c', Lattice.step (Node.gcfg g pooled ⟨c, p⟩) c o = some c' := by
      obtain ⟨c', e, _⟩ := G.inv.step S (g := Node.cfg (served g pooled) ⟨c, pf⟩) ho
      exact ⟨c', by rw [step_part R]; exact e⟩
    obtain ⟨c', e⟩ := hex
    have e' : Lattice.step (Node.cfg (served g pooled) ⟨c, pf⟩) c o = some c' := by rw [← step_part R]; exact e
    refine key c' e ?_ ?_
    · cases o
      case restart => exact absurd rfl hres
      all_goals
        simp only [GStep, e] at hs
        exact hs
    · intro qf hqf
      cases o
      case restart => exact absurd rfl hres
      all_goals
        simp only [NStep, e']
        exact ⟨qf, hqf, rfl⟩

/-- The node all of whose contracts have a pool, beside a plain history. -/
theorem GReach.part (S : Sound U) {n : Node} (h : GReach g pooled U (Plain g pooled) n) :
    ∃ pf, Reach (served g pooled) U ⟨n.chain, pf⟩ ∧ Part pooled n.pool pf := by
  induction h with
  | @start bs h => exact ⟨_, .start h, Part.load g pooled (genesis bs)⟩
  | @look n n' a x _ hs ih =>
    obtain ⟨pf, hr, R⟩ := ih
    have hs' : some n' = some ⟨n.chain, if pooled a then n.pool.look g n.chain a x else n.pool⟩ := hs
    injection hs' with hs'
    subst hs'
    by_cases ha : pooled a = true
    · rw [if_pos ha]
      exact ⟨pf.look g n.chain a x, .look (a := a) (x := x) hr rfl, R.look ha x⟩
    · rw [if_neg ha]
      exact ⟨pf, hr, R⟩
  | @step n n' o _ ho hp hs ih =>
    obtain ⟨pf, hr, R⟩ := ih
    obtain ⟨m, pf', e, hr', R'⟩ := gstep_part S R hr ho hp hs
    injection e with e
    subst e
    exact ⟨pf', hr', R'⟩

/-- **C97** (partial): as long as no list of blocks reported to the pool mixes contracts with a pool and contracts without
one, the handlers never stop the node. Missing: lists that mix them, for which this is false
(`mixed_call_stops_the_node`). -/
theorem group_never_panics_partial (S : Sound U) {n : Node} (h : GReach g pooled U (Plain g pooled) n) {o : Op} (ho : Allowed U n.chain o)
    (hp : Plain g pooled n o) {r : Option Node} (hs : GStep g pooled n (.ledger o) r) : ∃ n', r = some n' := by
  obtain ⟨pf, hr, R⟩ := h.part S
  obtain ⟨n', _, e, _⟩ := gstep_part S R hr ho hp hs
  exact ⟨n', e⟩

/-- **C97** (partial): ... and the pool holds, for every contract with a pool, exactly the sends addressed to it and not
received, whatever the order in which contracts are visited. Missing: as above (`mixed_call_loses_a_send`). -/
theorem group_exact_partial (S : Sound U) {n : Node} (h : GReach g pooled U (Plain g pooled) n) {a : Nat} (hc : g.contract a = true)
    (hp : pooled a = true) (x m s : Nat) :
    (∃ v, Table.get ⟨a, x, m, s⟩ n.pool.txs = some v) ↔ ∃ i, Waiting n.chain.all a x m i s := by
  obtain ⟨pf, hr, R⟩ := h.part S
  have hex := pool_exact S hr (a := a) hc x m s
  rw [← hex, R.txs]
  have hget : ∀ t : Table RKey (Option Nat), Table.get ⟨a, x, m, s⟩ (t.filter (fun t => pooled t.1.dest)) = Table.get ⟨a, x, m, s⟩ t := by
    intro t
    induction t with
    | nil => rfl
    | cons e t ih =>
      by_cases he : e.1 = ⟨a, x, m, s⟩
      · rw [List.filter_cons_of_pos (by rw [he]; exact hp)]
        simp only [Table.get, he, if_true]
      · by_cases hd : pooled e.1.dest = true
        · rw [List.filter_cons_of_pos (by exact hd)]
          simp only [Table.get, he, if_false]; exact ih
        · rw [List.filter_cons_of_neg (by exact hd)]
          simp only [Table.get, he, if_false]; exact ih
  rw [hget]

/-- **C97** (partial): ... the answer to "is this send the caller's first?" is right for contracts with a pool, so two nodes
with the same blocks answer alike. -/
theorem group_front_exact_partial (S : Sound U) {n : Node} (h : GReach g pooled U (Plain g pooled) n) {a : Nat} (hp : pooled a = true) (x s : Nat) :
    isFront g n.chain n.pool a x s = true ↔ g.contract a = true ∧ ∃ m i, Front n.chain.all a x m i s := by
  obtain ⟨pf, hr, R⟩ := h.part S
  rw [R.isFront hp]
  exact is_front_exact S hr a x s

/-- ... and contracts receive in order. -/
theorem group_order_partial (S : Sound U) {n : Node} (h : GReach g pooled U (Plain g pooled) n) : InOrder g n.chain.all := by
  obtain ⟨pf, hr, _⟩ := h.part S
  exact received_in_order (g := served g pooled) (n := ⟨n.chain, pf⟩) S hr

/-- If every contract has a pool, every history is plain. -/
theorem plain_of_all (h : ∀ a, g.contract a = true → pooled a = true) (n : Node) (o : Op) : Plain g pooled n o :=
  fun _ _ => .inl (fun _ _ a _ hc => h a hc)

end Verif.Road
