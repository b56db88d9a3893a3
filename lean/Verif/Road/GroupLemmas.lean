import Verif.Road.RoadRun
import Verif.Road.GroupSpec

/-!
A node some of whose contracts have no pool runs beside a node all of whose contracts have one.
-/

namespace Verif.Road

open Verif.Lattice

variable {U : Blk → Prop} {g : Cfg} {c : Chain} {p pf : Pool} {pooled : Nat → Bool}

/-- `p` is the part of `pf` that belongs to contracts with a pool. -/
structure Part (pooled : Nat → Bool) (p pf : Pool) : Prop where
  txs : p.txs = pf.txs.filter (fun t => pooled t.1.dest)
  known : ∀ a, pooled a = true → (a ∈ p.known ↔ a ∈ pf.known)

theorem filter_put_yes {k : RKey} {v : Option Nat} (hk : pooled k.dest = true) (t : Table RKey (Option Nat)) :
    (Table.put k v t).filter (fun t => pooled t.1.dest) = Table.put k v (t.filter (fun t => pooled t.1.dest)) := by
  induction t with
  | nil => simp [Table.put, hk]
  | cons x t ih =>
    simp only [Table.put]
    by_cases hx : x.1 = k
    · have hx' : pooled x.1.dest = true := by rw [hx]; exact hk
      rw [if_pos hx, List.filter_cons_of_pos (by exact hk), List.filter_cons_of_pos (by exact hx'), Table.put, if_pos hx]
    · rw [if_neg hx]
      by_cases hp : pooled x.1.dest = true
      · rw [List.filter_cons_of_pos (by exact hp), List.filter_cons_of_pos (by exact hp), ih, Table.put, if_neg hx]
      · rw [List.filter_cons_of_neg (by exact hp), List.filter_cons_of_neg (by exact hp), ih]

theorem filter_put_no {k : RKey} {v : Option Nat} (hk : pooled k.dest = false) (t : Table RKey (Option Nat)) :
    (Table.put k v t).filter (fun t => pooled t.1.dest) = t.filter (fun t => pooled t.1.dest) := by
  induction t with
  | nil => simp [Table.put, hk]
  | cons x t ih =>
    simp only [Table.put]
    by_cases hx : x.1 = k
    · have hx' : pooled x.1.dest = false := by rw [hx]; exact hk
      rw [if_pos hx, List.filter_cons_of_neg (by simp [hk]), List.filter_cons_of_neg (by simp [hx'])]
    · rw [if_neg hx]
      by_cases hp : pooled x.1.dest = true
      · rw [List.filter_cons_of_pos (by exact hp), List.filter_cons_of_pos (by exact hp), ih]
      · rw [List.filter_cons_of_neg (by exact hp), List.filter_cons_of_neg (by exact hp), ih]

theorem Part.add_yes (R : Part pooled p pf) {k : RKey} {i : Option Nat} (hk : pooled k.dest = true) : Part pooled (p.add k i) (pf.add k i) where
  txs := by simp only [Pool.add, R.txs, filter_put_yes hk]
  known a ha := by
    have h1 : ∀ (q : Pool), a ∈ (q.add k i).known ↔ a = k.dest ∨ a ∈ q.known := by
      intro q; simp only [Pool.add]; split
      · constructor
        · exact .inr
        · rintro (rfl | h) <;> assumption
      · exact List.mem_cons
    rw [h1, h1, R.known a ha]

theorem Part.add_no (R : Part pooled p pf) {k : RKey} {i : Option Nat} (hk : pooled k.dest = false) : Part pooled p (pf.add k i) where
  txs := by simp only [Pool.add, R.txs, filter_put_no hk]
  known a ha := by
    rw [R.known a ha]
    simp only [Pool.add]
    split
    · rfl
    · rw [List.mem_cons]
      constructor
      · exact .inr
      · rintro (rfl | h)
        · rw [ha] at hk; cases hk
        · exact h

theorem rm_some {k : RKey} {q q' : Pool} (h : q.rm k = some q') : k.dest ∈ q.known ∧ q'.txs = q.txs.filter (fun t => t.1 ≠ k) ∧ q'.known = q.known := by
  by_cases hk : k.dest ∈ q.known
  · obtain ⟨q1, e, e1, e2⟩ := Pool.rm_known hk
    rw [e] at h; injection h with h; subst h
    exact ⟨hk, e1, e2⟩
  · unfold Pool.rm at h; rw [if_neg hk] at h; cases h

theorem Part.rm_yes (R : Part pooled p pf) {k : RKey} (hk : pooled k.dest = true) {pf' : Pool} (h : pf.rm k = some pf') :
    ∃ p', p.rm k = some p' ∧ Part pooled p' pf' := by
  obtain ⟨h1, h2, h3⟩ := rm_some h
  obtain ⟨p', e, e1, e2⟩ := Pool.rm_known ((R.known _ hk).mpr h1)
  refine ⟨p', e, ?_, fun a ha => by rw [e2, h3]; exact R.known a ha⟩
  rw [e1, h2, R.txs, List.filter_filter, List.filter_filter]
  congr 1; funext t; exact Bool.and_comm _ _

theorem Part.rm_no (R : Part pooled p pf) {k : RKey} (hk : pooled k.dest = false) {pf' : Pool} (h : pf.rm k = some pf') :
    Part pooled p pf' := by
  obtain ⟨_, h2, h3⟩ := rm_some h
  refine ⟨?_, fun a ha => by rw [h3]; exact R.known a ha⟩
  rw [h2, R.txs, List.filter_filter]
  apply List.filter_congr
  intro t _
  by_cases e : t.1 = k
  · simp [e, hk]
  · simp [e]

theorem Part.play_yes : ∀ (es : List Ev) {p pf : Pool}, Part pooled p pf → (∀ e ∈ es, pooled e.key.dest = true) → ∀ {pf' : Pool}, pf.play es = some pf' →
    ∃ p', p.play es = some p' ∧ Part pooled p' pf' := by
  intro es
  induction es with
  | nil => intro p pf R _ pf' h; simp only [Pool.play, Option.some.injEq] at h; subst h; exact ⟨p, rfl, R⟩
  | cons e es ih =>
    intro p pf R he pf' h
    simp only [Pool.play] at h ⊢
    have he0 := he e List.mem_cons_self
    have he' := fun x hx => he x (List.mem_cons_of_mem e hx)
    cases e with
    | add k i => exact ih (R.add_yes he0) he' h
    | rm k =>
      simp only [Pool.play1] at h ⊢
      cases hr : pf.rm k with
      | none => rw [hr] at h; cases h
      | some pf1 =>
        rw [hr] at h
        obtain ⟨p1, e1, R1⟩ := R.rm_yes (show pooled k.dest = true from he0) hr
        rw [e1]
        exact ih R1 he' h

theorem Part.play_no : ∀ (es : List Ev) {p pf : Pool}, Part pooled p pf → (∀ e ∈ es, pooled e.key.dest = false) → ∀ {pf' : Pool}, pf.play es = some pf' →
    Part pooled p pf' := by
  intro es
  induction es with
  | nil => intro p pf R _ pf' h; simp only [Pool.play, Option.some.injEq] at h; subst h; exact R
  | cons e es ih =>
    intro p pf R he pf' h
    simp only [Pool.play] at h
    have he0 := he e List.mem_cons_self
    have he' := fun x hx => he x (List.mem_cons_of_mem e hx)
    cases e with
    | add k i => exact ih (R.add_no he0) he' h
    | rm k =>
      simp only [Pool.play1] at h
      cases hr : pf.rm k with
      | none => rw [hr] at h; cases h
      | some pf1 =>
        rw [hr] at h
        exact ih (R.rm_no he0 hr) he' h

/-! ### Answers -/

theorem Part.first (R : Part pooled p pf) {a : Nat} (ha : pooled a = true) (x : Nat) : p.first a x = pf.first a x := by
  have : p.txs.filter (fun t => t.1.dest = a && t.1.caller = x) = pf.txs.filter (fun t => t.1.dest = a && t.1.caller = x) := by
    rw [R.txs, List.filter_filter]
    apply List.filter_congr
    intro t _
    by_cases e : t.1.dest = a
    · simp [e, ha]
    · simp [e]
  unfold Pool.first
  rw [this]

theorem Part.front (R : Part pooled p pf) {a : Nat} (ha : pooled a = true) (x : Nat) : front g c p a x = front g c pf a x := by
  unfold Road.front
  rw [R.first ha]

theorem Part.isFront (R : Part pooled p pf) {a : Nat} (ha : pooled a = true) (x h : Nat) : isFront g c p a x h = isFront g c pf a x h := by
  unfold Road.isFront
  rw [R.front ha]
  simp only [R.known a ha]

theorem Part.puts : ∀ (l : List (RKey × Option Nat)) {t tf : Table RKey (Option Nat)}, t = tf.filter (fun t => pooled t.1.dest) →
    (∀ e ∈ l, pooled e.1.dest = true) →
    l.foldl (fun t e => Table.put e.1 e.2 t) t = (l.foldl (fun t e => Table.put e.1 e.2 t) tf).filter (fun t => pooled t.1.dest) := by
  intro l
  induction l with
  | nil => intro t tf h _; exact h
  | cons e l ih =>
    intro t tf h he
    rw [List.foldl_cons, List.foldl_cons]
    refine ih ?_ (fun x hx => he x (List.mem_cons_of_mem _ hx))
    rw [h, filter_put_yes (he e List.mem_cons_self)]

theorem resolve_dest {l l' : List (RKey × Option Nat)} (h : resolve g c l = some l') : ∀ e ∈ l', ∃ d ∈ l, d.1 = e.1 := by
  unfold resolve at h
  split at h
  · injection h with h; subst h; exact fun e he => ⟨e, he, rfl⟩
  · split at h
    · cases h
    · split at h
      · split at h
        · injection h with h; subst h
          intro e he
          obtain ⟨d, hd, rfl⟩ := List.mem_map.mp he
          exact ⟨d, hd, rfl⟩
        · cases h
      · cases h

theorem Part.look (R : Part pooled p pf) {a : Nat} (ha : pooled a = true) (x : Nat) : Part pooled (p.look g c a x) (pf.look g c a x) := by
  unfold Pool.look
  rw [R.first ha]
  cases hr : resolve g c (pf.first a x) with
  | none => exact R
  | some l =>
    refine ⟨?_, R.known⟩
    refine Part.puts l R.txs ?_
    intro e he
    obtain ⟨d, hd, e1⟩ := resolve_dest hr e he
    rw [← e1, (first_mem.mp hd).1.2.1]
    exact ha

/-! ### Start -/

theorem Part.adds : ∀ (t : List (Key × Val)) {p pf : Pool}, Part pooled p pf →
    Part pooled
      (t.foldl (fun p e =>
        match e.1 with
        | .road a h =>
          if g.contract a && pooled a then
            (match c.value (.hash h) with
             | some (.at x n) => p.add ⟨a, x, n, h⟩ (if g.contract x then none else some 0)
             | _ => p)
          else p
        | _ => p) p)
      (t.foldl (fun p e =>
        match e.1 with
        | .road a h =>
          if g.contract a then
            (match c.value (.hash h) with
             | some (.at x n) => p.add ⟨a, x, n, h⟩ (if g.contract x then none else some 0)
             | _ => p)
          else p
        | _ => p) pf) := by
  intro t
  induction t with
  | nil => intro p pf R; exact R
  | cons e t ih =>
    intro p pf R
    rw [List.foldl_cons, List.foldl_cons]
    apply ih
    obtain ⟨k, v⟩ := e
    cases k with
    | road a h =>
      dsimp only
      cases hc : g.contract a with
      | false => simpa using R
      | true =>
        cases hp : pooled a with
        | false =>
          simp only [Bool.and_false, Bool.false_eq_true, if_false, if_true]
          split
          · exact R.add_no hp
          · exact R
        | true =>
          simp only [Bool.and_true, if_true]
          split
          · exact R.add_yes hp
          · exact R
    | hash h => exact R
    | height a n => exact R
    | recv h => exact R
    | conf a n => exact R

theorem Part.load (g : Cfg) (pooled : Nat → Bool) (c : Chain) : Part pooled (gload g pooled c) (load g c) :=
  Part.adds c.mem ⟨rfl, fun _ _ => Iff.rfl⟩

/-! ### Calls -/

theorem rollCalls_inv (S : Sound U) (redo : Nat → Bool) {n : Nat} (hn : 2 ≤ n) : ∀ (fuel : Nat) {c : Chain} (target : Nat), Inv U c → Shaped g c.all →
    n ≤ target → target ≤ c.chunks.length + 1 → ∀ k ∈ rollCalls redo n fuel target c, Inv U k.chain ∧ Shaped g k.chain.all ∧ k.blocks.Sublist k.chain.all := by
  intro fuel
  induction fuel with
  | zero => intro c target _ _ _ _ k hk; cases hk
  | succ fuel ih =>
    intro c target I sh h1 h2 k hk
    unfold rollCalls at hk
    by_cases hlt : n < target
    · rw [if_pos hlt] at hk
      dsimp only at hk
      set next := if 120 < target then max (target - 120) n else n with hnext
      have b1 : n ≤ next ∧ next < target := by rw [hnext]; split <;> omega
      obtain ⟨i1, i2, i3⟩ := I.rollbackOnce S (n := next) (by omega) (by omega) (redo next)
      obtain ⟨m1, m2⟩ := rollOnce_mem S I (n := next) (by omega) (by omega) (redo next)
      rcases List.mem_cons.mp hk with rfl | hk
      · exact ⟨I, sh, m1⟩
      · refine ih next i1 (sh.sub (fun x hx => ((m2 x).mp hx).1)) b1.1 ?_ k hk
        rw [i2, List.length_take]
        omega
    · rw [if_neg hlt] at hk; cases hk

theorem calls_inv (S : Sound U) {n : Node} (G : Good g U n) {n' : Node} {o : Op} (ho : Allowed U n.chain o) (hst : NStep g n (.ledger o) (some n')) :
    ∀ k ∈ calls g n o, Inv U k.chain ∧ Shaped g k.chain.all ∧ k.blocks.Sublist k.chain.all := by
  obtain ⟨c, p⟩ := n
  have hdel : ∀ f : Blk → Bool, ∀ k ∈ (match c.unconf.dropWhile f with | [] => [] | b :: bs => [(⟨c, false, dependents (b :: bs)⟩ : Call)]),
      Inv U k.chain ∧ Shaped g k.chain.all ∧ k.blocks.Sublist k.chain.all := by
    intro f k hk
    cases hq : c.unconf.dropWhile f with
    | nil => rw [hq] at hk; cases hk
    | cons b bs =>
      rw [hq] at hk
      simp only [List.mem_singleton] at hk
      subst hk
      obtain ⟨P, e, _⟩ := dropWhile_split hq
      exact ⟨G.inv, G.shaped, (G.inv.dependents S e).1.trans (unconf_sub c)⟩
  cases o with
  | insert b =>
    intro k hk
    dsimp only [calls] at hk
    by_cases ha : c.accepts (Node.cfg g ⟨c, p⟩) b = true
    · rw [if_pos ha, List.mem_singleton] at hk
      subst hk
      obtain ⟨m, e, G'⟩ := G.step S ho hst
      injection e with e
      subst e
      have hc : n'.chain = c.write b := by
        obtain ⟨q, _, hq⟩ := hst
        cases q with
        | none => cases hq
        | some q =>
          simp only [Option.map_some, Option.some.injEq] at hq
          rw [hq]
          show c.insert _ b = _
          unfold Chain.insert
          rw [if_pos ha]
      have hall : (c.write b).all = c.all ++ [b] := by simp [Chain.all, Chain.write, Chain.confirmed]
      refine ⟨hc ▸ G'.inv, hc ▸ G'.shaped, ?_⟩
      show [b].Sublist (c.write b).all
      rw [hall]
      exact List.sublist_append_right _ _
    · rw [if_neg ha] at hk; cases hk
  | snapshot s e bad =>
    intro k hk
    dsimp only [calls] at hk
    by_cases ok : c.snapOk s = true
    · rw [if_pos ok] at hk
      cases hb : toBeConfirmed s.content c.unconf with
      | none => simp only [hb, Option.bind_none] at hk; cases hk
      | some bs =>
        obtain ⟨_, c1, h1, I1, _, _, hm⟩ := G.inv.confirmed S ok ho hb
        have h1' : c.confirm s bs = some c1 := h1
        simp only [hb, h1', Option.bind_some, List.mem_singleton] at hk
        subst hk
        exact ⟨I1, G.shaped.sub (fun x hx => (hm x).mp hx), (I1.toDrop e bad).1.trans (unconf_sub c1)⟩
    · rw [if_neg ok] at hk; cases hk
  | deleteHash x => exact hdel (fun b => b.hash ≠ x)
  | deleteHeight a m => exact hdel (fun b => ¬ (b.addr = a ∧ b.height = m))
  | rollback redo m =>
    intro k hk
    dsimp only [calls] at hk
    have ht : c.top = c.chunks.length := G.inv.top
    by_cases hc : c.top < m ∨ m ≤ 1
    · rw [if_pos hc] at hk; cases hk
    · rw [if_neg hc] at hk
      exact rollCalls_inv S redo (n := m) (by omega) (c.top + 1) (c.top + 1) G.inv G.shaped (by omega) (by show c.top + 1 ≤ c.chunks.length + 1; omega) k hk
  | flush => intro k hk; cases hk
  | restart => intro k hk; cases hk
  | touch k => intro k hk; cases hk
  | evict k => intro k hk; cases hk
  | expire x => intro k hk; cases hk
  | forgetMade x => intro k hk; cases hk

/-- The blocks a list is about: each has its event, for the contract it belongs to, which one of the blocks touches. -/
theorem relevant_ok (S : Sound U) (I : Inv U c) (sh : Shaped g c.all) {bs : List Blk} (hs : bs.Sublist c.all) (write : Bool) :
    ∀ v ∈ relevant g bs, g.contract (target v) = true ∧ (∃ e, eventOf g c write v = some e ∧ e.key.dest = target v) ∧ ∃ b ∈ bs, Touches b (target v) := by
  have K := cut_ok S I.ledger sh hs
  have w := I.ledger
  intro v hv
  obtain ⟨⟨h, v'⟩, hm, rfl⟩ := List.mem_map.mp hv
  obtain ⟨hm, hc⟩ := List.mem_filter.mp hm
  have hsrc : ∃ d ∈ c.all, ∃ (i : Nat) (s : Snd), d.outs[i]? = some s ∧ target v' = s.dest ∧ locate g c v' = some (keyOf d s, some i) ∧
      ∃ b ∈ bs, Touches b (target v') := by
    rcases (K.iff h v').mp (Table.mem_get K.proper hm) with ⟨d, hd, s, hsd, e1, e2, e3⟩ | ⟨hv, ht, hx⟩
    · have hda := hs.subset hd
      obtain ⟨i, hi⟩ := List.getElem?_of_mem hsd
      have hvs : v'.isSend = true := by rw [e2]; exact asBlk_send d s
      have htg : target v' = s.dest := by
        unfold target; rw [if_pos hvs, e2]
        exact (asBlk_hash S (w.known d hda) hsd).2.1
      refine ⟨d, hda, i, s, hi, htg, locate_of S I sh hda hi ?_, d, hd, .inl ⟨s, hsd, htg.symm⟩⟩
      rw [if_pos hvs, e2]
    · have hva := hs.subset hv
      obtain ⟨d, hda, s, hsd, e1, e2⟩ := w.backed v' hva h ht
      obtain ⟨i, hi⟩ := List.getElem?_of_mem hsd
      have hvr := takes_recv ht
      have hvs : v'.isSend = false := by simpa [Blk.isRecv] using hvr
      have htg : target v' = v'.addr := by unfold target; rw [hvs]; rfl
      refine ⟨d, hda, i, s, hi, by rw [htg, e2], locate_of S I sh hda hi ?_, v', hv, .inr ⟨hvr, htg.symm⟩⟩
      rw [hvs]
      simp only [Bool.false_eq_true, if_false]
      rw [takes_src ht, ← e1]
      exact byHash_send S I hda hsd
  obtain ⟨d, _, i, s, _, htg, hl, hb⟩ := hsrc
  refine ⟨hc, ?_, hb⟩
  unfold eventOf
  rw [hl]
  simp only [Option.map_some]
  by_cases hw : v'.isSend = write
  · rw [if_pos hw]; exact ⟨_, rfl, htg.symm⟩
  · rw [if_neg hw]; exact ⟨_, rfl, htg.symm⟩

theorem play_append (es es' : List Ev) : ∀ (p : Pool), p.play (es ++ es') = (p.play es).bind (fun q => q.play es') := by
  induction es with
  | nil => intro p; rfl
  | cons e es ih =>
    intro p
    simp only [List.cons_append, Pool.play]
    cases p.play1 e with
    | none => rfl
    | some q => exact ih q

/-- A loop through contracts with pools. -/
theorem visits_all (write : Bool) : ∀ (vs : List Visit) (p : Pool), (∀ v ∈ vs, pooled v.addr = true) →
    (∀ v ∈ vs, ∀ b ∈ v.blocks, (eventOf g c write b).isSome = true) →
    visits g pooled c write vs p = p.play ((vs.flatMap (·.blocks)).filterMap (eventOf g c write)) := by
  intro vs
  induction vs with
  | nil => intro p _ _; rfl
  | cons v vs ih =>
    intro p hp he
    simp only [visits]
    rw [if_pos (hp v List.mem_cons_self), List.flatMap_cons, List.filterMap_append, play_append]
    unfold visit
    rw [if_pos (by rw [List.all_eq_true]; exact he v List.mem_cons_self)]
    cases p.play (v.blocks.filterMap (eventOf g c write)) with
    | none => rfl
    | some q => exact ih q (fun v hv => hp v (List.mem_cons_of_mem _ hv)) (fun v hv => he v (List.mem_cons_of_mem _ hv))

/-- A loop through contracts without pools does nothing. -/
theorem visits_none (write : Bool) (vs : List Visit) (p : Pool) (h : ∀ v ∈ vs, pooled v.addr = false) : visits g pooled c write vs p = some p := by
  cases vs with
  | nil => rfl
  | cons v vs => simp [visits, h v List.mem_cons_self]

/-- The calls of both nodes. -/
theorem outcome_part (S : Sound U) : ∀ (ks : List Call) {p pf : Pool}, Part pooled p pf →
    (∀ k ∈ ks, Inv U k.chain ∧ Shaped g k.chain.all ∧ k.blocks.Sublist k.chain.all) → (∀ k ∈ ks, Unmixed g pooled k.blocks) →
    ∀ {q : Option Pool}, GOutcome g pooled ks p q → ∃ qf, Outcome g ks pf qf ∧ ∀ pf', qf = some pf' → ∃ p', q = some p' ∧ Part pooled p' pf' := by
  intro ks
  induction ks with
  | nil =>
    intro p pf R _ _ q h
    refine ⟨some pf, rfl, ?_⟩
    intro pf' e
    injection e with e
    subst e
    exact ⟨p, h, R⟩
  | cons k ks ih =>
    intro p pf R hk hu q h
    obtain ⟨I, sh, hs⟩ := hk k List.mem_cons_self
    have hrel := relevant_ok S I sh hs k.write
    obtain ⟨vs, ⟨hnd, hv, hperm⟩, h⟩ := h
    have hmem : ∀ v ∈ vs, ∀ b ∈ v.blocks, b ∈ relevant g k.blocks := fun v hv' b hb =>
      hperm.mem_iff.mp (List.mem_flatMap.mpr ⟨v, hv', hb⟩)
    have hev : events g k.chain k.write k.blocks = some ((relevant g k.blocks).filterMap (eventOf g k.chain k.write)) := by
      unfold events
      dsimp only
      rw [if_pos]
      · rfl
      · rw [List.all_eq_true]
        intro v hv'
        obtain ⟨_, ⟨e, he, _⟩, _⟩ := hrel v hv'
        rw [he]; rfl
    let es' := (vs.flatMap (·.blocks)).filterMap (eventOf g k.chain k.write)
    have hperm' : es'.Perm ((relevant g k.blocks).filterMap (eventOf g k.chain k.write)) := hperm.filterMap _
    have hkey : ∀ e ∈ es', ∃ v ∈ relevant g k.blocks, e.key.dest = target v := by
      intro e he
      obtain ⟨b, hb, hbe⟩ := List.mem_filterMap.mp he
      have hb' := hperm.mem_iff.mp hb
      obtain ⟨_, ⟨e', he', hd⟩, _⟩ := hrel b hb'
      rw [hbe] at he'
      injection he' with he'
      exact ⟨b, hb', he' ▸ hd⟩
    -- the full node plays the same events
    cases hpl : pf.play es' with
    | none =>
      refine ⟨none, ?_, fun _ e => by cases e⟩
      unfold Outcome
      simp only [hev]
      exact ⟨es', hperm', by simp only [hpl]⟩
    | some pf1 =>
      have hstep : ∃ p1, visits g pooled k.chain k.write vs p = some p1 ∧ Part pooled p1 pf1 := by
        rcases hu k List.mem_cons_self with hall | hnone
        · have hall' : ∀ v ∈ relevant g k.blocks, pooled (target v) = true := by
            intro v hv'
            obtain ⟨hc, _, b, hb, ht⟩ := hrel v hv'
            exact hall b hb _ ht hc
          have hvis : visits g pooled k.chain k.write vs p = p.play es' := by
            apply visits_all
            · intro v hv'
              obtain ⟨hne, ht⟩ := hv v hv'
              obtain ⟨b, hb⟩ := List.exists_mem_of_ne_nil _ hne
              rw [← ht b hb]
              exact hall' b (hmem v hv' b hb)
            · intro v hv' b hb
              obtain ⟨_, ⟨e, he, _⟩, _⟩ := hrel b (hmem v hv' b hb)
              rw [he]; rfl
          rw [hvis]
          refine Part.play_yes es' R ?_ hpl
          intro e he
          obtain ⟨v, hv', hd⟩ := hkey e he
          rw [hd]; exact hall' v hv'
        · have hnone' : ∀ v ∈ relevant g k.blocks, pooled (target v) = false := by
            intro v hv'
            obtain ⟨hc, _, b, hb, ht⟩ := hrel v hv'
            exact hnone b hb _ ht hc
          refine ⟨p, visits_none _ _ _ ?_, ?_⟩
          · intro v hv'
            obtain ⟨hne, ht⟩ := hv v hv'
            obtain ⟨b, hb⟩ := List.exists_mem_of_ne_nil _ hne
            rw [← ht b hb]
            exact hnone' b (hmem v hv' b hb)
          · refine Part.play_no es' R ?_ hpl
            intro e he
            obtain ⟨v, hv', hd⟩ := hkey e he
            rw [hd]; exact hnone' v hv'
      obtain ⟨p1, e1, R1⟩ := hstep
      rw [e1] at h
      obtain ⟨qf, hq, hqf⟩ := ih R1 (fun k hk' => hk k (List.mem_cons_of_mem _ hk')) (fun k hk' => hu k (List.mem_cons_of_mem _ hk')) h
      refine ⟨qf, ?_, hqf⟩
      unfold Outcome
      simp only [hev]
      exact ⟨es', hperm', by simp only [hpl]; exact hq⟩

/-! ### Steps -/

/-- The checks with the rule that contracts without a pool do not receive. -/
def served (g : Cfg) (pooled : Nat → Bool) : Cfg :=
  { g with legal := fun b => g.legal b && (if b.isRecv ∧ g.contract b.addr then pooled b.addr else true) }

theorem accepts_part {c : Chain} (R : Part pooled p pf) (b : Blk) :
    c.accepts (Node.gcfg g pooled ⟨c, p⟩) b = c.accepts (Node.cfg (served g pooled) ⟨c, pf⟩) b := by
  have e1 : ∀ b, sendOk (Node.gcfg g pooled ⟨c, p⟩) b = sendOk (Node.cfg (served g pooled) ⟨c, pf⟩) b := fun _ => rfl
  have e2 : ∀ b, recvOk (Node.gcfg g pooled ⟨c, p⟩) b = recvOk (Node.cfg (served g pooled) ⟨c, pf⟩) b := fun _ => rfl
  unfold Chain.accepts
  rw [e1, e2]
  by_cases hs : b.isSend = true
  · have hr : b.isRecv = false := by simp [Blk.isRecv, hs]
    have l1 : (Node.gcfg g pooled ⟨c, p⟩).legal b = g.legal b := by simp [Node.gcfg, Node.gInTurn, hr]
    have l2 : (Node.cfg (served g pooled) ⟨c, pf⟩).legal b = g.legal b := by simp [Node.cfg, Node.inTurn, served, hr]
    rw [l1, l2]
  · have hr : b.isRecv = true := by simp [Blk.isRecv, hs]
    simp only [hs, if_false, Bool.false_eq_true]
    cases hf : c.sendFits b with
    | false => simp
    | true =>
      have hl : (Node.gcfg g pooled ⟨c, p⟩).legal b = (Node.cfg (served g pooled) ⟨c, pf⟩).legal b := by
        simp only [Node.gcfg, Node.cfg, served, Node.gInTurn, Node.inTurn, hr, true_and]
        by_cases hc : g.contract b.addr = true
        · simp only [hc, if_true]
          unfold Chain.sendFits at hf
          cases hb : c.byHash b.src with
          | none => rw [hb] at hf; simp at hf
          | some s =>
            rw [hb] at hf
            simp only [Bool.and_eq_true, decide_eq_true_eq] at hf
            dsimp only
            rw [hf.1.2]
            cases hp : pooled b.addr with
            | false => simp
            | true =>
              simp only [Bool.true_and, Bool.and_true]
              rw [R.isFront hp]
              rfl
        · simp [hc]
      rw [hl]

theorem step_part {c : Chain} (R : Part pooled p pf) (o : Op) :
    Lattice.step (Node.gcfg g pooled ⟨c, p⟩) c o = Lattice.step (Node.cfg (served g pooled) ⟨c, pf⟩) c o := by
  cases o with
  | insert b =>
    simp only [Lattice.step]
    unfold Chain.insert
    rw [accepts_part R b]
  | _ => rfl

theorem calls_part {c : Chain} (R : Part pooled p pf) (o : Op) : gcalls g pooled ⟨c, p⟩ o = calls (served g pooled) ⟨c, pf⟩ o := by
  cases o with
  | insert b =>
    simp only [gcalls, calls]
    rw [accepts_part R b]
  | _ => rfl

end Verif.Road
