import Verif.Road.RoadFront

/-!
Every operation keeps the pool exact.
-/

namespace Verif.Road

open Verif.Lattice

variable {U : Blk → Prop} {g : Cfg} {c : Chain} {p : Pool}

structure Good (g : Cfg) (U : Blk → Prop) (n : Node) : Prop where
  inv : Inv U n.chain
  shaped : Shaped g n.chain.all
  pool : PoolOk g n.chain.all n.pool
  order : InOrder g n.chain.all

theorem Waiting.congr {L L' : List Blk} (h : ∀ x, x ∈ L' ↔ x ∈ L) {a x n i k : Nat} : Waiting L' a x n i k ↔ Waiting L a x n i k := by
  constructor
  · rintro ⟨⟨d, hd, r⟩, hn⟩; exact ⟨⟨d, (h d).mp hd, r⟩, fun b hb => hn b ((h b).mpr hb)⟩
  · rintro ⟨⟨d, hd, r⟩, hn⟩; exact ⟨⟨d, (h d).mpr hd, r⟩, fun b hb => hn b ((h b).mp hb)⟩

theorem PoolOk.congr {L L' : List Blk} (h : ∀ x, x ∈ L' ↔ x ∈ L) (P : PoolOk g L p) : PoolOk g L' p where
  proper := P.proper
  right k v hv := by
    obtain ⟨hc, i, hw, hi⟩ := P.right k v hv
    exact ⟨hc, i, (Waiting.congr h).mpr hw, hi⟩
  full a x n i k hc hw := P.full a x n i k hc ((Waiting.congr h).mp hw)
  known := P.known

theorem Shaped.sub {L L' : List Blk} (h : ∀ x ∈ L', x ∈ L) (sh : Shaped g L) : Shaped g L' := fun b hb => sh b (h b hb)

/-- A call before a deletion. -/
theorem outcome_delete (S : Sound U) (I : Inv U c) (sh : Shaped g c.all) (P : PoolOk g c.all p) {bs L' : List Blk} (hs : bs.Sublist c.all)
    (w' : Ledger U L') (hL : ∀ x, x ∈ L' ↔ x ∈ c.all ∧ x ∉ bs) {ks : List Call} {r : Option Pool} (h : Outcome g (⟨c, false, bs⟩ :: ks) p r) :
    ∃ p', PoolOk g L' p' ∧ Outcome g ks p' r := by
  obtain ⟨es, e, E⟩ := events_ok S I sh hs false
  unfold Outcome at h
  simp only [e] at h
  obtain ⟨es', hp, h⟩ := h
  obtain ⟨p', e1, P'⟩ := P.delete S I w' hL E (fun b hb => hs.subset hb) hp
  simp only [e1] at h
  exact ⟨p', P', h⟩

theorem Good.insert (S : Sound U) {n : Node} (G : Good g U n) {b : Blk} (hU : U b) {r : Option Node} (h : NStep g n (.ledger (.insert b)) r) :
    ∃ n', r = some n' ∧ Good g U n' := by
  obtain ⟨q, hq, rfl⟩ := h
  dsimp only [calls] at hq
  by_cases ha : n.chain.accepts (n.cfg g) b = true
  · rw [if_pos ha] at hq
    obtain ⟨w', hg, hdest, hlow⟩ := G.inv.accept S hU ha
    have I' : Inv U (n.chain.write b) := by
      have := G.inv.insert S (g := n.cfg g) hU
      unfold Chain.insert at this
      rwa [if_pos ha] at this
    have hall : (n.chain.write b).all = n.chain.all ++ [b] := by
      simp [Chain.all, Chain.write, Chain.confirmed]
    have ha' := ha
    unfold Chain.accepts at ha'
    simp only [Bool.and_eq_true, decide_eq_true_eq] at ha'
    obtain ⟨⟨⟨_, hk⟩, hf⟩, hleg⟩ := ha'
    have hturn0 : n.inTurn g b = true := by
      simp only [Node.cfg, Bool.and_eq_true] at hleg
      exact hleg.2
    have hpos : 1 ≤ b.height := height_pos w' (by simp)
    have sh' : Shaped g (n.chain.all ++ [b]) := by
      intro x hx
      rcases List.mem_append.mp hx with hx | hx
      · exact G.shaped x hx
      · rw [List.mem_singleton] at hx
        subst hx
        refine ⟨?_, ?_, fun h => absurd h hg⟩
        · intro hs
          rw [if_pos hs] at hk
          unfold sendOk at hk
          simp only [Bool.and_eq_true, Node.cfg] at hk
          cases hc : g.contract x.addr with
          | false => rfl
          | true =>
            have this : (if g.contract x.addr = true then decide (x.height = 0) else decide (1 < x.height)) = true := hk.2
            simp only [hc, if_true, decide_eq_true_eq] at this
            omega
        · intro hr hne
          have hs : x.isSend = false := by simpa [Blk.isRecv] using hr
          rw [hs] at hk
          simp only [Bool.false_eq_true, if_false, recvOk, Bool.and_eq_true, Bool.or_eq_true, Node.cfg] at hk
          rcases hk.1.2 with h1 | h1
          · rw [List.isEmpty_iff] at h1; exact absurd h1 hne
          · exact h1
    have o' : InOrder g (n.chain.all ++ [b]) := by
      refine InOrder.insert S w' hlow ?_ G.order
      intro k ht hc
      have hr := takes_recv ht
      have hs : b.isSend = false := by simpa [Blk.isRecv] using hr
      rw [hs] at hk
      simp only [Bool.false_eq_true, if_false, Bool.and_eq_true] at hk
      have hfit := hk.2
      unfold Node.inTurn at hturn0
      rw [if_pos ⟨hr, hc⟩] at hturn0
      unfold Chain.sendFits at hfit
      cases hby : n.chain.byHash b.src with
      | none => rw [hby] at hturn0; cases hturn0
      | some s =>
        rw [hby] at hturn0 hfit
        simp only [Bool.and_eq_true, decide_eq_true_eq] at hturn0 hfit
        obtain ⟨_, m, i, hfr⟩ := (isFront_ok S G.inv G.shaped G.pool _ _ _).mp hturn0
        have hsh : s.hash = k := by
          rw [← takes_src ht]
          rcases (G.inv.byHash S).mp hby with ⟨_, e⟩ | ⟨d, _, s', _, e, rfl⟩
          · exact e
          · exact e
        rw [hfit.1.2, hsh] at hfr
        exact ⟨_, m, i, hfr⟩
    obtain ⟨es, e, E⟩ := events_ok S I' (by rw [hall]; exact sh') (bs := [b]) (by rw [hall]; exact List.sublist_append_right _ _) true
    unfold Outcome at hq
    simp only [e] at hq
    obtain ⟨es', hp, hq⟩ := hq
    obtain ⟨p', e1, P'⟩ := G.pool.insert S I' hall E hp
    simp only [e1, Outcome] at hq
    have hw : n.chain.insert (n.cfg g) b = n.chain.write b := by unfold Chain.insert; rw [if_pos ha]
    refine ⟨⟨n.chain.write b, p'⟩, by rw [hq, hw]; rfl, I', ?_, P', ?_⟩
    · rw [hall]; exact sh'
    · rw [hall]; exact o'
  · rw [if_neg ha] at hq
    have hq' : q = some n.pool := hq
    have hw : n.chain.insert (n.cfg g) b = n.chain := by unfold Chain.insert; rw [if_neg ha]
    refine ⟨n, by rw [hq', hw]; rfl, G⟩

/-- A step that deletes blocks with one call. -/
theorem Good.deleted (S : Sound U) {c c' : Chain} {p : Pool} {bs : List Blk} (G : Good g U ⟨c, p⟩) (hs : bs.Sublist c.all) (I' : Inv U c')
    (hL : ∀ x, x ∈ c'.all ↔ x ∈ c.all ∧ x ∉ bs) {ks : List Call} {r : Option Pool} (h : Outcome g (⟨c, false, bs⟩ :: ks) p r) :
    ∃ p', Good g U ⟨c', p'⟩ ∧ Outcome g ks p' r := by
  obtain ⟨p', P', ho⟩ := outcome_delete S G.inv G.shaped G.pool hs I'.ledger hL h
  have hsub : ∀ x ∈ c'.all, x ∈ c.all := fun x hx => ((hL x).mp hx).1
  exact ⟨p', ⟨I', G.shaped.sub hsub, P', G.order.sub G.inv.ledger I'.ledger hsub⟩, ho⟩

/-- A state with the same blocks. -/
theorem Good.same {c c' : Chain} {p : Pool} (G : Good g U ⟨c, p⟩) (I' : Inv U c') (h : ∀ x, x ∈ c'.all ↔ x ∈ c.all) : Good g U ⟨c', p⟩ :=
  ⟨I', G.shaped.sub (fun x hx => (h x).mp hx), G.pool.congr h, G.order.sub G.inv.ledger I'.ledger (fun x hx => (h x).mp hx)⟩

theorem unconf_sub (c : Chain) : c.unconf.Sublist c.all := List.sublist_append_right _ _

theorem Good.snapshot (S : Sound U) {n : Node} (G : Good g U n) {s : Snap} {e : Bool} {bad : Blk → Bool} (hcl : Closed n.chain s.content)
    {r : Option Node} (h : NStep g n (.ledger (.snapshot s e bad)) r) : ∃ n', r = some n' ∧ Good g U n' := by
  obtain ⟨c, p⟩ := n
  unfold NStep at h
  simp only [Lattice.step] at h
  unfold Chain.snapshot calls at h
  by_cases ok : c.snapOk s = true
  · rw [if_pos ok] at h
    simp only [ok, if_true] at h
    cases hb : toBeConfirmed s.content c.unconf with
    | none =>
      simp only [hb, Option.bind_none] at h
      obtain ⟨q, hq, rfl⟩ := h
      have hq' : q = some p := hq
      exact ⟨⟨c, p⟩, by rw [hq']; rfl, G⟩
    | some bs =>
      obtain ⟨_, c1, h1, I1, _, _, hm⟩ := G.inv.confirmed S ok hcl hb
      simp only [hb, h1, Option.map_some, Option.bind_some] at h
      obtain ⟨q, hq, rfl⟩ := h
      obtain ⟨I2, _, hd⟩ := I1.dropped S e bad
      obtain ⟨t1, t2⟩ := I1.toDrop e bad
      have G1 : Good g U ⟨c1, p⟩ := G.same I1 hm
      obtain ⟨p', G', ho⟩ := G1.deleted S (t1.trans (unconf_sub c1)) I2 (fun x => by rw [hd x, t2 x]) hq
      have hq' : q = some p' := ho
      exact ⟨_, by rw [hq']; rfl, G'⟩
  · simp only [ok, if_false, Bool.false_eq_true] at h
    obtain ⟨q, hq, rfl⟩ := h
    have hq' : q = some p := hq
    exact ⟨⟨c, p⟩, by rw [hq']; rfl, G⟩

theorem Good.delete (S : Sound U) {c : Chain} {p : Pool} (G : Good g U ⟨c, p⟩) {f : Blk → Bool} {q : Option Pool}
    (h : Outcome g (match c.unconf.dropWhile f with | [] => [] | b :: bs => [⟨c, false, dependents (b :: bs)⟩]) p q) :
    ∃ p', q = some p' ∧ Good g U ⟨(match c.unconf.dropWhile f with | [] => none | b :: bs => some (c.remove (dependents (b :: bs)))).getD c, p'⟩ := by
  cases hq : c.unconf.dropWhile f with
  | nil =>
    rw [hq] at h
    have h' : q = some p := h
    exact ⟨p, h', G⟩
  | cons b bs =>
    rw [hq] at h
    obtain ⟨P, e, _⟩ := dropWhile_split hq
    obtain ⟨d1, d2⟩ := G.inv.dependents S e
    obtain ⟨I', hd⟩ := G.inv.deletion S e
    obtain ⟨p', G', ho⟩ := G.deleted S (d1.trans (unconf_sub c)) I' (fun x => by rw [hd x, d2 x]) h
    exact ⟨p', ho, G'⟩

/-- One step of a rollback. -/
theorem rollOnce_mem (S : Sound U) (I : Inv U c) {n : Nat} (hn : 2 ≤ n) (hle : n ≤ c.chunks.length) (redo : Bool) :
    (rollCall c n redo).blocks.Sublist c.all ∧ ∀ x, x ∈ (c.rollbackOnce n redo).all ↔ x ∈ c.all ∧ x ∉ (rollCall c n redo).blocks := by
  obtain ⟨_, h2, h3⟩ := I.rollbackOnce S hn hle redo
  obtain ⟨_, eg⟩ := filter_take (fun k : Chunk => k.snap.height) n c.chunks 1 I.heights
  have hlt : n - 1 < c.chunks.length := by omega
  have hdrop : c.chunks.drop (n - 1) = c.chunks[n - 1] :: c.chunks.drop n := by
    rw [List.drop_eq_getElem_cons hlt]; congr 2; omega
  -- the ledger in three parts
  have hall : c.all = (c.chunks.take (n - 1)).flatMap (·.blocks) ++ (c.chunks[n - 1].blocks ++ ((c.chunks.drop n).flatMap (·.blocks) ++ c.unconf)) := by
    unfold Chain.all Chain.confirmed
    conv_lhs => rw [← List.take_append_drop (n - 1) c.chunks]
    rw [List.flatMap_append, hdrop, List.flatMap_cons, List.append_assoc, List.append_assoc]
  have hall' : (c.rollbackOnce n redo).all = (c.chunks.take (n - 1)).flatMap (·.blocks) ++ (if redo then c.chunks[n - 1].blocks else []) := by
    unfold Chain.all Chain.confirmed
    rw [h2, h3, List.getElem?_eq_getElem hlt]; rfl
  have hbs : (rollCall c n redo).blocks = (if redo then [] else c.chunks[n - 1].blocks) ++ ((c.chunks.drop n).flatMap (·.blocks) ++ c.unconf) := by
    unfold rollCall
    dsimp only
    rw [eg, hdrop]
    cases redo with
    | true => simp
    | false => simp [List.flatMap_cons]
  have hnod := I.ledger.nodup
  rw [hall, List.nodup_append, List.nodup_append] at hnod
  obtain ⟨_, ⟨_, _, n1⟩, n2⟩ := hnod
  rw [hall, hall', hbs]
  cases redo with
  | true =>
    simp only [if_true, List.nil_append]
    refine ⟨?_, ?_⟩
    · exact (List.sublist_append_right _ _).trans (List.sublist_append_right _ _)
    · intro x
      constructor
      · intro hx
        rcases List.mem_append.mp hx with hx | hx
        · exact ⟨List.mem_append_left _ hx, fun h => n2 x hx x (List.mem_append_right _ h) rfl⟩
        · exact ⟨List.mem_append_right _ (List.mem_append_left _ hx), fun h => n1 x hx x h rfl⟩
      · rintro ⟨hx, hno⟩
        rcases List.mem_append.mp hx with hx | hx
        · exact List.mem_append_left _ hx
        · rcases List.mem_append.mp hx with hx | hx
          · exact List.mem_append_right _ hx
          · exact absurd hx hno
  | false =>
    simp only [Bool.false_eq_true, if_false, List.append_nil]
    refine ⟨List.sublist_append_right _ _, ?_⟩
    intro x
    constructor
    · intro hx
      exact ⟨List.mem_append_left _ hx, fun h => n2 x hx x h rfl⟩
    · rintro ⟨hx, hno⟩
      rcases List.mem_append.mp hx with hx | hx
      · exact hx
      · exact absurd hx hno

theorem Good.rollbackFrom (S : Sound U) (redo : Nat → Bool) {n : Nat} (hn : 2 ≤ n) : ∀ (fuel : Nat) {c : Chain} {p : Pool} (target : Nat), Good g U ⟨c, p⟩ →
    n ≤ target → target ≤ c.chunks.length + 1 → ∀ {q : Option Pool}, Outcome g (rollCalls redo n fuel target c) p q →
    ∃ p', q = some p' ∧ Good g U ⟨c.rollbackFrom redo n fuel target, p'⟩ := by
  intro fuel
  induction fuel with
  | zero => intro c p target G _ _ q h; exact ⟨p, h, G⟩
  | succ fuel ih =>
    intro c p target G h1 h2 q h
    unfold rollCalls at h
    unfold Chain.rollbackFrom
    by_cases hlt : n < target
    · rw [if_pos hlt] at h ⊢
      dsimp only at h ⊢
      set next := if 120 < target then max (target - 120) n else n with hnext
      have b1 : n ≤ next ∧ next < target := by rw [hnext]; split <;> omega
      obtain ⟨i1, i2, i3⟩ := G.inv.rollbackOnce S (n := next) (by omega) (by show next ≤ c.chunks.length; omega) (redo next)
      obtain ⟨m1, m2⟩ := rollOnce_mem S G.inv (n := next) (by omega) (by show next ≤ c.chunks.length; omega) (redo next)
      obtain ⟨p', G', ho⟩ := G.deleted S m1 i1 m2 h
      refine ih next G' b1.1 ?_ ho
      rw [i2, List.length_take]
      show next ≤ min (next - 1) c.chunks.length + 1
      omega
    · rw [if_neg hlt] at h ⊢
      exact ⟨p, h, G⟩

theorem start_shaped {bs : List Blk} (h : Start U bs) : Shaped g (genesis bs).all := by
  intro b hb
  have hb' : b ∈ bs := by simpa [genesis, Chain.all, Chain.confirmed] using hb
  obtain ⟨k1, _, _, k4, _⟩ := h.kind b hb'
  refine ⟨?_, ?_, fun _ => k4⟩
  · intro hs; simp [Blk.isSend, k1] at hs
  · intro _ hne; exact absurd k4 hne

theorem Good.step (S : Sound U) {n : Node} (G : Good g U n) {o : Op} (ho : Allowed U n.chain o) {r : Option Node} (h : NStep g n (.ledger o) r) :
    ∃ n', r = some n' ∧ Good g U n' := by
  obtain ⟨c, p⟩ := n
  cases o with
  | insert b => exact G.insert S ho h
  | snapshot s e bad => exact G.snapshot S ho h
  | deleteHash x =>
    obtain ⟨q, hq, rfl⟩ := h
    obtain ⟨p', rfl, G'⟩ := G.delete S (f := fun b => b.hash ≠ x) hq
    exact ⟨_, rfl, G'⟩
  | deleteHeight a m =>
    obtain ⟨q, hq, rfl⟩ := h
    obtain ⟨p', rfl, G'⟩ := G.delete S (f := fun b => ¬ (b.addr = a ∧ b.height = m)) hq
    exact ⟨_, rfl, G'⟩
  | rollback redo m =>
    obtain ⟨q, hq, rfl⟩ := h
    dsimp only [calls] at hq
    unfold Chain.rollback
    have ht : c.top = c.chunks.length := G.inv.top
    by_cases hc : c.top < m ∨ m ≤ 1
    · rw [if_pos hc]
      rw [if_pos hc] at hq
      have hq' : q = some p := hq
      exact ⟨⟨c, p⟩, by rw [hq']; rfl, G⟩
    · rw [if_neg hc]
      rw [if_neg hc] at hq
      obtain ⟨p', e, G'⟩ := Good.rollbackFrom S redo (n := m) (by omega) (c.top + 1) (c.top + 1) G (by omega) (by omega) hq
      exact ⟨_, by rw [e]; rfl, G'⟩
  | flush =>
    obtain ⟨q, hq, rfl⟩ := h
    have hq' : q = some p := hq
    exact ⟨⟨c.flush, p⟩, by rw [hq']; rfl, G.same (G.inv.flush S) (fun x => Iff.rfl)⟩
  | restart =>
    have h' : r = some ⟨c.restart, load g c.restart⟩ := h
    have I' := G.inv.restart
    have hsub : ∀ x ∈ c.restart.all, x ∈ c.all := by
      intro x hx
      have : c.restart.all = c.confirmed := by simp [Chain.restart, Chain.all, Chain.confirmed]
      rw [this] at hx
      exact mem_all.mpr (.inl hx)
    have sh' := G.shaped.sub hsub
    exact ⟨_, h', I', sh', (load_ok S I' sh').1, G.order.sub G.inv.ledger I'.ledger hsub⟩
  | touch k =>
    obtain ⟨c', e, I'⟩ := G.inv.step S (g := Node.cfg g ⟨c, p⟩) (o := .touch k) ho
    unfold NStep at h
    simp only [e] at h
    obtain ⟨q, hq, rfl⟩ := h
    have hq' : q = some p := hq
    have hall : c'.all = c.all := by
      simp only [Lattice.step] at e
      split at e
      · split at e
        · injection e with e; rw [← e]; rfl
        · injection e with e; rw [← e]
      · injection e with e; rw [← e]
    exact ⟨⟨c', p⟩, by rw [hq']; rfl, G.same I' (fun x => by rw [hall])⟩
  | evict k =>
    obtain ⟨q, hq, rfl⟩ := h
    have hq' : q = some p := hq
    exact ⟨⟨_, p⟩, by rw [hq']; rfl, G.same (G.inv.evict k) (fun x => Iff.rfl)⟩
  | expire x =>
    obtain ⟨q, hq, rfl⟩ := h
    have hq' : q = some p := hq
    exact ⟨⟨_, p⟩, by rw [hq']; rfl, G.same (G.inv.expire x) (fun x => Iff.rfl)⟩
  | forgetMade x =>
    obtain ⟨q, hq, rfl⟩ := h
    have hq' : q = some p := hq
    exact ⟨⟨_, p⟩, by rw [hq']; rfl, G.same (G.inv.forgetMade x) (fun x => Iff.rfl)⟩

theorem Reach.good (S : Sound U) {n : Node} (h : Reach g U n) : Good g U n := by
  induction h with
  | @start bs h =>
    have I := Inv.start S h
    have sh := start_shaped (g := g) h
    refine ⟨I, sh, (load_ok S I sh).1, ?_⟩
    intro a x n i hh m j k _ h1
    obtain ⟨d, hd, _, _, h3⟩ := h1
    have hd' : d ∈ bs := by simpa [genesis, Chain.all, Chain.confirmed] using hd
    have hr : d.isRecv = true := by simp [Blk.isRecv, Blk.isSend, (h.kind d hd').1]
    rw [outs_recv hr, (h.kind d hd').2.2.2.1] at h3
    simp at h3
  | look _ hs ih =>
    have hs' := hs
    unfold NStep at hs'
    injection hs' with hs'
    rw [hs']
    exact ⟨ih.inv, ih.shaped, ih.pool.look S ih.inv ih.shaped _ _, ih.order⟩
  | step _ ho hs ih =>
    obtain ⟨n', e, G⟩ := ih.step S ho hs
    injection e with e
    rw [e]; exact G

end Verif.Road
