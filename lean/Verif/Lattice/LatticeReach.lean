import Verif.Lattice.LatticeSteps

/-!
Rollback, flush, restart, caches and the start; all states of a node satisfy the invariant.
-/

namespace Verif.Lattice

variable {U : Blk → Prop} {c : Chain}

/-! ### Rollback -/

theorem filter_take {α : Type} (f : α → Nat) (n : Nat) (l : List α) : ∀ s, l.map f = List.range' s l.length →
    l.filter (fun x => decide (f x < n)) = l.take (n - s) ∧ l.filter (fun x => decide (¬ f x < n)) = l.drop (n - s) := by
  induction l with
  | nil => intro s _; simp
  | cons x l ih =>
    intro s h
    rw [List.map_cons, List.length_cons, List.range'_succ] at h
    injection h with h1 h2
    obtain ⟨i1, i2⟩ := ih (s + 1) h2
    by_cases q : f x < n
    · have e : n - s = (n - (s + 1)) + 1 := by omega
      rw [List.filter_cons_of_pos (by simpa using q), List.filter_cons_of_neg (by simpa using q), i1, i2, e, List.take_succ_cons, List.drop_succ_cons]
      exact ⟨rfl, rfl⟩
    · have e : n - s = 0 := by omega
      have e' : n - (s + 1) = 0 := by omega
      rw [List.filter_cons_of_neg (by simpa using q), List.filter_cons_of_pos (by simpa using q), i1, i2, e, e']
      simp

theorem Inv.rewrite (S : Sound U) (bs : List Blk) : ∀ {c : Chain}, Inv U c → Ledger U (c.all ++ bs) → (∀ b ∈ bs, b.kind ≠ .genesis) →
    (∀ b ∈ bs, b.isRecv = true → b.dest = 0) →
    Inv U (c.rewrite bs) ∧ (c.rewrite bs).chunks = c.chunks ∧ (c.rewrite bs).unconf = c.unconf ++ bs := by
  induction bs with
  | nil => intro c I _ _ _; exact ⟨I, rfl, by simp [Chain.rewrite]⟩
  | cons b bs ih =>
    intro c I w hg hd
    have hall : (c.write b).all = c.all ++ [b] := by simp [Chain.write, Chain.all, Chain.confirmed]
    have e : c.all ++ b :: bs = (c.all ++ [b]) ++ bs := by simp
    rw [e] at w
    have I' := I.write S w.left (hg b List.mem_cons_self) (hd b List.mem_cons_self)
    obtain ⟨h1, h2, h3⟩ := ih I' (by rw [hall]; exact w) (fun x hx => hg x (List.mem_cons_of_mem _ hx)) (fun x hx => hd x (List.mem_cons_of_mem _ hx))
    have er : c.rewrite (b :: bs) = (c.write b).rewrite bs := rfl
    rw [er]
    refine ⟨h1, h2, ?_⟩
    rw [h3]; simp [Chain.write]

theorem Inv.rollbackOnce (S : Sound U) (I : Inv U c) {n : Nat} (hn : 2 ≤ n) (hle : n ≤ c.chunks.length) (redo : Bool) :
    Inv U (c.rollbackOnce n redo) ∧ (c.rollbackOnce n redo).chunks = c.chunks.take (n - 1) ∧
    (c.rollbackOnce n redo).unconf = if redo then (c.chunks[n - 1]?.map (·.blocks)).getD [] else [] := by
  obtain ⟨ek, eg⟩ := filter_take (fun k : Chunk => k.snap.height) n c.chunks 1 I.heights
  have hsplit : c.chunks.take (n - 1) ++ c.chunks.drop (n - 1) = c.chunks := List.take_append_drop _ _
  set K := c.chunks.take (n - 1) with hK
  set G := c.chunks.drop (n - 1) with hG
  have hKc : K.flatMap (·.blocks) ++ G.flatMap (·.blocks) = c.confirmed := by
    rw [← List.flatMap_append, hsplit]; rfl
  have hall : c.all = K.flatMap (·.blocks) ++ (G.flatMap (·.blocks) ++ c.unconf) := by
    unfold Chain.all; rw [← hKc, List.append_assoc]
  have w := I.ledger
  rw [hall] at w
  have hdis : ∀ x ∈ K.flatMap (·.blocks), x ∉ G.flatMap (·.blocks) ++ c.unconf := by
    have nn := w.nodup
    rw [List.nodup_append] at nn
    exact fun x hx hx' => nn.2.2 x hx x hx' rfl
  have hGm : ∀ k ∈ G, k ∈ c.chunks ∧ n ≤ k.snap.height := by
    intro k hk
    rw [← eg, List.mem_filter] at hk
    simp only [decide_eq_true_eq, Nat.not_lt] at hk
    exact hk
  have hKm : ∀ k ∈ K, k ∈ c.chunks := fun k hk => List.mem_of_mem_take hk
  have hgen : ∀ d ∈ G.flatMap (·.blocks) ++ c.unconf, d.kind ≠ .genesis := by
    intro d hd hg
    rcases List.mem_append.mp hd with h | h
    · obtain ⟨k, hk, hd⟩ := List.mem_flatMap.mp h
      have := I.gen1 k (hGm k hk).1 d hd hg
      have := (hGm k hk).2
      omega
    · exact I.gen2 d h hg
  have hcf : ∀ k ∈ K, ∀ k' ∈ G, ∀ a m h h', (a, m, h) ∈ k.snap.content → (a, m, h') ∉ k'.snap.content := by
    intro k hk k' hk' a m h h' h1 h2
    obtain ⟨b, ⟨hb, e1, _⟩, e2, _⟩ := (I.content k (hKm k hk) a m h).mp h1
    obtain ⟨d, ⟨hd, e3, _⟩, e4, _⟩ := (I.content k' (hGm k' hk').1 a m h').mp h2
    have hbK : b ∈ K.flatMap (·.blocks) := List.mem_flatMap.mpr ⟨k, hk, hb⟩
    have hdG : d ∈ G.flatMap (·.blocks) ++ c.unconf := List.mem_append_left _ (List.mem_flatMap.mpr ⟨k', hk', hd⟩)
    have := w.place b (List.mem_append_left _ hbK) d (List.mem_append_right _ hdG) (e1.trans e3.symm) (e2.trans e4.symm)
    subst this
    exact hdis b hbK hdG
  have hdrop : ∀ t, Exact c.chunks c.all t → Exact K (K.flatMap (·.blocks)) (run (rollBatch G c.unconf) t) := by
    intro t E
    refine exact_drop S (L := c.all) ?_ I.ledger ?_ hgen ?_ ?_ hcf
    · rw [hsplit]; exact E
    · rw [hall]; exact List.sublist_append_right _ _
    · intro x
      rw [hall, List.mem_append]
      constructor
      · intro h; exact ⟨.inl h, hdis x h⟩
      · rintro ⟨h | h, h'⟩
        · exact h
        · exact absurd h h'
    · intro x hx d hd
      have o := w.order
      rw [List.pairwise_append] at o
      exact o.2.2 x hx d hd
  have hdiskall : Exact c.chunks c.all (run (c.pend.flatMap (·.2)) c.disk) := by
    have e : c.pend.flatMap (·.2) = c.unconf.flatMap insertBatch := by
      rw [I.pend, List.flatMap_map]
    rw [e]
    exact exact_inserts S c.unconf c.confirmed c.disk I.disk I.ledger (fun b hb => I.unconf_not hb)
  have hwd : ∀ x, x ∈ without c.ds (G.flatMap (·.blocks) ++ c.unconf) ↔ x ∈ c.ds ∧ x ∉ G.flatMap (·.blocks) ++ c.unconf := fun x =>
    mem_without (fun x hx y hy e => I.ledger.hash_inj S (I.ds2 x hx) (by rw [hall]; exact List.mem_append_right _ hy) e)
  -- the state before blocks are put back
  set c0 : Chain :=
    { chunks := K
      unconf := []
      ds := without c.ds (G.flatMap (·.blocks) ++ c.unconf)
      hot := c.hot.filter (fun x => x.1 ∉ (G.flatMap (·.blocks) ++ c.unconf).map (·.addr))
      mem := run (rollBatch G c.unconf) c.mem
      disk := run (rollBatch G c.unconf) (run (c.pend.flatMap (·.2)) c.disk)
      pend := []
      lru := Lattice.warm (rollBatch G c.unconf) c.lru
      made := forget (G.flatMap (·.blocks) ++ c.unconf) c.made } with hc0
  have ho : c.rollbackOnce n redo = c0.rewrite (if redo then (G.head?.map (·.blocks)).getD [] else []) := by
    unfold Chain.rollbackOnce
    rw [ek, eg]
  have hall0 : c0.all = K.flatMap (·.blocks) := by simp [hc0, Chain.all, Chain.confirmed]
  have hsub0 : ∀ x, x ∈ K.flatMap (·.blocks) → x ∈ c.all := by intro x hx; rw [hall]; exact List.mem_append_left _ hx
  have hlen : K.length = n - 1 := by rw [hK, List.length_take]; omega
  have I0 : Inv U c0 := by
    refine { ledger := by rw [hall0]; exact w.left, mem := by rw [hall0]; exact hdrop _ I.mem, disk := hdrop _ hdiskall,
             pm := proper_run _ I.pm, pd := proper_run _ (proper_run _ I.pd), pend := rfl, warm := warm_roll _ _ I.warm,
             ds1 := (by intro b hb; cases hb), ds2 := ?_, hot := ?_, heights := ?_, nonempty := ?_, content := fun k hk => I.content k (hKm k hk),
             gen1 := fun k hk => I.gen1 k (hKm k hk), gen2 := (by intro b hb; cases hb), dest := ?_, made := ?_ }
    · intro b hb
      have hb' := (hwd b).mp hb
      have := I.ds2 b hb'.1
      rw [hall, List.mem_append] at this
      rw [hall0]
      exact this.resolve_right hb'.2
    · intro a h hh
      have hh' : Table.get a (c.hot.filter (fun x => decide (x.1 ∉ (G.flatMap (·.blocks) ++ c.unconf).map (fun b => b.addr)))) = some h := hh
      obtain ⟨h1, h2⟩ := get_filter_key (fun k : Nat => decide (k ∉ (G.flatMap (·.blocks) ++ c.unconf).map (fun b => b.addr))) c.hot hh'
      simp only [decide_eq_true_eq] at h1
      obtain ⟨b, ⟨hb, ha, hl⟩, e⟩ := I.hot a h h2
      rw [hall0]
      refine ⟨b, ⟨?_, ha, fun x hx => hl x (hsub0 x hx)⟩, e⟩
      rw [hall, List.mem_append] at hb
      exact hb.resolve_right (fun hd => h1 (List.mem_map.mpr ⟨b, hd, ha⟩))
    · show K.map (·.snap.height) = List.range' 1 K.length
      have e1 : K.map (·.snap.height) = (c.chunks.map (·.snap.height)).take (n - 1) := by rw [hK, List.map_take]
      rw [e1, I.heights, hlen]
      apply List.ext_getElem
      · simp; omega
      · intro i h1 h2
        simp
    · intro e
      have : K.length = 0 := by
        have : K = [] := e
        rw [this]; rfl
      omega
    · intro b hb
      rw [hall0] at hb
      exact I.dest b (hsub0 b hb)
    · intro h s hh
      have hh' : Table.get h (c.made.filter (fun x => decide (x.1 ∉ hashes ((G.flatMap (·.blocks) ++ c.unconf).filter (fun b => b.kind = .create))))) = some s := hh
      obtain ⟨h1, h2⟩ := get_filter_key (fun k : Nat => decide (k ∉ hashes ((G.flatMap (·.blocks) ++ c.unconf).filter (fun b => b.kind = .create)))) c.made hh'
      simp only [decide_eq_true_eq] at h1
      obtain ⟨b, hb, e, ek', r⟩ := I.made h s h2
      have hnd : b ∉ G.flatMap (·.blocks) ++ c.unconf := by
        intro hd
        exact h1 (List.mem_map.mpr ⟨b, List.mem_filter.mpr ⟨hd, by simp [ek']⟩, e⟩)
      have hbK : b ∈ K.flatMap (·.blocks) := by
        rw [hall, List.mem_append] at hb
        exact hb.resolve_right hnd
      refine ⟨b, by rw [hall0]; exact hbK, e, ek', ?_⟩
      rcases r with ⟨r, _⟩ | ⟨k, hk, hbk, es⟩
      · exact absurd (List.mem_append_right _ r) hnd
      · right
        rw [← hsplit, List.mem_append] at hk
        rcases hk with hk | hk
        · exact ⟨k, hk, hbk, es⟩
        · exact absurd (List.mem_append_left _ (List.mem_flatMap.mpr ⟨k, hk, hbk⟩)) hnd
  rw [ho]
  cases redo with
  | false =>
    simp only [Bool.false_eq_true, if_false]
    exact ⟨I0, rfl, rfl⟩
  | true =>
    simp only [if_true]
    have eh : G.head? = c.chunks[n - 1]? := by rw [hG, List.head?_drop]
    have hlt : n - 1 < c.chunks.length := by omega
    have hget : c.chunks[n - 1]? = some c.chunks[n - 1] := List.getElem?_eq_getElem hlt
    have eG : G = c.chunks[n - 1] :: c.chunks.drop n := by
      rw [hG, List.drop_eq_getElem_cons hlt]
      congr 2
      omega
    set k := c.chunks[n - 1] with hk
    have eblocks : (G.head?.map (·.blocks)).getD [] = k.blocks := by rw [eG]; rfl
    have eblocks' : (c.chunks[n - 1]?.map (·.blocks)).getD [] = k.blocks := by rw [hget]; rfl
    rw [eblocks, eblocks']
    have hpre : Ledger U (c0.all ++ k.blocks) := by
      rw [hall0]
      have e : K.flatMap (·.blocks) ++ (G.flatMap (·.blocks) ++ c.unconf) =
          (K.flatMap (·.blocks) ++ k.blocks) ++ ((c.chunks.drop n).flatMap (·.blocks) ++ c.unconf) := by
        rw [eG, List.flatMap_cons]; simp
      rw [e] at w
      exact w.left
    have hkG : ∀ b ∈ k.blocks, b ∈ G.flatMap (·.blocks) := by
      intro b hb
      rw [eG, List.flatMap_cons]; exact List.mem_append_left _ hb
    obtain ⟨h1, h2, h3⟩ := I0.rewrite S k.blocks hpre (fun b hb => hgen b (List.mem_append_left _ (hkG b hb)))
      (fun b hb => I.dest b (by rw [hall]; exact List.mem_append_right _ (List.mem_append_left _ (hkG b hb))))
    exact ⟨h1, h2, by rw [h3]; rfl⟩

theorem Inv.rollbackFrom (S : Sound U) (redo : Nat → Bool) {n : Nat} (hn : 2 ≤ n) : ∀ (fuel : Nat) {c : Chain} (target : Nat), Inv U c →
    n < target → target ≤ c.chunks.length + 1 → target ≤ n + fuel →
    Inv U (c.rollbackFrom redo n fuel target) ∧ (c.rollbackFrom redo n fuel target).chunks = c.chunks.take (n - 1) ∧
    (c.rollbackFrom redo n fuel target).unconf = if redo n then (c.chunks[n - 1]?.map (·.blocks)).getD [] else [] := by
  intro fuel
  induction fuel with
  | zero => intro c target _ h1 _ h3; omega
  | succ fuel ih =>
    intro c target I h1 h2 h3
    unfold Chain.rollbackFrom
    rw [if_pos h1]
    dsimp only
    set next := if 120 < target then max (target - 120) n else n with hnext
    have b1 : n ≤ next ∧ next < target := by
      rw [hnext]; split <;> omega
    obtain ⟨i1, i2, i3⟩ := I.rollbackOnce S (n := next) (by omega) (by omega) (redo next)
    by_cases e : next = n
    · rw [e] at i1 i2 i3 ⊢
      have stop : (c.rollbackOnce n (redo n)).rollbackFrom redo n fuel n = c.rollbackOnce n (redo n) := by
        cases fuel with
        | zero => rfl
        | succ f => unfold Chain.rollbackFrom; rw [if_neg (by omega)]
      rw [stop]
      exact ⟨i1, i2, i3⟩
    · have hl : (c.rollbackOnce next (redo next)).chunks.length = next - 1 := by
        rw [i2, List.length_take]; omega
      obtain ⟨j1, j2, j3⟩ := ih next i1 (by omega) (by omega) (by omega)
      refine ⟨j1, ?_, ?_⟩
      · rw [j2, i2, List.take_take]
        congr 1; omega
      · rw [j3, i2, List.getElem?_take_of_lt (by omega)]

/-- A rollback keeps the snapshots below a height and perhaps the blocks of the first snapshot deleted. -/
theorem Inv.rollback (S : Sound U) (I : Inv U c) (redo : Nat → Bool) {n : Nat} {c' : Chain} (h : c.rollback redo n = some c') :
    Inv U c' ∧ 2 ≤ n ∧ n ≤ c.top ∧ c'.chunks = c.chunks.take (n - 1) ∧
    c'.unconf = if redo n then (c.chunks[n - 1]?.map (·.blocks)).getD [] else [] := by
  unfold Chain.rollback at h
  split at h
  · cases h
  · rename_i hc
    injection h with h
    have ht := I.top
    obtain ⟨h1, h2, h3⟩ := Inv.rollbackFrom S redo (n := n) (by omega) (c.top + 1) (c.top + 1) I (by omega) (by omega) (by omega)
    rw [← h]
    exact ⟨h1, by omega, by omega, h2, h3⟩

/-! ### Flush, restart, caches -/

theorem Inv.flushed (S : Sound U) (I : Inv U c) : Exact c.chunks c.all (run (c.pend.flatMap (·.2)) c.disk) := by
  have e : c.pend.flatMap (·.2) = c.unconf.flatMap insertBatch := by
    rw [I.pend, List.flatMap_map]
  rw [e]
  exact exact_inserts S c.unconf c.confirmed c.disk I.disk I.ledger (fun b hb => I.unconf_not hb)

theorem Inv.flush (S : Sound U) (I : Inv U c) : Inv U c.flush :=
  { I with
    mem := (show Exact c.chunks c.all (run (c.pend.flatMap (·.2)) c.disk) from Inv.flushed (c := c) S I)
    pm := proper_run _ I.pd
    warm := by
      intro k v h
      obtain ⟨h1, h2⟩ := I.warm k v h
      refine ⟨h1, ?_⟩
      have : Table.get k c.flush.mem = Table.get k c.mem := exact_get (I.flushed S) I.mem k
      rw [this, h2] }

theorem Inv.restart (I : Inv U c) : Inv U c.restart := by
  have hall : c.restart.all = c.confirmed := by simp [Chain.restart, Chain.all, Chain.confirmed]
  exact {
    ledger := by rw [hall]; exact I.ledger.left
    mem := by rw [hall]; exact I.disk
    disk := I.disk
    pm := I.pd
    pd := I.pd
    pend := rfl
    warm := (by intro k v h; cases h)
    ds1 := (by intro b h; cases h)
    ds2 := (by intro b h; cases h)
    hot := (by intro a h q; cases q)
    heights := I.heights
    nonempty := I.nonempty
    content := I.content
    gen1 := I.gen1
    gen2 := (by intro b h; cases h)
    dest := by intro b hb; rw [hall] at hb; exact I.dest b (mem_all.mpr (.inl hb))
    made := (by intro h s q; cases q) }

theorem Inv.touch (I : Inv U c) {k : Key} {v : Val} (hv : Table.get k c.mem = some v) (hk : k.cached = true) :
    Inv U { c with lru := Table.put k v c.lru } :=
  { I with
    warm := by
      intro k' v' h
      rw [Table.get_put] at h
      split at h
      · rename_i e
        injection h with h
        subst e h
        exact ⟨hk, hv⟩
      · exact I.warm k' v' h }

theorem Inv.evict (I : Inv U c) (k : Key) : Inv U { c with lru := erase k c.lru } :=
  { I with
    warm := by
      intro k' v' h
      rw [get_erase] at h
      split at h
      · cases h
      · exact I.warm k' v' h }

theorem Inv.expire (I : Inv U c) (h : Nat) : Inv U { c with ds := c.ds.filter (fun b => b.hash ≠ h ∨ b ∈ c.unconf) } :=
  { I with
    ds1 := by
      intro b hb
      exact List.mem_filter.mpr ⟨I.ds1 b hb, by simpa using .inr hb⟩
    ds2 := by intro b hb; exact I.ds2 b (List.mem_filter.mp hb).1 }

theorem Inv.forgetMade (I : Inv U c) (h : Nat) : Inv U { c with made := c.made.filter (fun x => x.1 ≠ h) } :=
  { I with
    made := by
      intro h' s q
      exact I.made h' s (get_filter_key (fun k : Nat => decide (k ≠ h)) c.made q).2 }

/-! ### The start -/

theorem contentOf_mem {L : List Blk} (hn : (L.map (·.addr)).Nodup) {a n h : Nat} :
    (a, n, h) ∈ contentOf L ↔ ∃ b ∈ L, b.addr = a ∧ b.height = n ∧ b.hash = h := by
  induction L with
  | nil => simp [contentOf]
  | cons b L ih =>
    rw [List.map_cons, List.nodup_cons] at hn
    have : L.any (fun x => x.addr = b.addr) = false := by
      rw [List.any_eq_false]
      intro x hx
      simp only [decide_eq_true_eq]
      intro e
      exact hn.1 (List.mem_map.mpr ⟨x, hx, e⟩)
    unfold contentOf
    rw [this]
    simp only [Bool.false_eq_true, if_false, List.mem_cons, Prod.mk.injEq, ih hn.2]
    constructor
    · rintro (⟨rfl, rfl, rfl⟩ | ⟨x, hx, r⟩)
      · exact ⟨b, .inl rfl, rfl, rfl, rfl⟩
      · exact ⟨x, .inr hx, r⟩
    · rintro ⟨x, rfl | hx, r⟩
      · exact .inl ⟨r.1.symm, r.2.1.symm, r.2.2.symm⟩
      · exact .inr ⟨x, hx, r⟩

theorem Inv.start (S : Sound U) {bs : List Blk} (h : Start U bs) : Inv U (genesis bs) := by
  have hall : (genesis bs).all = bs := by simp [genesis, Chain.all, Chain.confirmed]
  have hconf : (genesis bs).confirmed = bs := by simp [genesis, Chain.confirmed]
  have hnt : ∀ b ∈ bs, ∀ x, b.takes x = false := by
    intro b hb x; simp [Blk.takes, (h.kind b hb).1]
  have huniq : ∀ x ∈ bs, ∀ y ∈ bs, x.addr = y.addr → x = y := fun x hx y hy e => List.inj_on_of_nodup_map h.accounts hx hy e
  have hns : ∀ b ∈ bs, b.isRecv = true := by intro b hb; simp [Blk.isRecv, Blk.isSend, (h.kind b hb).1]
  have hno : ∀ b ∈ bs, b.outs = [] := by
    intro b hb; rw [outs_recv (hns b hb), (h.kind b hb).2.2.2.1]
  have hnd : bs.Nodup := List.Nodup.of_map _ h.accounts
  have hL : Ledger U bs := by
    constructor
    · exact h.known
    · refine List.Pairwise.imp_of_mem (R := (· ≠ ·)) (fun {x y} hx hy _ => ?_) hnd
      rintro (⟨e, hlt⟩ | ⟨s, hs, _⟩)
      · have := (h.kind x hx).2.1; have := (h.kind y hy).2.1; omega
      · rw [hno y hy] at hs; cases hs
    · exact hnd
    · intro x hx y hy e _; exact huniq x hx y hy e
    · intro b hb; exact .inl ⟨(h.kind b hb).2.1, (h.kind b hb).2.2.1⟩
    · intro b hb x ht; rw [hnt b hb] at ht; cases ht
    · intro b hb s hs; exact hnt b hb _
    · intro x hx y hy z ht; rw [hnt x hx] at ht; cases ht
  have hE0 : Exact [] [] [] := by
    intro k v
    constructor
    · intro q; cases q
    · intro q
      cases k with
      | hash h => rw [wants_hash] at q; obtain ⟨_, hb, _⟩ := q; cases hb
      | height a n => rw [wants_height] at q; obtain ⟨_, hb, _⟩ := q; cases hb
      | recv h =>
        rw [wants_recv] at q
        rcases q with ⟨_, hb, _⟩ | ⟨_, ⟨_, hb, _⟩, _⟩ <;> cases hb
      | road a h => rw [wants_road] at q; obtain ⟨_, ⟨_, hb, _⟩, _⟩ := q; cases hb
      | conf a n => rw [wants_conf] at q; obtain ⟨_, hb, _⟩ := q; cases hb
  have hE : Exact [⟨⟨1, contentOf bs⟩, bs⟩] bs (run (snapBatch ⟨1, contentOf bs⟩ bs) (run (bs.flatMap insertBatch) [])) := by
    have h1 := exact_inserts S bs [] [] hE0 (by simpa using hL) (by intro b _ q; cases q)
    rw [List.nil_append] at h1
    exact exact_snap (K := []) h1 hL (fun b hb => hb) (by intro _ _ _ _ k hk; cases hk)
  have hP : Table.Proper (run (snapBatch ⟨1, contentOf bs⟩ bs) (run (bs.flatMap insertBatch) [])) :=
    proper_run _ (proper_run _ (by simp [Table.Proper]))
  refine { ledger := by rw [hall]; exact hL, mem := by rw [hall]; exact hE, disk := by rw [hconf]; exact hE, pm := hP, pd := hP, pend := rfl,
           warm := (by intro k v q; cases q), ds1 := (by intro b q; cases q), ds2 := (by intro b q; cases q), hot := (by intro a x q; cases q),
           heights := rfl, nonempty := by simp [genesis], content := ?_, gen1 := ?_, gen2 := (by intro b q; cases q), dest := ?_,
           made := (by intro x s q; cases q) }
  · intro k hk a n x
    have : k = ⟨⟨1, contentOf bs⟩, bs⟩ := by simpa [genesis] using hk
    subst this
    rw [contentOf_mem h.accounts]
    constructor
    · rintro ⟨b, hb, e1, e2, e3⟩
      refine ⟨b, ⟨hb, e1, ?_⟩, e2, e3⟩
      intro y hy ey
      rw [huniq y hy b hb (ey.trans e1.symm)]
    · rintro ⟨b, ⟨hb, e1, _⟩, e2, e3⟩
      exact ⟨b, hb, e1, e2, e3⟩
  · intro k hk b _ _
    have : k = ⟨⟨1, contentOf bs⟩, bs⟩ := by simpa [genesis] using hk
    subst this; rfl
  · intro b hb _
    rw [hall] at hb
    exact (h.kind b hb).2.2.2.2

/-! ### All states -/

theorem Inv.snapshot (S : Sound U) (I : Inv U c) {s : Snap} {e : Bool} {bad : Blk → Bool} (hcl : Closed c s.content) :
    ∃ c', c.snapshot s e bad = some c' ∧ Inv U c' := by
  unfold Chain.snapshot
  by_cases ok : c.snapOk s = true
  · rw [if_pos ok]
    cases hb : toBeConfirmed s.content c.unconf with
    | none => exact ⟨c, rfl, I⟩
    | some bs =>
      obtain ⟨_, c1, h1, I1, _⟩ := I.confirmed S ok hcl hb
      obtain ⟨h3, _⟩ := I1.dropped S e bad
      simp only [h1, Option.map_some]
      exact ⟨_, rfl, h3⟩
  · rw [if_neg ok]; exact ⟨c, rfl, I⟩

theorem Inv.deleteHash (S : Sound U) (I : Inv U c) (h : Nat) : Inv U ((c.deleteHash h).getD c) := by
  unfold Chain.deleteHash
  split
  · exact I
  · rename_i b bs q
    obtain ⟨P, e, _⟩ := dropWhile_split q
    exact (I.deletion S e).1

theorem Inv.deleteHeight (S : Sound U) (I : Inv U c) (a n : Nat) : Inv U ((c.deleteHeight a n).getD c) := by
  unfold Chain.deleteHeight
  split
  · exact I
  · rename_i b bs q
    obtain ⟨P, e, _⟩ := dropWhile_split q
    exact (I.deletion S e).1

theorem Inv.step (S : Sound U) {g : Cfg} (I : Inv U c) {o : Op} (ho : Allowed U c o) : ∃ c', Lattice.step g c o = some c' ∧ Inv U c' := by
  cases o with
  | insert b => exact ⟨_, rfl, I.insert S ho⟩
  | snapshot s e bad => exact I.snapshot S ho
  | deleteHash h => exact ⟨_, rfl, I.deleteHash S h⟩
  | deleteHeight a n => exact ⟨_, rfl, I.deleteHeight S a n⟩
  | rollback redo n =>
    refine ⟨_, rfl, ?_⟩
    cases q : c.rollback redo n with
    | none => exact I
    | some c' => exact (I.rollback S redo q).1
  | flush => exact ⟨_, rfl, I.flush S⟩
  | restart => exact ⟨_, rfl, I.restart⟩
  | touch k =>
    cases q : Table.get k c.mem with
    | none => exact ⟨c, by simp only [Lattice.step, q], I⟩
    | some v =>
      by_cases hk : k.cached = true
      · exact ⟨{ c with lru := Table.put k v c.lru }, by simp only [Lattice.step, q, hk, if_true], I.touch q hk⟩
      · exact ⟨c, by simp only [Lattice.step, q, hk, Bool.false_eq_true, if_false], I⟩
  | evict k => exact ⟨_, rfl, I.evict k⟩
  | expire h => exact ⟨_, rfl, I.expire h⟩
  | forgetMade h => exact ⟨_, rfl, I.forgetMade h⟩

theorem Reach.inv (S : Sound U) {g : Cfg} (h : Reach g U c) : Inv U c := by
  induction h with
  | start h => exact Inv.start S h
  | step _ ho hs ih =>
    obtain ⟨c', e, I⟩ := ih.step S (g := g) ho
    rw [e] at hs
    injection hs with hs
    rw [← hs]; exact I

end Verif.Lattice
