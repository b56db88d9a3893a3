import Verif.Road.RoadPool

/-!
The front of a caller, the pool after a start, and the order of receives.
-/

namespace Verif.Road

open Verif.Lattice

variable {U : Blk → Prop} {g : Cfg} {c : Chain} {p : Pool}

theorem first_mem {a x : Nat} {t : RKey × Option Nat} : t ∈ p.first a x ↔
    (t ∈ p.txs ∧ t.1.dest = a ∧ t.1.caller = x) ∧ ∀ u ∈ p.txs, u.1.dest = a → u.1.caller = x → t.1.height ≤ u.1.height := by
  unfold Pool.first
  simp only [List.mem_filter, Bool.and_eq_true, decide_eq_true_eq, List.all_eq_true, and_imp]

theorem exists_min_height : ∀ l : List (RKey × Option Nat), l ≠ [] → ∃ t ∈ l, ∀ u ∈ l, t.1.height ≤ u.1.height := by
  intro l
  induction l with
  | nil => intro h; exact absurd rfl h
  | cons x l ih =>
    intro _
    by_cases hl : l = []
    · exact ⟨x, List.mem_cons_self, by intro u hu; rw [hl, List.mem_singleton] at hu; rw [hu]⟩
    · obtain ⟨t, ht, hmin⟩ := ih hl
      by_cases hle : x.1.height ≤ t.1.height
      · refine ⟨x, List.mem_cons_self, ?_⟩
        intro u hu
        rcases List.mem_cons.mp hu with rfl | hu
        · exact Nat.le_refl _
        · exact Nat.le_trans hle (hmin u hu)
      · refine ⟨t, List.mem_cons_of_mem _ ht, ?_⟩
        intro u hu
        rcases List.mem_cons.mp hu with rfl | hu
        · omega
        · exact hmin u hu

/-- Entries with their indexes filled in. -/
structure Filled (L : List Blk) (F l : List (RKey × Option Nat)) : Prop where
  back : ∀ t ∈ l, ∃ v i, (t.1, v) ∈ F ∧ t.2 = some i ∧ Waiting L t.1.dest t.1.caller t.1.height i t.1.hash
  full : ∀ t ∈ F, ∃ i, (t.1, some i) ∈ l

theorem minTx_ok {l : List (RKey × Option Nat)} : (∀ m, minTx l = some m → m ∈ l ∧ ∀ t ∈ l, m.2.getD 0 ≤ t.2.getD 0) ∧ (minTx l = none → l = []) := by
  have key : ∀ (ts : List (RKey × Option Nat)) (t : RKey × Option Nat),
      let m := ts.foldl (fun m s => if s.2.getD 0 < m.2.getD 0 then s else m) t
      (m = t ∨ m ∈ ts) ∧ m.2.getD 0 ≤ t.2.getD 0 ∧ ∀ s ∈ ts, m.2.getD 0 ≤ s.2.getD 0 := by
    intro ts
    induction ts with
    | nil => intro t; simp
    | cons s ts ih =>
      intro t
      simp only [List.foldl_cons]
      split
      · rename_i h
        obtain ⟨h1, h2, h3⟩ := ih s
        refine ⟨?_, by omega, ?_⟩
        · rcases h1 with h1 | h1
          · right; rw [h1]; exact List.mem_cons_self
          · right; exact List.mem_cons_of_mem _ h1
        · intro s' hs'
          rcases List.mem_cons.mp hs' with rfl | hs'
          · exact h2
          · exact h3 s' hs'
      · rename_i h
        obtain ⟨h1, h2, h3⟩ := ih t
        refine ⟨?_, h2, ?_⟩
        · rcases h1 with h1 | h1
          · left; exact h1
          · right; exact List.mem_cons_of_mem _ h1
        · intro s' hs'
          rcases List.mem_cons.mp hs' with rfl | hs'
          · omega
          · exact h3 s' hs'
  cases l with
  | nil => exact ⟨fun m h => by simp [minTx] at h, fun _ => rfl⟩
  | cons t ts =>
    refine ⟨?_, fun h => by simp [minTx] at h⟩
    intro m hm
    simp only [minTx, Option.some.injEq] at hm
    obtain ⟨h1, h2, h3⟩ := key ts t
    rw [hm] at h1 h2 h3
    refine ⟨?_, ?_⟩
    · rcases h1 with h1 | h1
      · rw [h1]; exact List.mem_cons_self
      · exact List.mem_cons_of_mem _ h1
    · intro s hs
      rcases List.mem_cons.mp hs with rfl | hs
      · exact h2
      · exact h3 s hs

/-- The sends of a contract are in its send lists. -/
theorem Shaped.recv {L : List Blk} (sh : Shaped g L) {d : Blk} (hd : d ∈ L) (hc : g.contract d.addr = true) : d.isRecv = true := by
  cases h : d.isSend with
  | true => rw [(sh d hd).1 h] at hc; cases hc
  | false => simp [Blk.isRecv, h]

theorem resolve_ok (S : Sound U) (I : Inv U c) (sh : Shaped g c.all) (P : PoolOk g c.all p) (a x : Nat) :
    ∃ l, resolve g c (p.first a x) = some l ∧ Filled c.all (p.first a x) l := by
  have w := I.ledger
  have hF : ∀ t ∈ p.first a x, Table.get t.1 p.txs = some t.2 := by
    intro t ht
    exact Table.mem_get P.proper (first_mem.mp ht).1.1
  unfold resolve
  cases q : (p.first a x).find? (fun t => t.2.isNone) with
  | none =>
    refine ⟨_, rfl, ?_, ?_⟩
    · intro t ht
      obtain ⟨_, i, hw, hi⟩ := P.right t.1 t.2 (hF t ht)
      refine ⟨t.2, i, ht, ?_, hw⟩
      rcases hi with hi | ⟨hi, _⟩
      · exact hi
      · have := List.find?_eq_none.mp q t ht
        rw [hi] at this; simp at this
    · intro t ht
      obtain ⟨_, i, hw, hi⟩ := P.right t.1 t.2 (hF t ht)
      refine ⟨i, ?_⟩
      rcases hi with hi | ⟨hi, _⟩
      · rw [← hi]; exact ht
      · have := List.find?_eq_none.mp q t ht
        rw [hi] at this; simp at this
  | some t0 =>
    have ht0 := List.mem_of_find?_eq_some q
    have hd0 := List.find?_some q
    obtain ⟨⟨hm0, ha0, hx0⟩, hmin0⟩ := first_mem.mp ht0
    obtain ⟨_, i0, ⟨⟨d, hd, r1, r2, r3⟩, _⟩, hi0⟩ := P.right t0.1 t0.2 (hF t0 ht0)
    have hcx : g.contract d.addr = true := by
      rcases hi0 with hi0 | ⟨_, h⟩
      · rw [hi0] at hd0; simp at hd0
      · rw [r1]; exact h
    have hrecv := sh.recv hd hcx
    have hcomp : c.complete t0.1.hash = some d := (I.complete S).mpr ⟨hd, outs_ids (List.mem_of_getElem? r3)⟩
    simp only [hcomp, hcx, if_true]
    -- every entry belongs to the same block
    have hfill : ∀ t ∈ p.first a x, ∃ i, fill d t = (t.1, some i) ∧ Waiting c.all t.1.dest t.1.caller t.1.height i t.1.hash := by
      intro t ht
      obtain ⟨⟨hm, ha, hx⟩, hmin⟩ := first_mem.mp ht
      obtain ⟨_, i, hw, hi⟩ := P.right t.1 t.2 (hF t ht)
      refine ⟨i, ?_, hw⟩
      obtain ⟨⟨d', hd', r1', r2', r3'⟩, _⟩ := hw
      have : d' = d := by
        apply w.place d' hd' d hd
        · rw [r1', r1, hx, hx0]
        · have h1 := hmin0 t hm ha hx
          have h2 := hmin t0 hm0 ha0 hx0
          omega
      subst this
      unfold fill
      rcases hi with hi | ⟨hi, _⟩
      · rw [hi]; rfl
      · rw [hi, Option.none_or]
        rw [outs_recv hrecv] at r3'
        rw [show (fun e : Snd => decide (e.hash = t.1.hash)) = (fun e => decide (e.hash = (⟨t.1.hash, t.1.dest⟩ : Snd).hash)) from rfl,
          findIdx_nodup (sends_nodup S (w.known d' hd')) r3']
    have hall : ((p.first a x).map (fill d)).all (fun t => t.2.isSome) = true := by
      rw [List.all_eq_true]
      intro t ht
      obtain ⟨t', ht', rfl⟩ := List.mem_map.mp ht
      obtain ⟨i, e, _⟩ := hfill t' ht'
      rw [e]; rfl
    rw [if_pos hall]
    refine ⟨_, rfl, ?_, ?_⟩
    · intro t ht
      obtain ⟨t', ht', rfl⟩ := List.mem_map.mp ht
      obtain ⟨i, e, hw⟩ := hfill t' ht'
      rw [e]
      exact ⟨t'.2, i, ht', rfl, hw⟩
    · intro t ht
      obtain ⟨i, e, hw⟩ := hfill t ht
      exact ⟨i, List.mem_map.mpr ⟨t, ht, e⟩⟩

theorem front_unique (S : Sound U) {L : List Blk} (w : Ledger U L) {a x n i h n' i' h' : Nat} (h1 : Front L a x n i h) (h2 : Front L a x n' i' h') :
    n = n' ∧ i = i' ∧ h = h' := by
  have o1 := h1.2 n' i' h' h2.1
  have o2 := h2.2 n i h h1.1
  have en : n = n' := by omega
  have ei : i = i' := by omega
  refine ⟨en, ei, ?_⟩
  subst en; subst ei
  obtain ⟨⟨d, hd, r1, r2, r3⟩, _⟩ := h1.1
  obtain ⟨⟨d', hd', r1', r2', r3'⟩, _⟩ := h2.1
  have := w.place d hd d' hd' (r1.trans r1'.symm) (r2.trans r2'.symm)
  subst this
  rw [r3] at r3'
  injection r3' with e
  injection e

theorem front_ok (S : Sound U) (I : Inv U c) (sh : Shaped g c.all) (P : PoolOk g c.all p) (a x : Nat) (k : RKey) :
    front g c p a x = some k ↔ k.dest = a ∧ k.caller = x ∧ g.contract a = true ∧ ∃ i, Front c.all a x k.height i k.hash := by
  obtain ⟨l, hl, hF⟩ := resolve_ok S I sh P a x
  have hF1 : ∀ t ∈ p.first a x, Table.get t.1 p.txs = some t.2 := fun t ht => Table.mem_get P.proper (first_mem.mp ht).1.1
  have fwd : ∀ k, front g c p a x = some k → k.dest = a ∧ k.caller = x ∧ g.contract a = true ∧ ∃ i, Front c.all a x k.height i k.hash := by
    intro k hk
    unfold front at hk
    rw [hl] at hk
    simp only [Option.bind_some, Option.map_eq_some_iff] at hk
    obtain ⟨m, hm, rfl⟩ := hk
    obtain ⟨hml, hmin⟩ := (minTx_ok (l := l)).1 m hm
    obtain ⟨v, i, hv, hi, hw⟩ := hF.back m hml
    obtain ⟨⟨hmt, hda, hcx⟩, hlow⟩ := first_mem.mp hv
    refine ⟨hda, hcx, ?_, i, ?_, ?_⟩
    · have := (P.right _ _ (Table.mem_get P.proper hmt)).1
      rw [← hda]; exact this
    · rw [← hda, ← hcx]; exact hw
    · intro n j h hw'
      have hca : g.contract a = true := by rw [← hda]; exact (P.right _ _ (Table.mem_get P.proper hmt)).1
      obtain ⟨v', hv'⟩ := P.full a x n j h hca hw'
      have hmem := Table.get_mem hv'
      have hle := hlow _ hmem rfl rfl
      simp only at hle
      rcases Nat.lt_or_eq_of_le hle with h1 | h1
      · exact .inl h1
      · refine .inr ⟨h1, ?_⟩
        have hfirst : ((⟨a, x, n, h⟩ : RKey), v') ∈ p.first a x := by
          refine first_mem.mpr ⟨⟨hmem, rfl, rfl⟩, ?_⟩
          intro u hu hua hux
          have := hlow u hu hua hux
          simp only at this ⊢
          omega
        obtain ⟨j', hj'⟩ := hF.full _ hfirst
        have hle' := hmin _ hj'
        rw [hi] at hle'
        obtain ⟨_, j2, _, hj2, hw2⟩ := hF.back _ hj'
        simp only [Option.some.injEq] at hj2
        have := (sent_unique S I.ledger hw2.1 hw'.1).2.2.2
        subst hj2; subst this
        simpa using hle'
  constructor
  · exact fwd k
  · rintro ⟨hda, hcx, hca, i, hf⟩
    have hne : ∃ k', front g c p a x = some k' := by
      unfold front
      rw [hl]
      simp only [Option.bind_some]
      cases q : minTx l with
      | some m => exact ⟨m.1, rfl⟩
      | none =>
        exfalso
        have hnil := (minTx_ok (l := l)).2 q
        obtain ⟨v, hv⟩ := P.full a x _ i _ hca hf.1
        have hfirst : ((⟨a, x, k.height, k.hash⟩ : RKey), v) ∈ p.first a x := by
          refine first_mem.mpr ⟨⟨Table.get_mem hv, rfl, rfl⟩, ?_⟩
          intro u hu hua hux
          obtain ⟨_, j, hw, _⟩ := P.right u.1 u.2 (Table.mem_get P.proper hu)
          rw [hua, hux] at hw
          have := hf.2 _ _ _ hw
          simp only
          omega
        obtain ⟨j, hj⟩ := hF.full _ hfirst
        rw [hnil] at hj; cases hj
    obtain ⟨k', hk'⟩ := hne
    obtain ⟨h1, h2, _, i', hf'⟩ := fwd k' hk'
    obtain ⟨e1, _, e2⟩ := front_unique S I.ledger hf hf'
    rw [hk']
    have : k' = k := by
      cases k; cases k'
      simp only at *
      subst h1; subst h2; subst hda; subst hcx; subst e1; subst e2; rfl
    rw [this]

theorem isFront_ok (S : Sound U) (I : Inv U c) (sh : Shaped g c.all) (P : PoolOk g c.all p) (a x h : Nat) :
    isFront g c p a x h = true ↔ g.contract a = true ∧ ∃ n i, Front c.all a x n i h := by
  unfold isFront
  simp only [Bool.and_eq_true, decide_eq_true_eq, Option.any_eq_true]
  constructor
  · rintro ⟨_, k, hk, rfl⟩
    obtain ⟨_, _, hc, i, hf⟩ := (front_ok S I sh P a x k).mp hk
    exact ⟨hc, _, i, hf⟩
  · rintro ⟨hc, n, i, hf⟩
    obtain ⟨v, hv⟩ := P.full a x n i h hc hf.1
    exact ⟨P.known _ v hv, ⟨a, x, n, h⟩, (front_ok S I sh P a x _).mpr ⟨rfl, rfl, hc, i, hf⟩, rfl⟩

/-! ### A look at the front -/

theorem puts_ok : ∀ (l : List (RKey × Option Nat)) (t : Table RKey (Option Nat)), Table.Proper t →
    let t' := l.foldl (fun t e => Table.put e.1 e.2 t) t
    Table.Proper t' ∧ (∀ k v, Table.get k t' = some v → (k, v) ∈ l ∨ Table.get k t = some v) ∧
      (∀ k v, Table.get k t = some v → ∃ v', Table.get k t' = some v') := by
  intro l
  induction l with
  | nil => intro t hp; exact ⟨hp, fun k v h => .inr h, fun k v h => ⟨v, h⟩⟩
  | cons e l ih =>
    intro t hp
    obtain ⟨i1, i2, i3⟩ := ih (Table.put e.1 e.2 t) (Table.proper_put _ _ hp)
    refine ⟨i1, ?_, ?_⟩
    · intro k v h
      rcases i2 k v h with h | h
      · exact .inl (List.mem_cons_of_mem _ h)
      · rw [Table.get_put] at h
        split at h
        · rename_i hk
          injection h with h'
          rw [hk, ← h']
          exact .inl List.mem_cons_self
        · exact .inr h
    · intro k v h
      by_cases hk : k = e.1
      · exact i3 k e.2 (by rw [hk]; exact Table.get_put_self _ _ _)
      · exact i3 k v (by rw [Table.get_put_ne hk]; exact h)

theorem PoolOk.look (S : Sound U) (I : Inv U c) (sh : Shaped g c.all) (P : PoolOk g c.all p) (a x : Nat) : PoolOk g c.all (p.look g c a x) := by
  obtain ⟨l, hl, hF⟩ := resolve_ok S I sh P a x
  unfold Pool.look
  rw [hl]
  obtain ⟨h1, h2, h3⟩ := puts_ok l p.txs P.proper
  have hback : ∀ k v, (k, v) ∈ l → ∃ v', Table.get k p.txs = some v' := by
    intro k v h
    obtain ⟨v', i, hv, _⟩ := hF.back _ h
    exact ⟨v', Table.mem_get P.proper (first_mem.mp hv).1.1⟩
  refine ⟨h1, ?_, ?_, ?_⟩
  · intro k v hv
    rcases h2 k v hv with hv | hv
    · obtain ⟨v', i, hv', hi, hw⟩ := hF.back _ hv
      exact ⟨(P.right k v' (Table.mem_get P.proper (first_mem.mp hv').1.1)).1, i, hw, .inl hi⟩
    · exact P.right k v hv
  · intro a' x' n i h hc hw
    obtain ⟨v, hv⟩ := P.full a' x' n i h hc hw
    exact h3 _ v hv
  · intro k v hv
    rcases h2 k v hv with hv | hv
    · obtain ⟨v', hv'⟩ := hback k v hv
      exact P.known k v' hv'
    · exact P.known k v hv

/-! ### Start -/

/-- What a key of the index contributes to the pool. -/
def loaded (g : Cfg) (c : Chain) (e : Key × Val) : Option (RKey × Option Nat) :=
  match e.1 with
  | .road a h =>
    if g.contract a then
      (match c.value (.hash h) with
       | some (.at x n) => some (⟨a, x, n, h⟩, if g.contract x then none else some 0)
       | _ => none)
    else none
  | _ => none

theorem load_eq (g : Cfg) (c : Chain) : load g c = (c.mem.filterMap (loaded g c)).foldl (fun p e => p.add e.1 e.2) ⟨[], [], []⟩ := by
  unfold load
  generalize (⟨[], [], []⟩ : Pool) = p0
  generalize c.mem = t
  induction t generalizing p0 with
  | nil => rfl
  | cons e t ih =>
    rw [List.foldl_cons, ih, List.filterMap_cons]
    obtain ⟨k, v⟩ := e
    cases k with
    | road a h =>
      simp only [loaded]
      by_cases hc : g.contract a = true
      · simp only [hc, if_true]
        cases c.value (.hash h) with
        | none => rfl
        | some v => cases v <;> rfl
      · simp only [hc, if_false]; rfl
    | hash h => rfl
    | height a n => rfl
    | recv h => rfl
    | conf a n => rfl

/-- The callers of everything in the pool are known. -/
def Callers (p : Pool) : Prop := ∀ k v, Table.get k p.txs = some v → k.caller ∈ p.callers

theorem adds_ok : ∀ (l : List (RKey × Option Nat)) (p : Pool), Table.Proper p.txs → Callers p → (∀ k v, Table.get k p.txs = some v → k.dest ∈ p.known) →
    let p' := l.foldl (fun p e => p.add e.1 e.2) p
    Table.Proper p'.txs ∧ Callers p' ∧ (∀ k v, Table.get k p'.txs = some v → k.dest ∈ p'.known) ∧
      (∀ k v, Table.get k p'.txs = some v → (k, v) ∈ l ∨ Table.get k p.txs = some v) ∧
      (∀ k, ((∃ v, (k, v) ∈ l) ∨ ∃ v, Table.get k p.txs = some v) → ∃ v', Table.get k p'.txs = some v') := by
  intro l
  induction l with
  | nil => intro p h1 h2 h3; exact ⟨h1, h2, h3, fun k v h => .inr h, fun k h => by rcases h with ⟨v, h⟩ | h; cases h; exact h⟩
  | cons e l ih =>
    intro p h1 h2 h3
    have hg : ∀ k v, Table.get k (p.add e.1 e.2).txs = some v → (k = e.1 ∧ v = e.2) ∨ Table.get k p.txs = some v := by
      intro k v h
      unfold Pool.add at h
      simp only [Table.get_put] at h
      split at h
      · rename_i hk; injection h with h; exact .inl ⟨hk, h.symm⟩
      · exact .inr h
    have hcl : ∀ x ∈ p.callers, x ∈ (p.add e.1 e.2).callers := by
      intro x hx; unfold Pool.add; dsimp only; split <;> simp [hx]
    have hcl' : e.1.caller ∈ (p.add e.1 e.2).callers := by
      unfold Pool.add; dsimp only; split
      · assumption
      · simp
    have hkn : ∀ x ∈ p.known, x ∈ (p.add e.1 e.2).known := by
      intro x hx; unfold Pool.add; dsimp only; split <;> simp [hx]
    have hkn' : e.1.dest ∈ (p.add e.1 e.2).known := by
      unfold Pool.add; dsimp only; split
      · assumption
      · simp
    obtain ⟨i1, i2, i3, i4, i5⟩ := ih (p.add e.1 e.2) (Table.proper_put _ _ h1)
      (fun k v h => by
        rcases hg k v h with ⟨rfl, _⟩ | h
        · exact hcl'
        · exact hcl _ (h2 k v h))
      (fun k v h => by
        rcases hg k v h with ⟨rfl, _⟩ | h
        · exact hkn'
        · exact hkn _ (h3 k v h))
    refine ⟨i1, i2, i3, ?_, ?_⟩
    · intro k v h
      rcases i4 k v h with h | h
      · exact .inl (List.mem_cons_of_mem _ h)
      · rcases hg k v h with ⟨rfl, rfl⟩ | h
        · exact .inl List.mem_cons_self
        · exact .inr h
    · intro k h
      apply i5 k
      by_cases hk : k = e.1
      · exact .inr ⟨e.2, by rw [hk]; exact Table.get_put_self _ _ _⟩
      · rcases h with ⟨v, h⟩ | ⟨v, h⟩
        · rcases List.mem_cons.mp h with h | h
          · exact absurd (congrArg Prod.fst h) hk
          · exact .inl ⟨v, h⟩
        · exact .inr ⟨v, by
            show Table.get k (Table.put e.1 e.2 p.txs) = some v
            rw [Table.get_put_ne hk]; exact h⟩

theorem load_ok (S : Sound U) (I : Inv U c) (sh : Shaped g c.all) : PoolOk g c.all (load g c) ∧ Callers (load g c) := by
  have w := I.ledger
  obtain ⟨h1, h2, h3, h4, h5⟩ := adds_ok (c.mem.filterMap (loaded g c)) ⟨[], [], []⟩ (by simp [Table.Proper]) (by
    intro k v h; simp [Table.get] at h) (by intro k v h; simp [Table.get] at h)
  rw [← load_eq] at h1 h2 h3 h4 h5
  have hval : ∀ d ∈ c.all, ∀ s ∈ d.outs, c.value (.hash s.hash) = some (.at d.addr d.height) := by
    intro d hd s hs
    rw [I.value]
    exact (I.mem _ _).mpr (wants_hash.mpr ⟨d, hd, outs_ids hs, rfl⟩)
  refine ⟨⟨h1, ?_, ?_, h3⟩, h2⟩
  · intro k v hv
    rcases h4 k v hv with hv | hv
    · obtain ⟨⟨key, val⟩, hm, he⟩ := List.mem_filterMap.mp hv
      unfold loaded at he
      cases key with
      | road a h =>
        dsimp only at he
        split at he
        · rename_i hc
          have hgm := Table.mem_get I.pm hm
          have hw := (I.mem _ _).mp hgm
          cases val with
          | flag =>
            obtain ⟨⟨d, hd, s, hs, e1, e2⟩, hnot⟩ := hw
            subst e1; subst e2
            rw [hval d hd s hs] at he
            simp only [Option.some.injEq, Prod.mk.injEq] at he
            obtain ⟨he1, he2⟩ := he
            obtain ⟨i, hi⟩ := List.getElem?_of_mem hs
            subst he1
            refine ⟨hc, i, ⟨⟨d, hd, rfl, rfl, hi⟩, hnot⟩, ?_⟩
            cases hcd : g.contract d.addr with
            | true => rw [hcd] at he2; exact .inr ⟨he2.symm, rfl⟩
            | false =>
              rw [hcd] at he2
              have hsend : d.isSend = true := by
                cases hsd : d.isSend with
                | true => rfl
                | false =>
                  have hr : d.isRecv = true := by simp [Blk.isRecv, hsd]
                  rw [outs_recv hr] at hs
                  rw [(sh d hd).2.1 hr (List.ne_nil_of_mem hs)] at hcd; cases hcd
              rw [outs_send S (w.known d hd) hsend] at hi
              have hi0 : i = 0 := by
                have := (List.getElem?_eq_some_iff.mp hi).1
                simp at this; exact this
              left; rw [hi0]; exact he2.symm
          | «at» a n => exact hw.elim
          | place h k => exact hw.elim
          | «by» h => exact hw.elim
          | num n => exact hw.elim
        · cases he
      | hash h => cases he
      | height a n => cases he
      | recv h => cases he
      | conf a n => cases he
    · simp [Table.get] at hv
  · intro a x n i h hc hw
    apply h5
    left
    obtain ⟨⟨d, hd, r1, r2, r3⟩, hnot⟩ := hw
    have hs := List.mem_of_getElem? r3
    have hm : Table.get (.road a h) c.mem = some .flag := (I.mem _ _).mpr ⟨⟨d, hd, _, hs, rfl, rfl⟩, hnot⟩
    refine ⟨if g.contract x then none else some 0, List.mem_filterMap.mpr ⟨(.road a h, .flag), Table.get_mem hm, ?_⟩⟩
    unfold loaded
    dsimp only
    rw [if_pos hc, hval d hd _ hs]
    simp only [r1, r2]

/-! ### The order of receives -/

/-- In a ledger, lower heights of an account are there. -/
theorem lower {L : List Blk} (w : Ledger U L) : ∀ (k : Nat) {b : Blk}, b ∈ L → ∀ n, 1 ≤ n → n + k = b.height → ∃ d ∈ L, d.addr = b.addr ∧ d.height = n := by
  intro k
  induction k with
  | zero => intro b hb n _ e; exact ⟨b, hb, rfl, by omega⟩
  | succ k ih =>
    intro b hb n hn e
    rcases w.linked b hb with ⟨h1, _⟩ | ⟨p, hp, h1, h2, _⟩
    · omega
    · obtain ⟨d, hd, e1, e2⟩ := ih hp n hn (by omega)
      exact ⟨d, hd, e1.trans h1, e2⟩

theorem height_pos {L : List Blk} (w : Ledger U L) {b : Blk} (hb : b ∈ L) : 1 ≤ b.height := by
  rcases w.linked b hb with ⟨h1, _⟩ | ⟨p, hp, h1, h2, _⟩ <;> omega

theorem InOrder.sub {L L' : List Blk} (w : Ledger U L) (w' : Ledger U L') (hs : ∀ x ∈ L', x ∈ L) (h : InOrder g L) : InOrder g L' := by
  intro a x n i hh m j k hc h1 h2 hlt r hr ht
  have up : ∀ {a x n i h}, Sent L' a x n i h → Sent L a x n i h := fun ⟨d, hd, r⟩ => ⟨d, hs d hd, r⟩
  obtain ⟨q, hq, hqt, hqa, hqh⟩ := h a x n i hh m j k hc (up h1) (up h2) hlt r (hs r hr) ht
  obtain ⟨q', hq', e1, e2⟩ := lower w' (r.height - q.height) hr q.height (height_pos w hq) (by omega)
  have : q' = q := w.place q' (hs q' hq') q hq (e1.trans hqa.symm) e2
  subst this
  exact ⟨q', hq', hqt, hqa, hqh⟩

theorem InOrder.insert (S : Sound U) {L : List Blk} {b : Blk} (w' : Ledger U (L ++ [b])) (habove : ∀ x ∈ L, x.addr = b.addr → x.height < b.height)
    (hturn : ∀ k, b.takes k = true → g.contract b.addr = true → ∃ x n i, Front L b.addr x n i k) (h : InOrder g L) : InOrder g (L ++ [b]) := by
  have hbb : b ∈ L ++ [b] := by simp
  have hord : ∀ r ∈ L ++ [b], ∀ s ∈ b.outs, r.takes s.hash = false := by
    intro r hr s hs'
    rcases List.mem_append.mp hr with hr | hr
    · have o := w'.order
      rw [List.pairwise_append] at o
      cases q : r.takes s.hash with
      | false => rfl
      | true => exact absurd (.inr ⟨s, hs', q⟩) (o.2.2 r hr b (by simp))
    · rw [List.mem_singleton] at hr
      subst hr; exact w'.own r hbb s hs'
  intro a x n i hh m j k hc h1 h2 hlt r hr ht
  -- the later send is not made by the new block
  have h2L : Sent L a x m j k := by
    obtain ⟨d, hd, r1, r2, r3⟩ := h2
    rcases List.mem_append.mp hd with hd | hd
    · exact ⟨d, hd, r1, r2, r3⟩
    · rw [List.mem_singleton] at hd
      subst hd
      rw [hord r hr _ (List.mem_of_getElem? r3)] at ht; cases ht
  have h1L : Sent L a x n i hh := by
    obtain ⟨d, hd, r1, r2, r3⟩ := h1
    rcases List.mem_append.mp hd with hd | hd
    · exact ⟨d, hd, r1, r2, r3⟩
    · rw [List.mem_singleton] at hd
      subst hd
      obtain ⟨d', hd', r1', r2', _⟩ := h2L
      have := habove d' hd' (r1'.trans r1.symm)
      omega
  rcases List.mem_append.mp hr with hrL | hrb
  · obtain ⟨q, hq, q1, q2, q3⟩ := h a x n i hh m j k hc h1L h2L hlt r hrL ht
    exact ⟨q, by simp [hq], q1, q2, q3⟩
  · rw [List.mem_singleton] at hrb
    subst hrb
    -- the account is the one addressed
    obtain ⟨d, hd, s, hs, e1, e2⟩ := w'.backed r hbb k ht
    have hs2 : Sent (L ++ [r]) r.addr d.addr d.height (d.outs.idxOf s) k := by
      refine ⟨d, hd, rfl, rfl, ?_⟩
      rw [List.getElem?_idxOf hs, ← e1, ← e2]
    have h2' : Sent (L ++ [r]) a x m j k := by obtain ⟨d, hd, r'⟩ := h2L; exact ⟨d, by simp [hd], r'⟩
    have ha := (sent_unique S w' hs2 h2').1
    obtain ⟨x', n', i', hf⟩ := hturn k ht (by rw [ha]; exact hc)
    rw [ha] at hf
    obtain ⟨ea, ex, en, ei⟩ := sent_unique S (w'.left) hf.1.1 h2L
    subst ex; subst en; subst ei
    -- the earlier send does not wait
    have hnw : ¬ Waiting L a x' n i hh := by
      intro hw
      have := hf.2 _ _ _ hw
      omega
    have : ∃ q ∈ L, q.takes hh = true := by
      by_contra hno
      apply hnw
      refine ⟨h1L, fun q hq => ?_⟩
      cases e : q.takes hh with
      | false => rfl
      | true => exact absurd ⟨q, hq, e⟩ hno
    obtain ⟨q, hq, hqt⟩ := this
    have hqa : q.addr = a := by
      obtain ⟨d2, hd2, s2, hs2', e12, e22⟩ := (w'.left).backed q hq hh hqt
      have hs3 : Sent L q.addr d2.addr d2.height (d2.outs.idxOf s2) hh := by
        refine ⟨d2, hd2, rfl, rfl, ?_⟩
        rw [List.getElem?_idxOf hs2', ← e12, ← e22]
      exact (sent_unique S w'.left hs3 h1L).1
    exact ⟨q, by simp [hq], hqt, by rw [hqa, ha], habove q hq (by rw [hqa, ha])⟩

end Verif.Road
