import Verif.Lattice.LatticeRoll

/-!
Rollback keeps the index exact; what the batches do to the cache; the blocks that rest on others.
-/

namespace Verif.Lattice

variable {U : Blk → Prop}

theorem lastOn_dels {k : Key} {bs : Batch} (h : ∀ x ∈ bs, x.on k = none ∨ x.on k = some none) :
    lastOn k bs = none ∨ lastOn k bs = some none := by
  by_cases q : ∃ x ∈ bs, x.on k = some none
  · exact .inr (lastOn_const h q)
  · left
    apply lastOn_none
    intro x hx
    rcases h x hx with e | e
    · exact e
    · exact absurd ⟨x, hx, e⟩ q

open Classical in
theorem lastOn_opens (F : List Snd) (k : Key) : lastOn k (dropOpens F) =
    match k with
    | .recv h => if ∃ s ∈ F, s.hash = h then some none else none
    | .road a h => if ∃ s ∈ F, s.hash = h ∧ s.dest = a then some none else none
    | _ => none := by
  unfold dropOpens
  induction F with
  | nil => cases k <;> simp [lastOn]
  | cons s F ih =>
    rw [List.flatMap_cons, lastOn_append, ih]
    cases k with
    | recv h =>
      simp only [List.exists_mem_cons_iff, lastOn, Chg.on, Key.recv.injEq, reduceCtorEq, if_false, Option.none_or, Option.or_none]
      by_cases q : ∃ s ∈ F, s.hash = h
      · simp only [q, if_true, or_true, Option.some_or]
      · simp only [q, if_false, or_false, Option.none_or]
        by_cases e : s.hash = h
        · rw [if_pos e, if_pos e.symm]
        · rw [if_neg e, if_neg (Ne.symm e)]
    | road a h =>
      simp only [List.exists_mem_cons_iff, lastOn, Chg.on, Key.road.injEq, reduceCtorEq, if_false, Option.none_or, Option.or_none]
      by_cases q : ∃ s ∈ F, s.hash = h ∧ s.dest = a
      · simp only [q, if_true, or_true, Option.some_or]
      · simp only [q, if_false, or_false, Option.none_or]
        by_cases e : s.hash = h ∧ s.dest = a
        · rw [if_pos e, if_pos ⟨e.2.symm, e.1.symm⟩]
        · rw [if_neg e, if_neg (fun x => e ⟨x.2.symm, x.1.symm⟩)]
    | hash h => simp [lastOn, Chg.on]
    | height a n => simp [lastOn, Chg.on]
    | conf a n => simp [lastOn, Chg.on]

open Classical in
theorem lastOn_snaps (G : List Chunk) (k : Key) : lastOn k (G.flatMap (fun c => dropSnap c.snap)) =
    match k with
    | .conf a n => if ∃ c ∈ G, ∃ h, (a, n, h) ∈ c.snap.content then some none else none
    | _ => none := by
  have key : ∀ x ∈ G.flatMap (fun c => dropSnap c.snap), ∃ c ∈ G, ∃ e ∈ c.snap.content, x = Chg.del (.conf e.1 e.2.1) := by
    intro x hx
    obtain ⟨c, hc, hx⟩ := List.mem_flatMap.mp hx
    obtain ⟨e, he, rfl⟩ := List.mem_map.mp hx
    exact ⟨c, hc, e, he, rfl⟩
  have other : (∀ a n, k ≠ .conf a n) → lastOn k (G.flatMap (fun c => dropSnap c.snap)) = none := by
    intro hk
    apply lastOn_none
    intro x hx
    obtain ⟨c, _, e, _, rfl⟩ := key x hx
    simp only [Chg.on]; exact if_neg (hk _ _)
  cases k with
  | conf a n =>
    by_cases q : ∃ c ∈ G, ∃ h, (a, n, h) ∈ c.snap.content
    · simp only [q, if_true]
      apply lastOn_const
      · intro x hx
        obtain ⟨c, _, e, _, rfl⟩ := key x hx
        simp only [Chg.on]; split
        · exact .inr rfl
        · exact .inl rfl
      · obtain ⟨c, hc, h, he⟩ := q
        refine ⟨Chg.del (.conf a n), List.mem_flatMap.mpr ⟨c, hc, ?_⟩, by simp [Chg.on]⟩
        exact List.mem_map.mpr ⟨(a, n, h), he, rfl⟩
    · simp only [q, if_false]
      apply lastOn_none
      intro x hx
      obtain ⟨c, hc, e, he, rfl⟩ := key x hx
      simp only [Chg.on, Key.conf.injEq]
      rw [if_neg]
      rintro ⟨rfl, rfl⟩
      exact q ⟨c, hc, e.2.2, he⟩
  | hash h => exact other (by simp)
  | height a n => exact other (by simp)
  | recv h => exact other (by simp)
  | road a h => exact other (by simp)

/-- Deleting a set of blocks on which no other block rests keeps the index exact. -/
theorem exact_drop (S : Sound U) {K G : List Chunk} {L R bs : List Blk} {t : Tbl} (E : Exact (K ++ G) L t) (w : Ledger U L)
    (hs : (G.flatMap (·.blocks) ++ bs).Sublist L) (hg : ∀ d ∈ G.flatMap (·.blocks) ++ bs, d.kind ≠ .genesis)
    (hR : ∀ x, x ∈ R ↔ x ∈ L ∧ x ∉ G.flatMap (·.blocks) ++ bs)
    (hclosed : ∀ x ∈ R, ∀ d ∈ G.flatMap (·.blocks) ++ bs, ¬ Dep x d)
    (hcf : ∀ k ∈ K, ∀ k' ∈ G, ∀ a n h h', (a, n, h) ∈ k.snap.content → (a, n, h') ∉ k'.snap.content) :
    Exact K R (run (rollBatch G bs) t) := by
  classical
  set D := G.flatMap (·.blocks) ++ bs with hD
  have T := w.tidy S hs hg
  obtain ⟨i1, i2, i3, i4, i5, i6⟩ := drop_char D [] T
  have hDL : ∀ d ∈ D, d ∈ L := fun d hd => hs.subset hd
  have hLR : ∀ x ∈ L, x ∈ R ∨ x ∈ D := by
    intro x hx
    by_cases q : x ∈ D
    · exact .inr q
    · exact .inl ((hR x).mpr ⟨hx, q⟩)
  have hlast : ∀ k, lastOn k (rollBatch G bs) =
      ((lastOn k (dropOpens (dropBlocks D []).2)).or (lastOn k (G.flatMap (fun c => dropSnap c.snap)))).or (lastOn k (dropBlocks D []).1) := by
    intro k
    have e : rollBatch G bs = (dropBlocks D []).1 ++ G.flatMap (fun c => dropSnap c.snap) ++ dropOpens (dropBlocks D []).2 := rfl
    rw [e, lastOn_append, lastOn_append, Option.or_assoc]
  have hout : ∀ h, Out D [] h ↔ ∃ d ∈ D, ∃ s ∈ d.outs, s.hash = h := by intro h; simp [Out]
  intro k v
  rw [get_run, hlast, lastOn_opens, lastOn_snaps]
  cases k with
  | hash h =>
    simp only [Option.none_or, i2, wants_hash]
    by_cases q : ∃ d ∈ D, h ∈ d.ids
    · simp only [if_pos q, Option.getD_some]
      constructor
      · intro e; cases e
      · rintro ⟨x, hx, hh, _⟩
        obtain ⟨d, hd, hd'⟩ := q
        have hx' := (hR x).mp hx
        have e := w.ids S hx'.1 (hDL d hd) hh hd'
        subst e
        exact absurd hd hx'.2
    · simp only [if_neg q, Option.getD_none, E (.hash h) v, wants_hash]
      constructor
      · rintro ⟨x, hx, hh, e⟩
        exact ⟨x, (hR x).mpr ⟨hx, fun hd => q ⟨x, hd, hh⟩⟩, hh, e⟩
      · rintro ⟨x, hx, r⟩; exact ⟨x, ((hR x).mp hx).1, r⟩
  | height a n =>
    simp only [Option.none_or, i3, wants_height]
    have hpl : ∀ x ∈ R, (x ∈ (K ++ G).flatMap (·.blocks) ↔ x ∈ K.flatMap (·.blocks)) := by
      intro x hx
      rw [List.flatMap_append, List.mem_append]
      constructor
      · rintro (q | q)
        · exact q
        · exact absurd (List.mem_append_left _ q) ((hR x).mp hx).2
      · exact .inl
    by_cases q : ∃ d ∈ D, d.addr = a ∧ d.height = n
    · simp only [if_pos q, Option.getD_some]
      constructor
      · intro e; cases e
      · rintro ⟨x, hx, h1, h2, _⟩
        obtain ⟨d, hd, h3, h4⟩ := q
        have hx' := (hR x).mp hx
        have e := w.place x hx'.1 d (hDL d hd) (h1.trans h3.symm) (h2.trans h4.symm)
        subst e
        exact absurd hd hx'.2
    · simp only [if_neg q, Option.getD_none, E (.height a n) v, wants_height]
      constructor
      · rintro ⟨x, hx, h1, h2, e⟩
        have hx' : x ∈ R := (hR x).mpr ⟨hx, fun hd => q ⟨x, hd, h1, h2⟩⟩
        refine ⟨x, hx', h1, h2, ?_⟩
        rw [e]; congr 1
        rw [decide_eq_decide]
        exact hpl x hx'
      · rintro ⟨x, hx, h1, h2, e⟩
        refine ⟨x, ((hR x).mp hx).1, h1, h2, ?_⟩
        rw [e]; congr 1
        rw [decide_eq_decide]
        exact (hpl x hx).symm
  | recv h =>
    simp only [Option.or_none, i4, wants_recv, hout]
    by_cases q : ∃ s ∈ (dropBlocks D []).2, s.hash = h
    · simp only [if_pos q, Option.some_or, Option.getD_some]
      obtain ⟨s, hs', e'⟩ := q
      rw [i1] at hs'
      obtain ⟨hs1 | ⟨d, hd, hs1⟩, hs2⟩ := hs'
      · cases hs1
      constructor
      · intro e; cases e
      · rintro (⟨x, hx, ht, _⟩ | ⟨_, ⟨x, hx, s', hs3, e3⟩, _⟩)
        · exact absurd (.inr ⟨s, hs1, by rw [e']; exact ht⟩) (hclosed x hx d hd)
        · have hx' := (hR x).mp hx
          have e := w.ids S hx'.1 (hDL d hd) (h := h) (by rw [← e3]; exact outs_ids hs3) (by rw [← e']; exact outs_ids hs1)
          subst e
          exact absurd hd hx'.2
    · simp only [if_neg q, Option.none_or]
      by_cases q1 : ∃ d ∈ D, d.takes h = true
      · obtain ⟨d, hd, ht⟩ := q1
        have q1 : ∃ d ∈ D, d.takes h = true := ⟨d, hd, ht⟩
        have hno : ∀ x ∈ R, x.takes h = false := by
          intro x hx
          cases hx' : x.takes h with
          | false => rfl
          | true =>
            have e := w.once x ((hR x).mp hx).1 d (hDL d hd) h hx' ht
            subst e
            exact absurd hd ((hR x).mp hx).2
        by_cases q2 : ∃ d ∈ D, ∃ s ∈ d.outs, s.hash = h
        · simp only [if_pos q1, if_pos q2, Option.getD_some]
          constructor
          · intro e; cases e
          · rintro (⟨x, hx, ht', _⟩ | ⟨_, ⟨x, hx, s', hs3, e3⟩, _⟩)
            · rw [hno x hx] at ht'; cases ht'
            · obtain ⟨d', hd', s, hs1, e'⟩ := q2
              have hx' := (hR x).mp hx
              have e := w.ids S hx'.1 (hDL d' hd') (h := h) (by rw [← e3]; exact outs_ids hs3) (by rw [← e']; exact outs_ids hs1)
              subst e
              exact absurd hd' hx'.2
        · simp only [if_pos q1, if_neg q2, Option.getD_some, Option.some.injEq]
          constructor
          · intro e
            refine .inr ⟨e.symm, ?_, hno⟩
            obtain ⟨x, hx, s, hs1, e1, _⟩ := w.backed d (hDL d hd) h ht
            refine ⟨x, (hR x).mpr ⟨hx, fun hx' => q2 ⟨x, hx', s, hs1, e1⟩⟩, s, hs1, e1⟩
          · rintro (⟨x, hx, ht', _⟩ | ⟨e, _⟩)
            · rw [hno x hx] at ht'; cases ht'
            · exact e.symm
      · simp only [if_neg q1, Option.getD_none, E (.recv h) v, wants_recv]
        have hnoD : ∀ d ∈ D, d.takes h = false := by
          intro d hd
          cases ht : d.takes h with
          | false => rfl
          | true => exact absurd ⟨d, hd, ht⟩ q1
        have hnoS : ∀ d ∈ D, ∀ s ∈ d.outs, s.hash ≠ h := by
          intro d hd s hs1 e
          apply q
          refine ⟨s, (i1 s).mpr ⟨.inr ⟨d, hd, hs1⟩, ?_⟩, e⟩
          rw [e]; exact hnoD
        constructor
        · rintro (⟨x, hx, ht, e⟩ | ⟨e, ⟨d, hd, s, hs1, e1⟩, hno⟩)
          · refine .inl ⟨x, (hR x).mpr ⟨hx, fun hx' => ?_⟩, ht, e⟩
            rw [hnoD x hx'] at ht; cases ht
          · exact .inr ⟨e, ⟨d, (hR d).mpr ⟨hd, fun hd' => hnoS d hd' s hs1 e1⟩, s, hs1, e1⟩, fun x hx => hno x ((hR x).mp hx).1⟩
        · rintro (⟨x, hx, ht, e⟩ | ⟨e, ⟨d, hd, r⟩, hno⟩)
          · exact .inl ⟨x, ((hR x).mp hx).1, ht, e⟩
          · refine .inr ⟨e, ⟨d, ((hR d).mp hd).1, r⟩, ?_⟩
            intro x hx
            rcases hLR x hx with hx | hx
            · exact hno x hx
            · exact hnoD x hx
  | road a h =>
    simp only [Option.or_none, i5, wants_road, hout]
    by_cases q : ∃ s ∈ (dropBlocks D []).2, s.hash = h ∧ s.dest = a
    · simp only [if_pos q, Option.some_or, Option.getD_some]
      obtain ⟨s, hs', e', _⟩ := q
      rw [i1] at hs'
      obtain ⟨hs1 | ⟨d, hd, hs1⟩, hs2⟩ := hs'
      · cases hs1
      constructor
      · intro e; cases e
      · rintro ⟨_, ⟨x, hx, s', hs3, e3, _⟩, _⟩
        have hx' := (hR x).mp hx
        have e := w.ids S hx'.1 (hDL d hd) (h := h) (by rw [← e3]; exact outs_ids hs3) (by rw [← e']; exact outs_ids hs1)
        subst e
        exact absurd hd hx'.2
    · simp only [if_neg q, Option.none_or]
      by_cases q1 : (∃ d ∈ D, d.takes h = true ∧ d.addr = a) ∧ ¬ ∃ d ∈ D, ∃ s ∈ d.outs, s.hash = h
      · simp only [if_pos q1, Option.getD_some, Option.some.injEq]
        obtain ⟨⟨d, hd, ht, hda⟩, q2⟩ := q1
        constructor
        · intro e
          refine ⟨e.symm, ?_, ?_⟩
          · obtain ⟨x, hx, s, hs1, e1, e2⟩ := w.backed d (hDL d hd) h ht
            exact ⟨x, (hR x).mpr ⟨hx, fun hx' => q2 ⟨x, hx', s, hs1, e1⟩⟩, s, hs1, e1, e2.trans hda⟩
          · intro x hx
            cases hx' : x.takes h with
            | false => rfl
            | true =>
              have e := w.once x ((hR x).mp hx).1 d (hDL d hd) h hx' ht
              subst e
              exact absurd hd ((hR x).mp hx).2
        · rintro ⟨e, _⟩; exact e.symm
      · simp only [if_neg q1, Option.getD_none, E (.road a h) v, wants_road]
        constructor
        · rintro ⟨e, ⟨d, hd, s, hs1, e1, e2⟩, hno⟩
          refine ⟨e, ⟨d, (hR d).mpr ⟨hd, fun hd' => ?_⟩, s, hs1, e1, e2⟩, fun x hx => hno x ((hR x).mp hx).1⟩
          apply q
          refine ⟨s, (i1 s).mpr ⟨.inr ⟨d, hd', hs1⟩, ?_⟩, e1, e2⟩
          intro x hx; rw [e1]; exact hno x (hDL x hx)
        · rintro ⟨e, ⟨d, hd, s, hs1, e1, e2⟩, hno⟩
          have hd' := (hR d).mp hd
          refine ⟨e, ⟨d, hd'.1, s, hs1, e1, e2⟩, ?_⟩
          intro x hx
          rcases hLR x hx with hx' | hx'
          · exact hno x hx'
          · cases ht : x.takes h with
            | false => rfl
            | true =>
              exfalso
              apply q1
              have hnd : ¬ ∃ d ∈ D, ∃ s ∈ d.outs, s.hash = h := by
                rintro ⟨d', hd3, s', hs3, e3⟩
                have e := w.ids S hd'.1 (hDL d' hd3) (h := h) (by rw [← e1]; exact outs_ids hs1) (by rw [← e3]; exact outs_ids hs3)
                subst e
                exact hd'.2 hd3
              refine ⟨⟨x, hx', ht, ?_⟩, hnd⟩
              obtain ⟨d', hd3, s', hs3, e3, e4⟩ := w.backed x hx h ht
              have e := w.ids S hd'.1 hd3 (h := h) (by rw [← e1]; exact outs_ids hs1) (by rw [← e3]; exact outs_ids hs3)
              subst e
              have := outs_inj S (w.known d hd'.1) hs1 hs3 (by rw [e1, e3])
              subst this
              rw [← e2, e4]
  | conf a n =>
    simp only [Option.none_or, i6, Option.or_none, wants_conf]
    by_cases q : ∃ c ∈ G, ∃ h, (a, n, h) ∈ c.snap.content
    · simp only [if_pos q, Option.getD_some]
      constructor
      · intro e; cases e
      · rintro ⟨k, hk, _, h, hh⟩
        obtain ⟨c, hc, h', hh'⟩ := q
        exact absurd hh' (hcf k hk c hc a n h h' hh)
    · simp only [if_neg q, Option.getD_none, E (.conf a n) v, wants_conf]
      constructor
      · rintro ⟨k, hk, e, r⟩
        rcases List.mem_append.mp hk with hk | hk
        · exact ⟨k, hk, e, r⟩
        · exact absurd ⟨k, hk, r⟩ q
      · rintro ⟨k, hk, r⟩; exact ⟨k, List.mem_append_left _ hk, r⟩

/-! ### Tables stay without double keys -/

theorem proper_erase (k : Key) {t : Tbl} (h : Table.Proper t) : Table.Proper (erase k t) := by
  unfold Table.Proper erase at *
  exact h.sublist (List.filter_sublist.map _)

theorem proper_run (bs : Batch) : ∀ {t : Tbl}, Table.Proper t → Table.Proper (run bs t) := by
  induction bs with
  | nil => intro t h; exact h
  | cons x xs ih =>
    intro t h
    have e : run (x :: xs) t = run xs (x.run t) := rfl
    rw [e]
    apply ih
    cases x with
    | set k v c => exact Table.proper_put k v h
    | del k => exact proper_erase k h

/-! ### The cache -/

theorem warm_insert {K : List Chunk} {L : List Blk} {t lru : Tbl} {b : Blk} (E : Exact K L t) (W : Warm lru t)
    (hb : ∀ x ∈ L, ¬ (x.addr = b.addr ∧ x.height = b.height)) : Warm (warm (insertBatch b) lru) (run (insertBatch b) t) := by
  have hsets : ∀ k v c, Chg.set k v c ∈ insertBatch b →
      (c = true ∧ ((∃ h, k = .hash h) ∨ ∃ h, k = .recv h)) ∨ (c = false ∧ (k = .height b.addr b.height ∨ ∃ a h, k = .road a h)) := by
    intro k v c hk
    unfold insertBatch at hk
    simp only [List.mem_append, List.mem_cons, List.not_mem_nil, or_false, List.mem_flatMap] at hk
    rcases hk with ((hk | hk) | hk) | ⟨s, _, hk | hk | hk⟩
    · injection hk with h1 h2 h3; subst h1 h3; exact .inl ⟨rfl, .inl ⟨_, rfl⟩⟩
    · injection hk with h1 h2 h3; subst h1 h3; exact .inr ⟨rfl, .inl rfl⟩
    · split at hk
      · split at hk
        · simp only [List.mem_cons, List.not_mem_nil, or_false, reduceCtorEq] at hk
          injection hk with h1 h2 h3; subst h1 h3; exact .inl ⟨rfl, .inr ⟨_, rfl⟩⟩
        · cases hk
      · simp only [List.mem_cons, List.not_mem_nil, or_false] at hk
        rcases hk with hk | hk
        · injection hk with h1 h2 h3; subst h1 h3; exact .inl ⟨rfl, .inr ⟨_, rfl⟩⟩
        · injection hk with h1 h2 h3; subst h1 h3; exact .inr ⟨rfl, .inr ⟨_, _, rfl⟩⟩
    · injection hk with h1 h2 h3; subst h1 h3; exact .inl ⟨rfl, .inr ⟨_, rfl⟩⟩
    · injection hk with h1 h2 h3; subst h1 h3; exact .inl ⟨rfl, .inl ⟨_, rfl⟩⟩
    · injection hk with h1 h2 h3; subst h1 h3; exact .inr ⟨rfl, .inr ⟨_, _, rfl⟩⟩
  apply warm_run _ _ _ W
  · intro k v hk
    rcases hsets k v true hk with ⟨_, ⟨h, rfl⟩ | ⟨h, rfl⟩⟩ | ⟨h, _⟩
    · rfl
    · rfl
    · cases h
  · intro k v hk
    rcases hsets k v false hk with ⟨h, _⟩ | ⟨_, rfl | ⟨a, h, rfl⟩⟩
    · cases h
    · right
      refine ⟨?_, ?_⟩
      · cases q : Table.get (Key.height b.addr b.height) lru with
        | none => rfl
        | some w =>
          have := (E _ _).mp (W _ _ q).2
          rw [wants_height] at this
          obtain ⟨x, hx, h1, h2, _⟩ := this
          exact absurd ⟨h1, h2⟩ (hb x hx)
      · intro v' hv
        rcases hsets _ v' true hv with ⟨_, ⟨h, e⟩ | ⟨h, e⟩⟩ | ⟨h, _⟩
        · cases e
        · cases e
        · cases h
    · exact .inl rfl

theorem warm_snap {t lru : Tbl} (s : Snap) (bs : List Blk) (W : Warm lru t) :
    Warm (warm (snapBatch s bs) lru) (run (snapBatch s bs) t) := by
  apply warm_run _ _ _ W
  · intro k v hk
    simp only [snapBatch, List.mem_append, List.mem_map] at hk
    rcases hk with ⟨e, _, hk⟩ | ⟨b, _, hk⟩
    · injection hk with h1 h2 h3; cases h3
    · injection hk with h1 h2 h3; subst h1; rfl
  · intro k v hk
    simp only [snapBatch, List.mem_append, List.mem_map] at hk
    rcases hk with ⟨e, _, hk⟩ | ⟨b, _, hk⟩
    · injection hk with h1 h2 h3; subst h1; exact .inl rfl
    · injection hk with h1 h2 h3; cases h3

theorem drop_sets (D : List Blk) : ∀ (O : List Snd) (k : Key) (v : Val) (c : Bool), Chg.set k v c ∈ (dropBlocks D O).1 →
    (c = true ∧ ∃ h, k = .recv h) ∨ (c = false ∧ ∃ a h, k = .road a h) := by
  induction D with
  | nil => intro O k v c h; simp [dropBlocks] at h
  | cons b D ih =>
    intro O k v c h
    unfold dropBlocks at h
    dsimp only at h
    split at h
    · simp only [List.mem_append, List.mem_cons, List.not_mem_nil, or_false, reduceCtorEq, false_or, List.mem_map,
        and_false, exists_false] at h
      rcases h with h | h
      · split at h
        · simp at h
        · simp only [List.mem_cons, List.not_mem_nil, or_false] at h
          rcases h with h | h
          · injection h with h1 h2 h3; subst h1 h3; exact .inr ⟨rfl, _, _, rfl⟩
          · injection h with h1 h2 h3; subst h1 h3; exact .inl ⟨rfl, _, rfl⟩
      · exact ih _ k v c h
    · simp only [List.mem_append, List.mem_cons, List.not_mem_nil, or_false, reduceCtorEq, false_or] at h
      exact ih _ k v c h

theorem warm_roll {t lru : Tbl} (G : List Chunk) (bs : List Blk) (W : Warm lru t) :
    Warm (warm (rollBatch G bs) lru) (run (rollBatch G bs) t) := by
  have hsets : ∀ k v c, Chg.set k v c ∈ rollBatch G bs → (c = true ∧ ∃ h, k = .recv h) ∨ (c = false ∧ ∃ a h, k = .road a h) := by
    intro k v c hk
    unfold rollBatch at hk
    simp only [List.mem_append] at hk
    rcases hk with (hk | hk) | hk
    · exact drop_sets _ _ k v c hk
    · obtain ⟨c', _, hk⟩ := List.mem_flatMap.mp hk
      obtain ⟨e, _, hk⟩ := List.mem_map.mp hk
      cases hk
    · obtain ⟨s, _, hk⟩ := List.mem_flatMap.mp hk
      simp at hk
  apply warm_run _ _ _ W
  · intro k v hk
    rcases hsets k v true hk with ⟨_, h, rfl⟩ | ⟨h, _⟩
    · rfl
    · cases h
  · intro k v hk
    rcases hsets k v false hk with ⟨h, _⟩ | ⟨_, a, h, rfl⟩
    · cases h
    · exact .inl rfl

/-! ### What rests on what -/

theorem Tainted.mem {seed : Blk → Prop} {L : List Blk} {b : Blk} (h : Tainted seed L b) : b ∈ L := by
  cases h with
  | base h _ => exact h
  | step h _ _ => exact h

/-- Nothing before the first seed is tainted. -/
theorem Tainted.late {seed : Blk → Prop} {P Q : List Blk} (ho : (P ++ Q).Pairwise (fun x y => ¬ Dep x y))
    (hp : ∀ x ∈ P, ¬ seed x) (hd : ∀ x ∈ P, x ∉ Q) {b : Blk} (h : Tainted seed (P ++ Q) b) : b ∈ Q := by
  induction h with
  | base hm hs =>
    rcases List.mem_append.mp hm with h | h
    · exact absurd hs (hp _ h)
    · exact h
  | step hm _ hdep ih =>
    rcases List.mem_append.mp hm with h | h
    · rw [List.pairwise_append] at ho
      exact absurd hdep (ho.2.2 _ h _ ih)
    · exact h

/-- A block is tainted by itself or by an earlier block. -/
theorem Tainted.cause {seed : Blk → Prop} {P Q : List Blk} {b : Blk} (w : Ledger U (P ++ b :: Q)) (h : Tainted seed (P ++ b :: Q) b) :
    seed b ∨ ∃ d ∈ P, Tainted seed (P ++ b :: Q) d ∧ Dep b d := by
  cases h with
  | base _ hs => exact .inl hs
  | step hm ht hdep =>
    rename_i d
    right
    refine ⟨d, ?_, ht, hdep⟩
    rcases List.mem_append.mp ht.mem with h | h
    · exact h
    · exfalso
      rcases List.mem_cons.mp h with h | h
      · subst h
        rcases hdep with ⟨_, h⟩ | ⟨s, hs, h⟩
        · omega
        · rw [w.own d hm s hs] at h; cases h
      · have o := w.order
        rw [List.pairwise_append, List.pairwise_cons] at o
        exact o.2.1.1 d h hdep

/-- An earlier block of the same account is below. -/
theorem Ledger.below {P Q : List Blk} {b d : Blk} (w : Ledger U (P ++ b :: Q)) (hd : d ∈ P) (ha : d.addr = b.addr) : d.height < b.height := by
  have o := w.order
  rw [List.pairwise_append] at o
  have h := o.2.2 d hd b List.mem_cons_self
  have hne : d.height ≠ b.height := by
    intro e
    have := w.place d (List.mem_append_left _ hd) b (List.mem_append_right _ List.mem_cons_self) ha e
    subst this
    have n := w.nodup
    rw [List.nodup_append] at n
    exact n.2.2 d hd d List.mem_cons_self rfl
  have : ¬ b.height < d.height := fun hlt => h (.inl ⟨ha, hlt⟩)
  omega

/-- A block that comes later depends on the earlier block exactly if it is of the same account or takes its send. -/
theorem Ledger.dep_iff {P Q : List Blk} {b d : Blk} (w : Ledger U (P ++ b :: Q)) (hd : d ∈ P) :
    Dep b d ↔ d.addr = b.addr ∨ ∃ s ∈ d.outs, b.takes s.hash = true := by
  constructor
  · rintro (⟨h, _⟩ | h)
    · exact .inl h.symm
    · exact .inr h
  · rintro (h | h)
    · exact .inl ⟨h.symm, w.below hd h⟩
    · exact .inr h

/-- What the sweep has noted after the blocks `P`. -/
structure Noted (seed : Blk → Prop) (L P Q : List Blk) (addrs sends : List Nat) : Prop where
  addrs : ∀ a, a ∈ addrs ↔ ∃ d ∈ P, Tainted seed L d ∧ d.addr = a
  sends : ∀ x ∈ Q, ∀ h, x.takes h = true → (h ∈ sends ↔ ∃ d ∈ P, Tainted seed L d ∧ ∃ s ∈ d.outs, s.hash = h)

theorem Noted.next {seed : Blk → Prop} {L P Q : List Blk} {b : Blk} {addrs sends addrs' sends' : List Nat}
    (N : Noted seed L P (b :: Q) addrs sends)
    (ha : ∀ a, a ∈ addrs' ↔ a ∈ addrs ∨ (Tainted seed L b ∧ b.addr = a))
    (hs : ∀ x ∈ Q, ∀ h, x.takes h = true → (h ∈ sends' ↔ h ∈ sends ∨ (Tainted seed L b ∧ ∃ s ∈ b.outs, s.hash = h))) :
    Noted seed L (P ++ [b]) Q addrs' sends' where
  addrs a := by
    rw [ha, N.addrs]
    constructor
    · rintro (⟨d, hd, r⟩ | r)
      · exact ⟨d, List.mem_append_left _ hd, r⟩
      · exact ⟨b, by simp, r⟩
    · rintro ⟨d, hd, r⟩
      rcases List.mem_append.mp hd with hd | hd
      · exact .inl ⟨d, hd, r⟩
      · simp only [List.mem_singleton] at hd
        subst hd; exact .inr r
  sends x hx h ht := by
    rw [hs x hx h ht, N.sends x (List.mem_cons_of_mem _ hx) h ht]
    constructor
    · rintro (⟨d, hd, r⟩ | r)
      · exact ⟨d, List.mem_append_left _ hd, r⟩
      · exact ⟨b, by simp, r⟩
    · rintro ⟨d, hd, r⟩
      rcases List.mem_append.mp hd with hd | hd
      · exact .inl ⟨d, hd, r⟩
      · simp only [List.mem_singleton] at hd
        subst hd; exact .inr r

theorem Noted.hit {seed : Blk → Prop} {P Q : List Blk} {b : Blk} {addrs sends : List Nat} (w : Ledger U (P ++ b :: Q))
    (N : Noted seed (P ++ b :: Q) P (b :: Q) addrs sends) (hg : b.kind ≠ .genesis) :
    Tainted seed (P ++ b :: Q) b ↔ seed b ∨ b.addr ∈ addrs ∨ (b.isRecv = true ∧ b.src ∈ sends) := by
  have hb : b ∈ P ++ b :: Q := by simp
  have hs : b.isRecv = true → (b.src ∈ sends ↔ ∃ d ∈ P, Tainted seed (P ++ b :: Q) d ∧ ∃ s ∈ d.outs, s.hash = b.src) := by
    intro hr
    exact N.sends b List.mem_cons_self b.src ((takes_iff hr hg _).mpr rfl)
  constructor
  · intro h
    rcases h.cause w with h | ⟨d, hd, ht, hdep⟩
    · exact .inl h
    · right
      rcases (w.dep_iff hd).mp hdep with h | ⟨s, hs', h⟩
      · exact .inl ((N.addrs _).mpr ⟨d, hd, ht, h⟩)
      · right
        have hr := takes_recv h
        exact ⟨hr, (hs hr).mpr ⟨d, hd, ht, s, hs', (takes_src h).symm⟩⟩
  · rintro (h | h | ⟨hr, h⟩)
    · exact .base hb h
    · obtain ⟨d, hd, ht, e⟩ := (N.addrs _).mp h
      exact .step hb ht ((w.dep_iff hd).mpr (.inl e))
    · obtain ⟨d, hd, ht, s, hs', e⟩ := (hs hr).mp h
      exact .step hb ht ((w.dep_iff hd).mpr (.inr ⟨s, hs', by rw [e]; exact (takes_iff hr hg _).mpr rfl⟩))

theorem mem_outs_hash {b : Blk} {h : Nat} : h ∈ (if b.isSend then [b.hash] else []) ++ b.sends.map (·.hash) ↔ ∃ s ∈ b.outs, s.hash = h := by
  simp only [Blk.outs, List.mem_append, List.mem_map]
  constructor
  · rintro (h1 | ⟨s, hs, e⟩)
    · split at h1
      · rename_i hsd
        simp only [List.mem_singleton] at h1
        exact ⟨⟨b.hash, b.dest⟩, .inl (by simp [hsd]), h1.symm⟩
      · cases h1
    · exact ⟨s, .inr hs, e⟩
  · rintro ⟨s, h1 | hs, e⟩
    · split at h1
      · rename_i hsd
        simp only [List.mem_singleton] at h1
        subst h1
        exact .inl (by simp [hsd, ← e])
      · cases h1
    · exact .inr ⟨s, hs, e⟩

/-- The sweep that follows dependencies finds exactly the tainted blocks. -/
theorem spread_exact {seed : Blk → Prop} (Q : List Blk) : ∀ (P : List Blk) (addrs sends : List Nat), Ledger U (P ++ Q) →
    Noted seed (P ++ Q) P Q addrs sends → (∀ b ∈ Q, ¬ seed b) → (∀ b ∈ Q, b.kind ≠ .genesis) →
    (spread Q addrs sends).Sublist Q ∧ ∀ x, x ∈ spread Q addrs sends ↔ x ∈ Q ∧ Tainted seed (P ++ Q) x := by
  induction Q with
  | nil => intro P addrs sends _ _ _ _; simp [spread]
  | cons b Q ih =>
    intro P addrs sends w N hsd hg
    have hit := N.hit w (hg b List.mem_cons_self)
    have e : P ++ b :: Q = (P ++ [b]) ++ Q := by simp
    have hnb : b ∉ Q := by
      have n := w.nodup
      rw [List.nodup_append, List.nodup_cons] at n
      exact n.2.1.1
    have fin : ∀ addrs' sends', Noted seed (P ++ b :: Q) (P ++ [b]) Q addrs' sends' →
        (spread Q addrs' sends').Sublist Q ∧ ∀ x, x ∈ spread Q addrs' sends' ↔ x ∈ Q ∧ Tainted seed (P ++ b :: Q) x := by
      intro addrs' sends' N'
      rw [e] at N' w ⊢
      exact ih (P ++ [b]) addrs' sends' w N' (fun x hx => hsd x (List.mem_cons_of_mem _ hx)) (fun x hx => hg x (List.mem_cons_of_mem _ hx))
    have cons : ∀ R : List Blk, Tainted seed (P ++ b :: Q) b → (R.Sublist Q ∧ ∀ x, x ∈ R ↔ x ∈ Q ∧ Tainted seed (P ++ b :: Q) x) →
        (b :: R).Sublist (b :: Q) ∧ ∀ x, x ∈ b :: R ↔ x ∈ b :: Q ∧ Tainted seed (P ++ b :: Q) x := by
      intro R hb ⟨h1, h2⟩
      refine ⟨h1.cons_cons b, ?_⟩
      intro x
      rw [List.mem_cons, List.mem_cons, h2]
      constructor
      · rintro (rfl | h)
        · exact ⟨.inl rfl, hb⟩
        · exact ⟨.inr h.1, h.2⟩
      · rintro ⟨rfl | h, ht⟩
        · exact .inl rfl
        · exact .inr ⟨h, ht⟩
    unfold spread
    by_cases q1 : b.addr ∈ addrs
    · have hb : Tainted seed (P ++ b :: Q) b := hit.mpr (.inr (.inl q1))
      rw [if_pos q1]
      apply cons _ hb
      apply fin
      apply N.next
      · intro a
        constructor
        · exact .inl
        · rintro (h | ⟨_, rfl⟩)
          · exact h
          · exact q1
      · intro x _ h _
        rw [List.mem_append, mem_outs_hash]
        constructor
        · rintro (h | h)
          · exact .inr ⟨hb, h⟩
          · exact .inl h
        · rintro (h | ⟨_, h⟩)
          · exact .inr h
          · exact .inl h
    · rw [if_neg q1]
      by_cases q2 : b.isRecv = true ∧ b.src ∈ sends
      · have hb : Tainted seed (P ++ b :: Q) b := hit.mpr (.inr (.inr q2))
        rw [if_pos q2]
        apply cons _ hb
        apply fin
        apply N.next
        · intro a
          rw [List.mem_cons]
          constructor
          · rintro (rfl | h)
            · exact .inr ⟨hb, rfl⟩
            · exact .inl h
          · rintro (h | ⟨_, rfl⟩)
            · exact .inr h
            · exact .inl rfl
        · intro x _ h _
          rw [List.mem_append, outs_recv q2.1, List.mem_map]
          constructor
          · rintro (h | h)
            · exact .inr ⟨hb, h⟩
            · exact .inl h
          · rintro (h | ⟨_, h⟩)
            · exact .inr h
            · exact .inl h
      · have hb : ¬ Tainted seed (P ++ b :: Q) b := by
          rw [hit]
          rintro (h | h | h)
          · exact hsd b List.mem_cons_self h
          · exact q1 h
          · exact q2 h
        rw [if_neg q2]
        obtain ⟨h1, h2⟩ := fin addrs sends (N.next (by intro a; simp [hb]) (by intro x _ h _; simp [hb]))
        refine ⟨h1.trans (List.sublist_cons_self b Q), ?_⟩
        intro x
        rw [h2, List.mem_cons]
        constructor
        · rintro ⟨h, ht⟩; exact ⟨.inr h, ht⟩
        · rintro ⟨rfl | h, ht⟩
          · exact absurd ht hb
          · exact ⟨h, ht⟩

/-- The sweep for invalid blocks finds exactly the tainted blocks. -/
theorem invalid_exact {bad : Blk → Bool} {seed : Blk → Prop} (Q : List Blk) : ∀ (P : List Blk) (addrs sends : List Nat), Ledger U (P ++ Q) →
    Noted seed (P ++ Q) P Q addrs sends → (∀ b ∈ Q, seed b ↔ (b.kind = .error ∨ bad b = true)) → (∀ b ∈ Q, b.kind ≠ .genesis) →
    (invalid bad Q addrs sends).Sublist Q ∧ ∀ x, x ∈ invalid bad Q addrs sends ↔ x ∈ Q ∧ Tainted seed (P ++ Q) x := by
  induction Q with
  | nil => intro P addrs sends _ _ _ _; simp [invalid]
  | cons b Q ih =>
    intro P addrs sends w N hsd hg
    have hit := N.hit w (hg b List.mem_cons_self)
    have e : P ++ b :: Q = (P ++ [b]) ++ Q := by simp
    have fin : ∀ addrs' sends', Noted seed (P ++ b :: Q) (P ++ [b]) Q addrs' sends' →
        (invalid bad Q addrs' sends').Sublist Q ∧ ∀ x, x ∈ invalid bad Q addrs' sends' ↔ x ∈ Q ∧ Tainted seed (P ++ b :: Q) x := by
      intro addrs' sends' N'
      rw [e] at N' w ⊢
      exact ih (P ++ [b]) addrs' sends' w N' (fun x hx => hsd x (List.mem_cons_of_mem _ hx)) (fun x hx => hg x (List.mem_cons_of_mem _ hx))
    have herr : b.kind = .error → b.isRecv = true := by intro h; simp [Blk.isRecv, Blk.isSend, h]
    have test : (b.addr ∈ addrs ∨ (b.isRecv = true ∧ (b.kind = .error ∨ b.src ∈ sends)) ∨ bad b = true) ↔ Tainted seed (P ++ b :: Q) b := by
      rw [hit, hsd b List.mem_cons_self]
      constructor
      · rintro (h | ⟨hr, h | h⟩ | h)
        · exact .inr (.inl h)
        · exact .inl (.inl h)
        · exact .inr (.inr ⟨hr, h⟩)
        · exact .inl (.inr h)
      · rintro ((h | h) | h | h)
        · exact .inr (.inl ⟨herr h, .inl h⟩)
        · exact .inr (.inr h)
        · exact .inl h
        · exact .inr (.inl ⟨h.1, .inr h.2⟩)
    unfold invalid
    by_cases hb : Tainted seed (P ++ b :: Q) b
    · rw [if_pos (test.mpr hb)]
      have N' := N.next (addrs' := b.addr :: addrs)
        (sends' := (if b.isSend then [b.hash] else []) ++ b.sends.map (·.hash) ++ sends) (by
          intro a
          rw [List.mem_cons]
          constructor
          · rintro (rfl | h)
            · exact .inr ⟨hb, rfl⟩
            · exact .inl h
          · rintro (h | ⟨_, rfl⟩)
            · exact .inr h
            · exact .inl rfl) (by
          intro x _ h _
          rw [List.mem_append, mem_outs_hash]
          constructor
          · rintro (h | h)
            · exact .inr ⟨hb, h⟩
            · exact .inl h
          · rintro (h | ⟨_, h⟩)
            · exact .inr h
            · exact .inl h)
      obtain ⟨h1, h2⟩ := fin _ _ N'
      refine ⟨h1.cons_cons b, ?_⟩
      intro x
      rw [List.mem_cons, List.mem_cons, h2]
      constructor
      · rintro (rfl | h)
        · exact ⟨.inl rfl, hb⟩
        · exact ⟨.inr h.1, h.2⟩
      · rintro ⟨rfl | h, ht⟩
        · exact .inl rfl
        · exact .inr ⟨h, ht⟩
    · rw [if_neg (fun q => hb (test.mp q))]
      obtain ⟨h1, h2⟩ := fin addrs sends (N.next (by intro a; simp [hb]) (by intro x _ h _; simp [hb]))
      refine ⟨h1.trans (List.sublist_cons_self b Q), ?_⟩
      intro x
      rw [h2, List.mem_cons]
      constructor
      · rintro ⟨h, ht⟩; exact ⟨.inr h, ht⟩
      · rintro ⟨rfl | h, ht⟩
        · exact absurd ht hb
        · exact ⟨h, ht⟩

end Verif.Lattice
