import Verif.Lattice.LatticeIndex

/-!
Effects of snapshots and rollbacks on the index.
-/

namespace Verif.Lattice

variable {U : Blk → Prop}

/-! ### Ledgers -/

theorem Ledger.sub {L L' : List Blk} (w : Ledger U L) (hs : L'.Sublist L) (hc : ∀ b ∈ L', ∀ d ∈ L, Dep b d → d ∈ L') : Ledger U L' where
  known b hb := w.known b (hs.subset hb)
  order := w.order.sublist hs
  nodup := w.nodup.sublist hs
  place x hx y hy := w.place x (hs.subset hx) y (hs.subset hy)
  linked b hb := by
    rcases w.linked b (hs.subset hb) with h | ⟨p, hp, h1, h2, h3⟩
    · exact .inl h
    · exact .inr ⟨p, hc b hb p hp (.inl ⟨h1.symm, by omega⟩), h1, h2, h3⟩
  backed b hb h ht := by
    obtain ⟨d, hd, s, hs', e1, e2⟩ := w.backed b (hs.subset hb) h ht
    exact ⟨d, hc b hb d hd (.inr ⟨s, hs', by rw [e1]; exact ht⟩), s, hs', e1, e2⟩
  own b hb := w.own b (hs.subset hb)
  once x hx y hy := w.once x (hs.subset hx) y (hs.subset hy)

theorem Ledger.left {P Q : List Blk} (w : Ledger U (P ++ Q)) : Ledger U P := by
  refine w.sub (List.sublist_append_left P Q) ?_
  intro b hb d hd hdep
  rcases List.mem_append.mp hd with h | h
  · exact h
  · have o := w.order
    rw [List.pairwise_append] at o
    exact absurd hdep (o.2.2 b hb d h)

theorem Ledger.reorder {L L' : List Blk} (w : Ledger U L) (hm : ∀ x, x ∈ L' ↔ x ∈ L) (hn : L'.Nodup)
    (ho : L'.Pairwise (fun x y => ¬ Dep x y)) : Ledger U L' where
  known b hb := w.known b ((hm b).mp hb)
  order := ho
  nodup := hn
  place x hx y hy := w.place x ((hm x).mp hx) y ((hm y).mp hy)
  linked b hb := by
    rcases w.linked b ((hm b).mp hb) with h | ⟨p, hp, h⟩
    · exact .inl h
    · exact .inr ⟨p, (hm p).mpr hp, h⟩
  backed b hb h ht := by
    obtain ⟨d, hd, r⟩ := w.backed b ((hm b).mp hb) h ht
    exact ⟨d, (hm d).mpr hd, r⟩
  own b hb := w.own b ((hm b).mp hb)
  once x hx y hy := w.once x ((hm x).mp hx) y ((hm y).mp hy)

theorem Ledger.hash_inj {L : List Blk} (S : Sound U) (w : Ledger U L) {x y : Blk} (hx : x ∈ L) (hy : y ∈ L) (h : x.hash = y.hash) : x = y :=
  w.ids S hx hy (h := x.hash) (by simp [Blk.ids]) (by simp [Blk.ids, h])

/-- The sends of one block have different hashes. -/
theorem outs_inj (S : Sound U) {d : Blk} (hd : U d) {s s' : Snd} (hs : s ∈ d.outs) (hs' : s' ∈ d.outs) (h : s.hash = s'.hash) : s = s' := by
  have hn := S.distinct d hd
  have hp := S.plain d hd
  simp only [Blk.outs, List.mem_append] at hs hs'
  cases hsd : d.isSend with
  | true =>
    have hp' := hp hsd
    simp only [hsd, if_true, hp', List.mem_singleton, List.not_mem_nil, or_false] at hs hs'
    rw [hs, hs']
  | false =>
    simp only [hsd, Bool.false_eq_true, if_false, List.not_mem_nil, false_or] at hs hs'
    simp only [Blk.ids, List.nodup_cons] at hn
    exact List.inj_on_of_nodup_map hn.2 hs hs' h

theorem exact_congr {K : List Chunk} {L L' : List Blk} {t : Tbl} (E : Exact K L t) (hm : ∀ x, x ∈ L' ↔ x ∈ L) : Exact K L' t := by
  intro k v
  rw [E k v]
  cases k with
  | hash h => simp only [wants_hash, hm]
  | height a n => simp only [wants_height, hm]
  | recv h => simp only [wants_recv, hm]
  | road a h => simp only [wants_road, hm]
  | conf a n => simp only [wants_conf]

/-- Two exact stores answer alike. -/
theorem exact_get {K : List Chunk} {L : List Blk} {t t' : Tbl} (E : Exact K L t) (E' : Exact K L t') (k : Key) :
    Table.get k t = Table.get k t' := by
  cases h : Table.get k t with
  | none =>
    cases h' : Table.get k t' with
    | none => rfl
    | some v => rw [(E k v).mpr ((E' k v).mp h')] at h; cases h
  | some v => exact ((E' k v).mpr ((E k v).mp h)).symm

/-- Inserting several blocks. -/
theorem exact_inserts (S : Sound U) {K : List Chunk} : ∀ (bs L : List Blk) (t : Tbl), Exact K L t → Ledger U (L ++ bs) →
    (∀ b ∈ bs, b ∉ K.flatMap (·.blocks)) → Exact K (L ++ bs) (run (bs.flatMap insertBatch) t) := by
  intro bs
  induction bs with
  | nil => intro L t E w _; simpa [run] using E
  | cons b bs ih =>
    intro L t E w hK
    have e : L ++ b :: bs = (L ++ [b]) ++ bs := by simp
    rw [e] at w ⊢
    rw [List.flatMap_cons, run_append]
    exact ih _ _ (exact_insert S E w.left (hK b List.mem_cons_self)) w (fun x hx => hK x (List.mem_cons_of_mem _ hx))

/-! ### Snapshots -/

open Classical in
theorem lastOn_confs (a n : Nat) (s : Nat) (es : List (Nat × Nat × Nat)) :
    lastOn (.conf a n) (es.map (fun e => Chg.set (.conf e.1 e.2.1) (.num s) false)) =
      if ∃ h, (a, n, h) ∈ es then some (some (.num s)) else none := by
  split
  · rename_i q
    obtain ⟨h, q⟩ := q
    apply lastOn_const
    · intro x hx
      obtain ⟨e, _, rfl⟩ := List.mem_map.mp hx
      simp only [Chg.on]
      split
      · exact .inr rfl
      · exact .inl rfl
    · exact ⟨_, List.mem_map.mpr ⟨_, q, rfl⟩, by simp [Chg.on]⟩
  · rename_i q
    apply lastOn_none
    intro x hx
    obtain ⟨e, he, rfl⟩ := List.mem_map.mp hx
    simp only [Chg.on, Key.conf.injEq]
    rw [if_neg]
    rintro ⟨rfl, rfl⟩
    exact q ⟨e.2.2, he⟩

theorem lastOn_snap_other {k : Key} (s : Snap) (bs : List Blk) (h1 : ∀ a n, k ≠ .conf a n) (h2 : ∀ a n, k ≠ .height a n) :
    lastOn k (snapBatch s bs) = none := by
  apply lastOn_none
  intro x hx
  simp only [snapBatch, List.mem_append, List.mem_map] at hx
  rcases hx with ⟨e, _, rfl⟩ | ⟨b, _, rfl⟩
  · simp only [Chg.on]; exact if_neg (h1 _ _)
  · simp only [Chg.on]; exact if_neg (h2 _ _)

open Classical in
/-- A snapshot keeps the index exact. -/
theorem exact_snap {K : List Chunk} {L : List Blk} {t : Tbl} {s : Snap} {bs : List Blk} (E : Exact K L t) (w : Ledger U L)
    (hb : ∀ b ∈ bs, b ∈ L) (hc : ∀ a n h, (a, n, h) ∈ s.content → ∀ k ∈ K, ∀ h', (a, n, h') ∉ k.snap.content) :
    Exact (K ++ [⟨s, bs⟩]) L (run (snapBatch s bs) t) := by
  have hmem : ∀ x : Blk, x ∈ (K ++ [(⟨s, bs⟩ : Chunk)]).flatMap (·.blocks) ↔ x ∈ K.flatMap (·.blocks) ∨ x ∈ bs := by
    intro x; simp [List.flatMap_append]
  intro k v
  rw [get_run]
  cases k with
  | hash h => rw [lastOn_snap_other s bs (by simp) (by simp), Option.getD_none, E, wants_hash, wants_hash]
  | recv h => rw [lastOn_snap_other s bs (by simp) (by simp), Option.getD_none, E, wants_recv, wants_recv]
  | road a h => rw [lastOn_snap_other s bs (by simp) (by simp), Option.getD_none, E, wants_road, wants_road]
  | height a n =>
    have hcf : lastOn (.height a n) (s.content.map (fun e => Chg.set (.conf e.1 e.2.1) (.num s.height) false)) = none := by
      apply lastOn_none
      intro x hx
      obtain ⟨e, _, rfl⟩ := List.mem_map.mp hx
      simp [Chg.on]
    unfold snapBatch
    rw [lastOn_append, hcf, Option.or_none, wants_height]
    by_cases q : ∃ b ∈ bs, b.addr = a ∧ b.height = n
    · obtain ⟨b, hbb, rfl, rfl⟩ := q
      have hl : lastOn (.height b.addr b.height) (bs.map (fun b => Chg.set (.height b.addr b.height) (.place b.hash true) true)) =
          some (some (.place b.hash true)) := by
        apply lastOn_const
        · intro x hx
          obtain ⟨d, hd, rfl⟩ := List.mem_map.mp hx
          simp only [Chg.on, Key.height.injEq]
          split
          · rename_i e
            right
            rw [w.place b (hb b hbb) d (hb d hd) e.1 e.2]
          · exact .inl rfl
        · exact ⟨_, List.mem_map.mpr ⟨b, hbb, rfl⟩, by simp [Chg.on]⟩
      rw [hl]
      simp only [Option.getD_some, Option.some.injEq]
      constructor
      · intro e
        refine ⟨b, hb b hbb, rfl, rfl, ?_⟩
        rw [← e]
        have : b ∈ (K ++ [(⟨s, bs⟩ : Chunk)]).flatMap (·.blocks) := (hmem b).mpr (.inr hbb)
        simp only [this, decide_true]
      · rintro ⟨x, hx, h1, h2, e⟩
        have := w.place x hx b (hb b hbb) h1 h2
        subst this
        have : x ∈ (K ++ [(⟨s, bs⟩ : Chunk)]).flatMap (·.blocks) := (hmem x).mpr (.inr hbb)
        rw [e]; simp only [this, decide_true]
    · have hl : lastOn (.height a n) (bs.map (fun b => Chg.set (.height b.addr b.height) (.place b.hash true) true)) = none := by
        apply lastOn_none
        intro x hx
        obtain ⟨d, hd, rfl⟩ := List.mem_map.mp hx
        simp only [Chg.on, Key.height.injEq]
        rw [if_neg]
        rintro ⟨rfl, rfl⟩
        exact q ⟨d, hd, rfl, rfl⟩
      rw [hl, Option.getD_none, E, wants_height]
      constructor
      · rintro ⟨x, hx, h1, h2, e⟩
        refine ⟨x, hx, h1, h2, ?_⟩
        have hx' : x ∉ bs := fun hx' => q ⟨x, hx', h1, h2⟩
        rw [e]; congr 1
        rw [decide_eq_decide, hmem]
        simp only [hx', or_false]
      · rintro ⟨x, hx, h1, h2, e⟩
        refine ⟨x, hx, h1, h2, ?_⟩
        have hx' : x ∉ bs := fun hx' => q ⟨x, hx', h1, h2⟩
        rw [e]; congr 1
        rw [decide_eq_decide, hmem]
        simp only [hx', or_false]
  | conf a n =>
    have hh : lastOn (.conf a n) (bs.map (fun b => Chg.set (.height b.addr b.height) (.place b.hash true) true)) = none := by
      apply lastOn_none
      intro x hx
      obtain ⟨d, hd, rfl⟩ := List.mem_map.mp hx
      simp [Chg.on]
    unfold snapBatch
    rw [lastOn_append, hh, Option.none_or, lastOn_confs, wants_conf]
    by_cases q : ∃ h, (a, n, h) ∈ s.content
    · simp only [if_pos q, Option.getD_some, Option.some.injEq]
      constructor
      · intro e; exact ⟨(⟨s, bs⟩ : Chunk), by simp, e.symm, q⟩
      · rintro ⟨k, hk, e, h', hh'⟩
        rcases List.mem_append.mp hk with hk | hk
        · obtain ⟨h, q⟩ := q
          exact absurd hh' (hc a n h q k hk h')
        · simp only [List.mem_singleton] at hk
          subst hk; exact e.symm
    · simp only [if_neg q, Option.getD_none, E (.conf a n) v, wants_conf]
      constructor
      · rintro ⟨k, hk, r⟩; exact ⟨k, List.mem_append_left _ hk, r⟩
      · rintro ⟨k, hk, e, r⟩
        rcases List.mem_append.mp hk with hk | hk
        · exact ⟨k, hk, e, r⟩
        · simp only [List.mem_singleton] at hk
          subst hk; exact absurd r q

/-! ### Rollback -/

/-- A deleted list can be taken in this order: later blocks may receive sends of earlier ones, not the other way round. -/
structure Tidy (D : List Blk) : Prop where
  plain : ∀ d ∈ D, d.isSend = true → d.sends = []
  real : ∀ d ∈ D, d.kind ≠ .genesis
  own : ∀ d ∈ D, ∀ s ∈ d.outs, d.takes s.hash = false
  once : D.Pairwise (fun x y => ∀ h, ¬ (x.takes h = true ∧ y.takes h = true))
  order : D.Pairwise (fun x y => ∀ s ∈ y.outs, x.takes s.hash = false)

theorem Tidy.tail {b : Blk} {D : List Blk} (t : Tidy (b :: D)) : Tidy D :=
  ⟨fun d hd => t.plain d (List.mem_cons_of_mem _ hd), fun d hd => t.real d (List.mem_cons_of_mem _ hd),
   fun d hd => t.own d (List.mem_cons_of_mem _ hd), (List.pairwise_cons.mp t.once).2, (List.pairwise_cons.mp t.order).2⟩

theorem Ledger.tidy (S : Sound U) {L D : List Blk} (w : Ledger U L) (hs : D.Sublist L) (hg : ∀ d ∈ D, d.kind ≠ .genesis) : Tidy D where
  plain d hd := S.plain d (w.known d (hs.subset hd))
  real := hg
  own d hd := w.own d (hs.subset hd)
  once := by
    have hn := w.nodup.sublist hs
    have := List.Pairwise.imp_of_mem (R := (· ≠ ·)) (S := fun x y => ∀ h, ¬ (x.takes h = true ∧ y.takes h = true)) (l := D) (by
      intro x y hx hy hne h hh
      exact hne (w.once x (hs.subset hx) y (hs.subset hy) h hh.1 hh.2)) hn
    exact this
  order := (w.order.sublist hs).imp (fun {x y} h s hs' => by
    cases ht : x.takes s.hash with
    | false => rfl
    | true => exact absurd (.inr ⟨s, hs', ht⟩) h)

/-- Deleting the blocks of a list touches the keys of their hashes, heights, received sends. -/
def Out (D : List Blk) (O : List Snd) (h : Nat) : Prop := (∃ s ∈ O, s.hash = h) ∨ ∃ d ∈ D, ∃ s ∈ d.outs, s.hash = h

theorem takes_iff {b : Blk} (hr : b.isRecv = true) (hg : b.kind ≠ .genesis) (h : Nat) : b.takes h = true ↔ b.src = h := by
  simp [Blk.takes, hr, hg]

theorem outs_recv {b : Blk} (hr : b.isRecv = true) : b.outs = b.sends := by
  have hn : b.isSend = false := by simpa [Blk.isRecv] using hr
  simp [Blk.outs, hn]

theorem not_recv {b : Blk} (hr : ¬ b.isRecv = true) : b.isSend = true := by simpa [Blk.isRecv] using hr

open Classical in
/-- What the deletion of blocks does. -/
theorem drop_char (D : List Blk) : ∀ O : List Snd, Tidy D →
    (∀ s, s ∈ (dropBlocks D O).2 ↔ (s ∈ O ∨ ∃ d ∈ D, s ∈ d.outs) ∧ ∀ d ∈ D, d.takes s.hash = false) ∧
    (∀ h, lastOn (.hash h) (dropBlocks D O).1 = if ∃ d ∈ D, h ∈ d.ids then some none else none) ∧
    (∀ a n, lastOn (.height a n) (dropBlocks D O).1 = if ∃ d ∈ D, d.addr = a ∧ d.height = n then some none else none) ∧
    (∀ h, lastOn (.recv h) (dropBlocks D O).1 =
      if ∃ d ∈ D, d.takes h = true then (if Out D O h then some none else some (some .flag)) else none) ∧
    (∀ a h, lastOn (.road a h) (dropBlocks D O).1 =
      if (∃ d ∈ D, d.takes h = true ∧ d.addr = a) ∧ ¬ Out D O h then some (some .flag) else none) ∧
    (∀ a n, lastOn (.conf a n) (dropBlocks D O).1 = none) := by
  induction D with
  | nil => intro O _; simp [dropBlocks, lastOn]
  | cons b D ih =>
    intro O T
    by_cases hr : b.isRecv = true
    · have hg := T.real b List.mem_cons_self
      have ht := takes_iff hr hg
      have ho := outs_recv hr
      have hown : ∀ s ∈ b.sends, s.hash ≠ b.src := by
        intro s hs e
        have := T.own b List.mem_cons_self s (by rw [ho]; exact hs)
        rw [(ht s.hash).mpr e.symm] at this; cases this
      have hlater : ∀ d ∈ D, ∀ s ∈ d.outs, s.hash ≠ b.src := by
        intro d hd s hs e
        have := (List.pairwise_cons.mp T.order).1 d hd s hs
        rw [(ht s.hash).mpr e.symm] at this; cases this
      have honce : ∀ d ∈ D, d.takes b.src = false := by
        intro d hd
        cases q : d.takes b.src with
        | false => rfl
        | true => exact absurd ⟨(ht b.src).mpr rfl, q⟩ ((List.pairwise_cons.mp T.once).1 d hd b.src)
      -- the two cases, by the sends met so far
      set mine : Batch × List Snd :=
        if O.any (fun s => s.hash = b.src) then ([.del (.recv b.src)], O.filter (fun s => s.hash ≠ b.src))
        else ([.set (.road b.addr b.src) .flag false, .set (.recv b.src) .flag true], O) with hmine
      have hO' : ∀ s, s ∈ mine.2 ↔ s ∈ O ∧ s.hash ≠ b.src := by
        intro s
        rw [hmine]
        split
        · simp [List.mem_filter]
        · rename_i q
          simp only [Bool.not_eq_true, List.any_eq_false, decide_eq_true_eq] at q
          exact ⟨fun h => ⟨h, q s h⟩, fun h => h.1⟩
      have hany : (O.any (fun s => s.hash = b.src) = true) ↔ ∃ s ∈ O, s.hash = b.src := by simp
      obtain ⟨i1, i2, i3, i4, i5, i6⟩ := ih (b.sends ++ mine.2) T.tail
      have e1 : (dropBlocks (b :: D) O).1 = [.del (.hash b.hash), .del (.height b.addr b.height)] ++ mine.1 ++
          b.sends.map (fun s => .del (.hash s.hash)) ++ (dropBlocks D (b.sends ++ mine.2)).1 := by
        simp only [dropBlocks, hr, if_true, hmine]
      have e2 : (dropBlocks (b :: D) O).2 = (dropBlocks D (b.sends ++ mine.2)).2 := by
        simp only [dropBlocks, hr, if_true, hmine]
      -- changes of other keys by the send list
      have hsl : ∀ k, (∀ h, k ≠ Key.hash h) → lastOn k (b.sends.map (fun s => Chg.del (.hash s.hash))) = none := by
        intro k hk
        apply lastOn_none
        intro x hx
        obtain ⟨s, _, rfl⟩ := List.mem_map.mp hx
        simp only [Chg.on]; exact if_neg (hk _)
      have hout : ∀ h, h ≠ b.src → (Out D (b.sends ++ mine.2) h ↔ Out (b :: D) O h) := by
        intro h hh
        unfold Out
        simp only [List.mem_append, hO', List.exists_mem_cons_iff, ho]
        constructor
        · rintro (⟨s, hs | hs, e⟩ | q)
          · exact .inr (.inl ⟨s, hs, e⟩)
          · exact .inl ⟨s, hs.1, e⟩
          · exact .inr (.inr q)
        · rintro (⟨s, hs, e⟩ | ⟨s, hs, e⟩ | q)
          · exact .inl ⟨s, .inr ⟨hs, by rw [e]; exact hh⟩, e⟩
          · exact .inl ⟨s, .inl hs, e⟩
          · exact .inr q
      have houts : Out (b :: D) O b.src ↔ ∃ s ∈ O, s.hash = b.src := by
        unfold Out
        simp only [List.exists_mem_cons_iff, ho]
        constructor
        · rintro (q | ⟨s, hs, e⟩ | ⟨d, hd, s, hs, e⟩)
          · exact q
          · exact absurd e (hown s hs)
          · exact absurd e (hlater d hd s hs)
        · exact .inl
      refine ⟨?_, ?_, ?_, ?_, ?_, ?_⟩
      · intro s
        rw [e2, i1]
        simp only [List.mem_append, hO', List.exists_mem_cons_iff, List.forall_mem_cons, ho]
        constructor
        · rintro ⟨(hs | hs) | hs, hn⟩
          · refine ⟨.inr (.inl hs), ?_, hn⟩
            cases q : b.takes s.hash with
            | false => rfl
            | true => exact absurd ((ht _).mp q).symm (hown s hs)
          · refine ⟨.inl hs.1, ?_, hn⟩
            cases q : b.takes s.hash with
            | false => rfl
            | true => exact absurd ((ht _).mp q).symm hs.2
          · refine ⟨.inr (.inr hs), ?_, hn⟩
            obtain ⟨d, hd, hs⟩ := hs
            cases q : b.takes s.hash with
            | false => rfl
            | true => exact absurd ((ht _).mp q).symm (hlater d hd s hs)
        · rintro ⟨hs | hs | hs, hb, hn⟩
          · refine ⟨.inl (.inr ⟨hs, fun e => ?_⟩), hn⟩
            rw [(ht s.hash).mpr e.symm] at hb; cases hb
          · exact ⟨.inl (.inl hs), hn⟩
          · exact ⟨.inr hs, hn⟩
      · intro h
        rw [e1, lastOn_append, i2, lastOn_append, lastOn_append]
        have hm : lastOn (.hash h) mine.1 = none := by
          rw [hmine]; split <;> simp [lastOn, Chg.on]
        have hsd : lastOn (.hash h) (b.sends.map (fun s => Chg.del (.hash s.hash))) = if ∃ s ∈ b.sends, s.hash = h then some none else none := by
          split
          · rename_i q
            obtain ⟨s, hs, e⟩ := q
            apply lastOn_const
            · intro x hx
              obtain ⟨s', _, rfl⟩ := List.mem_map.mp hx
              simp only [Chg.on]; split
              · exact .inr rfl
              · exact .inl rfl
            · exact ⟨_, List.mem_map.mpr ⟨s, hs, rfl⟩, by simp [Chg.on, e]⟩
          · rename_i q
            apply lastOn_none
            intro x hx
            obtain ⟨s, hs, rfl⟩ := List.mem_map.mp hx
            simp only [Chg.on, Key.hash.injEq]
            rw [if_neg]
            intro e; exact q ⟨s, hs, e.symm⟩
        rw [hm, hsd]
        simp only [List.exists_mem_cons_iff]
        simp only [Blk.ids, List.mem_cons, List.mem_map, lastOn, Chg.on, Key.hash.injEq, reduceCtorEq, if_false, Option.none_or]
        by_cases q1 : ∃ d ∈ D, h = d.hash ∨ ∃ s ∈ d.sends, s.hash = h
        · simp only [q1, if_true, or_true, Option.some_or]
        · by_cases q2 : ∃ s ∈ b.sends, s.hash = h
          · simp only [q1, q2, if_true, if_false, or_true, true_or, Option.some_or, Option.none_or]
          · simp only [q1, q2, if_false, or_false, Option.none_or]
      · intro a n
        rw [e1, lastOn_append, i3, lastOn_append, lastOn_append, hsl _ (by simp)]
        have hm : lastOn (.height a n) mine.1 = none := by
          rw [hmine]; split <;> simp [lastOn, Chg.on]
        rw [hm]
        simp only [List.exists_mem_cons_iff, lastOn, Chg.on, Key.height.injEq, reduceCtorEq, if_false, Option.none_or, Option.or_none]
        by_cases q1 : ∃ d ∈ D, d.addr = a ∧ d.height = n
        · simp only [q1, if_true, or_true, Option.some_or]
        · simp only [q1, if_false, or_false, Option.none_or]
          by_cases q2 : b.addr = a ∧ b.height = n
          · rw [if_pos q2, if_pos ⟨q2.1.symm, q2.2.symm⟩]
          · rw [if_neg q2, if_neg (fun q => q2 ⟨q.1.symm, q.2.symm⟩)]
      · intro h
        rw [e1, lastOn_append, i4, lastOn_append, lastOn_append, hsl _ (by simp)]
        simp only [List.exists_mem_cons_iff, lastOn, Chg.on, reduceCtorEq, if_false, Option.none_or, Option.or_none]
        by_cases q1 : ∃ d ∈ D, d.takes h = true
        · have hne : h ≠ b.src := by
            rintro rfl
            obtain ⟨d, hd, q⟩ := q1
            rw [honce d hd] at q; cases q
          rw [if_pos q1, if_pos (show b.takes h = true ∨ ∃ d ∈ D, d.takes h = true from .inr q1)]
          by_cases q2 : Out (b :: D) O h
          · rw [if_pos q2, if_pos ((hout h hne).mpr q2)]; rfl
          · rw [if_neg q2, if_neg (fun q => q2 ((hout h hne).mp q))]; rfl
        · rw [if_neg q1, Option.none_or]
          by_cases q2 : b.src = h
          · subst q2
            rw [if_pos (.inl ((ht _).mpr rfl)), hmine]
            by_cases q3 : O.any (fun s => s.hash = b.src) = true
            · rw [if_pos q3, if_pos (houts.mpr (hany.mp q3))]; simp [lastOn, Chg.on]
            · rw [if_neg q3, if_neg (fun q => q3 (hany.mpr (houts.mp q)))]; simp [lastOn, Chg.on]
          · rw [if_neg (by rintro (q | q); exact q2 ((ht _).mp q); exact q1 q), hmine]
            split <;> simp [lastOn, Chg.on, Ne.symm q2]
      · intro a h
        rw [e1, lastOn_append, i5, lastOn_append, lastOn_append, hsl _ (by simp)]
        simp only [List.exists_mem_cons_iff, lastOn, Chg.on, reduceCtorEq, if_false, Option.none_or, Option.or_none]
        by_cases q2 : b.src = h
        · subst q2
          have q1 : ¬ ∃ d ∈ D, d.takes b.src = true ∧ d.addr = a := by
            rintro ⟨d, hd, q, _⟩
            rw [honce d hd] at q; cases q
          rw [if_neg (fun q => q1 q.1), Option.none_or, hmine]
          by_cases q3 : O.any (fun s => s.hash = b.src) = true
          · rw [if_pos q3, if_neg (fun q => q.2 (houts.mpr (hany.mp q3)))]; simp [lastOn, Chg.on]
          · rw [if_neg q3]
            by_cases q4 : b.addr = a
            · rw [if_pos ⟨.inl ⟨(ht _).mpr rfl, q4⟩, fun q => q3 (hany.mpr (houts.mp q))⟩]; simp [lastOn, Chg.on, q4]
            · rw [if_neg (by rintro ⟨q | q, _⟩; exact q4 q.2; exact q1 q)]; simp [lastOn, Chg.on, Ne.symm q4]
        · have hm : lastOn (.road a h) mine.1 = none := by
            rw [hmine]; split <;> simp [lastOn, Chg.on, Ne.symm q2]
          rw [hm, Option.or_none, hout h (Ne.symm q2)]
          have q5 : (b.takes h = true ∧ b.addr = a) ↔ False := by
            rw [ht]; simp [q2]
          simp only [q5, false_or]
      · intro a n
        rw [e1, lastOn_append, i6, lastOn_append, lastOn_append, hsl _ (by simp)]
        have hm : lastOn (.conf a n) mine.1 = none := by
          rw [hmine]; split <;> simp [lastOn, Chg.on]
        rw [hm]; simp [lastOn, Chg.on]
    · have hsd := not_recv hr
      have hp := T.plain b List.mem_cons_self hsd
      have ho : b.outs = [⟨b.hash, b.dest⟩] := by simp [Blk.outs, hsd, hp]
      have ht : ∀ h, b.takes h = false := by intro h; simp [Blk.takes, hr]
      obtain ⟨i1, i2, i3, i4, i5, i6⟩ := ih (⟨b.hash, b.dest⟩ :: O) T.tail
      have e1 : (dropBlocks (b :: D) O).1 = [.del (.hash b.hash), .del (.height b.addr b.height)] ++ (dropBlocks D (⟨b.hash, b.dest⟩ :: O)).1 := by
        simp only [dropBlocks, hr, if_false, Bool.false_eq_true]
      have e2 : (dropBlocks (b :: D) O).2 = (dropBlocks D (⟨b.hash, b.dest⟩ :: O)).2 := by
        simp only [dropBlocks, hr, if_false, Bool.false_eq_true]
      have hout : ∀ h, Out D (⟨b.hash, b.dest⟩ :: O) h ↔ Out (b :: D) O h := by
        intro h
        unfold Out
        simp only [List.exists_mem_cons_iff, ho, List.not_mem_nil, false_and, exists_false, or_false]
        constructor
        · rintro ((q | q) | q)
          · exact .inr (.inl q)
          · exact .inl q
          · exact .inr (.inr q)
        · rintro (q | q | q)
          · exact .inl (.inr q)
          · exact .inl (.inl q)
          · exact .inr q
      refine ⟨?_, ?_, ?_, ?_, ?_, ?_⟩
      · intro s
        rw [e2, i1]
        simp only [List.exists_mem_cons_iff, List.forall_mem_cons]
        simp only [List.mem_cons, ho, ht, List.not_mem_nil, or_false, true_and]
        constructor
        · rintro ⟨(hs | hs) | hs, hn⟩
          · exact ⟨.inr (.inl hs), hn⟩
          · exact ⟨.inl hs, hn⟩
          · exact ⟨.inr (.inr hs), hn⟩
        · rintro ⟨hs | hs | hs, hn⟩
          · exact ⟨.inl (.inr hs), hn⟩
          · exact ⟨.inl (.inl hs), hn⟩
          · exact ⟨.inr hs, hn⟩
      · intro h
        rw [e1, lastOn_append, i2]
        simp only [List.exists_mem_cons_iff]
        simp only [Blk.ids, hp, List.map_nil, List.mem_cons, List.not_mem_nil, or_false, lastOn, Chg.on, Key.hash.injEq, reduceCtorEq, if_false, Option.none_or]
        by_cases q1 : ∃ d ∈ D, h = d.hash ∨ h ∈ d.sends.map (·.hash)
        · simp only [q1, if_true, or_true, Option.some_or]
        · simp only [q1, if_false, or_false, Option.none_or]
      · intro a n
        rw [e1, lastOn_append, i3]
        simp only [List.exists_mem_cons_iff, lastOn, Chg.on, Key.height.injEq, reduceCtorEq, if_false, Option.or_none]
        by_cases q1 : ∃ d ∈ D, d.addr = a ∧ d.height = n
        · simp only [q1, if_true, or_true, Option.some_or]
        · simp only [q1, if_false, or_false, Option.none_or]
          by_cases q2 : b.addr = a ∧ b.height = n
          · rw [if_pos q2, if_pos ⟨q2.1.symm, q2.2.symm⟩]
          · rw [if_neg q2, if_neg (fun q => q2 ⟨q.1.symm, q.2.symm⟩)]
      · intro h
        rw [e1, lastOn_append, i4]
        simp only [List.exists_mem_cons_iff, lastOn, Chg.on, reduceCtorEq, if_false, Option.or_none, ht, Bool.false_eq_true, false_or, hout]
      · intro a h
        rw [e1, lastOn_append, i5]
        simp only [List.exists_mem_cons_iff, lastOn, Chg.on, reduceCtorEq, if_false, Option.or_none, ht, Bool.false_eq_true, false_and, false_or, hout]
      · intro a n
        rw [e1, lastOn_append, i6]; simp [lastOn, Chg.on]

end Verif.Lattice
