import Verif.Lattice.LatticeSpec

/-!
Effects of the batches of changes on the index.
-/

namespace Verif.Lattice

/-! ### Tables -/

theorem get_erase (k k' : Key) (t : Tbl) : Table.get k (erase k' t) = if k = k' then none else Table.get k t := by
  induction t with
  | nil => simp [erase, Table.get]
  | cons x xs ih =>
    unfold erase at ih ⊢
    by_cases hx : x.1 = k'
    · subst hx
      simp only [ne_eq, not_true_eq_false, decide_false, Bool.false_eq_true, not_false_eq_true, List.filter_cons_of_neg, ih]
      by_cases hk : k = x.1
      · simp [hk]
      · simp [hk, Table.get, Ne.symm hk]
    · simp only [ne_eq, hx, not_false_eq_true, decide_true, List.filter_cons_of_pos, Table.get, ih]
      by_cases hk : x.1 = k
      · subst hk; simp [hx]
      · simp [hk]

/-- What a change does to a key. -/
def Chg.on (k : Key) : Chg → Option (Option Val)
  | .set k' v _ => if k = k' then some (some v) else none
  | .del k' => if k = k' then some none else none

/-- What a batch does to a key, last change first. -/
def lastOn (k : Key) : Batch → Option (Option Val)
  | [] => none
  | x :: xs => (lastOn k xs).or (x.on k)

theorem get_chg (k : Key) (t : Tbl) (x : Chg) : Table.get k (x.run t) = (x.on k).getD (Table.get k t) := by
  cases x with
  | set k' v b =>
    simp only [Chg.run, Chg.on, Table.get_put]
    split <;> rfl
  | del k' =>
    simp only [Chg.run, Chg.on, get_erase]
    split <;> rfl

theorem get_run (k : Key) (bs : Batch) : ∀ t : Tbl, Table.get k (run bs t) = (lastOn k bs).getD (Table.get k t) := by
  induction bs with
  | nil => intro t; rfl
  | cons x xs ih =>
    intro t
    have h : run (x :: xs) t = run xs (x.run t) := rfl
    rw [h, ih, get_chg]
    simp only [lastOn]
    cases lastOn k xs <;> simp

theorem lastOn_append (k : Key) (xs ys : Batch) : lastOn k (xs ++ ys) = (lastOn k ys).or (lastOn k xs) := by
  induction xs with
  | nil => simp [lastOn]
  | cons x xs ih =>
    simp only [List.cons_append, lastOn, ih]
    cases lastOn k ys <;> simp

theorem run_append (xs ys : Batch) (t : Tbl) : run (xs ++ ys) t = run ys (run xs t) := by
  simp [run, List.foldl_append]

theorem lastOn_none {k : Key} {bs : Batch} (h : ∀ x ∈ bs, x.on k = none) : lastOn k bs = none := by
  induction bs with
  | nil => rfl
  | cons x xs ih =>
    simp only [lastOn, ih (fun y hy => h y (List.mem_cons_of_mem _ hy)), h x List.mem_cons_self, Option.or_none]

/-- A batch in which all changes of a key agree. -/
theorem lastOn_const {k : Key} {bs : Batch} {v : Option Val} (h : ∀ x ∈ bs, x.on k = none ∨ x.on k = some v)
    (he : ∃ x ∈ bs, x.on k = some v) : lastOn k bs = some v := by
  induction bs with
  | nil => obtain ⟨x, hx, _⟩ := he; cases hx
  | cons x xs ih =>
    simp only [lastOn]
    by_cases hs : ∃ y ∈ xs, y.on k = some v
    · rw [ih (fun y hy => h y (List.mem_cons_of_mem _ hy)) hs]; rfl
    · have hn : lastOn k xs = none := by
        apply lastOn_none
        intro y hy
        rcases h y (List.mem_cons_of_mem _ hy) with q | q
        · exact q
        · exact absurd ⟨y, hy, q⟩ hs
      rw [hn]
      obtain ⟨y, hy, q⟩ := he
      rcases List.mem_cons.mp hy with e | e
      · subst e; simp [q]
      · exact absurd ⟨y, e, q⟩ hs

/-! ### The cache of the index -/

/-- What is in the cache is in the store, and is of the kinds of keys that are read through the cache. -/
def Warm (lru mem : Tbl) : Prop := ∀ k v, Table.get k lru = some v → k.cached = true ∧ Table.get k mem = some v

theorem warm_run (bs : Batch) : ∀ lru mem : Tbl, Warm lru mem → (∀ k v, Chg.set k v true ∈ bs → k.cached = true) →
    (∀ k v, Chg.set k v false ∈ bs → k.cached = false ∨ (Table.get k lru = none ∧ ∀ v', Chg.set k v' true ∉ bs)) →
    Warm (warm bs lru) (run bs mem) := by
  induction bs with
  | nil => intro lru mem h _ _; exact h
  | cons x xs ih =>
    intro lru mem h hc hu
    have e1 : warm (x :: xs) lru = warm xs (x.warm lru) := rfl
    have e2 : run (x :: xs) mem = run xs (x.run mem) := rfl
    rw [e1, e2]
    apply ih
    · intro k v hk
      cases x with
      | del k' =>
        simp only [Chg.warm, Chg.run, get_erase] at hk ⊢
        split at hk
        · cases hk
        · rename_i ne
          rw [if_neg ne]
          exact h k v hk
      | set k' v' b =>
        cases b with
        | true =>
          simp only [Chg.warm, Chg.run, Table.get_put] at hk ⊢
          by_cases e : k = k'
          · subst e
            rw [if_pos rfl] at hk ⊢
            exact ⟨hc k v' List.mem_cons_self, hk⟩
          · rw [if_neg e] at hk ⊢
            exact h k v hk
        | false =>
          simp only [Chg.warm, Chg.run, Table.get_put] at hk ⊢
          by_cases e : k = k'
          · subst e
            rcases hu k v' List.mem_cons_self with q | q
            · rw [(h k v hk).1] at q; cases q
            · rw [q.1] at hk; cases hk
          · rw [if_neg e]
            exact h k v hk
    · intro k v hk
      exact hc k v (List.mem_cons_of_mem _ hk)
    · intro k v hk
      rcases hu k v (List.mem_cons_of_mem _ hk) with q | q
      · exact .inl q
      · right
        refine ⟨?_, fun v' hv => q.2 v' (List.mem_cons_of_mem _ hv)⟩
        cases x with
        | del k' =>
          simp only [Chg.warm, get_erase, q.1]
          split <;> rfl
        | set k' v' b =>
          cases b with
          | true =>
            simp only [Chg.warm, Table.get_put, q.1]
            split
            · rename_i e; subst e; exact absurd List.mem_cons_self (q.2 v')
            · rfl
          | false => exact q.1

/-! ### What is wanted, by kind of key -/

section wants
variable {K : List Chunk} {L : List Blk}

theorem wants_hash {h : Nat} {v : Val} : Wants K L (.hash h) v ↔ ∃ b ∈ L, h ∈ b.ids ∧ v = .at b.addr b.height := by
  cases v with
  | «at» a n =>
    simp only [Wants, Val.at.injEq]
    exact ⟨fun ⟨b, hb, x, y, z⟩ => ⟨b, hb, x, y.symm, z.symm⟩, fun ⟨b, hb, x, y, z⟩ => ⟨b, hb, x, y.symm, z.symm⟩⟩
  | _ => simp [Wants]

theorem wants_height {a n : Nat} {v : Val} : Wants K L (.height a n) v ↔
    ∃ b ∈ L, b.addr = a ∧ b.height = n ∧ v = .place b.hash (decide (b ∈ K.flatMap (·.blocks))) := by
  cases v with
  | place h f =>
    simp only [Wants, Val.place.injEq]
    constructor
    · rintro ⟨b, hb, x, y, z, w⟩
      refine ⟨b, hb, x, y, z.symm, ?_⟩
      by_cases q : b ∈ K.flatMap (·.blocks)
      · simp only [q, decide_true]; exact w.mpr q
      · simp only [q, decide_false]
        cases f with
        | false => rfl
        | true => exact absurd (w.mp rfl) q
    · rintro ⟨b, hb, x, y, z, w⟩
      refine ⟨b, hb, x, y, z.symm, ?_⟩
      rw [w]; exact decide_eq_true_iff
  | _ => simp [Wants]

theorem wants_recv {h : Nat} {v : Val} : Wants K L (.recv h) v ↔
    (∃ b ∈ L, b.takes h = true ∧ v = .by b.hash) ∨
    (v = .flag ∧ (∃ d ∈ L, ∃ s ∈ d.outs, s.hash = h) ∧ ∀ b ∈ L, b.takes h = false) := by
  cases v with
  | «by» r =>
    simp only [Wants, Val.by.injEq, reduceCtorEq, false_and, or_false]
    exact ⟨fun ⟨b, hb, x, y⟩ => ⟨b, hb, x, y.symm⟩, fun ⟨b, hb, x, y⟩ => ⟨b, hb, x, y.symm⟩⟩
  | flag => simp [Wants]
  | _ => simp [Wants]

theorem wants_road {a h : Nat} {v : Val} : Wants K L (.road a h) v ↔
    v = .flag ∧ (∃ d ∈ L, ∃ s ∈ d.outs, s.hash = h ∧ s.dest = a) ∧ ∀ b ∈ L, b.takes h = false := by
  cases v <;> simp [Wants]

theorem wants_conf {a n : Nat} {v : Val} : Wants K L (.conf a n) v ↔
    ∃ k ∈ K, v = .num k.snap.height ∧ ∃ h, (a, n, h) ∈ k.snap.content := by
  cases v with
  | num s =>
    simp only [Wants, Val.num.injEq]
    exact ⟨fun ⟨k, hk, x, y⟩ => ⟨k, hk, x.symm, y⟩, fun ⟨k, hk, x, y⟩ => ⟨k, hk, x.symm, y⟩⟩
  | _ => simp [Wants]

end wants

/-! ### Inserting a block -/

theorem takes_src {b : Blk} {h : Nat} (ht : b.takes h = true) : b.src = h := by
  simp only [Blk.takes, Bool.and_eq_true, decide_eq_true_eq] at ht
  exact ht.2

theorem takes_recv {b : Blk} {h : Nat} (ht : b.takes h = true) : b.isRecv = true := by
  simp only [Blk.takes, Bool.and_eq_true, decide_eq_true_eq] at ht
  exact ht.1.1

theorem outs_ids {b : Blk} {s : Snd} (hs : s ∈ b.outs) : s.hash ∈ b.ids := by
  simp only [Blk.outs, List.mem_append] at hs
  simp only [Blk.ids, List.mem_cons, List.mem_map]
  rcases hs with hs | hs
  · split at hs
    · simp only [List.mem_singleton] at hs; subst hs; exact .inl rfl
    · cases hs
  · exact .inr ⟨s, hs, rfl⟩

/-- The part of the changes of a block for its send list. -/
theorem lastOn_sends (k : Key) (a n : Nat) (ss : List Snd) :
    lastOn k (ss.flatMap (fun s =>
        [.set (.recv s.hash) .flag true, .set (.hash s.hash) (.at a n) true, .set (.road s.dest s.hash) .flag false])) =
    match k with
    | .hash h => if ∃ s ∈ ss, s.hash = h then some (some (.at a n)) else none
    | .recv h => if ∃ s ∈ ss, s.hash = h then some (some .flag) else none
    | .road d h => if ∃ s ∈ ss, s.hash = h ∧ s.dest = d then some (some .flag) else none
    | _ => none := by
  induction ss with
  | nil => cases k <;> simp [lastOn]
  | cons s ss ih =>
    rw [List.flatMap_cons, lastOn_append, ih]
    cases k with
    | hash h =>
      simp only [List.exists_mem_cons_iff, lastOn, Chg.on, Key.hash.injEq, reduceCtorEq, if_false, Option.none_or, Option.or_none]
      by_cases q : ∃ s ∈ ss, s.hash = h
      · simp [q]
      · by_cases e : s.hash = h
        · simp [q, e]
        · simp [q, e, Ne.symm e]
    | recv h =>
      simp only [List.exists_mem_cons_iff, lastOn, Chg.on, Key.recv.injEq, reduceCtorEq, if_false, Option.none_or, Option.or_none]
      by_cases q : ∃ s ∈ ss, s.hash = h
      · simp [q]
      · by_cases e : s.hash = h
        · simp [q, e]
        · simp [q, e, Ne.symm e]
    | road d h =>
      simp only [List.exists_mem_cons_iff, lastOn, Chg.on, Key.road.injEq, reduceCtorEq, if_false, Option.none_or, Option.or_none]
      by_cases q : ∃ s ∈ ss, s.hash = h ∧ s.dest = d
      · simp [q]
      · by_cases e : s.hash = h ∧ s.dest = d
        · simp [q, e]
        · have e' : ¬ (d = s.dest ∧ h = s.hash) := fun x => e ⟨x.2.symm, x.1.symm⟩
          simp [q, e, e']
    | height a n => simp [lastOn, Chg.on]
    | conf a n => simp [lastOn, Chg.on]

theorem lastOn_insert (k : Key) (b : Blk) : lastOn k (insertBatch b) =
    match k with
    | .hash h => if h ∈ b.ids then some (some (.at b.addr b.height)) else none
    | .height a n => if a = b.addr ∧ n = b.height then some (some (.place b.hash false)) else none
    | .recv h => if ∃ s ∈ b.outs, s.hash = h then some (some .flag) else if b.takes h = true then some (some (.by b.hash)) else none
    | .road a h => if ∃ s ∈ b.outs, s.hash = h ∧ s.dest = a then some (some .flag)
        else if b.takes h = true ∧ a = b.addr then some none else none
    | .conf _ _ => none := by
  have hs := lastOn_sends k b.addr b.height b.sends
  unfold insertBatch
  rw [lastOn_append, hs, lastOn_append]
  by_cases hr : b.isRecv = true
  · have hn : b.isSend = false := by simpa [Blk.isRecv] using hr
    by_cases hg : b.kind = .genesis
    · have ht : ∀ h, b.takes h = false := by intro h; simp [Blk.takes, hg]
      cases k with
      | hash h =>
        simp only [hr, hg, ne_eq, not_true_eq_false, if_false, if_true, lastOn, Chg.on, Key.hash.injEq, reduceCtorEq, Option.none_or, Option.or_none, Blk.ids, List.mem_cons, List.mem_map]
        by_cases q : ∃ s ∈ b.sends, s.hash = h
        · simp [q]
        · simp [q]
      | _ => simp [hr, hg, hn, ht, lastOn, Chg.on, Blk.outs]
    · have ht : ∀ h, b.takes h = true ↔ b.src = h := by intro h; simp [Blk.takes, hr, hg]
      cases k with
      | hash h =>
        simp only [hr, hg, ne_eq, not_false_eq_true, if_true, lastOn, Chg.on, Key.hash.injEq, reduceCtorEq, if_false, Option.none_or, Option.or_none, Blk.ids, List.mem_cons, List.mem_map]
        by_cases q : ∃ s ∈ b.sends, s.hash = h
        · simp [q]
        · simp [q]
      | recv h =>
        simp only [hr, hg, hn, ht, ne_eq, not_false_eq_true, if_true, lastOn, Chg.on, Key.recv.injEq, reduceCtorEq, if_false, Option.none_or, Option.or_none, Blk.outs, Bool.false_eq_true, List.nil_append]
        by_cases q : ∃ s ∈ b.sends, s.hash = h
        · simp [q]
        · by_cases e : b.src = h
          · simp [q, e]
          · simp [q, e, Ne.symm e]
      | road a h =>
        simp only [hr, hg, hn, ht, ne_eq, not_false_eq_true, if_true, lastOn, Chg.on, Key.road.injEq, reduceCtorEq, if_false, Option.none_or, Option.or_none, Blk.outs, Bool.false_eq_true, List.nil_append]
        by_cases q : ∃ s ∈ b.sends, s.hash = h ∧ s.dest = a
        · simp [q]
        · by_cases e : b.src = h ∧ a = b.addr
          · obtain ⟨rfl, rfl⟩ := e
            simp [q]
          · have e' : ¬ (a = b.addr ∧ h = b.src) := fun x => e ⟨x.2.symm, x.1⟩
            simp [q, e, e']
      | _ => simp [hr, hg, lastOn, Chg.on]
  · have hn : b.isSend = true := by simpa [Blk.isRecv] using hr
    have ht : ∀ h, b.takes h = false := by intro h; simp [Blk.takes, hr]
    cases k with
    | hash h =>
      simp only [hr, lastOn, Chg.on, Key.hash.injEq, reduceCtorEq, if_false, Option.none_or, Option.or_none, Blk.ids, List.mem_cons, List.mem_map, Bool.false_eq_true]
      by_cases q : ∃ s ∈ b.sends, s.hash = h
      · simp [q]
      · simp [q]
    | recv h =>
      simp only [hr, hn, ht, lastOn, Chg.on, Key.recv.injEq, reduceCtorEq, if_false, Option.none_or, Option.or_none, Blk.outs, Bool.false_eq_true, if_true, List.cons_append, List.nil_append, List.exists_mem_cons_iff]
      by_cases q : ∃ s ∈ b.sends, s.hash = h
      · simp [q]
      · by_cases e : b.hash = h
        · simp [q, e]
        · simp [q, e, Ne.symm e]
    | road a h =>
      simp only [hr, hn, ht, lastOn, Chg.on, Key.road.injEq, reduceCtorEq, if_false, Option.none_or, Option.or_none, Blk.outs, Bool.false_eq_true, if_true, List.cons_append, List.nil_append, List.exists_mem_cons_iff, false_and]
      by_cases q : ∃ s ∈ b.sends, s.hash = h ∧ s.dest = a
      · simp [q]
      · by_cases e : b.hash = h ∧ b.dest = a
        · simp [q, e]
        · have e' : ¬ (a = b.dest ∧ h = b.hash) := fun x => e ⟨x.2.symm, x.1.symm⟩
          simp [q, e, e']
    | _ => simp [hr, lastOn, Chg.on]

variable {U : Blk → Prop}

theorem Ledger.ids {L : List Blk} (S : Sound U) (w : Ledger U L) {x y : Blk} (hx : x ∈ L) (hy : y ∈ L) {h : Nat}
    (h1 : h ∈ x.ids) (h2 : h ∈ y.ids) : x = y :=
  let p := S.place x y h (w.known x hx) (w.known y hy) h1 h2
  w.place x hx y hy p.1 p.2

/-- Inserting a block keeps the index exact. -/
theorem exact_insert (S : Sound U) {K : List Chunk} {L : List Blk} {t : Tbl} {b : Blk} (E : Exact K L t)
    (w : Ledger U (L ++ [b])) (hK : b ∉ K.flatMap (·.blocks)) : Exact K (L ++ [b]) (run (insertBatch b) t) := by
  have hbL : b ∈ L ++ [b] := by simp
  have hnL : b ∉ L := by
    have q := w.nodup
    rw [List.nodup_append] at q
    exact fun hb => q.2.2 b hb b (by simp) rfl
  have mem : ∀ x, x ∈ L ++ [b] ↔ x ∈ L ∨ x = b := by intro x; simp
  intro k v
  rw [get_run, lastOn_insert]
  cases k with
  | hash h =>
    rw [wants_hash]
    by_cases q : h ∈ b.ids
    · simp only [if_pos q, Option.getD_some, Option.some.injEq]
      constructor
      · intro e; exact ⟨b, hbL, q, e.symm⟩
      · rintro ⟨x, hx, hh, e⟩
        rw [w.ids S hx hbL hh q] at e
        exact e.symm
    · simp only [if_neg q, Option.getD_none, E (.hash h) v, wants_hash]
      constructor
      · rintro ⟨x, hx, hh, e⟩; exact ⟨x, (mem x).mpr (.inl hx), hh, e⟩
      · rintro ⟨x, hx, hh, e⟩
        rcases (mem x).mp hx with hx | hx
        · exact ⟨x, hx, hh, e⟩
        · subst hx; exact absurd hh q
  | height a n =>
    rw [wants_height]
    by_cases q : a = b.addr ∧ n = b.height
    · simp only [if_pos q, Option.getD_some, Option.some.injEq]
      constructor
      · intro e
        refine ⟨b, hbL, q.1.symm, q.2.symm, ?_⟩
        rw [← e]; simp only [hK, decide_false]
      · rintro ⟨x, hx, h1, h2, e⟩
        have := w.place x hx b hbL (h1.trans q.1) (h2.trans q.2)
        subst this
        rw [e]; simp only [hK, decide_false]
    · simp only [if_neg q, Option.getD_none, E (.height a n) v, wants_height]
      constructor
      · rintro ⟨x, hx, r⟩; exact ⟨x, (mem x).mpr (.inl hx), r⟩
      · rintro ⟨x, hx, h1, h2, e⟩
        rcases (mem x).mp hx with hx | hx
        · exact ⟨x, hx, h1, h2, e⟩
        · subst hx; exact absurd ⟨h1.symm, h2.symm⟩ q
  | recv h =>
    rw [wants_recv]
    dsimp only
    by_cases q : ∃ s ∈ b.outs, s.hash = h
    · simp only [if_pos q, Option.getD_some, Option.some.injEq]
      have hno : ∀ x ∈ L ++ [b], x.takes h = false := by
        intro x hx
        obtain ⟨s, hs, e⟩ := q
        rcases (mem x).mp hx with hx' | hx'
        · have o := w.order
          rw [List.pairwise_append] at o
          have hd := o.2.2 x hx' b (by simp)
          cases ht : x.takes h with
          | false => rfl
          | true => exact absurd (.inr ⟨s, hs, by rw [e]; exact ht⟩) hd
        · subst hx'; rw [← e]; exact w.own x hx s hs
      constructor
      · intro e
        obtain ⟨s, hs, e'⟩ := q
        exact .inr ⟨e.symm, ⟨b, hbL, s, hs, e'⟩, hno⟩
      · rintro (⟨x, hx, ht, _⟩ | ⟨e, _⟩)
        · rw [hno x hx] at ht; cases ht
        · exact e.symm
    · rw [if_neg q]
      by_cases ht : b.takes h = true
      · simp only [if_pos ht, Option.getD_some, Option.some.injEq]
        constructor
        · intro e; exact .inl ⟨b, hbL, ht, e.symm⟩
        · rintro (⟨x, hx, ht', e⟩ | ⟨_, _, hno⟩)
          · rw [w.once x hx b hbL h ht' ht] at e; exact e.symm
          · rw [hno b hbL] at ht; cases ht
      · simp only [if_neg ht, Option.getD_none, E (.recv h) v, wants_recv]
        have ht' : b.takes h = false := by simpa using ht
        constructor
        · rintro (⟨x, hx, hx', e⟩ | ⟨e, ⟨d, hd, r⟩, hno⟩)
          · exact .inl ⟨x, (mem x).mpr (.inl hx), hx', e⟩
          · refine .inr ⟨e, ⟨d, (mem d).mpr (.inl hd), r⟩, ?_⟩
            intro x hx
            rcases (mem x).mp hx with hx | hx
            · exact hno x hx
            · subst hx; exact ht'
        · rintro (⟨x, hx, hx', e⟩ | ⟨e, ⟨d, hd, r⟩, hno⟩)
          · rcases (mem x).mp hx with hx | hx
            · exact .inl ⟨x, hx, hx', e⟩
            · subst hx; exact absurd hx' ht
          · refine .inr ⟨e, ?_, fun x hx => hno x ((mem x).mpr (.inl hx))⟩
            rcases (mem d).mp hd with hd | hd
            · exact ⟨d, hd, r⟩
            · subst hd; exact absurd r q
  | road a h =>
    rw [wants_road]
    dsimp only
    by_cases q : ∃ s ∈ b.outs, s.hash = h ∧ s.dest = a
    · simp only [if_pos q, Option.getD_some, Option.some.injEq]
      obtain ⟨s, hs, e', ea⟩ := q
      constructor
      · intro e
        refine ⟨e.symm, ⟨b, hbL, s, hs, e', ea⟩, ?_⟩
        intro x hx
        rcases (mem x).mp hx with hx' | hx'
        · have o := w.order
          rw [List.pairwise_append] at o
          have hd := o.2.2 x hx' b (by simp)
          cases ht : x.takes h with
          | false => rfl
          | true => exact absurd (.inr ⟨s, hs, by rw [e']; exact ht⟩) hd
        · subst hx'; rw [← e']; exact w.own x hx s hs
      · rintro ⟨e, _⟩; exact e.symm
    · rw [if_neg q]
      by_cases ht : b.takes h = true ∧ a = b.addr
      · simp only [if_pos ht, Option.getD_some]
        constructor
        · intro e; cases e
        · rintro ⟨_, _, hno⟩
          rw [hno b hbL] at ht
          cases ht.1
      · simp only [if_neg ht, Option.getD_none, E (.road a h) v, wants_road]
        constructor
        · rintro ⟨e, ⟨d, hd, s, hs, e1, e2⟩, hno⟩
          refine ⟨e, ⟨d, (mem d).mpr (.inl hd), s, hs, e1, e2⟩, ?_⟩
          intro x hx
          rcases (mem x).mp hx with hx | hx
          · exact hno x hx
          · subst hx
            cases ht' : x.takes h with
            | false => rfl
            | true =>
              exfalso
              apply ht
              refine ⟨ht', ?_⟩
              obtain ⟨d', hd', s', hs', e1', e2'⟩ := w.backed x hbL h ht'
              have hdd : d' = d := w.ids S hd' ((mem d).mpr (.inl hd)) (outs_ids hs') (by rw [e1', ← e1]; exact outs_ids hs)
              subst hdd
              have : s' = s := by
                have hn := S.distinct d' (w.known d' hd')
                have hp := S.plain d' (w.known d' hd')
                simp only [Blk.outs, List.mem_append] at hs hs'
                cases hsd : d'.isSend with
                | true =>
                  have hp' := hp hsd
                  simp only [hsd, if_true, hp', List.mem_singleton, List.not_mem_nil, or_false] at hs hs'
                  rw [hs, hs']
                | false =>
                  simp only [hsd, Bool.false_eq_true, if_false, List.not_mem_nil, false_or] at hs hs'
                  simp only [Blk.ids, List.nodup_cons] at hn
                  exact List.inj_on_of_nodup_map hn.2 hs' hs (by rw [e1', e1])
              subst this
              rw [← e2, e2']
        · rintro ⟨e, ⟨d, hd, s, hs, e1, e2⟩, hno⟩
          refine ⟨e, ?_, fun x hx => hno x ((mem x).mpr (.inl hx))⟩
          rcases (mem d).mp hd with hd | hd
          · exact ⟨d, hd, s, hs, e1, e2⟩
          · subst hd; exact absurd ⟨s, hs, e1, e2⟩ q
  | conf a n =>
    simp only [Option.getD_none, E (.conf a n) v, wants_conf]

end Verif.Lattice
