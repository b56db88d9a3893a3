import Verif.Lattice.LatticeDrop

/-!
The invariant of the chain, and what the queries answer under it.
-/

namespace Verif.Lattice

variable {U : Blk → Prop}

/-- The last block of an account. -/
def Last (L : List Blk) (a : Nat) (b : Blk) : Prop := b ∈ L ∧ b.addr = a ∧ ∀ x ∈ L, x.addr = a → x.height ≤ b.height

structure Inv (U : Blk → Prop) (c : Chain) : Prop where
  ledger : Ledger U c.all
  mem : Exact c.chunks c.all c.mem
  disk : Exact c.chunks c.confirmed c.disk
  pm : Table.Proper c.mem
  pd : Table.Proper c.disk
  pend : c.pend = c.unconf.map (fun b => (b.hash, insertBatch b))
  warm : Warm c.lru c.mem
  ds1 : ∀ b ∈ c.unconf, b ∈ c.ds
  ds2 : ∀ b ∈ c.ds, b ∈ c.all
  hot : ∀ a h, Table.get a c.hot = some h → ∃ b, Last c.all a b ∧ b.hash = h
  heights : c.chunks.map (·.snap.height) = List.range' 1 c.chunks.length
  nonempty : c.chunks ≠ []
  content : ∀ k ∈ c.chunks, ∀ a n h, (a, n, h) ∈ k.snap.content ↔ ∃ b, Last k.blocks a b ∧ b.height = n ∧ b.hash = h
  gen1 : ∀ k ∈ c.chunks, ∀ b ∈ k.blocks, b.kind = .genesis → k.snap.height = 1
  gen2 : ∀ b ∈ c.unconf, b.kind ≠ .genesis
  dest : ∀ b ∈ c.all, b.isRecv = true → b.dest = 0
  made : ∀ h s, Table.get h c.made = some s → ∃ b ∈ c.all, b.hash = h ∧ b.kind = .create ∧
    ((b ∈ c.unconf ∧ s = 0) ∨ ∃ k ∈ c.chunks, b ∈ k.blocks ∧ s = k.snap.height)

variable {c : Chain}

theorem mem_all {b : Blk} : b ∈ c.all ↔ b ∈ c.confirmed ∨ b ∈ c.unconf := by simp [Chain.all]

theorem Inv.value (I : Inv U c) (k : Key) : c.value k = Table.get k c.mem := by
  unfold Chain.value
  cases h : Table.get k c.lru with
  | none => rfl
  | some v => rw [(I.warm k v h).2]; rfl

theorem Inv.unconf_not (I : Inv U c) {b : Blk} (hb : b ∈ c.unconf) : b ∉ c.confirmed := by
  have n := I.ledger.nodup
  unfold Chain.all at n
  rw [List.nodup_append] at n
  exact fun h => n.2.2 b h b hb rfl

theorem find_place {L : List Blk} (hp : ∀ x ∈ L, ∀ y ∈ L, x.addr = y.addr → x.height = y.height → x = y) {a n : Nat} {b : Blk} :
    L.find? (fun b => b.addr = a && b.height = n) = some b ↔ b ∈ L ∧ b.addr = a ∧ b.height = n := by
  constructor
  · intro h
    have h1 := List.mem_of_find?_eq_some h
    have h2 := List.find?_some h
    simp only [Bool.and_eq_true, decide_eq_true_eq] at h2
    exact ⟨h1, h2⟩
  · rintro ⟨h1, h2, h3⟩
    cases h : L.find? (fun b => b.addr = a && b.height = n) with
    | none =>
      rw [List.find?_eq_none] at h
      have := h b h1
      simp [h2, h3] at this
    | some d =>
      have h4 := List.mem_of_find?_eq_some h
      have h5 := List.find?_some h
      simp only [Bool.and_eq_true, decide_eq_true_eq] at h5
      rw [hp d h4 b h1 (h5.1.trans h2.symm) (h5.2.trans h3.symm)]

theorem find_ids {L : List Blk} (hp : ∀ x ∈ L, ∀ y ∈ L, ∀ h, h ∈ x.ids → h ∈ y.ids → x = y) {h : Nat} {b : Blk} :
    L.find? (fun b => h ∈ b.ids) = some b ↔ b ∈ L ∧ h ∈ b.ids := by
  constructor
  · intro q
    have h1 := List.mem_of_find?_eq_some q
    have h2 := List.find?_some q
    simp only [decide_eq_true_eq] at h2
    exact ⟨h1, h2⟩
  · rintro ⟨h1, h2⟩
    cases q : L.find? (fun b => h ∈ b.ids) with
    | none =>
      rw [List.find?_eq_none] at q
      have := q b h1
      simp [h2] at this
    | some d =>
      have h4 := List.mem_of_find?_eq_some q
      have h5 := List.find?_some q
      simp only [decide_eq_true_eq] at h5
      rw [hp d h4 b h1 h h5 h2]

theorem or_iff {α : Type} {x y : Option α} {P Q : α → Prop} {b : α} (hx : ∀ b, x = some b ↔ P b) (hy : ∀ b, y = some b ↔ Q b)
    (hu : ∀ b d, P b → Q d → b = d) : x.or y = some b ↔ P b ∨ Q b := by
  cases x with
  | none =>
    rw [Option.none_or, hy]
    exact ⟨.inr, fun h => h.elim (fun h => by have := (hx b).mpr h; cases this) id⟩
  | some d =>
    rw [Option.some_or, Option.some.injEq]
    have hd := (hx d).mp rfl
    constructor
    · intro e; subst e; exact .inl hd
    · rintro (h | h)
      · have := (hx b).mpr h
        injection this
      · exact hu d b hd h

theorem Inv.file (I : Inv U c) {a n : Nat} {b : Blk} : c.file a n = some b ↔ b ∈ c.confirmed ∧ b.addr = a ∧ b.height = n := by
  unfold Chain.file
  apply find_place
  intro x hx y hy
  exact I.ledger.place x (mem_all.mpr (.inl hx)) y (mem_all.mpr (.inl hy))

/-- What the index says about a height. -/
theorem Inv.height_known (I : Inv U c) {a n : Nat} (h : Nat) :
    Table.get (.height a n) c.mem = some (.place h true) ↔ ∃ b ∈ c.confirmed, b.addr = a ∧ b.height = n ∧ b.hash = h := by
  rw [I.mem, wants_height]
  constructor
  · rintro ⟨b, hb, h1, h2, h3⟩
    injection h3 with h3 h4
    have : b ∈ c.chunks.flatMap (·.blocks) := decide_eq_true_iff.mp h4.symm
    exact ⟨b, this, h1, h2, h3.symm⟩
  · rintro ⟨b, hb, h1, h2, h3⟩
    refine ⟨b, mem_all.mpr (.inl hb), h1, h2, ?_⟩
    have : b ∈ c.chunks.flatMap (·.blocks) := hb
    simp only [this, decide_true, h3]

theorem Inv.fromFile (I : Inv U c) {a n : Nat} {b : Blk} : c.fromFile a n = some b ↔ b ∈ c.confirmed ∧ b.addr = a ∧ b.height = n := by
  unfold Chain.fromFile
  rw [I.value]
  split
  · exact I.file
  · rename_i hn
    constructor
    · intro h; cases h
    · rintro ⟨hb, h1, h2⟩
      exact absurd ((I.height_known b.hash).mpr ⟨b, hb, h1, h2, rfl⟩) (hn b.hash)

theorem Inv.byHeight (I : Inv U c) {a n : Nat} {b : Blk} : c.byHeight a n = some b ↔ b ∈ c.all ∧ b.addr = a ∧ b.height = n := by
  unfold Chain.byHeight
  rw [or_iff (P := fun b => b ∈ c.ds ∧ b.addr = a ∧ b.height = n) (Q := fun b => b ∈ c.confirmed ∧ b.addr = a ∧ b.height = n)]
  · constructor
    · rintro (⟨h, r⟩ | ⟨h, r⟩)
      · exact ⟨I.ds2 b h, r⟩
      · exact ⟨mem_all.mpr (.inl h), r⟩
    · rintro ⟨h, r⟩
      rcases mem_all.mp h with h | h
      · exact .inr ⟨h, r⟩
      · exact .inl ⟨I.ds1 b h, r⟩
  · intro b
    apply find_place
    intro x hx y hy
    exact I.ledger.place x (I.ds2 x hx) y (I.ds2 y hy)
  · intro b; exact I.fromFile
  · rintro b d ⟨h1, h2, h3⟩ ⟨h4, h5, h6⟩
    exact I.ledger.place b (I.ds2 b h1) d (mem_all.mpr (.inl h4)) (h2.trans h5.symm) (h3.trans h6.symm)

theorem Inv.complete (S : Sound U) (I : Inv U c) {h : Nat} {b : Blk} : c.complete h = some b ↔ b ∈ c.all ∧ h ∈ b.ids := by
  unfold Chain.complete
  rw [or_iff (P := fun b => b ∈ c.ds ∧ h ∈ b.ids) (Q := fun b => b ∈ c.confirmed ∧ h ∈ b.ids)]
  · constructor
    · rintro (⟨h, r⟩ | ⟨h, r⟩)
      · exact ⟨I.ds2 b h, r⟩
      · exact ⟨mem_all.mpr (.inl h), r⟩
    · rintro ⟨h, r⟩
      rcases mem_all.mp h with h | h
      · exact .inr ⟨h, r⟩
      · exact .inl ⟨I.ds1 b h, r⟩
  · intro b
    apply find_ids
    intro x hx y hy h h1 h2
    exact I.ledger.ids S (I.ds2 x hx) (I.ds2 y hy) h1 h2
  · intro b
    rw [I.value]
    split
    · rename_i a n hv
      rw [I.mem, wants_hash] at hv
      obtain ⟨d, hd, hh, e⟩ := hv
      injection e with e1 e2
      rw [I.fromFile]
      constructor
      · rintro ⟨h1, h2, h3⟩
        have : b = d := I.ledger.place b (mem_all.mpr (.inl h1)) d hd (h2.trans e1) (h3.trans e2)
        subst this
        exact ⟨h1, hh⟩
      · rintro ⟨h1, h2⟩
        have : b = d := I.ledger.ids S (mem_all.mpr (.inl h1)) hd h2 hh
        subst this
        exact ⟨h1, e1.symm, e2.symm⟩
    · rename_i hn
      constructor
      · intro q; cases q
      · rintro ⟨h1, h2⟩
        exact absurd ((I.mem _ _).mpr (wants_hash.mpr ⟨b, mem_all.mpr (.inl h1), h2, rfl⟩)) (hn b.addr b.height)
  · rintro b d ⟨h1, h2⟩ ⟨h4, h5⟩
    exact I.ledger.ids S (I.ds2 b h1) (mem_all.mpr (.inl h4)) h2 h5

/-! ### The last height -/

theorem lastHeight_fold (a : Nat) (t : Tbl) : ∀ m : Option Nat,
    let r := t.foldl (fun m x => match x.1 with
      | .height a' n => if a' = a then some (max n (m.getD 0)) else m
      | _ => m) m
    (∀ k, m = some k → ∃ j, r = some j ∧ k ≤ j) ∧ (∀ n v, (Key.height a n, v) ∈ t → ∃ j, r = some j ∧ n ≤ j) ∧
    (∀ j, r = some j → m = some j ∨ ∃ v, (Key.height a j, v) ∈ t) := by
  induction t with
  | nil => intro m; exact ⟨fun k h => ⟨k, h, Nat.le_refl k⟩, by simp, fun j h => .inl h⟩
  | cons x t ih =>
    intro m
    dsimp only at ih ⊢
    rw [List.foldl_cons]
    set m' : Option Nat := match x.1 with
      | .height a' n => if a' = a then some (max n (m.getD 0)) else m
      | _ => m with hm'
    obtain ⟨i1, i2, i3⟩ := ih m'
    by_cases q : ∃ n, x.1 = .height a n
    · obtain ⟨n, q⟩ := q
      have e : m' = some (max n (m.getD 0)) := by rw [hm', q]; simp
      obtain ⟨j, hj, hle⟩ := i1 _ e
      refine ⟨?_, ?_, ?_⟩
      · intro k hk
        refine ⟨j, hj, ?_⟩
        rw [hk] at hle
        simp only [Option.getD_some] at hle
        omega
      · intro n' v hv
        rcases List.mem_cons.mp hv with h | h
        · rw [← h] at q
          injection q with _ q
          exact ⟨j, hj, by omega⟩
        · exact i2 n' v h
      · intro j' hj'
        rcases i3 j' hj' with h | ⟨v, h⟩
        · rw [e] at h
          injection h with h
          by_cases hm : m.getD 0 ≤ n
          · right
            refine ⟨x.2, ?_⟩
            have : n = j' := by omega
            subst this
            rw [← q]; exact List.mem_cons_self
          · left
            cases m with
            | none => simp at hm
            | some k => simp only [Option.getD_some] at hm h; congr 1; omega
        · exact .inr ⟨v, List.mem_cons_of_mem _ h⟩
    · have e : m' = m := by
        rw [hm']
        cases hx : x.1 with
        | height a' n =>
          simp only
          rw [if_neg]
          intro e; subst e; exact q ⟨n, hx⟩
        | _ => rfl
      refine ⟨fun k hk => i1 k (e.trans hk), ?_, ?_⟩
      · intro n v hv
        rcases List.mem_cons.mp hv with h | h
        · exact absurd ⟨n, by rw [← h]⟩ q
        · exact i2 n v h
      · intro j hj
        rcases i3 j hj with h | ⟨v, h⟩
        · exact .inl (e.symm.trans h)
        · exact .inr ⟨v, List.mem_cons_of_mem _ h⟩

theorem Inv.lastHeight (I : Inv U c) (a : Nat) :
    (∀ n, lastHeight c.mem a = some n → ∃ b, Last c.all a b ∧ b.height = n) ∧
    (lastHeight c.mem a = none → ∀ b ∈ c.all, b.addr ≠ a) := by
  obtain ⟨_, h2, h3⟩ := lastHeight_fold a c.mem none
  have key : ∀ b ∈ c.all, b.addr = a → ∃ v, (Key.height a b.height, v) ∈ c.mem := by
    intro b hb e
    exact ⟨_, Table.get_mem ((I.mem (.height a b.height) _).mpr (wants_height.mpr ⟨b, hb, e, rfl, rfl⟩))⟩
  constructor
  · intro n hn
    rcases h3 n hn with h | ⟨v, h⟩
    · cases h
    · have := (I.mem _ _).mp (Table.mem_get I.pm h)
      rw [wants_height] at this
      obtain ⟨b, hb, e1, e2, _⟩ := this
      refine ⟨b, ⟨hb, e1, ?_⟩, e2⟩
      intro x hx ex
      obtain ⟨w, hw⟩ := key x hx ex
      obtain ⟨j, hj, hle⟩ := h2 _ _ hw
      have : j = n := by
        have hn' : some n = some j := hn.symm.trans hj
        injection hn' with q; exact q.symm
      omega
  · intro hn b hb e
    obtain ⟨w, hw⟩ := key b hb e
    obtain ⟨j, hj, _⟩ := h2 _ _ hw
    have hn' : none = some j := hn.symm.trans hj
    cases hn'

theorem Ledger.last_unique {L : List Blk} (w : Ledger U L) {a : Nat} {b d : Blk} (hb : Last L a b) (hd : Last L a d) : b = d := by
  have h1 := hb.2.2 d hd.1 hd.2.1
  have h2 := hd.2.2 b hb.1 hb.2.1
  exact w.place b hb.1 d hd.1 (hb.2.1.trans hd.2.1.symm) (by omega)

theorem Inv.latest (S : Sound U) (I : Inv U c) {a : Nat} {b : Blk} : c.latest a = some b ↔ Last c.all a b := by
  unfold Chain.latest
  have slow : (match Lattice.lastHeight c.mem a with
      | none => none
      | some n =>
        match Table.get (.height a n) c.mem with
        | some (.place _ true) => c.file a n
        | _ => c.byHeight a n) = some b ↔ Last c.all a b := by
    obtain ⟨h1, h2⟩ := I.lastHeight a
    cases q : Lattice.lastHeight c.mem a with
    | none =>
      simp only
      constructor
      · intro h; cases h
      · intro h; exact absurd h.2.1 (h2 q b h.1)
    | some n =>
      obtain ⟨d, hd, e⟩ := h1 n q
      simp only
      have fin : (b ∈ c.all ∧ b.addr = a ∧ b.height = n) ↔ Last c.all a b := by
        constructor
        · rintro ⟨x, y, z⟩
          have : b = d := I.ledger.place b x d hd.1 (y.trans hd.2.1.symm) (z.trans e.symm)
          subst this; exact hd
        · intro h
          have : b = d := I.ledger.last_unique h hd
          subst this; exact ⟨h.1, h.2.1, e⟩
      split
      · rename_i h hv
        rw [I.file, ← fin]
        constructor
        · rintro ⟨x, y⟩; exact ⟨mem_all.mpr (.inl x), y⟩
        · rintro ⟨x, y, z⟩
          obtain ⟨d', hd', e1, e2, _⟩ := (I.height_known h).mp hv
          have : b = d' := I.ledger.place b x d' (mem_all.mpr (.inl hd')) (y.trans e1.symm) (z.trans e2.symm)
          subst this; exact ⟨hd', y, z⟩
      · rw [I.byHeight, fin]
  cases q : (Table.get a c.hot).bind (fun h => c.ds.find? (fun b => h ∈ b.ids)) with
  | none => simp only; exact slow
  | some d =>
    simp only [Option.some.injEq]
    rw [Option.bind_eq_some_iff] at q
    obtain ⟨h, hh, hf⟩ := q
    obtain ⟨x, hx, e⟩ := I.hot a h hh
    have h4 := List.mem_of_find?_eq_some hf
    have h5 := List.find?_some hf
    simp only [decide_eq_true_eq] at h5
    have : d = x := I.ledger.ids S (I.ds2 d h4) hx.1 h5 (by rw [← e]; simp [Blk.ids])
    subst this
    constructor
    · intro e; subst e; exact hx
    · intro h; exact I.ledger.last_unique hx h

/-! ### Receives -/

theorem Inv.isReceived (I : Inv U c) (h : Nat) : c.isReceived h = true ↔ ∃ b ∈ c.all, b.takes h = true := by
  unfold Chain.isReceived
  rw [I.value]
  split
  · rename_i r hv
    rw [I.mem, wants_recv] at hv
    rcases hv with ⟨b, hb, ht, _⟩ | ⟨e, _⟩
    · exact ⟨fun _ => ⟨b, hb, ht⟩, fun _ => rfl⟩
    · cases e
  · rename_i hn
    constructor
    · intro q; cases q
    · rintro ⟨b, hb, ht⟩
      exact absurd ((I.mem _ _).mpr (wants_recv.mpr (.inl ⟨b, hb, ht, rfl⟩))) (hn b.hash)

/-- The block found under a hash. -/
def Found (L : List Blk) (h : Nat) (r : Blk) : Prop :=
  (r ∈ L ∧ r.hash = h) ∨ ∃ b ∈ L, ∃ s ∈ b.sends, s.hash = h ∧ r = inner b s

theorem pick_iff (S : Sound U) {b : Blk} (hb : U b) {h : Nat} {r : Blk} :
    pick b h = some r ↔ (r = b ∧ b.hash = h) ∨ ∃ s ∈ b.sends, s.hash = h ∧ r = inner b s := by
  have hn := S.distinct b hb
  simp only [Blk.ids, List.nodup_cons, List.mem_map, not_exists, not_and] at hn
  unfold pick
  by_cases q : b.hash = h
  · rw [if_pos q, Option.some.injEq]
    constructor
    · intro e; exact .inl ⟨e.symm, q⟩
    · rintro (⟨e, _⟩ | ⟨s, hs, e, _⟩)
      · exact e.symm
      · exact absurd (e.trans q.symm) (hn.1 s hs)
  · rw [if_neg q]
    constructor
    · intro e
      rw [Option.map_eq_some_iff] at e
      obtain ⟨s, hf, e⟩ := e
      have h1 := List.mem_of_find?_eq_some hf
      have h2 := List.find?_some hf
      simp only [decide_eq_true_eq] at h2
      exact .inr ⟨s, h1, h2, e.symm⟩
    · rintro (⟨_, e⟩ | ⟨s, hs, e, er⟩)
      · exact absurd e q
      · cases hf : b.sends.find? (fun s => s.hash = h) with
        | none =>
          rw [List.find?_eq_none] at hf
          have := hf s hs
          simp [e] at this
        | some s' =>
          have h1 := List.mem_of_find?_eq_some hf
          have h2 := List.find?_some hf
          simp only [decide_eq_true_eq] at h2
          have : s' = s := List.inj_on_of_nodup_map hn.2 h1 hs (h2.trans e.symm)
          subst this
          rw [er]; rfl

theorem Inv.byHash (S : Sound U) (I : Inv U c) {h : Nat} {r : Blk} : c.byHash h = some r ↔ Found c.all h r := by
  unfold Chain.byHash
  cases q : c.complete h with
  | none =>
    simp only
    have none_ : ∀ b ∈ c.all, h ∉ b.ids := by
      intro b hb hh
      rw [(I.complete S).mpr ⟨hb, hh⟩] at q; cases q
    constructor
    · intro e; cases e
    · rintro (⟨hr, e⟩ | ⟨b, hb, s, hs, e, _⟩)
      · exact absurd (by simp [Blk.ids, e]) (none_ r hr)
      · exact absurd (List.mem_cons_of_mem _ (List.mem_map.mpr ⟨s, hs, e⟩)) (none_ b hb)
  | some b =>
    simp only
    obtain ⟨hb, hh⟩ := (I.complete S).mp q
    have main : pick b h = some r ↔ Found c.all h r := by
      rw [pick_iff S (I.ledger.known b hb)]
      constructor
      · rintro (⟨rfl, e⟩ | ⟨s, hs, e, er⟩)
        · exact .inl ⟨hb, e⟩
        · exact .inr ⟨b, hb, s, hs, e, er⟩
      · rintro (⟨hr, e⟩ | ⟨d, hd, s, hs, e, er⟩)
        · have : r = b := I.ledger.ids S hr hb (h := h) (by simp [Blk.ids, e]) hh
          subst this; exact .inl ⟨rfl, e⟩
        · have : d = b := I.ledger.ids S hd hb (h := h) (List.mem_cons_of_mem _ (List.mem_map.mpr ⟨s, hs, e⟩)) hh
          subst this; exact .inr ⟨s, hs, e, er⟩
    split
    · exact main
    · rename_i hr
      rw [← main]
      have hp := S.plain b (I.ledger.known b hb) (not_recv hr)
      simp only [Blk.ids, hp, List.map_nil, List.mem_singleton] at hh
      unfold pick
      rw [if_pos hh.symm]

theorem Inv.receiver (S : Sound U) (I : Inv U c) {h : Nat} {r : Blk} : c.receiver h = some r ↔ r ∈ c.all ∧ r.takes h = true := by
  unfold Chain.receiver
  rw [I.value]
  split
  · rename_i x hv
    rw [I.mem, wants_recv] at hv
    rcases hv with ⟨b, hb, ht, e⟩ | ⟨e, _⟩
    · injection e with e
      have hf : c.byHash x = some b := (I.byHash S).mpr (.inl ⟨hb, e.symm⟩)
      rw [hf, Option.some.injEq]
      constructor
      · intro e; subst e; exact ⟨hb, ht⟩
      · rintro ⟨hr, ht'⟩; exact I.ledger.once b hb r hr h ht ht'
    · cases e
  · rename_i hn
    constructor
    · intro q; cases q
    · rintro ⟨hb, ht⟩
      exact absurd ((I.mem _ _).mpr (wants_recv.mpr (.inl ⟨r, hb, ht, rfl⟩))) (hn r.hash)

/-! ### Inserting -/

/-- A block that the rules accept makes a sound ledger. -/
theorem Inv.accept (S : Sound U) {g : Cfg} (I : Inv U c) {b : Blk} (hU : U b) (ha : c.accepts g b = true) :
    Ledger U (c.all ++ [b]) ∧ b.kind ≠ .genesis ∧ (b.isRecv = true → b.dest = 0) ∧ (∀ x ∈ c.all, x.addr = b.addr → x.height < b.height) := by
  unfold Chain.accepts at ha
  simp only [Bool.and_eq_true, decide_eq_true_eq] at ha
  obtain ⟨⟨⟨hg, hk⟩, hf⟩, _⟩ := ha
  have hlow : ∀ x ∈ c.all, x.addr = b.addr → x.height < b.height := by
    intro x hx e
    unfold Chain.follows at hf
    cases q : c.latest b.addr with
    | none =>
      exfalso
      obtain ⟨h1, h2⟩ := I.lastHeight b.addr
      cases r : Lattice.lastHeight c.mem b.addr with
      | none => exact h2 r x hx e
      | some n =>
        obtain ⟨d, hd, _⟩ := h1 n r
        rw [(I.latest S).mpr hd] at q; cases q
    | some l =>
      rw [q] at hf
      simp only [Bool.and_eq_true, decide_eq_true_eq] at hf
      have := ((I.latest S).mp q).2.2 x hx e
      omega
  have hids : ∀ x ∈ c.all, ∀ h, h ∈ x.ids → h ∉ b.ids := by
    intro x hx h h1 h2
    obtain ⟨e1, e2⟩ := S.place x b h (I.ledger.known x hx) hU h1 h2
    have := hlow x hx e1
    omega
  have hb : b ∉ c.all := fun h => absurd (hlow b h rfl) (by omega)
  have hsend : ∀ h, b.takes h = true → ∃ d ∈ c.all, ∃ s ∈ d.outs, s.hash = h ∧ s.dest = b.addr := by
    intro h ht
    have hr := takes_recv ht
    have hns : b.isSend = false := by simpa [Blk.isRecv] using hr
    simp only [hns, Bool.false_eq_true, if_false, Bool.and_eq_true] at hk
    have hfit := hk.2
    have e := takes_src ht
    subst e
    unfold Chain.sendFits at hfit
    simp only [Bool.and_eq_true] at hfit
    obtain ⟨⟨_, hfit⟩, _⟩ := hfit
    cases q : c.byHash b.src with
    | none => rw [q] at hfit; cases hfit
    | some r =>
      rw [q] at hfit
      simp only [decide_eq_true_eq] at hfit
      rcases (I.byHash S).mp q with ⟨hr', e⟩ | ⟨d, hd, s, hs, e, er⟩
      · cases hrr : r.isRecv with
        | true =>
          have := I.dest r hr' hrr
          rw [this] at hfit
          exact absurd hfit.symm (S.owner b hU)
        | false =>
          have hsd := not_recv (by rw [hrr]; simp : ¬ r.isRecv = true)
          exact ⟨r, hr', ⟨r.hash, r.dest⟩, by simp [Blk.outs, hsd], e, hfit⟩
      · refine ⟨d, hd, s, by simp [Blk.outs, hs], e, ?_⟩
        rw [er] at hfit; exact hfit
  have hfresh : ∀ h, b.takes h = true → ∀ x ∈ c.all, x.takes h = false := by
    intro h ht x hx
    have hr := takes_recv ht
    have hns : b.isSend = false := by simpa [Blk.isRecv] using hr
    simp only [hns, Bool.false_eq_true, if_false, Bool.and_eq_true] at hk
    have hfit := hk.2
    have e := takes_src ht
    subst e
    unfold Chain.sendFits at hfit
    simp only [Bool.and_eq_true, Bool.not_eq_true'] at hfit
    cases q : x.takes b.src with
    | false => rfl
    | true => rw [(I.isReceived b.src).mpr ⟨x, hx, q⟩] at hfit; cases hfit.2
  have hmem : ∀ x, x ∈ c.all ++ [b] ↔ x ∈ c.all ∨ x = b := by intro x; simp
  refine ⟨?_, hg, ?_, hlow⟩
  · constructor
    · intro x hx
      rcases (hmem x).mp hx with h | h
      · exact I.ledger.known x h
      · subst h; exact hU
    · rw [List.pairwise_append]
      refine ⟨I.ledger.order, by simp, ?_⟩
      intro x hx y hy
      simp only [List.mem_singleton] at hy
      subst hy
      rintro (⟨h1, h2⟩ | ⟨s, hs, ht⟩)
      · have := hlow x hx h1; omega
      · obtain ⟨d, hd, s', hs', e, _⟩ := I.ledger.backed x hx _ ht
        exact hids d hd s.hash (by rw [← e]; exact outs_ids hs') (outs_ids hs)
    · rw [List.nodup_append]
      refine ⟨I.ledger.nodup, by simp, ?_⟩
      intro x hx y hy
      simp only [List.mem_singleton] at hy
      subst hy
      rintro rfl
      exact hb hx
    · intro x hx y hy h1 h2
      rcases (hmem x).mp hx with hx' | hx' <;> rcases (hmem y).mp hy with hy' | hy'
      · exact I.ledger.place x hx' y hy' h1 h2
      · subst hy'; have := hlow x hx' h1; omega
      · subst hx'; have := hlow y hy' h1.symm; omega
      · rw [hx', hy']
    · intro x hx
      rcases (hmem x).mp hx with hx | hx
      · rcases I.ledger.linked x hx with h | ⟨p, hp, r⟩
        · exact .inl h
        · exact .inr ⟨p, (hmem p).mpr (.inl hp), r⟩
      · subst hx
        unfold Chain.follows at hf
        cases q : c.latest x.addr with
        | none =>
          rw [q] at hf
          simp only [Bool.and_eq_true, decide_eq_true_eq] at hf
          exact .inl hf
        | some l =>
          rw [q] at hf
          simp only [Bool.and_eq_true, decide_eq_true_eq] at hf
          have hl := (I.latest S).mp q
          exact .inr ⟨l, (hmem l).mpr (.inl hl.1), hl.2.1, hf.1.symm, hf.2.symm⟩
    · intro x hx h ht
      rcases (hmem x).mp hx with hx | hx
      · obtain ⟨d, hd, r⟩ := I.ledger.backed x hx h ht
        exact ⟨d, (hmem d).mpr (.inl hd), r⟩
      · subst hx
        obtain ⟨d, hd, r⟩ := hsend h ht
        exact ⟨d, (hmem d).mpr (.inl hd), r⟩
    · intro x hx s hs
      rcases (hmem x).mp hx with hx | hx
      · exact I.ledger.own x hx s hs
      · subst hx
        cases q : x.takes s.hash with
        | false => rfl
        | true =>
          obtain ⟨d, hd, s', hs', e, _⟩ := hsend _ q
          exact absurd (outs_ids hs) (hids d hd _ (by rw [← e]; exact outs_ids hs'))
    · intro x hx y hy h h1 h2
      rcases (hmem x).mp hx with hx' | hx' <;> rcases (hmem y).mp hy with hy' | hy'
      · exact I.ledger.once x hx' y hy' h h1 h2
      · subst hy'; rw [hfresh h h2 x hx'] at h1; cases h1
      · subst hx'; rw [hfresh h h1 y hy'] at h2; cases h2
      · rw [hx', hy']
  · intro hr
    have hns : b.isSend = false := by simpa [Blk.isRecv] using hr
    simp only [hns, Bool.false_eq_true, if_false, Bool.and_eq_true] at hk
    have := hk.1
    unfold recvOk at this
    simp only [Bool.and_eq_true, decide_eq_true_eq] at this
    exact this.1.1

theorem Inv.write (S : Sound U) (I : Inv U c) {b : Blk} (w : Ledger U (c.all ++ [b])) (hg : b.kind ≠ .genesis)
    (hd : b.isRecv = true → b.dest = 0) : Inv U (c.write b) := by
  have hall : (c.write b).all = c.all ++ [b] := by simp [Chain.write, Chain.all, Chain.confirmed]
  have hconf : (c.write b).confirmed = c.confirmed := rfl
  have hb : b ∉ c.all := by
    have n := w.nodup
    rw [List.nodup_append] at n
    exact fun h => n.2.2 b h b (by simp) rfl
  have hbc : b ∉ c.chunks.flatMap (·.blocks) := fun h => hb (mem_all.mpr (.inl h))
  have hmem : ∀ x, x ∈ c.all ++ [b] ↔ x ∈ c.all ∨ x = b := by intro x; simp
  have hnew : ∀ x ∈ c.all, ¬ (x.addr = b.addr ∧ x.height = b.height) := by
    intro x hx h
    have := w.place x ((hmem x).mpr (.inl hx)) b ((hmem b).mpr (.inr rfl)) h.1 h.2
    subst this; exact hb hx
  have hlow : ∀ x ∈ c.all, x.addr = b.addr → x.height < b.height := by
    intro x hx h
    have e : c.all ++ [b] = c.all ++ b :: [] := rfl
    exact (e ▸ w).below hx h
  refine { ledger := by rw [hall]; exact w, mem := by rw [hall]; exact exact_insert S I.mem w hbc, disk := I.disk, pm := proper_run _ I.pm,
           pd := I.pd, pend := ?_, warm := warm_insert I.mem I.warm hnew, ds1 := ?_, ds2 := ?_, hot := ?_, heights := I.heights,
           nonempty := I.nonempty, content := I.content, gen1 := I.gen1, gen2 := ?_, dest := ?_, made := ?_ }
  · simp [Chain.write, I.pend]
  · intro x hx
    simp only [Chain.write, List.mem_append, List.mem_cons, List.not_mem_nil, or_false] at hx ⊢
    rcases hx with h | h
    · exact .inr (I.ds1 x h)
    · exact .inl h
  · intro x hx
    rw [hall, hmem]
    simp only [Chain.write, List.mem_cons] at hx
    rcases hx with h | h
    · exact .inr h
    · exact .inl (I.ds2 x h)
  · intro a h hh
    rw [hall]
    simp only [Chain.write, Table.get_put] at hh
    by_cases e : a = b.addr
    · rw [if_pos e] at hh
      injection hh with hh
      refine ⟨b, ⟨(hmem b).mpr (.inr rfl), e.symm, ?_⟩, hh⟩
      intro x hx ex
      rcases (hmem x).mp hx with q | q
      · have := hlow x q (ex.trans e); omega
      · rw [q]
    · rw [if_neg e] at hh
      obtain ⟨d, ⟨h1, h2, h3⟩, h4⟩ := I.hot a h hh
      refine ⟨d, ⟨(hmem d).mpr (.inl h1), h2, ?_⟩, h4⟩
      intro x hx ex
      rcases (hmem x).mp hx with q | q
      · exact h3 x q ex
      · subst q; exact absurd ex.symm e
  · intro x hx
    simp only [Chain.write, List.mem_append, List.mem_singleton] at hx
    rcases hx with h | h
    · exact I.gen2 x h
    · subst h; exact hg
  · intro x hx hr
    rw [hall, hmem] at hx
    rcases hx with h | h
    · exact I.dest x h hr
    · subst h; exact hd hr
  · intro h s hs
    rw [hall]
    have old : Table.get h c.made = some s → ∃ x ∈ c.all ++ [b], x.hash = h ∧ x.kind = .create ∧
        ((x ∈ (c.write b).unconf ∧ s = 0) ∨ ∃ k ∈ (c.write b).chunks, x ∈ k.blocks ∧ s = k.snap.height) := by
      intro q
      obtain ⟨x, hx, e, ek, r⟩ := I.made h s q
      refine ⟨x, (hmem x).mpr (.inl hx), e, ek, ?_⟩
      rcases r with ⟨r1, r2⟩ | r
      · left; simp [Chain.write, r1, r2]
      · exact .inr r
    simp only [Chain.write] at hs
    split at hs
    · rename_i ek
      rw [Table.get_put] at hs
      split at hs
      · rename_i e
        injection hs with hs
        refine ⟨b, (hmem b).mpr (.inr rfl), e.symm, ek, .inl ⟨?_, hs.symm⟩⟩
        simp [Chain.write]
      · exact old hs
    · exact old hs

theorem Inv.insert (S : Sound U) {g : Cfg} (I : Inv U c) {b : Blk} (hU : U b) : Inv U (c.insert g b) := by
  unfold Chain.insert
  split
  · rename_i ha
    obtain ⟨h1, h2, h3, _⟩ := I.accept S hU ha
    exact I.write S h1 h2 h3
  · exact I

end Verif.Lattice
