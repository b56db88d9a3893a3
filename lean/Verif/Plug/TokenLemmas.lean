import Verif.Plug.TokenSpec
import Verif.Plug.InfoProps

/-!
# The blocks of an account with a token: tables -/

namespace Verif.Plug

/-- A block is why a key is there. -/
def SrcOf (L : List Blk) (b : Blk) (k : Key) : Prop := b.addr = k.1 ∧ b.height = k.2.2 ∧ Moves L b k.2.1

/-- A table that has exactly the keys of some blocks. -/
structure Exact (L : List Blk) (P : Blk → Prop) (v : Tab) : Prop where
  keys : (v.map (·.1)).Nodup
  mem : ∀ k h, (k, h) ∈ v ↔ ∃ b, P b ∧ b.hash = h ∧ SrcOf L b k

theorem moves_sub {L M : List Blk} (hL : Valid L) (hM : Valid M) (hs : ∀ b ∈ L, b ∈ M) {b : Blk} (hb : b ∈ L) (t : Nat) : Moves L b t ↔ Moves M b t := by
  have hss : ∀ s ∈ L.flatMap Blk.sends, s ∈ M.flatMap Blk.sends := by
    intro s h
    obtain ⟨c, hc, h⟩ := List.mem_flatMap.1 h
    exact List.mem_flatMap.2 ⟨c, hs c hc, h⟩
  unfold Moves
  constructor
  · rintro (h | ⟨s, h1, h2⟩)
    · exact Or.inl h
    · exact Or.inr ⟨s, hss s h1, h2⟩
  · rintro (h | ⟨s, h1, h2, h3⟩)
    · exact Or.inl h
    · obtain ⟨r, hr, e, -⟩ := hL.found b hb _ h2
      have := send_unique hM (hss r hr) h1 e
      subst this
      exact Or.inr ⟨r, hr, h2, h3⟩

theorem srcOf_sub {L M : List Blk} (hL : Valid L) (hM : Valid M) (hs : ∀ b ∈ L, b ∈ M) {b : Blk} (hb : b ∈ L) (k : Key) : SrcOf L b k ↔ SrcOf M b k := by
  unfold SrcOf
  rw [moves_sub hL hM hs hb]

theorem Exact.sub {L M : List Blk} {P : Blk → Prop} {v : Tab} (hL : Valid L) (hM : Valid M) (hs : ∀ b ∈ L, b ∈ M) (hP : ∀ b, P b → b ∈ L) : Exact L P v ↔ Exact M P v := by
  have : ∀ k h, (∃ b, P b ∧ b.hash = h ∧ SrcOf L b k) ↔ ∃ b, P b ∧ b.hash = h ∧ SrcOf M b k := by
    intro k h
    constructor <;> rintro ⟨b, h1, h2, h3⟩ <;> refine ⟨b, h1, h2, ?_⟩
    · exact (srcOf_sub hL hM hs (hP b h1) k).1 h3
    · exact (srcOf_sub hL hM hs (hP b h1) k).2 h3
  constructor
  · rintro ⟨h1, h2⟩; exact ⟨h1, fun k h => (h2 k h).trans (this k h)⟩
  · rintro ⟨h1, h2⟩; exact ⟨h1, fun k h => (h2 k h).trans (this k h).symm⟩

theorem Exact.congr {L : List Blk} {P Q : Blk → Prop} {v : Tab} (h : Exact L P v) (hPQ : ∀ b, P b ↔ Q b) : Exact L Q v :=
  ⟨h.keys, fun k x => by rw [h.mem]; simp only [hPQ]⟩

theorem put_keys {v : Tab} (h : (v.map (·.1)).Nodup) (r : Key × Nat) : ((v.put r).map (·.1)).Nodup := by
  unfold Tab.put
  rw [List.map_append, List.nodup_append]
  refine ⟨h.sublist (List.filter_sublist.map _), by simp, ?_⟩
  intro x hx y hy e
  obtain ⟨z, hz, rfl⟩ := List.mem_map.1 hx
  simp only [List.map_cons, List.map_nil, List.mem_singleton] at hy
  have := (List.mem_filter.1 hz).2
  simp only [decide_eq_true_eq] at this
  exact this (e.trans hy)

theorem puts_mem : ∀ (rs : List (Key × Nat)) (v : Tab), (∀ k h h', (k, h) ∈ rs → (k, h') ∈ rs → h = h') → (v.map (·.1)).Nodup →
    ((v.puts rs).map (·.1)).Nodup ∧ ∀ k h, (k, h) ∈ v.puts rs ↔ (k, h) ∈ rs ∨ ((k, h) ∈ v ∧ ∀ h', (k, h') ∉ rs) := by
  intro rs
  induction rs with
  | nil => intro v _ hn; exact ⟨hn, fun k h => by simp [Tab.puts]⟩
  | cons r rs ih =>
    intro v hc hn
    obtain ⟨i1, i2⟩ := ih (v.put r) (fun k h h' a b => hc k h h' (List.mem_cons_of_mem _ a) (List.mem_cons_of_mem _ b)) (put_keys hn r)
    refine ⟨i1, fun k h => ?_⟩
    have e : v.puts (r :: rs) = (v.put r).puts rs := rfl
    rw [e, i2]
    have hp : (k, h) ∈ v.put r ↔ ((k, h) ∈ v ∧ k ≠ r.1) ∨ (k, h) = r := by
      unfold Tab.put
      rw [List.mem_append, List.mem_filter]
      simp
    rw [hp]
    constructor
    · rintro (h1 | ⟨⟨h1, h2⟩ | h1, h3⟩)
      · exact Or.inl (List.mem_cons_of_mem _ h1)
      · refine Or.inr ⟨h1, fun h' hm => ?_⟩
        rcases List.mem_cons.1 hm with h4 | h4
        · exact h2 (by rw [← h4])
        · exact h3 h' h4
      · exact Or.inl (by rw [h1]; exact List.mem_cons_self)
    · rintro (h1 | ⟨h1, h2⟩)
      · rcases List.mem_cons.1 h1 with h4 | h4
        · by_cases hex : ∃ h', (k, h') ∈ rs
          · obtain ⟨h', hm⟩ := hex
            have := hc k h h' h1 (List.mem_cons_of_mem _ hm)
            rw [this]
            exact Or.inl hm
          · exact Or.inr ⟨Or.inr h4, fun h' hm => hex ⟨h', hm⟩⟩
        · exact Or.inl h4
      · refine Or.inr ⟨Or.inl ⟨h1, fun e => ?_⟩, fun h' hm => h2 h' (List.mem_cons_of_mem _ hm)⟩
        refine h2 r.2 ?_
        rw [e]
        exact List.mem_cons_self

theorem dels_mem (v : Tab) (ks : List Key) (k : Key) (h : Nat) : (k, h) ∈ v.dels ks ↔ (k, h) ∈ v ∧ k ∉ ks := by
  unfold Tab.dels
  rw [List.mem_filter]
  simp

/-- Addresses with heights are distinct. -/
def Spots (L : List Blk) : Prop := ∀ b ∈ L, ∀ c ∈ L, b.addr = c.addr → b.height = c.height → b = c

/-- Putting the keys of further blocks. -/
theorem Exact.puts {L : List Blk} (hS : Spots L) {P Q : Blk → Prop} {v : Tab} (h : Exact L P v) (hP : ∀ b, P b → b ∈ L) (hQ : ∀ b, Q b → b ∈ L) {rs : List (Key × Nat)}
    (hr : ∀ k x, (k, x) ∈ rs ↔ ∃ b, Q b ∧ b.hash = x ∧ SrcOf L b k) : Exact L (fun b => P b ∨ Q b) (v.puts rs) := by
  have hone : ∀ b c k, b ∈ L → c ∈ L → SrcOf L b k → SrcOf L c k → b = c := by
    intro b c k hb hc h1 h2
    exact hS b hb c hc (h1.1.trans h2.1.symm) (h1.2.1.trans h2.2.1.symm)
  obtain ⟨i1, i2⟩ := puts_mem rs v (by
    intro k x y h1 h2
    obtain ⟨b, hb, e1, s1⟩ := (hr k x).1 h1
    obtain ⟨c, hc, e2, s2⟩ := (hr k y).1 h2
    rw [← e1, ← e2, hone b c k (hQ b hb) (hQ c hc) s1 s2]) h.keys
  refine ⟨i1, fun k x => ?_⟩
  rw [i2, hr, h.mem]
  constructor
  · rintro (⟨b, h1, h2⟩ | ⟨⟨b, h1, h2⟩, -⟩)
    · exact ⟨b, Or.inr h1, h2⟩
    · exact ⟨b, Or.inl h1, h2⟩
  · rintro ⟨b, h1 | h1, h2, h3⟩
    · by_cases hex : ∃ y, (k, y) ∈ rs
      · obtain ⟨y, hy⟩ := hex
        obtain ⟨c, hc, e2, s2⟩ := (hr k y).1 hy
        have := hone b c k (hP b h1) (hQ c hc) h3 s2
        subst this
        exact Or.inl ⟨b, hc, h2, h3⟩
      · exact Or.inr ⟨⟨b, h1, h2, h3⟩, fun y hy => hex ⟨y, hy⟩⟩
    · exact Or.inl ⟨b, h1, h2, h3⟩

/-- Deleting the keys of blocks. -/
theorem Exact.dels {L : List Blk} (hS : Spots L) {P : Blk → Prop} {v : Tab} (h : Exact L P v) (hP : ∀ b, P b → b ∈ L) {bs : List Blk} (hb : ∀ b ∈ bs, b ∈ L) {ks : List Key}
    (hk : ∀ k, k ∈ ks ↔ ∃ b ∈ bs, SrcOf L b k) : Exact L (fun b => P b ∧ b ∉ bs) (v.dels ks) := by
  refine ⟨h.keys.sublist (List.filter_sublist.map _), fun k x => ?_⟩
  rw [dels_mem, h.mem, hk]
  constructor
  · rintro ⟨⟨b, h1, h2, h3⟩, h4⟩
    exact ⟨b, ⟨h1, fun hm => h4 ⟨b, hm, h3⟩⟩, h2, h3⟩
  · rintro ⟨b, ⟨h1, h4⟩, h2, h3⟩
    refine ⟨⟨b, h1, h2, h3⟩, ?_⟩
    rintro ⟨c, hc, s⟩
    have := hS b (hP b h1) c (hb c hc) (h3.1.trans s.1.symm) (h3.2.1.trans s.2.1.symm)
    subst this
    exact h4 hc

/-- The keys of a block are those it is the reason for. -/
theorem keys_mem {L M : List Blk} (hM : Valid M) (hs : ∀ b ∈ L, b ∈ M) {b : Blk} (hb : b ∈ M) {ks : List Key} (h : b.keys (lookIn L) = some ks) (k : Key) : k ∈ ks ↔ SrcOf M b k := by
  unfold Blk.keys at h
  obtain ⟨t, ht, rfl⟩ := Option.map_eq_some_iff.1 h
  have hin : (∃ s ∈ b.inner, s.token = k.2.1) ∨ t = k.2.1 ↔ Moves M b k.2.1 := by
    unfold Moves
    unfold Blk.token at ht
    cases hk : b.kind with
    | genesis => rw [hk] at ht; cases ht
    | send d u x =>
      rw [hk] at ht
      cases ht
      have e1 : b.sends = ⟨b.hash, d, t, x⟩ :: b.inner := by unfold Blk.sends; rw [hk]; rfl
      have e2 : b.src = none := by unfold Blk.src; rw [hk]
      rw [e1, e2]
      constructor
      · rintro (⟨s, h1, h2⟩ | h)
        · exact Or.inl ⟨s, List.mem_cons_of_mem _ h1, h2⟩
        · exact Or.inl ⟨_, List.mem_cons_self, h⟩
      · rintro (⟨s, h1, h2⟩ | ⟨s, -, h2, -⟩)
        · rcases List.mem_cons.1 h1 with rfl | h1
          · exact Or.inr h2
          · exact Or.inl ⟨s, h1, h2⟩
        · cases h2
    | recv q =>
      rw [hk] at ht
      obtain ⟨s, hl, rfl⟩ := Option.map_eq_some_iff.1 ht
      have e1 : b.sends = b.inner := by unfold Blk.sends; rw [hk]; rfl
      have e2 : b.src = some q := by unfold Blk.src; rw [hk]
      have hsm : s ∈ L.flatMap Blk.sends := List.mem_of_find?_eq_some hl
      have hsq : s.hash = q := by simpa using List.find?_some hl
      have hsm' : s ∈ M.flatMap Blk.sends := by
        obtain ⟨c, hc, h⟩ := List.mem_flatMap.1 hsm
        exact List.mem_flatMap.2 ⟨c, hs c hc, h⟩
      rw [e1, e2]
      constructor
      · rintro (h | h)
        · exact Or.inl h
        · exact Or.inr ⟨s, hsm', by rw [hsq], h⟩
      · rintro (h | ⟨r, h1, h2, h3⟩)
        · exact Or.inl h
        · have : r = s := send_unique hM h1 hsm' (by rw [hsq]; exact (Option.some.inj h2).symm)
          subst this
          exact Or.inr h3
  unfold SrcOf
  rw [← hin]
  obtain ⟨k1, k2, k3⟩ := k
  simp only [List.mem_cons, Prod.mk.injEq, List.mem_map]
  constructor
  · rintro (⟨rfl, rfl, rfl⟩ | ⟨s, h1, rfl, rfl, rfl⟩)
    · exact ⟨rfl, rfl, Or.inr rfl⟩
    · exact ⟨rfl, rfl, Or.inl ⟨s, h1, rfl⟩⟩
  · rintro ⟨rfl, rfl, ⟨s, h1, h2⟩ | h⟩
    · exact Or.inr ⟨s, h1, rfl, h2, rfl⟩
    · exact Or.inl ⟨rfl, h.symm, rfl⟩

theorem keysOf_mem {M : List Blk} (hM : Valid M) : ∀ {bs : List Blk}, (∀ b ∈ bs, b ∈ M) → ∀ {ks : List Key}, keysOf (lookIn M) bs = some ks → ∀ k, k ∈ ks ↔ ∃ b ∈ bs, SrcOf M b k := by
  intro bs
  induction bs with
  | nil => intro _ ks h k; unfold keysOf at h; cases h; simp
  | cons b bs ih =>
    intro hb ks h k
    unfold keysOf at h
    split at h
    · rename_i x y hx hy
      cases h
      rw [List.mem_append, keys_mem hM (fun b h => h) (hb b (by simp)) hx, ih (fun c hc => hb c (List.mem_cons_of_mem _ hc)) hy]
      simp
    · cases h

end Verif.Plug
