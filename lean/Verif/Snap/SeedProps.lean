import Verif.Snap.ChainProps

/-!
# C59: the random number of a contract is fixed by the chain; C56: seeds are not held to what was committed
-/

namespace Verif.Snap
open Verif.Consensus

/-! ### Specification -/

/-- The 601 blocks up to a height, the highest first. -/
def window (c : Chain) (h : Nat) : List Snap := (c.filter (fun x => decide (x.height ≤ h ∧ h < x.height + 601))).reverse

/-- The latest seed that each producer published in a window, the highest first. -/
def latestSeeds (w : List Snap) : List Snap :=
  w.filter (fun b => decide (b.seed ≠ 0 ∧ ∀ x ∈ w, b.height < x.height → x.producer = b.producer → x.seed = 0))

/-- The random number of a window. -/
def seedSum (n : Nat) (w : List Snap) : Nat := (((latestSeeds w).take n).map (·.seed)).sum % 2 ^ 64

/-- A block publishes a seed that its producer committed to in a block below. -/
def Commits (g : Cfg) (c : Chain) (b : Snap) : Prop :=
  b.seed ≠ 0 → ∃ s ∈ c, s.height < b.height ∧ s.producer = b.producer ∧ s.seedHash = some (g.S b.seed s.prev (unix s.time))

/-! ### The window -/

theorem take_drop_filter {c : Chain} (hg : Good c) {h : Nat} (hh : h ≤ c.length) :
    (c.take h).drop (h - 601) = c.filter (fun x => decide (x.height ≤ h ∧ h < x.height + 601)) := by
  have key : ∀ (c : Chain) (k : Nat), (∀ i b, c[i]? = some b → b.height = k + i + 1) → h ≤ k + c.length →
      (c.take (h - k)).drop (h - 601 - k) = c.filter (fun x => decide (x.height ≤ h ∧ h < x.height + 601)) := by
    intro c
    induction c with
    | nil => intro k _ _; simp
    | cons x l ih =>
      intro k hk hle
      have hx : x.height = k + 1 := by have := hk 0 x rfl; omega
      have hl : ∀ i b, l[i]? = some b → b.height = k + 1 + i + 1 := by
        intro i b hb
        have := hk (i + 1) b (by rw [List.getElem?_cons_succ]; exact hb)
        omega
      have hi := ih (k + 1) hl (by simp at hle; omega)
      by_cases e1 : k < h
      · rw [show h - k = (h - (k + 1)) + 1 by omega, List.take_succ_cons]
        by_cases e2 : h - 601 - k = 0
        · rw [e2, List.drop_zero, List.filter_cons_of_pos (by rw [decide_eq_true_iff]; omega), ← hi]
          rw [show h - 601 - (k + 1) = 0 by omega, List.drop_zero]
        · rw [show h - 601 - k = (h - 601 - (k + 1)) + 1 by omega, List.drop_succ_cons, hi]
          rw [List.filter_cons_of_neg (by rw [decide_eq_true_iff]; omega)]
      · rw [show h - k = 0 by omega]
        rw [List.take_zero, List.drop_nil]
        symm
        rw [List.filter_eq_nil_iff]
        intro y hy
        obtain ⟨i, hi⟩ := List.mem_iff_getElem?.1 hy
        have := hk i y hi
        rw [decide_eq_true_iff]
        omega
  have := key c 0 (fun i b h => by have := hg.height i b h; omega) (by omega)
  rw [Nat.sub_zero, Nat.sub_zero] at this
  exact this

theorem seedWindow_eq {c : Chain} (hg : Good c) {h : Nat} (hh : h ≤ c.length) : seedWindow c h = window c h := by
  unfold seedWindow window
  rw [take_drop_filter hg hh]

/-- Going down, each names the next. -/
def Down : List Snap → Option Hash → Prop
  | [], _ => True
  | b :: l, prev => (prev = none ∨ prev = some b.hash) ∧ Down l (some b.prev)

/-- The latest seeds with one more block on top. -/
theorem latestSeeds_cons {b : Snap} {l : List Snap} (hp : ∀ x ∈ l, x.height < b.height) :
    latestSeeds (b :: l) = (if b.seed ≠ 0 then [b] else []) ++ (latestSeeds l).filter (fun x => decide (b.producer = x.producer → b.seed = 0)) := by
    unfold latestSeeds
    rw [List.filter_filter]
    have h1 : (b :: l).filter (fun b_1 => decide (b_1.seed ≠ 0 ∧ ∀ x ∈ b :: l, b_1.height < x.height → x.producer = b_1.producer → x.seed = 0)) =
        [b].filter (fun b_1 => decide (b_1.seed ≠ 0 ∧ ∀ x ∈ b :: l, b_1.height < x.height → x.producer = b_1.producer → x.seed = 0)) ++
        l.filter (fun b_1 => decide (b_1.seed ≠ 0 ∧ ∀ x ∈ b :: l, b_1.height < x.height → x.producer = b_1.producer → x.seed = 0)) := by
      rw [← List.filter_append]; rfl
    rw [h1]
    congr 1
    · by_cases e : b.seed ≠ 0
      · rw [if_pos e, List.filter_cons_of_pos, List.filter_nil]
        rw [decide_eq_true_iff]
        refine ⟨e, ?_⟩
        intro x hx hlt
        rw [List.mem_cons] at hx
        rcases hx with rfl | hx
        · omega
        · have := hp x hx; omega
      · rw [if_neg e, List.filter_cons_of_neg, List.filter_nil]
        rw [decide_eq_true_iff]
        exact fun h => e h.1
    · apply List.filter_congr
      intro y hy
      rw [← Bool.decide_and]
      apply decide_eq_decide.2
      have hby := hp y hy
      constructor
      · rintro ⟨h1, h2⟩
        exact ⟨fun e => h2 b (by simp) hby e, h1, fun x hx => h2 x (by simp [hx])⟩
      · rintro ⟨h1, h2, h3⟩
        refine ⟨h2, ?_⟩
        intro x hx hlt he
        rw [List.mem_cons] at hx
        rcases hx with rfl | hx
        · exact h1 he
        · exact h3 x hx hlt he

theorem seedLoop_exact (n : Nat) : ∀ (l : List Snap) (prev : Option Hash) (seen : List Addr) (cnt sum : Nat), Down l prev →
    l.Pairwise (fun a b => b.height < a.height) → sum < 2 ^ 64 →
    seedLoop n l prev seen cnt sum =
      (sum + ((((latestSeeds l).filter (fun b => decide (b.producer ∉ seen))).take (n - cnt)).map (·.seed)).sum) % 2 ^ 64 := by
  intro l
  induction l with
  | nil => intro prev seen cnt sum _ _ h; simp [seedLoop, latestSeeds]; omega
  | cons b l ih =>
    intro prev seen cnt sum hd hp hs
    rw [List.pairwise_cons] at hp
    unfold seedLoop
    by_cases hc : cnt < n
    swap
    · rw [if_neg hc, show n - cnt = 0 by omega]; simp; omega
    rw [if_pos hc, if_neg (by rintro ⟨h1, h2⟩; rcases hd.1 with e | e <;> simp_all)]
    have hsplit := latestSeeds_cons hp.1
    by_cases e1 : b.seed = 0
    · rw [if_pos e1, ih _ _ _ _ hd.2 hp.2 hs, hsplit, if_neg (by simpa using e1), List.nil_append]
      congr 6
      symm
      rw [List.filter_eq_self]
      intro x hx
      exact decide_eq_true (fun _ => e1)
    · rw [if_neg e1]
      by_cases e2 : b.producer ∈ seen
      · rw [if_pos e2, ih _ _ _ _ hd.2 hp.2 hs, hsplit, if_pos e1, List.filter_append, List.filter_cons_of_neg (by simpa using e2), List.filter_nil, List.nil_append,
          List.filter_filter]
        congr 5
        apply List.filter_congr
        intro x hx
        rw [← Bool.decide_and]
        apply decide_eq_decide.2
        constructor
        · intro h; exact ⟨h, fun e => absurd (e ▸ e2) h⟩
        · exact fun h => h.1
      · rw [if_neg e2, ih _ _ _ _ hd.2 hp.2 (Nat.mod_lt _ (by omega)), hsplit, if_pos e1, List.filter_append, List.filter_cons_of_pos (by simpa using e2), List.filter_nil,
          List.filter_filter, List.singleton_append, show n - cnt = (n - (cnt + 1)) + 1 by omega, List.take_succ_cons, List.map_cons, List.sum_cons]
        have : (latestSeeds l).filter (fun x => decide (x.producer ∉ b.producer :: seen)) =
            (latestSeeds l).filter (fun a => decide (a.producer ∉ seen) && decide (b.producer = a.producer → b.seed = 0)) := by
          apply List.filter_congr
          intro x hx
          rw [← Bool.decide_and]
          apply decide_eq_decide.2
          rw [List.mem_cons, not_or]
          constructor
          · rintro ⟨h1, h2⟩; exact ⟨h2, fun e => absurd e.symm h1⟩
          · rintro ⟨h1, h2⟩; exact ⟨fun e => e1 (h2 e.symm), h1⟩
        rw [this, Nat.mod_add_mod]
        congr 1
        omega

theorem down_of_linked {c : Chain} (hl : Linked c) : ∀ (prev : Option Hash), (∀ b, c.getLast? = some b → prev = none ∨ prev = some b.hash) → Down c.reverse prev := by
  induction c using List.reverseRecOn with
  | nil => intro prev _; trivial
  | append_singleton c b ih =>
    intro prev h
    rw [List.reverse_append, List.reverse_singleton, List.singleton_append]
    refine ⟨h b (by simp), ?_⟩
    apply ih
    · intro i x y hx hy
      refine hl i x y ?_ ?_
      · rw [List.getElem?_append_left (by by_contra hc; rw [List.getElem?_eq_none (by omega)] at hx; exact absurd hx (by simp))]; exact hx
      · rw [List.getElem?_append_left (by by_contra hc; rw [List.getElem?_eq_none (by omega)] at hy; exact absurd hy (by simp))]; exact hy
    · intro x hx
      right
      congr 1
      rw [List.getLast?_eq_getElem?] at hx
      have hlt : c.length - 1 < c.length := by by_contra hc; rw [List.getElem?_eq_none (by omega)] at hx; exact absurd hx (by simp)
      refine hl (c.length - 1) x b ?_ ?_
      · rw [List.getElem?_append_left hlt]; exact hx
      · rw [show c.length - 1 + 1 = c.length by omega]; simp

theorem Linked.take {c : Chain} (hl : Linked c) (n : Nat) : Linked (c.take n) := by
  intro i a b ha hb
  rw [List.getElem?_take] at ha hb
  split at ha
  · split at hb
    · exact hl i a b ha hb
    · exact absurd hb (by simp)
  · exact absurd ha (by simp)

theorem Linked.drop {c : Chain} (hl : Linked c) (n : Nat) : Linked (c.drop n) := by
  intro i a b ha hb
  rw [List.getElem?_drop] at ha hb
  exact hl (n + i) a b ha (by rw [← hb]; rfl)

theorem down_window {c : Chain} (hl : Linked c) (h m : Nat) : Down ((c.take h).drop m).reverse none :=
  down_of_linked ((hl.take h).drop m) none (fun _ _ => Or.inl rfl)

attribute [irreducible] Down

theorem seedLoop_window (n : Nat) {c : Chain} (hg : Good c) (hl : Linked c) {h : Nat} (hh : h ≤ c.length) :
    seedLoop n (seedWindow c h) none [] 0 0 = seedSum n (window c h) := by
  have hw := seedWindow_eq hg hh
  have hd : Down (seedWindow c h) none := by
    unfold seedWindow
    generalize h - 601 = m
    exact down_window hl h m
  have hp : (seedWindow c h).Pairwise (fun a b => b.height < a.height) := by
    rw [hw]
    unfold window
    rw [List.pairwise_reverse]
    have hpc : c.Pairwise (fun a b => a.height < b.height) := by
      refine List.Pairwise.imp_of_mem ?_ hg.times
      intro a b ha hb hab
      exact (time_lt_iff hg ha hb).1 hab
    exact hpc.sublist List.filter_sublist
  generalize seedWindow c h = w at *
  rw [seedLoop_exact n _ _ _ _ _ hd hp (by omega), hw, Nat.zero_add, Nat.sub_zero]
  unfold seedSum
  rw [List.filter_eq_self.2 (fun x _ => decide_eq_true (List.not_mem_nil))]

theorem heightOf_mem {c : Chain} {b : Snap} (hb : b ∈ c) (hu : ∀ x ∈ c, x.hash = b.hash → x.height = b.height) : heightOf c b.hash = b.height := by
  unfold heightOf
  cases h : c.find? (fun x => decide (x.hash = b.hash)) with
  | none =>
    rw [List.find?_eq_none] at h
    exact absurd (decide_eq_true rfl) (h b hb)
  | some x =>
    have := List.find?_some h
    have := of_decide_eq_true this
    simpa using hu x (List.mem_of_find?_eq_some h) this

/-- Hashes are of one height. -/
theorem hash_height {g : Cfg} (hH : Function.Injective g.H) {c : Chain} (hi : Inv g c) {a b : Snap} (ha : a ∈ c) (hb : b ∈ c) (h : a.hash = b.hash) :
    a.height = b.height := by
  have : a.body = b.body := hH (by rw [hi.hashed a ha, hi.hashed b hb, h])
  exact congrArg Body.height this

theorem randomSeed_window {g : Cfg} (hH : Function.Injective g.H) {c : Chain} (hi : Inv g c) {b : Snap} (hb : b ∈ c) (n : Nat) :
    randomSeed c b.hash n = seedSum n (window c b.height) := by
  unfold randomSeed
  rw [heightOf_mem hb (fun x hx h => hash_height hH hi hx hb h)]
  exact seedLoop_window n hi.good hi.linked (mem_height hi.good hb).2

/-- **C59** The random number at a block of the chain is the sum, modulo `2^64`, of the latest seeds that the most recent `n` producers published in the
601 blocks up to it; after every history. -/
theorem random_exact {g : Cfg} (hc : CfgOk g) (hH : Function.Injective g.H) {c : Chain} (hs : Start g c) {ops : List Op} (ho : ∀ op ∈ ops, op.Fits g)
    {b : Snap} (hb : b ∈ run g c ops) (n : Nat) : randomSeed (run g c ops) b.hash n = seedSum n (window (run g c ops) b.height) :=
  randomSeed_window hH (reachable hc hs ho).toInv hb n

/-- **C59** It never changes while the block stays: whatever happened in between, at whatever nodes of the network. -/
theorem random_agreed {g : Cfg} (hc : CfgOk g) (hH : Function.Injective g.H) (hv : ∀ h, (g.votes h).length ≤ g.plan.nodeCount)
    {c : Chain} (hs : Start g c) {ops ops' : List Op} (ho : ∀ op ∈ ops, op.Fits g) (ho' : ∀ op ∈ ops', op.Fits g)
    {a b : Snap} (ha : a ∈ run g c ops) (hb : b ∈ run g c ops') (h : a.hash = b.hash) (n : Nat) :
    randomSeed (run g c ops) a.hash n = randomSeed (run g c ops') b.hash n := by
  rw [random_exact hc hH hs ho ha, random_exact hc hH hs ho' hb]
  obtain ⟨hh, hall⟩ := same_hash_same_history hc hH hv hs hs ho ho' ha hb h
  have hi := reachable hc hs ho
  have hi' := reachable hc hs ho'
  have hne : c ≠ [] := by obtain ⟨x, rfl, -⟩ := hs.one; simp
  have hg1 := (genesis_stays (g := g) hne ops).1
  have hg2 := (genesis_stays (g := g) hne ops').1
  rw [← hg2] at hg1
  generalize run g c ops = c1 at *
  generalize run g c ops' = c2 at *
  -- what the sum depends on
  let key : Snap → Nat × Nat × Addr := fun x => (x.height, x.seed, x.producer)
  have hkeys : (c1.take a.height).map key = (c2.take a.height).map key := by
    apply List.ext_getElem?
    intro j
    rw [List.getElem?_map, List.getElem?_map, List.getElem?_take, List.getElem?_take]
    by_cases e : j < a.height
    · rw [if_pos e, if_pos e]
      obtain ⟨x, y, hx, hy, hxy, hbody, -, hp⟩ := hall j e
      rw [hx, hy]
      have e1 : x.height = y.height := congrArg Body.height hbody
      have e2 : x.seed = y.seed := congrArg Body.seed hbody
      have e3 : x.producer = y.producer := by
        by_cases e1 : x.height = 1
        · have hj : j = 0 := by have := hi.good.height j x hx; omega
          subst hj
          rw [List.head?_eq_getElem?, List.head?_eq_getElem?, hx, hy] at hg1
          injection hg1 with hg1
          rw [hg1]
        · exact hp e1
      simp only [Option.map_some, key, e1, e2, e3]
    · rw [if_neg e, if_neg e]
  have hwin : ∀ {c : Chain}, Good c → (window c a.height).map key = (((c.take a.height).map key).filter (fun k => decide (k.1 ≤ a.height ∧ a.height < k.1 + 601))).reverse := by
    intro c hg
    unfold window
    rw [List.map_reverse]
    congr 1
    rw [List.filter_map]
    congr 1
    have : c = c.take a.height ++ c.drop a.height := (List.take_append_drop _ _).symm
    conv_lhs => rw [this, List.filter_append]
    have hnil : (c.drop a.height).filter (fun x => decide (x.height ≤ a.height ∧ a.height < x.height + 601)) = [] := by
      rw [List.filter_eq_nil_iff]
      intro x hx
      obtain ⟨i, hx'⟩ := List.mem_iff_getElem?.1 hx
      rw [List.getElem?_drop] at hx'
      have := hg.height _ _ hx'
      rw [decide_eq_true_iff]
      omega
    rw [hnil, List.append_nil]
    rfl
  have hw : (window c1 a.height).map key = (window c2 a.height).map key := by rw [hwin hi.good, hwin hi'.good, hkeys]
  rw [← hh]
  have hsum : ∀ w : List Snap, seedSum n w =
      ((((w.map key).filter (fun k => decide (k.2.1 ≠ 0 ∧ ∀ x ∈ w.map key, k.1 < x.1 → x.2.2 = k.2.2 → x.2.1 = 0))).take n).map (·.2.1)).sum % 2 ^ 64 := by
    intro w
    unfold seedSum latestSeeds
    rw [List.filter_map, ← List.map_take, List.map_map]
    congr 3
    congr 1
    apply List.filter_congr
    intro x hx
    apply decide_eq_decide.2
    simp only [List.mem_map, forall_exists_index, and_imp, forall_apply_eq_imp_iff₂, key]
  rw [hsum, hsum, hw]

end Verif.Snap
