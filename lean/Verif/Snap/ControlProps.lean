import Verif.Snap.LimitProps
import Mathlib.Data.Countable.Basic
import Mathlib.Logic.Equiv.List

/-!
# C56: a seed is not held to what its producer committed to

The check that a published seed matches the hash that the producer put in an earlier block is written (`consensus_snapshot.go:444-469`), but it is not
used: `consensus_impl.go:14-17` drops its result, and the other check finds no earlier block, `snapshot_verifier.go:183-199`.
-/

namespace Verif.Snap
open Verif.Consensus

/-- A block with another seed and another commitment, and its hash made again. -/
def Snap.reseed (g : Cfg) (b : Snap) (s : Nat) (sh : Option Hash) : Snap :=
  { b with seed := s, seedHash := sh, hash := g.H { b.body with seed := s, seedHash := sh.getD 0 } }

theorem unpublished_mem {g : Cfg} {a : Addr} {t : Int} : ∀ {l : List Snap} {seeds : List Nat} {s : Snap}, unpublished g a t l seeds = some s →
    s ∈ l ∧ s.producer = a ∧ s.time < t := by
  intro l
  induction l with
  | nil => intro seeds s h; exact absurd h (by simp [unpublished])
  | cons b l ih =>
    intro seeds s h
    unfold unpublished at h
    split at h
    · have := ih h; exact ⟨by simp [this.1], this.2⟩
    · rename_i hp
      split at h
      · have := ih h; exact ⟨by simp [this.1], this.2⟩
      · split at h
        · have := ih h; exact ⟨by simp [this.1], this.2⟩
        · rename_i ht
          split at h
          · have := ih h; exact ⟨by simp [this.1], this.2⟩
          · injection h with h; subst h; exact ⟨by simp, by simpa using hp, by simpa using ht⟩

/-- **C56** What the dropped check would give: a seed that passes it was committed to, in a block before the round. -/
theorem seed_check_sound {g : Cfg} {c : Chain} {b : Snap} (hb : ∀ x ∈ c, x.height < b.height) (h : producerAndSeed g c b = some true) :
    Commits g c b ∧ (b.seed ≠ 0 → ∃ x ∈ c, x.producer = b.producer ∧
      x.time < (g.plan.index.index2Time (g.plan.index.time2Index (unix b.time))).1 * 1000000000 ∧
      x.seedHash = some (g.S b.seed x.prev (unix x.time))) := by
  have key : b.seed ≠ 0 → ∃ s ∈ c, s.producer = b.producer ∧
      s.time < (g.plan.index.index2Time (g.plan.index.time2Index (unix b.time))).1 * 1000000000 ∧
      s.seedHash = some (g.S b.seed s.prev (unix s.time)) := by
    intro hs
    unfold producerAndSeed at h
    split at h
    · exact absurd h (by simp)
    · exact absurd h (by simp)
    · rw [if_pos hs] at h
      simp only at h
      split at h
      · exact absurd h (by simp)
      · rename_i s hu
        split at h
        · rename_i he
          obtain ⟨hm, hp, ht⟩ := unpublished_mem hu
          exact ⟨s, List.mem_of_mem_drop (List.mem_reverse.1 hm), hp, ht, he.symm⟩
        · exact absurd h (by simp)
  refine ⟨?_, key⟩
  intro hs
  obtain ⟨s, hm, hp, _, he⟩ := key hs
  exact ⟨s, hm, hb s hm, hp, he⟩

/-- **C56** But the verdict does not depend on the seed at all. -/
theorem seed_unchecked (g : Cfg) (c : Chain) (accounts : Addr → Nat → Option Hash) (b : Snap) (h1 : b.height ≠ 1) (s : Nat) (sh : Option Hash) :
    verifyReferred g c accounts (b.reseed g s sh) = verifyReferred g c accounts b := by
  have hs : ∀ l, verifySelf g l (b.reseed g s sh) = verifySelf g l b := by
    intro l
    unfold verifySelf
    simp only [lastSeedBlock_none]
    rw [if_neg (fun h : (b.reseed g s sh).height = 1 ∧ _ => h1 h.1), if_neg (fun h : b.height = 1 ∧ _ => h1 h.1)]
    rfl
  unfold verifyReferred
  cases c.getLast? with
  | none => rfl
  | some l =>
    simp only
    rw [hs]
    rfl

/-- **C56** A producer whose block is accepted has it accepted with any seed that it likes, whatever it committed to. -/
theorem any_seed_accepted (g : Cfg) (hH0 : ∀ x, g.H x ≠ 0) {c : Chain} {accounts : Addr → Nat → Option Hash} {b : Snap} (h1 : b.height ≠ 1)
    (h : step g c (.insert b accounts) = c ++ [b]) (s : Nat) (sh : Option Hash) :
    step g c (.insert (b.reseed g s sh) accounts) = c ++ [b.reseed g s sh] := by
  change (if dataValid g b = true ∧ verifyReferred g c accounts b = .success then c ++ [b] else c) = _ at h
  change (if dataValid g (b.reseed g s sh) = true ∧ verifyReferred g c accounts (b.reseed g s sh) = .success then _ else c) = _
  split at h
  · rename_i ha
    rw [if_pos]
    refine ⟨?_, by rw [seed_unchecked g c accounts b h1]; exact ha.2⟩
    unfold dataValid
    rw [Bool.and_eq_true]
    exact ⟨decide_eq_true (hH0 _), decide_eq_true rfl⟩
  · exact absurd (congrArg List.length h) (by simp)

/-- **C56** So that seeds are published that were never committed to: the claim is false on every chain on which a producer that has not committed to
anything gets a block accepted. -/
theorem uncommitted_accepted (g : Cfg) (hH0 : ∀ x, g.H x ≠ 0) {c : Chain} {accounts : Addr → Nat → Option Hash} {b : Snap} (h1 : b.height ≠ 1)
    (h : step g c (.insert b accounts) = c ++ [b]) (hnone : ∀ x ∈ c, x.producer = b.producer → x.seedHash = none) (s : Nat) (hs : s ≠ 0) :
    ∃ b', step g c (.insert b' accounts) = c ++ [b'] ∧ b'.producer = b.producer ∧ b'.seed = s ∧ ¬ Commits g c b' := by
  refine ⟨b.reseed g s none, any_seed_accepted g hH0 h1 h s none, rfl, rfl, ?_⟩
  intro hc
  obtain ⟨x, hx, -, hp, he⟩ := hc hs
  rw [hnone x hx hp] at he
  exact absurd he (by simp)

/-- The sum with one more block on top that publishes. -/
theorem seedSum_cons {n : Nat} (hn : 1 ≤ n) {b : Snap} {l : List Snap} (hp : ∀ x ∈ l, x.height < b.height) (hs : b.seed ≠ 0) :
    seedSum n (b :: l) = (b.seed + ((((latestSeeds l).filter (fun x => decide (x.producer ≠ b.producer))).take (n - 1)).map (·.seed)).sum) % 2 ^ 64 := by
  unfold seedSum
  rw [latestSeeds_cons hp, if_pos hs, List.singleton_append, show n = (n - 1) + 1 by omega, List.take_succ_cons, List.map_cons, List.sum_cons, Nat.add_sub_cancel]
  congr 5
  apply List.filter_congr
  intro x _
  apply decide_eq_decide.2
  constructor
  · intro h e; exact hs (h e.symm)
  · intro h e; exact absurd e.symm h

/-- **C56** Hence the producer of a block chooses the random number at it: whatever the others published, there is a number `r` such that with the
seed `s` the random number is `s + r`, and every seed is accepted. -/
theorem producer_controls_random {g : Cfg} (hc : CfgOk g) (hH : Function.Injective g.H) (hH0 : ∀ x, g.H x ≠ 0) {c : Chain} (hs : Start g c) {ops : List Op}
    (ho : ∀ op ∈ ops, op.Fits g) {accounts : Addr → Nat → Option Hash} {b : Snap} (hb : (Op.insert b accounts).Fits g)
    (h : step g (run g c ops) (.insert b accounts) = run g c ops ++ [b]) {n : Nat} (hn : 1 ≤ n) :
    ∃ r, ∀ s, s ≠ 0 → s < 2 ^ 64 → ∃ b', b'.producer = b.producer ∧ b'.time = b.time ∧ run g c (ops ++ [.insert b' accounts]) = run g c ops ++ [b'] ∧
      randomSeed (run g c (ops ++ [.insert b' accounts])) b'.hash n = (s + r) % 2 ^ 64 := by
  have hi := reachable hc hs ho
  have hrun : ∀ b', run g c (ops ++ [.insert b' accounts]) = step g (run g c ops) (.insert b' accounts) := by
    intro b'; unfold run; rw [List.foldl_append]; rfl
  have hin : ∀ b', (Op.insert b' accounts).Fits g → ∀ op ∈ ops ++ [.insert b' accounts], op.Fits g := by
    intro b' hb' op hop
    rw [List.mem_append, List.mem_singleton] at hop
    rcases hop with hop | rfl
    · exact ho op hop
    · exact hb'
  have hlast : b.height = (run g c ops).length + 1 := by
    have hinv := reachable hc hs (hin b hb)
    rw [hrun, h] at hinv
    have := hinv.good.height (run g c ops).length b (by simp)
    exact this
  have h1 : b.height ≠ 1 := by have := List.length_pos_iff.2 hi.good.ne; omega
  generalize hr : ((((latestSeeds (window (run g c ops) b.height)).filter (fun x => decide (x.producer ≠ b.producer))).take (n - 1)).map (·.seed)).sum = r
  refine ⟨r, ?_⟩
  intro s hs0 hs1
  have hacc := any_seed_accepted g hH0 h1 h s none
  refine ⟨b.reseed g s none, rfl, rfl, by rw [hrun, hacc], ?_⟩
  have hfit : (Op.insert (b.reseed g s none) accounts).Fits g := hb
  have hinv := reachable hc hs (hin _ hfit)
  have hmem : b.reseed g s none ∈ run g c (ops ++ [.insert (b.reseed g s none) accounts]) := by rw [hrun, hacc]; simp
  rw [randomSeed_window hH hinv.toInv hmem, hrun, hacc]
  have hw : window (run g c ops ++ [b.reseed g s none]) (b.reseed g s none).height = b.reseed g s none :: window (run g c ops) b.height := by
    unfold window
    rw [List.filter_append, List.reverse_append]
    rw [List.filter_cons_of_pos (by rw [decide_eq_true_iff]; omega)]
    rfl
  rw [hw, seedSum_cons hn]
  · rw [← hr]; rfl
  · intro x hx
    unfold window at hx
    have := (mem_height hi.good (List.mem_filter.1 (List.mem_reverse.1 hx)).1).2
    change x.height < b.height
    omega
  · exact hs0

/-- **C56** Every value but one can be had. -/
theorem random_of_choice {g : Cfg} (hc : CfgOk g) (hH : Function.Injective g.H) (hH0 : ∀ x, g.H x ≠ 0) {c : Chain} (hs : Start g c) {ops : List Op}
    (ho : ∀ op ∈ ops, op.Fits g) {accounts : Addr → Nat → Option Hash} {b : Snap} (hb : (Op.insert b accounts).Fits g)
    (h : step g (run g c ops) (.insert b accounts) = run g c ops ++ [b]) {n : Nat} (hn : 1 ≤ n) :
    ∃ r, ∀ v < 2 ^ 64, v ≠ r → ∃ b', b'.producer = b.producer ∧ run g c (ops ++ [.insert b' accounts]) = run g c ops ++ [b'] ∧
      randomSeed (run g c (ops ++ [.insert b' accounts])) b'.hash n = v := by
  obtain ⟨r, hr⟩ := producer_controls_random hc hH hH0 hs ho hb h hn
  refine ⟨r % 2 ^ 64, ?_⟩
  intro v hv hvr
  obtain ⟨b', h1, -, h2, h3⟩ := hr ((v + 2 ^ 64 - r % 2 ^ 64) % 2 ^ 64) (by omega) (by omega)
  exact ⟨b', h1, h2, by rw [h3]; omega⟩

end Verif.Snap

/-! ### Examples -/

namespace Verif.Snap
open Verif.Consensus

/-- There are hash functions as they are asked for. -/
theorem hash_exists : ∃ H : Body → Hash, Function.Injective H ∧ ∀ x, H x ≠ 0 := by
  have hc : Countable Body :=
    Function.Injective.countable (f := fun b : Body => (b.prev, b.height, b.sec, b.seed, b.seedHash, b.content)) (by
      rintro ⟨a, b, c, d, e, f⟩ ⟨a', b', c', d', e', f'⟩ h
      simp only [Prod.mk.injEq] at h
      obtain ⟨rfl, rfl, rfl, rfl, rfl, rfl⟩ := h
      rfl)
  obtain ⟨f, hf⟩ := Countable.exists_injective_nat Body
  exact ⟨fun x => f x + 1, fun a b h => hf (by simpa using h), fun x => by simp⟩

/-- Two producers in turn, a second each. -/
def exCfg (H : Body → Hash) : Cfg := ⟨H, fun s p t => s + p + t.toNat, ⟨100, 1, 2, 1, 1⟩, fun _ => [7, 8], H ⟨0, 1, 100, 0, 0, []⟩⟩

/-- A block with its hash. -/
def mkSnap (H : Body → Hash) (prev : Hash) (height : Nat) (sec : Int) (seed : Nat) (sh : Option Hash) (producer : Addr) : Snap :=
  ⟨H ⟨prev, height, sec, seed, sh.getD 0, []⟩, prev, height, sec * 1000000000, seed, sh, producer, []⟩

def exGenesis (H : Body → Hash) : Snap := mkSnap H 0 1 100 0 none 0
def exB2 (H : Body → Hash) : Snap := mkSnap H (exGenesis H).hash 2 101 5 none 8
def exB3 (H : Body → Hash) : Snap := mkSnap H (exB2 H).hash 3 102 9 (some 3) 7
/-- A block out of its slot. -/
def exBad (H : Body → Hash) : Snap := mkSnap H (exB2 H).hash 3 103 9 (some 3) 7

theorem exCfg_ok (H : Body → Hash) : CfgOk (exCfg H) := ⟨Nat.one_pos, Nat.two_pos, Nat.one_pos, Nat.one_pos⟩

theorem exStart (H : Body → Hash) : Start (exCfg H) [exGenesis H] := ⟨_, rfl, rfl, rfl, rfl⟩

def exOps (H : Body → Hash) : List Op := [.insert (exB2 H) (fun _ _ => none), .insert (exBad H) (fun _ _ => none), .insert (exB3 H) (fun _ _ => none), .rollback 2,
  .insert (exB3 H) (fun _ _ => none)]

theorem exOps_fit (H : Body → Hash) : ∀ op ∈ exOps H, op.Fits (exCfg H) := by
  intro op h
  simp only [exOps, List.mem_cons, List.not_mem_nil, or_false] at h
  rcases h with rfl | rfl | rfl | rfl | rfl <;> first | trivial | exact ⟨by norm_num [exB2, exB3, exBad, mkSnap], by norm_num [exB2, exB3, exBad, mkSnap, exCfg, unix]⟩

theorem ex_round0 : (⟨100, 2⟩ : TimeIndex).time2Index 101 = 0 := by decide +kernel
theorem ex_round1 : (⟨100, 2⟩ : TimeIndex).time2Index 102 = 1 := by decide +kernel
theorem ex_round1' : (⟨100, 2⟩ : TimeIndex).time2Index 103 = 1 := by decide +kernel

theorem ex_ok2 (H : Body → Hash) : producerOk (exCfg H) [exGenesis H] (exB2 H).producer (exB2 H).time = some true := by
  have e : (exCfg H).plan.index.time2Index (unix (exB2 H).time) = 0 := ex_round0
  unfold producerOk
  have e2 : elected (exCfg H) [exGenesis H] 0 = some [7, 8] := rfl
  have e3 : ((genPlan ⟨100, 1, 2, 1, 1⟩ 0 [7, 8]).any (fun s => decide (s.member = 8) && decide (s.stime * 1000000000 = 101 * 1000000000))) = true := by decide +kernel
  rw [e]
  simp only
  rw [e2]
  exact congrArg some e3

theorem ex_ok3 (H : Body → Hash) : producerOk (exCfg H) [exGenesis H, exB2 H] (exB3 H).producer (exB3 H).time = some true := by
  have e : (exCfg H).plan.index.time2Index (unix (exB3 H).time) = 1 := ex_round1
  unfold producerOk
  have e2 : elected (exCfg H) [exGenesis H, exB2 H] 1 = some [7, 8] := rfl
  have e3 : ((genPlan ⟨100, 1, 2, 1, 1⟩ 1 [7, 8]).any (fun s => decide (s.member = 7) && decide (s.stime * 1000000000 = 102 * 1000000000))) = true := by decide +kernel
  rw [e]
  simp only
  rw [e2]
  exact congrArg some e3

theorem ex_notOk (H : Body → Hash) : producerOk (exCfg H) [exGenesis H, exB2 H] (exBad H).producer (exBad H).time = some false := by
  have e : (exCfg H).plan.index.time2Index (unix (exBad H).time) = 1 := ex_round1'
  unfold producerOk
  have e2 : elected (exCfg H) [exGenesis H, exB2 H] 1 = some [7, 8] := rfl
  have e3 : ((genPlan ⟨100, 1, 2, 1, 1⟩ 1 [7, 8]).any (fun s => decide (s.member = 7) && decide (s.stime * 1000000000 = 103 * 1000000000))) = false := by decide +kernel
  rw [e]
  simp only
  rw [e2]
  exact congrArg some e3

theorem ex_step2 (H : Body → Hash) (h0 : ∀ x, H x ≠ 0) : step (exCfg H) [exGenesis H] (.insert (exB2 H) (fun _ _ => none)) = [exGenesis H, exB2 H] := by
  change (if dataValid (exCfg H) (exB2 H) = true ∧ _ then _ else _) = _
  rw [if_pos]
  · rfl
  · refine ⟨?_, (accepted_iff (exCfg H) (latest := exGenesis H) rfl (Nat.le_refl 1) (by norm_num [exGenesis, mkSnap]) _ _ (by norm_num [exB2, mkSnap])).2
      ⟨rfl, rfl, by norm_num [exGenesis, exB2, mkSnap], by intro x hx; exact absurd hx (by simp [exB2, mkSnap]), ex_ok2 H⟩⟩
    unfold dataValid
    rw [Bool.and_eq_true]
    exact ⟨decide_eq_true (h0 _), decide_eq_true rfl⟩

theorem ex_step3 (H : Body → Hash) (h0 : ∀ x, H x ≠ 0) :
    step (exCfg H) [exGenesis H, exB2 H] (.insert (exB3 H) (fun _ _ => none)) = [exGenesis H, exB2 H, exB3 H] := by
  change (if dataValid (exCfg H) (exB3 H) = true ∧ _ then _ else _) = _
  rw [if_pos]
  · rfl
  · refine ⟨?_, (accepted_iff (exCfg H) (latest := exB2 H) rfl (by norm_num [exB2, mkSnap]) (by norm_num [exB2, mkSnap]) _ _ (by norm_num [exB3, mkSnap])).2
      ⟨rfl, rfl, by norm_num [exB3, exB2, mkSnap], by intro x hx; exact absurd hx (by simp [exB3, mkSnap]), ex_ok3 H⟩⟩
    unfold dataValid
    rw [Bool.and_eq_true]
    exact ⟨decide_eq_true (h0 _), decide_eq_true rfl⟩

/-- A block out of its producer's slot is refused. -/
theorem ex_bad (H : Body → Hash) : step (exCfg H) [exGenesis H, exB2 H] (.insert (exBad H) (fun _ _ => none)) = [exGenesis H, exB2 H] := by
  change (if dataValid (exCfg H) (exBad H) = true ∧ _ then _ else _) = _
  rw [if_neg]
  rintro ⟨-, h⟩
  have := ((accepted_iff (exCfg H) (latest := exB2 H) rfl (by norm_num [exB2, mkSnap]) (by norm_num [exB2, mkSnap]) _ _ (by norm_num [exBad, mkSnap])).1 h).2.2.2.2
  have e : producerOk (exCfg H) [exGenesis H, exB2 H] (exBad H).producer (exBad H).time = some false := ex_notOk H
  rw [e] at this
  exact absurd this (by simp)

/-- The history is of three blocks. -/
theorem ex_run (H : Body → Hash) (h0 : ∀ x, H x ≠ 0) : run (exCfg H) [exGenesis H] (exOps H) = [exGenesis H, exB2 H, exB3 H] := by
  unfold run exOps
  simp only [List.foldl_cons, List.foldl_nil]
  rw [ex_step2 H h0, ex_bad H, ex_step3 H h0]
  change step _ (([exGenesis H, exB2 H, exB3 H] : Chain).take 2) _ = _
  exact ex_step3 H h0

/-- The properties hold of it, with hypotheses that are met. -/
example : ∃ H : Body → Hash, Function.Injective H ∧ (∀ x, H x ≠ 0) ∧
    Elected (exCfg H) (run (exCfg H) [exGenesis H] (exOps H)) (exB3 H) ∧ randomSeed (run (exCfg H) [exGenesis H] (exOps H)) (exB3 H).hash 25 = 14 := by
  obtain ⟨H, h1, h2⟩ := hash_exists
  have hm : exB3 H ∈ run (exCfg H) [exGenesis H] (exOps H) := by rw [ex_run H h2]; simp
  refine ⟨H, h1, h2, chain_elected (exCfg_ok H) (exStart H) (exOps_fit H) hm (by norm_num [exB3, mkSnap]), ?_⟩
  rw [random_exact (exCfg_ok H) h1 (exStart H) (exOps_fit H) hm, ex_run H h2]
  rfl

/-- Nothing was committed to, and there are three blocks: a seed of choice makes a random number of choice. -/
example : ∃ (g : Cfg) (c : Chain) (b : Snap), Inv64 g c ∧ step g c (.insert b (fun _ _ => none)) = c ++ [b] ∧ ¬ Commits g c b := by
  obtain ⟨H, -, h2⟩ := hash_exists
  refine ⟨exCfg H, [exGenesis H], exB2 H, reachable (exCfg_ok H) (exStart H) (ops := []) (by simp), ex_step2 H h2, ?_⟩
  intro h
  obtain ⟨x, hx, -, -, he⟩ := h (by norm_num [exB2, mkSnap])
  simp at hx
  subst hx
  exact absurd he (by simp [exGenesis, mkSnap])

/-- Two confirmations and one seed from height 1 on: the second block. -/
example (H : Body → Hash) : limitBlock [exGenesis H, exB2 H, exB3 H] 1 2 1 = some (some (exB2 H)) := rfl
/-- Two seeds: the third. -/
example (H : Body → Hash) : limitBlock [exGenesis H, exB2 H, exB3 H] 1 2 2 = some (some (exB3 H)) := rfl
/-- Three seeds: not yet. -/
example (H : Body → Hash) : limitBlock [exGenesis H, exB2 H, exB3 H] 1 2 3 = none := rfl

end Verif.Snap
