import Verif.Stats.StatProps
import Verif.Snap.ControlProps

/-!
# C36: no producer makes more blocks than are expected of it
-/

namespace Verif.Stats
open Verif.Consensus Verif.Snap

variable {g : Env} {first : Snap} {c : Chain}

/-- A block between the start and the end of a round is of that round. -/
theorem round_of (he : EnvOk g first) (h : Valid g first c) {b : Snap} (hb : b ∈ c) {k : Nat} (h1 : start g k ≤ b.time) (h2 : b.time < start g (k + 1)) :
    g.plan.index.time2Index (unix b.time) = k := by
  have hw := h.inv.whole b hb
  have hs := round_start he h hb
  obtain ⟨fm, fh, ft⟩ := h.firstMem
  rw [start_zero] at ft
  have hft : first.time ≤ b.time := by
    by_cases e : b.height = 1
    · rw [same_height h.good hb fm (by omega)]
    · have := (time_lt_iff h.good fm hb).2 (by have := (mem_height h.good hb).1; omega); omega
  have hr : g.plan.index.InRange (unix b.time) := ⟨by unfold unix; change g.plan.genesis ≤ _; omega, h.inv.intime b hb⟩
  apply (index_exact g.plan.index he.cfg.pos hr k).2
  have h3 : (periodTime g k).1 = start g k := congrArg Prod.fst (periodTime_eq g k)
  have h4 : (periodTime g k).2 = start g (k + 1) := congrArg Prod.snd (periodTime_eq g k)
  rw [← h3] at h1
  rw [← h4] at h2
  unfold periodTime at h1 h2
  simp only at h1 h2
  unfold unix
  omega

theorem round_factual_le (he : EnvOk g first) (h : Valid g first c) (k : Nat) (a : Addr) : factual g (view c) k (k + 1) a ≤ expected g (view c) k (k + 1) a := by
  generalize hfl : c.filter (fun z => decide (z.producer = a) && decide (z.height ≠ 1 ∧ start g k ≤ z.time ∧ z.time < start g (k + 1))) = fl
  have hfac : factual g (view c) k (k + 1) a = fl.length := by
    unfold factual blocksIn view
    rw [List.filter_map, List.filter_map, List.length_map, List.filter_filter, ← hfl]
    rfl
  rw [hfac]
  cases hfe : fl with
  | nil => simp
  | cons b0 rest =>
    have hm : ∀ b ∈ fl, b ∈ c ∧ b.producer = a ∧ b.height ≠ 1 ∧ start g k ≤ b.time ∧ b.time < start g (k + 1) := by
      intro b hb
      rw [← hfl, List.mem_filter, Bool.and_eq_true, decide_eq_true_iff, decide_eq_true_iff] at hb
      exact hb
    rw [← hfe]
    obtain ⟨hb0, hp0, h10, hs0, he0⟩ := hm b0 (by rw [hfe]; simp)
    have hu : ∀ {b : Snap} {sec : Int}, b.time = sec * 1000000000 → unix b.time = sec := by intro b sec h; unfold unix; omega
    obtain ⟨sec0, hsec0, pb, hpb, -⟩ := h.inv.placed b0 hb0 h10
    rw [← hu hsec0, round_of he h hb0 hs0 he0] at hpb
    have hexp : expected g (view c) k (k + 1) a = ((genPlan g.plan k (g.votes pb.hash)).filter (fun s => decide (s.member = a))).length := by
      unfold expected
      rw [show k + 1 - k = 1 by omega]
      simp only [List.range'_one, List.map_cons, List.map_nil, List.sum_cons, List.sum_nil, Nat.add_zero]
      rw [if_neg]
      · unfold slots
        rw [lastBefore_view h.good hpb]
        rfl
      · rw [List.isEmpty_iff, blocksIn_nil]
        intro hx
        have := hx b0 hb0 h10 hs0
        omega
    rw [hexp]
    have hin : ∀ b ∈ fl, b.time ∈ ((genPlan g.plan k (g.votes pb.hash)).filter (fun s => decide (s.member = a))).map (fun s => s.stime * 1000000000) := by
      intro b hb
      obtain ⟨mb, hp, h1, hs, hee⟩ := hm b hb
      obtain ⟨sec, hsec, pb', hpb', s, hsm, hse, hst⟩ := h.inv.placed b mb h1
      rw [← hu hsec, round_of he h mb hs hee] at hpb' hsm
      have hpp : pb' = pb := lastBefore_unique h.good hpb' hpb
      subst hpp
      rw [List.mem_map]
      refine ⟨s, ?_, by rw [hst, hsec]⟩
      rw [List.mem_filter]
      exact ⟨hsm, decide_eq_true (by rw [hse, hp])⟩
    have hnd : (fl.map (·.time)).Nodup := by
      have hp : fl.Pairwise (fun a b => a.time < b.time) := by rw [← hfl]; exact h.good.times.sublist List.filter_sublist
      rw [List.Nodup, List.pairwise_map]
      exact hp.imp (fun h => by omega)
    have hsub : fl.map (·.time) ⊆ ((genPlan g.plan k (g.votes pb.hash)).filter (fun s => decide (s.member = a))).map (fun s => s.stime * 1000000000) := by
      intro t ht
      rw [List.mem_map] at ht
      obtain ⟨b, hb, rfl⟩ := ht
      exact hin b hb
    have := (List.Nodup.subperm hnd hsub).length_le
    rw [List.length_map, List.length_map] at this
    exact this

/-- **C36.** Over any rounds no producer made more blocks than were expected of it. -/
theorem factual_le_expected (he : EnvOk g first) (h : Valid g first c) (i n : Nat) (a : Addr) : factual g (view c) i (i + n) a ≤ expected g (view c) i (i + n) a := by
  induction n with
  | zero =>
    have := (sum_of_rounds g (view c) i 0 a).1
    rw [this]
    simp
  | succ n ih =>
    rw [show i + (n + 1) = (i + n) + 1 by omega, factual_split (show i ≤ i + n by omega) (Nat.le_succ _), expected_split (show i ≤ i + n by omega) (Nat.le_succ _)]
    have := round_factual_le he h (i + n) a
    simp only [Nat.succ_eq_add_one]
    omega

/-- **C36.** A success rate is none if nothing was expected, and else between nought and a million, the part of the expected blocks that was made, rounded down, as long
as no more than 4294 blocks are expected. -/
theorem rate_exact {e f : Nat} (hfe : f ≤ e) (he : e ≤ 4294) : Content.rate ⟨e, f⟩ = if e = 0 then -1 else ((f * 1000000 / e : Nat) : Int) := by
  unfold Content.rate
  simp only
  by_cases e0 : e = 0
  · rw [if_pos e0, if_pos e0]
  · rw [if_neg e0, if_neg e0]
    by_cases f0 : f = 0
    · rw [if_pos f0, f0]
      simp
    · rw [if_neg f0]
      have h1 : f * 1000000 % 2 ^ 32 = f * 1000000 := Nat.mod_eq_of_lt (by omega)
      have h2 : f * 1000000 / e ≤ 1000000 := Nat.div_le_of_le_mul (by rw [Nat.mul_comm e]; omega)
      rw [h1, if_pos (by omega)]

/-- Beyond, the product wraps: a producer that made every one of 4295 blocks has a rate of seven in a million. -/
theorem rate_wraps : Content.rate ⟨4295, 4295⟩ = 7 := by decide +kernel

/-- **C36.** In the 48 rounds of the success rate fewer blocks than that are expected if there are at most 89 slots in a round for each producer. -/
theorem rate_in_range (he : EnvOk g first) (h : Valid g first c) (hs : ∀ k a, slots g (view c) k a ≤ 89) (k : Nat) (a : Addr) :
    trueRates g (view c) k a = (if expected g (view c) (k + 1 - 48) (k + 1) a = 0 then none else
      some ((factual g (view c) (k + 1 - 48) (k + 1) a * 1000000 / expected g (view c) (k + 1 - 48) (k + 1) a : Nat) : Int)) := by
  obtain ⟨n, hn⟩ : ∃ n, k + 1 = (k + 1 - 48) + n := ⟨k + 1 - (k + 1 - 48), by omega⟩
  have hle : factual g (view c) (k + 1 - 48) (k + 1) a ≤ expected g (view c) (k + 1 - 48) (k + 1) a := by
    have := factual_le_expected he h (k + 1 - 48) n a
    rw [← hn] at this
    exact this
  have hb : expected g (view c) (k + 1 - 48) (k + 1) a ≤ 4294 := by
    have h1 : ∀ l : List Nat, (l.map (fun k => if (blocksIn g (view c) k (k + 1)).isEmpty then 0 else slots g (view c) k a)).sum ≤ 89 * l.length := by
      intro l
      induction l with
      | nil => simp
      | cons x l ih =>
        rw [List.map_cons, List.sum_cons, List.length_cons]
        have := hs x a
        split <;> omega
    have := h1 (List.range' (k + 1 - 48) (k + 1 - (k + 1 - 48)))
    rw [List.length_range'] at this
    unfold expected
    omega
  unfold trueRates counts
  by_cases e0 : expected g (view c) (k + 1 - 48) (k + 1) a = 0
  · rw [if_pos ⟨e0, by omega⟩, if_pos e0]
    rfl
  · rw [if_neg (by omega), if_neg e0, Option.map_some, rate_exact hle hb, if_neg e0]

/-! ### A network -/

/-- Rounds of two seconds with a slot for each of two producers. -/
def exEnv (H : Body → Hash) : Env := { exCfg H with choose := fun _ _ => [7, 8], dayVotes := fun h => h }

theorem exEnv_ok {H : Body → Hash} (hH : Function.Injective H) : EnvOk (exEnv H) (exGenesis H) where
  cfg := exCfg_ok H
  inj := hH
  small := fun _ => Nat.le_refl 2
  consistent := fun _ _ _ _ => rfl
  divides := by norm_num [exEnv, exCfg, rate, Plan.round]

theorem exValid1 (H : Body → Hash) : Valid (exEnv H) (exGenesis H) [exGenesis H] :=
  ⟨reachable (exCfg_ok H) (exStart H) (ops := []) (by simp), rfl⟩

theorem exValid3 {H : Body → Hash} (h0 : ∀ x, H x ≠ 0) : Valid (exEnv H) (exGenesis H) [exGenesis H, exB2 H, exB3 H] := by
  refine ⟨?_, rfl⟩
  rw [← ex_run H h0]
  exact reachable (exCfg_ok H) (exStart H) (exOps_fit H)

theorem step_chain (g : Env) (s : Sys) (op : Stats.Op) : (step g s op).chain = match op with | .chain c => c | _ => s.chain := by
  cases op <;> simp only [step]
  split <;> rfl

/-- A history: the chain grows, the first round, hour and day are asked for, the chain is rolled back, all are asked for again, it grows again, and entries are dropped. -/
def exHist (H : Body → Hash) : List Stats.Op :=
  [.chain [exGenesis H, exB2 H, exB3 H], .at .period 0, .at .hour 0, .at .day 0, .chain [exGenesis H], .at .hour 0, .stats .day 0 3, .election 1,
    .chain [exGenesis H, exB2 H, exB3 H], .evict (fun _ => true) (fun _ => false)]

theorem exHist_fits {H : Body → Hash} (h0 : ∀ x, H x ≠ 0) : ∀ op ∈ exHist H, op.Fits (exEnv H) (exGenesis H) := by
  intro op h
  simp only [exHist, List.mem_cons, List.not_mem_nil, or_false] at h
  rcases h with rfl | rfl | rfl | rfl | rfl | rfl | rfl | rfl | rfl | rfl <;> first | trivial | exact exValid3 h0 | exact exValid1 H

/-- What the statistics of the first hour are: each of the producers made one of the two blocks expected of it, in two rounds with one of two blocks each. -/
theorem ex_counts (H : Body → Hash) :
    factual (exEnv H) (view [exGenesis H, exB2 H, exB3 H]) 0 2 7 = 1 ∧ factual (exEnv H) (view [exGenesis H, exB2 H, exB3 H]) 0 2 8 = 1 ∧
      expected (exEnv H) (view [exGenesis H, exB2 H, exB3 H]) 0 2 7 = 2 ∧ expected (exEnv H) (view [exGenesis H, exB2 H, exB3 H]) 0 2 8 = 2 := by
  have e0 : ((genPlan ⟨100, 1, 2, 1, 1⟩ 0 [7, 8]).filter (fun s => decide (s.member = 7))).length = 1 ∧ ((genPlan ⟨100, 1, 2, 1, 1⟩ 0 [7, 8]).filter (fun s => decide (s.member = 8))).length = 1 := by
    decide +kernel
  have e1 : ((genPlan ⟨100, 1, 2, 1, 1⟩ 1 [7, 8]).filter (fun s => decide (s.member = 7))).length = 1 ∧ ((genPlan ⟨100, 1, 2, 1, 1⟩ 1 [7, 8]).filter (fun s => decide (s.member = 8))).length = 1 := by
    decide +kernel
  have hr : List.range' 0 2 = [0, 1] := rfl
  refine ⟨?_, ?_, ?_, ?_⟩ <;>
    norm_num [factual, expected, hr, blocksIn, view, Snap.blk, exGenesis, exB2, exB3, mkSnap, start, exEnv, exCfg, Plan.round, slots, lastBefore, proofTime, e0, e1, List.filter_cons]

/-- All this happens. -/
example : ∃ (g : Env) (first : Snap) (c : Chain) (ops : List Stats.Op), EnvOk g first ∧ Valid g first c ∧ (∀ op ∈ ops, op.Fits g first) ∧
    (run g ⟨c, St.init⟩ ops).chain.length = 3 ∧ ∃ p, (getAt g (run g ⟨c, St.init⟩ ops).chain .hour (run g ⟨c, St.init⟩ ops).st 0).2 = some p ∧ p.isEmpty = false := by
  obtain ⟨H, hH, h0⟩ := hash_exists
  have hc : (run (exEnv H) ⟨[exGenesis H], St.init⟩ (exHist H)).chain = [exGenesis H, exB2 H, exB3 H] := by
    unfold run exHist
    simp only [List.foldl_cons, List.foldl_nil, step_chain]
  refine ⟨exEnv H, exGenesis H, [exGenesis H], exHist H, exEnv_ok hH, exValid1 H, exHist_fits h0, by rw [hc]; rfl, _,
    statistics_exact (exEnv_ok hH) (exValid1 H) (exHist H) (exHist_fits h0) .hour 0, ?_⟩
  rw [hc, ← Bool.not_eq_true, truthOf_isEmpty (exEnv_ok hH) (exValid3 h0), blocksIn_nil]
  intro hx
  have h1 := hx (exB2 H) (by simp) (by simp [exB2, mkSnap]) (by norm_num [start, exEnv, exCfg, exB2, mkSnap])
  norm_num [start, exEnv, exCfg, exB2, mkSnap, width, rate, Plan.round] at h1

end Verif.Stats
