import Verif.Builtin.RewardModel
import Verif.Tactics

/-! C20: the rewards of one day are bounded by the emission of the day. -/

namespace Verif.Builtin.Reward

namespace Spec

/-- Sum of a quantity over the producers of a day. -/
def sumOver (f : SbpStat → Nat) (d : DayStats) : Nat := (d.stats.map f).sum

/-- What all producers together get for a day, when every one of them withdraws. -/
def paidForDay (d : DayStats) (stake : Nat) : Nat := (d.stats.map (fun s => dayReward d s.name stake)).sum

end Spec
open Spec

theorem sum_le_sum {α : Type} (f g : α → Nat) : ∀ (l : List α), (∀ x ∈ l, f x ≤ g x) → (l.map f).sum ≤ (l.map g).sum
  | [], _ => by simp
  | x :: xs, h => by
    have h1 := h x List.mem_cons_self
    have h2 := sum_le_sum f g xs (fun y hy => h y (List.mem_cons_of_mem _ hy))
    simp only [List.map_cons, List.sum_cons]; omega

theorem sum_mul {α : Type} (f : α → Nat) (c : Nat) : ∀ (l : List α), (l.map (fun x => f x * c)).sum = (l.map f).sum * c
  | [] => by simp
  | x :: xs => by simp [sum_mul f c xs, Nat.add_mul]

theorem sum_add {α : Type} (f g : α → Nat) : ∀ (l : List α), (l.map (fun x => f x + g x)).sum = (l.map f).sum + (l.map g).sum
  | [] => by simp
  | x :: xs => by simp [sum_add f g xs]; omega

theorem sum_const {α : Type} (c : Nat) : ∀ (l : List α), (l.map (fun _ => c)).sum = l.length * c
  | [] => by simp
  | x :: xs => by simp [sum_const c xs, Nat.add_mul]; omega

theorem dayReward_of_mem {d : DayStats} {s : SbpStat} (hn : (d.stats.map (·.name)).Nodup) (hs : s ∈ d.stats) (stake : Nat) :
    dayReward d s.name stake = if s.expected = 0 then 0 else voteReward d s stake + blockReward s := by
  have : d.stats.find? (fun x => x.name = s.name) = some s := by
    generalize d.stats = l at *
    induction l with
    | nil => simp at hs
    | cons x xs ih =>
      simp only [List.map_cons, List.nodup_cons] at hn
      by_cases hx : x.name = s.name
      · rcases List.mem_cons.mp hs with h | h
        · simp [h]
        · exact absurd (hx ▸ List.mem_map_of_mem h) hn.1
      · rcases List.mem_cons.mp hs with h | h
        · exact absurd (h ▸ rfl) hx
        · simp [List.find?_cons, hx, ih hn.2 h]
  unfold dayReward
  rw [this]

theorem voteReward_bound (d : DayStats) (s : SbpStat) (stake : Nat) (hb : s.blockNum ≤ s.expected) (he : 0 < s.expected) :
    100 * (voteReward d s stake * (d.stats.length * stake + d.voteSum)) ≤ (s.votes + stake) * (d.blockTotal * 50 * rewardPerBlock) := by
  unfold voteReward
  generalize hW : d.stats.length * stake + d.voteSum = W
  generalize hR : (s.votes + stake) * (d.blockTotal * 50 * rewardPerBlock) = A
  have h0 : (s.votes + stake) * d.blockTotal * 50 * rewardPerBlock * s.blockNum = A * s.blockNum := by
    rw [← hR]; ring
  rw [h0]
  generalize hx : A * s.blockNum / W / s.expected / 100 = x
  have h1 : x * 100 ≤ A * s.blockNum / W / s.expected := hx ▸ Nat.div_mul_le_self _ _
  have h2 : A * s.blockNum / W / s.expected * s.expected ≤ A * s.blockNum / W := Nat.div_mul_le_self _ _
  have h3 : A * s.blockNum / W * W ≤ A * s.blockNum := Nat.div_mul_le_self _ _
  have h4 : x * 100 * s.expected ≤ A * s.blockNum / W := le_trans (Nat.mul_le_mul_right _ h1) h2
  have h5 : x * 100 * s.expected * W ≤ A * s.blockNum := le_trans (Nat.mul_le_mul_right _ h4) h3
  have h6 : A * s.blockNum ≤ A * s.expected := Nat.mul_le_mul_left _ hb
  have h7 : (100 * (x * W)) * s.expected ≤ A * s.expected := by
    calc (100 * (x * W)) * s.expected = x * 100 * s.expected * W := by ring
      _ ≤ A * s.blockNum := h5
      _ ≤ A * s.expected := h6
  exact Nat.le_of_mul_le_mul_right h7 he

/-- **C20**: whatever the votes, the numbers of blocks and the number of producers, if no producer made more blocks than it
was expected to, all producers together get at most the emission of the blocks of the day. -/
theorem day_rewards_bounded (d : DayStats) (stake : Nat) (hs : 0 < stake) (hn : (d.stats.map (·.name)).Nodup)
    (hv : sumOver (·.votes) d ≤ d.voteSum) (hb : sumOver (·.blockNum) d ≤ d.blockTotal)
    (hle : ∀ s ∈ d.stats, s.blockNum ≤ s.expected) : paidForDay d stake ≤ d.blockTotal * rewardPerBlock := by
  by_cases hemp : d.stats = []
  · simp [paidForDay, hemp]
  · have hlen : 0 < d.stats.length := List.length_pos_iff.mpr hemp
    have hW : 0 < d.stats.length * stake + d.voteSum := by
      have := Nat.mul_pos hlen hs
      omega
    let W := d.stats.length * stake + d.voteSum
    let f : SbpStat → Nat := fun s => if s.expected = 0 then 0 else voteReward d s stake
    let g : SbpStat → Nat := fun s => if s.expected = 0 then 0 else blockReward s
    have hpaid : paidForDay d stake = (d.stats.map f).sum + (d.stats.map g).sum := by
      rw [← sum_add]
      unfold paidForDay
      congr 1
      apply List.map_congr_left
      intro s hs'
      rw [dayReward_of_mem hn hs']
      by_cases he : s.expected = 0 <;> simp [f, g, he]
    have hf : 100 * ((d.stats.map f).sum * W) ≤ W * (d.blockTotal * 50 * rewardPerBlock) := by
      rw [← sum_mul, Nat.mul_comm, ← sum_mul]
      refine le_trans (sum_le_sum _ (fun s => (s.votes + stake) * (d.blockTotal * 50 * rewardPerBlock)) _ (fun s hs' => ?_)) ?_
      · by_cases he : s.expected = 0
        · simp [f, he]
        · have := voteReward_bound d s stake (hle s hs') (Nat.pos_of_ne_zero he)
          simp only [f, he, if_false]
          rw [Nat.mul_comm]; exact this
      · rw [sum_mul, sum_add, sum_const]
        refine Nat.mul_le_mul_right _ ?_
        show (d.stats.map (·.votes)).sum + d.stats.length * stake ≤ d.stats.length * stake + d.voteSum
        unfold sumOver at hv
        omega
    have hf2 : 100 * (d.stats.map f).sum ≤ d.blockTotal * 50 * rewardPerBlock := by
      have : (100 * (d.stats.map f).sum) * W ≤ (d.blockTotal * 50 * rewardPerBlock) * W := by
        rw [Nat.mul_assoc, Nat.mul_comm (d.blockTotal * 50 * rewardPerBlock) W]; exact hf
      exact Nat.le_of_mul_le_mul_right this hW
    have hg : 100 * (d.stats.map g).sum ≤ d.blockTotal * 50 * rewardPerBlock := by
      rw [Nat.mul_comm, ← sum_mul]
      refine le_trans (sum_le_sum _ (fun s => s.blockNum * (50 * rewardPerBlock)) _ (fun s hs' => ?_)) ?_
      · by_cases he : s.expected = 0
        · simp [g, he]
        · simp only [g, he, if_false, blockReward]
          rw [← Nat.mul_assoc]
          exact Nat.div_mul_le_self _ _
      · rw [sum_mul, Nat.mul_assoc]
        exact Nat.mul_le_mul_right _ hb
    rw [hpaid]
    nlinarith [hf2, hg]

/-! ### The day statistics meet these conditions -/

theorem names_addSbp (n : Option Name) (e p : Nat) (d : DayStats) :
    (addSbp n e p d).stats.map (·.name) = d.stats.map (·.name) := by
  simp only [addSbp, List.map_map]
  apply List.map_congr_left
  intro s _
  simp only [Function.comp]
  split <;> rfl

theorem votes_addSbp (n : Option Name) (e p : Nat) (d : DayStats) :
    (addSbp n e p d).stats.map (·.votes) = d.stats.map (·.votes) := by
  simp only [addSbp, List.map_map]
  apply List.map_congr_left
  intro s _
  simp only [Function.comp]
  split <;> rfl

theorem blocks_add_le (n : Option Name) (p : Nat) (e : Nat) : ∀ (l : List SbpStat), (l.map (·.name)).Nodup →
    ((l.map (fun s => if some s.name = n then { s with blockNum := s.blockNum + p, expected := s.expected + e } else s)).map
      (·.blockNum)).sum ≤ (l.map (·.blockNum)).sum + p
  | [], _ => by simp
  | x :: xs, h => by
    simp only [List.map_cons, List.nodup_cons] at h
    by_cases hx : some x.name = n
    · have hrest : xs.map (fun s => if some s.name = n then { s with blockNum := s.blockNum + p, expected := s.expected + e } else s) = xs := by
        conv_rhs => rw [← List.map_id xs]
        apply List.map_congr_left
        intro s hs
        have : ¬ some s.name = n := by
          intro q
          rw [← hx, Option.some.injEq] at q
          exact h.1 (q ▸ List.mem_map_of_mem hs)
        simp [this]
      simp only [List.map_cons, hrest, hx, if_true, List.sum_cons]
      omega
    · have := blocks_add_le n p e xs h.2
      simp only [List.map_cons, hx, if_false, List.sum_cons]
      omega

/-- **C20**, for the statistics the consensus hands out: given a day's point with as many blocks per address as planned at
most, and the register of names, the rewards of all producers are bounded by the emission of the day. -/
theorem rewards_of_point_bounded (registered : Nat → Option Name) (p : Point) (stake : Nat) (hs : 0 < stake)
    (hn : (p.votes.map (·.1)).Nodup) (hv : (p.votes.map (·.2)).sum ≤ p.voteTotal) (hle : ∀ x ∈ p.sbps, x.2.2 ≤ x.2.1) :
    paidForDay (dayStats registered p) stake ≤ (p.sbps.map (·.2.2)).sum * rewardPerBlock := by
  have key : ∀ (l : List (Nat × Nat × Nat)) (d : DayStats), (∀ x ∈ l, x.2.2 ≤ x.2.1) →
      (d.stats.map (·.name)).Nodup → sumOver (·.votes) d ≤ d.voteSum → sumOver (·.blockNum) d ≤ d.blockTotal →
      (∀ s ∈ d.stats, s.blockNum ≤ s.expected) →
      let d' := l.foldl (fun d x => addSbp (registered x.1) x.2.1 x.2.2 d) d
      paidForDay d' stake ≤ d'.blockTotal * rewardPerBlock ∧ d'.blockTotal = d.blockTotal + (l.map (·.2.2)).sum := by
    intro l
    induction l with
    | nil => intro d _ h2 h3 h4 h5; exact ⟨day_rewards_bounded d stake hs h2 h3 h4 h5, by simp⟩
    | cons x xs ih =>
      intro d h1 h2 h3 h4 h5
      have h6 := h1 x List.mem_cons_self
      obtain ⟨q1, q2⟩ := ih (addSbp (registered x.1) x.2.1 x.2.2 d) (fun y hy => h1 y (List.mem_cons_of_mem _ hy))
        (by rw [names_addSbp]; exact h2)
        (by unfold sumOver at h3 ⊢; rw [votes_addSbp]; exact h3)
        (by
          have := blocks_add_le (registered x.1) x.2.2 x.2.1 d.stats h2
          unfold sumOver at h4 ⊢
          simp only [addSbp] at this ⊢
          omega)
        (by
          intro s hs'
          simp only [addSbp, List.mem_map] at hs'
          obtain ⟨s0, hs0, rfl⟩ := hs'
          have := h5 s0 hs0
          split
          · simp only; omega
          · exact this)
      refine ⟨q1, ?_⟩
      simp only [List.foldl_cons] at q2 ⊢
      rw [q2]
      simp only [addSbp, List.map_cons, List.sum_cons]
      omega
  obtain ⟨q1, q2⟩ := key p.sbps ⟨p.votes.map (fun v => ⟨v.1, 0, 0, v.2⟩), p.voteTotal, 0⟩ hle
    (by simpa [List.map_map, Function.comp_def] using hn)
    (by simpa [sumOver, List.map_map, Function.comp_def] using hv)
    (by simp [sumOver, List.map_map, Function.comp_def])
    (by intro s hs'; simp only [List.mem_map] at hs'; obtain ⟨v, _, rfl⟩ := hs'; simp)
  unfold dayStats
  rw [q2] at q1
  simpa using q1

/-- The votes of a day sum up to the total used. -/
theorem dayVoteStat_sum (rank : Nat) (sorted : List (Name × Nat)) :
    ((dayVoteStat rank sorted).1.map (·.2)).sum = (dayVoteStat rank sorted).2 := rfl

/-- Two producers, one of them with two addresses, and an address without a name. -/
def samplePoint : Point := ⟨[(1, 3, 2), (2, 3, 3), (3, 1, 1), (4, 2, 2)], [([65], 10 ^ 24), ([66], 10 ^ 23)], 10 ^ 24 + 10 ^ 23⟩
def sampleNames : Nat → Option Name
  | 1 => some [65]
  | 2 => some [66]
  | 3 => some [65]
  | _ => none

example : (dayStats sampleNames samplePoint).stats.map (fun s => (s.blockNum, s.expected)) = [(3, 4), (3, 3)] ∧
    (dayStats sampleNames samplePoint).blockTotal = 8 ∧
    0 < paidForDay (dayStats sampleNames samplePoint) (10 ^ 24) ∧
    paidForDay (dayStats sampleNames samplePoint) (10 ^ 24) ≤ 8 * rewardPerBlock := by decide +kernel

/-- If a producer were credited with more blocks than expected, the bound would fail: the hypothesis is needed. -/
example : ¬ paidForDay ⟨[⟨[65], 100, 1, 0⟩], 0, 100⟩ (10 ^ 24) ≤ 100 * rewardPerBlock := by decide +kernel

end Verif.Builtin.Reward
