import Verif.Consensus.ElectLemmas
import Mathlib.Data.List.Count

/-!
# C34: who is elected

For every list of candidates, every table of success rates, every seed and every generator of random numbers.
-/

namespace Verif.Consensus
open Verif.Bytes

/-! ### Specification -/

/-- A candidate is ahead of another: more votes or, with as many, the smaller name. -/
def Ahead (w v : Vote) : Prop := v.balance < w.balance ∨ (w.balance = v.balance ∧ bcmp w.name v.name = .lt)

instance (w v : Vote) : Decidable (Ahead w v) := by unfold Ahead; infer_instance

/-- A candidate is among the first `n`: fewer than `n` are ahead of it. -/
def InTop (n : Nat) (votes : List Vote) (v : Vote) : Prop := votes.countP (fun w => decide (Ahead w v)) < n

instance (n : Nat) (votes : List Vote) (v : Vote) : Decidable (InTop n votes v) := by unfold InTop; infer_instance

/-! ### Steps -/

theorem not_ahead_of_le {v w : Vote} (h : v.le w = true) : ¬ Ahead w v := by
  unfold Vote.le at h
  rintro (hb | ⟨hb, hn⟩)
  · rw [if_neg (by omega)] at h
    have := of_decide_eq_true h
    omega
  · rw [if_pos hb.symm] at h
    have := of_decide_eq_true h
    rw [bcmp_swap, hn] at this
    exact this rfl

theorem inTop_take {votes : List Vote} {n : Nat} {v : Vote} (h : v ∈ (sortVotes votes).take n) : InTop n votes v := by
  obtain ⟨i, hi, hv⟩ := List.mem_iff_getElem.1 h
  rw [List.length_take] at hi
  rw [List.getElem_take] at hv
  unfold InTop
  rw [← (sortVotes_perm votes).countP_eq]
  conv_lhs => rw [← List.take_append_drop i (sortVotes votes)]
  rw [List.countP_append]
  have h1 : ((sortVotes votes).take i).countP (fun w => decide (Ahead w v)) ≤ i := by
    refine Nat.le_trans List.countP_le_length ?_
    rw [List.length_take]; omega
  have h2 : ((sortVotes votes).drop i).countP (fun w => decide (Ahead w v)) = 0 := by
    rw [List.countP_eq_zero]
    intro w hw hd
    have hd := of_decide_eq_true hd
    obtain ⟨j, hj, hwj⟩ := List.mem_iff_getElem.1 hw
    rw [List.getElem_drop] at hwj
    rw [List.length_drop] at hj
    have hle : v.le w = true := by
      rcases Nat.eq_zero_or_pos j with rfl | hjp
      · have : v = w := by rw [← hv, ← hwj]; rfl
        subst this
        have := Vote.le_total v v
        simpa using this
      · have := List.pairwise_iff_getElem.1 (sortVotes_sorted votes) i (i + j) (by omega) (by omega) (by omega)
        rw [← hv, ← hwj]; exact this
    exact not_ahead_of_le hle hd
  omega

/-- The first `n` of the sorted list are those in the top `n`. -/
theorem mem_take_iff {votes : List Vote} (hn : Named votes) {n : Nat} {v : Vote} (hv : v ∈ votes) :
    v ∈ (sortVotes votes).take n ↔ InTop n votes v := by
  refine ⟨inTop_take, ?_⟩
  intro ht
  by_contra hc
  have hm : v ∈ sortVotes votes := (sortVotes_perm votes).mem_iff.2 hv
  have hsplit := List.take_append_drop n (sortVotes votes)
  rw [← hsplit, List.mem_append] at hm
  have hd := hm.resolve_left hc
  have hlen : n ≤ (sortVotes votes).length := by
    by_contra hcl
    rw [List.drop_eq_nil_of_le (by omega)] at hd
    exact absurd hd (by simp)
  unfold InTop at ht
  rw [← (sortVotes_perm votes).countP_eq, ← hsplit, List.countP_append] at ht
  have h1 : ((sortVotes votes).take n).countP (fun w => decide (Ahead w v)) = n := by
    have : ((sortVotes votes).take n).length = n := by rw [List.length_take]; omega
    conv_rhs => rw [← this]
    rw [List.countP_eq_length]
    intro w hw
    apply decide_eq_true
    have hs := sortVotes_sorted votes
    rw [← hsplit, List.pairwise_append] at hs
    have hle := hs.2.2 w hw v hd
    have hne : w ≠ v := by rintro rfl; exact hc hw
    have hnm : w.name ≠ v.name := by
      intro e
      exact hne (hn.inj ((sortVotes_perm votes).mem_iff.1 (List.mem_of_mem_take hw)) hv e)
    unfold Vote.le at hle
    by_cases e : w.balance = v.balance
    · rw [if_pos e] at hle
      have hle := of_decide_eq_true hle
      refine Or.inr ⟨e, ?_⟩
      cases h : bcmp w.name v.name with
      | lt => rfl
      | eq => exact absurd (eq_of_bcmp h) hnm
      | gt => exact absurd h hle
    · rw [if_neg e] at hle
      exact Or.inl (of_decide_eq_true hle)
  omega

theorem filterSimple_big {g : Group} {votes : List Vote} (hN : g.nodeCount < votes.length) (hR : g.nodeCount ≤ g.randRank) :
    ∃ b, filterSimple g votes = some ((sortVotes votes).take g.nodeCount, b) ∧
      (sortVotes votes).take g.nodeCount ++ b = (sortVotes votes).take g.randRank := by
  unfold filterSimple
  rw [if_neg (by omega)]
  simp only [sortVotes_length]
  by_cases h : votes.length ≤ g.randRank
  · rw [if_pos h]
    refine ⟨_, rfl, ?_⟩
    rw [List.take_append_drop, List.take_of_length_le (by rw [sortVotes_length]; exact h)]
  · rw [if_neg h, if_neg (by omega)]
    refine ⟨_, rfl, ?_⟩
    have : (sortVotes votes).take g.nodeCount = ((sortVotes votes).take g.randRank).take g.nodeCount := by
      rw [List.take_take, Nat.min_eq_left hR]
    rw [this, List.take_append_drop]

theorem promote_perm (n : Nat) (l : List Rated) : ((promote n l).1 ++ (promote n l).2).Perm l := by
  induction l generalizing n with
  | nil => simp [promote]
  | cons v l ih =>
    cases n with
    | zero => simp [promote]
    | succ n =>
      unfold promote
      split
      · exact (List.perm_middle).trans ((ih n).cons v)
      · exact (ih (n + 1)).cons v

theorem promote_length (n : Nat) (l : List Rated) : (promote n l).2.length ≤ n := by
  induction l generalizing n with
  | nil => simp [promote]
  | cons v l ih =>
    cases n with
    | zero => simp [promote]
    | succ n =>
      unfold promote
      split
      · simpa using ih n
      · exact ih (n + 1)

theorem exchange_perm (d i : List Rated) : ((exchange d i).1 ++ (exchange d i).2).Perm (d ++ i) := by
  unfold exchange
  generalize hk : min d.length i.length = k
  change ((d.take (d.length - k) ++ (i.take k).reverse) ++ ((d.drop (d.length - k)).reverse ++ i.drop k)).Perm (d ++ i)
  have h1 : (i.take k).reverse.Perm (i.take k) := List.reverse_perm _
  have h2 : (d.drop (d.length - k)).reverse.Perm (d.drop (d.length - k)) := List.reverse_perm _
  refine ((h1.append_left _).append (h2.append_right _)).trans ?_
  have h3 : (i.take k ++ (d.drop (d.length - k) ++ i.drop k)).Perm (d.drop (d.length - k) ++ (i.take k ++ i.drop k)) := by
    rw [← List.append_assoc, ← List.append_assoc]
    exact List.perm_append_comm.append_right _
  rw [List.append_assoc]
  refine (h3.append_left _).trans ?_
  rw [← List.append_assoc, List.take_append_drop, List.take_append_drop]

theorem exchange_length (d i : List Rated) : (exchange d i).1.length = d.length := by
  unfold exchange
  simp only [List.length_append, List.length_take, List.length_reverse]
  omega

theorem exchange_new (d i : List Rated) : ∃ t u, (exchange d i).1 = t ++ u ∧ t.Sublist d ∧ u.length ≤ i.length := by
  refine ⟨_, _, rfl, List.take_sublist _ _, ?_⟩
  rw [List.length_reverse, List.length_take]; omega

/-- What the exchange by success rates does: no one is lost, the first group keeps its size, and all but two of it stay. -/
theorem filterBySuccessRate_spec {rates : Table Addr Int} {a b : List Vote} (h2 : 2 ≤ a.length) :
    ∃ a' b', filterBySuccessRate rates a b = some (a', b') ∧ (a' ++ b').Perm (a ++ b) ∧ a'.length = a.length ∧
      ∃ t u, a' = t ++ u ∧ t.Subperm a ∧ u.length ≤ 2 := by
  unfold filterBySuccessRate
  by_cases hb : b.length = 0
  · rw [if_pos hb]; exact ⟨a, b, rfl, List.Perm.refl _, rfl, a, [], by simp, List.Subperm.refl _, by simp⟩
  rw [if_neg hb]
  by_cases hr : List.length rates < 2
  · rw [if_pos hr]; exact ⟨a, b, rfl, List.Perm.refl _, rfl, a, [], by simp, List.Subperm.refl _, by simp⟩
  rw [if_neg hr]
  simp only [rated_length]
  rw [if_neg (by omega)]
  generalize hra : rated rates a = ra
  have hram : (ra.map (·.1)).Perm a := by rw [← hra]; exact rated_map rates a
  have hral : ra.length = a.length := by rw [← hra]; exact rated_length rates a
  generalize hdel : (ra.drop (a.length - 2)).filter (fun v => decide (v.2 ≥ 0 ∧ v.2 < line)) = del
  generalize hst : (ra.drop (a.length - 2)).filter (fun v => ¬ decide (v.2 ≥ 0 ∧ v.2 < line)) = st
  have hfil : (st ++ del).Perm (ra.drop (a.length - 2)) := by
    rw [← hdel, ← hst]
    have := List.filter_append_perm (fun v : Rated => decide (v.2 ≥ 0 ∧ v.2 < line)) (ra.drop (a.length - 2))
    refine List.perm_append_comm.trans (List.Perm.trans (List.Perm.of_eq ?_) this)
    congr 1
    apply List.filter_congr
    intro x _
    cases decide (x.2 ≥ 0 ∧ x.2 < line) <;> rfl
  have hA : ((ra.take (a.length - 2) ++ st) ++ del).Perm ra := by
    rw [List.append_assoc]
    refine (hfil.append_left _).trans ?_
    rw [List.take_append_drop]
  have hdl : del.length ≤ 2 := by
    have := hfil.length_eq
    rw [List.length_append, List.length_drop] at this
    omega
  obtain ⟨t, u, htu, hts, hul⟩ := exchange_new del (promote 2 (rated rates b)).2
  have hu2 : u.length ≤ 2 := Nat.le_trans hul (promote_length 2 _)
  refine ⟨_, _, rfl, ?_, ?_, ((ra.take (a.length - 2) ++ st) ++ t).map (·.1), u.map (·.1), ?_, ?_, ?_⟩
  · rw [← List.map_append]
    have hp : ((ra.take (a.length - 2) ++ st ++ (exchange del (promote 2 (rated rates b)).2).1) ++
        ((promote 2 (rated rates b)).1 ++ (exchange del (promote 2 (rated rates b)).2).2)).Perm (ra ++ rated rates b) := by
      have e1 := exchange_perm del (promote 2 (rated rates b)).2
      have e2 := promote_perm 2 (rated rates b)
      generalize (exchange del (promote 2 (rated rates b)).2).1 = x at *
      generalize (exchange del (promote 2 (rated rates b)).2).2 = y at *
      generalize (promote 2 (rated rates b)).1 = p at *
      generalize (promote 2 (rated rates b)).2 = q at *
      have s1 : (x ++ (p ++ y)).Perm (p ++ (x ++ y)) := by
        rw [← List.append_assoc, ← List.append_assoc]
        exact List.perm_append_comm.append_right _
      have s2 : (p ++ (del ++ q)).Perm (del ++ (p ++ q)) := by
        rw [← List.append_assoc, ← List.append_assoc]
        exact List.perm_append_comm.append_right _
      rw [List.append_assoc]
      refine ((s1.trans ((e1.append_left _).trans (s2.trans (e2.append_left _)))).append_left _).trans ?_
      rw [← List.append_assoc]
      exact hA.append_right _
    refine (hp.map _).trans ?_
    rw [List.map_append]
    exact hram.append (rated_map rates b)
  · rw [List.length_map, List.length_append, exchange_length, ← List.length_append, hA.length_eq, hral]
  · rw [htu, ← List.map_append]; simp only [List.append_assoc]
  · refine List.Subperm.trans ?_ hram.subperm
    have : ((ra.take (a.length - 2) ++ st) ++ t).Subperm ra :=
      (List.Sublist.append_left hts _).subperm.trans hA.subperm
    obtain ⟨m, hm, hs⟩ := this
    exact ⟨m.map (·.1), hm.map _, hs.map _⟩
  · simpa using hu2

theorem branch2_eq {a b : List Vote} {is : List Nat} :
    is.filterMap (fun v => if v ≥ a.length then b[v - a.length]? else a[v]?) = pick (a ++ b) is := by
  unfold pick
  apply List.filterMap_congr
  intro i _
  by_cases h : i ≥ a.length
  · rw [if_pos h, List.getElem?_append_right h]
  · rw [if_neg h, List.getElem?_append_left (by omega)]

theorem calRandCnt_le (t n : Nat) : calRandCnt t n ≤ t / 3 := by
  unfold calRandCnt; split <;> omega

/-- The random choice: the right number, no one twice, and few of the second group. -/
theorem filterRandV2_spec {r : Rand} {g : Group} {a b : List Vote} {height seeds : Nat} (ha : a.length = g.nodeCount) (hb : b.length ≠ 0) (h1 : 0 < g.nodeCount) :
    ∃ l, filterRandV2 r g a b height seeds = some l ∧ l.length = g.nodeCount ∧ l.Subperm (a ++ b) ∧
      ∃ x y, l.Perm (x ++ y) ∧ x.Subperm a ∧ y.Subperm b ∧ (y.length ≤ calRandCnt g.nodeCount g.randCount ∨ 2 * b.length ≤ g.nodeCount) := by
  unfold filterRandV2
  rw [if_neg hb]
  simp only
  generalize hsa : sortVotes a = sa
  generalize hsb : sortVotes b = sb
  have pa : sa.Perm a := hsa ▸ sortVotes_perm a
  have pb : sb.Perm b := hsb ▸ sortVotes_perm b
  have la : sa.length = g.nodeCount := pa.length_eq.trans ha
  have lb := pb.length_eq
  have hc := calRandCnt_le g.nodeCount g.randCount
  generalize calRandCnt g.nodeCount g.randCount = k at *
  have hsub : sa.length + sb.length - g.nodeCount = sb.length := by omega
  rw [hsub]
  generalize findSeed g (sa ++ sb) height seeds = seed
  by_cases hbr : (g.nodeCount - k) * sb.length > k * g.nodeCount
  · rw [if_pos hbr]
    have hkb : k ≤ sb.length := by
      by_contra hcon
      have h1 : (g.nodeCount - k) * sb.length ≤ g.nodeCount * k := Nat.mul_le_mul (by omega) (by omega)
      rw [Nat.mul_comm g.nodeCount k] at h1
      omega
    rw [if_neg (by omega)]
    have e1 : perm r seed g.nodeCount = perm r seed sa.length := by rw [la]
    have s1 := pick_take_subperm r seed sa (g.nodeCount - k)
    have s2 := pick_take_subperm r (seed + 1) sb k
    rw [e1]
    refine ⟨_, rfl, ?_, ?_, _, _, List.Perm.refl _, s1.trans pa.subperm, s2.trans pb.subperm, Or.inl ?_⟩
    · rw [List.length_append, pick_take_length r seed sa (by omega), pick_take_length r (seed + 1) sb hkb]; omega
    · exact (s1.append s2).trans (pa.append pb).subperm
    · rw [pick_take_length r (seed + 1) sb hkb]
  · rw [if_neg hbr]
    have e : ((perm r seed (sa.length + sb.length)).take g.nodeCount).filterMap (fun v => if v ≥ g.nodeCount then sb[v - g.nodeCount]? else sa[v]?)
        = pick (sa ++ sb) ((perm r seed (sa ++ sb).length).take g.nodeCount) := by
      rw [← branch2_eq, la, List.length_append, la]
    rw [e]
    have s := pick_take_subperm r seed (sa ++ sb) g.nodeCount
    refine ⟨_, rfl, ?_, s.trans (pa.append pb).subperm, ?_⟩
    · rw [pick_take_length r seed (sa ++ sb) (by rw [List.length_append]; omega)]
    · generalize pick (sa ++ sb) ((perm r seed (sa ++ sb).length).take g.nodeCount) = l at *
      obtain ⟨l', hl', hsl⟩ := s
      obtain ⟨x, y, rfl, hx, hy⟩ := List.sublist_append_iff.1 hsl
      refine ⟨x, y, hl'.symm, hx.subperm.trans pa.subperm, hy.subperm.trans pb.subperm, Or.inr ?_⟩
      have hb2 : b.length = sb.length := lb.symm
      rw [hb2]
      by_contra hcon
      have h3 : g.nodeCount ≥ 3 * k := by omega
      apply hbr
      have hq : g.nodeCount = (g.nodeCount - k) + k := by omega
      generalize g.nodeCount - k = q at *
      rw [hq] at hcon ⊢
      have h4 : 2 * k ≤ q := by omega
      have h5 : q + k + 1 ≤ 2 * sb.length := by omega
      have h6 : q * (q + k + 1) ≤ q * (2 * sb.length) := Nat.mul_le_mul_left _ h5
      have h7 : 2 * k * (q + k) ≤ q * (q + k) := Nat.mul_le_mul_right _ h4
      have h8 : 0 < q := by omega
      nlinarith

/-! ### The properties -/

theorem shuffle_perm (r : Rand) (g : Group) (l : List Vote) (height seeds : Nat) : (shuffle r g l height seeds).Perm l :=
  pick_perm r _ l

/-- **C34** With at most as many candidates as places, all are elected. -/
theorem elected_all (r : Rand) (g : Group) {votes : List Vote} (rates : Table Addr Int) (height seeds : Nat)
    (h : votes.length ≤ g.nodeCount) : ∃ l, elect r g votes rates height seeds = some l ∧ l.Perm votes := by
  unfold elect filterVotes filterSimple
  rw [if_pos h]
  exact ⟨_, rfl, (shuffle_perm _ _ _ _ _).trans (sortVotes_perm _)⟩

/-- What is known of an election with more candidates than places. -/
theorem elect_big (r : Rand) {g : Group} {votes : List Vote} (rates : Table Addr Int) (height seeds : Nat)
    (hN : g.nodeCount < votes.length) (hR : g.nodeCount ≤ g.randRank) (h2 : 2 ≤ g.nodeCount) :
    ∃ l, elect r g votes rates height seeds = some l ∧ l.length = g.nodeCount ∧ l.Subperm ((sortVotes votes).take g.randRank) ∧
      ∃ x y z, l.Perm (x ++ y ++ z) ∧ x.Subperm ((sortVotes votes).take g.nodeCount) ∧
        y.length ≤ 2 ∧ (z.length ≤ calRandCnt g.nodeCount g.randCount ∨ 2 * z.length ≤ g.nodeCount) := by
  obtain ⟨b, hf, hab⟩ := filterSimple_big hN hR
  generalize ha : (sortVotes votes).take g.nodeCount = a at *
  have la : a.length = g.nodeCount := by rw [← ha, List.length_take, sortVotes_length]; omega
  unfold elect filterVotes
  rw [hf]
  simp only
  by_cases hb : b.length = 0
  · rw [if_pos hb]
    have hb' : b = [] := List.length_eq_zero_iff.1 hb
    refine ⟨_, rfl, ?_, ?_, _, [], [], (((shuffle_perm _ _ _ _ _).trans (sortVotes_perm _)).trans (by simp)), List.Subperm.refl a, by simp, Or.inl (by simp)⟩
    · rw [(shuffle_perm _ _ _ _ _).length_eq, sortVotes_length, la]
    · rw [← hab, hb', List.append_nil]
      exact ((shuffle_perm _ _ _ _ _).trans (sortVotes_perm _)).subperm
  · rw [if_neg hb]
    obtain ⟨a', b', he, hp, hl, t, u, hau, hta, hu⟩ := filterBySuccessRate_spec (rates := rates) (b := b) (by omega : 2 ≤ a.length)
    rw [he]
    have hb' : b'.length ≠ 0 := by
      have := hp.length_eq
      rw [List.length_append, List.length_append] at this
      omega
    obtain ⟨l, hr, hll, hls, x, y, hxy, hx, hy, hcnt⟩ := filterRandV2_spec (r := r) (height := height) (seeds := seeds) (hl.trans la) hb' (by omega)
    simp only [hr, Option.map_some]
    have hfin := (shuffle_perm r g (sortVotes l) height seeds).trans (sortVotes_perm l)
    refine ⟨_, rfl, ?_, ?_, ?_⟩
    · rw [hfin.length_eq, hll]
    · rw [← hab]; exact hfin.subperm.trans (hls.trans hp.subperm)
    · rw [hau] at hx
      obtain ⟨x', hx', hxs⟩ := hx
      obtain ⟨x1, x2, rfl, h1, h2'⟩ := List.sublist_append_iff.1 hxs
      refine ⟨x1, x2, y, hfin.trans (hxy.trans (hx'.symm.append_right _)), h1.subperm.trans hta, Nat.le_trans h2'.length_le hu, ?_⟩
      exact hcnt.imp id (fun h => by have := hy.length_le; omega)

/-- **C34** With more candidates than places exactly as many are elected as there are places, no one twice, and only candidates among the
first `randRank`. -/
theorem elected_exact (r : Rand) {g : Group} {votes : List Vote} (rates : Table Addr Int) (height seeds : Nat)
    (hn : Named votes) (hN : g.nodeCount < votes.length) (hR : g.nodeCount ≤ g.randRank) (h2 : 2 ≤ g.nodeCount) :
    ∃ l, elect r g votes rates height seeds = some l ∧ l.length = g.nodeCount ∧ l.Nodup ∧ ∀ v ∈ l, v ∈ votes ∧ InTop g.randRank votes v := by
  obtain ⟨l, he, hl, hs, -⟩ := elect_big r rates height seeds hN hR h2
  refine ⟨l, he, hl, ?_, ?_⟩
  · have hnd : ((sortVotes votes).take g.randRank).Nodup := ((sortVotes_perm votes).nodup_iff.2 hn.nodup).sublist (List.take_sublist _ _)
    obtain ⟨l', hl', hsl⟩ := hs
    exact hl'.nodup_iff.1 (hnd.sublist hsl)
  · intro v hv
    have hm := hs.subset hv
    exact ⟨(sortVotes_perm votes).mem_iff.1 (List.mem_of_mem_take hm), inTop_take hm⟩

/-- **C34** If no two candidates have the same address, no address is elected twice. -/
theorem elected_addresses (r : Rand) {g : Group} {votes : List Vote} (rates : Table Addr Int) (height seeds : Nat)
    (ha : (votes.map (·.addr)).Nodup) (hR : g.nodeCount ≤ g.randRank) (h2 : 2 ≤ g.nodeCount) :
    ∃ l, elect r g votes rates height seeds = some l ∧ (l.map (·.addr)).Nodup ∧ l.length = min g.nodeCount votes.length := by
  by_cases hN : votes.length ≤ g.nodeCount
  · obtain ⟨l, he, hp⟩ := elected_all r g rates height seeds hN
    exact ⟨l, he, (hp.map _).nodup_iff.2 ha, by rw [hp.length_eq]; omega⟩
  · obtain ⟨l, he, hl, hs, -⟩ := elect_big (votes := votes) r rates height seeds (by omega) hR h2
    refine ⟨l, he, ?_, by omega⟩
    obtain ⟨l', hl', hsl⟩ := hs
    have h1 : (((sortVotes votes).take g.randRank).map (·.addr)).Nodup :=
      ((((sortVotes_perm votes).map (·.addr)).nodup_iff.2 ha).sublist ((List.take_sublist _ _).map _))
    exact (hl'.map _).nodup_iff.1 (h1.sublist (hsl.map _))

/-- **C34** Most of the elected are among the first `nodeCount`: of those that are not, at most two came in by the success rates, and the
others were drawn, at most `randCount` and at most a third of the places, or at most half of the places if there are few candidates. -/
theorem elected_mostly_top (r : Rand) {g : Group} {votes : List Vote} (rates : Table Addr Int) (height seeds : Nat)
    (hN : g.nodeCount < votes.length) (hR : g.nodeCount ≤ g.randRank) (h2 : 2 ≤ g.nodeCount) :
    ∃ l, elect r g votes rates height seeds = some l ∧
      l.countP (fun v => ¬ InTop g.nodeCount votes v) ≤ 2 + max (min g.randCount (g.nodeCount / 3)) (g.nodeCount / 2) := by
  obtain ⟨l, he, hl, -, x, y, z, hp, hx, hy, hz⟩ := elect_big r rates height seeds hN hR h2
  refine ⟨l, he, ?_⟩
  rw [hp.countP_eq, List.countP_append, List.countP_append]
  have h1 : x.countP (fun v => ¬ InTop g.nodeCount votes v) = 0 := by
    rw [List.countP_eq_zero]
    intro v hv hd
    have := of_decide_eq_true hd
    exact this (inTop_take (hx.subset hv))
  have h3 : y.countP (fun v => ¬ InTop g.nodeCount votes v) ≤ y.length := List.countP_le_length
  have h4 : z.countP (fun v => ¬ InTop g.nodeCount votes v) ≤ z.length := List.countP_le_length
  have h5 : calRandCnt g.nodeCount g.randCount ≤ min g.randCount (g.nodeCount / 3) := by
    unfold calRandCnt; split <;> omega
  omega

theorem findSeed_congr {g : Group} {l m : List Vote} (hp : l.Perm m) (height seeds : Nat) : findSeed g l height seeds = findSeed g m height seeds := by
  unfold findSeed
  rw [(hp.map _).sum_eq]

/-- **C34** The result depends on the candidates only, not on the order in which a node lists them. -/
theorem elect_order_independent (r : Rand) (g : Group) {votes votes' : List Vote} (rates : Table Addr Int) (height seeds : Nat)
    (hn : Named votes') (hp : votes.Perm votes') : elect r g votes rates height seeds = elect r g votes' rates height seeds := by
  unfold elect
  congr 1
  unfold filterVotes filterSimple
  rw [hp.length_eq, sortVotes_congr hn hp]
  by_cases h : votes'.length ≤ g.nodeCount
  · rw [if_pos h, if_pos h]
    simp [sortVotes_congr hn hp]
  · rw [if_neg h, if_neg h]

/-- The rate of a candidate: -1 if unknown. -/
def rateOf (rates : Table Addr Int) (v : Vote) : Int := (rates.get v.addr).getD (-1)

theorem mem_rated {rates : Table Addr Int} {l : List Vote} {x : Rated} (h : x ∈ rated rates l) : x.1 ∈ l ∧ x.2 = rateOf rates x.1 := by
  unfold rated at h
  rw [(sortBy_perm _ _).mem_iff, List.mem_map] at h
  obtain ⟨v, hv, rfl⟩ := h
  exact ⟨hv, rfl⟩

theorem promote_mem (n : Nat) (l : List Rated) : (∀ x ∈ (promote n l).1, x ∈ l) ∧ ∀ x ∈ (promote n l).2, x ∈ l ∧ x.2 > line := by
  induction l generalizing n with
  | nil => simp [promote]
  | cons v l ih =>
    cases n with
    | zero => simp [promote]
    | succ n =>
      unfold promote
      split
      · rename_i hv
        refine ⟨fun x hx => List.mem_cons_of_mem _ ((ih n).1 x hx), ?_⟩
        intro x hx
        rcases List.mem_cons.1 hx with rfl | hx
        · exact ⟨by simp, hv⟩
        · exact ⟨List.mem_cons_of_mem _ ((ih n).2 x hx).1, ((ih n).2 x hx).2⟩
      · refine ⟨?_, fun x hx => ⟨List.mem_cons_of_mem _ ((ih (n + 1)).2 x hx).1, ((ih (n + 1)).2 x hx).2⟩⟩
        intro x hx
        rcases List.mem_cons.1 hx with rfl | hx
        · simp
        · exact List.mem_cons_of_mem _ ((ih (n + 1)).1 x hx)

/-- **C34** Only a rate below the line costs a candidate its place among the first, and only a rate above the line gives a place. -/
theorem exchanged_for_cause {rates : Table Addr Int} {a b a' b' : List Vote} (h : filterBySuccessRate rates a b = some (a', b')) :
    (∀ v ∈ a', v ∈ a ∨ (v ∈ b ∧ line < rateOf rates v)) ∧ ∀ v ∈ b', v ∈ b ∨ (v ∈ a ∧ 0 ≤ rateOf rates v ∧ rateOf rates v < line) := by
  unfold filterBySuccessRate at h
  by_cases hb : b.length = 0
  · rw [if_pos hb] at h; injection h with h; injection h with h1 h2; subst h1 h2
    exact ⟨fun v hv => Or.inl hv, fun v hv => Or.inl hv⟩
  rw [if_neg hb] at h
  by_cases hr : List.length rates < 2
  · rw [if_pos hr] at h; injection h with h; injection h with h1 h2; subst h1 h2
    exact ⟨fun v hv => Or.inl hv, fun v hv => Or.inl hv⟩
  rw [if_neg hr] at h
  simp only at h
  split at h
  · exact absurd h (by simp)
  · injection h with h; injection h with h1 h2; subst h1 h2
    have hp := promote_mem 2 (rated rates b)
    refine ⟨?_, ?_⟩
    · intro v hv
      obtain ⟨x, hx, rfl⟩ := List.mem_map.1 hv
      rw [List.mem_append, List.mem_append] at hx
      rcases hx with (hx | hx) | hx
      · exact Or.inl (mem_rated (List.mem_of_mem_take hx)).1
      · exact Or.inl (mem_rated (List.mem_of_mem_drop (List.mem_of_mem_filter hx))).1
      · unfold exchange at hx
        simp only [List.mem_append, List.mem_reverse] at hx
        rcases hx with hx | hx
        · exact Or.inl (mem_rated (List.mem_of_mem_drop (List.mem_of_mem_filter (List.mem_of_mem_take hx)))).1
        · obtain ⟨hm, hl⟩ := hp.2 x (List.mem_of_mem_take hx)
          obtain ⟨m1, m2⟩ := mem_rated hm
          exact Or.inr ⟨m1, m2 ▸ hl⟩
    · intro v hv
      obtain ⟨x, hx, rfl⟩ := List.mem_map.1 hv
      rw [List.mem_append] at hx
      rcases hx with hx | hx
      · exact Or.inl (mem_rated (hp.1 x hx)).1
      · unfold exchange at hx
        simp only [List.mem_append, List.mem_reverse] at hx
        rcases hx with hx | hx
        · have hx := List.mem_of_mem_drop hx
          rw [List.mem_filter] at hx
          obtain ⟨m1, m2⟩ := mem_rated (List.mem_of_mem_drop hx.1)
          have := of_decide_eq_true hx.2
          rw [m2] at this
          exact Or.inr ⟨m1, this⟩
        · exact Or.inl (mem_rated (hp.2 x (List.mem_of_mem_drop hx)).1).1

theorem promote_some {n : Nat} {l : List Rated} {x : Rated} (hx : x ∈ l) (hr : x.2 > line) : (promote (n + 1) l).2 ≠ [] := by
  induction l with
  | nil => exact absurd hx (by simp)
  | cons v l ih =>
    unfold promote
    split
    · simp
    · rename_i hv
      rcases List.mem_cons.1 hx with rfl | hx
      · exact absurd hr hv
      · exact ih hx

/-- **C34** If the rates of all the first candidates are known, one below the line does cost a place, provided someone above the line waits
for it. -/
theorem bad_rate_demotes {rates : Table Addr Int} {a b : List Vote} (h2 : 2 ≤ a.length) (hr : 2 ≤ List.length rates)
    (hk : ∀ v ∈ a, 0 ≤ rateOf rates v) {v w : Vote} (hv : v ∈ a) (hlow : rateOf rates v < line) (hw : w ∈ b) (hhigh : line < rateOf rates w) :
    ∃ a' b', filterBySuccessRate rates a b = some (a', b') ∧ ∃ x ∈ a', x ∈ b ∧ line < rateOf rates x := by
  unfold filterBySuccessRate
  rw [if_neg (by have := List.length_pos_of_mem hw; omega), if_neg (by omega)]
  simp only [rated_length]
  rw [if_neg (by omega)]
  refine ⟨_, _, rfl, ?_⟩
  generalize hra : rated rates a = ra
  have hral : ra.length = a.length := by rw [← hra]; exact rated_length rates a
  generalize hdel : (ra.drop (a.length - 2)).filter (fun v => decide (v.2 ≥ 0 ∧ v.2 < line)) = del
  have hdne : del ≠ [] := by
    have hx : (v, rateOf rates v) ∈ ra := by
      rw [← hra]; unfold rated
      rw [(sortBy_perm _ _).mem_iff, List.mem_map]
      exact ⟨v, hv, rfl⟩
    obtain ⟨i, hi, hxi⟩ := List.mem_iff_getElem.1 hx
    have hlast : ra[ra.length - 1].2 < line := by
      by_cases e : i = ra.length - 1
      · subst e; rw [hxi]; exact hlow
      · have hs : ra.Pairwise (fun a b => ratedLe a b = true) := by
          rw [← hra]; exact sortBy_sorted ratedLe_trans ratedLe_total _
        have := List.pairwise_iff_getElem.1 hs i (ra.length - 1) hi (by omega) (by omega)
        rw [hxi] at this
        unfold ratedLe at this
        split at this
        · rename_i e2; simp only at e2; rw [← e2]; exact hlow
        · have := of_decide_eq_true this; simp only at this; omega
    have hm : ra[ra.length - 1] ∈ del := by
      rw [← hdel, List.mem_filter]
      have hin : ra[ra.length - 1] ∈ rated rates a := by rw [hra]; exact List.getElem_mem _
      obtain ⟨m1, m2⟩ := mem_rated hin
      refine ⟨?_, decide_eq_true ⟨?_, hlast⟩⟩
      · rw [List.mem_iff_getElem]
        refine ⟨1, by rw [List.length_drop]; omega, ?_⟩
        rw [List.getElem_drop]
        congr 1; omega
      · rw [m2]; exact hk _ m1
    exact List.ne_nil_of_mem hm
  have hine : (promote 2 (rated rates b)).2 ≠ [] := by
    refine promote_some (x := (w, rateOf rates w)) ?_ hhigh
    unfold rated
    rw [(sortBy_perm _ _).mem_iff, List.mem_map]
    exact ⟨w, hw, rfl⟩
  have hp := (promote_mem 2 (rated rates b)).2
  generalize (promote 2 (rated rates b)).2 = imp at *
  obtain ⟨y, hy⟩ : ∃ y, y ∈ imp.take (min del.length imp.length) := by
    cases imp with
    | nil => exact absurd rfl hine
    | cons y t =>
      cases del with
      | nil => exact absurd rfl hdne
      | cons z d =>
        refine ⟨y, ?_⟩
        rw [List.length_cons, List.length_cons, Nat.succ_min_succ, List.take_succ_cons]
        simp
  obtain ⟨m1, m2⟩ := hp y (List.mem_of_mem_take hy)
  obtain ⟨m3, m4⟩ := mem_rated m1
  refine ⟨y.1, ?_, m3, m4 ▸ m2⟩
  refine List.mem_map.2 ⟨y, ?_, rfl⟩
  rw [List.mem_append]
  refine Or.inr ?_
  unfold exchange
  simp only [List.mem_append, List.mem_reverse]
  exact Or.inr hy

/-- Without the hypothesis on known rates it fails: an unknown rate sorts below the worst known one, so that two of the first whose rates are
unknown keep a producer that made one block in ten in its place, although a better one waits. -/
theorem unknown_rate_shields_bad :
    filterBySuccessRate [(5, 100000), (3, 990000)] [⟨[2], 2, 80⟩, ⟨[7], 7, 70⟩, ⟨[4], 4, 60⟩, ⟨[5], 5, 50⟩] [⟨[6], 6, 40⟩, ⟨[3], 3, 30⟩] =
      some ([⟨[5], 5, 50⟩, ⟨[2], 2, 80⟩, ⟨[7], 7, 70⟩, ⟨[4], 4, 60⟩], [⟨[6], 6, 40⟩, ⟨[3], 3, 30⟩]) := by decide +kernel

/-! ### Where it panics -/

/-- Three candidates. -/
def exVotes : List Vote := [⟨[97], 1, 10⟩, ⟨[98], 2, 30⟩, ⟨[99], 3, 20⟩]

/-- A group with one node panics as soon as two success rates are known and there are two candidates: `groupA[len(groupA)-2:]`. -/
theorem one_node_panics (r : Rand) : elect r ⟨1, 1, 100, 1⟩ exVotes [(1, 900000), (2, 900000)] 7 0 = none := by
  have h : filterVotes r ⟨1, 1, 100, 1⟩ exVotes [(1, 900000), (2, 900000)] 7 0 = none := by
    have h1 : filterSimple ⟨1, 1, 100, 1⟩ exVotes = some ([⟨[98], 2, 30⟩], [⟨[99], 3, 20⟩, ⟨[97], 1, 10⟩]) := by decide +kernel
    have h2 : filterBySuccessRate [(1, 900000), (2, 900000)] [⟨[98], 2, 30⟩] [⟨[99], 3, 20⟩, ⟨[97], 1, 10⟩] = none := by decide +kernel
    unfold filterVotes
    rw [h1]
    simp only [h2]
    rfl
  unfold elect
  rw [h]; rfl

/-- A group whose rank is below its number of nodes panics as soon as there are more candidates than nodes. -/
theorem rank_below_count_panics (r : Rand) (g : Group) (votes : List Vote) (rates : Table Addr Int) (height seeds : Nat)
    (hN : g.nodeCount < votes.length) (hR : g.randRank < g.nodeCount) : elect r g votes rates height seeds = none := by
  have : filterSimple g votes = none := by
    unfold filterSimple
    rw [if_neg (by omega)]
    simp only [sortVotes_length]
    rw [if_neg (by omega), if_pos hR]
  unfold elect filterVotes
  rw [this]; rfl

/-! ### Examples -/

/-- A generator. -/
def exRand : Rand := fun s k => (s.toNat * 31 + k * 17 + 5)

/-- Eight candidates for four places, of which one is drawn; rank 6. -/
def exMany : List Vote :=
  [⟨[1], 1, 10⟩, ⟨[2], 2, 80⟩, ⟨[3], 3, 30⟩, ⟨[4], 4, 60⟩, ⟨[5], 5, 50⟩, ⟨[6], 6, 40⟩, ⟨[7], 7, 70⟩, ⟨[8], 8, 20⟩]

example : Named exMany := by unfold Named exMany; decide +kernel
example : (exMany.map (·.addr)).Nodup := by decide +kernel
/-- The fourth has a bad rate and the sixth a good one: they change places. -/
example : filterBySuccessRate [(2, 900000), (7, 900000), (4, 900000), (5, 100000), (3, 990000)]
    [⟨[2], 2, 80⟩, ⟨[7], 7, 70⟩, ⟨[4], 4, 60⟩, ⟨[5], 5, 50⟩] [⟨[6], 6, 40⟩, ⟨[3], 3, 30⟩] =
      some ([⟨[2], 2, 80⟩, ⟨[7], 7, 70⟩, ⟨[4], 4, 60⟩, ⟨[3], 3, 30⟩], [⟨[6], 6, 40⟩, ⟨[5], 5, 50⟩]) := by decide +kernel
example : ((elect exRand ⟨4, 1, 6, 1⟩ exMany [(5, 100000), (3, 990000)] 7 0).map (fun l => l.length)) = some 4 := by decide +kernel
example : (elect exRand ⟨4, 1, 6, 1⟩ exMany [(5, 100000), (3, 990000)] 7 12).isSome = true := by decide +kernel

end Verif.Consensus
