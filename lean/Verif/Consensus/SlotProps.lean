import Verif.Consensus.SlotModel
import Verif.Tactics

/-!
# C35: slots partition time
-/

namespace Verif.Consensus

/-! ### Times and indices -/

/-- A time from genesis on, within what an `uint64` holds. -/
def TimeIndex.InRange (x : TimeIndex) (t : Int) : Prop := x.genesis ≤ t ∧ t - x.genesis < 2 ^ 64

theorem TimeIndex.time2Index_eq (x : TimeIndex) {t : Int} (h : x.InRange t) : x.time2Index t = (t - x.genesis).toNat / x.interval := by
  unfold TimeIndex.time2Index
  rw [Int.emod_eq_of_lt (by have := h.1; omega) h.2]

/-- **C35** Every time from genesis on lies in exactly one round, the one that the conversion gives: an index is the round of a time if and
only if the time is within the bounds of that round, the end excluded. -/
theorem index_exact (x : TimeIndex) (hi : 0 < x.interval) {t : Int} (h : x.InRange t) (i : Nat) :
    x.time2Index t = i ↔ (x.index2Time i).1 ≤ t ∧ t < (x.index2Time i).2 := by
  rw [x.time2Index_eq h]
  obtain ⟨n, hn⟩ : ∃ n : Nat, t = x.genesis + n := ⟨(t - x.genesis).toNat, by have := h.1; omega⟩
  subst hn
  unfold TimeIndex.index2Time
  have e : (x.genesis + (n : Int) - x.genesis).toNat = n := by omega
  rw [e, Nat.div_eq_iff hi]
  rw [Nat.mul_comm i]
  push_cast
  constructor
  · rintro ⟨a, b⟩
    have a' : (x.interval : Int) * i ≤ n := by exact_mod_cast a
    have b' : (n : Int) ≤ x.interval * i + x.interval - 1 := by
      have : n + 1 ≤ x.interval * i + x.interval := by omega
      have : ((n + 1 : Nat) : Int) ≤ ((x.interval * i + x.interval : Nat) : Int) := by exact_mod_cast this
      push_cast at this; linarith
    constructor <;> linarith
  · rintro ⟨a, b⟩
    have a' : (x.interval : Int) * i ≤ n := by linarith
    have b' : (n : Int) < x.interval * i + x.interval := by linarith
    have a'' : x.interval * i ≤ n := by exact_mod_cast a'
    have b'' : n < x.interval * i + x.interval := by exact_mod_cast b'
    constructor <;> omega

/-- **C35** The conversions are inverse. -/
theorem index_of_start (x : TimeIndex) (hi : 0 < x.interval) (i : Nat) (h : x.interval * i < 2 ^ 64) : x.time2Index (x.index2Time i).1 = i := by
  have hr : x.InRange (x.index2Time i).1 := by
    unfold TimeIndex.InRange TimeIndex.index2Time
    have h' : ((x.interval * i : Nat) : Int) < 2 ^ 64 := by exact_mod_cast h
    push_cast at h'
    constructor
    · have : (0 : Int) ≤ x.interval * i := by positivity
      linarith
    · simp only; linarith
  rw [index_exact x hi hr]
  unfold TimeIndex.index2Time
  have : (0 : Int) < x.interval := by exact_mod_cast hi
  push_cast
  constructor
  · exact le_refl _
  · nlinarith

/-- **C35** Rounds follow one another without gap. -/
theorem rounds_contiguous (x : TimeIndex) (i : Nat) : (x.index2Time i).2 = (x.index2Time (i + 1)).1 := rfl

/-- Before genesis the difference wraps: a second before it is in a round of the far future. -/
theorem before_genesis_far : (⟨1000, 75⟩ : TimeIndex).time2Index 999 = 245956587649460688 := by decide +kernel

/-! ### Slots -/

/-- The slot number `k` that starts at `t`. -/
def slotAt (d : Nat) (t : Int) (k : Nat) (m : Addr) : Slot := ⟨t + d * k, t + d * (k + 1 : Nat), m⟩

theorem slotsOfMember_spec (d : Nat) (m : Addr) (n : Nat) (t : Int) :
    slotsOfMember d m n t = ((List.range n).map (fun k => slotAt d t k m), t + d * n) := by
  induction n generalizing t with
  | zero => simp [slotsOfMember]
  | succ n ih =>
    unfold slotsOfMember
    rw [ih, List.range_succ_eq_map, List.map_cons, List.map_map]
    refine Prod.ext ?_ ?_
    · change _ :: _ = _ :: _
      congr 1
      · unfold slotAt; congr 1 <;> push_cast <;> ring
      · apply List.map_congr_left
        intro k _
        unfold slotAt
        simp only [Function.comp]
        congr 1 <;> push_cast <;> ring
    · change t + d + d * n = _
      push_cast; ring

/-- The slots of all members in a row: the `k`-th belongs to member number `k / perCount`. -/
theorem slotsOfMembers_spec (p : Plan) (hp : 0 < p.perCount) (ms : List Addr) (t : Int) :
    slotsOfMembers p ms t =
      ((List.range (ms.length * p.perCount)).map (fun k => slotAt p.interval t k (ms.getD (k / p.perCount) 0)), t + p.interval * (ms.length * p.perCount : Nat)) := by
  induction ms generalizing t with
  | nil => simp [slotsOfMembers]
  | cons m ms ih =>
    unfold slotsOfMembers
    rw [slotsOfMember_spec]
    simp only [ih]
    have hl : (m :: ms).length * p.perCount = p.perCount + ms.length * p.perCount := by rw [List.length_cons]; ring
    rw [hl, List.range_add, List.map_append, List.map_map]
    refine Prod.ext ?_ ?_
    · change _ ++ _ = _ ++ _
      congr 1
      · apply List.map_congr_left
        intro k hk
        rw [List.mem_range] at hk
        rw [Nat.div_eq_of_lt hk]; rfl
      · apply List.map_congr_left
        intro k _
        simp only [Function.comp]
        rw [Nat.add_div_left _ hp, List.getD_cons_succ]
        unfold slotAt
        congr 1 <;> push_cast <;> ring
    · simp only; push_cast; ring

/-- The slots of a plan: repetition `j`, slot `k` of it, in this order. -/
theorem slotsOfRounds_spec (p : Plan) (hp : 0 < p.perCount) (ms : List Addr) (hm : ms.length ≤ p.nodeCount) (n : Nat) (t : Int) :
    slotsOfRounds p ms n t = (List.range n).flatMap (fun j => (List.range (ms.length * p.perCount)).map (fun k =>
      slotAt p.interval t (j * (p.nodeCount * p.perCount) + k) (ms.getD (k / p.perCount) 0))) := by
  induction n generalizing t with
  | zero => simp [slotsOfRounds]
  | succ n ih =>
    unfold slotsOfRounds
    rw [slotsOfMembers_spec p hp]
    simp only [ih]
    rw [List.range_succ_eq_map, List.flatMap_cons, List.flatMap_map]
    congr 1
    · apply List.map_congr_left
      intro k _
      rw [Nat.zero_mul, Nat.zero_add]
    · congr 1
      funext j
      apply List.map_congr_left
      intro k _
      have ht : (if ms.length < p.nodeCount then t + p.interval * (ms.length * p.perCount : Nat) + p.interval * p.perCount * (p.nodeCount - ms.length : Nat)
          else t + p.interval * (ms.length * p.perCount : Nat)) = t + p.interval * (p.nodeCount * p.perCount : Nat) := by
        split
        · push_cast [hm]; ring
        · rw [show ms.length = p.nodeCount by omega]
      rw [ht]
      unfold slotAt
      congr 1 <;> push_cast <;> ring

/-- **C35** The slots of a round, in full: slot `k` of repetition `j` starts `j * nodeCount * perCount + k` intervals into the round, takes
one interval, and belongs to the member number `k / perCount`. -/
theorem plan_exact (p : Plan) (hp : 0 < p.perCount) (i : Nat) (ms : List Addr) (hm : ms.length ≤ p.nodeCount) (s : Slot) :
    s ∈ genPlan p i ms ↔ ∃ j k, j < p.rep ∧ k < ms.length * p.perCount ∧ ms[k / p.perCount]? = some s.member ∧
      s.stime = (p.index.index2Time i).1 + p.interval * (j * (p.nodeCount * p.perCount) + k : Nat) ∧ s.etime = s.stime + p.interval := by
  unfold genPlan
  rw [if_neg (by omega), slotsOfRounds_spec p hp ms hm]
  simp only [List.mem_flatMap, List.mem_range, List.mem_map]
  have hk : ∀ k, k < ms.length * p.perCount → k / p.perCount < ms.length := fun k h => Nat.div_lt_of_lt_mul (by rw [Nat.mul_comm]; exact h)
  constructor
  · rintro ⟨j, hj, k, hkl, rfl⟩
    refine ⟨j, k, hj, hkl, ?_, rfl, ?_⟩
    · have := hk k hkl
      simp [slotAt, List.getD_eq_getElem?_getD, List.getElem?_eq_getElem this]
    · unfold slotAt; push_cast; ring
  · rintro ⟨j, k, hj, hkl, hmem, h1, h2⟩
    refine ⟨j, hj, k, hkl, ?_⟩
    cases s with
    | mk a b m =>
      simp only at hmem h1 h2
      subst h1 h2
      unfold slotAt
      congr 1
      · push_cast; ring
      · rw [List.getD_eq_getElem?_getD, hmem]; rfl

/-- **C35** A slot lies within its round. -/
theorem plan_within (p : Plan) (hp : 0 < p.perCount) (i : Nat) (ms : List Addr) (hm : ms.length ≤ p.nodeCount) {s : Slot} (hs : s ∈ genPlan p i ms) :
    (p.index.index2Time i).1 ≤ s.stime ∧ s.etime ≤ (p.index.index2Time i).2 := by
  obtain ⟨j, k, hj, hk, -, h1, h2⟩ := (plan_exact p hp i ms hm s).1 hs
  rw [h2, h1]
  have hb : j * (p.nodeCount * p.perCount) + k + 1 ≤ p.rep * (p.nodeCount * p.perCount) := by
    have h3 : (j + 1) * (p.nodeCount * p.perCount) ≤ p.rep * (p.nodeCount * p.perCount) := Nat.mul_le_mul_right _ hj
    have h4 : ms.length * p.perCount ≤ p.nodeCount * p.perCount := Nat.mul_le_mul_right _ hm
    rw [Nat.add_mul] at h3
    omega
  generalize j * (p.nodeCount * p.perCount) + k = q at *
  have hround : (p.index.index2Time i).2 = (p.index.index2Time i).1 + (p.interval * (p.rep * (p.nodeCount * p.perCount)) : Nat) := by
    unfold TimeIndex.index2Time Plan.index Plan.round
    simp only; push_cast; ring
  have h5 : p.interval * (q + 1) ≤ p.interval * (p.rep * (p.nodeCount * p.perCount)) := Nat.mul_le_mul_left _ hb
  have h6 : ((p.interval * (q + 1) : Nat) : Int) ≤ ((p.interval * (p.rep * (p.nodeCount * p.perCount)) : Nat) : Int) := by exact_mod_cast h5
  have h7 : ((p.interval * (q + 1) : Nat) : Int) = p.interval * (q : Nat) + p.interval := by push_cast; ring
  have h8 : (0 : Int) ≤ p.interval * (q : Nat) := by positivity
  constructor
  · linarith
  · rw [hround]; linarith

theorem split_unique {n b j k j' k' : Nat} (hk : k < n) (hk' : k' < n) (hn : n ≤ b) (h : j * b + k = j' * b + k') : j = j' ∧ k = k' := by
  have h1 : (j * b + k) / b = j := by rw [Nat.mul_comm, Nat.mul_add_div (by omega), Nat.div_eq_of_lt (by omega), Nat.add_zero]
  have h2 : (j' * b + k') / b = j' := by rw [Nat.mul_comm, Nat.mul_add_div (by omega), Nat.div_eq_of_lt (by omega), Nat.add_zero]
  have : j = j' := by rw [← h1, h, h2]
  subst this
  exact ⟨rfl, by omega⟩

/-- **C35** Slots do not overlap: two slots, of the same or of different rounds and whatever the elected, that have an instant in common and
come from the same election are the same. -/
theorem slots_disjoint (p : Plan) (hp : 0 < p.perCount) (members : Nat → List Addr) (hm : ∀ i, (members i).length ≤ p.nodeCount)
    {i i' : Nat} {s s' : Slot} (hs : s ∈ genPlan p i (members i)) (hs' : s' ∈ genPlan p i' (members i')) {t : Int}
    (ht : s.stime ≤ t ∧ t < s.etime) (ht' : s'.stime ≤ t ∧ t < s'.etime) : s = s' := by
  have w := plan_within p hp i _ (hm i) hs
  have w' := plan_within p hp i' _ (hm i') hs'
  have hii : i = i' := by
    have h1 : (p.index.index2Time i).1 < (p.index.index2Time i').2 := by omega
    have h2 : (p.index.index2Time i').1 < (p.index.index2Time i).2 := by omega
    unfold TimeIndex.index2Time at h1 h2
    simp only at h1 h2
    have h1 : p.index.interval * i < p.index.interval * (i' + 1) := by
      have : (p.index.interval : Int) * i < p.index.interval * (i' + 1 : Nat) := by linarith
      exact_mod_cast this
    have h2 : p.index.interval * i' < p.index.interval * (i + 1) := by
      have : (p.index.interval : Int) * i' < p.index.interval * (i + 1 : Nat) := by linarith
      exact_mod_cast this
    have h1 := Nat.lt_of_mul_lt_mul_left h1
    have h2 := Nat.lt_of_mul_lt_mul_left h2
    omega
  subst hii
  obtain ⟨j, k, hj, hk, hme, h1, h2⟩ := (plan_exact p hp i _ (hm i) s).1 hs
  obtain ⟨j', k', hj', hk', hme', h1', h2'⟩ := (plan_exact p hp i _ (hm i) s').1 hs'
  have hq : j * (p.nodeCount * p.perCount) + k = j' * (p.nodeCount * p.perCount) + k' := by
    generalize j * (p.nodeCount * p.perCount) + k = q at *
    generalize j' * (p.nodeCount * p.perCount) + k' = q' at *
    have a : (p.interval : Int) * (q : Nat) < p.interval * (q' : Nat) + p.interval := by linarith [ht.1, ht'.2]
    have b : (p.interval : Int) * (q' : Nat) < p.interval * (q : Nat) + p.interval := by linarith [ht'.1, ht.2]
    have a : p.interval * q < p.interval * (q' + 1) := by
      have : (p.interval : Int) * q < p.interval * (q' + 1 : Nat) := by push_cast; linarith
      exact_mod_cast this
    have b : p.interval * q' < p.interval * (q + 1) := by
      have : (p.interval : Int) * q' < p.interval * (q + 1 : Nat) := by push_cast; linarith
      exact_mod_cast this
    have a := Nat.lt_of_mul_lt_mul_left a
    have b := Nat.lt_of_mul_lt_mul_left b
    omega
  obtain ⟨rfl, rfl⟩ := split_unique hk hk' (Nat.mul_le_mul_right _ (hm i)) hq
  have e3 := Option.some.inj (hme.symm.trans hme')
  cases s; cases s'
  simp only at *
  subst e3
  rw [h2, h2', h1, h1']

/-- **C35** If all places are taken, every instant of a round is in a slot. -/
theorem slots_cover (p : Plan) (hp : 0 < p.perCount) (hi : 0 < p.interval) (i : Nat) (ms : List Addr) (hm : ms.length = p.nodeCount) {t : Int}
    (ht : (p.index.index2Time i).1 ≤ t ∧ t < (p.index.index2Time i).2) : ∃ s ∈ genPlan p i ms, s.stime ≤ t ∧ t < s.etime := by
  obtain ⟨n, hn⟩ : ∃ n : Nat, t = (p.index.index2Time i).1 + n := ⟨(t - (p.index.index2Time i).1).toNat, by omega⟩
  have hround : (p.index.index2Time i).2 = (p.index.index2Time i).1 + (p.interval * (p.rep * (p.nodeCount * p.perCount)) : Nat) := by
    unfold TimeIndex.index2Time Plan.index Plan.round
    simp only; push_cast; ring
  have hlt : n < p.interval * (p.rep * (p.nodeCount * p.perCount)) := by
    have := ht.2
    rw [hround, hn] at this
    have : (n : Int) < ((p.interval * (p.rep * (p.nodeCount * p.perCount)) : Nat) : Int) := by linarith
    exact_mod_cast this
  have hq : n / p.interval < p.rep * (p.nodeCount * p.perCount) := Nat.div_lt_of_lt_mul hlt
  have hb : 0 < p.nodeCount * p.perCount := by
    rcases Nat.eq_zero_or_pos (p.nodeCount * p.perCount) with h | h
    · rw [h, Nat.mul_zero] at hq; exact absurd hq (Nat.not_lt_zero _)
    · exact h
  generalize hqe : n / p.interval = q at *
  have hj : q / (p.nodeCount * p.perCount) < p.rep := Nat.div_lt_of_lt_mul (by rw [Nat.mul_comm]; exact hq)
  have hk : q % (p.nodeCount * p.perCount) < ms.length * p.perCount := by rw [hm]; exact Nat.mod_lt _ hb
  have hkm : q % (p.nodeCount * p.perCount) / p.perCount < ms.length := Nat.div_lt_of_lt_mul (Nat.lt_of_lt_of_eq hk (Nat.mul_comm _ _))
  have hqq : q / (p.nodeCount * p.perCount) * (p.nodeCount * p.perCount) + q % (p.nodeCount * p.perCount) = q := by
    rw [Nat.mul_comm]; exact Nat.div_add_mod _ _
  refine ⟨⟨(p.index.index2Time i).1 + p.interval * (q : Nat), (p.index.index2Time i).1 + p.interval * (q : Nat) + p.interval, ms[q % (p.nodeCount * p.perCount) / p.perCount]⟩, ?_, ?_, ?_⟩
  · refine (plan_exact p hp i ms (by omega) _).2 ⟨_, _, hj, hk, List.getElem?_eq_getElem hkm, ?_, rfl⟩
    rw [hqq]
  · simp only
    have : p.interval * q ≤ n := by rw [← hqe]; exact Nat.mul_div_le n _
    have : ((p.interval * q : Nat) : Int) ≤ n := by exact_mod_cast this
    push_cast at this
    linarith
  · simp only
    have : n < p.interval * q + p.interval := by
      rw [← hqe]
      have := Nat.lt_mul_div_succ n hi
      rw [Nat.mul_add, Nat.mul_one] at this
      exact this
    have : (n : Int) < ((p.interval * q + p.interval : Nat) : Int) := by exact_mod_cast this
    push_cast at this
    linarith

/-- **C35** Everyone elected gets `perCount` slots in each repetition: each gets as many as any other. -/
theorem slots_equal_share (p : Plan) (hp : 0 < p.perCount) (i : Nat) {ms : List Addr} (hm : ms.length ≤ p.nodeCount) (hn : ms.Nodup) {m : Addr} (h : m ∈ ms) :
    ((genPlan p i ms).filter (fun s => decide (s.member = m))).length = p.rep * p.perCount := by
  have one : ∀ (d : Nat) (t : Int), ((slotsOfMembers p ms t).1.filter (fun s => decide (s.member = m))).length = p.perCount := by
    intro _
    clear hm
    have none : ∀ (l : List Addr) (t : Int), m ∉ l → ((slotsOfMembers p l t).1.filter (fun s => decide (s.member = m))).length = 0 := by
      intro l t hl
      rw [slotsOfMembers_spec p hp, List.length_eq_zero_iff, List.filter_eq_nil_iff]
      intro s hs hd
      obtain ⟨k, hk, rfl⟩ := List.mem_map.1 hs
      rw [List.mem_range] at hk
      have hkm : k / p.perCount < l.length := Nat.div_lt_of_lt_mul (by rw [Nat.mul_comm]; exact hk)
      have := of_decide_eq_true hd
      unfold slotAt at this
      simp only [List.getD_eq_getElem?_getD, List.getElem?_eq_getElem hkm, Option.getD_some] at this
      exact hl (this ▸ List.getElem_mem hkm)
    induction ms with
    | nil => exact absurd h (by simp)
    | cons x ms ih =>
      intro t
      rw [List.nodup_cons] at hn
      unfold slotsOfMembers
      rw [slotsOfMember_spec]
      simp only [List.filter_append, List.length_append]
      by_cases e : x = m
      · subst e
        rw [none ms _ hn.1, Nat.add_zero, List.filter_eq_self.2]
        · simp
        · intro s hs
          obtain ⟨k, -, rfl⟩ := List.mem_map.1 hs
          exact decide_eq_true rfl
      · rw [ih hn.2 ((List.mem_cons.1 h).resolve_left (Ne.symm e))]
        have : (List.map (fun k => slotAt p.interval t k x) (List.range p.perCount)).filter (fun s => decide (s.member = m)) = [] := by
          rw [List.filter_eq_nil_iff]
          intro s hs hd
          obtain ⟨k, -, rfl⟩ := List.mem_map.1 hs
          exact e (of_decide_eq_true hd)
        rw [this]; simp
  have all : ∀ n t, ((slotsOfRounds p ms n t).filter (fun s => decide (s.member = m))).length = n * p.perCount := by
    intro n
    induction n with
    | zero => intro t; simp [slotsOfRounds]
    | succ n ih =>
      intro t
      unfold slotsOfRounds
      simp only [List.filter_append, List.length_append]
      rw [one 0, ih, Nat.succ_mul, Nat.add_comm]
  unfold genPlan
  rw [if_neg (by omega), all]

/-- **C35** Whoever may produce at a time is the only one who may: the elected member of the slot that starts then. -/
theorem producer_unique (p : Plan) (hp : 0 < p.perCount) (hi : 0 < p.interval) (members : Nat → List Addr) (hm : ∀ i, (members i).length ≤ p.nodeCount)
    {a b : Addr} {t : Int} (ha : verifyProducer p members a t = true) (hb : verifyProducer p members b t = true) : a = b := by
  unfold verifyProducer at ha hb
  rw [List.any_eq_true] at ha hb
  obtain ⟨s, hs, h1⟩ := ha
  obtain ⟨s', hs', h1'⟩ := hb
  rw [Bool.and_eq_true] at h1 h1'
  have e1 := of_decide_eq_true h1.1
  have e2 := of_decide_eq_true h1.2
  have e1' := of_decide_eq_true h1'.1
  have e2' := of_decide_eq_true h1'.2
  obtain ⟨-, -, -, -, -, -, h2⟩ := (plan_exact p hp _ _ (hm _) s).1 hs
  obtain ⟨-, -, -, -, -, -, h2'⟩ := (plan_exact p hp _ _ (hm _) s').1 hs'
  have : s = s' := slots_disjoint p hp members hm hs hs' (t := t) (by omega) (by omega)
  rw [← e1, ← e1', this]

/-- **C35** Who may produce: the address is accepted at a time if and only if it is elected for the round of the time and one of its slots starts
exactly then. -/
theorem producer_exact (p : Plan) (members : Nat → List Addr) (a : Addr) (t : Int) :
    verifyProducer p members a t = true ↔ ∃ s ∈ genPlan p (p.index.time2Index t) (members (p.index.time2Index t)), s.member = a ∧ s.stime = t := by
  unfold verifyProducer
  rw [List.any_eq_true]
  constructor
  · rintro ⟨s, hs, h⟩
    rw [Bool.and_eq_true] at h
    exact ⟨s, hs, of_decide_eq_true h.1, of_decide_eq_true h.2⟩
  · rintro ⟨s, hs, h1, h2⟩
    exact ⟨s, hs, by rw [decide_eq_true h1, decide_eq_true h2]; rfl⟩

/-- **C35** An elected member is accepted at the start of each of its slots. -/
theorem slot_accepted (p : Plan) (hp : 0 < p.perCount) (hi : 0 < p.interval) (members : Nat → List Addr) (hm : ∀ i, (members i).length ≤ p.nodeCount)
    {i : Nat} {s : Slot} (hs : s ∈ genPlan p i (members i)) (hr : p.index.InRange s.stime) : verifyProducer p members s.member s.stime = true := by
  rw [producer_exact]
  have w := plan_within p hp i _ (hm i) hs
  obtain ⟨-, -, -, -, -, -, h2⟩ := (plan_exact p hp _ _ (hm _) s).1 hs
  have hpos : 0 < p.index.interval := by
    rcases Nat.eq_zero_or_pos p.index.interval with h | h
    · unfold TimeIndex.index2Time at w
      simp only [h] at w
      omega
    · exact h
  have : p.index.time2Index s.stime = i := (index_exact p.index hpos hr i).2 (by constructor <;> omega)
  rw [this]
  exact ⟨s, hs, rfl, rfl⟩

/-! ### Examples -/

/-- Three places, two slots in a row, twice; three elected. -/
def exPlan : Plan := ⟨1000, 1, 3, 2, 2⟩
example : exPlan.round = 12 := by decide +kernel
example : (genPlan exPlan 1 [7, 8, 9]).map (fun s => (s.stime, s.member)) =
  [(1012, 7), (1013, 7), (1014, 8), (1015, 8), (1016, 9), (1017, 9), (1018, 7), (1019, 7), (1020, 8), (1021, 8), (1022, 9), (1023, 9)] := by decide +kernel
/-- With two elected there are gaps. -/
example : (genPlan exPlan 1 [7, 8]).map (fun s => (s.stime, s.member)) =
  [(1012, 7), (1013, 7), (1014, 8), (1015, 8), (1018, 7), (1019, 7), (1020, 8), (1021, 8)] := by decide +kernel
example : verifyProducer exPlan (fun _ => [7, 8, 9]) 8 1014 = true := by decide +kernel
example : exPlan.index.InRange 1014 := by unfold TimeIndex.InRange exPlan Plan.index; decide

end Verif.Consensus
