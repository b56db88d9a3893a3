import Verif.Dex.PeriodSpec
import Verif.Dex.MatcherLemmas

/-!
# The fee records: nothing is lost when a period ends, and no record is left out or divided twice
-/

namespace Verif.Dex

/-- One percent of an amount is at most the amount. -/
theorem percent_le (amount : Nat) : calculateAmountForRate amount perPeriodDividendRate ≤ amount := by
  unfold calculateAmountForRate perPeriodDividendRate
  split
  · have ha : (0:ℚ) ≤ amount := by positivity
    have hr' : (0:ℚ) ≤ ((1000 : ℕ):ℚ) / 100000 := by positivity
    have e1 := rnd_le ha; have e2 := rnd_le hr'
    have n1 := rnd_nonneg ha; have n2 := rnd_nonneg hr'
    have e3 : rnd (rnd (amount:ℚ) * rnd (((1000 : ℕ):ℚ) / 100000)) ≤ 2 / 100 * amount := by
      have p := rnd_le (mul_nonneg n1 n2)
      have q1 : rnd (((1000 : ℕ):ℚ) / 100000) ≤ 1001 / 100000 := by
        refine e2.trans ?_
        norm_num
      have q2 : rnd (amount:ℚ) * rnd (((1000 : ℕ):ℚ) / 100000) ≤ (amount * (1 + 1 / 2 ^ 120)) * (1001 / 100000) :=
        mul_le_mul e1 q1 n2 (by positivity)
      calc _ ≤ _ := p
        _ ≤ (amount * (1 + 1 / 2 ^ 120)) * (1001 / 100000) * (1 + 1 / 2 ^ 120) :=
            mul_le_mul_of_nonneg_right q2 (by norm_num)
        _ = amount * ((1 + 1 / 2 ^ 120) * (1001 / 100000) * (1 + 1 / 2 ^ 120)) := by ring
        _ ≤ amount * (2 / 100) := mul_le_mul_of_nonneg_left (by norm_num) ha
        _ = _ := by ring
    have e4 := roundAmount_le (rnd_nonneg (mul_nonneg n1 n2)) (b := 2 / 100 * amount + 1 / 2) (by linarith)
    have e5 : ((roundAmount (rnd (rnd (amount:ℚ) * rnd (((1000 : ℕ):ℚ) / 100000))) : ℕ) : ℚ) < amount + 1 := by
      linarith
    have : roundAmount (rnd (rnd (amount:ℚ) * rnd (((1000 : ℕ):ℚ) / 100000))) < amount + 1 := by exact_mod_cast e5
    omega
  · omega

theorem Pool.part_le (q : Pool) : q.part ≤ q.amount := by
  unfold Pool.part; split
  · exact le_refl _
  · exact percent_le _

theorem Pool.part_rolled (q : Pool) : q.part + q.rolled = q.amount := by
  have := q.part_le
  unfold Pool.rolled
  split
  · rename_i h; simp [Pool.part, h]
  · rw [subAbs_le this]; omega

theorem poolSum_cons (f : Pool → Nat) (t : Nat) (q : Pool) (qs : List Pool) :
    poolSum f t (q :: qs) = (if q.token = t then f q else 0) + poolSum f t qs := by simp [poolSum]

theorem poolSum_roll (t : Nat) (qs : List Pool) :
    poolSum Pool.part t qs + poolSum Pool.amount t (qs.map Pool.roll) = poolSum Pool.amount t qs := by
  induction qs with
  | nil => rfl
  | cons q qs ih =>
    rw [List.map_cons, poolSum_cons, poolSum_cons, poolSum_cons]
    have := q.part_rolled
    have e1 : q.roll.token = q.token := rfl
    have e2 : q.roll.amount = q.rolled := rfl
    rw [e1, e2]
    by_cases h : q.token = t
    · simp only [h, if_true]; omega
    · simp only [h, if_false]; omega

theorem poolSum_add (t u n : Nat) (qs : List Pool) :
    poolSum Pool.amount u (addPool t n qs) = poolSum Pool.amount u qs + if u = t then n else 0 := by
  induction qs with
  | nil =>
    by_cases h : t = u
    · subst h; simp [addPool, poolSum]
    · have : u ≠ t := fun e => h e.symm
      simp [addPool, poolSum, h, this]
  | cons q qs ih =>
    unfold addPool
    split
    · rename_i hq
      rw [poolSum_cons, poolSum_cons]
      by_cases h : t = u
      · subst h; simp only [hq, if_true]; omega
      · have : u ≠ t := fun e => h e.symm
        simp only [hq, h, this, if_false]; omega
    · rw [poolSum_cons, poolSum_cons, ih]; omega

/-! ### The chain of records -/

/-- Every record that is still there points to the one made before it. -/
def Linked (fees : Table Nat FeeRec) : List Nat → Prop
  | [] => True
  | p :: l => (∀ r, Table.get p fees = some r → r.last = l.head?.getD 0) ∧ Linked fees l

/-- The records made so far, latest first: those not divided yet, then those divided or gone. -/
structure Split (fees : Table Nat FeeRec) (newer older : List Nat) : Prop where
  newer : ∀ p ∈ newer, ∃ r, Table.get p fees = some r ∧ r.finishDividend = false
  older : ∀ p ∈ older, ∀ r, Table.get p fees = some r → r.finishDividend = true

structure FeeInv (now : Nat) (newer older : List Nat) (fees : Table Nat FeeRec) : Prop where
  proper : Table.Proper fees
  keys : ∀ p r, Table.get p fees = some r → p ∈ newer ++ older
  desc : (newer ++ older).Pairwise (fun x y => y < x)
  pos : ∀ p ∈ newer ++ older, 0 < p
  head : newer.head? = some now
  links : Linked fees (newer ++ older)
  split : Split fees newer older

theorem chain_spec (fees : Table Nat FeeRec) : ∀ (newer older : List Nat) (fuel p : Nat),
    (newer ++ older).Pairwise (fun x y => y < x) → (∀ q ∈ newer ++ older, 0 < q) → (newer ++ older).head? = some p → p < fuel →
    Linked fees (newer ++ older) → Split fees newer older →
    ∀ q r, (q, r) ∈ chain fees fuel p ↔ (q ∈ newer ∧ Table.get q fees = some r)
  | [], older, fuel, p, _, _, hp, hf, _, hs, q, r => by
    obtain ⟨f, rfl⟩ := Nat.exists_eq_succ_of_ne_zero (by omega : fuel ≠ 0)
    have hm : p ∈ older := by
      cases older with
      | nil => simp at hp
      | cons x xs => simp at hp; subst hp; simp
    unfold chain
    split
    · simp
    · rename_i r' hr
      rw [if_pos (hs.older p hm r' hr)]; simp
  | x :: nw, older, fuel, p, hd, hpos, hp, hf, hl, hs, q, r => by
    obtain ⟨f, rfl⟩ := Nat.exists_eq_succ_of_ne_zero (by omega : fuel ≠ 0)
    simp only [List.cons_append, List.head?_cons, Option.some.injEq] at hp
    subst hp
    obtain ⟨r0, h0, h1⟩ := hs.newer x (by simp)
    rw [List.cons_append] at hd hl hpos
    have hd' := List.pairwise_cons.mp hd
    have hlink := hl.1 r0 h0
    unfold chain
    rw [h0]
    simp only [h1, if_false, Bool.false_eq_true]
    rw [List.mem_cons]
    have rest : (q, r) ∈ (if r0.last = 0 then [] else chain fees f r0.last) ↔ (q ∈ nw ∧ Table.get q fees = some r) := by
      cases hl' : nw ++ older with
      | nil =>
        rw [hl'] at hlink
        have hn : nw = [] := (List.append_eq_nil_iff.mp hl').1
        have hz : r0.last = 0 := hlink
        rw [if_pos hz, hn]; simp
      | cons y ys =>
        rw [hl'] at hlink
        have hy : r0.last = y := hlink
        have hym : y ∈ nw ++ older := by rw [hl']; simp
        have := hpos y (List.mem_cons_of_mem _ hym)
        have hlt := hd'.1 y hym
        rw [if_neg (by omega), hy]
        exact chain_spec fees nw older f y hd'.2 (fun z hz => hpos z (List.mem_cons_of_mem _ hz)) (by rw [hl']; rfl) (by omega) hl.2
          ⟨fun z hz => hs.newer z (List.mem_cons_of_mem _ hz), hs.older⟩ q r
    rw [rest]
    constructor
    · rintro (h | ⟨h2, h3⟩)
      · obtain ⟨rfl, rfl⟩ := Prod.mk.inj h
        exact ⟨by simp, h0⟩
      · exact ⟨List.mem_cons_of_mem _ h2, h3⟩
    · rintro ⟨h2, h3⟩
      rcases List.mem_cons.mp h2 with rfl | h2
      · left; rw [h0] at h3; rw [Option.some.inj h3]
      · exact .inr ⟨h2, h3⟩

theorem firstRec_none {fees : Table Nat FeeRec} {p : Nat} (h : firstRec fees p = none) : ∀ q, q ≤ p → Table.get q fees = none := by
  induction p with
  | zero =>
    intro q hq
    obtain rfl : q = 0 := by omega
    unfold firstRec at h
    split at h
    · simp at h
    · rename_i h1; simpa using h1
  | succ p ih =>
    unfold firstRec at h
    split at h
    · simp at h
    · rename_i h1
      intro q hq
      by_cases e : q = p + 1
      · subst e; simpa using h1
      · exact ih h q (by omega)

theorem firstRec_some {fees : Table Nat FeeRec} {p x : Nat} (h : firstRec fees p = some x) :
    x ≤ p ∧ (∃ r, Table.get x fees = some r) ∧ ∀ q, q ≤ p → x < q → Table.get q fees = none := by
  induction p with
  | zero =>
    unfold firstRec at h
    split at h
    · rename_i h1
      obtain rfl : x = 0 := by simpa using h.symm
      exact ⟨le_refl _, Option.isSome_iff_exists.mp h1, fun q h2 h3 => by omega⟩
    · simp at h
  | succ p ih =>
    unfold firstRec at h
    split at h
    · rename_i h1
      obtain rfl : x = p + 1 := by simpa using h.symm
      exact ⟨le_refl _, Option.isSome_iff_exists.mp h1, fun q h2 h3 => by omega⟩
    · rename_i h1
      obtain ⟨h2, h3, h4⟩ := ih h
      refine ⟨by omega, h3, fun q h5 h6 => ?_⟩
      by_cases e : q = p + 1
      · subst e; simpa using h1
      · exact h4 q (by omega) h6

theorem Linked.suffix {fees : Table Nat FeeRec} : ∀ {a b : List Nat}, Linked fees (a ++ b) → Linked fees b
  | [], _, h => h
  | _ :: a, b, h => Linked.suffix (a := a) h.2

/-- Exactly the records up to the period that have not been divided are found. -/
theorem notDivided_spec {now : Nat} {newer older : List Nat} {fees : Table Nat FeeRec} (I : FeeInv now newer older fees) (p q : Nat)
    (r : FeeRec) : (q, r) ∈ notDivided fees p ↔ (q ≤ p ∧ Table.get q fees = some r ∧ r.finishDividend = false) := by
  unfold notDivided
  split
  · rename_i hn
    constructor
    · simp
    · rintro ⟨h1, h2, _⟩
      rw [firstRec_none hn q h1] at h2; simp at h2
  · rename_i x hx
    obtain ⟨h1, ⟨rx, h2⟩, h3⟩ := firstRec_some hx
    have hmem := I.keys x rx h2
    rcases List.mem_append.mp hmem with hm | hm
    · obtain ⟨a, b, rfl⟩ := List.append_of_mem hm
      have e : a ++ x :: b ++ older = a ++ (x :: b ++ older) := by simp
      have hd := I.desc; have hpos := I.pos; have hlk := I.links
      rw [e] at hd hpos hlk
      have hd' := (List.pairwise_append.mp hd)
      rw [chain_spec fees (x :: b) older (x + 1) x hd'.2.1 (fun z hz => hpos z (List.mem_append_right _ hz)) rfl (by omega)
        hlk.suffix ⟨fun z hz => I.split.newer z (List.mem_append_right _ hz), I.split.older⟩]
      have hbig : ∀ z ∈ a, x < z := fun z hz => hd'.2.2 z hz x (by simp)
      have hsmall : ∀ z ∈ x :: b, z ≤ x := by
        intro z hz
        rcases List.mem_cons.mp hz with rfl | hz
        · exact le_refl _
        · have := (List.pairwise_cons.mp hd'.2.1).1 z (List.mem_append_left _ hz)
          omega
      constructor
      · rintro ⟨h4, h5⟩
        obtain ⟨r', h6, h7⟩ := I.split.newer q (List.mem_append_right _ h4)
        rw [h5] at h6
        obtain rfl := Option.some.inj h6
        exact ⟨(hsmall q h4).trans h1, h5, h7⟩
      · rintro ⟨h4, h5, h6⟩
        refine ⟨?_, h5⟩
        rcases List.mem_append.mp (I.keys q r h5) with h7 | h7
        · rcases List.mem_append.mp h7 with h8 | h8
          · have := hbig q h8
            rw [h3 q h4 this] at h5; simp at h5
          · exact h8
        · rw [I.split.older q h7 r h5] at h6; simp at h6
    · -- the first record found was divided before
      have hx' := I.split.older x hm rx h2
      have : chain fees (x + 1) x = [] := by unfold chain; rw [h2]; simp [hx']
      rw [this]
      constructor
      · simp
      · rintro ⟨h4, h5, h6⟩
        exfalso
        rcases List.mem_append.mp (I.keys q r h5) with h7 | h7
        · have := (List.pairwise_append.mp I.desc).2.2 q h7 x hm
          rw [h3 q h4 this] at h5; simp at h5
        · rw [I.split.older q h7 r h5] at h6; simp at h6

/-- No record is found twice. -/
theorem chain_le (fees : Table Nat FeeRec) : ∀ (newer older : List Nat) (fuel p : Nat),
    (newer ++ older).Pairwise (fun x y => y < x) → (newer ++ older).head? = some p → (∀ q ∈ newer ++ older, 0 < q) →
    Linked fees (newer ++ older) → Split fees newer older →
    ((chain fees fuel p).map (·.1)).Sublist newer
  | newer, older, 0, p, _, _, _, _, _ => by simp [chain]
  | [], older, f + 1, p, _, hp, _, _, hs => by
    have hm : p ∈ older := by
      cases older with
      | nil => simp at hp
      | cons x xs => simp at hp; subst hp; simp
    unfold chain
    split
    · simp
    · rename_i r' hr
      rw [if_pos (hs.older p hm r' hr)]; simp
  | x :: nw, older, f + 1, p, hd, hp, hpos, hl, hs => by
    simp only [List.cons_append, List.head?_cons, Option.some.injEq] at hp
    subst hp
    obtain ⟨r0, h0, h1⟩ := hs.newer x (by simp)
    rw [List.cons_append] at hd hl hpos
    have hd' := List.pairwise_cons.mp hd
    have hlink := hl.1 r0 h0
    unfold chain
    rw [h0]
    simp only [h1, if_false, Bool.false_eq_true, List.map_cons]
    refine List.Sublist.cons_cons x ?_
    split
    · simp
    · rename_i hz
      cases hl' : nw ++ older with
      | nil => rw [hl'] at hlink; exact absurd hlink hz
      | cons y ys =>
        rw [hl'] at hlink
        have hy : r0.last = y := hlink
        rw [hy]
        exact chain_le fees nw older f y hd'.2 (by rw [hl']; rfl) (fun z hz => hpos z (List.mem_cons_of_mem _ hz)) hl.2
          ⟨fun z hz => hs.newer z (List.mem_cons_of_mem _ hz), hs.older⟩

theorem notDivided_nodup {now : Nat} {newer older : List Nat} {fees : Table Nat FeeRec} (I : FeeInv now newer older fees) (p : Nat) :
    ((notDivided fees p).map (·.1)).Nodup := by
  unfold notDivided
  split
  · simp
  · rename_i x hx
    obtain ⟨h1, ⟨rx, h2⟩, h3⟩ := firstRec_some hx
    rcases List.mem_append.mp (I.keys x rx h2) with hm | hm
    · obtain ⟨a, b, rfl⟩ := List.append_of_mem hm
      have e : a ++ x :: b ++ older = a ++ (x :: b ++ older) := by simp
      have hd := I.desc; have hpos := I.pos; have hlk := I.links
      rw [e] at hd hpos hlk
      have hd' := (List.pairwise_append.mp hd)
      have := chain_le fees (x :: b) older (x + 1) x hd'.2.1 rfl (fun z hz => hpos z (List.mem_append_right _ hz))
        hlk.suffix ⟨fun z hz => I.split.newer z (List.mem_append_right _ hz), I.split.older⟩
      refine this.nodup ?_
      have : ((x :: b)).Pairwise (fun x y => y < x) := (List.pairwise_append.mp hd'.2.1).1
      exact this.imp (fun h => by omega)
    · have hx' := I.split.older x hm rx h2
      have : chain fees (x + 1) x = [] := by unfold chain; rw [h2]; simp [hx']
      rw [this]; simp

/-! ### Changes of the records -/

/-- What both kinds of change keep: no record is added, and none is linked anew. -/
def Shrinks (fees fees' : Table Nat FeeRec) : Prop :=
  ∀ q r', Table.get q fees' = some r' → ∃ r, Table.get q fees = some r ∧ r'.last = r.last

theorem Linked.shrinks {fees fees' : Table Nat FeeRec} (h : Shrinks fees fees') : ∀ {l : List Nat}, Linked fees l → Linked fees' l
  | [], _ => trivial
  | p :: l, hl => by
    refine ⟨fun r' hr' => ?_, hl.2.shrinks h⟩
    obtain ⟨r, h1, h2⟩ := h p r' hr'
    rw [h2]; exact hl.1 r h1

theorem FeeInv.change {now : Nat} {newer older newer' older' : List Nat} {fees fees' : Table Nat FeeRec} (I : FeeInv now newer older fees)
    (hp : Table.Proper fees') (hs : Shrinks fees fees') (hl : newer' ++ older' = newer ++ older) (hh : newer'.head? = some now)
    (S : Split fees' newer' older') : FeeInv now newer' older' fees' where
  proper := hp
  keys := fun p r h => by obtain ⟨r0, h1, _⟩ := hs p r h; rw [hl]; exact I.keys p r0 h1
  desc := by rw [hl]; exact I.desc
  pos := by rw [hl]; exact I.pos
  head := hh
  links := by rw [hl]; exact I.links.shrinks hs
  split := S

/-- A record is replaced by one with the same link and the same mark. -/
theorem FeeInv.update {now : Nat} {newer older : List Nat} {fees : Table Nat FeeRec} (I : FeeInv now newer older fees) {p : Nat}
    {r r' : FeeRec} (h : Table.get p fees = some r) (h1 : r'.last = r.last) (h2 : r'.finishDividend = r.finishDividend) :
    FeeInv now newer older (Table.put p r' fees) := by
  refine I.change (Table.proper_put p r' I.proper) ?_ rfl I.head ⟨?_, ?_⟩
  · intro q x hx
    rw [Table.get_put] at hx
    split at hx
    · rename_i e; subst e; obtain rfl := Option.some.inj hx; exact ⟨r, h, h1⟩
    · exact ⟨x, hx, rfl⟩
  · intro q hq
    obtain ⟨x, h3, h4⟩ := I.split.newer q hq
    rw [Table.get_put]
    split
    · rename_i e; subst e; rw [h] at h3; obtain rfl := Option.some.inj h3; exact ⟨r', rfl, h2.trans h4⟩
    · exact ⟨x, h3, h4⟩
  · intro q hq x hx
    rw [Table.get_put] at hx
    split at hx
    · rename_i e; subst e; obtain rfl := Option.some.inj hx; rw [h2]; exact I.split.older q hq r h
    · exact I.split.older q hq x hx

/-- A record that was divided is removed. -/
theorem FeeInv.delete {now : Nat} {newer older : List Nat} {fees : Table Nat FeeRec} (I : FeeInv now newer older fees) {p : Nat}
    {r : FeeRec} (h : Table.get p fees = some r) (h1 : r.finishDividend = true) : FeeInv now newer older (Table.del p fees) := by
  have hget : ∀ q x, Table.get q (Table.del p fees) = some x → q ≠ p ∧ Table.get q fees = some x := by
    intro q x hx
    by_cases e : q = p
    · subst e; rw [Table.get_del_self q I.proper] at hx; simp at hx
    · rw [Table.get_del_ne e] at hx; exact ⟨e, hx⟩
  refine I.change (Table.proper_del p I.proper) ?_ rfl I.head ⟨?_, ?_⟩
  · intro q x hx; exact ⟨x, (hget q x hx).2, rfl⟩
  · intro q hq
    obtain ⟨x, h3, h4⟩ := I.split.newer q hq
    have e : q ≠ p := by rintro rfl; rw [h] at h3; obtain rfl := Option.some.inj h3; rw [h1] at h4; simp at h4
    rw [Table.get_del_ne e]; exact ⟨x, h3, h4⟩
  · intro q hq x hx; exact I.split.older q hq x (hget q x hx).2

theorem feesHeld_put (now u p : Nat) {fees : Table Nat FeeRec} {r : FeeRec} (h : Table.get p fees = some r) (r' : FeeRec) :
    feesHeld now u (Table.put p r' fees) + recHolds now u p r = feesHeld now u fees + recHolds now u p r' := by
  have := Table.total_put (recHolds now u) p r' fees
  rw [h] at this
  exact this

theorem feesHeld_del (now u p : Nat) {fees : Table Nat FeeRec} {r : FeeRec} (h : Table.get p fees = some r) :
    feesHeld now u (Table.del p fees) + recHolds now u p r = feesHeld now u fees := by
  have := Table.total_del (recHolds now u) p fees
  rw [h] at this
  exact this

theorem FeeInv.current {now : Nat} {newer older : List Nat} {fees : Table Nat FeeRec} (I : FeeInv now newer older fees) :
    ∃ r, Table.get now fees = some r ∧ r.finishDividend = false := by
  apply I.split.newer
  have := I.head
  cases newer with
  | nil => simp at this
  | cons x xs => simp at this; simp [this]

theorem FeeInv.le_now {now : Nat} {newer older : List Nat} {fees : Table Nat FeeRec} (I : FeeInv now newer older fees) :
    ∀ p ∈ newer ++ older, p ≤ now := by
  have h := I.head
  have hd := I.desc
  cases newer with
  | nil => simp at h
  | cons x xs =>
    simp at h; subst h
    rw [List.cons_append] at hd ⊢
    intro p hp
    rcases List.mem_cons.mp hp with rfl | hp
    · exact le_refl _
    · exact ((List.pairwise_cons.mp hd).1 p hp).le

/-- Paying a fee: it goes to the current record, whole. -/
theorem FeeInv.addFee {now : Nat} {newer older : List Nat} {fees : Table Nat FeeRec} (I : FeeInv now newer older fees) (lastRoll t n : Nat) :
    ∃ fees', addFee fees lastRoll now t n = some (fees', lastRoll) ∧ FeeInv now newer older fees' ∧
      ∀ u, feesHeld now u fees' = feesHeld now u fees + if u = t then n else 0 := by
  obtain ⟨r, h, h1⟩ := I.current
  unfold Verif.Dex.addFee
  rw [h]
  refine ⟨_, rfl, I.update h rfl rfl, fun u => ?_⟩
  have := feesHeld_put now u now h { r with pools := addPool t n r.pools }
  have e1 : recHolds now u now r = poolSum Pool.amount u r.pools := by simp [recHolds, h1]
  have e2 : recHolds now u now { r with pools := addPool t n r.pools } = poolSum Pool.amount u r.pools + if u = t then n else 0 := by
    simp [recHolds, h1, poolSum_add]
  rw [e1, e2] at this
  omega

theorem total_change {f g : Nat → FeeRec → Nat} {t : Table Nat FeeRec} (hp : Table.Proper t) (k : Nat)
    (h : ∀ p r, p ≠ k → Table.get p t = some r → g p r = f p r) :
    Table.total g t + (Table.get k t).elim 0 (f k) = Table.total f t + (Table.get k t).elim 0 (g k) := by
  have h1 := Table.total_del f k t
  have h2 := Table.total_del g k t
  have h3 : Table.total g (Table.del k t) = Table.total f (Table.del k t) := by
    unfold Table.total
    congr 1
    apply List.map_congr_left
    intro x hx
    have hx' := Table.mem_get (Table.proper_del k hp) hx
    have hne : x.1 ≠ k := by
      intro e
      rw [e, Table.get_del_self k hp] at hx'; simp at hx'
    rw [Table.get_del_ne hne] at hx'
    exact h x.1 x.2 hne hx'
  omega

/-- A new period: what is not divided goes on to the new record; nothing is lost. -/
theorem FeeInv.roll {now new : Nat} {newer older : List Nat} {fees : Table Nat FeeRec} (I : FeeInv now newer older fees) (h : now < new) :
    ∃ fees', rollPeriod fees now new = some (fees', new) ∧ FeeInv new (new :: newer) older fees' ∧
      ∀ u, feesHeld new u fees' = feesHeld now u fees := by
  obtain ⟨r, hr, h1⟩ := I.current
  have hpos : 0 < now := I.pos now (I.keys now r hr)
  have hnew : Table.get new fees = none := by
    cases hg : Table.get new fees with
    | none => rfl
    | some x => have := I.le_now new (I.keys new x hg); omega
  have hmade : ∀ p ∈ newer ++ older, p ≠ new := fun p hp e => by have := I.le_now p hp; omega
  unfold rollPeriod rollRec
  rw [if_neg (by omega), hr]
  refine ⟨_, rfl, ?_, fun u => ?_⟩
  · refine ⟨Table.proper_put _ _ I.proper, ?_, ?_, ?_, rfl, ?_, ?_, ?_⟩
    · intro p x hx
      rw [Table.get_put] at hx
      split at hx
      · rename_i e; subst e; simp
      · have := I.keys p x hx
        rw [List.cons_append]; exact List.mem_cons_of_mem _ this
    · rw [List.cons_append, List.pairwise_cons]
      exact ⟨fun p hp => by have := I.le_now p hp; omega, I.desc⟩
    · intro p hp
      rw [List.cons_append] at hp
      rcases List.mem_cons.mp hp with rfl | hp
      · omega
      · exact I.pos p hp
    · rw [List.cons_append]
      refine ⟨?_, ?_⟩
      · intro x hx
        rw [Table.get_put_self] at hx
        obtain rfl := Option.some.inj hx
        have := I.head
        cases newer with
        | nil => simp at this
        | cons y ys => simp at this; simp [this]
      · have : ∀ l : List Nat, (∀ p ∈ l, p ≠ new) → Linked fees l →
            ∀ x, Linked (Table.put new x fees) l := by
          intro l
          induction l with
          | nil => intros; trivial
          | cons p l ih =>
            intro hne hl x
            refine ⟨fun r' hr' => ?_, ih (fun q hq => hne q (List.mem_cons_of_mem _ hq)) hl.2 x⟩
            rw [Table.get_put_ne (hne p (by simp))] at hr'
            exact hl.1 r' hr'
        exact this _ hmade I.links _
    · intro p hp
      rcases List.mem_cons.mp hp with rfl | hp
      · exact ⟨_, Table.get_put_self _ _ _, rfl⟩
      · obtain ⟨x, h3, h4⟩ := I.split.newer p hp
        rw [Table.get_put_ne (hmade p (List.mem_append_left _ hp))]
        exact ⟨x, h3, h4⟩
    · intro p hp x hx
      rw [Table.get_put_ne (hmade p (List.mem_append_right _ hp))] at hx
      exact I.split.older p hp x hx
  · have e1 := Table.total_put (recHolds new u) new ⟨r.pools.map Pool.roll, false, false, now⟩ fees
    rw [hnew] at e1
    have e2 := total_change (f := recHolds now u) (g := recHolds new u) I.proper now (by
      intro p x hne hx
      have : p ≠ new := by rintro rfl; rw [hnew] at hx; simp at hx
      unfold recHolds
      rw [if_neg hne, if_neg this])
    rw [hr] at e2
    simp only [Option.elim_some, Option.elim_none] at e1 e2
    have e3 : recHolds new u new ⟨r.pools.map Pool.roll, false, false, now⟩ = poolSum Pool.amount u (r.pools.map Pool.roll) := by
      simp [recHolds]
    have e4 : recHolds now u now r = poolSum Pool.amount u r.pools := by simp [recHolds, h1]
    have e5 : recHolds new u now r = poolSum Pool.part u r.pools := by
      unfold recHolds; rw [if_neg (by simp [h1]), if_neg (by omega)]
    have e6 := poolSum_roll u r.pools
    rw [e3] at e1
    rw [e4, e5] at e2
    unfold feesHeld
    simp only
    omega

/-- Marking records as mined changes no amount. -/
theorem FeeInv.mined {now : Nat} {newer older : List Nat} (fuel p : Nat) {fees : Table Nat FeeRec} (I : FeeInv now newer older fees) :
    FeeInv now newer older (markMined fuel p fees) ∧ ∀ u, feesHeld now u (markMined fuel p fees) = feesHeld now u fees := by
  induction fuel generalizing p fees with
  | zero => exact ⟨I, fun _ => rfl⟩
  | succ f ih =>
    unfold markMined
    split
    · exact ⟨I, fun _ => rfl⟩
    · rename_i r hr
      have key : FeeInv now newer older (if r.finishDividend then Table.del p fees else Table.put p { r with finishMine := true } fees) ∧
          ∀ u, feesHeld now u (if r.finishDividend then Table.del p fees else Table.put p { r with finishMine := true } fees) =
            feesHeld now u fees := by
        split
        · rename_i hd
          refine ⟨I.delete hr hd, fun u => ?_⟩
          have := feesHeld_del now u p hr
          have e : recHolds now u p r = 0 := by simp [recHolds, hd]
          omega
        · refine ⟨I.update hr rfl rfl, fun u => ?_⟩
          have := feesHeld_put now u p hr { r with finishMine := true }
          have e : recHolds now u p { r with finishMine := true } = recHolds now u p r := rfl
          omega
      simp only
      split
      · obtain ⟨h1, h2⟩ := ih r.last key.1
        exact ⟨h1, fun u => (h2 u).trans (key.2 u)⟩
      · exact key

/-- What a list of records has to divide. -/
def recParts (t : Nat) (l : List (Nat × FeeRec)) : Nat := (l.map (fun x => poolSum Pool.part t x.2.pools)).sum

theorem markDivided_get {fees : Table Nat FeeRec} (hp : Table.Proper fees) (x : Nat × FeeRec) (q : Nat) :
    Table.get q (markDivided fees x) =
      if q = x.1 then (if x.2.finishMine then none else some { x.2 with finishDividend := true }) else Table.get q fees := by
  unfold markDivided
  split
  · by_cases e : q = x.1
    · subst e; rw [Table.get_del_self _ hp]; simp
    · rw [Table.get_del_ne e, if_neg e]
  · rw [Table.get_put]

theorem markDivided_proper {fees : Table Nat FeeRec} (hp : Table.Proper fees) (x : Nat × FeeRec) : Table.Proper (markDivided fees x) := by
  unfold markDivided
  split
  · exact Table.proper_del _ hp
  · exact Table.proper_put _ _ hp

theorem markAll_get : ∀ (l : List (Nat × FeeRec)) (fees : Table Nat FeeRec), Table.Proper fees → (l.map (·.1)).Nodup →
    Table.Proper (l.foldl markDivided fees) ∧
    (∀ x ∈ l, Table.get x.1 (l.foldl markDivided fees) = if x.2.finishMine then none else some { x.2 with finishDividend := true }) ∧
    (∀ q, q ∉ l.map (·.1) → Table.get q (l.foldl markDivided fees) = Table.get q fees)
  | [], fees, hp, _ => ⟨hp, by simp, fun _ _ => rfl⟩
  | x :: l, fees, hp, hn => by
    simp only [List.map_cons, List.nodup_cons] at hn
    obtain ⟨h1, h2, h3⟩ := markAll_get l (markDivided fees x) (markDivided_proper hp x) hn.2
    refine ⟨h1, ?_, ?_⟩
    · intro y hy
      rcases List.mem_cons.mp hy with rfl | hy
      · rw [List.foldl_cons, h3 _ hn.1, markDivided_get hp, if_pos rfl]
      · exact h2 y hy
    · intro q hq
      simp only [List.map_cons, List.mem_cons, not_or] at hq
      rw [List.foldl_cons, h3 q hq.2, markDivided_get hp, if_neg hq.1]

theorem markAll_held (now u : Nat) : ∀ (l : List (Nat × FeeRec)) (fees : Table Nat FeeRec), Table.Proper fees → (l.map (·.1)).Nodup →
    (∀ x ∈ l, Table.get x.1 fees = some x.2 ∧ x.2.finishDividend = false ∧ x.1 ≠ now) →
    feesHeld now u (l.foldl markDivided fees) + recParts u l = feesHeld now u fees
  | [], fees, _, _, _ => by simp [recParts]
  | x :: l, fees, hp, hn, hx => by
    simp only [List.map_cons, List.nodup_cons] at hn
    obtain ⟨g1, g2, g3⟩ := hx x (by simp)
    have ih := markAll_held now u l (markDivided fees x) (markDivided_proper hp x) hn.2 (by
      intro y hy
      obtain ⟨k1, k2, k3⟩ := hx y (List.mem_cons_of_mem _ hy)
      refine ⟨?_, k2, k3⟩
      have hne : y.1 ≠ x.1 := fun e => hn.1 (List.mem_map.mpr ⟨y, hy, e⟩)
      rw [markDivided_get hp, if_neg hne]
      exact k1)
    have e : recHolds now u x.1 x.2 = poolSum Pool.part u x.2.pools := by unfold recHolds; rw [if_neg (by simp [g2]), if_neg g3]
    have step : feesHeld now u (markDivided fees x) + poolSum Pool.part u x.2.pools = feesHeld now u fees := by
      rw [← e]
      unfold markDivided
      split
      · exact feesHeld_del now u x.1 g1
      · have := feesHeld_put now u x.1 g1 { x.2 with finishDividend := true }
        have e0 : recHolds now u x.1 { x.2 with finishDividend := true } = 0 := by simp [recHolds]
        omega
    rw [List.foldl_cons]
    unfold recParts at ih ⊢
    rw [List.map_cons, List.sum_cons]
    omega

theorem dropWhile_le {P : Nat} : ∀ {l : List Nat}, l.Pairwise (fun x y => y < x) → ∀ q ∈ l.dropWhile (fun x => decide (P < x)), q ≤ P
  | [], _, q, h => by simp at h
  | x :: l, hd, q, h => by
    have hd' := List.pairwise_cons.mp hd
    rw [List.dropWhile_cons] at h
    split at h
    · exact dropWhile_le hd'.2 q h
    · rename_i hx
      simp only [decide_eq_true_eq] at hx
      rcases List.mem_cons.mp h with rfl | h
      · omega
      · have := hd'.1 q h; omega

theorem takeWhile_gt {P : Nat} : ∀ {l : List Nat}, ∀ q ∈ l.takeWhile (fun x => decide (P < x)), P < q
  | [], q, h => by simp at h
  | x :: l, q, h => by
    rw [List.takeWhile_cons] at h
    split at h
    · rename_i hx
      rcases List.mem_cons.mp h with rfl | h
      · simpa using hx
      · exact takeWhile_gt q h
    · simp at h

/-- Dividing up to a past period: exactly the records up to it that were not divided are, and give up their parts. -/
theorem FeeInv.divided {now P : Nat} {newer older : List Nat} {fees : Table Nat FeeRec} (I : FeeInv now newer older fees) (hP : P < now) :
    (∃ newer' older', FeeInv now newer' older' ((notDivided fees P).foldl markDivided fees)) ∧
    (∀ u, feesHeld now u ((notDivided fees P).foldl markDivided fees) + recParts u (notDivided fees P) = feesHeld now u fees) ∧
    (∀ q r, Table.get q ((notDivided fees P).foldl markDivided fees) = some r → q ≤ P → r.finishDividend = true) ∧
    (∀ q, P < q → Table.get q ((notDivided fees P).foldl markDivided fees) = Table.get q fees) := by
  have hn := notDivided_nodup I P
  obtain ⟨g1, g2, g3⟩ := markAll_get (notDivided fees P) fees I.proper hn
  have hspec := notDivided_spec I P
  have hin : ∀ q r, Table.get q ((notDivided fees P).foldl markDivided fees) = some r →
      (∃ r0, (q, r0) ∈ notDivided fees P ∧ r = { r0 with finishDividend := true }) ∨
      (q ∉ (notDivided fees P).map (·.1) ∧ Table.get q fees = some r) := by
    intro q r hr
    by_cases hq : q ∈ (notDivided fees P).map (·.1)
    · obtain ⟨x, hx, rfl⟩ := List.mem_map.mp hq
      rw [g2 x hx] at hr
      split at hr
      · simp at hr
      · exact .inl ⟨x.2, hx, (Option.some.inj hr).symm⟩
    · exact .inr ⟨hq, by rw [← g3 q hq]; exact hr⟩
  have hdone : ∀ q r, Table.get q ((notDivided fees P).foldl markDivided fees) = some r → q ≤ P → r.finishDividend = true := by
    intro q r hr hq
    rcases hin q r hr with ⟨r0, _, rfl⟩ | ⟨h1, h2⟩
    · rfl
    · by_contra hc
      exact h1 (List.mem_map.mpr ⟨(q, r), (hspec q r).mpr ⟨hq, h2, by simpa using hc⟩, rfl⟩)
  have hlater : ∀ q, P < q → Table.get q ((notDivided fees P).foldl markDivided fees) = Table.get q fees := by
    intro q hq
    apply g3
    intro hm
    obtain ⟨x, hx, rfl⟩ := List.mem_map.mp hm
    have := ((hspec x.1 x.2).mp hx).1
    omega
  refine ⟨⟨newer.takeWhile (fun x => decide (P < x)), newer.dropWhile (fun x => decide (P < x)) ++ older, ?_⟩, ?_, hdone, hlater⟩
  · refine I.change g1 ?_ ?_ ?_ ⟨?_, ?_⟩
    · intro q r' hr'
      rcases hin q r' hr' with ⟨r0, h1, rfl⟩ | ⟨_, h2⟩
      · exact ⟨r0, ((hspec q r0).mp h1).2.1, rfl⟩
      · exact ⟨r', h2, rfl⟩
    · rw [← List.append_assoc, List.takeWhile_append_dropWhile]
    · have := I.head
      cases newer with
      | nil => simp at this
      | cons x xs => simp at this; subst this; simp [hP]
    · intro q hq
      obtain ⟨r, h1, h2⟩ := I.split.newer q ((List.takeWhile_sublist _).subset hq)
      exact ⟨r, by rw [hlater q (takeWhile_gt q hq)]; exact h1, h2⟩
    · intro q hq r hr
      rcases List.mem_append.mp hq with hq | hq
      · have hd := (List.pairwise_append.mp I.desc).1
        exact hdone q r hr (dropWhile_le hd q hq)
      · rcases hin q r hr with ⟨r0, _, rfl⟩ | ⟨_, h2⟩
        · rfl
        · exact I.split.older q hq r h2
  · intro u
    apply markAll_held now u _ _ I.proper hn
    intro x hx
    obtain ⟨h1, h2, h3⟩ := (hspec x.1 x.2).mp hx
    exact ⟨h2, h3, by omega⟩

/-- Links go back, so the bound on the recursion is never met: more fuel finds nothing more. -/
theorem chain_fuel {now : Nat} {newer older : List Nat} {fees : Table Nat FeeRec} (I : FeeInv now newer older fees) (p k : Nat) :
    chain fees (p + 1 + k) p = chain fees (p + 1) p := by
  have hlast : ∀ q r, Table.get q fees = some r → r.last < q := by
    have : ∀ l : List Nat, l.Pairwise (fun x y => y < x) → (∀ q ∈ l, 0 < q) → Linked fees l → ∀ q ∈ l, ∀ r, Table.get q fees = some r → r.last < q := by
      intro l
      induction l with
      | nil => simp
      | cons x l ih =>
        intro hd hpos hl q hq r hr
        have hd' := List.pairwise_cons.mp hd
        rcases List.mem_cons.mp hq with rfl | hq
        · rw [hl.1 r hr]
          cases l with
          | nil => exact hpos q (by simp)
          | cons y ys => exact hd'.1 y (by simp)
        · exact ih hd'.2 (fun z hz => hpos z (List.mem_cons_of_mem _ hz)) hl.2 q hq r hr
    intro q r hr
    exact this _ I.desc I.pos I.links q (I.keys q r hr) r hr
  have : ∀ f p, p < f → ∀ k, chain fees (f + k) p = chain fees f p := by
    intro f
    induction f with
    | zero => intro p hp; omega
    | succ f ih =>
      intro p hp k
      rw [show f + 1 + k = (f + k) + 1 by omega]
      unfold chain
      cases hg : Table.get p fees with
      | none => rfl
      | some r =>
        simp only
        split
        · rfl
        · split
          · rfl
          · rw [ih r.last (by have := hlast p r hg; omega) k]
  exact this (p + 1) p (by omega) k

/-- The amounts to divide are the parts of the records, per token. -/
theorem addPots_spec (u : Nat) : ∀ (qs : List Pool) (m : Table Nat Nat), Table.Proper m →
    Table.Proper (addPots qs m) ∧ (Table.get u (addPots qs m)).getD 0 = (Table.get u m).getD 0 + poolSum Pool.part u qs
  | [], m, hp => ⟨hp, by simp [addPots, poolSum]⟩
  | q :: qs, m, hp => by
    obtain ⟨h1, h2⟩ := addPots_spec u qs (Table.put q.token ((Table.get q.token m).getD 0 + q.part) m) (Table.proper_put _ _ hp)
    refine ⟨h1, ?_⟩
    unfold addPots
    rw [h2, poolSum_cons, Table.get_put]
    by_cases e : u = q.token
    · subst e; simp only [if_true, Option.getD_some]; omega
    · have e' : q.token ≠ u := fun h => e h.symm
      simp only [e, e', if_false]; omega

theorem allPots_spec (u : Nat) : ∀ (l : List (Nat × FeeRec)) (m : Table Nat Nat), Table.Proper m →
    Table.Proper (allPots l m) ∧ (Table.get u (allPots l m)).getD 0 = (Table.get u m).getD 0 + recParts u l
  | [], m, hp => ⟨hp, by simp [allPots, recParts]⟩
  | x :: l, m, hp => by
    obtain ⟨h1, h2⟩ := addPots_spec u x.2.pools m hp
    obtain ⟨h3, h4⟩ := allPots_spec u l (addPots x.2.pools m) h1
    refine ⟨h3, ?_⟩
    unfold allPots
    rw [h4, h2]
    simp only [recParts, List.map_cons, List.sum_cons]
    omega

end Verif.Dex
