import Verif.Chain.QuotaListSpec
import Verif.Tactics
import Mathlib.Algebra.Group.Hom.Basic
import Mathlib.Algebra.BigOperators.Group.List.Lemmas
import Mathlib.Tactic.Abel

/-!
# Lemmas on the cache of used quota
-/

namespace Verif.Chain

/-! ### Sums over blocks -/

theorem spent_nil (a : Nat) : spent a [] = 0 := rfl

theorem spent_cons (a : Nat) (b : Blk) (bs : List Blk) : spent a (b :: bs) = (if b.addr = a then b.info else 0) + spent a bs := by
  unfold spent
  by_cases h : b.addr = a
  · simp [h]
  · simp [h]

theorem spent_append (a : Nat) (xs ys : List Blk) : spent a (xs ++ ys) = spent a xs + spent a ys := by
  simp [spent]

theorem spentAll_append (xs ys : List Blk) : spentAll (xs ++ ys) = spentAll xs + spentAll ys := by simp [spentAll]

theorem spent_perm {a : Nat} {xs ys : List Blk} (h : xs.Perm ys) : spent a xs = spent a ys := by
  unfold spent
  exact ((h.filter _).map _).sum_eq

theorem spentAll_perm {xs ys : List Blk} (h : xs.Perm ys) : spentAll xs = spentAll ys := by
  unfold spentAll
  exact (h.map _).sum_eq

theorem info_count (b : Blk) : b.info.1 = 1 := rfl

theorem spent_count_nonneg (a : Nat) : ∀ bs : List Blk, 0 ≤ (spent a bs).1
  | [] => by simp [spent_nil]
  | b :: bs => by
    rw [spent_cons]
    have := spent_count_nonneg a bs
    by_cases h : b.addr = a
    · simp only [h, if_pos, Prod.fst_add, info_count]; omega
    · simp only [h, if_neg, not_false_iff, Prod.fst_add, Prod.fst_zero]; omega

theorem spent_zero {a : Nat} : ∀ {bs : List Blk}, (spent a bs).1 = 0 → ∀ b ∈ bs, b.addr ≠ a
  | [], _ => by simp
  | c :: bs, h => by
    rw [spent_cons] at h
    have hn := spent_count_nonneg a bs
    by_cases hc : c.addr = a
    · simp only [hc, if_pos, Prod.fst_add, info_count] at h; omega
    · simp only [hc, if_neg, not_false_iff, Prod.fst_add, Prod.fst_zero, zero_add] at h
      intro b hb
      rcases List.mem_cons.mp hb with rfl | hb
      · exact hc
      · exact spent_zero h b hb

theorem spent_zero' {a : Nat} {bs : List Blk} (h : (spent a bs).1 = 0) : spent a bs = 0 := by
  have := spent_zero h
  have he : bs.filter (fun b => decide (b.addr = a)) = [] := by
    rw [List.filter_eq_nil_iff]
    intro b hb
    simp [this b hb]
  simp [spent, he]

theorem spent_mem {a : Nat} {bs : List Blk} {b : Blk} (hb : b ∈ bs) (h : b.addr = a) : 1 ≤ (spent a bs).1 := by
  have h0 := spent_count_nonneg a bs
  rcases Nat.lt_or_ge 0 (spent a bs).1.toNat with h1 | h1
  · omega
  · have : (spent a bs).1 = 0 := by omega
    exact absurd h (spent_zero this b hb)

theorem spentAll_split (a : Nat) : ∀ bs : List Blk,
    spentAll bs = spent a bs + spentAll (bs.filter (fun b => decide (b.addr ≠ a)))
  | [] => by simp [spentAll, spent_nil]
  | b :: bs => by
    have ih := spentAll_split a bs
    have e1 : spentAll (b :: bs) = b.info + spentAll bs := by simp [spentAll]
    rw [e1, spent_cons, ih]
    by_cases h : b.addr = a
    · simp [h, add_assoc]
    · have e2 : spentAll (b :: bs.filter (fun b => decide (b.addr ≠ a))) = b.info + spentAll (bs.filter (fun b => decide (b.addr ≠ a))) := by
        simp [spentAll]
      have e3 : (b :: bs).filter (fun b => decide (b.addr ≠ a)) = b :: bs.filter (fun b => decide (b.addr ≠ a)) := by
        simp [h]
      rw [e3, e2, if_neg h]
      abel

theorem spent_filter_ne {a c : Nat} (h : c ≠ a) (bs : List Blk) :
    spent c (bs.filter (fun b => decide (b.addr ≠ a))) = spent c bs := by
  unfold spent
  rw [List.filter_filter]
  congr 2
  apply List.filter_congr
  intro b _
  by_cases hc : b.addr = c
  · simp [hc, h]
  · simp [hc]

/-! ### Maps that stand for blocks -/

/-- A part of the counters in which the number of blocks is kept. -/
structure Part where
  hom : Info →+ Info
  count : ∀ x, (hom x).1 = x.1

/-- All of it. -/
def whole : Part := ⟨AddMonoidHom.id Info, fun _ => rfl⟩

/-- Number of blocks and used quota. -/
def sure : Part where
  hom := { toFun := fun x => (x.1, 0, x.2.2), map_zero' := rfl, map_add' := fun x y => by simp }
  count := fun _ => rfl

/-- The map holds the sums over the blocks. -/
def Rep (p : Part) (m : QMap) (bs : List Blk) : Prop :=
  Table.Proper m ∧ ∀ a, match Table.get a m with
    | none => (spent a bs).1 = 0
    | some q => p.hom q = p.hom (spent a bs) ∧ 1 ≤ q.1

theorem Rep.part {m : QMap} {bs : List Blk} (h : Rep whole m bs) (p : Part) : Rep p m bs := by
  refine ⟨h.1, fun a => ?_⟩
  have := h.2 a
  cases hg : Table.get a m with
  | none => rw [hg] at this; exact this
  | some q =>
    rw [hg] at this
    have e : q = spent a bs := this.1
    exact ⟨by rw [e], this.2⟩

theorem Rep.perm {p : Part} {m : QMap} {xs ys : List Blk} (h : Rep p m xs) (hp : xs.Perm ys) : Rep p m ys := by
  refine ⟨h.1, fun a => ?_⟩
  have := h.2 a
  rw [spent_perm hp] at this
  exact this

theorem Rep.getD {p : Part} {m : QMap} {bs : List Blk} (h : Rep p m bs) (a : Nat) :
    p.hom ((Table.get a m).getD 0) = p.hom (spent a bs) := by
  have := h.2 a
  cases hg : Table.get a m with
  | none => rw [hg] at this; simp [spent_zero' this]
  | some q => rw [hg] at this; exact this.1

theorem Rep.count {p : Part} {m : QMap} {bs : List Blk} (h : Rep p m bs) (a : Nat) :
    ((Table.get a m).getD 0).1 = (spent a bs).1 := by
  have := congrArg Prod.fst (h.getD a)
  rwa [p.count, p.count] at this

theorem rep_nil (p : Part) : Rep p [] [] := ⟨by simp [Table.Proper], fun a => by simp [Table.get, spent_nil]⟩

theorem rep_add {p : Part} {m : QMap} {bs : List Blk} (h : Rep p m bs) (b : Blk) : Rep p (addTo m b) (bs ++ [b]) := by
  refine ⟨Table.proper_put _ _ h.1, fun a => ?_⟩
  unfold addTo
  rw [Table.get_put, spent_append, spent_cons, spent_nil, add_zero]
  by_cases ha : a = b.addr
  · subst ha
    rw [if_pos rfl, if_pos rfl]
    refine ⟨by rw [map_add, map_add, h.getD], ?_⟩
    rw [Prod.fst_add, h.count, info_count]
    have := spent_count_nonneg b.addr bs
    omega
  · rw [if_neg ha, if_neg (Ne.symm ha), add_zero]
    exact h.2 a

theorem rep_adds {p : Part} : ∀ (l : List Blk) {m : QMap} {bs : List Blk}, Rep p m bs → Rep p (l.foldl addTo m) (bs ++ l)
  | [], m, bs, h => by simpa using h
  | b :: l, m, bs, h => by
    have := rep_adds l (rep_add h b)
    rw [List.append_assoc] at this
    exact this

theorem rep_mapOf (p : Part) (bs : List Blk) : Rep p (mapOf bs) bs := by
  have := rep_adds bs (rep_nil p)
  rw [List.nil_append] at this
  exact this

theorem rep_sub {p : Part} {m : QMap} {bs bs' : List Blk} {b : Blk} (h : Rep p m bs) (hp : bs.Perm (b :: bs')) :
    Rep p (subFrom m b) bs' ∧ (Table.get b.addr m).isNone = false := by
  have h := h.perm hp
  have hb := h.2 b.addr
  rw [spent_cons, if_pos rfl] at hb
  have hn := spent_count_nonneg b.addr bs'
  cases hg : Table.get b.addr m with
  | none =>
    rw [hg] at hb
    simp only [Prod.fst_add, info_count] at hb
    omega
  | some q =>
    rw [hg] at hb
    refine ⟨?_, rfl⟩
    have hq : q.1 = 1 + (spent b.addr bs').1 := by
      have := congrArg Prod.fst hb.1
      rw [p.count, p.count] at this
      simpa [info_count] using this
    unfold subFrom
    rw [hg]
    simp only
    split
    · rename_i hle
      refine ⟨Table.proper_del _ h.1, fun a => ?_⟩
      by_cases ha : a = b.addr
      · subst ha
        rw [Table.get_del_self _ h.1]
        show (spent b.addr bs').1 = 0
        omega
      · rw [Table.get_del_ne ha]
        have := h.2 a
        rw [spent_cons, if_neg (Ne.symm ha), zero_add] at this
        exact this
    · rename_i hle
      refine ⟨Table.proper_put _ _ h.1, fun a => ?_⟩
      rw [Table.get_put]
      by_cases ha : a = b.addr
      · subst ha
        rw [if_pos rfl]
        refine ⟨?_, ?_⟩
        · rw [map_sub, hb.1, map_add]; abel
        · rw [Prod.fst_sub, info_count]; omega
      · rw [if_neg ha]
        have := h.2 a
        rw [spent_cons, if_neg (Ne.symm ha), zero_add] at this
        exact this

theorem rep_subs {p : Part} : ∀ (l : List Blk) {m : QMap} {bs bs' : List Blk}, Rep p m bs → bs.Perm (l ++ bs') →
    Rep p (l.foldl subFrom m) bs' ∧ confirm m l = some (l.foldl subFrom m)
  | [], m, bs, bs', h, hp => ⟨h.perm hp, rfl⟩
  | b :: l, m, bs, bs', h, hp => by
    obtain ⟨h1, h2⟩ := rep_sub h hp
    obtain ⟨h3, h4⟩ := rep_subs l h1 (List.Perm.refl _)
    refine ⟨h3, ?_⟩
    show (if (Table.get b.addr m).isNone then none else confirm (subFrom m b) l) = _
    rw [h2]
    exact h4

theorem picked_perm (hs : List Nat) (bs : List Blk) : bs.Perm (picked hs bs ++ others hs bs) := by
  have := List.filter_append_perm (fun b : Blk => decide (b.hash ∈ hs)) bs
  refine this.symm.trans ?_
  unfold picked others
  have e : (fun b : Blk => decide (b.hash ∉ hs)) = fun b => !decide (b.hash ∈ hs) := by
    funext b; by_cases h : b.hash ∈ hs <;> simp [h]
  rw [e]

theorem agg_rep {p : Part} : ∀ {m : QMap} {bs : List Blk}, Rep p m bs → p.hom (agg m) = p.hom (spentAll bs)
  | [], bs, h => by
    have hb : bs = [] := by
      cases bs with
      | nil => rfl
      | cons b bs =>
        have := h.2 b.addr
        simp only [Table.get] at this
        exact absurd rfl (spent_zero this b (List.mem_cons_self ..))
    subst hb
    rfl
  | (a, q) :: m, bs, h => by
    have hpr := h.1
    unfold Table.Proper at hpr
    rw [List.map_cons, List.nodup_cons] at hpr
    have ha := h.2 a
    simp only [Table.get, if_true] at ha
    have hm : Rep p m (bs.filter (fun b => decide (b.addr ≠ a))) := by
      refine ⟨hpr.2, fun c => ?_⟩
      by_cases hc : c = a
      · subst hc
        rw [Table.get_none hpr.1]
        show (spent c _).1 = 0
        have : (bs.filter (fun b => decide (b.addr ≠ c))).filter (fun b => decide (b.addr = c)) = [] := by
          rw [List.filter_eq_nil_iff]
          intro b hb
          have := (List.mem_filter.mp hb).2
          simpa using this
        simp [spent, this]
      · rw [spent_filter_ne hc]
        have := h.2 c
        simp only [Table.get, if_neg (Ne.symm hc)] at this
        exact this
    have ih := agg_rep hm
    have e : agg ((a, q) :: m) = q + agg m := by simp [agg]
    rw [e, map_add, ih, spentAll_split a bs, map_add, ha.1]

theorem rep_empty {p : Part} {m : QMap} {bs : List Blk} (h : Rep p m bs) : m = [] ↔ bs = [] := by
  constructor
  · intro hm
    subst hm
    cases bs with
    | nil => rfl
    | cons b bs =>
      have := h.2 b.addr
      simp only [Table.get] at this
      exact absurd rfl (spent_zero this b (List.mem_cons_self ..))
  · intro hb
    subst hb
    cases m with
    | nil => rfl
    | cons x m =>
      have := h.2 x.1
      simp only [Table.get, if_true] at this
      have h1 := congrArg Prod.fst this.1
      rw [p.count, p.count, spent_nil] at h1
      have h2 := this.2
      simp at h1
      omega

/-! ### The list -/

theorem back_append (xs : List QMap) (m : QMap) (s : Ptr) (g : Info) : QL.back ⟨xs ++ [m], s, g⟩ = m := by
  simp [QL.back]

theorem lastN_length {α} (n : Nat) (l : List α) : (lastN n l).length = min n l.length := by
  unfold lastN; rw [List.length_drop]; omega

theorem lastN_append {α} (n : Nat) (l r : List α) (h : r.length ≤ n) : lastN n (l ++ r) = lastN (n - r.length) l ++ r := by
  unfold lastN
  rw [List.drop_append, List.length_append]
  have e : l.length + r.length - n = l.length - (n - r.length) := by omega
  rw [e]
  have e2 : l.length - (n - r.length) - l.length = 0 := by omega
  rw [e2, List.drop_zero]

theorem lastN_all {α} {n : Nat} {l : List α} (h : l.length ≤ n) : lastN n l = l := by
  unfold lastN
  rw [show l.length - n = 0 by omega, List.drop_zero]

theorem lastN_lastN {α} (m n : Nat) (l : List α) : lastN m (lastN n l) = lastN (min m n) l := by
  unfold lastN
  rw [List.drop_drop, List.length_drop]
  congr 1
  omega

/-- `moveNext` when the window begins 75 from the end. -/
theorem moveNext_spec (q : QL) (m : QMap) (h1 : 1 ≤ q.items.length) (h600 : q.items.length ≤ 600)
    (hs : q.start = .at (q.items.length - 75)) :
    (q.moveNext m).items = lastN 600 (q.items ++ [m]) ∧
    (q.moveNext m).start = .at ((lastN 600 (q.items ++ [m])).length - 75) ∧
    (q.moveNext m).global + ((lastN 75 q.items).map agg).sum + agg m = q.global + ((lastN 75 (q.items ++ [m])).map agg).sum := by
  have hl : (q.items ++ [m]).length = q.items.length + 1 := by simp
  have hne : q.start ≠ Ptr.nil := by rw [hs]; exact fun h => nomatch h
  unfold QL.moveNext
  simp only [if_neg hne, hl]
  by_cases h75 : q.items.length + 1 ≤ windowLen
  · rw [if_pos h75]
    have h75' : q.items.length + 1 ≤ 75 := h75
    refine ⟨(lastN_all (by rw [hl]; omega)).symm, ?_, ?_⟩
    · show q.start = _
      rw [hs, lastN_all (by rw [hl]; omega), hl]
      congr 1; omega
    · show q.global + _ + _ = _
      rw [lastN_all (by omega), lastN_all (by omega)]
      simp [add_assoc]
  · rw [if_neg h75]
    have h75' : 75 < q.items.length + 1 := by
      have : ¬ q.items.length + 1 ≤ 75 := h75
      omega
    have hseen : QL.startMap ⟨q.items ++ [m], q.start, q.global⟩ = (q.items ++ [m])[q.items.length - 75]'(by rw [hl]; omega) := by
      unfold QL.startMap QL.seen
      rw [hs]
      simp only
      rw [List.drop_eq_getElem_cons (by rw [hl]; omega)]
      rfl
    have hw : ((lastN 75 q.items).map agg).sum + agg m
        = agg ((q.items ++ [m])[q.items.length - 75]'(by rw [hl]; omega)) + ((lastN 75 (q.items ++ [m])).map agg).sum := by
      have e1 : lastN 75 q.items ++ [m] = (q.items ++ [m]).drop (q.items.length - 75) := by
        unfold lastN
        rw [List.drop_append]
        rw [show q.items.length - 75 - q.items.length = 0 by omega, List.drop_zero]
      have e2 : lastN 75 (q.items ++ [m]) = (q.items ++ [m]).drop (q.items.length - 75 + 1) := by
        unfold lastN
        rw [hl]
        congr 1; omega
      have e3 : ((lastN 75 q.items).map agg).sum + agg m = ((lastN 75 q.items ++ [m]).map agg).sum := by simp
      rw [e3, e1, e2, List.drop_eq_getElem_cons (by rw [hl]; omega), List.map_cons, List.sum_cons]
    have hadv : (QL.advance ⟨q.items ++ [m], q.start, q.global - agg (QL.startMap ⟨q.items ++ [m], q.start, q.global⟩)⟩)
        = ⟨q.items ++ [m], .at (q.items.length - 75 + 1), q.global - agg (QL.startMap ⟨q.items ++ [m], q.start, q.global⟩)⟩ := by
      unfold QL.advance
      rw [hs]
      simp only [hl]
      rw [if_pos (by omega)]
    rw [hadv]
    have hg : q.global - agg (QL.startMap ⟨q.items ++ [m], q.start, q.global⟩) + ((lastN 75 q.items).map agg).sum + agg m
        = q.global + ((lastN 75 (q.items ++ [m])).map agg).sum := by
      rw [hseen, add_assoc, hw]
      abel
    by_cases hmax : listMax < (q.items ++ [m]).length
    · rw [if_pos hmax]
      have hmax' : 600 < q.items.length + 1 := by rw [← hl]; exact hmax
      have e600 : lastN 600 (q.items ++ [m]) = (q.items ++ [m]).tail := by
        unfold lastN
        rw [hl, show q.items.length + 1 - 600 = 1 by omega, List.drop_one]
      refine ⟨by rw [e600]; rfl, ?_, by rw [← hg]; rfl⟩
      show (match Ptr.at (q.items.length - 75 + 1) with
        | .at 0 => Ptr.gone ((q.items ++ [m]).headD [])
        | .at (i + 1) => .at i
        | p => p) = _
      rw [lastN_length, hl]
      exact congrArg Ptr.at (by omega)
    · rw [if_neg hmax]
      have hmax' : ¬ 600 < q.items.length + 1 := by rw [← hl]; exact hmax
      have e600 : lastN 600 (q.items ++ [m]) = q.items ++ [m] := lastN_all (by rw [hl]; omega)
      refine ⟨by rw [e600], ?_, by rw [← hg]⟩
      rw [e600, hl]
      exact congrArg Ptr.at (by omega)

/-- What the cache is like when all is well: `d` snapshots and the unconfirmed blocks, the window at its place. -/
structure QInv (p : Part) (snaps : List (List Blk)) (unconfirmed : List Blk) (d : Nat) (q : QL) : Prop where
  depth : d + 1 ≤ snaps.length
  max : d ≤ 599
  enough : d + 1 = snaps.length ∨ 74 ≤ d
  items : ∃ m, q.items = (lastN d snaps).map mapOf ++ [m] ∧ Rep p m unconfirmed
  start : q.start = .at (d + 1 - 75)
  global : sure.hom q.global = sure.hom ((lastN 75 q.items).map agg).sum

theorem QInv.len {p snaps u d q} (h : QInv p snaps u d q) : q.items.length = d + 1 := by
  obtain ⟨m, hm, _⟩ := h.items
  have := h.depth
  rw [hm, List.length_append, List.length_map, lastN_length]
  simp; omega

/-- The last map is replaced. -/
theorem window_replace (xs : List QMap) (m m' : QMap) :
    ((lastN 75 (xs ++ [m'])).map agg).sum = ((lastN 75 (xs ++ [m])).map agg).sum - agg m + agg m' := by
  rw [lastN_append _ _ _ (by simp), lastN_append _ _ _ (by simp)]
  simp

theorem agg_add {p : Part} {m : QMap} {bs : List Blk} (h : Rep p m bs) (b : Blk) :
    p.hom (agg (addTo m b)) = p.hom (agg m + b.info) := by
  rw [agg_rep (rep_add h b), map_add, agg_rep h, ← map_add, spentAll_append]
  simp [spentAll]

theorem agg_sub {p : Part} {m : QMap} {bs bs' : List Blk} {b : Blk} (h : Rep p m bs) (hp : bs.Perm (b :: bs')) :
    p.hom (agg (subFrom m b)) = p.hom (agg m - b.info) := by
  rw [agg_rep (rep_sub h hp).1, map_sub, agg_rep h, spentAll_perm hp, ← map_sub]
  simp [spentAll]

theorem QInv.part {snaps u d q} (h : QInv whole snaps u d q) : QInv sure snaps u d q := by
  obtain ⟨m, hm, hr⟩ := h.items
  exact ⟨h.depth, h.max, h.enough, ⟨m, hm, hr.part sure⟩, h.start, h.global⟩

theorem sure_of_whole {m m' : QMap} {x : Info} {p : Part} (hp : p = whole ∨ p = sure)
    (h : p.hom (agg m') = p.hom (agg m + x)) : sure.hom (agg m') = sure.hom (agg m + x) := by
  rcases hp with rfl | rfl
  · have : agg m' = agg m + x := h
    rw [this]
  · exact h

theorem QInv.add {p snaps u d q} (hp : p = whole ∨ p = sure) (h : QInv p snaps u d q) (b : Blk) : QInv p snaps (u ++ [b]) d (q.add b) := by
  obtain ⟨m, hm, hr⟩ := h.items
  have hb : q.back = m := by unfold QL.back; rw [hm]; simp
  have hd : q.items.dropLast = (lastN d snaps).map mapOf := by rw [hm]; simp
  refine ⟨h.depth, h.max, h.enough, ⟨addTo m b, ?_, rep_add hr b⟩, h.start, ?_⟩
  · show q.items.dropLast ++ [addTo q.back b] = _
    rw [hb, hd]
  · show sure.hom (q.global + b.info) = sure.hom ((lastN 75 (q.items.dropLast ++ [addTo q.back b])).map agg).sum
    have hg := h.global
    rw [hm] at hg
    rw [hb, hd, window_replace _ m, map_add, hg, map_add, map_sub]
    rw [sure_of_whole hp (agg_add hr b), map_add]
    abel

theorem QInv.sub {p snaps u u' d q} {b : Blk} (hp : p = whole ∨ p = sure) (h : QInv p snaps u d q) (hu : u.Perm (b :: u')) :
    QInv p snaps u' d (q.sub b) := by
  obtain ⟨m, hm, hr⟩ := h.items
  have hb : q.back = m := by unfold QL.back; rw [hm]; simp
  have hd : q.items.dropLast = (lastN d snaps).map mapOf := by rw [hm]; simp
  refine ⟨h.depth, h.max, h.enough, ⟨subFrom m b, ?_, (rep_sub hr hu).1⟩, h.start, ?_⟩
  · show q.items.dropLast ++ [subFrom q.back b] = _
    rw [hb, hd]
  · show sure.hom (q.global - b.info) = sure.hom ((lastN 75 (q.items.dropLast ++ [subFrom q.back b])).map agg).sum
    have hg := h.global
    rw [hm] at hg
    rw [hb, hd, window_replace _ m, map_sub, hg, map_add, map_sub]
    have e := agg_sub hr hu
    rw [sub_eq_add_neg] at e
    rw [sure_of_whole hp e, map_add, map_neg]
    abel

theorem QInv.adds {p snaps d} (hp : p = whole ∨ p = sure) : ∀ (l : List Blk) {u q}, QInv p snaps u d q → QInv p snaps (u ++ l) d (l.foldl QL.add q)
  | [], u, q, h => by simpa using h
  | b :: l, u, q, h => by
    have := QInv.adds hp l (h.add hp b)
    rw [List.append_assoc] at this
    exact this

theorem QInv.perm {p snaps u u' d q} (h : QInv p snaps u d q) (hu : u.Perm u') : QInv p snaps u' d q := by
  obtain ⟨m, hm, hr⟩ := h.items
  exact ⟨h.depth, h.max, h.enough, ⟨m, hm, hr.perm hu⟩, h.start, h.global⟩

theorem QInv.subs {p snaps d} (hp : p = whole ∨ p = sure) : ∀ (l : List Blk) {u u' q}, QInv p snaps u d q → u.Perm (l ++ u') →
    QInv p snaps u' d (l.foldl QL.sub q)
  | [], u, u', q, h, hu => h.perm hu
  | b :: l, u, u', q, h, hu => QInv.subs hp l (h.sub hp hu) (List.Perm.refl _)

/-- A new snapshot. -/
theorem QInv.newNext {snaps u u' d q} (h : QInv whole snaps u d q) {bs : List Blk} (hu : u.Perm (bs ++ u')) :
    ∃ q', q.newNext bs = some q' ∧ QInv whole (snaps ++ [bs]) u' (min (d + 1) 599) q' := by
  obtain ⟨m, hm, hr⟩ := h.items
  have hb : q.back = m := by unfold QL.back; rw [hm]; simp
  have hd : q.items.dropLast = (lastN d snaps).map mapOf := by rw [hm]; simp
  obtain ⟨hr', hc⟩ := rep_subs bs hr hu
  have hlen := h.len
  have hdep := h.depth
  have hmax := h.max
  have hen := h.enough
  refine ⟨_, by unfold QL.newNext; rw [hb, hc]; rfl, ?_⟩
  rw [hd]
  generalize hq : ({ q with items := (lastN d snaps).map mapOf ++ [mapOf bs] } : QL) = q0
  have hq0 : q0.items = (lastN d snaps).map mapOf ++ [mapOf bs] := by rw [← hq]
  have hq0s : q0.start = q.start := by rw [← hq]
  have hq0g : q0.global = q.global := by rw [← hq]
  have hl0 : q0.items.length = d + 1 := by
    rw [hq0, List.length_append, List.length_map, lastN_length]; simp; omega
  obtain ⟨s1, s2, s3⟩ := moveNext_spec q0 (bs.foldl subFrom m) (by omega) (by omega) (by rw [hq0s, h.start, hl0])
  have hsn : (lastN d snaps).map mapOf ++ [mapOf bs] = (lastN (d + 1) (snaps ++ [bs])).map mapOf := by
    rw [lastN_append _ _ _ (by simp)]; simp
  have hit : (q0.moveNext (bs.foldl subFrom m)).items = (lastN (min (d + 1) 599) (snaps ++ [bs])).map mapOf ++ [bs.foldl subFrom m] := by
    rw [s1, hq0, hsn, lastN_append _ _ _ (by simp)]
    refine congrArg (· ++ [bs.foldl subFrom m]) ?_
    have e : ∀ (n : Nat) (l : List (List Blk)), lastN n (l.map mapOf) = (lastN n l).map mapOf := by
      intro n l; unfold lastN; rw [List.length_map, List.map_drop]
    rw [e, lastN_lastN]
    rw [show min (600 - [bs.foldl subFrom m].length) (d + 1) = min (d + 1) 599 by simp only [List.length_singleton]; omega]
  have hl1 : (q0.moveNext (bs.foldl subFrom m)).items.length = min (d + 1) 599 + 1 := by
    rw [hit, List.length_append, List.length_map, lastN_length, List.length_append]; simp; omega
  refine ⟨by rw [List.length_append]; simp; omega, by omega, ?_, ⟨_, hit, hr'⟩, ?_, ?_⟩
  · rw [List.length_append]; simp; omega
  · rw [s2, ← s1, hl1]
  · have hg := h.global
    have hw : lastN 75 (q0.moveNext (bs.foldl subFrom m)).items = lastN 75 (q0.items ++ [bs.foldl subFrom m]) := by
      rw [s1, lastN_lastN, show min 75 600 = 75 by omega]
    rw [hw]
    have hmm : sure.hom (agg m) = sure.hom (agg (mapOf bs)) + sure.hom (agg (bs.foldl subFrom m)) := by
      rw [agg_rep (hr.part sure), agg_rep (rep_mapOf sure bs), agg_rep (hr'.part sure), spentAll_perm hu, spentAll_append, map_add]
    have s3' := congrArg sure.hom s3
    simp only [map_add] at s3'
    rw [hq0g, hg, hm] at s3'
    rw [hq0, window_replace _ m, map_add, map_sub, hmm] at s3'
    rw [hq0]
    have : ∀ a b c e f : Info, a + (b - (c + e) + c) + e = b + f → a = f := by
      intro a b c e f hh
      have : a + (b - (c + e) + c) + e = b + a := by abel
      rw [this] at hh
      exact add_left_cancel hh
    exact this _ _ _ _ _ s3'

theorem QInv.reset {snaps u d q} (h : QInv sure snaps u d q) (hd1 : 1 ≤ d) (u' : List Blk) : QInv whole snaps u' d (q.reset u') := by
  obtain ⟨m, hm, hr⟩ := h.items
  have hb : q.back = m := by unfold QL.back; rw [hm]; simp
  have hd : q.items.dropLast = (lastN d snaps).map mapOf := by rw [hm]; simp
  have hlen := h.len
  refine ⟨h.depth, h.max, h.enough, ⟨mapOf u', ?_, rep_mapOf whole u'⟩, ?_, ?_⟩
  · show q.items.dropLast ++ _ = _
    rw [hd]
  · show (match q.start with
      | .at i => if i + 1 = q.items.length then Ptr.gone _ else .at i
      | p => p) = _
    rw [h.start]
    simp only
    rw [if_neg (by omega)]
  · show sure.hom (q.global - agg q.back + agg (mapOf u')) = sure.hom ((lastN 75 (q.items.dropLast ++ [mapOf u'])).map agg).sum
    have hg := h.global
    rw [hm] at hg
    rw [hb, hd, window_replace _ m, map_add, map_sub, hg, map_add, map_sub]

/-- The window after `finish`. -/
theorem finish_spec (q : QL) (h : q.items ≠ []) :
    q.finish.items = q.items ∧ q.finish.start = .at (q.items.length - 75) ∧ q.finish.global = ((lastN 75 q.items).map agg).sum := by
  unfold QL.finish
  rw [if_neg h]
  exact ⟨rfl, rfl, rfl⟩

/-- `moveNext` with an empty map after `finish`. -/
theorem finish_moveNext (q : QL) (snaps : List (List Blk)) (d : Nat) (hd : 1 ≤ d) (hdep : d + 1 ≤ snaps.length) (hmax : d ≤ 599)
    (hen : d + 1 = snaps.length ∨ 74 ≤ d) (hq : q.items = (lastN d snaps).map mapOf) : QInv whole snaps [] d (q.finish.moveNext []) := by
  have hl : q.items.length = d := by rw [hq, List.length_map, lastN_length]; omega
  have hne : q.items ≠ [] := by intro h; rw [h] at hl; simp at hl; omega
  obtain ⟨f1, f2, f3⟩ := finish_spec q hne
  obtain ⟨s1, s2, s3⟩ := moveNext_spec q.finish [] (by rw [f1]; omega) (by rw [f1]; omega) (by rw [f1, f2])
  rw [f1] at s1 s2 s3
  have hit : (q.finish.moveNext []).items = q.items ++ [[]] := by
    rw [s1]; exact lastN_all (by simp; omega)
  have hl1 : (q.finish.moveNext []).items.length = d + 1 := by rw [hit]; simp [hl]
  refine ⟨hdep, hmax, hen, ⟨[], by rw [hit, hq], rep_nil _⟩, by rw [s2, ← s1, hl1], ?_⟩
  rw [f3] at s3
  have e : agg [] = 0 := rfl
  rw [e, add_zero] at s3
  rw [hit]
  congr 1
  have : ∀ a b c : Info, a + b = b + c → a = c := fun a b c hh => by
    rw [add_comm b c] at hh; exact add_right_cancel hh
  exact this _ _ _ s3

theorem init_inv (snaps : List (List Blk)) (h : 1 ≤ snaps.length) : QInv whole snaps [] (min 599 (snaps.length - 1)) (QL.init snaps) := by
  by_cases h2 : 2 ≤ snaps.length
  · unfold QL.init QL.build
    simp only [List.length_nil, windowLen]
    rw [if_neg (by omega), if_pos trivial]
    refine finish_moveNext _ snaps _ (by omega) (by omega) (by omega) (by omega) ?_
    show (snaps.drop (if listMax - 0 < snaps.length + 1 - 0 then snaps.length + 1 - 0 - (listMax - 0) else 1)).map mapOf = _
    unfold lastN
    congr 2
    unfold listMax
    split <;> omega
  · have h1 : snaps.length = 1 := by omega
    obtain ⟨b, rfl⟩ := List.length_eq_one_iff.mp h1
    have e : QL.init [b] = ⟨[[]], .at 0, 0⟩ := by
      unfold QL.init QL.build QL.finish QL.moveNext windowLen listMax
      simp
    rw [e]
    exact ⟨by simp, by simp, by simp, ⟨[], by simp [lastN], rep_nil _⟩, by simp, by simp [lastN, agg]⟩

theorem removeBacks_items : ∀ (n : Nat) (q : QL), (QL.removeBacks n q).items = q.items.take (q.items.length - n)
  | 0, q => by simp [QL.removeBacks]
  | n + 1, q => by
    unfold QL.removeBacks
    split
    · rename_i h; simp [h]
    · rw [removeBacks_items n]
      show List.take (q.items.dropLast.length - n) q.items.dropLast = _
      rw [List.dropLast_eq_take, List.take_take, List.length_take]
      congr 1
      omega

/-- When a rollback of `k` snapshots leaves the cache right: it still holds 75 snapshots, or it is emptied (and built anew) and
the chain does not go back to its genesis. `d` snapshots are cached. -/
def Fits (d k height : Nat) : Prop := d + 1 ≤ height ∧ (75 + k ≤ d ∨ (d ≤ k ∧ k + 2 ≤ height))

/-- How many snapshots are cached afterwards. -/
def depthAfter (d k height : Nat) : Nat := if d ≤ k then min 599 (height - k - 1) else d - k

theorem rollback_items {snaps u d q} (h : QInv whole snaps u d q) (k : Nat) :
    (QL.removeBacks (if u = [] then k else k + 1) (if q.back = [] then q.removeBack else q)).items
      = (lastN (d - k) (snaps.take (snaps.length - k))).map mapOf := by
  obtain ⟨m, hm, hr⟩ := h.items
  have hb : q.back = m := by unfold QL.back; rw [hm]; simp
  have hdep := h.depth
  have key : ∀ n, ((lastN d snaps).map mapOf).take (d - n) = (lastN (d - n) (snaps.take (snaps.length - n))).map mapOf := by
    intro n
    rw [← List.map_take]
    congr 1
    unfold lastN
    rw [List.take_drop, List.length_take]
    by_cases hn : n ≤ d
    · rw [show snaps.length - d + (d - n) = snaps.length - n by omega]
      congr 1
      omega
    · rw [show d - n = 0 by omega]
      rw [List.drop_eq_nil_of_le (by rw [List.length_take]; omega), List.drop_eq_nil_of_le (by rw [List.length_take]; omega)]
  have hld : ((lastN d snaps).map mapOf).length = d := by rw [List.length_map, lastN_length]; omega
  rw [removeBacks_items, hb]
  by_cases hu : u = []
  · have hm0 : m = [] := (rep_empty hr).mpr hu
    rw [if_pos hu, if_pos hm0]
    have e : q.removeBack.items = (lastN d snaps).map mapOf := by
      show q.items.dropLast = _
      rw [hm]; simp
    rw [e, hld, key]
  · have hm0 : m ≠ [] := fun h => hu ((rep_empty hr).mp h)
    rw [if_neg hu, if_neg hm0, hm, List.length_append, hld, List.length_singleton, show d + 1 - (k + 1) = d - k by omega,
      List.take_append_of_le_length (by rw [hld]; omega), key]

theorem QInv.rollback {snaps u d q} (h : QInv whole snaps u d q) (k : Nat) (hk : 1 ≤ k) (hf : Fits d k snaps.length) :
    QInv whole (snaps.take (snaps.length - k)) [] (depthAfter d k snaps.length)
      (q.rollback (if u = [] then k else k + 1) (snaps.take (snaps.length - k))) := by
  have hdep := h.depth
  have hmax := h.max
  have hlen := h.len
  have hne : q.items ≠ [] := by intro hh; rw [hh] at hlen; simp at hlen
  unfold QL.rollback
  rw [if_neg hne]
  simp only
  have hit := rollback_items h k
  generalize QL.removeBacks (if u = [] then k else k + 1) (if q.back = [] then q.removeBack else q) = q1 at hit ⊢
  generalize hS : snaps.take (snaps.length - k) = S at hit ⊢
  have hSl : S.length = snaps.length - k := by rw [← hS, List.length_take]; omega
  rcases hf.2 with h75 | ⟨hle, h2⟩
  · have hq1 : q1.items.length = d - k := by rw [hit, List.length_map, lastN_length, hSl]; omega
    have e : q1.build S = q1.finish := by
      unfold QL.build
      simp only
      rw [if_pos (Or.inl (show windowLen ≤ q1.items.length by rw [hq1]; unfold windowLen; omega))]
    rw [e]
    have hda : depthAfter d k snaps.length = d - k := by unfold depthAfter; rw [if_neg (by omega)]
    rw [hda]
    exact finish_moveNext q1 S (d - k) (by omega) (by omega) (by omega) (by omega) hit
  · have hq1 : q1.items = [] := by
      rw [hit, show d - k = 0 by omega]
      simp [lastN]
    have hda : depthAfter d k snaps.length = min 599 (S.length - 1) := by unfold depthAfter; rw [if_pos hle, hSl]
    rw [hda]
    unfold QL.build
    simp only [hq1, List.length_nil, windowLen]
    rw [if_neg (by omega), if_pos trivial]
    refine finish_moveNext _ S _ (by omega) (by omega) (by omega) (by omega) ?_
    show (S.drop (if listMax - 0 < S.length + 1 - 0 then S.length + 1 - 0 - (listMax - 0) else 1)).map mapOf = _
    unfold lastN
    congr 2
    unfold listMax
    split <;> omega

end Verif.Chain
