import Verif.RCache.RCacheSpec
import Verif.Iter.StorageLemmas
import Verif.Block.BlockLemmas

/-! # Lemmas for the round cache -/

namespace Verif.RCache

open Verif.Bytes Verif.Iter
open Verif.Block (bigBytes num_bigBytes)

/-! ## Writing entries one after the other -/

abbrev SortedMem (m : Mem) : Prop := m.Pairwise (fun a b => lt a.1 b.1 = true)

/-- The last value a list of writes gives to a key. -/
def lastVal (l : List Entry) (k : Bytes) : Option Bytes := (l.filter (fun e => decide (e.1 = k))).getLast?.map (·.2)

def puts (l : List Entry) (m : Mem) : Mem := l.foldl (fun m e => put e.1 e.2 m) m

theorem puts_append (l l' : List Entry) (m : Mem) : puts (l ++ l') m = puts l' (puts l m) := by simp [puts]

theorem puts_sorted {l : List Entry} {m : Mem} (h : SortedMem m) : SortedMem (puts l m) := by
  induction l generalizing m with
  | nil => exact h
  | cons e l ih => exact ih (put_sorted h)

theorem lastVal_nil (k : Bytes) : lastVal [] k = none := rfl

theorem lastVal_append (l l' : List Entry) (k : Bytes) : lastVal (l ++ l') k = (lastVal l' k).or (lastVal l k) := by
  unfold lastVal
  rw [List.filter_append, List.getLast?_append]
  cases (l'.filter (fun e => decide (e.1 = k))).getLast? <;> simp

theorem lookup_puts {l : List Entry} {m : Mem} (h : SortedMem m) (k : Bytes) : lookup (puts l m) k = (lastVal l k).or (lookup m k) := by
  induction l generalizing m with
  | nil => rfl
  | cons e l ih =>
    have : puts (e :: l) m = puts l (put e.1 e.2 m) := rfl
    rw [this, ih (put_sorted h), lookup_put h, show e :: l = [e] ++ l from rfl, lastVal_append]
    cases lastVal l k with
    | some v => rfl
    | none =>
      simp only [lastVal, List.filter_cons, List.filter_nil, Option.none_or]
      by_cases hk : e.1 = k
      · simp [hk]
      · have : ¬ k = e.1 := fun h => hk h.symm
        simp [hk, this]

theorem lastVal_of_filter {l l' : List Entry} {k k' : Bytes} (h : (l.filter (fun e => decide (e.1 = k))).map (·.2) =
    (l'.filter (fun e => decide (e.1 = k'))).map (·.2)) : lastVal l k = lastVal l' k' := by
  unfold lastVal
  rw [← List.getLast?_map, ← List.getLast?_map, h]

theorem sorted_ext {l l' : List Entry} (h : SortedMem l) (h' : SortedMem l') (he : ∀ k, lookup l k = lookup l' k) : l = l' := by
  induction l generalizing l' with
  | nil =>
    cases l' with
    | nil => rfl
    | cons e l' => have := he e.1; simp [lookup] at this
  | cons e l ih =>
    cases l' with
    | nil => have := he e.1; simp [lookup] at this
    | cons e' l' =>
      have h1 := List.pairwise_cons.mp h
      have h1' := List.pairwise_cons.mp h'
      have hkey : e.1 = e'.1 := by
        rcases lt_total e.1 e'.1 with hlt | heq | hlt
        · exfalso
          have g1 : lookup (e' :: l') e.1 = some e.2 := by rw [← he]; simp [lookup]
          rcases List.mem_cons.mp (lookup_mem g1) with h2 | h2
          · rw [← h2] at hlt; simp [lt_irrefl] at hlt
          · have := lt_trans hlt (h1'.1 _ h2); simp [lt_irrefl] at this
        · exact heq
        · exfalso
          have g1 : lookup (e :: l) e'.1 = some e'.2 := by rw [he]; simp [lookup]
          rcases List.mem_cons.mp (lookup_mem g1) with h2 | h2
          · rw [← h2] at hlt; simp [lt_irrefl] at hlt
          · have := lt_trans hlt (h1.1 _ h2); simp [lt_irrefl] at this
      have hval : e.2 = e'.2 := by
        have := he e.1
        simp [lookup, hkey] at this
        exact this
      rw [Prod.ext hkey hval]
      congr 1
      refine ih h1.2 h1'.2 ?_
      intro k
      have := he k
      by_cases hk : e'.1 = k
      · have g : ∀ {e : Entry} {l : List Entry}, (∀ x ∈ l, lt e.1 x.1 = true) → lookup l e.1 = none := by
          intro e l hall
          cases hl : lookup l e.1 with
          | none => rfl
          | some v => have := hall _ (lookup_mem hl); simp [lt_irrefl] at this
        rw [← hk, g h1'.1, ← hkey, g h1.1]
      · have hk' : ¬ e.1 = k := by rw [hkey]; exact hk
        simpa [lookup, List.find?_cons, hk, hk'] using this

/-! ## Logs -/

theorem flatMap_single {α β : Type} [DecidableEq α] {l : List (α × β)} {γ : Type} {f : α × β → List γ} {a : α} (hn : (l.map (·.1)).Nodup)
    (h0 : ∀ p ∈ l, p.1 ≠ a → f p = []) : l.flatMap f = ((l.find? (fun p => decide (p.1 = a))).map f).getD [] := by
  induction l with
  | nil => rfl
  | cons p l ih =>
    simp only [List.map_cons, List.nodup_cons] at hn
    rw [List.flatMap_cons, List.find?_cons]
    by_cases hp : p.1 = a
    · have : l.flatMap f = [] := by
        rw [List.flatMap_eq_nil_iff]
        intro q hq
        refine h0 q (List.mem_cons_of_mem _ hq) ?_
        intro hqa
        exact hn.1 (List.mem_map.mpr ⟨q, hq, by rw [hqa, hp]⟩)
      simp [hp, this]
    · rw [h0 p List.mem_cons_self hp, List.nil_append, ih hn.2 (fun q hq => h0 q (List.mem_cons_of_mem _ hq))]
      simp [hp]

theorem find_perm {α β : Type} [DecidableEq α] {l l' : List (α × β)} (hp : l.Perm l') (hn : (l.map (·.1)).Nodup) (a : α) :
    l.find? (fun p => decide (p.1 = a)) = l'.find? (fun p => decide (p.1 = a)) := by
  induction hp with
  | nil => rfl
  | cons x _ ih =>
    simp only [List.map_cons, List.nodup_cons] at hn
    rw [List.find?_cons, List.find?_cons, ih hn.2]
  | swap x y l =>
    simp only [List.map_cons, List.nodup_cons, List.mem_cons, not_or] at hn
    simp only [List.find?_cons]
    by_cases h1 : x.1 = a <;> by_cases h2 : y.1 = a
    · exact absurd (h2.trans h1.symm) hn.1.1
    · simp [h1, h2]
    · simp [h1, h2]
    · simp [h1, h2]
  | trans h1 h2 ih1 ih2 => rw [ih1 hn, ih2 ((h1.map _).nodup_iff.mp hn)]

/-- What a log item puts. -/
def ents (a : Addr) (i : Item) : List Entry :=
  i.storage.map (fun e => (storageKey e.1, e.2)) ++ (match i.vite with | none => [] | some b => [(balanceKey a, bigBytes b)])

theorem applyItem_eq (a : Addr) (m : Mem) (i : Item) : applyItem a m i = puts (ents a i) m := by
  unfold applyItem ents
  rw [puts_append]
  have : i.storage.foldl (fun m e => put (storageKey e.1) e.2 m) m = puts (i.storage.map (fun e => (storageKey e.1, e.2))) m := by
    simp [puts, List.foldl_map]
  rw [this]
  cases i.vite <;> rfl

theorem foldl_puts {α : Type} (l : List α) (f : α → List Entry) (m : Mem) : l.foldl (fun m x => puts (f x) m) m = puts (l.flatMap f) m := by
  induction l generalizing m with
  | nil => rfl
  | cons x l ih => rw [List.foldl_cons, ih, List.flatMap_cons, puts_append]

/-- What a snapshot block's log puts. -/
def redoEnts (g : Cfg) (r : Redo) : List Entry := (g.order r.log).flatMap (fun p => p.2.flatMap (ents p.1))

theorem build_eq (g : Cfg) (m : Mem) (logs : List Redo) : build g m logs = puts (logs.flatMap (redoEnts g)) m := by
  unfold build
  rw [← foldl_puts]
  congr 1
  funext m r
  unfold applyRedo redoEnts
  rw [← foldl_puts]
  congr 1
  funext m p
  rw [← foldl_puts]
  congr 1
  funext m i
  exact applyItem_eq _ _ _

/-- A map may be gone through in any order. -/
def Cfg.Fair (g : Cfg) : Prop := ∀ l, (g.order l).Perm l

theorem redoOf_find (h : Nat) (l : Log) (a : Addr) : (redoOf h l).log.find? (fun p => decide (p.1 = a)) =
    (l.find? (fun p => decide (p.1 = a))).map (fun p => (p.1, p.2.map (fun i => { i with storage := if p.1 = governance then i.storage else [] }))) := by
  simp only [redoOf]
  rw [List.find?_map]
  rfl

theorem redoOf_nodup {h : Nat} {l : Log} (hn : (l.map (·.1)).Nodup) : ((redoOf h l).log.map (·.1)).Nodup := by
  simp only [redoOf, List.map_map]
  exact hn

theorem storage_filter (a : Addr) (i : Item) (k : Bytes) : ((ents a i).filter (fun e => decide (e.1 = storageKey k))).map (·.2) =
    (i.storage.filter (fun e => decide (e.1 = k))).map (·.2) := by
  unfold ents
  rw [List.filter_append, List.map_append, List.filter_map, List.map_map]
  have h1 : (match i.vite with | none => [] | some b => [(balanceKey a, bigBytes b)]).filter (fun e : Entry => decide (e.1 = storageKey k)) = [] := by
    cases i.vite <;> simp [balanceKey, storageKey]
  rw [h1]
  simp only [List.map_nil, List.append_nil]
  congr 1
  congr 1
  funext e
  simp [storageKey]

theorem balance_filter (a a' : Addr) (i : Item) : ((ents a' i).filter (fun e => decide (e.1 = balanceKey a))).map (·.2) =
    if a' = a then (i.vite.map (fun b : Nat => bigBytes (b : Int))).toList else [] := by
  unfold ents
  rw [List.filter_append, List.map_append, List.filter_map]
  have h1 : i.storage.filter ((fun e : Entry => decide (e.1 = balanceKey a)) ∘ fun e => (storageKey e.1, e.2)) = [] := by
    rw [List.filter_eq_nil_iff]
    intro e _
    simp [storageKey, balanceKey]
  rw [h1]
  cases i.vite with
  | none => simp
  | some b => by_cases h : a' = a <;> simp [balanceKey, h]

theorem redo_storage {g : Cfg} (hg : g.Fair) {h : Nat} {l : Log} (hn : (l.map (·.1)).Nodup) (k : Bytes) :
    ((redoEnts g (redoOf h l)).filter (fun e => decide (e.1 = storageKey k))).map (·.2) =
      (l.writes.filter (fun e => decide (e.1 = k))).map (·.2) := by
  have hn' := redoOf_nodup (h := h) hn
  have hn2 : ((g.order (redoOf h l).log).map (·.1)).Nodup := (((hg _).map _).nodup_iff).mpr hn'
  unfold redoEnts
  rw [List.filter_flatMap, List.map_flatMap]
  rw [flatMap_single (a := governance) hn2, find_perm (hg _) hn2, redoOf_find]
  · unfold Log.writes
    cases hf : l.find? (fun p => decide (p.1 = governance)) with
    | none => rfl
    | some p =>
      have hp : p.1 = governance := by simpa using List.find?_some hf
      simp only [Option.map_some, Option.getD_some, hp, if_true]
      rw [List.filter_flatMap, List.map_flatMap, List.filter_flatMap, List.map_flatMap, List.flatMap_map]
      congr 1
      funext i
      exact storage_filter _ _ _
  · intro p hp hpa
    have hp' := (hg _).mem_iff.mp hp
    simp only [redoOf, List.mem_map] at hp'
    obtain ⟨q, _, rfl⟩ := hp'
    simp only at hpa ⊢
    rw [List.filter_flatMap, List.map_flatMap, List.flatMap_map, List.flatMap_eq_nil_iff]
    intro i _
    rw [storage_filter]
    simp [hpa]

theorem redo_balance {g : Cfg} (hg : g.Fair) {h : Nat} {l : Log} (hn : (l.map (·.1)).Nodup) (a : Addr) :
    ((redoEnts g (redoOf h l)).filter (fun e => decide (e.1 = balanceKey a))).map (·.2) = (l.credits a).map (fun b : Nat => bigBytes (b : Int)) := by
  have hn' := redoOf_nodup (h := h) hn
  have hn2 : ((g.order (redoOf h l).log).map (·.1)).Nodup := (((hg _).map _).nodup_iff).mpr hn'
  unfold redoEnts
  rw [List.filter_flatMap, List.map_flatMap]
  rw [flatMap_single (a := a) hn2, find_perm (hg _) hn2, redoOf_find]
  · unfold Log.credits
    cases hf : l.find? (fun p => decide (p.1 = a)) with
    | none => rfl
    | some p =>
      have hp : p.1 = a := by simpa using List.find?_some hf
      simp only [Option.map_some, Option.getD_some]
      rw [List.filter_flatMap, List.map_flatMap, List.flatMap_map, List.map_filterMap]
      simp only [balance_filter, hp, if_true]
      induction p.2 with
      | nil => rfl
      | cons i is ih =>
        rw [List.flatMap_cons, ih, List.filterMap_cons]
        cases i.vite <;> rfl
  · intro p hp hpa
    rw [List.filter_flatMap, List.map_flatMap, List.flatMap_eq_nil_iff]
    intro i _
    rw [balance_filter, if_neg hpa]

/-! ## Agreement with the database -/

/-- The data kept for the snapshot block of height `h` are those of the database: all storage, and balances that are right where there are any. -/
structure Agrees (c : Chain) (h : Nat) (m : Mem) : Prop where
  sorted : SortedMem m
  storage : ∀ k, lookup m (storageKey k) = storageAt c h k
  balance : ∀ a v, lookup m (balanceKey a) = some v → balanceAt c h a = some (num v)

theorem storageAt_eq (c : Chain) (h : Nat) (k : Bytes) : storageAt c h k = lastVal ((c.take h).flatMap (·.log.writes)) k := rfl

/-- The logs of the blocks above `lo` up to `hi`, as the cache keeps them. -/
def redos (c : Chain) (lo hi : Nat) : List Redo := ((c.take hi).drop lo).map (fun b => redoOf b.height b.log)

theorem take_split {α : Type} (c : List α) {lo hi : Nat} (h : lo ≤ hi) : c.take hi = c.take lo ++ (c.take hi).drop lo := by
  have := List.take_append_drop lo (c.take hi)
  rw [List.take_take, Nat.min_eq_left h] at this
  exact this.symm

theorem lastVal_map {l : List Entry} {k : Bytes} {l' : List Nat} (h : (l.filter (fun e => decide (e.1 = k))).map (·.2) =
    l'.map (fun b : Nat => bigBytes (b : Int))) : lastVal l k = l'.getLast?.map (fun b : Nat => bigBytes (b : Int)) := by
  unfold lastVal
  rw [← List.getLast?_map, h, List.getLast?_map]

theorem num_big (b : Nat) : num (bigBytes (b : Int)) = b := by rw [num_bigBytes]; rfl

theorem Agrees.build {g : Cfg} (hg : g.Fair) {c : Chain} (hl : ∀ b ∈ c, (b.log.map (·.1)).Nodup) {lo hi : Nat} (hle : lo ≤ hi) {m : Mem}
    (h : Agrees c lo m) : Agrees c hi (build g m (redos c lo hi)) := by
  have hseg : ∀ b ∈ (c.take hi).drop lo, (b.log.map (·.1)).Nodup := fun b hb => hl b (List.mem_of_mem_take (List.mem_of_mem_drop hb))
  have hsplit := take_split c hle
  rw [build_eq, redos, List.flatMap_map]
  generalize (c.take hi).drop lo = seg at hseg hsplit ⊢
  constructor
  · exact puts_sorted h.sorted
  · intro k
    rw [lookup_puts h.sorted, h.storage, storageAt_eq, storageAt_eq, hsplit, List.flatMap_append, lastVal_append]
    congr 1
    refine lastVal_of_filter ?_
    rw [List.filter_flatMap, List.map_flatMap, List.filter_flatMap, List.map_flatMap]
    exact List.flatMap_congr fun b hb => redo_storage hg (hseg b hb) k
  · intro a v hv
    rw [lookup_puts h.sorted] at hv
    have hlv : lastVal (seg.flatMap (fun b => redoEnts g (redoOf b.height b.log))) (balanceKey a) =
        (seg.flatMap (·.log.credits a)).getLast?.map (fun b : Nat => bigBytes (b : Int)) := by
      refine lastVal_map ?_
      rw [List.filter_flatMap, List.map_flatMap, List.map_flatMap]
      exact List.flatMap_congr fun b hb => redo_balance hg (hseg b hb) a
    rw [hlv] at hv
    unfold balanceAt
    rw [hsplit, List.flatMap_append, List.getLast?_append]
    cases hc : (seg.flatMap (·.log.credits a)).getLast? with
    | none =>
      rw [hc] at hv
      exact h.balance a v (by simpa using hv)
    | some b =>
      rw [hc] at hv
      simp only [Option.map_some, Option.some_or, Option.some.injEq] at hv
      rw [← hv, num_big]
      rfl

end Verif.RCache
