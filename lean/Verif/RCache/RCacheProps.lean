import Verif.RCache.InitLemmas
import Verif.Iter.SnapProps

/-!
# The round cache answers as the database does

Property C79. -/

namespace Verif.RCache

open Verif.Bytes Verif.Iter

theorem step_inv {g : Cfg} (hg : g.Fair) (h2 : 2 ≤ g.count) {s : St} (hi : Inv s) {o : Op} (ha : Allowed g s o) :
    ∃ s', step g s o = some s' ∧ Inv s' ∧
      s'.chain = match o with | .init => s.chain | .insert b => s.chain ++ [b] | .delete h => s.chain.take (h - 1) := by
  cases o with
  | init => exact ⟨_, rfl, init_inv hg hi ha⟩
  | insert b => exact insert_inv hg h2 hi ha
  | delete h => exact delete_inv hi ha.1 ha.2

theorem Reach.inv {g : Cfg} (hg : g.Fair) (h2 : 2 ≤ g.count) {s : St} (hr : Reach g s) : Inv s := by
  induction hr with
  | start hok hne => exact ⟨hok, hne, fun h => by cases h⟩
  | step _ ha hs ih =>
    obtain ⟨s', h1, h3, _⟩ := step_inv hg h2 ih ha
    rw [h1] at hs
    cases hs
    exact h3

/-- **C79.** No operation on the cache fails, whatever came before: the error of `InsertSnapshotBlock`, which the chain ignores
(`chain/write.go:249`), does not occur. -/
theorem cache_never_fails {g : Cfg} (hg : g.Fair) (h2 : 2 ≤ g.count) {s : St} (hr : Reach g s) {o : Op} (ha : Allowed g s o) :
    ∃ s', step g s o = some s' ∧
      s'.chain = match o with | .init => s.chain | .insert b => s.chain ++ [b] | .delete h => s.chain.take (h - 1) := by
  obtain ⟨s', h1, _, h3⟩ := step_inv hg h2 (hr.inv hg h2) ha
  exact ⟨s', h1, h3⟩

theorem Slots.full {c : Chain} {ss : List Slot} (h : Slots c ss) {d : Slot} (hd : d ∈ ss) : d.last = none ∨ ∃ hi, 0 < hi ∧ Full c d hi := by
  cases h with
  | empty => cases hd
  | @some d' e l lo hi mid h1 h2 h3 h4 =>
    rcases List.mem_cons.mp hd with rfl | hd
    · exact .inr ⟨hi, by have := h1.lt; omega, h2⟩
    · rcases List.mem_append.mp hd with hd | hd
      · obtain ⟨lo', hi', _, _, g3, g4⟩ := h3.mem_seg hd
        exact .inr ⟨hi', by have := g3.lt; omega, g4⟩
      · rw [List.mem_singleton.mp hd]
        exact .inl h4.last

theorem current_agrees {c : Chain} (hc : Ok c) {ss : List Slot} (h : ∀ d ∈ ss, d.last = none ∨ ∃ hi, 0 < hi ∧ Full c d hi) {hash : Nat} {m : Mem}
    (hm : current hash ss = some m) : ∃ b ∈ c, b.hash = hash ∧ Agrees c b.height m := by
  induction ss with
  | nil => cases hm
  | cons d ss ih =>
    unfold current at hm
    rcases h d List.mem_cons_self with h0 | ⟨hi, hpos, m', b, g1, g2, g3, g4⟩
    · rw [h0] at hm; cases hm
    · rw [g2] at hm
      simp only at hm
      split at hm
      · rw [g1] at hm
        cases hm
        refine ⟨b, List.mem_of_getElem? g3, by assumption, ?_⟩
        rw [hc.heights _ _ g3, show hi - 1 + 1 = hi by omega]
        exact g4
      · exact ih (fun d hd => h d (List.mem_cons_of_mem _ hd)) hm

theorem heightOf_eq {c : Chain} (hc : Ok c) {b : Blk} (hb : b ∈ c) : heightOf c b.hash = b.height := by
  have hn := hc.hashes
  have : c.find? (fun x => decide (x.hash = b.hash)) = some b := by
    clear hc
    induction c with
    | nil => cases hb
    | cons x c ih =>
      simp only [List.map_cons, List.nodup_cons] at hn
      rw [List.find?_cons]
      rcases List.mem_cons.mp hb with rfl | hb
      · simp
      · have hne : ¬ x.hash = b.hash := by
          intro h
          exact hn.1 (List.mem_map.mpr ⟨b, hb, h.symm⟩)
        simp only [hne, decide_false]
        exact ih hb hn.2
  simp [heightOf, this]

theorem height_pos {c : Chain} (hc : Ok c) {b : Blk} (hb : b ∈ c) : 0 < b.height := by
  obtain ⟨i, hi⟩ := List.mem_iff_getElem?.mp hb
  rw [hc.heights i b hi]
  omega

theorem get_eq_lookup (m : Mem) (k : Bytes) : m.get k = lookup m k := rfl

/-- The entries that the cache lists are the storage. -/
theorem list_agrees {c : Chain} {h : Nat} {m : Mem} (ha : Agrees c h m) :
    (m.filter (fun e => inRange (storageKey []) e.1)).map (fun e => (e.1.drop 1, e.2)) = listStorage c h := by
  have hr : ∀ k, inRange (storageKey []) k = true ↔ ∃ r, k = storageKey r := by
    intro k
    rw [inRange_iff]
    constructor
    · rintro ⟨r, hr⟩
      exact ⟨r, hr.symm⟩
    · rintro ⟨r, rfl⟩
      exact ⟨r, rfl⟩
  refine sorted_ext ?_ (listStorage_sorted c h) ?_
  · show List.Pairwise _ _
    rw [List.pairwise_map, List.pairwise_filter]
    refine ha.sorted.imp ?_
    intro a b hab h1 h2
    obtain ⟨x, hx⟩ := (hr a.1).mp h1
    obtain ⟨y, hy⟩ := (hr b.1).mp h2
    rw [hx, hy] at hab ⊢
    exact (lt_append_left [1] x y).symm.trans hab
  · intro k
    rw [listStorage_lookup, ← ha.storage]
    have : ∀ l : List Entry, lookup ((l.filter (fun e => inRange (storageKey []) e.1)).map (fun e => (e.1.drop 1, e.2))) k = lookup l (storageKey k) := by
      intro l
      induction l with
      | nil => rfl
      | cons e l ih =>
        rw [List.filter_cons]
        by_cases he : inRange (storageKey []) e.1 = true
        · obtain ⟨x, hx⟩ := (hr e.1).mp he
          rw [if_pos he, List.map_cons]
          by_cases hk : x = k
          · subst hk
            simp [lookup, hx, storageKey]
          · have : ¬ storageKey x = storageKey k := by simpa [storageKey] using hk
            simp only [lookup, List.find?_cons, hx]
            simp only [storageKey, List.drop_succ_cons, List.drop_zero, hk, decide_false]
            have this' : ¬ (1 :: x : Bytes) = 1 :: k := by simpa using hk
            simp only [this', decide_false]
            exact ih
        · rw [if_neg he, ih]
          have : ¬ e.1 = storageKey k := by
            intro h
            exact he ((hr _).mpr ⟨k, h⟩)
          simp [lookup, this]
    exact this m

/-- **C79.** In every state that arises from blocks coming and going and the cache being started in any order, under any order in which maps
are gone through, asking for the balance of an account at a block gives what the logs of the blocks up to it say, with the cache
as without. -/
theorem balance_right {g : Cfg} (hg : g.Fair) (h2 : 2 ≤ g.count) {s : St} (hr : Reach g s) {b : Blk} (hb : b ∈ s.chain) (a : Addr) :
    balance s b.hash a = balanceAt s.chain b.height a := by
  have hi := hr.inv hg h2
  have hdb : dbBalance s b.hash a = balanceAt s.chain b.height a := by
    unfold dbBalance
    rw [heightOf_eq hi.ok hb, if_neg (by have := height_pos hi.ok hb; omega)]
  unfold balance
  by_cases hin : s.inited = true
  swap
  · rw [Bool.not_eq_true] at hin
    rw [hin]
    exact hdb
  rw [hin]
  simp only [Bool.not_true, Bool.false_eq_true, if_false]
  cases hc : current b.hash s.slots with
  | none => exact hdb
  | some m =>
    simp only
    obtain ⟨b', hb', he, ha⟩ := current_agrees hi.ok (fun d hd => (hi.slots hin).1.full hd) hc
    have hh : b'.height = b.height := by rw [← heightOf_eq hi.ok hb', ← heightOf_eq hi.ok hb, he]
    rw [hh] at ha
    cases hg : m.get (balanceKey a) with
    | none => exact hdb
    | some v => exact (ha.balance a v (by rw [← get_eq_lookup]; exact hg)).symm

/-- **C79.** Asking for a block that is not in the chain gives nothing, with the cache as without. -/
theorem balance_unknown {g : Cfg} (hg : g.Fair) (h2 : 2 ≤ g.count) {s : St} (hr : Reach g s) {hash : Nat} (hn : ∀ b ∈ s.chain, b.hash ≠ hash)
    (a : Addr) : balance s hash a = none ∧ cachedStorage s hash = none := by
  have hi := hr.inv hg h2
  have hdb : dbBalance s hash a = none := by
    unfold dbBalance
    have : heightOf s.chain hash = 0 := by
      have : s.chain.find? (fun x => decide (x.hash = hash)) = none := by
        rw [List.find?_eq_none]
        intro b hb
        simpa using hn b hb
      simp [heightOf, this]
    rw [if_pos this]
  unfold balance cachedStorage
  by_cases hin : s.inited = true
  swap
  · rw [Bool.not_eq_true] at hin
    rw [hin]
    exact ⟨hdb, rfl⟩
  rw [hin]
  simp only [Bool.not_true, Bool.false_eq_true, if_false]
  cases hc : current hash s.slots with
  | none => exact ⟨hdb, rfl⟩
  | some m =>
    obtain ⟨b', hb', he, _⟩ := current_agrees hi.ok (fun d hd => (hi.slots hin).1.full hd) hc
    exact absurd he (hn b' hb')

/-- **C79.** Reading the storage of the governance contract at a block to its end gives the slots written up to the block with the values written
last, in key order, with the cache as without. -/
theorem storage_right {g : Cfg} (hg : g.Fair) (h2 : 2 ≤ g.count) {s : St} (hr : Reach g s) {b : Blk} (hb : b ∈ s.chain) :
    (storage s b.hash).Pairwise (fun x y => lt x.1 y.1 = true) ∧
      ∀ k v, (k, v) ∈ storage s b.hash ↔ storageAt s.chain b.height k = some v := by
  have hi := hr.inv hg h2
  have key : storage s b.hash = listStorage s.chain b.height := by
    unfold storage cachedStorage
    rw [heightOf_eq hi.ok hb]
    by_cases hin : s.inited = true
    swap
    · rw [Bool.not_eq_true] at hin
      rw [hin]
      rfl
    rw [hin]
    simp only [Bool.not_true, Bool.false_eq_true, if_false]
    cases hc : current b.hash s.slots with
    | none => rfl
    | some m =>
      obtain ⟨b', hb', he, ha⟩ := current_agrees hi.ok (fun d hd => (hi.slots hin).1.full hd) hc
      have hh : b'.height = b.height := by rw [← heightOf_eq hi.ok hb', ← heightOf_eq hi.ok hb, he]
      rw [hh] at ha
      exact list_agrees ha
  rw [key]
  refine ⟨listStorage_sorted _ _, fun k v => ?_⟩
  rw [← listStorage_lookup]
  exact ⟨lookup_of_mem (listStorage_sorted _ _), lookup_mem⟩

/-- What the chain's logs say is what the database's history says, if each block's log was recorded: the value of a slot at a height. -/
theorem recorded_value {db : Store} {c : Chain} (hc : Ok c) (hrec : Recorded db c) {h : Nat} (hh : h < 2 ^ 64) (k v : Bytes) :
    ValueAt db governance k h v ↔ storageAt c h k = some v := by
  have hw : ∀ {j w}, j < 2 ^ 64 → (histKey governance k j, w) ∈ db → ∃ b, c[j - 1]? = some b ∧ 0 < j ∧ lastVal b.log.writes k = some w := by
    intro j w hj64 hj
    obtain ⟨b, hb, h1, h2⟩ := (hrec k w j hj64).mp hj
    obtain ⟨i, hi⟩ := List.mem_iff_getElem?.mp hb
    have h3 := hc.heights i b hi
    exact ⟨b, by rw [show j - 1 = i by omega]; exact hi, by omega, h2⟩
  induction h generalizing v with
  | zero =>
    constructor
    · rintro ⟨j, h1, h2, _⟩
      obtain ⟨b, _, h3, _⟩ := hw (by omega) h2
      omega
    · intro h; cases h
  | succ h ih =>
    have hno : (∀ w, (histKey governance k (h + 1), w) ∉ db) → (ValueAt db governance k (h + 1) v ↔ ValueAt db governance k h v) := by
      intro hn
      constructor
      · rintro ⟨j, h1, h2, h3⟩
        have : j ≠ h + 1 := by rintro rfl; exact hn _ h2
        exact ⟨j, by omega, h2, fun i hi hi' => h3 i hi (by omega)⟩
      · rintro ⟨j, h1, h2, h3⟩
        refine ⟨j, by omega, h2, fun i hi hi' => ?_⟩
        by_cases hieq : i = h + 1
        · rw [hieq]; exact hn
        · exact h3 i hi (by omega)
    cases hb : c[h]? with
    | none =>
      have ht : c.take (h + 1) = c.take h := by rw [List.take_add_one, hb]; simp
      have he : storageAt c (h + 1) k = storageAt c h k := by rw [storageAt, storageAt, ht]
      rw [he]
      refine (hno ?_).trans (ih (by omega) v)
      intro w hw'
      obtain ⟨b, h1, _⟩ := hw (by omega) hw'
      rw [show h + 1 - 1 = h by omega, hb] at h1
      cases h1
    | some b =>
      have ht : c.take (h + 1) = c.take h ++ [b] := by rw [List.take_add_one, hb]; simp
      have hs : storageAt c (h + 1) k = (lastVal b.log.writes k).or (storageAt c h k) := by
        rw [storageAt_eq, ht, List.flatMap_append, lastVal_append, storageAt_eq]
        simp
      rw [hs]
      cases hl : lastVal b.log.writes k with
      | none =>
        refine (hno ?_).trans (ih (by omega) v)
        intro w hw'
        obtain ⟨b', h1, _, h2⟩ := hw (by omega) hw'
        rw [show h + 1 - 1 = h by omega, hb] at h1
        cases h1
        rw [hl] at h2
        cases h2
      | some w =>
        have hin : (histKey governance k (h + 1), w) ∈ db := (hrec k w (h + 1) hh).mpr ⟨b, List.mem_of_getElem? hb, hc.heights h b hb, hl⟩
        simp only [Option.some_or, Option.some.injEq]
        constructor
        · rintro ⟨j, h1, h2, h3⟩
          have hj : j = h + 1 := by
            by_contra hne
            exact h3 (h + 1) (by omega) (Nat.le_refl _) w hin
          subst hj
          obtain ⟨b', g1, _, g2⟩ := hw (by omega) h2
          rw [show h + 1 - 1 = h by omega, hb] at g1
          cases g1
          rw [hl] at g2
          exact Option.some.inj g2
        · rintro rfl
          exact ⟨h + 1, Nat.le_refl _, hin, fun i hi hi' => by omega⟩

/-- A database that has recorded a chain, for any chain of regular keys and heights. -/
def recordOf (c : Chain) : Store := puts (c.flatMap (fun b => b.log.writes.map (fun e => (histKey governance e.1 b.height, e.2)))) []

theorem histKey_inj {k k' : Bytes} {j j' : Nat} (hk : k'.length ≤ 32) (hj : j < 2 ^ 64) (hj' : j' < 2 ^ 64)
    (h : histKey governance k j = histKey governance k' j') : k = k' ∧ j = j' := by
  have hlen := congrArg List.length h
  simp only [histKey, State.keyBytes, List.length_append, List.length_cons, List.length_replicate, be_length, List.length_nil] at hlen
  have hk2 : k.length ≤ 32 := by omega
  unfold histKey at h
  have h1 := List.append_inj' h (by rw [be_length, be_length])
  exact ⟨State.keyBytes_inj hk2 hk (List.append_cancel_left h1.1), State.be_inj hj hj' h1.2⟩

theorem recordOf_recorded {c : Chain} (hc : Ok c) (hk : ∀ b ∈ c, ∀ e ∈ b.log.writes, e.1.length ≤ 32) (hl : c.length < 2 ^ 64 - 1) :
    Recorded (recordOf c) c ∧ HistWf (recordOf c) := by
  have hsort : SortedMem (recordOf c) := puts_sorted List.Pairwise.nil
  have hheight : ∀ b ∈ c, b.height < 2 ^ 64 - 1 := by
    intro b hb
    obtain ⟨i, hi⟩ := List.mem_iff_getElem?.mp hb
    have := hc.heights i b hi
    have := (List.getElem?_eq_some_iff.mp hi).1
    omega
  have hmem : ∀ K v, (K, v) ∈ recordOf c ↔ lastVal (c.flatMap (fun b => b.log.writes.map (fun e => (histKey governance e.1 b.height, e.2)))) K = some v := by
    intro K v
    have : lookup (recordOf c) K = lastVal (c.flatMap (fun b => b.log.writes.map (fun e => (histKey governance e.1 b.height, e.2)))) K := by
      unfold recordOf
      rw [lookup_puts List.Pairwise.nil]
      simp [lookup]
    rw [← this]
    exact ⟨lookup_of_mem hsort, lookup_mem⟩
  refine ⟨?_, hsort, ?_⟩
  · intro k v j hj
    rw [hmem]
    have hnd : ((c.map (fun b => (b.height, b))).map (·.1)).Nodup := by
      rw [List.map_map]
      rw [List.nodup_iff_pairwise_ne, List.pairwise_map, List.pairwise_iff_getElem]
      intro i1 i2 h1 h2 hlt
      have e1 := hc.heights i1 _ (List.getElem?_eq_getElem h1)
      have e2 := hc.heights i2 _ (List.getElem?_eq_getElem h2)
      simp only [Function.comp]
      omega
    have hfil : ∀ b ∈ c, (b.log.writes.map (fun e => (histKey governance e.1 b.height, e.2))).filter (fun e => decide (e.1 = histKey governance k j)) =
        if b.height = j then (b.log.writes.filter (fun e => decide (e.1 = k))).map (fun e => (histKey governance e.1 b.height, e.2)) else [] := by
      intro b hb
      rw [List.filter_map]
      have hb64 := hheight b hb
      by_cases hbj : b.height = j
      · rw [if_pos hbj]
        congr 1
        apply List.filter_congr
        intro e he
        simp only [Function.comp, decide_eq_decide]
        constructor
        · intro h
          exact (histKey_inj (hk b hb e he) hj (by omega) h.symm).1.symm
        · rintro rfl
          rw [hbj]
      · rw [if_neg hbj]
        have : b.log.writes.filter ((fun e : Entry => decide (e.1 = histKey governance k j)) ∘ fun e => (histKey governance e.1 b.height, e.2)) = [] := by
          rw [List.filter_eq_nil_iff]
          intro e he
          simp only [Function.comp, decide_eq_true_eq]
          intro h
          exact hbj (histKey_inj (hk b hb e he) hj (by omega) h.symm).2.symm
        rw [this]
        rfl
    have key : (c.flatMap (fun b => b.log.writes.map (fun e => (histKey governance e.1 b.height, e.2)))).filter
        (fun e => decide (e.1 = histKey governance k j)) =
          ((c.find? (fun b => decide (b.height = j))).map (fun b =>
            (b.log.writes.filter (fun e => decide (e.1 = k))).map (fun e => (histKey governance e.1 b.height, e.2)))).getD [] := by
      rw [List.filter_flatMap, List.flatMap_congr hfil]
      have := flatMap_single (l := c.map (fun b => (b.height, b))) (a := j) (f := fun p => if p.2.height = j then
        (p.2.log.writes.filter (fun e => decide (e.1 = k))).map (fun e => (histKey governance e.1 p.2.height, e.2)) else []) hnd (by
          intro p hp hne
          obtain ⟨b, _, rfl⟩ := List.mem_map.mp hp
          exact if_neg hne)
      rw [List.flatMap_map, List.find?_map] at this
      rw [this]
      have hcomp : ((fun p : Nat × Blk => decide (p.1 = j)) ∘ fun b => (b.height, b)) = fun b => decide (b.height = j) := rfl
      rw [hcomp]
      cases hf : c.find? (fun b => decide (b.height = j)) with
      | none => rfl
      | some b =>
        have : b.height = j := by simpa using List.find?_some hf
        simp [this]
    unfold lastVal
    rw [key]
    constructor
    · intro h
      cases hf : c.find? (fun b => decide (b.height = j)) with
      | none => rw [hf] at h; cases h
      | some b =>
        rw [hf] at h
        refine ⟨b, List.mem_of_find?_eq_some hf, by simpa using List.find?_some hf, ?_⟩
        simp only [Option.map_some, Option.getD_some, List.getLast?_map, Option.map_map] at h
        exact h
    · rintro ⟨b, hb, hbj, h⟩
      have hf : c.find? (fun b => decide (b.height = j)) = some b := by
        cases hf : c.find? (fun b => decide (b.height = j)) with
        | none =>
          have := List.find?_eq_none.mp hf b hb
          simp [hbj] at this
        | some x =>
          obtain ⟨i1, h1⟩ := List.mem_iff_getElem?.mp (List.mem_of_find?_eq_some hf)
          obtain ⟨i2, h2⟩ := List.mem_iff_getElem?.mp hb
          have e1 := hc.heights i1 _ h1
          have e2 := hc.heights i2 _ h2
          have e3 : x.height = j := by simpa using List.find?_some hf
          rw [show i1 = i2 by omega, h2] at h1
          exact h1.symm
      rw [hf]
      simp only [Option.map_some, Option.getD_some, List.getLast?_map, Option.map_map]
      exact h
  · intro e he _
    obtain ⟨b, hb, h1⟩ := List.mem_flatMap.mp (lastVal_mem ((hmem e.1 e.2).mp he))
    obtain ⟨x, hx, h2⟩ := List.mem_map.mp h1
    exact ⟨governance, x.1, b.height, rfl, hk b hb x hx, hheight b hb, (congrArg Prod.fst h2).symm⟩

/-- **C79.** What the model takes the database to list is what its snapshot iterator lists (see `Iter/SnapProps.lean`), when the history has each
block's writes. -/
theorem database_list {db : Store} (hdb : HistWf db) {c : Chain} (hc : Ok c) (hrec : Recorded db c) {h : Nat} (hh : h < 2 ^ 64 - 1) {n : Nat}
    (hn : (histRange db governance []).length < n) : (newSnap db governance [] h).drain true n = listStorage c h := by
  obtain ⟨h1, h2⟩ := snapshot_iterate hdb (addr := governance) (p := []) rfl (by simp [PlainPrefix]) hh hn
  refine sorted_ext (by simpa [Iter.InOrder, before] using h1) (listStorage_sorted c h) ?_
  intro k
  have hs : SortedMem ((newSnap db governance [] h).drain true n) := by simpa [Iter.InOrder, before] using h1
  rw [listStorage_lookup]
  cases hl : lookup ((newSnap db governance [] h).drain true n) k with
  | none =>
    cases hv : storageAt c h k with
    | none => rfl
    | some v =>
      exact absurd ((h2 k v).mpr ⟨(recorded_value hc hrec (by omega) k v).mpr hv, List.nil_prefix⟩) (lookup_none hl v)
  | some v => exact ((recorded_value hc hrec (by omega) k v).mp ((h2 k v).mp (lookup_mem hl)).1).symm

end Verif.RCache
