import Verif.State.DbBatch

/-! What the store should hold for a ledger, and what each batch does to it. -/

namespace Verif.State
open Verif.Bytes

/-- What each key of the store should hold. -/
def target (snaps : List (List Blk)) (unconf : List Blk) : KMap
  | .latest a f => (slotAfter (snaps.flatten ++ unconf) a f).bind (latestVal f)
  | .hist a f h => if h = 0 then none else slotAfter (snaps.getD (h - 1) []) a f
  | .once i => onceAfter (snaps.flatten ++ unconf) i

def Blk.batch (b : Blk) : Batch := writeBatch b.addr b.writes b.once

theorem flatten_snoc {A : Type} (l : List (List A)) (x : List A) : (l ++ [x]).flatten = l.flatten ++ x := by simp

/-- The last entry up to a height. -/
theorem histAt_target (snaps : List (List Blk)) (unconf : List Blk) (a : Addr) (f : Field) (h : Nat) :
    histAt (target snaps unconf) a f h = slotAfter (snaps.take h).flatten a f := by
  induction h with
  | zero => simp [histAt, target, slotAfter, writesOf, lastVal]
  | succ h ih =>
    unfold histAt
    rw [ih]
    have ht : target snaps unconf (.hist a f (h + 1)) = slotAfter (snaps.getD h []) a f := by
      simp [target]
    rw [ht]
    by_cases hl : h < snaps.length
    · have : snaps.take (h + 1) = snaps.take h ++ [snaps.getD h []] := by
        rw [List.take_succ_eq_append_getElem hl]
        congr 2
        simp [List.getD, hl]
      rw [this, flatten_snoc, slotAfter_append]
      cases slotAfter (snaps.getD h []) a f <;> rfl
    · have h1 : snaps.take (h + 1) = snaps := List.take_of_length_le (by omega)
      have h2 : snaps.take h = snaps := List.take_of_length_le (by omega)
      have h3 : snaps.getD h [] = [] := by simp [List.getD, List.getElem?_eq_none (by omega : snaps.length ≤ h)]
      rw [h1, h2, h3]
      rfl

/-! ### A block -/

theorem writeBatch_latest (a : Addr) (ws : List (Field × Bytes)) (os : List (Bytes × Bytes)) (m : KMap) (f : Field) :
    (writeBatch a ws os).apply m (.latest a f) = match lastVal f ws with | some v => latestVal f v | none => m (.latest a f) := by
  unfold writeBatch
  rw [Batch.apply_append, Batch.apply_not]
  · exact Batch.apply_map (fun f => Key.latest a f) (by rintro x y ⟨⟩; rfl) latestVal ws m f
  · rintro ⟨r, hr, e⟩
    obtain ⟨o, _, rfl⟩ := List.mem_map.mp hr
    simp at e

theorem writeBatch_once (a : Addr) (ws : List (Field × Bytes)) (os : List (Bytes × Bytes)) (m : KMap) (i : Bytes) :
    (writeBatch a ws os).apply m (.once i) = match lastVal i os with | some v => some v | none => m (.once i) := by
  unfold writeBatch
  rw [Batch.apply_append]
  rw [Batch.apply_map (fun i => Key.once i) (by rintro x y ⟨⟩; rfl) (fun _ v => some v) os _ i]
  rw [Batch.apply_not]
  · cases lastVal i os <;> rfl
  rintro ⟨r, hr, e⟩
  obtain ⟨o, _, rfl⟩ := List.mem_map.mp hr
  simp at e

theorem writeBatch_not {a : Addr} {ws : List (Field × Bytes)} {os : List (Bytes × Bytes)} {k : Key} (h : (writeBatch a ws os).Has k) :
    (∃ w ∈ ws, k = .latest a w.1) ∨ ∃ o ∈ os, k = .once o.1 := by
  obtain ⟨r, hr, e⟩ := h
  unfold writeBatch at hr
  rcases List.mem_append.mp hr with h | h
  · obtain ⟨w, hw, rfl⟩ := List.mem_map.mp h
    exact Or.inl ⟨w, hw, e.symm⟩
  · obtain ⟨o, ho, rfl⟩ := List.mem_map.mp h
    exact Or.inr ⟨o, ho, e.symm⟩

theorem target_block (snaps : List (List Blk)) (unconf : List Blk) (b : Blk) :
    b.batch.apply (target snaps unconf) = target snaps (unconf ++ [b]) := by
  funext k
  unfold Blk.batch
  cases k with
  | latest a f =>
    have hr : target snaps (unconf ++ [b]) (.latest a f) =
        ((slotAfter [b] a f).or (slotAfter (snaps.flatten ++ unconf) a f)).bind (latestVal f) := by
      simp only [target]
      rw [← List.append_assoc, slotAfter_append]
    rw [hr]
    by_cases ha : b.addr = a
    · subst ha
      rw [writeBatch_latest]
      have : slotAfter [b] b.addr f = lastVal f b.writes := by simp [slotAfter, writesOf]
      rw [this]
      cases lastVal f b.writes <;> rfl
    · rw [Batch.apply_not]
      · have : slotAfter [b] a f = none := by
          rw [slotAfter_none]
          intro c hc hca
          simp only [List.mem_singleton] at hc
          subst hc; exact absurd hca ha
        rw [this]; rfl
      · intro h
        rcases writeBatch_not h with ⟨w, _, e⟩ | ⟨o, _, e⟩
        · simp at e; exact ha e.1.symm
        · simp at e
  | hist a f h =>
    rw [Batch.apply_not]
    · rfl
    · intro h
      rcases writeBatch_not h with ⟨w, _, e⟩ | ⟨o, _, e⟩ <;> simp at e
  | once i =>
    have hr : target snaps (unconf ++ [b]) (.once i) = (onceAfter [b] i).or (onceAfter (snaps.flatten ++ unconf) i) := by
      simp only [target]
      rw [← List.append_assoc, onceAfter_append]
    rw [hr, writeBatch_once]
    have : onceAfter [b] i = lastVal i b.once := by simp [onceAfter]
    rw [this]
    cases lastVal i b.once <;> rfl

theorem target_blocks (snaps : List (List Blk)) (unconf bs : List Blk) :
    Batch.apply (bs.flatMap Blk.batch) (target snaps unconf) = target snaps (unconf ++ bs) := by
  induction bs generalizing unconf with
  | nil => simp [Batch.apply_nil]
  | cons b bs ih =>
    rw [List.flatMap_cons, Batch.apply_append, target_block, ih, List.append_assoc]
    rfl

/-! ### A snapshot -/

/-- The blocks of a list that are not confirmed. -/
def without (bs cs : List Blk) : List Blk := bs.filter (fun b => decide (b ∉ cs))

/-- Some of the unconfirmed blocks are, for each account, the first ones. -/
structure Firsts (cs bs : List Blk) : Prop where
  perm : bs.Perm (cs ++ without bs cs)
  acc : ∀ a, bs.filter (fun b => decide (b.addr = a)) = (cs ++ without bs cs).filter (fun b => decide (b.addr = a))

theorem histBatch_mem {h : Nat} {log : SnapLog} {r : Rec} :
    r ∈ histBatch h log ↔ ∃ e ∈ log, ∃ i ∈ e.2, ∃ w ∈ i.writes, r = ⟨.hist e.1 w.1 h, some w.2⟩ := by
  unfold histBatch
  simp only [List.mem_flatMap, List.mem_map]
  constructor
  · rintro ⟨e, he, i, hi, w, hw, rfl⟩; exact ⟨e, he, i, hi, w, hw, rfl⟩
  · rintro ⟨e, he, i, hi, w, hw, rfl⟩; exact ⟨e, he, i, hi, w, hw, rfl⟩

theorem histBatch_hist {log : SnapLog} {bs : List Blk} (hl : LogOk log bs) (h : Nat) (m : KMap) (a : Addr) (f : Field) :
    (histBatch h log).apply m (.hist a f h) = match slotAfter bs a f with | some v => some v | none => m (.hist a f h) := by
  unfold histBatch
  rw [hl.apply (fun a l => l.flatMap (fun i => i.writes.map (fun w => ⟨.hist a w.1 h, some w.2⟩))) (by intro a; rfl) a]
  · have : (itemsOf bs a).flatMap (fun i => i.writes.map (fun w => (⟨.hist a w.1 h, some w.2⟩ : Rec))) =
        (writesOf bs a).map (fun w => ⟨.hist a w.1 h, some w.2⟩) := by
      rw [writesOf_items, List.map_flatMap]
    rw [this]
    exact Batch.apply_map (fun f => Key.hist a f h) (by rintro x y ⟨⟩; rfl) (fun _ v => some v) _ m f
  · intro a' l hne
    rw [Batch.has_flatMap]
    rintro ⟨i, _, r, hr, e⟩
    obtain ⟨w, _, rfl⟩ := List.mem_map.mp hr
    simp at e
    exact hne e.1

theorem target_snapshot {log : SnapLog} {bs : List Blk} (hl : LogOk log bs) (snaps : List (List Blk)) (unconf rest : List Blk)
    (hf : ∀ a, unconf.filter (fun b => decide (b.addr = a)) = (bs ++ rest).filter (fun b => decide (b.addr = a)))
    (hp : unconf.Perm (bs ++ rest)) (hn : ((snaps.flatten ++ unconf).flatMap (fun b => b.once.map (·.1))).Nodup) :
    (histBatch (snaps.length + 1) log).apply (target snaps unconf) = target (snaps ++ [bs]) rest := by
  funext k
  cases k with
  | latest a f =>
    rw [Batch.apply_not]
    · simp only [target]
      congr 1
      apply slotAfter_congr
      rw [flatten_snoc, List.append_assoc, List.filter_append, hf a, ← List.filter_append]
    · rintro ⟨r, hr, e⟩
      obtain ⟨_, _, _, _, _, _, rfl⟩ := histBatch_mem.mp hr
      simp at e
  | hist a f h =>
    by_cases hh : h = snaps.length + 1
    · subst hh
      rw [histBatch_hist hl]
      have h1 : target snaps unconf (.hist a f (snaps.length + 1)) = none := by
        simp [target, slotAfter, writesOf, lastVal]
      have h2 : target (snaps ++ [bs]) rest (.hist a f (snaps.length + 1)) = slotAfter bs a f := by
        simp [target]
      rw [h1, h2]
      cases slotAfter bs a f <;> rfl
    · rw [Batch.apply_not]
      · simp only [target]
        by_cases h0 : h = 0
        · simp [h0]
        · rw [if_neg h0, if_neg h0]
          congr 1
          by_cases hlt : h - 1 < snaps.length
          · simp [List.getD, List.getElem?_append_left hlt]
          · have h3 : snaps.length + 1 ≤ h - 1 := by omega
            simp only [List.getD]
            rw [List.getElem?_eq_none (by omega), List.getElem?_eq_none (by simp; omega)]
      · rintro ⟨r, hr, e⟩
        obtain ⟨_, _, _, _, _, _, rfl⟩ := histBatch_mem.mp hr
        simp at e
        exact hh e.2.2.symm
  | once i =>
    rw [Batch.apply_not]
    · simp only [target]
      unfold onceAfter
      apply lastVal_perm
      · rw [flatten_snoc, List.append_assoc]
        exact (List.Perm.append_left _ hp).flatMap_right _
      · rw [List.map_flatMap]
        exact hn
    · rintro ⟨r, hr, e⟩
      obtain ⟨_, _, _, _, _, _, rfl⟩ := histBatch_mem.mp hr
      simp at e

/-! ### Rollbacks -/

theorem latestVal_getD (k : Bytes) (o : Option Bytes) : latestVal (.stor k) (o.getD []) = o.bind (latestVal (.stor k)) := by
  cases o <;> simp [latestVal]

/-- What storage and balances are recovered to. -/
def recBatch (bs : List Blk) (s : List (Addr × Field)) : Batch :=
  s.map (fun x => ⟨.latest x.1 x.2, (slotAfter bs x.1 x.2).bind (latestVal x.2)⟩)

theorem recBatch_latest {bs : List Blk} {s : List (Addr × Field)} {a : Addr} {f : Field} (h : (a, f) ∈ s) (m : KMap) :
    (recBatch bs s).apply m (.latest a f) = (slotAfter bs a f).bind (latestVal f) := by
  apply Batch.apply_const
  · exact ⟨_, List.mem_map.mpr ⟨(a, f), h, rfl⟩, rfl⟩
  · intro r hr e
    obtain ⟨x, _, rfl⟩ := List.mem_map.mp hr
    simp only [Key.latest.injEq] at e
    rw [e.1, e.2]

theorem recBatch_not {bs : List Blk} {s : List (Addr × Field)} {k : Key} (h : ∀ x ∈ s, k ≠ .latest x.1 x.2) (m : KMap) :
    (recBatch bs s).apply m k = m k := by
  apply Batch.apply_not
  rintro ⟨r, hr, e⟩
  obtain ⟨x, hx, rfl⟩ := List.mem_map.mp hr
  exact h x hx e.symm

theorem recoverLatest_eq {d : Db} {snaps : List (List Blk)} {unconf : List Blk} (cached : Addr → Bool) (useCache : Bool) (latest h : Nat)
    (hv : d.view = target snaps unconf)
    (hc : useCache = true → h = snaps.length ∧ ∀ a, cached a = true → ∀ k, (d.snapc a k).getD [] = (slotAfter snaps.flatten a (.stor k)).getD [])
    (s : List (Addr × Field)) :
    d.recoverLatest cached useCache latest h s = recBatch (snaps.take h).flatten s := by
  unfold Db.recoverLatest recBatch
  apply List.map_congr_left
  rintro ⟨a, f⟩ _
  cases f with
  | stor k =>
    simp only
    congr 1
    unfold Db.getSnapshotValue
    split
    · rename_i hq
      simp only [Bool.and_eq_true, decide_eq_true_eq] at hq
      obtain ⟨h1, h2⟩ := hc hq.1.1
      rw [h2 a hq.1.2 k, h1, List.take_length, latestVal_getD]
    · rw [hv, histAt_target, latestVal_getD]
  | bal t =>
    simp only
    congr 1
    unfold Db.getSnapshotBalance
    rw [hv, histAt_target]
    cases slotAfter (snaps.take h).flatten a (.bal t) <;> rfl

theorem rollbackByRedo_mem {h : Option Nat} {log : SnapLog} {bs : List Blk} (hl : LogOk log bs) {r : Rec} :
    r ∈ rollbackByRedo h log ↔ ∃ b ∈ bs,
      (∃ w ∈ b.writes, r = ⟨match h with | some h => .hist b.addr w.1 h | none => .latest b.addr w.1, none⟩) ∨
      ∃ o ∈ b.once, r = ⟨.once o.1, none⟩ := by
  have := hl.exists_iff (fun a i => (∃ w ∈ i.writes, r = (⟨match h with | some h => .hist a w.1 h | none => .latest a w.1, none⟩ : Rec)) ∨
      ∃ o ∈ i.once, r = ⟨.once o.1, none⟩)
  unfold rollbackByRedo
  simp only [List.mem_flatMap, List.mem_append, List.mem_map]
  constructor
  · rintro ⟨e, he, i, hi, hx⟩
    apply this.mp
    refine ⟨e, he, i, hi, ?_⟩
    rcases hx with ⟨w, hw, rfl⟩ | ⟨o, ho, rfl⟩
    · exact Or.inl ⟨w, hw, rfl⟩
    · exact Or.inr ⟨o, ho, rfl⟩
  · intro hx
    obtain ⟨e, he, i, hi, hx⟩ := this.mpr hx
    refine ⟨e, he, i, hi, ?_⟩
    rcases hx with ⟨w, hw, rfl⟩ | ⟨o, ho, rfl⟩
    · exact Or.inl ⟨w, hw, rfl⟩
    · exact Or.inr ⟨o, ho, rfl⟩

theorem slots_mem {log : SnapLog} {bs : List Blk} (hl : LogOk log bs) {a : Addr} {f : Field} :
    (a, f) ∈ slots log ↔ slotAfter bs a f ≠ none := by
  have := hl.exists_iff (fun a' i => ∃ w ∈ i.writes, (a', w.1) = (a, f))
  unfold slots
  simp only [List.mem_flatMap, List.mem_map]
  rw [this, Ne, slotAfter_none]
  push Not
  constructor
  · rintro ⟨b, hb, w, hw, e⟩
    simp only [Prod.mk.injEq] at e
    exact ⟨b, hb, e.1, w, hw, e.2⟩
  · rintro ⟨b, hb, e1, w, hw, e2⟩
    exact ⟨b, hb, w, hw, by rw [e1, e2]⟩

/-- The logs of the snapshots above a height and of the unconfirmed blocks. -/
structure LogsOk (ls : List (Option Nat × SnapLog)) (snaps : List (List Blk)) (unconf : List Blk) (h : Nat) : Prop where
  sound : ∀ l ∈ ls, (∃ j, h ≤ j ∧ j < snaps.length ∧ l.1 = some (j + 1) ∧ LogOk l.2 (snaps.getD j [])) ∨ (l.1 = none ∧ LogOk l.2 unconf)
  snap : ∀ j, h ≤ j → j < snaps.length → ∃ l ∈ ls, l.1 = some (j + 1) ∧ LogOk l.2 (snaps.getD j [])
  unc : unconf ≠ [] → ∃ l ∈ ls, l.1 = none ∧ LogOk l.2 unconf

theorem mem_drop_flatten {snaps : List (List Blk)} {h : Nat} {b : Blk} :
    b ∈ (snaps.drop h).flatten ↔ ∃ j, h ≤ j ∧ j < snaps.length ∧ b ∈ snaps.getD j [] := by
  rw [List.mem_flatten]
  constructor
  · rintro ⟨l, hl, hb⟩
    obtain ⟨i, hi, rfl⟩ := List.mem_iff_getElem.mp hl
    rw [List.length_drop] at hi
    refine ⟨h + i, by omega, by omega, ?_⟩
    rw [List.getElem_drop] at hb
    simpa [List.getD, (by omega : h + i < snaps.length)] using hb
  · rintro ⟨j, h1, h2, hb⟩
    refine ⟨snaps.getD j [], ?_, hb⟩
    rw [List.mem_iff_getElem]
    refine ⟨j - h, by rw [List.length_drop]; omega, ?_⟩
    rw [List.getElem_drop]
    simp [List.getD, h2, (by omega : h + (j - h) = j)]

theorem split_all (snaps : List (List Blk)) (unconf : List Blk) (h : Nat) :
    snaps.flatten ++ unconf = (snaps.take h).flatten ++ ((snaps.drop h).flatten ++ unconf) := by
  rw [← List.append_assoc, ← List.flatten_append, List.take_append_drop]

theorem slots_ls {ls : List (Option Nat × SnapLog)} {snaps : List (List Blk)} {unconf : List Blk} {h : Nat}
    (hl : LogsOk ls snaps unconf h) {a : Addr} {f : Field} :
    (a, f) ∈ ls.flatMap (fun l => slots l.2) ↔ slotAfter ((snaps.drop h).flatten ++ unconf) a f ≠ none := by
  rw [List.mem_flatMap]
  constructor
  · rintro ⟨l, hl', hs⟩
    rw [Ne, slotAfter_none]
    push Not
    rcases hl.sound l hl' with ⟨j, h1, h2, _, hk⟩ | ⟨_, hk⟩
    · have := (slots_mem hk).mp hs
      rw [Ne, slotAfter_none] at this
      push Not at this
      obtain ⟨b, hb, hx⟩ := this
      exact ⟨b, List.mem_append.mpr (Or.inl (mem_drop_flatten.mpr ⟨j, h1, h2, hb⟩)), hx⟩
    · have := (slots_mem hk).mp hs
      rw [Ne, slotAfter_none] at this
      push Not at this
      obtain ⟨b, hb, hx⟩ := this
      exact ⟨b, List.mem_append.mpr (Or.inr hb), hx⟩
  · intro hs
    rw [Ne, slotAfter_none] at hs
    push Not at hs
    obtain ⟨b, hb, hx⟩ := hs
    rcases List.mem_append.mp hb with hb | hb
    · obtain ⟨j, h1, h2, hb⟩ := mem_drop_flatten.mp hb
      obtain ⟨l, hm, _, hk⟩ := hl.snap j h1 h2
      refine ⟨l, hm, (slots_mem hk).mpr ?_⟩
      rw [Ne, slotAfter_none]
      push Not
      exact ⟨b, hb, hx⟩
    · obtain ⟨l, hm, _, hk⟩ := hl.unc (by rintro rfl; simp at hb)
      refine ⟨l, hm, (slots_mem hk).mpr ?_⟩
      rw [Ne, slotAfter_none]
      push Not
      exact ⟨b, hb, hx⟩

theorem once_clash {bs cs : List Blk} (hn : ((bs ++ cs).flatMap (fun b => b.once.map (·.1))).Nodup) {i : Bytes}
    (h : onceAfter cs i ≠ none) : onceAfter bs i = none := by
  rw [Ne, onceAfter_none] at h
  push Not at h
  obtain ⟨c, hc, o, ho, e⟩ := h
  rw [onceAfter_none]
  intro b hb o' ho' e'
  rw [List.flatMap_append] at hn
  refine (List.nodup_append.mp hn).2.2 i ?_ i ?_ rfl
  · exact List.mem_flatMap.mpr ⟨b, hb, List.mem_map.mpr ⟨o', ho', e'⟩⟩
  · exact List.mem_flatMap.mpr ⟨c, hc, List.mem_map.mpr ⟨o, ho, e⟩⟩

/-- A rollback with redo logs. -/
theorem target_redo {ls : List (Option Nat × SnapLog)} {snaps : List (List Blk)} {unconf : List Blk} {h : Nat} (hh : h ≤ snaps.length)
    (hl : LogsOk ls snaps unconf h) (hn : ((snaps.flatten ++ unconf).flatMap (fun b => b.once.map (·.1))).Nodup) :
    Batch.apply (ls.flatMap (fun l => rollbackByRedo l.1 l.2) ++ recBatch (snaps.take h).flatten (ls.flatMap (fun l => slots l.2)))
      (target snaps unconf) = target (snaps.take h) [] := by
  have hmem : ∀ r ∈ ls.flatMap (fun l => rollbackByRedo l.1 l.2), r.val = none ∧
      ((∃ j, h ≤ j ∧ j < snaps.length ∧ ∃ b ∈ snaps.getD j [], ∃ w ∈ b.writes, r.key = .hist b.addr w.1 (j + 1)) ∨
       (∃ b ∈ unconf, ∃ w ∈ b.writes, r.key = .latest b.addr w.1) ∨
       (∃ b ∈ (snaps.drop h).flatten ++ unconf, ∃ o ∈ b.once, r.key = .once o.1)) := by
    intro r hr
    obtain ⟨l, hl', hr⟩ := List.mem_flatMap.mp hr
    rcases hl.sound l hl' with ⟨j, h1, h2, he, hk⟩ | ⟨he, hk⟩
    · obtain ⟨b, hb, ⟨w, hw, rfl⟩ | ⟨o, ho, rfl⟩⟩ := (rollbackByRedo_mem hk).mp hr
      · exact ⟨rfl, Or.inl ⟨j, h1, h2, b, hb, w, hw, by rw [he]⟩⟩
      · exact ⟨rfl, Or.inr (Or.inr ⟨b, List.mem_append.mpr (Or.inl (mem_drop_flatten.mpr ⟨j, h1, h2, hb⟩)), o, ho, rfl⟩)⟩
    · obtain ⟨b, hb, ⟨w, hw, rfl⟩ | ⟨o, ho, rfl⟩⟩ := (rollbackByRedo_mem hk).mp hr
      · exact ⟨rfl, Or.inr (Or.inl ⟨b, hb, w, hw, by rw [he]⟩)⟩
      · exact ⟨rfl, Or.inr (Or.inr ⟨b, List.mem_append.mpr (Or.inr hb), o, ho, rfl⟩)⟩
  rw [Batch.apply_append]
  funext k
  cases k with
  | latest a f =>
    have ht : target (snaps.take h) [] (.latest a f) = (slotAfter (snaps.take h).flatten a f).bind (latestVal f) := by
      simp only [target, List.append_nil]
    rw [ht]
    by_cases hs : (a, f) ∈ ls.flatMap (fun l => slots l.2)
    · exact recBatch_latest hs _
    · rw [recBatch_not]
      · have hno : slotAfter ((snaps.drop h).flatten ++ unconf) a f = none := by
          by_contra hc; exact hs ((slots_ls hl).mpr hc)
        rw [Batch.apply_not]
        · simp only [target]
          rw [split_all snaps unconf h, slotAfter_append, hno]
          rfl
        · rintro ⟨r, hr, e⟩
          rcases (hmem r hr).2 with ⟨j, _, _, b, _, w, _, hk⟩ | ⟨b, hb, w, hw, hk⟩ | ⟨b, _, o, _, hk⟩
          · rw [e] at hk; simp at hk
          · rw [e] at hk
            simp only [Key.latest.injEq] at hk
            exact slotAfter_none.mp hno b (List.mem_append.mpr (Or.inr hb)) hk.1.symm w hw hk.2.symm
          · rw [e] at hk; simp at hk
      · rintro ⟨a', f'⟩ hx e
        simp only [Key.latest.injEq] at e
        obtain ⟨rfl, rfl⟩ := e
        exact hs hx
  | hist a f j =>
    rw [recBatch_not (by rintro x _ e; simp at e)]
    by_cases hc : Batch.Has (ls.flatMap (fun l => rollbackByRedo l.1 l.2)) (.hist a f j)
    · rw [Batch.apply_const hc (v := none) (fun r hr _ => (hmem r hr).1)]
      obtain ⟨r, hr, e⟩ := hc
      rcases (hmem r hr).2 with ⟨j', h1, h2, b, _, w, _, hk⟩ | ⟨b, hb, w, hw, hk⟩ | ⟨b, _, o, _, hk⟩
      · rw [e] at hk
        simp only [Key.hist.injEq] at hk
        obtain ⟨_, _, rfl⟩ := hk
        simp only [target]
        have : (snaps.take h).getD j' [] = [] := by
          simp only [List.getD]; rw [List.getElem?_eq_none (by simp; omega)]; rfl
        simp [slotAfter, writesOf, lastVal, h1]
      · rw [e] at hk; simp at hk
      · rw [e] at hk; simp at hk
    · rw [Batch.apply_not hc]
      simp only [target]
      by_cases h0 : j = 0
      · simp [h0]
      rw [if_neg h0, if_neg h0]
      by_cases hj : j - 1 < h
      · congr 1
        simp [List.getD, List.getElem?_take, hj]
      · have : (snaps.take h).getD (j - 1) [] = [] := by
          simp only [List.getD]; rw [List.getElem?_eq_none (by simp; omega)]; rfl
        rw [this]
        have hnil : slotAfter [] a f = none := rfl
        rw [hnil]
        by_cases hlt : j - 1 < snaps.length
        · rw [slotAfter_none]
          intro b hb ha w hw hwf
          obtain ⟨l, hm, hl1, hk⟩ := hl.snap (j - 1) (by omega) hlt
          apply hc
          rw [Batch.has_flatMap]
          refine ⟨l, hm, ⟨.hist a f j, none⟩, ?_, rfl⟩
          rw [rollbackByRedo_mem hk]
          refine ⟨b, hb, Or.inl ⟨w, hw, ?_⟩⟩
          rw [hl1, ha, hwf, (by omega : j - 1 + 1 = j)]
        · have : snaps.getD (j - 1) [] = [] := by
            simp only [List.getD]; rw [List.getElem?_eq_none (by omega)]; rfl
          rw [this]; rfl
  | once i =>
    rw [recBatch_not (by rintro x _ e; simp at e)]
    have hsplit : target snaps unconf (.once i) =
        (onceAfter ((snaps.drop h).flatten ++ unconf) i).or (onceAfter (snaps.take h).flatten i) := by
      simp only [target]
      rw [split_all snaps unconf h, onceAfter_append]
    have ht : target (snaps.take h) [] (.once i) = onceAfter (snaps.take h).flatten i := by
      simp only [target, List.append_nil]
    rw [ht]
    rw [split_all snaps unconf h] at hn
    by_cases hc : onceAfter ((snaps.drop h).flatten ++ unconf) i = none
    · rw [Batch.apply_not, hsplit, hc]
      · rfl
      · rintro ⟨r, hr, e⟩
        rcases (hmem r hr).2 with ⟨j', h1, h2, b, _, w, _, hk⟩ | ⟨b, hb, w, hw, hk⟩ | ⟨b, hb, o, ho, hk⟩
        · rw [e] at hk; simp at hk
        · rw [e] at hk; simp at hk
        · rw [e] at hk
          simp only [Key.once.injEq] at hk
          exact onceAfter_none.mp hc b hb o ho hk.symm
    · rw [once_clash hn hc]
      apply Batch.apply_const
      · rw [Batch.has_flatMap]
        rw [onceAfter_none] at hc
        push Not at hc
        obtain ⟨b, hb, o, ho, rfl⟩ := hc
        rcases List.mem_append.mp hb with hb | hb
        · obtain ⟨j, h1, h2, hb⟩ := mem_drop_flatten.mp hb
          obtain ⟨l, hm, _, hk⟩ := hl.snap j h1 h2
          exact ⟨l, hm, ⟨.once o.1, none⟩, (rollbackByRedo_mem hk).mpr ⟨b, hb, Or.inr ⟨o, ho, rfl⟩⟩, rfl⟩
        · obtain ⟨l, hm, _, hk⟩ := hl.unc (by rintro rfl; simp at hb)
          exact ⟨l, hm, ⟨.once o.1, none⟩, (rollbackByRedo_mem hk).mpr ⟨b, hb, Or.inr ⟨o, ho, rfl⟩⟩, rfl⟩
      · exact fun r hr _ => (hmem r hr).1

/-! ### Deleting blocks -/

theorem recoverByRedo_latest {log : SnapLog} {rest : List Blk} (hl : LogOk log rest) (addrs : List Addr) (m : KMap) (a : Addr) (f : Field) :
    (recoverByRedo addrs log).apply m (.latest a f) =
      if a ∈ addrs then (match slotAfter rest a f with | some v => latestVal f v | none => m (.latest a f)) else m (.latest a f) := by
  unfold recoverByRedo
  rw [Batch.apply_flatMap a]
  · split
    · have : ((log.get a).getD []).flatMap (fun i => i.writes.map (fun w => (⟨.latest a w.1, latestVal w.1 w.2⟩ : Rec))) =
          (writesOf rest a).map (fun w => ⟨.latest a w.1, latestVal w.1 w.2⟩) := by
        rw [hl.items, writesOf_items, List.map_flatMap]
      rw [this]
      exact Batch.apply_map (fun f => Key.latest a f) (by rintro x y ⟨⟩; rfl) latestVal _ m f
    · rfl
  · intro a' _ hne
    rw [Batch.has_flatMap]
    rintro ⟨i, _, r, hr, e⟩
    obtain ⟨w, _, rfl⟩ := List.mem_map.mp hr
    simp at e
    exact hne e.1

theorem recoverByRedo_key {addrs : List Addr} {log : SnapLog} {r : Rec} (h : r ∈ recoverByRedo addrs log) : ∃ a f, r.key = .latest a f := by
  unfold recoverByRedo at h
  simp only [List.mem_flatMap, List.mem_map] at h
  obtain ⟨a, _, i, _, w, _, rfl⟩ := h
  exact ⟨a, w.1, rfl⟩

theorem leftSlots_mem {addrs : List Addr} {log : SnapLog} {rest : List Blk} (hl : LogOk log rest) {s : List (Addr × Field)} {a : Addr} {f : Field} :
    (a, f) ∈ leftSlots addrs log s ↔ (a, f) ∈ s ∧ ¬ (a ∈ addrs ∧ slotAfter rest a f ≠ none) := by
  unfold leftSlots
  rw [List.mem_filter]
  have : (((log.get a).getD []).any (fun i => i.writes.any (fun w => w.1 = f)) = true) ↔ slotAfter rest a f ≠ none := by
    rw [hl.items, slotAfter, writesOf_items, Ne, lastVal_none]
    push Not
    simp only [List.any_eq_true, decide_eq_true_eq, List.mem_flatMap]
    constructor
    · rintro ⟨i, hi, w, hw, e⟩; exact ⟨w, ⟨i, hi, hw⟩, e⟩
    · rintro ⟨w, ⟨i, hi, hw⟩, e⟩; exact ⟨i, hi, w, hw, e⟩
  simp only [decide_eq_true_eq, this]

theorem target_delete {del log : SnapLog} {snaps : List (List Blk)} {unconf ds rest : List Blk} {addrs : List Addr}
    (hd : LogOk del ds) (hl : LogOk log rest) (ha : ∀ b ∈ ds, b.addr ∈ addrs)
    (hf : ∀ a, unconf.filter (fun b => decide (b.addr = a)) = (rest ++ ds).filter (fun b => decide (b.addr = a)))
    (hp : unconf.Perm (rest ++ ds)) (hn : ((snaps.flatten ++ unconf).flatMap (fun b => b.once.map (·.1))).Nodup) :
    Batch.apply (rollbackByRedo none del ++ recoverByRedo addrs log ++ recBatch snaps.flatten (leftSlots addrs log (slots del)))
      (target snaps unconf) = target snaps rest := by
  rw [Batch.apply_append, Batch.apply_append]
  funext k
  cases k with
  | latest a f =>
    have ht : target snaps rest (.latest a f) = ((slotAfter rest a f).or (slotAfter snaps.flatten a f)).bind (latestVal f) := by
      simp only [target]; rw [slotAfter_append]
    rw [ht]
    have hleft : (a, f) ∈ leftSlots addrs log (slots del) ↔ slotAfter ds a f ≠ none ∧ ¬ (a ∈ addrs ∧ slotAfter rest a f ≠ none) := by
      rw [leftSlots_mem hl, slots_mem hd]
    have hada : slotAfter ds a f ≠ none → a ∈ addrs := by
      rw [Ne, slotAfter_none]
      push Not
      rintro ⟨b, hb, rfl, _⟩
      exact ha b hb
    by_cases hL : (a, f) ∈ leftSlots addrs log (slots del)
    · rw [recBatch_latest hL]
      obtain ⟨h1, h2⟩ := hleft.mp hL
      have : slotAfter rest a f = none := by
        by_contra hc; exact h2 ⟨hada h1, hc⟩
      rw [this]; rfl
    · rw [recBatch_not (by
        rintro ⟨a', f'⟩ hx e
        simp only [Key.latest.injEq] at e
        obtain ⟨rfl, rfl⟩ := e
        exact hL hx)]
      rw [recoverByRedo_latest hl]
      by_cases hr : a ∈ addrs ∧ slotAfter rest a f ≠ none
      · rw [if_pos hr.1]
        cases hs : slotAfter rest a f with
        | none => exact absurd hs hr.2
        | some v => rfl
      · have hds : slotAfter ds a f = none := by
          by_contra hc; exact hL (hleft.mpr ⟨hc, hr⟩)
        have hm : (rollbackByRedo none del).apply (target snaps unconf) (.latest a f) = target snaps unconf (.latest a f) := by
          apply Batch.apply_not
          rintro ⟨r, hr, e⟩
          obtain ⟨b, hb, ⟨w, hw, rfl⟩ | ⟨o, ho, rfl⟩⟩ := (rollbackByRedo_mem hd).mp hr
          · simp only [Key.latest.injEq] at e
            exact slotAfter_none.mp hds b hb e.1 w hw e.2
          · simp at e
        have hu : slotAfter unconf a f = slotAfter rest a f := by
          rw [slotAfter_congr (hf a), slotAfter_append, hds]; rfl
        have htu : target snaps unconf (.latest a f) = ((slotAfter rest a f).or (slotAfter snaps.flatten a f)).bind (latestVal f) := by
          simp only [target]; rw [slotAfter_append, hu]
        rw [hm, htu]
        split
        · rename_i hin
          have : slotAfter rest a f = none := by
            by_contra hc; exact hr ⟨hin, hc⟩
          rw [this]
        · rfl
  | hist a f j =>
    rw [recBatch_not (by rintro x _ e; simp at e), Batch.apply_not, Batch.apply_not]
    · rfl
    · rintro ⟨r, hr, e⟩
      obtain ⟨b, hb, ⟨w, hw, rfl⟩ | ⟨o, ho, rfl⟩⟩ := (rollbackByRedo_mem hd).mp hr <;> simp at e
    · rintro ⟨r, hr, e⟩
      obtain ⟨a', f', hk⟩ := recoverByRedo_key hr
      rw [e] at hk; simp at hk
  | once i =>
    rw [recBatch_not (by rintro x _ e; simp at e), Batch.apply_not (b := recoverByRedo addrs log)]
    swap
    · rintro ⟨r, hr, e⟩
      obtain ⟨a', f', hk⟩ := recoverByRedo_key hr
      rw [e] at hk; simp at hk
    have hperm : (snaps.flatten ++ unconf).Perm ((snaps.flatten ++ rest) ++ ds) := by
      rw [List.append_assoc]; exact List.Perm.append_left _ hp
    have hn' : (((snaps.flatten ++ rest) ++ ds).flatMap (fun b => b.once.map (·.1))).Nodup :=
      (hperm.flatMap_right _).nodup_iff.mp hn
    have hu : target snaps unconf (.once i) = onceAfter ((snaps.flatten ++ rest) ++ ds) i := by
      simp only [target]
      unfold onceAfter
      apply lastVal_perm (hperm.flatMap_right _)
      rw [List.map_flatMap]; exact hn
    have ht : target snaps rest (.once i) = onceAfter (snaps.flatten ++ rest) i := rfl
    rw [ht]
    by_cases hc : onceAfter ds i = none
    · rw [Batch.apply_not, hu, onceAfter_append, hc]
      · rfl
      · rintro ⟨r, hr, e⟩
        obtain ⟨b, hb, ⟨w, hw, rfl⟩ | ⟨o, ho, rfl⟩⟩ := (rollbackByRedo_mem hd).mp hr
        · simp at e
        · simp only [Key.once.injEq] at e
          exact onceAfter_none.mp hc b hb o ho e
    · rw [once_clash hn' hc]
      apply Batch.apply_const
      · rw [onceAfter_none] at hc
        push Not at hc
        obtain ⟨b, hb, o, ho, rfl⟩ := hc
        exact ⟨⟨.once o.1, none⟩, (rollbackByRedo_mem hd).mpr ⟨b, hb, Or.inr ⟨o, ho, rfl⟩⟩, rfl⟩
      · intro r hr _
        obtain ⟨b, hb, ⟨w, hw, rfl⟩ | ⟨o, ho, rfl⟩⟩ := (rollbackByRedo_mem hd).mp hr <;> rfl

end Verif.State
