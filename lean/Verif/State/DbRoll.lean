import Verif.State.DbStep

/-! A rollback of snapshots keeps the invariant. -/

namespace Verif.State
open Verif.Bytes

variable {cached : Addr → Bool} {top : Nat} {n : Node}

/-! ### The deleted chunks -/

theorem chunks_blocks (l : Ledger) (h : Nat) : (l.chunks h).flatMap (·.blocks) = (l.snaps.drop h).flatten ++ l.unconf := by
  unfold Ledger.chunks
  rw [List.flatMap_append]
  congr 1
  · generalize l.snaps.drop h = s
    rw [List.mapIdx_eq_zipIdx_map]
    rw [List.flatMap_map]
    generalize 0 = k
    induction s generalizing k with
    | nil => rfl
    | cons x s ih =>
      rw [List.zipIdx_cons, List.flatMap_cons, ih, List.flatten_cons]
  · split
    · rename_i hu; rw [hu]; rfl
    · simp

theorem chunks_length (l : Ledger) (h : Nat) : (l.chunks h).length = l.snaps.length - h + if l.unconf = [] then 0 else 1 := by
  unfold Ledger.chunks
  rw [List.length_append, List.length_mapIdx, List.length_drop]
  split <;> rfl

theorem chunks_snap (l : Ledger) {h i : Nat} (hi : h + i < l.snaps.length) : (l.chunks h)[i]? = some ⟨some (h + 1 + i), l.snaps.getD (h + i) []⟩ := by
  unfold Ledger.chunks
  rw [List.getElem?_append_left (by rw [List.length_mapIdx, List.length_drop]; omega)]
  rw [List.getElem?_mapIdx, List.getElem?_drop, List.getD_eq_getElem?_getD, List.getElem?_eq_getElem hi]
  rfl

theorem chunks_unconf (l : Ledger) {h : Nat} (hh : h ≤ l.snaps.length) (hu : l.unconf ≠ []) :
    (l.chunks h)[l.snaps.length - h]? = some ⟨none, l.unconf⟩ := by
  unfold Ledger.chunks
  rw [List.getElem?_append_right (by rw [List.length_mapIdx, List.length_drop])]
  rw [List.length_mapIdx, List.length_drop, Nat.sub_self, if_neg hu]
  rfl

theorem chunks_cases (l : Ledger) {h i : Nat} {c : Chunk} (hh : h ≤ l.snaps.length) (hc : (l.chunks h)[i]? = some c) :
    (h + i < l.snaps.length ∧ c = ⟨some (h + 1 + i), l.snaps.getD (h + i) []⟩) ∨
    (i = l.snaps.length - h ∧ l.unconf ≠ [] ∧ c = ⟨none, l.unconf⟩) := by
  by_cases q : h + i < l.snaps.length
  · left
    rw [chunks_snap l q] at hc
    simp only [Option.some.injEq] at hc
    exact ⟨q, hc.symm⟩
  · right
    have hlt : i < (l.chunks h).length := by
      by_contra w
      rw [List.getElem?_eq_none (by omega)] at hc
      simp at hc
    rw [chunks_length] at hlt
    by_cases hu : l.unconf = []
    · rw [if_pos hu] at hlt; omega
    · rw [if_neg hu] at hlt
      have : i = l.snaps.length - h := by omega
      subst this
      rw [chunks_unconf l hh hu] at hc
      simp only [Option.some.injEq] at hc
      exact ⟨rfl, hu, hc.symm⟩

theorem chunks_heights (l : Ledger) {h : Nat} (hh : h ≤ l.snaps.length) (k : Nat) :
    k ∈ (l.chunks h).filterMap (·.height) ↔ h < k ∧ k ≤ l.snaps.length := by
  rw [List.mem_filterMap]
  constructor
  · rintro ⟨c, hc, e⟩
    obtain ⟨i, hi⟩ := List.mem_iff_getElem?.mp hc
    rcases chunks_cases l hh hi with ⟨q, rfl⟩ | ⟨_, _, rfl⟩
    · simp only [Option.some.injEq] at e
      omega
    · simp at e
  · rintro ⟨h1, h2⟩
    have := chunks_snap l (h := h) (i := k - h - 1) (by omega)
    refine ⟨_, List.mem_of_getElem? this, ?_⟩
    simp only [Option.some.injEq]
    omega

theorem mem_chunkLogs {d : Db} {h : Nat} {cs : List Chunk} {x : Option Nat × SnapLog} :
    x ∈ d.chunkLogs h cs ↔ ∃ i c, cs[i]? = some c ∧ x = (c.height, (d.queryLog (h + i)).1) := by
  induction cs generalizing h with
  | nil => simp [Db.chunkLogs]
  | cons c cs ih =>
    unfold Db.chunkLogs
    rw [List.mem_cons, ih]
    constructor
    · rintro (e | ⟨i, c', hc, e⟩)
      · exact ⟨0, c, rfl, e⟩
      · exact ⟨i + 1, c', hc, by rw [e]; congr 3; omega⟩
    · rintro ⟨i, c', hc, e⟩
      cases i with
      | zero =>
        simp only [List.getElem?_cons_zero, Option.some.injEq] at hc
        subst hc
        exact Or.inl e
      | succ i =>
        rw [List.getElem?_cons_succ] at hc
        exact Or.inr ⟨i, c', hc, by rw [e]; congr 3; omega⟩

theorem Inv.logsOk (hi : Inv cached top n) {h : Nat} (hh : h < n.led.snaps.length) (hr : n.db.hasRedo (h + 1) = true) :
    LogsOk (n.db.chunkLogs (h + 1) (n.led.chunks h)) n.led.snaps n.led.unconf h := by
  obtain ⟨l, hl, hok⟩ := hi.redo.query_now
  refine ⟨?_, ?_, ?_⟩
  · intro x hx
    obtain ⟨i, c, hc, rfl⟩ := mem_chunkLogs.mp hx
    rcases chunks_cases n.led (by omega) hc with ⟨q, rfl⟩ | ⟨q, hu, rfl⟩
    · left
      refine ⟨h + i, by omega, q, by simp only [Option.some.injEq]; omega, ?_⟩
      have := hi.redo.query hh hr (j := h + i) (by omega) q
      rw [show h + 1 + i = h + i + 1 by omega]
      exact this
    · right
      refine ⟨rfl, ?_⟩
      rw [show h + 1 + i = n.led.snaps.length + 1 by omega, hl]
      exact hok
  · intro j hj hj'
    refine ⟨_, mem_chunkLogs.mpr ⟨j - h, _, chunks_snap n.led (by omega), rfl⟩, by simp only [Option.some.injEq]; omega, ?_⟩
    have := hi.redo.query hh hr (j := j) hj hj'
    rw [show h + 1 + (j - h) = j + 1 by omega]
    exact this
  · intro hu
    refine ⟨_, mem_chunkLogs.mpr ⟨_, _, chunks_unconf n.led (by omega) hu, rfl⟩, rfl, ?_⟩
    rw [show h + 1 + (n.led.snaps.length - h) = n.led.snaps.length + 1 by omega, hl]
    exact hok

theorem Inv.oldOk (hi : Inv cached top n) {h : Nat} (hh : h < n.led.snaps.length) :
    LogOk (n.db.oldUnconfirmed h (n.led.chunks h)) n.led.unconf := by
  obtain ⟨l, hl, hok⟩ := hi.redo.query_now
  unfold Db.oldUnconfirmed
  by_cases hu : n.led.unconf = []
  · have hlen := chunks_length n.led h
    rw [if_pos hu] at hlen
    have hlast : (n.led.chunks h).getLast? = some ⟨some (n.led.snaps.length), n.led.snaps.getD (n.led.snaps.length - 1) []⟩ := by
      rw [List.getLast?_eq_getElem?, hlen, chunks_snap n.led (by omega)]
      congr 3 <;> omega
    rw [hlast, hu]
    exact LogOk.nil
  · have hlen := chunks_length n.led h
    rw [if_neg hu] at hlen
    have hlast : (n.led.chunks h).getLast? = some ⟨none, n.led.unconf⟩ := by
      rw [List.getLast?_eq_getElem?, hlen, Nat.add_sub_cancel, chunks_unconf n.led (by omega) hu]
    rw [hlast]
    simp only [Option.isNone_none, if_true]
    rw [hlen, show h + (n.led.snaps.length - h + 1) = n.led.snaps.length + 1 by omega, hl]
    exact hok

/-! ### Unconfirmed again -/

theorem lookup_item {log : SnapLog} {pre bs post : List Blk} (hn : Numbered (pre ++ (bs ++ post))) (hl : LogOk log bs) {b : Blk} (hb : b ∈ bs) :
    ∃ i l, (log.get b.addr).getD [] = i :: l ∧ ¬ b.height < i.height ∧ (i :: l)[b.height - i.height]? = some b.item := by
  rw [hl.items]
  have h0 := hn b.addr
  rw [List.filter_append, List.map_append] at h0
  have h1 := (range'_split h0).2
  rw [List.length_map, List.length_map, List.filter_append, List.map_append] at h1
  have h2 := (range'_split h1).1
  rw [List.length_map] at h2
  generalize hs : 1 + (pre.filter (fun c => decide (c.addr = b.addr))).length = s at h2
  have hmem : b ∈ bs.filter (fun c => decide (c.addr = b.addr)) := mem_filter_addr.mpr ⟨hb, rfl⟩
  obtain ⟨j, hbj⟩ := List.mem_iff_getElem?.mp hmem
  have hj : j < (bs.filter (fun c => decide (c.addr = b.addr))).length := by
    by_contra q
    rw [List.getElem?_eq_none (by omega)] at hbj
    simp at hbj
  have hbh : b.height = s + j := by
    have : ((bs.filter (fun c => decide (c.addr = b.addr))).map (·.height))[j]? = some (s + j) := by
      rw [h2, List.getElem?_range' hj]
      simp
    rw [List.getElem?_map, hbj] at this
    simpa using this
  unfold itemsOf
  cases hf : bs.filter (fun c => decide (c.addr = b.addr)) with
  | nil => rw [hf] at hmem; simp at hmem
  | cons x xs =>
    rw [hf] at h2 hbj
    have hx : x.height = s := by
      simp only [List.map_cons, List.length_cons, List.range'_succ, List.cons.injEq] at h2
      exact h2.1
    refine ⟨x.item, xs.map Blk.item, by rw [List.map_cons], ?_, ?_⟩
    · show ¬ b.height < x.height
      omega
    · show (x.item :: xs.map Blk.item)[b.height - x.height]? = some b.item
      rw [← List.map_cons, List.getElem?_map, show b.height - x.height = j by omega, hbj]
      rfl

theorem writeByRedo_spec (d : Db) {log : SnapLog} {bs : List Blk}
    (hl : ∀ b ∈ bs, ∃ i l, (log.get b.addr).getD [] = i :: l ∧ ¬ b.height < i.height ∧ (i :: l)[b.height - i.height]? = some b.item)
    (hb : BalOk d.balc d.view) :
    ∃ balc', d.writeByRedo cached log bs = some { d with pend := d.pend ++ bs.map Blk.entry, view := Batch.apply (bs.flatMap Blk.batch) d.view, balc := balc' } ∧
      BalOk balc' (Batch.apply (bs.flatMap Blk.batch) d.view) := by
  induction bs generalizing d with
  | nil =>
    refine ⟨d.balc, ?_, hb⟩
    unfold Db.writeByRedo
    simp [Batch.apply_nil]
  | cons b bs ih =>
    obtain ⟨i, l, h1, h2, h3⟩ := hl b List.mem_cons_self
    unfold Db.writeByRedo
    rw [h1]
    simp only [if_neg h2, h3]
    obtain ⟨balc', he, hb'⟩ := ih { (d.caches cached b.batch) with pend := d.pend ++ [(b.hash, b.batch)], view := b.batch.apply d.view }
      (fun c hc => hl c (List.mem_cons_of_mem _ hc)) (hb.upd b.batch)
    refine ⟨balc', ?_, ?_⟩
    · have hs : snapUpd cached b.batch d.snapc = d.snapc := snapUpd_writeBatch ..
      rw [List.flatMap_cons, Batch.apply_append]
      refine Eq.trans ?_ (he.trans ?_)
      · rfl
      · simp only [Db.caches, hs, List.append_assoc]
        rfl
    · rw [List.flatMap_cons, Batch.apply_append]
      exact hb'

/-! ### The step -/

theorem headD_drop (s : List (List Blk)) {h : Nat} : (s.drop h).headD [] = s.getD h [] := by
  rw [List.getD_eq_getElem?_getD, List.headD_eq_head?_getD, List.head?_drop]

theorem step_rollback (h : Nat) : n.step cached (.rollback h) =
    (n.db.rollbackSnapshots cached h (n.led.chunks h) (if n.db.hasRedo (h + 1) then (n.led.snaps.drop h).headD [] else [])).map
      (fun d => ⟨⟨n.led.snaps.take h, if n.db.hasRedo (h + 1) then (n.led.snaps.drop h).headD [] else []⟩, d⟩) := rfl

/-- What a batch of a rollback does. -/
theorem Inv.batch (hi : Inv cached top n) {h : Nat} (hh : h < n.led.snaps.length)
    (hs : n.db.hasRedo (h + 1) = true ∨ n.led.DeepSafe h) {bt : Batch}
    (hbt : bt = if (n.db.queryLog (h + 1)).2 then n.db.redoBatch cached h (n.led.chunks h) else n.db.deepBatch h (n.led.chunks h)) :
    bt.apply (target n.led.snaps n.led.unconf) = target (n.led.snaps.take h) [] ∧
    (∀ a k, ∀ r ∈ bt, isHist a k r.key = true → r.val = none) ∧
    (∀ a k, slotAfter (n.led.snaps.drop h).flatten a (.stor k) ≠ none → ∃ r ∈ bt, isHist a k r.key = true) := by
  have hw : ∀ a k, slotAfter (n.led.snaps.drop h).flatten a (.stor k) ≠ none →
      ∃ j, h ≤ j ∧ j < n.led.snaps.length ∧ ∃ b ∈ n.led.snaps.getD j [], b.addr = a ∧ ∃ w ∈ b.writes, w.1 = .stor k := by
    intro a k hne
    rw [Ne, slotAfter_none] at hne
    push Not at hne
    obtain ⟨b, hb, hba, w, hw, hwk⟩ := hne
    obtain ⟨j, h1, h2, h3⟩ := mem_drop_flatten.mp hb
    exact ⟨j, h1, h2, b, h3, hba, w, hw, hwk⟩
  rw [queryLog_snd] at hbt
  by_cases hr : n.db.hasRedo (h + 1) = true
  · rw [if_pos hr] at hbt
    have hl := hi.logsOk hh hr
    unfold Db.redoBatch at hbt
    simp only at hbt
    rw [recoverLatest_eq cached false h h hi.view (by simp)] at hbt
    refine ⟨?_, ?_, ?_⟩
    · rw [hbt]
      exact target_redo (by omega) hl hi.distinct.once
    · intro a k r hrm hk
      rw [hbt, List.mem_append] at hrm
      rcases hrm with hrm | hrm
      · obtain ⟨x, hx, hrx⟩ := List.mem_flatMap.mp hrm
        rcases hl.sound x hx with ⟨j, _, _, _, hok⟩ | ⟨_, hok⟩
        · obtain ⟨b, _, ⟨w, _, rfl⟩ | ⟨o, _, rfl⟩⟩ := (rollbackByRedo_mem hok).mp hrx <;> rfl
        · obtain ⟨b, _, ⟨w, _, rfl⟩ | ⟨o, _, rfl⟩⟩ := (rollbackByRedo_mem hok).mp hrx <;> rfl
      · obtain ⟨x, _, rfl⟩ := List.mem_map.mp hrm
        simp [isHist] at hk
    · intro a k hne
      obtain ⟨j, h1, h2, b, hb, hba, w, hwm, hwk⟩ := hw a k hne
      obtain ⟨x, hx, he, hok⟩ := hl.snap j h1 h2
      refine ⟨⟨.hist b.addr w.1 (j + 1), none⟩, ?_, ?_⟩
      · rw [hbt, List.mem_append]
        left
        refine List.mem_flatMap.mpr ⟨x, hx, ?_⟩
        rw [he]
        exact (rollbackByRedo_mem hok).mpr ⟨b, hb, Or.inl ⟨w, hwm, rfl⟩⟩
      · rw [isHist_iff]
        exact ⟨j + 1, by rw [hba, hwk]⟩
  · rw [if_neg hr] at hbt
    have hs' := hs.resolve_left hr
    have hlen := chunks_length n.led h
    have htop : n.led.snaps.length ≤ h + (n.led.chunks h).length := by omega
    have hmem := mem_deepBatch hi.view hi.dom (chunks_blocks n.led h) htop (hi.oldOk hh) hs'
    refine ⟨?_, ?_, ?_⟩
    · rw [hbt]
      exact target_deep hi.view hi.dom (by omega) (chunks_blocks n.led h) htop (hi.oldOk hh) hs' hi.distinct.once
    · intro a k r hrm hk
      rw [hbt, hmem] at hrm
      obtain ⟨b, _, ⟨o, _, rfl⟩ | ⟨f, hf⟩⟩ := hrm
      · rfl
      · cases hf with
        | lat _ e => subst e; simp [isHist] at hk
        | his j _ _ _ e => subst e; rfl
    · intro a k hne
      obtain ⟨j, h1, h2, b, hb, hba, w, hwm, hwk⟩ := hw a k hne
      have ht : target n.led.snaps n.led.unconf (.hist a (.stor k) (j + 1)) ≠ none := by
        simp only [target, Nat.add_sub_cancel]
        rw [if_neg (by omega), Ne, slotAfter_none]
        push Not
        exact ⟨b, hb, hba, w, hwm, hwk⟩
      refine ⟨⟨.hist a (.stor k) (j + 1), none⟩, ?_, isHist_iff.mpr ⟨_, rfl⟩⟩
      rw [hbt, hmem]
      refine ⟨b, List.mem_append.mpr (Or.inl (mem_drop_flatten.mpr ⟨j, h1, h2, hb⟩)), Or.inr ⟨.stor k, ?_⟩⟩
      rw [hba]
      exact .his (j + 1) (by omega) (by omega) ht rfl

theorem Inv.rollback (hi : Inv cached top n) {h : Nat} (ha : n.led.Allows (.rollback h))
    (hs : n.db.hasRedo (h + 1) = true ∨ n.led.DeepSafe h) :
    ∃ n', n.step cached (.rollback h) = some n' ∧
      n'.led = ⟨n.led.snaps.take h, if n.db.hasRedo (h + 1) then n.led.snaps.getD h [] else []⟩ ∧ Inv cached top n' := by
  obtain ⟨_, hh⟩ := ha
  obtain ⟨h1, h2, h3⟩ := hi.batch hh hs rfl
  rw [step_rollback]
  rw [headD_drop]
  generalize hbt : (if (n.db.queryLog (h + 1)).2 then n.db.redoBatch cached h (n.led.chunks h) else n.db.deepBatch h (n.led.chunks h)) = bt at h1 h2 h3
  generalize hag : (if n.db.hasRedo (h + 1) then n.led.snaps.getD h [] else []) = again
  generalize hlog : (n.db.queryLog (h + 1)).1 = log
  have hsplit : n.led.all = (n.led.snaps.take h).flatten ++ (n.led.snaps.getD h [] ++ ((n.led.snaps.drop (h + 1)).flatten ++ n.led.unconf)) := by
    unfold Ledger.all
    rw [split_all _ _ h, List.drop_eq_getElem_cons hh, List.flatten_cons, List.append_assoc, List.getD_eq_getElem?_getD, List.getElem?_eq_getElem hh]
    rfl
  have hok : LogOk log again := by
    rw [← hlog, ← hag]
    by_cases hr : n.db.hasRedo (h + 1) = true
    · rw [if_pos hr]
      exact hi.redo.query hh hr (Nat.le_refl _) hh
    · rw [if_neg hr, RedoInv.query_none (by simpa using hr)]
      exact LogOk.nil
  have hag' : ∀ b ∈ again, again = n.led.snaps.getD h [] := by
    intro b hb
    rw [← hag] at hb ⊢
    split at hb
    · rename_i hr; rw [if_pos hr]
    · simp at hb
  have hlook : ∀ b ∈ again, ∃ i l, (log.get b.addr).getD [] = i :: l ∧ ¬ b.height < i.height ∧ (i :: l)[b.height - i.height]? = some b.item := by
    intro b hb
    have he := hag' b hb
    have := hi.numbered
    rw [hsplit, ← he] at this
    exact lookup_item this hok hb
  obtain ⟨cache', logs', hrr, hredo⟩ := RedoInv.rollback (d := { (n.db.caches cached bt) with
      conf := bt.apply ((pendAll n.db.pend).apply n.db.conf), pend := [], view := bt.apply n.db.view }) hi.redo hh
    (chunks_heights n.led (by omega)) hok
  have hview : bt.apply n.db.view = target (n.led.snaps.take h) [] := by rw [hi.view]; exact h1
  have hpend : pendAll n.db.pend = n.led.unconf.flatMap Blk.batch := by
    unfold pendAll
    rw [hi.pend, List.flatMap_map]
    rfl
  have hconf : bt.apply ((pendAll n.db.pend).apply n.db.conf) = target (n.led.snaps.take h) [] := by
    rw [hpend, hi.conf, target_blocks, List.nil_append]; exact h1
  obtain ⟨balc', he, hb'⟩ := writeByRedo_spec (cached := cached) (log := log) (bs := again)
    (Db.initSnapCache { (n.db.caches cached bt) with
      conf := bt.apply ((pendAll n.db.pend).apply n.db.conf), pend := [], view := bt.apply n.db.view, cache := cache', cur := h + 1, logs := logs' } cached)
    hlook (hi.bal.upd bt)
  have hw : n.db.rollbackSnapshots cached h (n.led.chunks h) again = (Db.initSnapCache { (n.db.caches cached bt) with
      conf := bt.apply ((pendAll n.db.pend).apply n.db.conf), pend := [], view := bt.apply n.db.view, cache := cache', cur := h + 1, logs := logs' } cached).writeByRedo cached log again := by
    unfold Db.rollbackSnapshots
    simp only [hbt, hlog]
    exact congrArg (fun d => (Db.initSnapCache d cached).writeByRedo cached log again) hrr
  rw [hw, he]
  refine ⟨_, rfl, rfl, ?_⟩
  have hpre : ∃ r, n.led.all = ((n.led.snaps.take h).flatten ++ again) ++ r := by
    by_cases hr : n.db.hasRedo (h + 1) = true
    · rw [if_pos hr] at hag
      refine ⟨(n.led.snaps.drop (h + 1)).flatten ++ n.led.unconf, ?_⟩
      rw [hsplit, hag, List.append_assoc]
    · rw [if_neg hr] at hag
      refine ⟨n.led.snaps.getD h [] ++ ((n.led.snaps.drop (h + 1)).flatten ++ n.led.unconf), ?_⟩
      rw [hsplit, ← hag, List.append_nil]
  obtain ⟨r, hr⟩ := hpre
  refine ⟨?_, ?_, ?_, hconf, rfl, hredo, ?_, ?_, ?_⟩
  · refine hi.numbered.prefix (fun a => ⟨r.filter (fun b => decide (b.addr = a)), ?_⟩)
    rw [hr, List.filter_append]
    rfl
  · refine hi.distinct.sublist ?_
    rw [hr]
    exact List.sublist_append_left _ _
  · show Batch.apply (again.flatMap Blk.batch) (bt.apply n.db.view) = target (n.led.snaps.take h) again
    rw [hview, target_blocks, List.nil_append]
  · exact hb'
  · have := hi.snap.rollback (h := h) h2 h3
    rw [← hview] at this
    exact this
  · intro a f hne
    apply hi.dom a f
    simp only at hne
    have : n.led.snaps.flatten = (n.led.snaps.take h).flatten ++ (n.led.snaps.drop h).flatten := by
      rw [← List.flatten_append, List.take_append_drop]
    rw [this, slotAfter_append]
    cases slotAfter (n.led.snaps.drop h).flatten a f with
    | some v => simp
    | none => simpa using hne

end Verif.State
