import Verif.State.DbInv

/-! The redo logs: what is kept, over all changes. -/

namespace Verif.State
open Verif.Bytes

/-- The redo logs are those of the ledger. -/
structure RedoInv (cache : Table Nat SnapLog) (cur : Nat) (logs : Table Nat SnapLog) (snaps : List (List Blk)) (unconf : List Blk) (top : Nat) : Prop where
  curr : cur = snaps.length + 1
  proper : cache.Proper
  now : ∃ l, cache.get cur = some l ∧ LogOk l unconf
  /-- in memory -/
  cached : ∀ h l, h ≤ snaps.length → cache.get h = some l → 1 ≤ h ∧ LogOk l (snaps.getD (h - 1) [])
  /-- on disk -/
  stored : ∀ h l, logs.get h = some l → 1 ≤ h ∧ LogOk l (snaps.getD (h - 1) [])
  kept : ∃ lo, (lo ≤ snaps.length ∧ lo ≤ top - retain ∧ snaps.length ≤ lo + retain) ∧ (∀ h, (logs.get h).isSome ↔ lo < h ∧ h ≤ snaps.length) ∧ ∀ h, h ≤ snaps.length → (cache.get h).isSome → lo < h
  run : ∀ h h', h ≤ h' → h' ≤ cur → (cache.get h).isSome → (cache.get h').isSome
  win : ∀ h, h ≤ cur → (cache.get h).isSome → cur < h + gap

theorem RedoInv.start : RedoInv [(1, [])] 1 [] [] [] 0 := by
  refine ⟨rfl, by simp [Table.Proper], ⟨[], rfl, LogOk.nil⟩, ?_, ?_, ⟨0, ?_, ?_, ?_⟩, ?_, ?_⟩
  · intro h l hh hc
    simp only [List.length_nil, Nat.le_zero] at hh
    subst hh
    simp [Table.get] at hc
  · intro h l hc; simp [Table.get] at hc
  · simp
  · intro h; simp only [Table.get, Option.isSome_none, Bool.false_eq_true, List.length_nil, false_iff]; omega
  · intro h hh hc
    simp only [List.length_nil, Nat.le_zero] at hh
    subst hh
    simp [Table.get] at hc
  · intro h h' h1 h2 hc
    have : h = 1 := by
      by_contra q
      simp [Table.get, Ne.symm q] at hc
    have : h' = 1 := by omega
    subst this; rfl
  · intro h h1 hc
    have : h = 1 := by
      by_contra q
      simp [Table.get, Ne.symm q] at hc
    subst this
    decide

variable {cache logs : Table Nat SnapLog} {cur top : Nat} {snaps : List (List Blk)} {unconf : List Blk}

/-- The process ends and starts again. -/
theorem RedoInv.restart (hi : RedoInv cache cur logs snaps unconf top) :
    RedoInv [(snaps.length + 1, [])] (snaps.length + 1) logs snaps [] top := by
  have hone : ∀ h, (Table.get h ([(snaps.length + 1, [])] : Table Nat SnapLog)).isSome → h = snaps.length + 1 := by
    intro h hc
    by_contra q
    simp [Table.get, Ne.symm q] at hc
  obtain ⟨lo, h1, h2, _⟩ := hi.kept
  refine ⟨rfl, by simp [Table.Proper], ⟨[], by simp [Table.get], LogOk.nil⟩, ?_, hi.stored, ⟨lo, h1, h2, ?_⟩, ?_, ?_⟩
  · intro h l hh hc
    have := hone h (by rw [hc]; rfl)
    omega
  · intro h hh hc
    have := hone h hc
    omega
  · intro h h' h1 h2 hc
    have := hone h hc
    have : h' = snaps.length + 1 := by omega
    subst this; simp [Table.get]
  · intro h h1 hc
    have := hone h hc
    subst this
    unfold gap; omega

/-- Replacing the log of the unconfirmed blocks. -/
theorem RedoInv.put (hi : RedoInv cache cur logs snaps unconf top) {l : SnapLog} {unconf' : List Blk} (hl : LogOk l unconf') :
    RedoInv (cache.put cur l) cur logs snaps unconf' top := by
  have hcs : ∀ h, ((cache.put cur l).get h).isSome ↔ (cache.get h).isSome := by
    intro h
    rw [Table.get_put]
    split
    · rename_i q
      obtain ⟨l', hl', _⟩ := hi.now
      subst q
      rw [hl']; simp
    · rfl
  obtain ⟨lo, h1, h2, h3⟩ := hi.kept
  refine ⟨hi.curr, Table.proper_put _ _ hi.proper, ⟨l, Table.get_put_self .., hl⟩, ?_, hi.stored, ⟨lo, h1, h2, ?_⟩, ?_, ?_⟩
  · intro h l' hh hc
    rw [Table.get_put_ne (by have := hi.curr; omega)] at hc
    exact hi.cached h l' hh hc
  · intro h hh hc
    exact h3 h hh ((hcs h).mp hc)
  · intro h h' h1 h2 hc
    exact (hcs h').mpr (hi.run h h' h1 h2 ((hcs h).mp hc))
  · intro h h1 hc
    exact hi.win h h1 ((hcs h).mp hc)

/-- `SetCurrent` without the removal of old logs, then the removal. -/
theorem RedoInv.purge (h0 : Nat) (hp : cache.Proper) (hcurr : cur = snaps.length + 1)
    (hnow : ∃ l, cache.get cur = some l ∧ LogOk l unconf)
    (hcached : ∀ h l, h ≤ snaps.length → cache.get h = some l → 1 ≤ h ∧ LogOk l (snaps.getD (h - 1) []))
    (hstored : ∀ h l, logs.get h = some l → 1 ≤ h ∧ LogOk l (snaps.getD (h - 1) []))
    (hkept : ∃ lo, (lo ≤ snaps.length ∧ lo ≤ top - retain ∧ snaps.length ≤ lo + retain) ∧ (∀ h, (logs.get h).isSome ↔ lo < h ∧ h ≤ snaps.length) ∧ ∀ h, h ≤ snaps.length → (cache.get h).isSome → lo < h)
    (hrun : ∀ h h', h ≤ h' → h' ≤ cur → (cache.get h).isSome → (cache.get h').isSome) (h0e : h0 = cur) :
    RedoInv (if cache.length > gap ∧ h0 > gap then cache.filter (fun e => decide (e.1 > h0 - gap)) else cache) cur logs snaps unconf top := by
  subst h0e
  split
  · rename_i hg
    have hget : ∀ h, Table.get h (cache.filter (fun e => decide (e.1 > h0 - gap))) = if h > h0 - gap then cache.get h else none := by
      intro h
      rw [get_filter (fun h => decide (h > h0 - gap))]
      simp only [decide_eq_true_eq]
    have hgap : gap = 12 := rfl
    obtain ⟨lo, h1, h2, h3⟩ := hkept
    refine ⟨hcurr, proper_filter _ hp, ?_, ?_, hstored, ⟨lo, h1, h2, ?_⟩, ?_, ?_⟩
    · obtain ⟨l, hl, hok⟩ := hnow
      refine ⟨l, ?_, hok⟩
      rw [hget, if_pos (by omega)]; exact hl
    · intro h l hh hc
      rw [hget] at hc
      split at hc
      · exact hcached h l hh hc
      · simp at hc
    · intro h hh hc
      rw [hget] at hc
      split at hc
      · exact h3 h hh hc
      · simp at hc
    · intro h h' hle hle' hc
      rw [hget] at hc
      split at hc
      · rw [hget, if_pos (by omega)]
        exact hrun h h' hle hle' hc
      · simp at hc
    · intro h hle hc
      rw [hget] at hc
      split at hc
      · omega
      · simp at hc
  · rename_i hg
    refine ⟨hcurr, hp, hnow, hcached, hstored, hkept, hrun, ?_⟩
    intro h hle hc
    by_contra hw
    have hlen := length_of_run (t := cache) (a := h) (n := h0) (fun j hj hj' => hrun h j hj hj' hc)
    have h1 : 1 ≤ h := by
      obtain ⟨l, hl⟩ := Option.isSome_iff_exists.mp hc
      have hgap : gap = 12 := rfl
      exact (hcached h l (by omega) hl).1
    exact hg ⟨by omega, by omega⟩

theorem logOk_nil_blocks {bs : List Blk} (h : LogOk [] bs) : bs = [] := by
  cases bs with
  | nil => rfl
  | cons b bs =>
    have := h.items b.addr
    simp [Table.get, itemsOf] at this

/-- A snapshot. -/
theorem redoInsert_spec {d : Db} (hi : RedoInv d.cache d.cur d.logs snaps unconf top) {cs rest : List Blk} (hr : Rising unconf)
    (hf : ∀ a, unconf.filter (fun c => decide (c.addr = a)) = cs.filter (fun c => decide (c.addr = a)) ++ rest.filter (fun c => decide (c.addr = a)))
    (hp : unconf.Perm (cs ++ rest)) :
    ∃ this cache' logs', d.redoInsert (snaps.length + 1) cs = some (this, { d with cache := cache', logs := logs', cur := snaps.length + 2 }) ∧
      RedoInv cache' (snaps.length + 2) logs' (snaps ++ [cs]) rest (max top (snaps.length + 1)) := by
  obtain ⟨next, hnow, hok⟩ := hi.now
  have hsplit : ∃ this next', (if next.length > 0 then splitLog cs.reverse [] next else some ([], next)) = some (this, next') ∧
      LogOk this cs ∧ LogOk next' rest := by
    split
    · exact splitLog_spec hr hf cs.reverse [] (by simp) [] next (by simp [Table.Proper]) hok.proper (by simp [Table.get]) (by simp) (fun a _ => hok.items a)
    · rename_i hl
      have hn : next = [] := by
        cases next with
        | nil => rfl
        | cons x t => simp at hl
      subst hn
      have hu := logOk_nil_blocks hok
      rw [hu] at hp
      have hp' := hp.symm.eq_nil
      rw [List.append_eq_nil_iff] at hp'
      refine ⟨[], [], rfl, ?_, ?_⟩
      · rw [hp'.1]; exact LogOk.nil
      · rw [hp'.2]; exact LogOk.nil
  obtain ⟨this, next', hs, hthis, hnext⟩ := hsplit
  unfold Db.redoInsert Db.setCurrent
  rw [hnow]
  simp only [hs]
  refine ⟨this, _, _, rfl, ?_⟩
  have hlen : (snaps ++ [cs]).length = snaps.length + 1 := by simp
  have hget : ∀ h, ((d.cache.put (snaps.length + 1) this).put (snaps.length + 1 + 1) next').get h =
      if h = snaps.length + 1 + 1 then some next' else if h = snaps.length + 1 then some this else d.cache.get h := by
    intro h
    rw [Table.get_put, Table.get_put]
  have hgetL : ∀ h, Table.get h (if snaps.length + 1 > retain then rm (snaps.length + 1 - retain) (d.logs.put (snaps.length + 1) this) else d.logs.put (snaps.length + 1) this) =
      if snaps.length + 1 > retain ∧ h = snaps.length + 1 - retain then none else if h = snaps.length + 1 then some this else d.logs.get h := by
    intro h
    by_cases q : snaps.length + 1 > retain
    · rw [if_pos q, get_rm, Table.get_put]
      by_cases q1 : h = snaps.length + 1 - retain
      · rw [if_pos q1, if_pos ⟨q, q1⟩]
      · have q2 : ¬ (snaps.length + 1 > retain ∧ h = snaps.length + 1 - retain) := fun w => q1 w.2
        rw [if_neg q1, if_neg q2]
    · have q2 : ¬ (snaps.length + 1 > retain ∧ h = snaps.length + 1 - retain) := fun w => q w.1
      rw [if_neg q, if_neg q2, Table.get_put]
  have hgap : gap = 12 := rfl
  have hret : retain = 1200 := rfl
  have hcur := hi.curr
  obtain ⟨lo, h1, h2, h3⟩ := hi.kept
  have hgd : ∀ j, j < snaps.length → (snaps ++ [cs]).getD j [] = snaps.getD j [] := by
    intro j hj
    rw [List.getD_eq_getElem?_getD, List.getD_eq_getElem?_getD, List.getElem?_append_left hj]
  have hgl : (snaps ++ [cs]).getD snaps.length [] = cs := by
    rw [List.getD_eq_getElem?_getD, List.getElem?_append_right (Nat.le_refl _)]; simp
  refine RedoInv.purge _ (Table.proper_put _ _ (Table.proper_put _ _ hi.proper)) (by rw [hlen]) ⟨next', by rw [hget, if_pos rfl], hnext⟩ ?_ ?_ ?_ ?_ rfl
  · intro h l hh hc
    rw [hlen] at hh
    rw [hget, if_neg (by omega)] at hc
    by_cases q : h = snaps.length + 1
    · rw [if_pos q] at hc
      simp only [Option.some.injEq] at hc
      subst hc; subst q
      rw [Nat.add_sub_cancel, hgl]
      exact ⟨by omega, hthis⟩
    · rw [if_neg q] at hc
      have := hi.cached h l (by omega) hc
      rw [hgd _ (by omega)]
      exact this
  · intro h l hc
    rw [hgetL] at hc
    split at hc
    · simp at hc
    · split at hc
      · rename_i q
        simp only [Option.some.injEq] at hc
        subst hc; subst q
        rw [Nat.add_sub_cancel, hgl]
        exact ⟨by omega, hthis⟩
      · have := hi.stored h l hc
        have hb := (h2 h).mp (by rw [hc]; rfl)
        rw [hgd _ (by omega)]
        exact this
  · refine ⟨max lo (snaps.length + 1 - retain), by rw [hlen]; omega, ?_, ?_⟩
    · intro h
      rw [hlen, hgetL]
      split
      · rename_i q
        simp only [Option.isSome_none, Bool.false_eq_true, false_iff]
        omega
      · rename_i q
        split
        · rename_i q'
          simp only [Option.isSome_some, true_iff]
          omega
        · rename_i q'
          rw [h2]
          constructor
          · rintro ⟨w1, w2⟩
            refine ⟨?_, by omega⟩
            -- the removed log was the lowest one
            by_cases w : snaps.length + 1 > retain
            · by_contra hlow
              have hx : h < snaps.length + 1 - retain := by
                rcases Nat.lt_trichotomy h (snaps.length + 1 - retain) with w' | w' | w'
                · exact w'
                · exact absurd ⟨w, w'⟩ q
                · omega
              exact absurd hx (by omega)
            · omega
          · rintro ⟨w1, w2⟩
            omega
    · intro h hh hc
      rw [hlen] at hh
      rw [hget, if_neg (by omega)] at hc
      by_cases q : h = snaps.length + 1
      · subst q; omega
      · rw [if_neg q] at hc
        have e1 := h3 h (by omega) hc
        have e2 := hi.win h (by omega) hc
        omega
  · intro h h' hle hle' hc
    rw [hget]
    by_cases q1 : h' = snaps.length + 1 + 1
    · rw [if_pos q1]; rfl
    · rw [if_neg q1]
      by_cases q2 : h' = snaps.length + 1
      · rw [if_pos q2]; rfl
      · rw [if_neg q2]
        rw [hget, if_neg (by omega), if_neg (by omega)] at hc
        exact hi.run h h' hle (by omega) hc

/-- `SetCurrent` at the height of the unconfirmed blocks. -/
theorem RedoInv.setCurrent {d : Db} (hi : RedoInv d.cache d.cur d.logs snaps unconf top) {l : SnapLog} {unconf' : List Blk} (hl : LogOk l unconf') :
    RedoInv (d.setCurrent (snaps.length + 1) l).cache (d.setCurrent (snaps.length + 1) l).cur (d.setCurrent (snaps.length + 1) l).logs snaps unconf' top := by
  have hp := hi.put hl
  rw [hi.curr] at hp
  exact RedoInv.purge _ hp.proper rfl hp.now hp.cached hp.stored hp.kept hp.run rfl

theorem redoRollback_spec (d : Db) (hs : List Nat) : ∃ cache' cur' logs', d.redoRollback hs = { d with cache := cache', cur := cur', logs := logs' } ∧
    (∀ k, cache'.get k = if k ∈ hs then none else d.cache.get k) ∧ (∀ k, logs'.get k = if k ∈ hs then none else d.logs.get k) ∧
    (d.cache.Proper → cache'.Proper) := by
  induction hs generalizing d with
  | nil => exact ⟨d.cache, d.cur, d.logs, rfl, by simp, by simp, id⟩
  | cons h hs ih =>
    unfold Db.redoRollback
    obtain ⟨c, u, l, he, hc, hl, hp⟩ := ih { d with cache := rm h d.cache, cur := if d.cur ≥ h then d.cur - 1 else d.cur, logs := rm h d.logs }
    refine ⟨c, u, l, he, ?_, ?_, fun q => hp (proper_rm _ q)⟩
    · intro k
      rw [hc]
      simp only [get_rm, List.mem_cons]
      by_cases q1 : k = h <;> by_cases q2 : k ∈ hs <;> simp [q1, q2]
    · intro k
      rw [hl]
      simp only [get_rm, List.mem_cons]
      by_cases q1 : k = h <;> by_cases q2 : k ∈ hs <;> simp [q1, q2]

/-- A rollback of snapshots. -/
theorem RedoInv.rollback {d : Db} (hi : RedoInv d.cache d.cur d.logs snaps unconf top) {h : Nat} (hh : h < snaps.length) {hs : List Nat}
    (hhs : ∀ k, k ∈ hs ↔ h < k ∧ k ≤ snaps.length) {l : SnapLog} {unconf' : List Blk} (hl : LogOk l unconf') :
    ∃ cache' logs', (d.redoRollback hs).setCurrent (h + 1) l = { d with cache := cache', cur := h + 1, logs := logs' } ∧
      RedoInv cache' (h + 1) logs' (snaps.take h) unconf' top := by
  obtain ⟨c, u, lg, he, hc, hlg, hp⟩ := redoRollback_spec d hs
  have hlen : (snaps.take h).length = h := by rw [List.length_take]; omega
  have hgd : ∀ j, j < h → (snaps.take h).getD j [] = snaps.getD j [] := by
    intro j hj
    rw [List.getD_eq_getElem?_getD, List.getD_eq_getElem?_getD, List.getElem?_take_of_lt hj]
  rw [he]
  unfold Db.setCurrent
  simp only
  refine ⟨_, _, rfl, ?_⟩
  have hcur := hi.curr
  have hget : ∀ k, k ≤ h → (c.put (h + 1) l).get k = d.cache.get k := by
    intro k hk
    rw [Table.get_put_ne (by omega), hc, if_neg (by rw [hhs]; omega)]
  obtain ⟨lo, h1, h2, h3⟩ := hi.kept
  refine RedoInv.purge _ (Table.proper_put _ _ (hp hi.proper)) (by rw [hlen]) ⟨l, Table.get_put_self .., hl⟩ ?_ ?_ ?_ ?_ rfl
  · intro k l' hk hg
    rw [hlen] at hk
    rw [hget k hk] at hg
    have := hi.cached k l' (by omega) hg
    rw [hgd _ (by omega)]
    exact this
  · intro k l' hg
    rw [hlg] at hg
    split at hg
    · simp at hg
    · rename_i q
      rw [hhs] at q
      have := hi.stored k l' hg
      have hb := (h2 k).mp (by rw [hg]; rfl)
      rw [hgd _ (by omega)]
      exact this
  · refine ⟨min lo h, by rw [hlen]; omega, ?_, ?_⟩
    · intro k
      rw [hlen, hlg]
      split
      · rename_i q
        rw [hhs] at q
        simp only [Option.isSome_none, Bool.false_eq_true, false_iff]
        omega
      · rename_i q
        rw [hhs] at q
        rw [h2]
        omega
    · intro k hk hg
      rw [hlen] at hk
      rw [hget k hk] at hg
      have := h3 k (by omega) hg
      omega
  · intro k k' hle hle' hg
    by_cases q : k' = h + 1
    · subst q; rw [Table.get_put_self]; rfl
    · rw [hget k' (by omega)]
      rw [hget k (by omega)] at hg
      exact hi.run k k' hle (by omega) hg

theorem queryLog_snd (d : Db) (h : Nat) : (d.queryLog h).2 = d.hasRedo h := by
  unfold Db.queryLog Db.hasRedo
  cases d.cache.get h with
  | some l => rfl
  | none =>
    cases d.logs.get h with
    | some l => rfl
    | none => rfl

/-- The log of the unconfirmed blocks. -/
theorem RedoInv.query_now {d : Db} (hi : RedoInv d.cache d.cur d.logs snaps unconf top) :
    ∃ l, d.queryLog (snaps.length + 1) = (l, true) ∧ LogOk l unconf := by
  obtain ⟨l, hl, hok⟩ := hi.now
  refine ⟨l, ?_, hok⟩
  unfold Db.queryLog
  rw [hi.curr] at hl
  rw [hl]

/-- If there is a redo log for a height, then for all later ones, and they are right. -/
theorem RedoInv.query {d : Db} (hi : RedoInv d.cache d.cur d.logs snaps unconf top) {h : Nat} (hh : h < snaps.length)
    (hr : d.hasRedo (h + 1) = true) {j : Nat} (hj : h ≤ j) (hj' : j < snaps.length) :
    LogOk (d.queryLog (j + 1)).1 (snaps.getD j []) := by
  obtain ⟨lo, h1, h2, h3⟩ := hi.kept
  have hlo : lo < h + 1 := by
    unfold Db.hasRedo at hr
    simp only [Bool.or_eq_true, Nat.add_sub_cancel] at hr
    rcases hr with (hr | hr) | hr
    · exact h3 _ (by omega) hr
    · exact ((h2 _).mp hr).1
    · have := ((h2 _).mp hr).1; omega
  unfold Db.queryLog
  cases hc : d.cache.get (j + 1) with
  | some l => exact (hi.cached (j + 1) l (by omega) hc).2
  | none =>
    have hs := (h2 (j + 1)).mpr ⟨by omega, by omega⟩
    obtain ⟨l, hl⟩ := Option.isSome_iff_exists.mp hs
    rw [hl]
    exact (hi.stored (j + 1) l hl).2

/-- When there is a redo log. -/
theorem RedoInv.has {d : Db} (hi : RedoInv d.cache d.cur d.logs snaps unconf top) {h : Nat} (hh : h < snaps.length) (ht : top ≤ h + retain) :
    d.hasRedo (h + 1) = true := by
  obtain ⟨lo, h1, h2, h3⟩ := hi.kept
  unfold Db.hasRedo
  have := (h2 (h + 1)).mpr ⟨by omega, by omega⟩
  rw [this]
  simp

theorem RedoInv.query_none {d : Db} {h : Nat} (hr : d.hasRedo h = false) : (d.queryLog h).1 = [] := by
  unfold Db.hasRedo at hr
  unfold Db.queryLog
  simp only [Bool.or_eq_false_iff] at hr
  cases hc : d.cache.get h with
  | some l => rw [hc] at hr; simp at hr
  | none =>
    cases hl : d.logs.get h with
    | some l => rw [hl] at hr; simp at hr
    | none => rfl

end Verif.State
