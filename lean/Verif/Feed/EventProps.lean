import Verif.Feed.EventLemmas

/-! # What subscribers are told (C103) -/

namespace Verif.Feed

open Spec (OnRoad Good)

theorem filter_flatMap {X : Type} (p : Ev → Bool) (g : Ev → X) : ∀ evs : List Ev, (evs.filter p).map g = evs.flatMap fun e => if p e then [g e] else []
  | [] => rfl
  | e :: evs => by
    rw [List.flatMap_cons, ← filter_flatMap p g evs]
    by_cases h : p e = true
    · simp [h]
    · simp [h]

theorem delEv_hash (kept : Nat → Bool) (e : Ev) : (delEv kept e).hash = e.hash := by unfold delEv; split <;> rfl
theorem delEv_height (kept : Nat → Bool) (e : Ev) : (delEv kept e).height = e.height := by unfold delEv; split <;> rfl
theorem delEv_addr (kept : Nat → Bool) (e : Ev) : (delEv kept e).addr = e.addr := by unfold delEv; split <;> rfl

/-- **C103 (part).** For every history and every choice of the loop: when all events are through, a subscriber to account blocks has been told of each block as often as it came, and of each removal as often as it went — what was there at first and was announced is what was revoked and what is there. -/
theorem blocks_told_exact (kept : Nat → Bool) (s0 s : FSt) (h0 : Fresh s0) (h : Spec.Reach kept s0 s) (hd : Spec.Drained s) (hash : Nat) :
    (s0.ledger.map (·.hash)).count hash + Spec.told (accMsgs blockMsgs s.got) false hash =
      Spec.told (accMsgs blockMsgs s.got) true hash + (s.ledger.map (·.hash)).count hash := by
  have := balance kept blockMsgs (fun e => [e.hash]) (by intro r evs; simp [blockMsgs, List.map_flatMap, List.flatMap_singleton', ← List.map_eq_flatMap])
    (by intro e; rw [delEv_hash]) s0 s h0 h hd hash
  simpa [← List.map_eq_flatMap] using this

/-- The same for the blocks of one account, with their heights. -/
theorem addr_blocks_told_exact (kept : Nat → Bool) (s0 s : FSt) (h0 : Fresh s0) (h : Spec.Reach kept s0 s) (hd : Spec.Drained s) (a : Nat) (x : Nat × Nat) :
    ((s0.ledger.filter fun e => decide (e.addr = a)).map fun e => (e.hash, e.height)).count x + Spec.told (accMsgs (addrMsgs a) s.got) false x =
      Spec.told (accMsgs (addrMsgs a) s.got) true x + ((s.ledger.filter fun e => decide (e.addr = a)).map fun e => (e.hash, e.height)).count x := by
  have := balance kept (addrMsgs a) (fun e => if decide (e.addr = a) then [(e.hash, e.height)] else [])
    (by
      intro r evs
      unfold addrMsgs
      rw [← filter_flatMap]
      simp [List.map_map, Function.comp_def])
    (by intro e; rw [delEv_hash, delEv_height, delEv_addr]) s0 s h0 h hd x
  rw [filter_flatMap, filter_flatMap]
  exact this

/-- The same for snapshot blocks. -/
theorem snapshots_told_exact (kept : Nat → Bool) (s0 s : FSt) (h0 : Fresh s0) (h : Spec.Reach kept s0 s) (hd : Spec.Drained s) (x : Nat × Nat) :
    s0.snaps.count x + Spec.told (sbMsgs s.got) false x = Spec.told (sbMsgs s.got) true x + s.snaps.count x := by
  have hp := (flow_reach kept s0 s h0 h).snap
  rw [hd.2.2.1, hd.2.2.2] at hp
  simp only [List.flatten_nil, List.append_nil] at hp
  have hc := hp.count_eq x
  rw [List.count_append, List.count_append] at hc
  rw [told_snap_eq, told_snap_eq]
  exact hc

theorem pass_iff (ranges : List (Nat × HRange)) (hn : (ranges.map (·.1)).Nodup) (topics : List (List Nat)) (e : Ev) :
    LogParam.pass ⟨some ranges, topics⟩ e = true ↔ Spec.InRanges ranges e := by
  unfold LogParam.pass Spec.InRanges
  dsimp only
  generalize hf : (ranges.find? fun x => decide (x.1 = e.addr)) = o
  cases o with
  | none =>
    rw [List.find?_eq_none] at hf
    simp only [Bool.false_eq_true, false_iff, not_exists, not_and]
    intro x hx h
    exact absurd h (by simpa using hf x hx)
  | some x =>
    have hx : x.1 = e.addr := by simpa using List.find?_some hf
    have hxm := List.mem_of_find?_eq_some hf
    dsimp only
    simp only [Bool.not_eq_true', Bool.or_eq_false_iff, Bool.and_eq_false_iff, decide_eq_false_iff_not]
    constructor
    · intro h
      refine ⟨x, hxm, hx, ?_⟩
      omega
    · rintro ⟨y, h1, h2, h3⟩
      have : y = x := List.inj_on_of_nodup_map hn h1 hxm (by rw [h2, hx])
      subst this
      omega

theorem logsFor_out (ranges : List (Nat × HRange)) (topics : List (List Nat)) (e : Ev) (h : ¬ Spec.InRanges ranges e) : Spec.logsFor ranges topics e = [] := by
  unfold Spec.logsFor
  rw [List.filter_eq_nil_iff.mpr (fun l _ h' => h (of_decide_eq_true h').1), List.map_nil]

theorem filterLogs_eq (ranges : List (Nat × HRange)) (hn : (ranges.map (·.1)).Nodup) (topics : List (List Nat)) (r : Bool) (e : Ev) :
    filterLogs ⟨some ranges, topics⟩ r e = (Spec.logsFor ranges topics e).map fun y => (y, r) := by
  unfold filterLogs
  by_cases hp : Spec.InRanges ranges e
  · unfold Spec.logsFor
    by_cases hl : e.logs.length = 0
    · have : e.logs = [] := List.length_eq_zero_iff.mp hl
      simp [this]
    · rw [if_neg hl, List.map_map, if_pos ((pass_iff _ hn _ _).mpr hp)]
      have hf : (e.logs.filter fun l => filterLog topics l) =
          e.logs.filter fun l => decide (Spec.InRanges ranges e ∧ Spec.Matches topics l) := by
        apply List.filter_congr
        intro l _
        rw [Bool.eq_iff_iff, filterLog_iff, decide_eq_true_eq]
        exact ⟨fun h => ⟨hp, h⟩, fun h => h.2⟩
      rw [hf]
      simp [Function.comp_def]
  · rw [logsFor_out _ _ _ hp, if_neg (fun h => hp ((pass_iff _ hn _ _).mp h))]
    simp

/-- **C103 (part).** The same for logs, when the node keeps the logs of every contract the filter names. -/
theorem logs_told_exact_partial (kept : Nat → Bool) (ranges : List (Nat × HRange)) (topics : List (List Nat)) (hn : (ranges.map (·.1)).Nodup) (hk : ∀ x ∈ ranges, kept x.1 = true)
    (s0 s : FSt) (h0 : Fresh s0) (h : Spec.Reach kept s0 s) (hd : Spec.Drained s) (x : QOut) :
    (s0.ledger.flatMap (Spec.logsFor ranges topics)).count x + Spec.told (accMsgs (logMsgs ⟨some ranges, topics⟩) s.got) false x =
      Spec.told (accMsgs (logMsgs ⟨some ranges, topics⟩) s.got) true x + (s.ledger.flatMap (Spec.logsFor ranges topics)).count x := by
  refine balance kept (logMsgs ⟨some ranges, topics⟩) (Spec.logsFor ranges topics) ?_ ?_ s0 s h0 h hd x
  · intro r evs
    unfold logMsgs
    rw [List.map_flatMap]
    congr 1
    funext e
    exact filterLogs_eq ranges hn topics r e
  · intro e
    unfold delEv
    split
    · rfl
    · rename_i hno
      have hnot : ¬ Spec.InRanges ranges e := by
        rintro ⟨x, h1, h2, _⟩
        exact hno (by rw [← h2]; exact hk x h1)
      rw [logsFor_out _ _ _ hnot]
      exact logsFor_out _ _ _ hnot

/-- The new blocks that the loop took, and those on their way, are those that came, in that order; and so with the blocks that went. -/
theorem order_kept (kept : Nat → Bool) (s0 s : FSt) (h0 : Fresh s0) (h : Spec.Reach kept s0 s) :
    evsOf false s.got ++ s.ac.flatten = evsOf false s.pushed ∧ evsOf true s.got ++ s.acDel.flatten = evsOf true s.pushed ∧
    sbsOf false s.got ++ s.sb.flatten = sbsOf false s.pushed ∧ sbsOf true s.got ++ s.sbDel.flatten = sbsOf true s.pushed := by
  induction h with
  | start =>
    obtain ⟨h1, h2, h3, h4, h5, h6, h7⟩ := h0
    simp [h2, h3, h4, h5, h6, h7, evsOf, sbsOf]
  | step s s' _ hs ih =>
    obtain ⟨i1, i2, i3, i4⟩ := ih
    cases hs with
    | insertAcc bs _ =>
      refine ⟨?_, ?_, ?_, ?_⟩ <;> simp [FSt.insertAcc, evsOf_append, sbsOf_append, ← i1, ← i2, ← i3, ← i4] <;> simp [evsOf, sbsOf]
    | insertSnap bs =>
      refine ⟨?_, ?_, ?_, ?_⟩ <;> simp [FSt.insertSnap, evsOf_append, sbsOf_append, ← i1, ← i2, ← i3, ← i4] <;> simp [evsOf, sbsOf]
    | dropAcc bs rest _ _ =>
      refine ⟨?_, ?_, ?_, ?_⟩ <;> simp [FSt.dropAcc, FSt.deleteAcc, FSt.prepareAcc, evsOf_append, sbsOf_append, ← i1, ← i2, ← i3, ← i4] <;> simp [evsOf, sbsOf]
    | dropSnap cs rest restS _ _ _ =>
      unfold FSt.dropSnap FSt.deleteSnap FSt.prepareSnap
      simp only
      split
      · refine ⟨?_, ?_, ?_, ?_⟩ <;> simp [FSt.deleteAcc, evsOf_append, sbsOf_append, ← i1, ← i2, ← i3, ← i4] <;> simp [evsOf, sbsOf]
      · refine ⟨?_, ?_, ?_, ?_⟩ <;> simp [evsOf_append, sbsOf_append, ← i1, ← i2, ← i3, ← i4] <;> simp [evsOf, sbsOf]
    | take _ i ht =>
      unfold FSt.take at ht
      split at ht <;> split at ht <;> first | cases ht | skip
      all_goals
        rename_i e r hq
        refine ⟨?_, ?_, ?_, ?_⟩ <;> simp [evsOf_append, sbsOf_append, ← i1, ← i2, ← i3, ← i4, hq] <;> simp [evsOf, sbsOf]

/-- The events on account blocks. -/
def accOnly (got : List Event) : List Event := got.filter fun
  | .acc _ _ => true
  | .snap _ _ => false

theorem accMsgs_accOnly {X : Type} (f : Bool → List Ev → List X) : ∀ got : List Event, accMsgs f (accOnly got) = accMsgs f got
  | [] => rfl
  | e :: got => by
    have ih := accMsgs_accOnly f got
    unfold accMsgs accOnly at ih ⊢
    cases e with
    | acc r evs =>
      rw [List.filter_cons_of_pos (by rfl), List.flatMap_cons, List.flatMap_cons, ih]
    | snap r sbs =>
      rw [List.filter_cons_of_neg (by simp), List.flatMap_cons, ih]
      rfl

theorem evStep_delEv (kept : Nat → Bool) (r : Bool) (st : List (Nat × OnMsg) × Del) (e : Ev) : evStep r st (delEv kept e) = evStep r st e := by
  unfold delEv; split <;> rfl
theorem delStep_delEv (kept : Nat → Bool) (st : List (Nat × OnMsg) × Del) (e : Ev) : delStep st (delEv kept e) = delStep st e := by
  unfold delEv; split <;> rfl

theorem onroadMsgs_delEv (kept : Nat → Bool) (order : Del → Del) (a : Nat) (r : Bool) (evs : List Ev) :
    onroadMsgs order a r (evs.map (delEv kept)) = onroadMsgs order a r evs := by
  unfold onroadMsgs onroadAll
  simp only [List.foldl_map, evStep_delEv, delStep_delEv]

theorem good_reach (kept : Nat → Bool) (s0 s : FSt) (hg : Good s0.ledger) (h : Spec.Reach kept s0 s) : Good s.ledger := by
  induction h with
  | start => exact hg
  | step s s' _ hs ih =>
    cases hs with
    | insertAcc bs hA =>
      have := hA bs.length
      rw [List.take_length] at this
      exact this
    | insertSnap bs => exact ih
    | dropAcc bs rest _ hr => exact hr
    | dropSnap cs rest restS _ hr _ =>
      unfold FSt.dropSnap FSt.deleteSnap FSt.prepareSnap
      simp only
      split <;> exact hr
    | take _ i ht =>
      unfold FSt.take at ht
      split at ht <;> split at ht <;> first | cases ht | skip
      all_goals exact ih

/-- **C103 (part).** A client who knows what waits for an account and applies the messages it gets knows what waits, after every history, if the loop takes the events on account blocks in the order in which they came. -/
theorem onroad_told_exact_partial (kept : Nat → Bool) (order : Del → Del) (ho : ∀ d, (order d).Perm d) (a : Nat) (s0 s : FSt) (h0 : Fresh s0) (hg : Good s0.ledger)
    (h : Spec.Reach kept s0 s) (hin : accOnly s.got = accOnly s.pushed) (hash : Nat) :
    ((accMsgs (onroadMsgs order a) s.got).foldl Spec.apply (OnRoad s0.ledger a)) hash ↔ OnRoad s.ledger a hash := by
  rw [← accMsgs_accOnly, hin, accMsgs_accOnly]
  clear hin
  show view _ _ hash ↔ _
  have key : (∀ k, view (OnRoad s0.ledger a) (accMsgs (onroadMsgs order a) s.pushed) k ↔ OnRoad s.ledger a k) ∧ s.pre = [] := by
    induction h with
    | start =>
      obtain ⟨h1, h2, h3, h4, h5, h6, h7⟩ := h0
      exact ⟨fun k => by rw [h7]; rfl, h1⟩
    | step s s' hr hs ih =>
      obtain ⟨ih, hpre⟩ := ih
      have hgs := good_reach kept s0 s hg hr
      have happ : ∀ (p q : List Event), accMsgs (onroadMsgs order a) (p ++ q) = accMsgs (onroadMsgs order a) p ++ accMsgs (onroadMsgs order a) q := by
        intro p q; simp [accMsgs]
      have hsnap : ∀ r sbs, accMsgs (onroadMsgs order a) [Event.snap r sbs] = [] := by intro r sbs; rfl
      have hdel : ∀ (D R : List Ev), s.ledger.Perm (D ++ R) → Good R →
          ∀ k, view (view (OnRoad s0.ledger a) (accMsgs (onroadMsgs order a) s.pushed)) (accMsgs (onroadMsgs order a) [Event.acc true (D.map (delEv kept))]) k ↔ OnRoad R a k := by
        intro D R hp hR k
        have hm : accMsgs (onroadMsgs order a) [Event.acc true (D.map (delEv kept))] = if D.length = 0 then [] else onroadMsgs order a true D := by
          simp [accMsgs, onroadMsgs_delEv]
        rw [hm]
        by_cases hD : D.length = 0
        · have : D = [] := List.length_eq_zero_iff.mp hD
          subst this
          rw [if_pos hD]
          exact (ih k).trans (onRoad_perm hp a k)
        · rw [if_neg hD]
          exact view_delete order ho s.ledger D R a hgs hp hR _ ih k
      cases hs with
      | insertAcc bs hA =>
        refine ⟨fun k => ?_, hpre⟩
        have hm : accMsgs (onroadMsgs order a) [Event.acc false bs] = if bs.length = 0 then [] else onroadMsgs order a false bs := by simp [accMsgs]
        show view _ (accMsgs _ (s.pushed ++ [Event.acc false bs])) k ↔ OnRoad (s.ledger ++ bs) a k
        rw [happ, view_append, hm]
        by_cases hb : bs.length = 0
        · have : bs = [] := List.length_eq_zero_iff.mp hb
          subst this
          rw [if_pos hb, List.append_nil]
          exact ih k
        · rw [if_neg hb]
          exact view_insert order ho s.ledger bs a hA _ ih k
      | insertSnap bs =>
        refine ⟨fun k => ?_, hpre⟩
        show view _ (accMsgs _ (s.pushed ++ [Event.snap false bs])) k ↔ OnRoad s.ledger a k
        rw [happ, hsnap, List.append_nil]
        exact ih k
      | dropAcc bs rest hp hR =>
        refine ⟨fun k => ?_, rfl⟩
        show view _ (accMsgs _ (s.pushed ++ [Event.acc true (s.pre ++ bs.map (delEv kept))])) k ↔ OnRoad rest a k
        rw [hpre, List.nil_append, happ, view_append]
        exact hdel bs rest hp hR k
      | dropSnap cs rest restS hp hR hS =>
        unfold FSt.dropSnap FSt.deleteSnap FSt.prepareSnap
        simp only [hpre, List.nil_append]
        split
        · refine ⟨fun k => ?_, rfl⟩
          show view _ (accMsgs _ (s.pushed ++ [Event.snap true (cs.filterMap (·.snap))] ++ [Event.acc true ((cs.flatMap (·.blocks)).map (delEv kept))])) k ↔ OnRoad rest a k
          rw [happ, happ, hsnap, List.append_nil, view_append]
          exact hdel _ rest hp hR k
        · rename_i hl
          have hnil : (cs.flatMap (·.blocks)).map (delEv kept) = [] := List.length_eq_zero_iff.mp (by omega)
          have hnil' : cs.flatMap (·.blocks) = [] := List.map_eq_nil_iff.mp hnil
          refine ⟨fun k => ?_, hnil⟩
          show view _ (accMsgs _ (s.pushed ++ [Event.snap true (cs.filterMap (·.snap))])) k ↔ OnRoad rest a k
          rw [happ, hsnap, List.append_nil]
          rw [hnil', List.nil_append] at hp
          exact (ih k).trans (onRoad_perm hp a k)
      | take _ i ht =>
        unfold FSt.take at ht
        split at ht <;> split at ht <;> first | cases ht | skip
        all_goals exact ⟨ih, hpre⟩
  exact key.1 hash

end Verif.Feed
