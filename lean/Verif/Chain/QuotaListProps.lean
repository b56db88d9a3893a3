import Verif.Chain.QuotaListLemmas

/-!
# The cache of used quota over all histories
-/

namespace Verif.Chain

/-- Every rollback of a history is one that leaves the cache right (`Fits`), or is refused. -/
def RollbacksFit : Ch → List Op → Prop
  | _, [] => True
  | s, .rollback k keep :: ops =>
    (k = 0 ∨ 120 < k ∨ s.snaps.length ≤ k ∨ Fits (s.ql.items.length - 1) k s.snaps.length) ∧ RollbacksFit (s.step (.rollback k keep)) ops
  | s, op :: ops => RollbacksFit (s.step op) ops

/-- Every rollback of a history ends less than 525 below the highest snapshot since the last start, and every start is on a
ledger of 600 snapshots or more. `h` is the height, `peak` the highest since the start. -/
def Shallow : Nat → Nat → List Op → Prop
  | _, _, [] => True
  | h, peak, .snapshot _ _ _ :: ops => Shallow (h + 1) (max peak (h + 1)) ops
  | h, peak, .rollback k _ :: ops =>
    if k = 0 ∨ 120 < k ∨ h ≤ k then Shallow h peak ops else peak + k ≤ h + 524 ∧ Shallow (h - k) peak ops
  | h, _, .restart :: ops => 600 ≤ h ∧ Shallow h h ops
  | h, peak, _ :: ops => Shallow h peak ops

/-- The state is right. -/
def Right (s : Ch) (d : Nat) : Prop := QInv whole s.snaps s.unconfirmed d s.ql

theorem counted_eq {snaps : List (List Blk)} {d : Nat} (h1 : d + 1 ≤ snaps.length) (h2 : d + 1 = snaps.length ∨ 74 ≤ d) :
    lastN 74 (lastN d snaps) = counted snaps := by
  unfold counted lastN
  rw [List.drop_drop, List.drop_drop, List.length_drop, List.length_drop]
  congr 1
  omega

theorem seen_eq {snaps u d q} (h : QInv whole snaps u d q) :
    ∃ m, q.seen = (counted snaps).map mapOf ++ [m] ∧ q.back = m ∧ Rep whole m u ∧ lastN 75 q.items = (counted snaps).map mapOf ++ [m] := by
  obtain ⟨m, hm, hr⟩ := h.items
  have hlen := h.len
  have hw : lastN 75 q.items = (counted snaps).map mapOf ++ [m] := by
    rw [hm, lastN_append _ _ _ (by simp), ← counted_eq h.depth h.enough]
    refine congrArg (· ++ [m]) ?_
    show lastN 74 _ = _
    unfold lastN
    rw [List.length_map]
    exact (List.map_drop ..).symm
  refine ⟨m, ?_, ?_, hr, hw⟩
  · unfold QL.seen
    rw [h.start]
    simp only
    rw [← hw]
    unfold lastN
    rw [hlen]
  · unfold QL.back; rw [hm]; simp

theorem right_used {s : Ch} {d : Nat} (h : Right s d) (a : Nat) : s.ql.usedList a = usedSpec s.snaps s.unconfirmed a := by
  obtain ⟨m, h1, _, h3, _⟩ := seen_eq h
  unfold QL.usedList usedSpec
  rw [h1, List.map_append, List.map_map]
  congr 1
  · apply List.map_congr_left
    intro bs _
    exact (rep_mapOf whole bs).getD a
  · exact congrArg (fun x => [x]) (h3.getD a)

theorem right_global {s : Ch} {d : Nat} (h : Right s d) : sure.hom s.ql.globalQuota = sure.hom (globalSpec s.snaps) := by
  obtain ⟨m, _, h2, _, h4⟩ := seen_eq h
  unfold QL.globalQuota globalSpec
  rw [map_sub, h.global, h4, h2, List.map_append, List.sum_append, map_add]
  have e : ∀ l : List (List Blk), sure.hom ((l.map mapOf).map agg).sum = sure.hom (l.map spentAll).sum := by
    intro l
    induction l with
    | nil => rfl
    | cons x l ih =>
      simp only [List.map_cons, List.sum_cons, map_add]
      rw [ih, agg_rep (rep_mapOf sure x)]
  rw [e]
  simp

theorem right_start {snaps : List (List Blk)} (h : 1 ≤ snaps.length) : Right (Ch.start snaps) (min 599 (snaps.length - 1)) :=
  init_inv snaps h

theorem right_insert {s d} (h : Right s d) (b : Blk) : Right (s.step (.insert b)) d := QInv.add (Or.inl rfl) h b

theorem right_delete {s d} (h : Right s d) (hs : List Nat) : Right (s.step (.delete hs)) d :=
  QInv.subs (Or.inl rfl) _ h (picked_perm hs s.unconfirmed)

theorem QInv.requota {snaps u d q} (h : QInv whole snaps u d q) (f : Nat → Nat) : QInv sure snaps (u.map (Blk.requota f)) d q := by
  obtain ⟨m, hm, hr⟩ := h.items
  refine ⟨h.depth, h.max, h.enough, ⟨m, hm, hr.1, fun a => ?_⟩, h.start, h.global⟩
  have e : sure.hom (spent a (u.map (Blk.requota f))) = sure.hom (spent a u) := by
    clear hr hm h
    induction u with
    | nil => rfl
    | cons b u ih =>
      rw [List.map_cons, spent_cons, spent_cons, map_add, map_add, ih]
      congr 1
      by_cases hb : b.addr = a
      · rw [if_pos hb, if_pos (show (b.requota f).addr = a from hb)]; rfl
      · rw [if_neg hb, if_neg (show ¬ (b.requota f).addr = a from hb)]
  have hr' := (hr.part sure).2 a
  cases hg : Table.get a m with
  | none =>
    rw [hg] at hr'
    have := congrArg Prod.fst e
    rw [sure.count, sure.count] at this
    show (spent a _).1 = 0
    rw [this]; exact hr'
  | some x =>
    rw [hg] at hr'
    exact ⟨by rw [e]; exact hr'.1, hr'.2⟩

theorem right_snapshot {s d} (h : Right s d) (hs : List Nat) (f : Nat → Nat) (bad : List Nat) :
    Right (s.step (.snapshot hs f bad)) (min (d + 1) 599) ∧ (s.step (.snapshot hs f bad)).snaps = s.snaps ++ [picked hs s.unconfirmed] := by
  obtain ⟨q', hq', hi⟩ := QInv.newNext h (picked_perm hs s.unconfirmed)
  have e : s.step (.snapshot hs f bad) = s.snapshot hs f bad := rfl
  rw [e]
  unfold Ch.snapshot
  rw [hq']
  refine ⟨?_, rfl⟩
  have h1 := hi.requota f
  have h2 := QInv.subs (Or.inr rfl) _ h1 (picked_perm bad _)
  exact QInv.reset h2 (by omega) _

theorem right_restart {s d} (h : Right s d) : Right (s.step .restart) (min 599 (s.snaps.length - 1)) := by
  have := h.depth
  exact init_inv s.snaps (by omega)

theorem right_rollback {s d} (h : Right s d) (k : Nat) (keep : Bool) (h1 : k ≠ 0) (h2 : k ≤ 120) (h3 : k < s.snaps.length)
    (hf : Fits d k s.snaps.length) :
    Right (s.step (.rollback k keep)) (depthAfter d k s.snaps.length) ∧
    (s.step (.rollback k keep)).snaps = s.snaps.take (s.snaps.length - k) := by
  have e : s.step (.rollback k keep) = s.rollback k keep := rfl
  rw [e]
  unfold Ch.rollback
  rw [if_neg (by omega)]
  refine ⟨?_, rfl⟩
  have := QInv.adds (Or.inl rfl) (if keep then s.snaps.getD (s.snaps.length - k) [] else []) (QInv.rollback h k (by omega) hf)
  rw [List.nil_append] at this
  exact this

theorem rollback_refused (s : Ch) (k : Nat) (keep : Bool) (h : k = 0 ∨ 120 < k ∨ s.snaps.length ≤ k) : s.step (.rollback k keep) = s := by
  show s.rollback k keep = s
  unfold Ch.rollback
  rw [if_pos h]

theorem right_run : ∀ (ops : List Op) {s : Ch} {d : Nat}, Right s d → RollbacksFit s ops → ∃ d', Right (s.run ops) d'
  | [], s, d, h, _ => ⟨d, h⟩
  | op :: ops, s, d, h, hf => by
    show ∃ d', Right ((s.step op).run ops) d'
    cases op with
    | insert b => exact right_run ops (right_insert h b) hf
    | delete hs => exact right_run ops (right_delete h hs) hf
    | snapshot hs f bad => exact right_run ops (right_snapshot h hs f bad).1 hf
    | restart => exact right_run ops (right_restart h) hf
    | rollback k keep =>
      have hl : s.ql.items.length = d + 1 := QInv.len h
      obtain ⟨h1, h2⟩ := hf
      by_cases hr : k = 0 ∨ 120 < k ∨ s.snaps.length ≤ k
      · rw [rollback_refused s k keep hr] at h2 ⊢
        exact right_run ops h h2
      · refine right_run ops (right_rollback h k keep (by omega) (by omega) (by omega) ?_).1 h2
        rcases h1 with h1 | h1 | h1 | h1
        · omega
        · omega
        · omega
        · rw [hl] at h1; exact h1

/-- A shallow history keeps at least `599 - (peak - height)` snapshots cached. -/
theorem shallow_run : ∀ (ops : List Op) {s : Ch} {d peak : Nat}, Right s d → s.snaps.length ≤ peak → 599 + s.snaps.length ≤ d + peak →
    Shallow s.snaps.length peak ops → ∃ d', Right (s.run ops) d'
  | [], s, d, _, h, _, _, _ => ⟨d, h⟩
  | op :: ops, s, d, peak, h, hp, hd, hf => by
    show ∃ d', Right ((s.step op).run ops) d'
    have hmax := h.max
    have hdep := h.depth
    cases op with
    | insert b => exact shallow_run ops (right_insert h b) hp hd hf
    | delete hs => exact shallow_run ops (right_delete h hs) hp hd hf
    | snapshot hs f bad =>
      obtain ⟨h1, h2⟩ := right_snapshot h hs f bad
      have hl : (s.step (.snapshot hs f bad)).snaps.length = s.snaps.length + 1 := by rw [h2]; simp
      refine shallow_run ops (peak := max peak (s.snaps.length + 1)) h1 (by rw [hl]; omega) (by rw [hl]; omega) ?_
      rw [hl]; exact hf
    | restart =>
      exact shallow_run ops (peak := s.snaps.length) (right_restart h) (Nat.le_refl _)
        (by have := hf.1; show 599 + s.snaps.length ≤ _; omega) hf.2
    | rollback k keep =>
      simp only [Shallow] at hf
      by_cases hr : k = 0 ∨ 120 < k ∨ s.snaps.length ≤ k
      · rw [if_pos hr] at hf
        rw [rollback_refused s k keep hr]
        exact shallow_run ops h hp hd hf
      · rw [if_neg hr] at hf
        have hfit : Fits d k s.snaps.length := ⟨hdep, Or.inl (by omega)⟩
        obtain ⟨h1, h2⟩ := right_rollback h k keep (by omega) (by omega) (by omega) hfit
        have hl : (s.step (.rollback k keep)).snaps.length = s.snaps.length - k := by rw [h2, List.length_take]; omega
        have hda : depthAfter d k s.snaps.length = d - k := by unfold depthAfter; rw [if_neg (by omega)]
        rw [hda] at h1
        refine shallow_run ops (peak := peak) h1 (by rw [hl]; omega) (by rw [hl]; omega) ?_
        rw [hl]; exact hf.2

/-- **The used quota an address is shown** is, snapshot by snapshot, what the ledger says, and then that of its unconfirmed
blocks: on every ledger and for every history in which no rollback leaves between 1 and 74 snapshots in the cache or goes back
to the genesis. The full claim (no condition) is false: `rollback_counts_twice`, `rollback_to_genesis_loses`. -/
theorem used_list_exact_partial (snaps : List (List Blk)) (h : 1 ≤ snaps.length) (ops : List Op)
    (hf : RollbacksFit (Ch.start snaps) ops) (a : Nat) :
    ((Ch.start snaps).run ops).ql.usedList a
      = usedSpec ((Ch.start snaps).run ops).snaps ((Ch.start snaps).run ops).unconfirmed a := by
  obtain ⟨d, hd⟩ := right_run ops (right_start h) hf
  exact right_used hd a

/-- The same for a node started on a ledger of 600 snapshots or more, and rollbacks that end less than 525 below the highest
snapshot since the start. -/
theorem used_list_exact_shallow_partial (snaps : List (List Blk)) (h : 600 ≤ snaps.length) (ops : List Op)
    (hf : Shallow snaps.length snaps.length ops) (a : Nat) :
    ((Ch.start snaps).run ops).ql.usedList a
      = usedSpec ((Ch.start snaps).run ops).snaps ((Ch.start snaps).run ops).unconfirmed a := by
  obtain ⟨d, hd⟩ := shallow_run ops (right_start (by omega)) (Nat.le_refl _) (Nat.add_le_add_right (by omega : 599 ≤ min 599 (snaps.length - 1)) _) hf
  exact right_used hd a

/-- **The global used quota**, which sets the price of quota when the network is busy, is the sum over the snapshots that count,
and so is the number of blocks. The counter `QuotaTotal` can be wrong: `global_quota_total_drifts`. -/
theorem global_used_exact_partial (snaps : List (List Blk)) (h : 1 ≤ snaps.length) (ops : List Op)
    (hf : RollbacksFit (Ch.start snaps) ops) :
    ((Ch.start snaps).run ops).ql.globalQuota.2.2 = (globalSpec ((Ch.start snaps).run ops).snaps).2.2 ∧
    ((Ch.start snaps).run ops).ql.globalQuota.1 = (globalSpec ((Ch.start snaps).run ops).snaps).1 := by
  obtain ⟨d, hd⟩ := right_run ops (right_start h) hf
  have := right_global hd
  exact ⟨congrArg (fun x => x.2.2) this, congrArg (fun x => x.1) this⟩

theorem global_used_exact_shallow_partial (snaps : List (List Blk)) (h : 600 ≤ snaps.length) (ops : List Op)
    (hf : Shallow snaps.length snaps.length ops) :
    ((Ch.start snaps).run ops).ql.globalQuota.2.2 = (globalSpec ((Ch.start snaps).run ops).snaps).2.2 ∧
    ((Ch.start snaps).run ops).ql.globalQuota.1 = (globalSpec ((Ch.start snaps).run ops).snaps).1 := by
  obtain ⟨d, hd⟩ := shallow_run ops (right_start (by omega)) (Nat.le_refl _) (Nat.add_le_add_right (by omega : 599 ≤ min 599 (snaps.length - 1)) _) hf
  have := right_global hd
  exact ⟨congrArg (fun x => x.2.2) this, congrArg (fun x => x.1) this⟩

/-- **Nodes agree.** Two nodes that started at different times, with different histories behind them, and hold the same ledger
answer alike. -/
theorem nodes_agree_partial (snaps snaps' : List (List Blk)) (h : 1 ≤ snaps.length) (h' : 1 ≤ snaps'.length) (ops ops' : List Op)
    (hf : RollbacksFit (Ch.start snaps) ops) (hf' : RollbacksFit (Ch.start snaps') ops')
    (hl : ((Ch.start snaps).run ops).snaps = ((Ch.start snaps').run ops').snaps)
    (hu : ((Ch.start snaps).run ops).unconfirmed = ((Ch.start snaps').run ops').unconfirmed) (a : Nat) :
    ((Ch.start snaps).run ops).ql.usedList a = ((Ch.start snaps').run ops').ql.usedList a ∧
    ((Ch.start snaps).run ops).ql.globalQuota.2.2 = ((Ch.start snaps').run ops').ql.globalQuota.2.2 := by
  refine ⟨?_, ?_⟩
  · rw [used_list_exact_partial _ h _ hf, used_list_exact_partial _ h' _ hf', hl, hu]
  · rw [(global_used_exact_partial _ h _ hf).1, (global_used_exact_partial _ h' _ hf').1, hl]

/-- The code never takes the branch that panics: a snapshot of unconfirmed blocks is always added. -/
theorem snapshot_never_panics (snaps : List (List Blk)) (h : 1 ≤ snaps.length) (ops : List Op)
    (hf : RollbacksFit (Ch.start snaps) ops) (hs : List Nat) :
    ((Ch.start snaps).run ops).ql.newNext (picked hs ((Ch.start snaps).run ops).unconfirmed) ≠ none := by
  obtain ⟨d, hd⟩ := right_run ops (right_start h) hf
  obtain ⟨q', hq', _⟩ := QInv.newNext hd (picked_perm hs _)
  rw [hq']
  exact fun h => nomatch h

/-- **What goes wrong**: a rollback that leaves `j` snapshots in the cache, 0 < j < 75, puts the oldest of them in a second
time. -/
theorem rollback_puts_twice (snaps : List (List Blk)) (h : 1 ≤ snaps.length) (ops : List Op) (hf : RollbacksFit (Ch.start snaps) ops)
    (k : Nat) (keep : Bool) (hk : k ≠ 0) (hk2 : k ≤ 120) :
    let s := (Ch.start snaps).run ops
    let s' := s.step (.rollback k keep)
    let j := s.ql.items.length - 1 - k
    0 < j → j < 75 →
    ∃ older m, s'.ql.items = older ++ [mapOf ((lastN j s'.snaps).headD [])] ++ (lastN j s'.snaps).map mapOf ++ [m] := by
  intro s s' j hj hj75
  obtain ⟨d, hd⟩ := right_run ops (right_start h) hf
  change Right s d at hd
  have hlen : s.ql.items.length = d + 1 := QInv.len hd
  have hdep := hd.depth
  have hmax := hd.max
  have hjd : j = d - k := by show s.ql.items.length - 1 - k = _; omega
  have e : s' = s.rollback k keep := rfl
  have hns : ¬ (k = 0 ∨ 120 < k ∨ s.snaps.length ≤ k) := by omega
  have hsn : s'.snaps = s.snaps.take (s.snaps.length - k) := by rw [e]; unfold Ch.rollback; rw [if_neg hns]
  have hql : s'.ql = (if keep then s.snaps.getD (s.snaps.length - k) [] else []).foldl QL.add
      (s.ql.rollback (if s.unconfirmed = [] then k else k + 1) (s.snaps.take (s.snaps.length - k))) := by
    rw [e]; unfold Ch.rollback; rw [if_neg hns]
  have hit := rollback_items hd k
  rw [← hsn, ← hjd] at hit
  have hSl : s'.snaps.length = s.snaps.length - k := by rw [hsn, List.length_take]; omega
  have hne : s.ql.items ≠ [] := by intro hh; rw [hh] at hlen; simp at hlen
  have hadd : ∀ (l : List Blk) (q : QL) (xs : List QMap) (m : QMap), q.items = xs ++ [m] → ∃ m', (l.foldl QL.add q).items = xs ++ [m'] := by
    intro l
    induction l with
    | nil => intro q xs m hq; exact ⟨m, hq⟩
    | cons b l ih =>
      intro q xs m hq
      refine ih (q.add b) xs (addTo q.back b) ?_
      show q.items.dropLast ++ [addTo q.back b] = _
      rw [hq]; simp
  rw [← hsn] at hql
  unfold QL.rollback at hql
  rw [if_neg hne] at hql
  simp only at hql
  generalize QL.removeBacks (if s.unconfirmed = [] then k else k + 1) (if s.ql.back = [] then s.ql.removeBack else s.ql) = q1 at hit hql
  have hq1 : q1.items.length = j := by rw [hit, List.length_map, lastN_length, hSl]; omega
  have hb : q1.build s'.snaps
      = QL.finish { q1 with items := ((s'.snaps.take (s'.snaps.length + 1 - j)).drop
          (if listMax - j < s'.snaps.length + 1 - j then s'.snaps.length + 1 - j - (listMax - j) else 1)).map mapOf ++ q1.items } := by
    unfold QL.build
    simp only [hq1, windowLen]
    rw [if_neg (by omega), if_neg (by omega)]
  rw [hb] at hql
  generalize hst : (if listMax - j < s'.snaps.length + 1 - j then s'.snaps.length + 1 - j - (listMax - j) else 1) = st at hql
  have hst2 : st ≤ s'.snaps.length - j ∧ st + 600 ≥ s'.snaps.length + 1 := by
    rw [← hst]; unfold listMax; split <;> omega
  have htk : s'.snaps.take (s'.snaps.length + 1 - j) = s'.snaps.take (s'.snaps.length - j) ++ [(lastN j s'.snaps).headD []] := by
    rw [show s'.snaps.length + 1 - j = (s'.snaps.length - j) + 1 by omega, List.take_succ_eq_append_getElem (by omega)]
    congr 2
    unfold lastN
    rw [List.drop_eq_getElem_cons (by omega)]
    rfl
  have hdr : (s'.snaps.take (s'.snaps.length + 1 - j)).drop st
      = (s'.snaps.take (s'.snaps.length - j)).drop st ++ [(lastN j s'.snaps).headD []] := by
    rw [htk, List.drop_append, List.length_take,
      show st - min (s'.snaps.length - j) s'.snaps.length = 0 by omega, List.drop_zero]
  rw [hdr] at hql
  generalize hq2 : ({ q1 with items := ((s'.snaps.take (s'.snaps.length - j)).drop st ++ [(lastN j s'.snaps).headD []]).map mapOf ++ q1.items } : QL) = q2 at hql
  have hq2i : q2.items = ((s'.snaps.take (s'.snaps.length - j)).drop st ++ [(lastN j s'.snaps).headD []]).map mapOf ++ q1.items := by rw [← hq2]
  have hq2l : q2.items.length ≤ 600 ∧ 1 ≤ q2.items.length := by
    rw [hq2i, List.length_append, hq1, List.length_map, List.length_append, List.length_drop, List.length_take, List.length_singleton]
    omega
  obtain ⟨f1, f2, _⟩ := finish_spec q2 (by intro hh; rw [hh] at hq2l; simp at hq2l)
  obtain ⟨s1, _, _⟩ := moveNext_spec q2.finish [] (by rw [f1]; omega) (by rw [f1]; omega) (by rw [f1, f2])
  rw [f1] at s1
  have hform : ∃ older, (q2.finish.moveNext []).items
      = older ++ [mapOf ((lastN j s'.snaps).headD [])] ++ (lastN j s'.snaps).map mapOf ++ [[]] := by
    rw [s1, hq2i, hit, List.map_append, List.map_singleton]
    simp only [List.append_assoc]
    rw [lastN_append]
    · exact ⟨_, rfl⟩
    · simp only [List.length_append, List.length_map, List.length_singleton, lastN_length]
      omega
  obtain ⟨older, hold⟩ := hform
  obtain ⟨m', hm'⟩ := hadd _ _ _ _ hold
  refine ⟨older, m', ?_⟩
  rw [hql, hm']

/-! ### Cases -/

/-- A ledger of four snapshots; in the second one address 7 used 21000. -/
def fourSnaps : List (List Blk) := [[], [⟨1, 7, 21000, 21000⟩], [], []]

/-- **Finding.** After one rollback the used quota of a snapshot is counted twice, for the address and for the network; a node
that is started on the same ledger says otherwise. -/
theorem rollback_counts_twice :
    let s := (Ch.start fourSnaps).run [.rollback 1 false]
    s.ql.usedList 7 = [(1, 21000, 21000), (1, 21000, 21000), 0, 0] ∧
    usedSpec s.snaps s.unconfirmed 7 = [(1, 21000, 21000), 0, 0] ∧
    s.ql.globalQuota.2.2 = 42000 ∧ (Ch.start s.snaps).ql.globalQuota.2.2 = 21000 := by
  decide +kernel

/-- **Finding.** After a rollback to the genesis the list that is shown is no longer part of the cache: a block that uses quota
does not appear in it. -/
theorem rollback_to_genesis_loses :
    let s := (Ch.start [[], [⟨1, 7, 21000, 21000⟩]]).run [.rollback 1 false, .insert ⟨2, 8, 42000, 42000⟩]
    s.unconfirmed = [⟨2, 8, 42000, 42000⟩] ∧ s.ql.usedList 8 = [0] ∧ s.ql.usedList 7 = [(1, 21000, 21000)] := by
  decide +kernel

/-- The list stays like that: 75 snapshots later it is empty. -/
theorem rollback_to_genesis_empties :
    let s := (Ch.start [[], []]).run (.rollback 1 false :: List.replicate 76 (.snapshot [] (fun _ => 0) []))
    s.snaps.length = 77 ∧ s.ql.usedList 7 = [] := by
  decide +kernel

/-- **Finding.** A block whose quota is set anew at a snapshot and that is then thrown out shifts the counter `QuotaTotal` of
the network: here by 100, with nothing left in the ledger. -/
theorem global_quota_total_drifts :
    let s := (Ch.start [[], []]).run [.insert ⟨1, 7, 100, 100⟩, .snapshot [] (fun _ => 0) [1]]
    s.unconfirmed = [] ∧ s.ql.globalQuota = (0, 100, 0) ∧ globalSpec s.snaps = 0 := by
  decide +kernel

/-- The conditions are met by a history with inserts, snapshots, deletions, a deep rollback and a restart. -/
example : RollbacksFit (Ch.start (List.replicate 100 []))
    [.insert ⟨1, 7, 5, 5⟩, .snapshot [1] (fun _ => 0) [], .insert ⟨2, 7, 6, 6⟩, .delete [2], .rollback 1 true, .restart] := by
  refine ⟨Or.inr (Or.inr (Or.inr ?_)), trivial⟩
  unfold Fits
  decide +kernel

example : Shallow 600 600 [.insert ⟨1, 7, 5, 5⟩, .snapshot [1] (fun _ => 0) [], .rollback 120 true, .rollback 120 false, .rollback 100 false] := by
  simp [Shallow]

/-- And the list is not trivial there. -/
example :
    let s := (Ch.start (List.replicate 100 [])).run [.insert ⟨1, 7, 5, 5⟩, .snapshot [1] (fun _ => 0) [], .rollback 1 true]
    s.unconfirmed = [⟨1, 7, 5, 5⟩] ∧ (s.ql.usedList 7).length = 75 ∧ (s.ql.usedList 7).getLast? = some (1, 5, 5) := by
  decide +kernel

end Verif.Chain
