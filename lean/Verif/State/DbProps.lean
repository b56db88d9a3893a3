import Verif.State.DbRoll

/-!
# What holds of the state database

For every history of inserted blocks, snapshots, deletions, rollbacks and restarts.
-/

namespace Verif.State
open Verif.Bytes

variable {cached : Addr → Bool} {top : Nat} {n : Node}

theorem toConfirm_none {sc : Table Addr Nat} (left : Nat) (pre bs : List Blk) (unmet : List (Addr × Nat))
    (hlen : unmet.length = left) (hr : Rising (pre ++ bs)) (hsc : ∀ e ∈ unmet, sc.get e.1 = some e.2)
    (h : ∀ e ∈ unmet, ∃ b ∈ bs, b.addr = e.1 ∧ b.height = e.2) (hnd : unmet.Nodup) : toConfirm sc left bs ≠ none := by
  induction bs generalizing left pre unmet with
  | nil =>
    cases left with
    | zero => unfold toConfirm; simp
    | succ left =>
      cases unmet with
      | nil => simp at hlen
      | cons e unmet =>
        obtain ⟨b, hb, _⟩ := h e List.mem_cons_self
        simp at hb
  | cons b bs ih =>
    have hr' : Rising ((pre ++ [b]) ++ bs) := by simpa using hr
    cases left with
    | zero => unfold toConfirm; simp
    | succ left =>
      have stay : (∀ e ∈ unmet, ¬ (b.addr = e.1 ∧ b.height = e.2)) → toConfirm sc (left + 1) bs ≠ none := by
        intro hno
        refine ih (left + 1) (pre ++ [b]) unmet hlen hr' hsc ?_ hnd
        intro e he
        obtain ⟨c, hc, hce⟩ := h e he
        rcases List.mem_cons.mp hc with rfl | hc
        · exact absurd hce (hno e he)
        · exact ⟨c, hc, hce⟩
      unfold toConfirm
      cases hg : sc.get b.addr with
      | none =>
        simp only
        apply stay
        rintro e he ⟨e1, _⟩
        have := hsc e he
        rw [← e1, hg] at this; simp at this
      | some hh =>
        simp only
        split
        · simp only [ne_eq, Option.map_eq_none_iff]
          apply stay
          rintro e he ⟨e1, e2⟩
          have := hsc e he
          rw [← e1, hg] at this
          simp only [Option.some.injEq] at this
          omega
        · split
          · rename_i hbh
            simp only [ne_eq, Option.map_eq_none_iff]
            by_cases hin : (b.addr, hh) ∈ unmet
            · refine ih left (pre ++ [b]) (unmet.erase (b.addr, hh)) (by rw [List.length_erase_of_mem hin]; omega) hr'
                (fun e he => hsc e (List.mem_of_mem_erase he)) ?_ (hnd.erase _)
              intro e he
              have he' := (List.Nodup.mem_erase_iff hnd).mp he
              obtain ⟨c, hc, hce⟩ := h e he'.2
              rcases List.mem_cons.mp hc with rfl | hc
              · exfalso
                apply he'.1
                have := hsc e he'.2
                rw [← hce.1, hg] at this
                simp only [Option.some.injEq] at this
                ext1
                · exact hce.1.symm
                · exact this.symm
              · exact ⟨c, hc, hce⟩
            · have := stay (by
                rintro e he ⟨e1, e2⟩
                apply hin
                have : e = (b.addr, hh) := by
                  ext1
                  · exact e1.symm
                  · rw [← e2]; exact hbh
                rw [← this]; exact he)
              -- fewer entries to meet can only end sooner
              intro hnone
              refine ih left (pre ++ [b]) unmet.tail (by rw [List.length_tail, hlen]; rfl) hr' (fun e he => hsc e (List.mem_of_mem_tail he)) ?_
                (hnd.sublist (List.tail_sublist _)) hnone
              intro e he
              obtain ⟨c, hc, hce⟩ := h e (List.mem_of_mem_tail he)
              rcases List.mem_cons.mp hc with rfl | hc
              · exfalso
                apply hin
                have : e = (c.addr, hh) := by
                  ext1
                  · exact hce.1.symm
                  · rw [← hce.2]; exact hbh
                rw [← this]; exact List.mem_of_mem_tail he
              · exact ⟨c, hc, hce⟩
          · rename_i h1 h2
            apply stay
            rintro e he ⟨e1, e2⟩
            have := hsc e he
            rw [← e1, hg] at this
            simp only [Option.some.injEq] at this
            omega

theorem toConfirm_covers {sc : Table Addr Nat} (left : Nat) (pre bs : List Blk) (hr : Rising (pre ++ bs)) (unmet : List (Addr × Nat))
    (hnd : unmet.Nodup) (hlen : unmet.length = left)
    (hun : ∀ e ∈ unmet, sc.get e.1 = some e.2 ∧ ∀ c ∈ pre, ¬ (c.addr = e.1 ∧ c.height = e.2))
    (hmet : ∀ a h, sc.get a = some h → (a, h) ∈ unmet ∨ ∃ c ∈ pre, c.addr = a ∧ c.height = h)
    {cs : List Blk} (h : toConfirm sc left bs = some cs) : ∀ e ∈ unmet, ∃ b ∈ bs, b.addr = e.1 ∧ b.height = e.2 := by
  induction bs generalizing left pre unmet cs with
  | nil =>
    cases left with
    | zero =>
      have : unmet = [] := List.length_eq_zero_iff.mp hlen
      subst this
      simp
    | succ left => unfold toConfirm at h; simp at h
  | cons b bs ih =>
    have hr' : Rising ((pre ++ [b]) ++ bs) := by simpa using hr
    cases left with
    | zero =>
      have : unmet = [] := List.length_eq_zero_iff.mp hlen
      subst this
      simp
    | succ left =>
      have stay : (∀ e ∈ unmet, ¬ (b.addr = e.1 ∧ b.height = e.2)) → ∀ cs, toConfirm sc (left + 1) bs = some cs →
          ∀ e ∈ unmet, ∃ c ∈ b :: bs, c.addr = e.1 ∧ c.height = e.2 := by
        intro hno cs ht e he
        obtain ⟨c, hc, hce⟩ := ih (left + 1) (pre ++ [b]) hr' unmet hnd hlen
          (fun e he => ⟨(hun e he).1, by
            intro c hc
            rcases List.mem_append.mp hc with hc | hc
            · exact (hun e he).2 c hc
            · simp only [List.mem_singleton] at hc
              subst hc; exact hno e he⟩)
          (fun a h hs => (hmet a h hs).imp id (fun ⟨c, hc, e⟩ => ⟨c, List.mem_append.mpr (Or.inl hc), e⟩)) ht e he
        exact ⟨c, List.mem_cons_of_mem _ hc, hce⟩
      unfold toConfirm at h
      cases hg : sc.get b.addr with
      | none =>
        rw [hg] at h
        refine stay ?_ _ h
        rintro e he ⟨e1, _⟩
        have := (hun e he).1
        rw [← e1, hg] at this; simp at this
      | some hh =>
        rw [hg] at h
        simp only at h
        split at h
        · obtain ⟨cs', ht, _⟩ := Option.map_eq_some_iff.mp h
          refine stay ?_ _ ht
          rintro e he ⟨e1, e2⟩
          have := (hun e he).1
          rw [← e1, hg] at this
          simp only [Option.some.injEq] at this
          omega
        · split at h
          · rename_i hbh
            obtain ⟨cs', ht, _⟩ := Option.map_eq_some_iff.mp h
            have hin : (b.addr, hh) ∈ unmet := by
              rcases hmet b.addr hh hg with q | ⟨c, hc, hca, hch⟩
              · exact q
              · have := Rising.lt hr (a := b.addr) (cs := pre) (ds := b :: bs) (List.filter_append ..) hc hca List.mem_cons_self rfl
                omega
            intro e he
            by_cases heb : e = (b.addr, hh)
            · exact ⟨b, List.mem_cons_self, by rw [heb], by rw [heb]; exact hbh⟩
            · have he' : e ∈ unmet.erase (b.addr, hh) := (List.mem_erase_of_ne heb).mpr he
              obtain ⟨c, hc, hce⟩ := ih left (pre ++ [b]) hr' (unmet.erase (b.addr, hh)) (hnd.erase _)
                (by rw [List.length_erase_of_mem hin]; omega)
                (by
                  intro e he
                  have he' := (List.Nodup.mem_erase_iff hnd).mp he
                  refine ⟨(hun e he'.2).1, ?_⟩
                  intro c hc
                  rcases List.mem_append.mp hc with hc | hc
                  · exact (hun e he'.2).2 c hc
                  · simp only [List.mem_singleton] at hc
                    subst hc
                    rintro ⟨e1, e2⟩
                    apply he'.1
                    have := (hun e he'.2).1
                    rw [← e1, hg] at this
                    simp only [Option.some.injEq] at this
                    ext1
                    · exact e1.symm
                    · exact this.symm)
                (by
                  intro a h hs
                  by_cases hab : (a, h) = (b.addr, hh)
                  · simp only [Prod.mk.injEq] at hab
                    right
                    exact ⟨b, by simp, hab.1.symm, by rw [hab.2]; exact hbh⟩
                  · rcases hmet a h hs with q | ⟨c, hc, e⟩
                    · left; exact (List.mem_erase_of_ne hab).mpr q
                    · right; exact ⟨c, List.mem_append.mpr (Or.inl hc), e⟩) ht e he'
              exact ⟨c, List.mem_cons_of_mem _ hc, hce⟩
          · refine stay ?_ _ h
            rintro e he ⟨e1, e2⟩
            have := (hun e he).1
            rw [← e1, hg] at this
            simp only [Option.some.injEq] at this
            omega

theorem toConfirm_iff {l : Ledger} {sc : Table Addr Nat} (hsc : sc.Proper) (hr : Rising l.unconf) :
    (l.Covers sc → toConfirm sc sc.length l.unconf = some (l.confirms sc)) ∧ (¬ l.Covers sc → toConfirm sc sc.length l.unconf = none) := by
  constructor
  · intro hcov
    have h1 : toConfirm sc sc.length l.unconf ≠ none :=
      toConfirm_none sc.length [] l.unconf sc rfl hr (fun e he => Table.mem_get hsc he)
        (fun e he => hcov e.1 e.2 (Table.mem_get hsc he)) (List.Nodup.of_map _ hsc)
    obtain ⟨cs, hcs⟩ := Option.ne_none_iff_exists'.mp h1
    rw [hcs, toConfirm_spec hsc hr hcs]
    rfl
  · intro hcov
    by_contra h1
    obtain ⟨cs, hcs⟩ := Option.ne_none_iff_exists'.mp h1
    apply hcov
    intro a h hg
    exact toConfirm_covers sc.length [] l.unconf hr sc (List.Nodup.of_map _ hsc) rfl
      (fun e he => ⟨Table.mem_get hsc he, by simp⟩) (fun a h hs => Or.inl (Table.get_mem hs)) hcs (a, h) (Table.get_mem hg)

/-- All operations, from an invariant state. -/
theorem Inv.step (hi : Inv cached top n) {op : Op} (ha : n.led.Allows op)
    (hs : ∀ h, op = .rollback h → n.db.hasRedo (h + 1) = true ∨ n.led.DeepSafe h) :
    ∃ n', n.step cached op = some n' ∧
      n.led.After (match op with | .rollback h => n.db.hasRedo (h + 1) | _ => false) op n'.led ∧
      Inv cached (max top n'.led.snaps.length) n' := by
  have up : ∀ {m : Node}, Inv cached top m → Inv cached (max top m.led.snaps.length) m := fun h =>
    ⟨h.numbered, h.distinct, h.view, h.conf, h.pend, h.redo.mono (Nat.le_max_left _ _), h.bal, h.snap, h.dom⟩
  cases op with
  | insert b =>
    obtain ⟨n', h1, h2, h3⟩ := hi.insert ha
    exact ⟨n', h1, by rw [h2]; exact ⟨rfl, rfl⟩, up h3⟩
  | snapshot sc =>
    have hc := toConfirm_iff (l := n.led) ha hi.rising
    by_cases hcov : n.led.Covers sc
    · obtain ⟨n', h1, h2, h3⟩ := hi.snapshot ha (hc.1 hcov)
      refine ⟨n', h1, ?_, ?_⟩
      · rw [h2]; exact ⟨fun _ => ⟨rfl, rfl⟩, fun h => absurd hcov h⟩
      · rw [h2]; simpa using h3
    · refine ⟨n, ?_, ⟨fun h => absurd h hcov, fun _ => rfl⟩, up hi⟩
      rw [step_snapshot, hc.2 hcov]
  | delete bs =>
    obtain ⟨n', h1, h2, h3⟩ := hi.delete ha
    exact ⟨n', h1, by rw [h2]; exact ⟨rfl, rfl⟩, up h3⟩
  | rollback h =>
    obtain ⟨n', h1, h2, h3⟩ := hi.rollback ha (hs h rfl)
    exact ⟨n', h1, by rw [h2]; exact ⟨rfl, rfl⟩, up h3⟩
  | restart =>
    obtain ⟨n', h1, h2, h3⟩ := hi.restart
    exact ⟨n', h1, by rw [h2]; exact ⟨rfl, rfl⟩, up h3⟩

theorem Hist.inv (h : Hist cached top n) : Inv cached top n := by
  induction h with
  | start => exact Inv.start
  | step h ha hs he ih =>
    obtain ⟨n', h1, _, h3⟩ := ih.step ha hs
    rw [he] at h1
    simp only [Option.some.injEq] at h1
    subst h1
    exact h3

/-- No allowed operation stops the node, and the ledger is what it should be. -/
theorem never_panics (h : Hist cached top n) {op : Op} (ha : n.led.Allows op)
    (hs : ∀ h, op = .rollback h → n.db.hasRedo (h + 1) = true ∨ n.led.DeepSafe h) :
    ∃ n', n.step cached op = some n' ∧ n.led.After (match op with | .rollback h => n.db.hasRedo (h + 1) | _ => false) op n'.led := by
  obtain ⟨n', h1, h2, _⟩ := h.inv.step ha hs
  exact ⟨n', h1, h2⟩

/-- The redo log of a snapshot is there if the chain has never been more than 1200 snapshots above the one before it. -/
theorem redo_kept (h : Hist cached top n) {k : Nat} (hk : k < n.led.snaps.length) (ht : top ≤ k + 1200) : n.db.hasRedo (k + 1) = true :=
  h.inv.redo.has hk ht

/-! ### Reading -/

/-- The latest value of a storage slot is the last one written by the blocks of the ledger. -/
theorem storage_exact (h : Hist cached top n) (a : Addr) (k : Bytes) :
    n.db.getStorage a k = (slotAfter n.led.all a (.stor k)).getD [] := by
  unfold Db.getStorage
  rw [h.inv.view]
  exact latest_getD n.led.all a k

/-- The balance is the last one written by the blocks of the ledger. -/
theorem balance_exact (h : Hist cached top n) (a : Addr) (t : Bytes) :
    n.db.getBalance a t = (slotAfter n.led.all a (.bal t)).getD [] := by
  have hv : n.db.view (.latest a (.bal t)) = slotAfter n.led.all a (.bal t) := by
    rw [h.inv.view]
    simp only [target]
    unfold Ledger.all
    cases slotAfter (n.led.snaps.flatten ++ n.led.unconf) a (.bal t) <;> rfl
  unfold Db.getBalance
  cases hc : n.db.balc a t with
  | none => rw [hv]
  | some v =>
    have := h.inv.bal a t v hc
    rw [hv] at this
    rw [this]
    rfl

/-- The value of a storage slot at a snapshot is the last one written by the blocks confirmed up to it, from the cache or not. -/
theorem snapshot_storage_exact (h : Hist cached top n) (useCache : Bool) (k : Nat) (a : Addr) (key : Bytes) :
    (n.db.getSnapshotValue cached useCache n.led.snaps.length k a key).getD [] = (slotAfter (n.led.upTo k) a (.stor key)).getD [] := by
  unfold Db.getSnapshotValue
  split
  · rename_i hc
    simp only [Bool.and_eq_true, decide_eq_true_eq] at hc
    rw [h.inv.snap a hc.1.2 key, hc.2]
    unfold Ledger.upTo
    rw [List.take_length]
  · rw [h.inv.view, histAt_target]
    rfl

/-- The balance at a snapshot is the last one written by the blocks confirmed up to it. -/
theorem snapshot_balance_exact (h : Hist cached top n) (k : Nat) (a : Addr) (t : Bytes) :
    n.db.getSnapshotBalance k a t = slotAfter (n.led.upTo k) a (.bal t) := by
  unfold Db.getSnapshotBalance
  rw [h.inv.view, histAt_target]
  rfl

/-- Code, contract meta, VM logs and call depths are those the blocks of the ledger wrote. -/
theorem once_exact (h : Hist cached top n) (i : Bytes) : n.db.getOnce i = onceAfter n.led.all i := by
  unfold Db.getOnce
  rw [h.inv.view]
  rfl

/-- Nothing that a caller can read depends on the way there: not on what was deleted, rolled back or when the node was restarted. -/
theorem reads_by_ledger {top' : Nat} {m : Node} (h : Hist cached top n) (h' : Hist cached top' m) (hs : n.led.snaps = m.led.snaps)
    (hu : n.led.unconf = m.led.unconf) : n.db.view = m.db.view ∧ n.db.conf = m.db.conf ∧ n.db.pend = m.db.pend := by
  refine ⟨?_, ?_, ?_⟩
  · rw [h.inv.view, h'.inv.view, hs, hu]
  · rw [h.inv.conf, h'.inv.conf, hs]
  · rw [h.inv.pend, h'.inv.pend, hu]

/-- What a reader sees is what snapshots have confirmed, changed by the unconfirmed blocks: the condition under which the store keeps
its word (`Verif.Store`, C52). -/
theorem view_is_confirmed_and_pending (h : Hist cached top n) : n.db.view = (pendAll n.db.pend).apply n.db.conf := by
  unfold pendAll
  rw [h.inv.pend, h.inv.conf, h.inv.view, List.flatMap_map]
  have : n.led.unconf.flatMap (fun b => b.entry.2) = n.led.unconf.flatMap Blk.batch := rfl
  rw [this, target_blocks, List.nil_append]

/-- A rollback restores everything that can be read. Missing: rollbacks without redo log where the first storage key of an account
was set above the target; see `deep_rollback_wrong`. -/
theorem rollback_exact_partial (h : Hist cached top n) {k : Nat} (ha : n.led.Allows (.rollback k))
    (hs : n.db.hasRedo (k + 1) = true ∨ n.led.DeepSafe k) :
    ∃ n', n.step cached (.rollback k) = some n' ∧ n'.led.snaps = n.led.snaps.take k ∧
      n'.led.unconf = (if n.db.hasRedo (k + 1) then n.led.snaps.getD k [] else []) ∧
      (∀ a key, n'.db.getStorage a key = (slotAfter n'.led.all a (.stor key)).getD []) ∧
      (∀ a t, n'.db.getBalance a t = (slotAfter n'.led.all a (.bal t)).getD []) ∧
      (∀ i, n'.db.getOnce i = onceAfter n'.led.all i) := by
  have hs' : ∀ h, Op.rollback k = .rollback h → n.db.hasRedo (h + 1) = true ∨ n.led.DeepSafe h := by
    rintro _ ⟨⟩; exact hs
  obtain ⟨n', h1, h2⟩ := never_panics h ha hs'
  have h' := h.step ha hs' h1
  exact ⟨n', h1, h2.1, h2.2, storage_exact h', balance_exact h', once_exact h'⟩

/-! ### Rollbacks without redo log -/

/-- A snapshot more than 1200 below the latest has no redo log. -/
theorem redo_dropped (h : Hist cached top n) {k : Nat} (hk : k + 1 + 1200 ≤ n.led.snaps.length) : n.db.hasRedo (k + 1) = false := by
  obtain ⟨lo, h1, h2, h3⟩ := h.inv.redo.kept
  have hret : retain = 1200 := rfl
  have hgap : gap = 12 := rfl
  have hcur := h.inv.redo.curr
  unfold Db.hasRedo
  simp only [Bool.or_eq_false_iff, Nat.add_sub_cancel]
  refine ⟨⟨?_, ?_⟩, ?_⟩
  · by_contra hc
    have := h.inv.redo.win (k + 1) (by omega) (Bool.eq_true_of_not_eq_false hc)
    omega
  · by_contra hc
    have := (h2 (k + 1)).mp (Bool.eq_true_of_not_eq_false hc)
    omega
  · by_contra hc
    have := (h2 k).mp (Bool.eq_true_of_not_eq_false hc)
    omega

/-- A rollback without redo log leaves the storage of an account as it is if the first of its storage keys was set after the target. -/
theorem deep_rollback_leaves (h : Hist cached top n) {k : Nat} (hk : k < n.led.snaps.length) (hr : n.db.hasRedo (k + 1) = false) {a : Addr} {key : Bytes}
    (h1 : slotAfter n.led.snaps.flatten a (.stor key) ≠ none)
    (hleast : ∀ key', slotAfter n.led.snaps.flatten a (.stor key') ≠ none → key' ≠ key → bytesLt (keyBytes key) (keyBytes key') = true)
    (h2 : slotAfter (n.led.upTo k) a (.stor key) = none) :
    ∃ n', n.step cached (.rollback k) = some n' ∧ n'.led = ⟨n.led.snaps.take k, []⟩ ∧ n'.db.getStorage a key = n.db.getStorage a key := by
  have hi := h.inv
  have hq : (n.db.queryLog (k + 1)).2 = false := by rw [queryLog_snd]; exact hr
  have htop : n.led.snaps.length ≤ k + (n.led.chunks k).length := by rw [chunks_length]; omega
  have hl : leastKey (n.db.histKeys (k + (n.led.chunks k).length) a) = some key := by
    have hm := mem_histKeys hi.view hi.dom htop (a := a) (k := key)
    cases hlk : leastKey (n.db.histKeys (k + (n.led.chunks k).length) a) with
    | none =>
      rw [leastKey_none hlk] at hm
      exact absurd (hm.mpr h1) (by simp)
    | some k0 =>
      obtain ⟨m1, m2⟩ := leastKey_some hlk
      by_cases he : k0 = key
      · rw [he]
      · have := hleast k0 ((mem_histKeys hi.view hi.dom htop).mp m1) he
        rw [m2 key (hm.mpr h1)] at this
        simp at this
  have hstor : ∀ us, n.db.recoverStorage k (k + (n.led.chunks k).length) a us = (us.filter (fun x => decide (x ≠ key))).map (fun x => ⟨.latest a (.stor x), none⟩) := by
    intro us
    unfold Db.recoverStorage
    simp only [hl]
    rw [if_pos]
    rw [hi.view, histAt_target]
    change (slotAfter (n.led.upTo k) a (.stor key)).isNone = true
    rw [h2]; rfl
  have hno : ¬ (n.db.deepBatch k (n.led.chunks k)).Has (.latest a (.stor key)) := by
    rintro ⟨r, hrm, he⟩
    unfold Db.deepBatch at hrm
    simp only [List.mem_append, List.mem_flatMap, List.mem_map] at hrm
    rcases hrm with ⟨c, _, b, _, rfl⟩ | ⟨b, _, hrm | hrm⟩
    · simp at he
    · by_cases hba : b.addr = a
      · rw [hba, hstor] at hrm
        obtain ⟨x, hx, rfl⟩ := List.mem_map.mp hrm
        rw [List.mem_filter] at hx
        simp only [Key.latest.injEq, Field.stor.injEq, true_and] at he
        simp [he] at hx
      · unfold Db.recoverStorage at hrm
        simp only at hrm
        have : ∃ x f, r.key = .latest b.addr f ∨ r.key = .hist b.addr f x := by
          split at hrm
          · obtain ⟨x, _, rfl⟩ := List.mem_map.mp hrm
            exact ⟨0, _, Or.inl rfl⟩
          · split at hrm
            · obtain ⟨x, _, rfl⟩ := List.mem_map.mp hrm
              exact ⟨0, _, Or.inl rfl⟩
            · rcases List.mem_append.mp hrm with hrm | hrm
              · obtain ⟨x, _, hrm⟩ := List.mem_flatMap.mp hrm
                rcases List.mem_cons.mp hrm with rfl | hrm
                · exact ⟨0, _, Or.inl rfl⟩
                · obtain ⟨j, _, _, _, rfl⟩ := mem_dropHist.mp hrm
                  exact ⟨j, _, Or.inr rfl⟩
              · obtain ⟨x, _, rfl⟩ := List.mem_map.mp hrm
                exact ⟨0, _, Or.inl rfl⟩
        obtain ⟨x, f, e | e⟩ := this
        · rw [e] at he
          simp only [Key.latest.injEq] at he
          exact hba he.1
        · rw [e] at he; simp at he
    · unfold Db.recoverBalance at hrm
      rcases List.mem_append.mp hrm with hrm | hrm
      · obtain ⟨x, _, hrm⟩ := List.mem_flatMap.mp hrm
        rcases List.mem_cons.mp hrm with rfl | hrm
        · simp at he
        · obtain ⟨j, _, _, _, rfl⟩ := mem_dropHist.mp hrm
          simp at he
      · obtain ⟨x, _, rfl⟩ := List.mem_map.mp hrm
        simp at he
  rw [step_rollback, hr]
  obtain ⟨c, u, lg, he, _, _, _⟩ := redoRollback_spec { (n.db.caches cached (n.db.deepBatch k (n.led.chunks k))) with
      conf := (n.db.deepBatch k (n.led.chunks k)).apply ((pendAll n.db.pend).apply n.db.conf), pend := [],
      view := (n.db.deepBatch k (n.led.chunks k)).apply n.db.view } ((n.led.chunks k).filterMap (·.height))
  refine ⟨⟨⟨n.led.snaps.take k, []⟩, Db.initSnapCache (Db.setCurrent { (n.db.caches cached (n.db.deepBatch k (n.led.chunks k))) with
      conf := (n.db.deepBatch k (n.led.chunks k)).apply ((pendAll n.db.pend).apply n.db.conf), pend := [],
      view := (n.db.deepBatch k (n.led.chunks k)).apply n.db.view, cache := c, cur := u, logs := lg } (k + 1) (n.db.queryLog (k + 1)).1) cached⟩, ?_, rfl, ?_⟩
  · simp only [Bool.false_eq_true, if_false]
    have : n.db.rollbackSnapshots cached k (n.led.chunks k) [] = some (Db.initSnapCache (Db.setCurrent { (n.db.caches cached (n.db.deepBatch k (n.led.chunks k))) with
      conf := (n.db.deepBatch k (n.led.chunks k)).apply ((pendAll n.db.pend).apply n.db.conf), pend := [],
      view := (n.db.deepBatch k (n.led.chunks k)).apply n.db.view, cache := c, cur := u, logs := lg } (k + 1) (n.db.queryLog (k + 1)).1) cached) := by
      unfold Db.rollbackSnapshots
      simp only [hq, Bool.false_eq_true, if_false]
      exact congrArg (fun d => (Db.initSnapCache (Db.setCurrent d (k + 1) (n.db.queryLog (k + 1)).1) cached).writeByRedo cached (n.db.queryLog (k + 1)).1 []) he
    rw [this]
    rfl
  · show ((n.db.deepBatch k (n.led.chunks k)).apply n.db.view (.latest a (.stor key))).getD [] = _
    rw [Batch.apply_not hno]
    rfl

end Verif.State
