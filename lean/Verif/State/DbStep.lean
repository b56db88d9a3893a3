import Verif.State.DbLog

/-! Every step of the chain keeps the invariant. -/

namespace Verif.State
open Verif.Bytes

/-- The database is that of the ledger. -/
structure Inv (cached : Addr → Bool) (top : Nat) (n : Node) : Prop where
  numbered : Numbered n.led.all
  distinct : Distinct n.led.all
  view : n.db.view = target n.led.snaps n.led.unconf
  conf : n.db.conf = target n.led.snaps []
  pend : n.db.pend = n.led.unconf.map Blk.entry
  redo : RedoInv n.db.cache n.db.cur n.db.logs n.led.snaps n.led.unconf top
  bal : BalOk n.db.balc n.db.view
  snap : SnapOk cached n.db.snapc n.led.snaps.flatten
  dom : ∀ a f, slotAfter n.led.snaps.flatten a f ≠ none → (a, f) ∈ n.db.dom

variable {cached : Addr → Bool} {top : Nat} {n : Node}

theorem RedoInv.mono {cache logs : Table Nat SnapLog} {cur top top' : Nat} {snaps : List (List Blk)} {unconf : List Blk}
    (h : RedoInv cache cur logs snaps unconf top) (ht : top ≤ top') : RedoInv cache cur logs snaps unconf top' := by
  obtain ⟨lo, h1, h2, h3⟩ := h.kept
  exact ⟨h.curr, h.proper, h.now, h.cached, h.stored, ⟨lo, ⟨h1.1, by omega, h1.2.2⟩, h2, h3⟩, h.run, h.win⟩

theorem Inv.rising (hi : Inv cached top n) : Rising n.led.unconf := Rising.suffix hi.numbered.rising

theorem Inv.distinctU (hi : Inv cached top n) : Distinct n.led.unconf := hi.distinct.sublist (List.sublist_append_right _ _)

theorem Inv.start : Inv cached 0 Node.start := by
  refine ⟨fun a => rfl, ⟨List.nodup_nil, List.nodup_nil⟩, ?_, ?_, rfl, RedoInv.start, ?_, ?_, ?_⟩
  · funext k
    cases k with
    | latest a f => rfl
    | hist a f h => simp [Node.start, Db.empty, target, slotAfter, writesOf, lastVal]
    | once i => rfl
  · funext k
    cases k with
    | latest a f => rfl
    | hist a f h => simp [Node.start, Db.empty, target, slotAfter, writesOf, lastVal]
    | once i => rfl
  · intro a t v h
    simp [Node.start, Db.empty] at h
  · intro a _ k
    rfl
  · intro a f h
    exact absurd rfl h

theorem snapUpd_writeBatch (b : Addr) (ws : List (Field × Bytes)) (os : List (Bytes × Bytes)) (c : Addr → Bytes → Option Bytes) :
    snapUpd cached (writeBatch b ws os) c = c := by
  funext a k
  apply snapUpd_not
  intro r hr
  rcases writeBatch_not ⟨r, hr, rfl⟩ with ⟨w, _, e⟩ | ⟨o, _, e⟩ <;> rw [e] <;> rfl

theorem step_insert (b : Blk) : n.step cached (.insert b) =
    (n.db.write cached b).map (fun d => ⟨⟨n.led.snaps, n.led.unconf ++ [b]⟩, d⟩) := rfl

theorem step_snapshot (sc : Table Addr Nat) : n.step cached (.snapshot sc) =
    match toConfirm sc sc.length n.led.unconf with
    | none => some n
    | some bs => (n.db.insertSnapshot cached (n.led.snaps.length + 1) bs).map (fun d => ⟨⟨n.led.snaps ++ [bs], without n.led.unconf bs⟩, d⟩) := rfl

theorem step_delete (bs : List Blk) : n.step cached (.delete bs) =
    (n.db.rollbackBlocks cached n.led.snaps.length bs).map (fun d => ⟨⟨n.led.snaps, without n.led.unconf bs⟩, d⟩) := rfl

/-! ### A block -/

theorem Inv.insert (hi : Inv cached top n) {b : Blk} (ha : n.led.Allows (.insert b)) :
    ∃ n', n.step cached (.insert b) = some n' ∧ n'.led = ⟨n.led.snaps, n.led.unconf ++ [b]⟩ ∧ Inv cached top n' := by
  obtain ⟨hfresh, hheight, honce, hclash⟩ := ha
  obtain ⟨l, hl, hok⟩ := hi.redo.now
  have hw : n.db.write cached b = some { n.db with
      balc := balUpd b.batch n.db.balc, cache := n.db.cache.put n.db.cur (l.put b.addr ((l.get b.addr).getD [] ++ [b.item])),
      pend := n.db.pend ++ [(b.hash, b.batch)], view := b.batch.apply n.db.view } := by
    unfold Db.write Db.addLog Db.caches
    simp only [hl, snapUpd_writeBatch]
    rfl
  refine ⟨_, by rw [step_insert, hw]; rfl, rfl, ?_⟩
  have hall : (⟨n.led.snaps, n.led.unconf ++ [b]⟩ : Ledger).all = n.led.all ++ [b] := by
    unfold Ledger.all; rw [List.append_assoc]
  refine ⟨?_, ?_, ?_, hi.conf, ?_, hi.redo.put (hok.add b), ?_, hi.snap, hi.dom⟩
  · intro a
    simp only [hall, List.filter_append, List.map_append, List.length_append]
    rw [hi.numbered a]
    by_cases hab : b.addr = a
    · subst hab
      simp only [List.filter_cons, decide_true, if_true, List.filter_nil, List.map_cons, List.map_nil, List.length_cons, List.length_nil]
      rw [← List.range'_append_1, hheight, Nat.add_comm 1]
      rfl
    · simp [hab]
  · simp only [hall]
    refine ⟨?_, ?_⟩
    · rw [List.map_append, List.nodup_append]
      refine ⟨hi.distinct.hash, by simp, ?_⟩
      intro x hx y hy e
      obtain ⟨c, hc, rfl⟩ := List.mem_map.mp hx
      simp only [List.map_cons, List.map_nil, List.mem_singleton] at hy
      exact hfresh c hc (by rw [e, hy])
    · rw [List.flatMap_append, List.nodup_append]
      refine ⟨hi.distinct.once, by simpa using honce, ?_⟩
      intro x hx y hy e
      obtain ⟨c, hc, hx⟩ := List.mem_flatMap.mp hx
      obtain ⟨o', ho', rfl⟩ := List.mem_map.mp hx
      simp only [List.flatMap_cons, List.flatMap_nil, List.append_nil] at hy
      obtain ⟨o, ho, rfl⟩ := List.mem_map.mp hy
      exact hclash c hc o ho o' ho' e.symm
  · simp only [hi.view, target_block]
  · simp only [hi.pend, List.map_append]
    rfl
  · exact hi.bal.upd b.batch

/-! ### A snapshot -/

theorem Inv.snapshot (hi : Inv cached top n) {sc : Table Addr Nat} (hsc : sc.Proper) {cs : List Blk}
    (hc : toConfirm sc sc.length n.led.unconf = some cs) :
    ∃ n', n.step cached (.snapshot sc) = some n' ∧ n'.led = ⟨n.led.snaps ++ [cs], without n.led.unconf cs⟩ ∧
      Inv cached (max top (n.led.snaps.length + 1)) n' := by
  have hcs := toConfirm_spec hsc hi.rising hc
  have hsub : cs.Sublist n.led.unconf := by rw [hcs]; exact List.filter_sublist
  have hnd := hi.distinctU.nodup
  have hf := confirm_split sc hi.rising
  have hp := confirm_perm sc hnd
  rw [← hcs] at hf hp
  have hf' : ∀ a, n.led.unconf.filter (fun b => decide (b.addr = a)) = (cs ++ without n.led.unconf cs).filter (fun b => decide (b.addr = a)) := by
    intro a; rw [List.filter_append]; exact hf a
  obtain ⟨this, cache', logs', hr, hredo⟩ := redoInsert_spec hi.redo hi.rising hf hp
  have hq : LogOk (({ n.db with cache := cache', logs := logs', cur := n.led.snaps.length + 2 } : Db).queryLog (n.led.snaps.length + 1)).1 cs := by
    have hlen : (n.led.snaps ++ [cs]).length = n.led.snaps.length + 1 := by simp
    have := RedoInv.query (d := { n.db with cache := cache', logs := logs', cur := n.led.snaps.length + 2 }) (h := n.led.snaps.length)
      hredo (by rw [hlen]; omega) (by
        obtain ⟨lo, h1, h2, h3⟩ := hredo.kept
        unfold Db.hasRedo
        have hret : retain = 1200 := rfl
        by_cases hlo : lo < n.led.snaps.length + 1
        · have := (h2 (n.led.snaps.length + 1)).mpr ⟨hlo, by rw [hlen]⟩
          simp only [this]; simp
        · exfalso
          obtain ⟨lo0, k1, k2, k3⟩ := hi.redo.kept
          have hthis : (logs'.get (n.led.snaps.length + 1)).isSome = true := by
            unfold Db.redoInsert Db.setCurrent at hr
            obtain ⟨l, hl, _⟩ := hi.redo.now
            rw [hl] at hr
            simp only at hr
            split at hr
            · simp at hr
            · simp only [Option.some.injEq, Prod.mk.injEq, Db.mk.injEq] at hr
              rw [← hr.2.2.2.2.2.2.1]
              split
              · rw [get_rm, if_neg (by omega), Table.get_put_self]; rfl
              · rw [Table.get_put_self]; rfl
          have := ((h2 _).mp hthis).1
          omega) (Nat.le_refl _) (by rw [hlen]; omega)
    rw [List.getD_eq_getElem?_getD, List.getElem?_append_right (Nat.le_refl _)] at this
    simpa using this
  generalize hlog : (({ n.db with cache := cache', logs := logs', cur := n.led.snaps.length + 2 } : Db).queryLog (n.led.snaps.length + 1)).1 = log at hq
  have ht : takeOut cs n.db.pend = some (cs.flatMap Blk.batch, (without n.led.unconf cs).map Blk.entry) := by
    rw [hi.pend]
    exact takeOut_spec hi.distinctU.hash (fun c h => hsub.subset h) (hnd.sublist hsub)
  have hw : n.db.insertSnapshot cached (n.led.snaps.length + 1) cs = some { n.db with
      cache := cache', logs := logs', cur := n.led.snaps.length + 2,
      balc := balUpd (histBatch (n.led.snaps.length + 1) log) n.db.balc, snapc := snapUpd cached (histBatch (n.led.snaps.length + 1) log) n.db.snapc,
      conf := (histBatch (n.led.snaps.length + 1) log).apply (Batch.apply (cs.flatMap Blk.batch) n.db.conf),
      pend := (without n.led.unconf cs).map Blk.entry, view := (histBatch (n.led.snaps.length + 1) log).apply n.db.view,
      dom := n.db.dom ++ slots log } := by
    unfold Db.insertSnapshot
    rw [hr]
    simp only [hlog, Db.caches, ht]
  refine ⟨_, by rw [step_snapshot, hc]; simp only [hw]; rfl, rfl, ?_⟩
  have hall : (⟨n.led.snaps ++ [cs], without n.led.unconf cs⟩ : Ledger).all = n.led.snaps.flatten ++ (cs ++ without n.led.unconf cs) := by
    unfold Ledger.all; rw [flatten_snoc, List.append_assoc]
  refine ⟨?_, ?_, ?_, ?_, rfl, hredo, hi.bal.upd _, ?_, ?_⟩
  · show Numbered (⟨n.led.snaps ++ [cs], without n.led.unconf cs⟩ : Ledger).all
    rw [hall]
    refine hi.numbered.prefix (fun a => ⟨[], ?_⟩)
    unfold Ledger.all
    rw [List.append_nil, List.filter_append, hf' a, ← List.filter_append]
  · show Distinct (⟨n.led.snaps ++ [cs], without n.led.unconf cs⟩ : Ledger).all
    rw [hall]
    exact hi.distinct.perm (List.Perm.append_left _ hp)
  · simp only [hi.view]
    exact target_snapshot hq _ _ _ hf' hp hi.distinct.once
  · simp only [hi.conf, target_blocks, List.nil_append]
    have hn : ((n.led.snaps.flatten ++ cs).flatMap (fun b => b.once.map (·.1))).Nodup :=
      (hi.distinct.sublist (cs := n.led.snaps.flatten ++ cs) (List.Sublist.append (List.Sublist.refl _) hsub)).once
    exact target_snapshot hq _ cs [] (by simp) (by simp) hn
  · intro a ha k
    simp only
    rw [snapUpd_height ha (n.led.snaps.length + 1), histBatch_hist hq, flatten_snoc, slotAfter_append]
    · cases slotAfter cs a (.stor k) with
      | some v => rfl
      | none =>
        simp only [Option.none_or]
        exact hi.snap a ha k
    · intro r hr hh
      obtain ⟨e, _, i, _, w, _, rfl⟩ := histBatch_mem.mp hr
      obtain ⟨h', e'⟩ := isHist_iff.mp hh
      simp only [Key.hist.injEq] at e'
      simp only [e'.1, e'.2.1]
  · intro a f hne
    simp only [flatten_snoc] at hne
    rw [slotAfter_append] at hne
    rw [List.mem_append, slots_mem hq]
    by_cases h1 : slotAfter cs a f = none
    · rw [h1, Option.none_or] at hne
      exact Or.inl (hi.dom a f hne)
    · exact Or.inr h1

/-! ### Deleting blocks -/

theorem Inv.delete (hi : Inv cached top n) {bs : List Blk} (ha : n.led.Allows (.delete bs)) :
    ∃ n', n.step cached (.delete bs) = some n' ∧ n'.led = ⟨n.led.snaps, without n.led.unconf bs⟩ ∧ Inv cached top n' := by
  obtain ⟨hsub, hclosed⟩ := ha
  have hnd := hi.distinctU.nodup
  have hf := delete_split hi.rising hnd hsub hclosed
  have hp := without_perm hnd hsub
  have hf' : ∀ a, n.led.unconf.filter (fun b => decide (b.addr = a)) = (without n.led.unconf bs ++ bs).filter (fun b => decide (b.addr = a)) := by
    intro a; rw [List.filter_append]; exact hf a
  obtain ⟨log, hq, hok⟩ := hi.redo.query_now
  have hdl := deleteLogs_spec hi.rising hf bs [] rfl [] log (by simp [Table.Proper]) hok.proper (by simp [Table.get]) (by simp) (fun a _ => hok.items a)
  have hrec := recoverLatest_eq (d := n.db) cached true n.led.snaps.length n.led.snaps.length hi.view (fun _ => ⟨rfl, hi.snap⟩)
    (leftSlots ((deleteLogs bs [] log).1.map (·.1)) (deleteLogs bs [] log).2 (slots (deleteLogs bs [] log).1))
  rw [List.take_length] at hrec
  generalize hbt : rollbackByRedo none (deleteLogs bs [] log).1 ++ recoverByRedo ((deleteLogs bs [] log).1.map (·.1)) (deleteLogs bs [] log).2 ++
    recBatch n.led.snaps.flatten (leftSlots ((deleteLogs bs [] log).1.map (·.1)) (deleteLogs bs [] log).2 (slots (deleteLogs bs [] log).1)) = bt
  have hkey : ∀ r ∈ bt, ∀ a k, isHist a k r.key = false := by
    intro r hr a k
    rw [← hbt, List.mem_append, List.mem_append] at hr
    rcases hr with (hr | hr) | hr
    · obtain ⟨b, _, ⟨w, _, rfl⟩ | ⟨o, _, rfl⟩⟩ := (rollbackByRedo_mem hdl.1).mp hr <;> rfl
    · obtain ⟨a, f, e⟩ := recoverByRedo_key hr
      rw [e]; rfl
    · obtain ⟨x, _, rfl⟩ := List.mem_map.mp hr
      rfl
  have hsn : snapUpd cached bt n.db.snapc = n.db.snapc := by
    funext a k
    exact snapUpd_not (fun r hr => hkey r hr a k)
  have hw : n.db.rollbackBlocks cached n.led.snaps.length bs = some { (n.db.setCurrent (n.led.snaps.length + 1) (deleteLogs bs [] log).2) with
      balc := balUpd bt n.db.balc, pend := (without n.led.unconf bs).map Blk.entry, view := bt.apply n.db.view } := by
    unfold Db.rollbackBlocks
    rw [hq]
    simp only [hrec, hbt, Db.caches, Db.setCurrent, hsn]
    rw [hi.pend, removeAll_spec hi.distinctU.hash (fun c h => hsub.subset h) (hnd.sublist hsub)]
  refine ⟨_, by rw [step_delete, hw]; rfl, rfl, ?_⟩
  refine ⟨?_, ?_, ?_, hi.conf, rfl, hi.redo.setCurrent hdl.2.1, hi.bal.upd _, hi.snap, hi.dom⟩
  · refine hi.numbered.prefix (fun a => ⟨bs.filter (fun b => decide (b.addr = a)), ?_⟩)
    unfold Ledger.all
    simp only
    rw [List.filter_append, List.filter_append, hf a, List.append_assoc]
  · have h1 : Distinct (n.led.snaps.flatten ++ (without n.led.unconf bs ++ bs)) := hi.distinct.perm (List.Perm.append_left _ hp)
    refine h1.sublist ?_
    unfold Ledger.all
    exact List.Sublist.append (List.Sublist.refl _) (List.sublist_append_left _ _)
  · simp only [hi.view, ← hbt]
    exact target_delete hdl.1 hdl.2.1 hdl.2.2 hf' hp hi.distinct.once

/-! ### Restart -/

theorem Inv.restart (hi : Inv cached top n) :
    ∃ n', n.step cached .restart = some n' ∧ n'.led = ⟨n.led.snaps, []⟩ ∧ Inv cached top n' := by
  refine ⟨_, rfl, rfl, ?_⟩
  refine ⟨?_, ?_, hi.conf, hi.conf, rfl, hi.redo.restart, ?_, ?_, hi.dom⟩
  · refine hi.numbered.prefix (fun a => ⟨n.led.unconf.filter (fun b => decide (b.addr = a)), ?_⟩)
    unfold Ledger.all
    simp only [List.append_nil, List.filter_append]
  · refine hi.distinct.sublist ?_
    unfold Ledger.all
    simp only [List.append_nil]
    exact List.sublist_append_left _ _
  · intro a t v h
    simp [Db.restart, Db.initSnapCache] at h
  · intro a ha k
    have := latest_getD n.led.snaps.flatten a k
    simp only [Db.restart, Db.initSnapCache, ha, if_true, hi.conf]
    rw [← this]
    have ht : target n.led.snaps [] (.latest a (.stor k)) = (slotAfter n.led.snaps.flatten a (.stor k)).bind (latestVal (.stor k)) := by
      simp only [target, List.append_nil]
    rw [ht]
    cases (slotAfter n.led.snaps.flatten a (.stor k)).bind (latestVal (.stor k)) <;> rfl

end Verif.State
