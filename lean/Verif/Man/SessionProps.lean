import Verif.Man.VersionProps

/-! # A database that is opened again has the levels and the numbers of its last commit -/

namespace Verif.Man
open Verif.Bytes Verif.Store

variable {O : Type} [LinearOrder O] {name : Bytes} {ord : Bytes → O}

/-! ### Specification -/

/-- What a session goes through.  Records come from flushes and compactions: they carry no name of the
comparer, and the tables they add have numbers that were given out.  File numbers are given out, and given
back, in between; none that a table of the version or the manifest has is given out again. -/
inductive Hist (name : Bytes) (ord : Bytes → O) : Ses → Prop
  | create : Hist name ord (Ses.fresh.create name)
  | number {s : Ses} (n : Nat) : Hist name ord s → (∀ i, ∀ t ∈ s.ver.getD i [], t.num < n) → (∀ d, s.disk = some d → d.1 < n) → n + 1 < 2 ^ 63 →
      Hist name ord { s with next := n }
  | commit {s : Ses} (r : SRec) : Hist name ord s → r.Small → r.comparer = none → r.prevJournal = none → (∀ a ∈ r.adds, a.2.num < s.next) → s.next + 1 < 2 ^ 63 →
      Hist name ord (s.commit name ord r)
  | reopen {s s' : Ses} : Hist name ord s → recover name ord s.disk = some s' → Hist name ord s'

/-! ### Pointers -/

def lastOf : List (Nat × Bytes) → Nat → Option Bytes
  | [], _ => none
  | c :: cs, l => (lastOf cs l).or (if c.1 = l then some c.2 else none)

theorem lastOf_append (a b : List (Nat × Bytes)) (l : Nat) : lastOf (a ++ b) l = (lastOf b l).or (lastOf a l) := by
  induction a with
  | nil => show lastOf b l = (lastOf b l).or none; rw [Option.or_none]
  | cons c a ih =>
    show (lastOf (a ++ b) l).or _ = (lastOf b l).or ((lastOf a l).or _)
    rw [ih, Option.or_assoc]

theorem setComp_getD (ps : List (Option Bytes)) (l : Nat) (k : Bytes) (i : Nat) : (setComp ps l k).getD i none = if l = i then some k else ps.getD i none := by
  have hpad : (ps ++ List.replicate (l + 1 - ps.length) (none : Option Bytes)).getD i none = ps.getD i none := by
    rw [List.getD_eq_getElem?_getD, List.getD_eq_getElem?_getD]
    rcases Nat.lt_or_ge i ps.length with q | q
    · rw [List.getElem?_append_left q]
    · rw [List.getElem?_append_right q, List.getElem?_eq_none q, List.getElem?_replicate]
      split <;> rfl
  unfold setComp
  rw [← hpad, List.getD_eq_getElem?_getD, List.getElem?_set, List.getD_eq_getElem?_getD]
  by_cases h : l = i
  · rw [if_pos h, if_pos h, if_pos (by rw [List.length_append, List.length_replicate]; omega)]; rfl
  · rw [if_neg h, if_neg h]

theorem setComps_getD (cs : List (Nat × Bytes)) : ∀ (ps : List (Option Bytes)) (l : Nat), (setComps ps cs).getD l none = (lastOf cs l).or (ps.getD l none) := by
  induction cs with
  | nil => intro ps l; rfl
  | cons c cs ih =>
    intro ps l
    show (setComps (setComp ps c.1 c.2) cs).getD l none = ((lastOf cs l).or _).or _
    rw [ih, setComp_getD, Option.or_assoc]
    split <;> rfl

theorem lastOf_compList (ps : List (Option Bytes)) (l : Nat) : lastOf (compList ps) l = ps.getD l none := by
  have key : ∀ L : List Nat, lastOf (L.filterMap (fun i => (ps.getD i none).map (fun k => (i, k)))) l = if l ∈ L then ps.getD l none else none := by
    intro L
    induction L with
    | nil => rfl
    | cons i L ih =>
      rw [List.filterMap_cons]
      cases hg : ps.getD i none with
      | none =>
        show lastOf (L.filterMap _) l = _
        rw [ih]
        by_cases h1 : l ∈ L
        · rw [if_pos h1, if_pos (List.mem_cons_of_mem _ h1)]
        · rw [if_neg h1]
          by_cases h2 : l = i
          · subst h2; rw [hg, ite_self]
          · rw [if_neg (by simp [h1, h2])]
      | some k =>
        show (lastOf (L.filterMap _) l).or (if i = l then some k else none) = _
        rw [ih]
        by_cases h2 : i = l
        · subst h2
          rw [if_pos rfl, if_pos List.mem_cons_self, hg]
          split <;> rfl
        · rw [if_neg h2, Option.or_none]
          simp [Ne.symm h2]
  unfold compList
  rw [key]
  by_cases h : l < ps.length
  · rw [if_pos (List.mem_range.2 h)]
  · rw [if_neg (fun q => h (List.mem_range.1 q)), getD_ge _ (by omega)]

theorem compList_mem {ps : List (Option Bytes)} {c : Nat × Bytes} (h : c ∈ compList ps) : c.1 < ps.length ∧ ps.getD c.1 none = some c.2 := by
  obtain ⟨i, hi, hc⟩ := List.mem_filterMap.1 h
  obtain ⟨k, hk, rfl⟩ := Option.map_eq_some_iff.1 hc
  exact ⟨List.mem_range.1 hi, hk⟩

theorem setComp_length (ps : List (Option Bytes)) (l : Nat) (k : Bytes) : (setComp ps l k).length = max ps.length (l + 1) := by
  unfold setComp
  rw [List.length_set, List.length_append, List.length_replicate]; omega

/-- Pointers that fit. -/
def SmallPs (ps : List (Option Bytes)) : Prop := ps.length ≤ 2 ^ 63 ∧ ∀ l k, ps.getD l none = some k → k.length < 2 ^ 32

theorem small_setComps {cs : List (Nat × Bytes)} : ∀ {ps : List (Option Bytes)}, SmallPs ps → (∀ c ∈ cs, c.1 < 2 ^ 63 ∧ c.2.length < 2 ^ 32) → SmallPs (setComps ps cs) := by
  induction cs with
  | nil => intro ps h _; exact h
  | cons c cs ih =>
    intro ps h hc
    refine ih ⟨?_, ?_⟩ (fun x hx => hc x (List.mem_cons_of_mem _ hx))
    · rw [setComp_length]
      have := (hc c List.mem_cons_self).1
      have := h.1
      omega
    · intro l k hk
      rw [setComp_getD] at hk
      split at hk
      · rw [← Option.some.inj hk]; exact (hc c List.mem_cons_self).2
      · exact h.2 l k hk

/-! ### Tables of records -/

theorem listing_mem {v : Ver} {i : Nat} {t : Tb} : (i, t) ∈ listing v ↔ t ∈ v.getD i [] := by
  unfold listing
  rw [List.mem_flatMap]
  constructor
  · rintro ⟨j, hj, h⟩
    obtain ⟨x, hx, e⟩ := List.mem_map.1 h
    cases e
    exact hx
  · intro h
    refine ⟨i, List.mem_range.2 ?_, List.mem_map.2 ⟨t, h, rfl⟩⟩
    by_contra hc
    rw [getD_ge _ (by omega)] at h
    exact absurd h (by simp)

theorem adds_none {L : List (Nat × Tb)} : ∀ {m : Tabs} {i n : Nat}, (∀ a ∈ L, ¬ (i = a.1 ∧ n = a.2.num)) → (L.foldl Tabs.add m) i n = m i n := by
  induction L with
  | nil => intro m i n _; rfl
  | cons a L ih =>
    intro m i n h
    rw [List.foldl_cons, ih (fun x hx => h x (List.mem_cons_of_mem _ hx))]
    exact if_neg (h a List.mem_cons_self)

theorem adds_some {L : List (Nat × Tb)} : ∀ {m : Tabs} {i n : Nat} {t : Tb}, (∀ a ∈ L, i = a.1 ∧ n = a.2.num → a.2 = t) → (m i n = some t ∨ ∃ a ∈ L, i = a.1 ∧ n = a.2.num) →
    (L.foldl Tabs.add m) i n = some t := by
  induction L with
  | nil =>
    intro m i n t _ h
    rcases h with h | ⟨a, ha, _⟩
    · exact h
    · exact absurd ha (by simp)
  | cons a L ih =>
    intro m i n t h hx
    rw [List.foldl_cons]
    refine ih (fun x hx => h x (List.mem_cons_of_mem _ hx)) ?_
    by_cases hq : i = a.1 ∧ n = a.2.num
    · left
      show (if i = a.1 ∧ n = a.2.num then some a.2 else _) = _
      rw [if_pos hq, h a List.mem_cons_self hq]
    · rcases hx with hx | ⟨b, hb, e⟩
      · left
        show (if i = a.1 ∧ n = a.2.num then some a.2 else _) = _
        rw [if_neg hq, hx]
      · rcases List.mem_cons.1 hb with rfl | hb
        · exact absurd e hq
        · exact Or.inr ⟨b, hb, e⟩

/-- What is not there after tables were put in is not among them. -/
theorem adds_not_mem {L : List (Nat × Tb)} : ∀ {m : Tabs} {i n : Nat}, (L.foldl Tabs.add m) i n = none → ∀ a ∈ L, ¬ (i = a.1 ∧ n = a.2.num) := by
  induction L with
  | nil => intro m i n _ a ha; exact absurd ha (by simp)
  | cons a L ih =>
    intro m i n h x hx
    rw [List.foldl_cons] at h
    rcases List.mem_cons.1 hx with rfl | hx
    · intro hq
      have hL := ih h
      rw [adds_none hL] at h
      have : (if i = x.1 ∧ n = x.2.num then some x.2 else m i n) = none := h
      rw [if_pos hq] at this
      cases this
    · exact ih h x hx

/-- Something that holds of all tables, and of those a record adds, holds after the record. -/
theorem apply_all {P : Nat → Nat → Tb → Prop} {m : Tabs} {r : SRec} (h : ∀ i n t, m i n = some t → P i n t) (ha : ∀ a ∈ r.adds, P a.1 a.2.num a.2) :
    ∀ i n t, m.apply r i n = some t → P i n t := by
  unfold Tabs.apply
  have h1 : ∀ (L : List (Nat × Nat)) (m : Tabs), (∀ i n t, m i n = some t → P i n t) → ∀ i n t, (L.foldl Tabs.del m) i n = some t → P i n t := by
    intro L
    induction L with
    | nil => intro m h; exact h
    | cons d L ih =>
      intro m h
      refine ih _ ?_
      intro i n t ht
      have ht' : (if i = d.1 ∧ n = d.2 then none else m i n) = some t := ht
      split at ht'
      · cases ht'
      · exact h _ _ _ ht'
  have h2 : ∀ (L : List (Nat × Tb)) (m : Tabs), (∀ a ∈ L, P a.1 a.2.num a.2) → (∀ i n t, m i n = some t → P i n t) → ∀ i n t, (L.foldl Tabs.add m) i n = some t → P i n t := by
    intro L
    induction L with
    | nil => intro m _ h; exact h
    | cons d L ih =>
      intro m hd h
      refine ih _ (fun x hx => hd x (List.mem_cons_of_mem _ hx)) ?_
      intro i n t ht
      have ht' : (if i = d.1 ∧ n = d.2.num then some d.2 else m i n) = some t := ht
      split at ht'
      · rename_i hq
        rw [← Option.some.inj ht', hq.1, hq.2]
        exact hd d List.mem_cons_self
      · exact h _ _ _ ht'
  exact h2 _ _ ha (h1 _ _ h)

theorem dels_empty (L : List (Nat × Nat)) : L.foldl Tabs.del (fun _ _ => none) = fun _ _ => none := by
  induction L with
  | nil => rfl
  | cons d L ih =>
    rw [List.foldl_cons]
    have : Tabs.del (fun _ _ => none) d = fun _ _ => none := by
      funext i n; unfold Tabs.del; exact ite_self _
    rw [this, ih]

/-- **A snapshot says the same as the records before it**: a record with all tables of the new version put in,
read on its own, gives the new version. -/
theorem snapshot_same {m : Tabs} {r r' : SRec} {v : Ver} (hv : Shows ord v (m.apply r)) (wf : ∀ i n t, m.apply r i n = some t → t.num = n) (h : r'.adds = r.adds ++ listing v) :
    Tabs.apply (fun _ _ => none) r' = m.apply r := by
  funext i n
  unfold Tabs.apply
  rw [dels_empty, h, List.foldl_append]
  cases hm : m.apply r i n with
  | none =>
    have hL : ∀ a ∈ listing v, ¬ (i = a.1 ∧ n = a.2.num) := by
      rintro ⟨j, t⟩ ha ⟨e1, e2⟩
      have e1' : i = j := e1
      have e2' : n = t.num := e2
      subst e1'; subst e2'
      rw [(hv.mem i t).1 (listing_mem.1 ha)] at hm
      cases hm
    rw [adds_none hL, adds_none (adds_not_mem hm)]
    exact hm.symm
  | some t =>
    refine (adds_some (t := t) ?_ (Or.inr ⟨(i, t), listing_mem.2 ((hv.mem i t).2 ?_), rfl, ?_⟩)).trans hm.symm
    · rintro ⟨j, x⟩ ha ⟨e1, e2⟩
      have e1' : i = j := e1
      have e2' : n = x.num := e2
      subst e1'; subst e2'
      have := (hv.mem i x).1 (listing_mem.1 ha)
      rw [hm] at this
      exact (Option.some.inj this).symm
    · rw [wf _ _ _ hm]; exact hm
    · exact (wf _ _ _ hm).symm

/-! ### The invariant -/

theorem replay_append (a b : List Bytes) : ∀ x, replay x (a ++ b) = (replay x a).bind (fun y => replay y b) := by
  induction a with
  | nil => intro x; rfl
  | cons c a ih =>
    rintro ⟨r, ps, ls⟩
    show (match decode r c with | none => none | some r' => replay _ (a ++ b)) = (match decode r c with | none => none | some r' => replay _ a).bind _
    cases decode r c with
    | none => rfl
    | some r' => exact ih _

theorem replay_one {r : SRec} (h : r.Small) (s : SRec) (ps : List (Option Bytes)) (ls : List Scr) :
    replay (s, ps, ls) [r.encode] = some ({ r.over s with comps := [], adds := [], dels := [] }, setComps ps (r.over s).comps, stage [] ls (r.over s)) := by
  show (match decode s r.encode with | none => none | some r' => replay _ []) = _
  rw [record_round_trip h]
  rfl

/-- What the manifest on disk says of the session. -/
structure Inv (name : Bytes) (ord : Bytes → O) (s : Ses) (m : Tabs) (man k : Nat) (bs : List Bytes) (r : SRec) (ps : List (Option Bytes)) (ls : List Scr) : Prop where
  disk : s.disk = some (man, bs)
  replay : replay ({}, [], []) bs = some (r, ps, ls)
  comparer : r.comparer = some name
  journal : r.journal = some s.journal
  seq : r.seq = some s.seq
  prev : r.prevJournal = none
  prev0 : s.prevJournal = 0
  next : r.next = some k
  lists : r.comps = [] ∧ r.dels = [] ∧ r.adds = []
  comps : ∀ l, ps.getD l none = s.comps.getD l none
  staged : Staged [] (fun _ _ => none) ls m
  shows : Shows ord s.ver m
  wf : ∀ i n t, m i n = some t → t.num = n ∧ i < 2 ^ 63 ∧ t.small ∧ t.num < s.next ∧ t.num < k
  smallJ : s.journal < 2 ^ 63
  smallQ : s.seq < 2 ^ 63
  smallC : SmallPs s.comps
  smallP : SmallPs ps
  man : man < k ∧ man < s.next

theorem fresh_snapshot_small (hn : name.length < 2 ^ 32) {s : Ses} {r : SRec} {v : Ver} (hr : r.Small) (hj : s.journal < 2 ^ 63) (hq : s.seq < 2 ^ 63) (hx : s.next < 2 ^ 63)
    (hc : SmallPs s.comps) (hv : ∀ i, ∀ t ∈ v.getD i [], i < 2 ^ 63 ∧ t.small) : (s.snapshot name r v).Small where
  comparer := by intro c h; rw [← Option.some.inj h]; exact hn
  journal := by
    intro n h
    rw [← Option.some.inj h]
    cases hq : r.journal with
    | none => exact hj
    | some x => exact hr.journal x hq
  next := by intro n h; rw [← Option.some.inj h]; exact hx
  seq := by
    intro n h
    rw [← Option.some.inj h]
    cases hq' : r.seq with
    | none => exact hq
    | some x => exact hr.seq x hq'
  comps := by
    intro c h
    rcases List.mem_append.1 h with h | h
    · exact hr.comps c h
    · obtain ⟨h1, h2⟩ := compList_mem h
      exact ⟨Nat.lt_of_lt_of_le h1 hc.1, hc.2 _ _ h2⟩
  dels := hr.dels
  adds := by
    rintro ⟨i, t⟩ h
    rcases List.mem_append.1 h with h | h
    · exact hr.adds _ h
    · exact hv i t (listing_mem.1 h)

theorem stage_congr (base : Ver) (ls : List Scr) {r r' : SRec} (h1 : r.dels = r'.dels) (h2 : r.adds = r'.adds) : stage base ls r = stage base ls r' := by
  unfold stage; rw [h1, h2]

theorem apply_congr (m : Tabs) {r r' : SRec} (h1 : r.dels = r'.dels) (h2 : r.adds = r'.adds) : m.apply r = m.apply r' := by
  unfold Tabs.apply; rw [h1, h2]

/-- The tables of a version after a record. -/
theorem spawn_shows {v : Ver} {m : Tabs} (h : Shows ord v m) (wf : ∀ i n t, m i n = some t → t.num = n) (r : SRec) : Shows ord (spawn ord v r) (m.apply r) :=
  finish_shows (staged_stage (staged_nil wf h.mem) r) (fun i => (h.sorted i).imp inOrder_iff.1)

theorem staged_empty : Staged [] (fun _ _ => none) [] (fun _ _ => none) :=
  staged_nil (by intro i n t h; cases h) (by intro i t; simp)

/-- A new manifest. -/
theorem inv_new (hn : name.length < 2 ^ 32) {s : Ses} {r : SRec} {v : Ver} {m : Tabs} (hr : r.Small) (hp : r.prevJournal = none) (hs0 : s.prevJournal = 0)
    (hj : s.journal < 2 ^ 63) (hq : s.seq < 2 ^ 63) (hx : s.next + 1 < 2 ^ 63) (hc : SmallPs s.comps)
    (hv : Shows ord v (m.apply r)) (wf : ∀ i n t, m.apply r i n = some t → t.num = n ∧ i < 2 ^ 63 ∧ t.small ∧ t.num < s.next) :
    ∃ bs r' ps ls, Inv name ord { s.newManifest name r v with ver := v } (m.apply r) s.next (s.next + 1) bs r' ps ls := by
  have hsm : (({ s with next := s.next + 1 } : Ses).snapshot name r v).Small :=
    fresh_snapshot_small hn hr hj hq hx hc (fun i t ht => by
      have := wf i t.num t ((hv.mem i t).1 ht)
      exact ⟨this.2.1, this.2.2.1⟩)
  refine ⟨_, _, _, _,
    { disk := rfl, replay := replay_one hsm {} [] [], comparer := rfl, journal := ?_, seq := ?_, prev := rfl, prev0 := ?_, next := rfl,
      lists := ⟨rfl, rfl, rfl⟩, comps := ?_, staged := ?_, shows := hv, wf := ?_, smallJ := ?_, smallQ := ?_, smallC := ?_, smallP := ?_, man := ?_ }⟩
  · rfl
  · rfl
  · show r.prevJournal.getD s.prevJournal = 0
    rw [hp]; exact hs0
  · intro l
    show (setComps [] ([] ++ (r.comps ++ compList s.comps))).getD l none = (setComps s.comps (r.comps ++ compList s.comps)).getD l none
    rw [List.nil_append, setComps_getD, setComps_getD, lastOf_append, lastOf_compList]
    cases hl : s.comps.getD l none with
    | none => rfl
    | some k => rfl
  · have h1 := staged_stage staged_empty ((({ s with next := s.next + 1 } : Ses).snapshot name r v).over {})
    have h2 : Tabs.apply (fun _ _ => none) ((({ s with next := s.next + 1 } : Ses).snapshot name r v).over {}) = m.apply r :=
      snapshot_same hv (fun i n t h => (wf i n t h).1) rfl
    rw [h2] at h1
    exact h1
  · intro i n t h
    obtain ⟨a, b, c, d⟩ := wf i n t h
    refine ⟨a, b, c, ?_, ?_⟩
    · show t.num < s.next + 1; omega
    · omega
  · exact hsm.journal _ rfl
  · exact hsm.seq _ rfl
  · exact small_setComps hc hsm.comps
  · exact small_setComps ⟨by decide, by intro l k h; simp at h⟩ hsm.comps
  · exact ⟨Nat.lt_succ_self _, Nat.lt_succ_self _⟩

theorem inv_commit (hn : name.length < 2 ^ 32) {s : Ses} {m : Tabs} {man k : Nat} {bs : List Bytes} {r' : SRec} {ps : List (Option Bytes)} {ls : List Scr}
    (y : Inv name ord s m man k bs r' ps ls) {r : SRec} (hr : r.Small) (hc : r.comparer = none) (hp : r.prevJournal = none) (ha : ∀ a ∈ r.adds, a.2.num < s.next) (hx : s.next + 1 < 2 ^ 63) :
    ∃ man k bs r' ps ls, Inv name ord (s.commit name ord r) (m.apply r) man k bs r' ps ls := by
  have hv := spawn_shows y.shows (fun i n t h => (y.wf i n t h).1) r
  have wf : ∀ i n t, m.apply r i n = some t → t.num = n ∧ i < 2 ^ 63 ∧ t.small ∧ t.num < s.next :=
    apply_all (P := fun i n t => t.num = n ∧ i < 2 ^ 63 ∧ t.small ∧ t.num < s.next) (fun i n t h => ⟨(y.wf i n t h).1, (y.wf i n t h).2.1, (y.wf i n t h).2.2.1, (y.wf i n t h).2.2.2.1⟩)
      (fun a hm => ⟨rfl, (hr.adds a hm).1, (hr.adds a hm).2, ha a hm⟩)
  unfold Ses.commit
  dsimp only
  cases hw : s.writer with
  | false =>
    obtain ⟨bs', r1, ps', ls', h⟩ := inv_new (name := name) hn hr hp y.prev0 y.smallJ y.smallQ hx y.smallC hv wf
    exact ⟨_, _, bs', r1, ps', ls', h⟩
  | true =>
    rw [if_pos rfl]
    have hsm : ({ r with next := some s.next } : SRec).Small :=
      { comparer := hr.comparer, journal := hr.journal, next := by intro n h; rw [← Option.some.inj h]; omega, seq := hr.seq, comps := hr.comps, dels := hr.dels, adds := hr.adds }
    have hover : ∀ x : SRec, x.comps = [] ∧ x.dels = [] ∧ x.adds = [] →
        (({ r with next := some s.next } : SRec).over x).comps = r.comps ∧ (({ r with next := some s.next } : SRec).over x).dels = r.dels ∧ (({ r with next := some s.next } : SRec).over x).adds = r.adds := by
      rintro x ⟨h1, h2, h3⟩
      refine ⟨?_, ?_, ?_⟩
      · show x.comps ++ r.comps = _; rw [h1]; rfl
      · show x.dels ++ r.dels = _; rw [h2]; rfl
      · show x.adds ++ r.adds = _; rw [h3]; rfl
    obtain ⟨o1, o2, o3⟩ := hover r' y.lists
    have hrep := (replay_append bs [({ r with next := some s.next } : SRec).encode] ({}, [], [])).trans
      ((congrArg (fun z => Option.bind z (fun y => replay y [({ r with next := some s.next } : SRec).encode])) y.replay).trans (replay_one hsm r' ps ls))
    refine ⟨man, s.next, _, _, _, _,
      { disk := ?_, replay := hrep, comparer := ?_, journal := ?_, seq := ?_, prev := ?_, prev0 := ?_, next := ?_,
        lists := ?_, comps := ?_, staged := ?_, shows := hv, wf := ?_, smallJ := ?_, smallQ := ?_, smallC := ?_, smallP := ?_, man := ⟨y.man.2, y.man.2⟩ }⟩
    rotate_left
    · show r.comparer.or r'.comparer = _
      rw [hc]; exact y.comparer
    · show r.journal.or r'.journal = some (r.journal.getD s.journal)
      rw [y.journal]; cases r.journal <;> rfl
    · show r.seq.or r'.seq = some (r.seq.getD s.seq)
      rw [y.seq]; cases r.seq <;> rfl
    · exact y.prev
    · show r.prevJournal.getD s.prevJournal = 0
      rw [hp]; exact y.prev0
    · rfl
    · exact ⟨rfl, rfl, rfl⟩
    · intro l
      show (setComps ps _).getD l none = (setComps s.comps r.comps).getD l none
      rw [o1, setComps_getD, setComps_getD, y.comps]
    · have h1 := staged_stage y.staged (({ r with next := some s.next } : SRec).over r')
      rw [apply_congr m o2 o3] at h1
      exact h1
    · intro i n t h
      obtain ⟨a, b, c, d⟩ := wf i n t h
      exact ⟨a, b, c, d, d⟩
    · show r.journal.getD s.journal < _
      cases hq : r.journal with
      | none => exact y.smallJ
      | some x => exact hr.journal x hq
    · show r.seq.getD s.seq < _
      cases hq : r.seq with
      | none => exact y.smallQ
      | some x => exact hr.seq x hq
    · exact small_setComps y.smallC hr.comps
    · rw [o1]; exact small_setComps y.smallP hr.comps
    · show s.disk.map _ = _
      rw [y.disk]; rfl

theorem recover_inv {s : Ses} {m : Tabs} {man k : Nat} {bs : List Bytes} {r : SRec} {ps : List (Option Bytes)} {ls : List Scr}
    (y : Inv name ord s m man k bs r ps ls) : recover name ord s.disk = some ⟨s.ver, k, s.journal, 0, s.seq, ps, false, some (man, bs)⟩ := by
  have hf : finish ord [] ls = s.ver := shows_unique (finish_shows y.staged (by intro i; simp)) y.shows
  unfold recover
  rw [y.disk]
  dsimp only
  rw [y.replay]
  dsimp only
  rw [if_neg (by rw [y.comparer]; exact fun h => h rfl), y.next, y.journal, y.seq, y.prev, hf]
  rfl

theorem empty_small : (({} : SRec)).Small :=
  { comparer := by intro c h; cases h
    journal := by intro c h; cases h
    next := by intro c h; cases h
    seq := by intro c h; cases h
    comps := by intro c h; exact absurd h (by simp)
    dels := by intro c h; exact absurd h (by simp)
    adds := by intro c h; exact absurd h (by simp) }

theorem hist_inv (hn : name.length < 2 ^ 32) {s : Ses} (h : Hist name ord s) : ∃ m man k bs r ps ls, Inv name ord s m man k bs r ps ls := by
  induction h with
  | create =>
    have hsh : Shows ord ([] : Ver) (Tabs.apply (fun _ _ => none) {}) :=
      ⟨by intro i; simp, by intro i t; simp [Tabs.apply], by intro h; exact absurd rfl h⟩
    obtain ⟨bs, r', ps, ls, y⟩ := inv_new (name := name) (ord := ord) hn (s := Ses.fresh) (r := {}) (v := []) (m := fun _ _ => none) empty_small rfl rfl (by decide) (by decide) (by decide)
      ⟨by decide, by intro l k h; simp [Ses.fresh] at h⟩ hsh (by intro i n t h; simp [Tabs.apply] at h)
    exact ⟨_, _, _, bs, r', ps, ls, y⟩
  | @number s n _ h1 h2 _ ih =>
    obtain ⟨m, man, k, bs, r, ps, ls, y⟩ := ih
    refine ⟨m, man, k, bs, r, ps, ls, { y with wf := ?_, man := ⟨y.man.1, h2 _ y.disk⟩ }⟩
    intro i n' t ht
    obtain ⟨a, b, c, d, e⟩ := y.wf i n' t ht
    exact ⟨a, b, c, h1 i t ((y.shows.mem i t).2 (by rw [a]; exact ht)), e⟩
  | @commit s r _ h1 h2 h3 h4 h5 ih =>
    obtain ⟨m, man, k, bs, r', ps, ls, y⟩ := ih
    obtain ⟨man', k', bs', r'', ps', ls', y'⟩ := inv_commit hn y h1 h2 h3 h4 h5
    exact ⟨_, man', k', bs', r'', ps', ls', y'⟩
  | @reopen s s' _ hr ih =>
    obtain ⟨m, man, k, bs, r, ps, ls, y⟩ := ih
    rw [recover_inv y] at hr
    cases hr
    refine ⟨m, man, k, bs, r, ps, ls,
      { disk := rfl, replay := y.replay, comparer := y.comparer, journal := y.journal, seq := y.seq, prev := y.prev, prev0 := rfl, next := y.next, lists := y.lists,
        comps := fun _ => rfl, staged := y.staged, shows := y.shows, wf := ?_, smallJ := y.smallJ, smallQ := y.smallQ, smallC := y.smallP, smallP := y.smallP, man := ⟨y.man.1, y.man.1⟩ }⟩
    · intro i n' t ht
      obtain ⟨a, b, c, d, e⟩ := y.wf i n' t ht
      exact ⟨a, b, c, e, e⟩

/-! ### The properties -/

/-- **Opening restores the last commit.**  After any history of a session, what is on disk can be recovered, and
gives the levels with their tables in order, the journal, the sequence number and the compaction pointers that
the session has.  The file number to go on with is greater than those of all tables and of the manifest. -/
theorem reopen_restores (hn : name.length < 2 ^ 32) {s : Ses} (h : Hist name ord s) :
    ∃ s' d, recover name ord s.disk = some s' ∧ s.disk = some d ∧ s'.ver = s.ver ∧ s'.journal = s.journal ∧ s'.seq = s.seq ∧
      (∀ l, s'.comps.getD l none = s.comps.getD l none) ∧ (∀ i, ∀ t ∈ s'.ver.getD i [], t.num < s'.next) ∧ d.1 < s'.next := by
  obtain ⟨m, man, k, bs, r, ps, ls, y⟩ := hist_inv hn h
  refine ⟨_, _, recover_inv y, y.disk, rfl, rfl, rfl, y.comps, ?_, y.man.1⟩
  intro i t ht
  exact (y.wf i t.num t ((y.shows.mem i t).1 ht)).2.2.2.2

/-- **A commit changes exactly the tables of its record.**  Whatever the history, the levels hold some tables,
and after a commit those with the deleted taken out and the added put in. -/
theorem commit_exact (hn : name.length < 2 ^ 32) {s : Ses} (h : Hist name ord s) :
    ∃ m, Shows ord s.ver m ∧ ∀ r, Shows ord (s.commit name ord r).ver (m.apply r) := by
  obtain ⟨m, man, k, bs, r, ps, ls, y⟩ := hist_inv hn h
  exact ⟨m, y.shows, fun r => spawn_shows y.shows (fun i n t h => (y.wf i n t h).1) r⟩

/-- **The first commit after a start does not move a compaction pointer** that is set: the old pointers are put
into the record after the new one, and the last counts. -/
theorem first_commit_keeps_pointer {s : Ses} (hw : s.writer = false) {l : Nat} {k : Bytes} (hk : s.comps.getD l none = some k) (r : SRec) :
    (s.commit name ord r).comps.getD l none = some k := by
  unfold Ses.commit
  dsimp only
  rw [hw]
  show (setComps s.comps (r.comps ++ compList s.comps)).getD l none = some k
  rw [setComps_getD, lastOf_append, lastOf_compList, hk]
  rfl

/-- A later commit moves it. -/
theorem later_commit_moves_pointer {s : Ses} (hw : s.writer = true) {l : Nat} {k : Bytes} (r : SRec) (hk : lastOf r.comps l = some k) :
    (s.commit name ord r).comps.getD l none = some k := by
  unfold Ses.commit
  dsimp only
  rw [hw]
  show (setComps s.comps r.comps).getD l none = some k
  rw [setComps_getD, hk]
  rfl

end Verif.Man
