import Verif.Sync.SegCacheLemmas

/-!
# The invariant of the cache -/

namespace Verif.Sync

structure Inv (dir : Path) (c : Cache) : Prop where
  order : InOrder c.items
  ids : c.items.Pairwise (fun i j => i.id ≠ j.id)
  next : ∀ i ∈ c.items, i.id < c.next
  gnext : ∀ g ∈ c.gone, g.id < c.next
  apart : ∀ i ∈ c.items, ∀ g ∈ c.gone, i.id ≠ g.id ∧ i.file ≠ g.file
  fdiff : c.items.Pairwise (fun i j => i.file ≠ j.file)
  fused : ∀ i ∈ c.items, ∃ b ∈ c.used, i.file = join dir b
  gused : ∀ g ∈ c.gone, g.file = [] ∨ ∃ b ∈ c.used, g.file = join dir b
  gfile : ∀ g ∈ c.gone, hasFile dir c.files g.file = false
  keyed : Keyed c.index
  rused : ∀ r ∈ c.index, r.file = [] ∨ ∃ b ∈ c.used, r.file = join dir b
  ruse : ∀ r ∈ c.index, hasFile dir c.files r.file = true → ∃ i ∈ c.items, i.seg = r.seg ∧ i.fin = true ∧ i.file = r.file
  files : ∀ f ∈ c.files, f.1 ∈ c.used
  rfin : ∀ r ∈ c.index, r.fin = true
  uslash : ∀ b ∈ c.used, '/' ∉ b

theorem inv_empty (dir : Path) : Inv dir emptyCache := by
  constructor <;> simp [emptyCache, InOrder, Keyed]

theorem hasFile_false {dir : Path} {files : List (Path × List UInt8)} {p : Path} : hasFile dir files p = false ↔ ∀ f ∈ files, join dir f.1 ≠ p := by
  rw [← Bool.not_eq_true, hasFile_iff]
  simp

theorem mem_filter_id {l : List Item} {i j : Item} : j ∈ l.filter (fun j => decide (j.id ≠ i.id)) ↔ j ∈ l ∧ j.id ≠ i.id := by simp

/-- Taking an item out. -/
theorem inv_delete {dir : Path} {c : Cache} {i : Item} (h : Inv dir c) (hi : i ∈ c.items) : Inv dir (deleteItem dir c i) := by
  unfold deleteItem
  have : (c.items.any fun j => decide (j.id = i.id)) = true := by
    rw [List.any_eq_true]
    exact ⟨i, hi, by simp⟩
  rw [if_pos this]
  have hne : i.file ≠ [] := by
    obtain ⟨b, -, hb⟩ := h.fused i hi
    rw [hb]
    exact join_ne_nil dir b
  unfold cleanItem
  rw [if_pos hne]
  have hsub : List.Sublist (c.items.filter (fun j => decide (j.id ≠ i.id))) c.items := List.filter_sublist
  have uniq : ∀ j ∈ c.items, j.id ≠ i.id → j.file ≠ i.file := by
    intro j hj hid
    have : ∀ l : List Item, l.Pairwise (fun i j => i.file ≠ j.file) → j ∈ l → i ∈ l → j ≠ i → j.file ≠ i.file := by
      intro l
      induction l with
      | nil => intro _ h; cases h
      | cons x l ih =>
        intro hp h1 h2 hne
        rcases List.mem_cons.mp h1 with rfl | h1' <;> rcases List.mem_cons.mp h2 with rfl | h2'
        · exact absurd rfl hne
        · exact List.rel_of_pairwise_cons hp h2'
        · exact (List.rel_of_pairwise_cons hp h1').symm
        · exact ih (List.pairwise_cons.mp hp).2 h1' h2' hne
    exact this c.items h.fdiff hj hi (fun e => hid (by rw [e]))
  refine ⟨h.order.sub hsub, h.ids.sublist hsub, fun j hj => h.next j (hsub.subset hj), ?_, ?_, h.fdiff.sublist hsub,
    fun j hj => h.fused j (hsub.subset hj), ?_, ?_, keyed_del i.seg h.keyed, ?_, ?_, ?_, fun r hr => h.rfin r (List.mem_of_mem_filter hr), h.uslash⟩
  · intro g hg
    rcases List.mem_cons.mp hg with rfl | hg
    · exact h.next _ hi
    · exact h.gnext g hg
  · intro j hj g hg
    obtain ⟨hj', hid⟩ := mem_filter_id.mp hj
    rcases List.mem_cons.mp hg with rfl | hg
    · exact ⟨hid, uniq j hj' hid⟩
    · exact h.apart j hj' g hg
  · intro g hg
    rcases List.mem_cons.mp hg with rfl | hg
    · exact Or.inr (h.fused _ hi)
    · exact h.gused g hg
  · intro g hg
    rw [← Bool.not_eq_true]
    intro hf
    obtain ⟨h1, h2⟩ := hasFile_rm.mp hf
    rcases List.mem_cons.mp hg with rfl | hg
    · exact h2 rfl
    · rw [h.gfile g hg] at h1
      cases h1
  · intro r hr
    exact h.rused r (List.mem_of_mem_filter hr)
  · intro r hr hf
    obtain ⟨h1, h2⟩ := hasFile_rm.mp hf
    obtain ⟨j, hj, e1, e2, e3⟩ := h.ruse r (List.mem_of_mem_filter hr) h1
    refine ⟨j, mem_filter_id.mpr ⟨hj, fun hid => ?_⟩, e1, e2, e3⟩
    have : j = i := by
      have : ∀ l : List Item, l.Pairwise (fun i j => i.id ≠ j.id) → j ∈ l → i ∈ l → j = i := by
        intro l
        induction l with
        | nil => intro _ h; cases h
        | cons x l ih =>
          intro hp h1 h2
          rcases List.mem_cons.mp h1 with rfl | h1' <;> rcases List.mem_cons.mp h2 with rfl | h2'
          · rfl
          · exact absurd hid (List.rel_of_pairwise_cons hp h2')
          · exact absurd hid.symm (List.rel_of_pairwise_cons hp h1')
          · exact ih (List.pairwise_cons.mp hp).2 h1' h2'
      exact this c.items h.ids hj hi
    subst this
    exact h2 e3.symm
  · intro f hf
    exact h.files f (List.mem_of_mem_filter hf)

theorem filter_new {l : List Item} {n : Nat} (h : ∀ i ∈ l, i.id < n) : l.filter (fun j => decide (j.id ≠ n)) = l := by
  rw [List.filter_eq_self]
  intro i hi
  have := h i hi
  simp
  omega

/-- A writer that could not make its file leaves the list as it was. -/
theorem newWriter_fail {dir : Path} {c : Cache} {s : Seg} {base : Path} {n : Nat} (h : Inv dir c) (hn : checkOverlap c.items s = some n) :
    newWriter dir c s base false = ({ c with gone := ⟨c.next, s, false, false, []⟩ :: c.gone, next := c.next + 1, index := delRec c.index s }, none) := by
  unfold newWriter
  rw [hn]
  simp only [Bool.false_eq_true, if_false]
  unfold deleteItem
  rw [if_pos (by simp)]
  unfold cleanItem
  simp only [ne_eq, not_true_eq_false, if_false]
  congr 2
  rw [List.filter_append, List.filter_cons]
  simp only [ne_eq, not_true_eq_false, decide_false, Bool.false_eq_true, if_false]
  rw [← List.filter_append, List.take_append_drop]
  exact filter_new h.next

theorem map_new {l : List Item} {n : Nat} (f : Item → Item) (h : ∀ i ∈ l, i.id < n) : l.map (fun j => if j.id = n then f j else j) = l := by
  conv_rhs => rw [← List.map_id l]
  apply List.map_congr_left
  intro i hi
  have := h i hi
  rw [if_neg (by omega)]
  rfl

theorem newWriter_ok {dir : Path} {c : Cache} {s : Seg} {base : Path} {n : Nat} (h : Inv dir c) (hn : checkOverlap c.items s = some n) :
    newWriter dir c s base true = ({ c with
      items := c.items.take n ++ ⟨c.next, s, false, false, join dir base⟩ :: c.items.drop n, next := c.next + 1,
      files := mkFile dir c.files base, writers := c.next :: c.writers, used := base :: c.used }, some c.next) := by
  unfold newWriter
  rw [hn]
  simp only [if_true]
  congr 2
  rw [List.map_append, List.map_cons, map_new _ (fun i hi => h.next i (List.mem_of_mem_take hi)), map_new _ (fun i hi => h.next i (List.mem_of_mem_drop hi))]
  simp

theorem mem_insert {l : List Item} {n : Nat} {i j : Item} : j ∈ l.take n ++ i :: l.drop n ↔ j = i ∨ j ∈ l := by
  conv_rhs => rw [← List.take_append_drop n l]
  simp only [List.mem_append, List.mem_cons]
  tauto

theorem pairwise_insert {l : List Item} {n : Nat} {i : Item} {R : Item → Item → Prop} (hp : l.Pairwise R) (h1 : ∀ j ∈ l, R j i) (h2 : ∀ j ∈ l, R i j) :
    (l.take n ++ i :: l.drop n).Pairwise R := by
  rw [← List.take_append_drop n l] at hp
  rw [List.pairwise_append] at hp ⊢
  refine ⟨hp.1, List.pairwise_cons.mpr ⟨fun j hj => h2 j (List.mem_of_mem_drop hj), hp.2.1⟩, ?_⟩
  intro a ha b hb
  rcases List.mem_cons.mp hb with rfl | hb
  · exact h1 a (List.mem_of_mem_take ha)
  · exact hp.2.2 a ha b hb

theorem inv_open {dir : Path} {c : Cache} {s : Seg} {base : Path} {ok : Bool} (h : Inv dir c) (hf : Fair c (.open s base ok)) : Inv dir (newWriter dir c s base ok).1 := by
  obtain ⟨f1, f2, f3, f4⟩ := hf
  cases hn : checkOverlap c.items s with
  | none =>
    unfold newWriter
    rw [hn]
    exact h
  | some n =>
    have hfresh : ∀ b ∈ c.used, join dir b ≠ join dir base := fun b hb e => f3 (join_inj e ▸ hb)
    cases ok with
    | false =>
      rw [newWriter_fail h hn]
      refine ⟨h.order, h.ids, fun i hi => Nat.lt_succ_of_lt (h.next i hi), ?_, ?_, h.fdiff, h.fused, ?_, ?_, keyed_del s h.keyed, ?_, ?_, h.files, fun r hr => h.rfin r (List.mem_of_mem_filter hr), h.uslash⟩
      · intro g hg
        rcases List.mem_cons.mp hg with rfl | hg
        · exact Nat.lt_succ_self _
        · exact Nat.lt_succ_of_lt (h.gnext g hg)
      · intro i hi g hg
        rcases List.mem_cons.mp hg with rfl | hg
        · refine ⟨Nat.ne_of_lt (h.next i hi), ?_⟩
          obtain ⟨b, -, hb⟩ := h.fused i hi
          rw [hb]
          exact join_ne_nil dir b
        · exact h.apart i hi g hg
      · intro g hg
        rcases List.mem_cons.mp hg with rfl | hg
        · exact Or.inl rfl
        · exact h.gused g hg
      · intro g hg
        rcases List.mem_cons.mp hg with rfl | hg
        · exact hasFile_false.mpr (fun f _ => join_ne_nil dir f.1)
        · exact h.gfile g hg
      · exact fun r hr => h.rused r (List.mem_of_mem_filter hr)
      · exact fun r hr => h.ruse r (List.mem_of_mem_filter hr)
    | true =>
      rw [newWriter_ok h hn]
      have hnf : ∀ i ∈ c.items, i.file ≠ join dir base := by
        intro i hi
        obtain ⟨b, hb, e⟩ := h.fused i hi
        rw [e]
        exact hfresh b hb
      refine ⟨inOrder_insert h.order hn f1 f2 rfl, pairwise_insert h.ids (fun j hj => Nat.ne_of_lt (h.next j hj)) (fun j hj => (Nat.ne_of_lt (h.next j hj)).symm),
        ?_, fun g hg => Nat.lt_succ_of_lt (h.gnext g hg), ?_, pairwise_insert h.fdiff hnf (fun j hj => (hnf j hj).symm), ?_, ?_, ?_, h.keyed, ?_, ?_, ?_, h.rfin, ?_⟩
      · intro i hi
        rcases mem_insert.mp hi with rfl | hi
        · exact Nat.lt_succ_self _
        · exact Nat.lt_succ_of_lt (h.next i hi)
      · intro i hi g hg
        rcases mem_insert.mp hi with rfl | hi
        · refine ⟨(Nat.ne_of_lt (h.gnext g hg)).symm, ?_⟩
          rcases h.gused g hg with e | ⟨b, hb, e⟩
          · rw [e]; exact join_ne_nil dir base
          · rw [e]; exact (hfresh b hb).symm
        · exact h.apart i hi g hg
      · intro i hi
        rcases mem_insert.mp hi with rfl | hi
        · exact ⟨base, List.mem_cons_self, rfl⟩
        · obtain ⟨b, hb, e⟩ := h.fused i hi
          exact ⟨b, List.mem_cons_of_mem _ hb, e⟩
      · intro g hg
        rcases h.gused g hg with e | ⟨b, hb, e⟩
        · exact Or.inl e
        · exact Or.inr ⟨b, List.mem_cons_of_mem _ hb, e⟩
      · intro g hg
        rw [← Bool.not_eq_true]
        intro hh
        rcases hasFile_mk.mp hh with hh | hh
        · rw [h.gfile g hg] at hh; cases hh
        · rcases h.gused g hg with e | ⟨b, hb, e⟩
          · rw [e] at hh; exact join_ne_nil dir base hh.symm
          · rw [e] at hh; exact hfresh b hb hh
      · intro r hr
        rcases h.rused r hr with e | ⟨b, hb, e⟩
        · exact Or.inl e
        · exact Or.inr ⟨b, List.mem_cons_of_mem _ hb, e⟩
      · intro r hr hh
        rcases hasFile_mk.mp hh with hh | hh
        · obtain ⟨i, hi, e⟩ := h.ruse r hr hh
          exact ⟨i, mem_insert.mpr (Or.inr hi), e⟩
        · rcases h.rused r hr with e | ⟨b, hb, e⟩
          · exact absurd (hh.symm.trans e) (join_ne_nil dir base)
          · exact absurd (e.symm.trans hh) (hfresh b hb)
      · intro f hm
        simp only [mkFile, List.mem_append, List.mem_singleton] at hm
        rcases hm with hm | rfl
        · exact List.mem_cons_of_mem _ (h.files f (List.mem_of_mem_filter hm))
        · exact List.mem_cons_self
      · intro b hb
        rcases List.mem_cons.mp hb with rfl | hb
        · exact f4
        · exact h.uslash b hb

theorem inv_write {dir : Path} {c : Cache} (h : Inv dir c) (id : Nat) (bs : List UInt8) : Inv dir (writeTo dir c id bs) := by
  unfold writeTo
  split
  · split
    · rename_i i hi
      refine ⟨h.order, h.ids, h.next, h.gnext, h.apart, h.fdiff, h.fused, h.gused, ?_, h.keyed, h.rused, ?_, ?_, h.rfin, h.uslash⟩
      · intro g hg
        show hasFile dir (addFile _ _ _ _) _ = _
        rw [hasFile_add]
        exact h.gfile g hg
      · intro r hr hh
        rw [hasFile_add] at hh
        exact h.ruse r hr hh
      · intro f hm
        simp only [addFile, List.mem_map] at hm
        obtain ⟨f', hm', rfl⟩ := hm
        have := h.files f' hm'
        split <;> exact this
    · exact h
  · exact h

theorem pairwise_map_keep {l : List Item} {f : Item → Item} {R : Item → Item → Prop} (hp : l.Pairwise R) (hR : ∀ i j, R i j → R (f i) (f j)) : (l.map f).Pairwise R :=
  hp.map f (fun i j => hR i j)

/-- Changing an item through its pointer, when place and file stay and nothing becomes unfinished. -/
theorem inv_set {dir : Path} {c : Cache} (h : Inv dir c) (id : Nat) (f : Item → Item) (hf : ∀ j, (f j).id = j.id ∧ (f j).seg = j.seg ∧ (f j).file = j.file ∧ (j.fin = true → (f j).fin = true)) :
    Inv dir (setItem c id f) := by
  let g : Item → Item := fun j => if j.id = id then f j else j
  have hg : ∀ j, (g j).id = j.id ∧ (g j).seg = j.seg ∧ (g j).file = j.file ∧ (j.fin = true → (g j).fin = true) := by
    intro j
    simp only [g]
    split
    · exact hf j
    · exact ⟨rfl, rfl, rfl, _root_.id⟩
  unfold setItem
  refine ⟨⟨?_, ?_⟩, ?_, ?_, ?_, ?_, ?_, ?_, ?_, ?_, h.keyed, h.rused, ?_, h.files, h.rfin, h.uslash⟩
  · exact pairwise_map_keep (f := g) h.order.1 (fun i j hr => by rw [(hg i).2.1, (hg j).2.1]; exact hr)
  · intro j hj
    obtain ⟨i, hi, rfl⟩ := List.mem_map.mp hj
    show 1 ≤ (g i).seg.lo ∧ (g i).seg.lo ≤ (g i).seg.hi
    rw [(hg i).2.1]
    exact h.order.2 i hi
  · exact pairwise_map_keep (f := g) h.ids (fun i j hr => by rw [(hg i).1, (hg j).1]; exact hr)
  · intro j hj
    obtain ⟨i, hi, rfl⟩ := List.mem_map.mp hj
    show (g i).id < _
    rw [(hg i).1]
    exact h.next i hi
  · intro j hj
    obtain ⟨i, hi, rfl⟩ := List.mem_map.mp hj
    show (g i).id < _
    rw [(hg i).1]
    exact h.gnext i hi
  · intro j hj k hk
    obtain ⟨i, hi, rfl⟩ := List.mem_map.mp hj
    obtain ⟨x, hx, rfl⟩ := List.mem_map.mp hk
    show (g i).id ≠ (g x).id ∧ (g i).file ≠ (g x).file
    rw [(hg i).1, (hg x).1, (hg i).2.2.1, (hg x).2.2.1]
    exact h.apart i hi x hx
  · exact pairwise_map_keep (f := g) h.fdiff (fun i j hr => by rw [(hg i).2.2.1, (hg j).2.2.1]; exact hr)
  · intro j hj
    obtain ⟨i, hi, rfl⟩ := List.mem_map.mp hj
    show ∃ b ∈ c.used, (g i).file = _
    rw [(hg i).2.2.1]
    exact h.fused i hi
  · intro j hj
    obtain ⟨i, hi, rfl⟩ := List.mem_map.mp hj
    show (g i).file = [] ∨ ∃ b ∈ c.used, (g i).file = _
    rw [(hg i).2.2.1]
    exact h.gused i hi
  · intro j hj
    obtain ⟨i, hi, rfl⟩ := List.mem_map.mp hj
    show hasFile dir c.files (g i).file = _
    rw [(hg i).2.2.1]
    exact h.gfile i hi
  · intro r hr hh
    obtain ⟨i, hi, e1, e2, e3⟩ := h.ruse r hr hh
    exact ⟨g i, List.mem_map_of_mem hi, by rw [(hg i).2.1, e1], (hg i).2.2.2 e2, by rw [(hg i).2.2.1, e3]⟩

/-- Storing the record of an item that is complete, or whose file is gone. -/
theorem inv_put {dir : Path} {c : Cache} (h : Inv dir c) {i : Item} (hfin : i.fin = true) (hu : i.file = [] ∨ ∃ b ∈ c.used, i.file = join dir b)
    (hi : hasFile dir c.files i.file = true → ∃ j ∈ c.items, j.seg = i.seg ∧ j.fin = true ∧ j.file = i.file) :
    Inv dir { c with index := putRec c.index i.toRec } := by
  refine ⟨h.order, h.ids, h.next, h.gnext, h.apart, h.fdiff, h.fused, h.gused, h.gfile, keyed_put _ h.keyed, ?_, ?_, h.files, ?_, h.uslash⟩
  · intro r hr
    rcases mem_putRec hr with rfl | hr
    · exact hu
    · exact h.rused r hr
  · intro r hr hh
    rcases mem_putRec hr with rfl | hr
    · exact hi hh
    · exact h.ruse r hr hh
  · intro r hr
    rcases mem_putRec hr with rfl | hr
    · exact hfin
    · exact h.rfin r hr

theorem look_mem {c : Cache} {id : Nat} {i : Item} (h : lookItem c id = some i) : i.id = id ∧ (i ∈ c.items ∨ i ∈ c.gone) := by
  unfold lookItem at h
  split at h
  · rename_i j hj
    simp only [Option.some.injEq] at h
    subst h
    have := List.find?_some hj
    exact ⟨by simpa using this, Or.inl (List.mem_of_find?_eq_some hj)⟩
  · have := List.find?_some h
    exact ⟨by simpa using this, Or.inr (List.mem_of_find?_eq_some h)⟩

theorem inv_writers {dir : Path} {c : Cache} (h : Inv dir c) (w : List Nat) : Inv dir { c with writers := w } :=
  ⟨h.order, h.ids, h.next, h.gnext, h.apart, h.fdiff, h.fused, h.gused, h.gfile, h.keyed, h.rused, h.ruse, h.files, h.rfin, h.uslash⟩

theorem look_used {dir : Path} {c : Cache} (h : Inv dir c) {id : Nat} {i : Item} (hi : lookItem c id = some i) : i.file = [] ∨ ∃ b ∈ c.used, i.file = join dir b := by
  rcases (look_mem hi).2 with hm | hm
  · exact Or.inr (h.fused i hm)
  · exact h.gused i hm

theorem inv_close {dir : Path} {c : Cache} (h : Inv dir c) (id : Nat) (ok : Bool) : Inv dir (closeWriter dir c id ok) := by
  unfold closeWriter
  split
  · split
    · rename_i i hi
      obtain ⟨hid, hm⟩ := look_mem hi
      cases ok with
      | true =>
        simp only [if_true]
        refine inv_put (i := { i with fin := true }) (inv_set (inv_writers h _) id (fun j => { j with fin := true }) (fun j => ⟨rfl, rfl, rfl, fun _ => rfl⟩)) rfl (by have := look_used h hi; exact this) ?_
        intro hf
        rcases hm with hm | hm
        · refine ⟨{ i with fin := true }, ?_, rfl, rfl, rfl⟩
          show _ ∈ c.items.map _
          refine List.mem_map.mpr ⟨i, hm, ?_⟩
          rw [if_pos hid]
        · have := h.gfile i hm
          rw [← Bool.not_eq_true] at this
          exact absurd hf this
      | false =>
        simp only [Bool.false_eq_true, if_false]
        rcases hm with hm | hm
        · exact inv_delete (inv_writers h _) hm
        · unfold deleteItem
          rw [if_neg]
          · exact inv_writers h _
          · rw [List.any_eq_true]
            rintro ⟨j, hj, e⟩
            exact (h.apart j hj i hm).1 (of_decide_eq_true e)
    · exact h
  · exact h

theorem inv_verify {dir : Path} {c : Cache} (h : Inv dir c) (id : Nat) : Inv dir (verifyItem c id) := by
  unfold verifyItem
  split
  · rename_i i hi
    obtain ⟨hid, hm⟩ := look_mem hi
    split
    · rename_i hc
      rw [Bool.and_eq_true] at hc
      refine inv_put (i := { i with verified := true }) (inv_set h id (fun j => { j with verified := true }) (fun j => ⟨rfl, rfl, rfl, _root_.id⟩)) hc.1 (by have := look_used h hi; exact this) ?_
      intro hf
      rcases hm with hm | hm
      · refine ⟨{ i with verified := true }, ?_, rfl, hc.1, rfl⟩
        show _ ∈ c.items.map _
        refine List.mem_map.mpr ⟨i, hm, ?_⟩
        rw [if_pos hid]
      · have := h.gfile i hm
        rw [← Bool.not_eq_true] at this
        exact absurd hf this
    · exact h
  · exact h

theorem inv_deleteSeg {dir : Path} {c : Cache} (h : Inv dir c) (s : Seg) : Inv dir (deleteSeg dir c s) := by
  unfold deleteSeg
  split
  · rename_i i hi
    exact inv_delete h (List.mem_of_find?_eq_some hi)
  · exact h

/-! ## Starting again -/

/-- What the first loop of `loadCaches` makes. -/
theorem loadLoop_spec (dir : Path) (l : List Item) (c : Cache) : (loadLoop dir c l).gone = c.gone ∧ (loadLoop dir c l).writers = c.writers ∧
    (loadLoop dir c l).next = c.next ∧ (loadLoop dir c l).used = c.used ∧ (∃ k, (loadLoop dir c l).items = c.items ++ k ∧ List.Sublist k l ∧
      ∀ i ∈ k, i.fin = true ∧ hasFile dir c.files i.file = true) ∧
    List.Sublist (loadLoop dir c l).files c.files ∧ List.Sublist (loadLoop dir c l).index c.index := by
  induction l generalizing c with
  | nil => exact ⟨rfl, rfl, rfl, rfl, ⟨[], by simp [loadLoop], List.Sublist.slnil, by simp⟩, List.Sublist.refl _, List.Sublist.refl _⟩
  | cons i l ih =>
    unfold loadLoop
    split
    · rename_i hc
      rw [Bool.and_eq_true] at hc
      obtain ⟨h1, h2, h3, h4, ⟨k, hk, hk1, hk2⟩, h6, h7⟩ := ih { c with items := c.items ++ [i] }
      refine ⟨h1, h2, h3, h4, ⟨i :: k, ?_, hk1.cons_cons i, ?_⟩, h6, h7⟩
      · rw [hk]
        simp
      · intro j hj
        rcases List.mem_cons.mp hj with rfl | hj
        · exact ⟨hc.2, hc.1⟩
        · exact hk2 j hj
    · obtain ⟨h1, h2, h3, h4, ⟨k, hk, hk1, hk2⟩, h6, h7⟩ := ih (cleanItem dir c i)
      have hfs : List.Sublist (cleanItem dir c i).files c.files := by
        unfold cleanItem
        simp only
        split
        · exact List.filter_sublist
        · exact List.Sublist.refl _
      refine ⟨h1, h2, h3, h4, ⟨k, hk, hk1.trans (List.sublist_cons_self i l), ?_⟩, h6.trans hfs, h7.trans List.filter_sublist⟩
      intro j hj
      obtain ⟨a, b⟩ := hk2 j hj
      refine ⟨a, ?_⟩
      obtain ⟨f, hf, e⟩ := hasFile_iff.mp b
      exact hasFile_iff.mpr ⟨f, hfs.subset hf, e⟩

theorem fromIndex_seg (l : List Rec) (n : Nat) : (fromIndex l n).map (fun i => (i.seg, i.fin, i.file)) = l.map (fun r => (r.seg, r.fin, r.file)) := by
  induction l generalizing n with
  | nil => rfl
  | cons r l ih => simp only [fromIndex, List.map_cons, ih]

theorem fromIndex_ids (l : List Rec) (n : Nat) : (fromIndex l n).Pairwise (fun i j => i.id < j.id) ∧ ∀ i ∈ fromIndex l n, n ≤ i.id ∧ i.id < n + l.length := by
  induction l generalizing n with
  | nil => simp [fromIndex]
  | cons r l ih =>
    obtain ⟨h1, h2⟩ := ih (n + 1)
    simp only [fromIndex, List.length_cons]
    refine ⟨List.pairwise_cons.mpr ⟨fun i hi => ?_, h1⟩, fun i hi => ?_⟩
    · have := (h2 i hi).1
      show n < i.id
      omega
    · rcases List.mem_cons.mp hi with rfl | hi
      · exact ⟨Nat.le_refl _, by show n < _; omega⟩
      · have := h2 i hi
        omega

theorem fromIndex_mem {l : List Rec} {n : Nat} {i : Item} (h : i ∈ fromIndex l n) : ∃ r ∈ l, r.seg = i.seg ∧ r.fin = i.fin ∧ r.file = i.file := by
  have : (i.seg, i.fin, i.file) ∈ (fromIndex l n).map (fun i => (i.seg, i.fin, i.file)) := List.mem_map.mpr ⟨i, h, rfl⟩
  rw [fromIndex_seg] at this
  obtain ⟨r, hr, e⟩ := List.mem_map.mp this
  simp only [Prod.mk.injEq] at e
  exact ⟨r, hr, e⟩

theorem item_eq_of_lo {l : List Item} (h : InOrder l) {i j : Item} (hi : i ∈ l) (hj : j ∈ l) (hlt : keyLt i.seg j.seg) : i.seg.hi < j.seg.lo := by
  induction l with
  | nil => cases hi
  | cons x l ih =>
    have hx := h.2
    rcases List.mem_cons.mp hi with rfl | hi' <;> rcases List.mem_cons.mp hj with rfl | hj'
    · unfold keyLt at hlt; omega
    · exact List.rel_of_pairwise_cons h.1 hj'
    · have h1 := List.rel_of_pairwise_cons h.1 hi'
      have h2 := hx i hi
      have h3 := hx j hj
      unfold keyLt at hlt
      omega
    · exact ih (h.sub (List.sublist_cons_self x l)) hi' hj'

/-- After a start the names that are kept are full paths, so no file is. -/
theorem load_files {dir : Path} {c : Cache} (h : Inv dir c) : (load dir c).files = [] := by
  unfold load
  simp only
  rw [List.filter_eq_nil_iff]
  intro f hf
  rw [decide_eq_true_eq]
  intro hm
  obtain ⟨i, hi, e⟩ := List.mem_map.mp hm
  obtain ⟨-, -, -, -, ⟨k, hk, hk1, hk2⟩, h6, -⟩ := loadLoop_spec dir (fromIndex c.index c.next)
    { items := [], gone := [], writers := [], index := c.index, files := c.files, next := c.next + c.index.length, used := c.used }
  rw [hk, List.nil_append] at hi
  obtain ⟨r, hr, -, -, e3⟩ := fromIndex_mem (hk1.subset hi)
  have hslash := h.uslash _ (h.files f (h6.subset hf))
  obtain ⟨g, hg, e4⟩ := hasFile_iff.mp (hk2 i hi).2
  rw [← e, ← e4] at hslash
  exact hslash (by simp [join])

theorem inv_load {dir : Path} {c : Cache} (h : Inv dir c) : Inv dir (load dir c) := by
  have hfiles := load_files h
  obtain ⟨h1, h2, h3, h4, ⟨k, hk, hk1, hk2⟩, h6, h7⟩ := loadLoop_spec dir (fromIndex c.index c.next)
    { items := [], gone := [], writers := [], index := c.index, files := c.files, next := c.next + c.index.length, used := c.used }
  rw [List.nil_append] at hk
  have hi : (load dir c).items = k := hk
  have hg : (load dir c).gone = [] := h1
  have hn : (load dir c).next = c.next + c.index.length := h3
  have hu : (load dir c).used = c.used := h4
  have hidx : List.Sublist (load dir c).index c.index := h7
  obtain ⟨id1, id2⟩ := fromIndex_ids c.index c.next
  -- the items of the new list come from items of the old one
  have hold : ∀ i ∈ k, ∃ j ∈ c.items, j.seg = i.seg ∧ j.file = i.file := by
    intro i hik
    obtain ⟨r, hr, e1, e2, e3⟩ := fromIndex_mem (hk1.subset hik)
    obtain ⟨j, hj, e4, -, e6⟩ := h.ruse r hr (by rw [e3]; exact (hk2 i hik).2)
    exact ⟨j, hj, by rw [e4, e1], by rw [e6, e3]⟩
  have hkey : k.Pairwise (fun i j => keyLt i.seg j.seg) := by
    refine List.Pairwise.sublist hk1 ?_
    have : ((fromIndex c.index c.next).map (fun i => (i.seg, i.fin, i.file))).Pairwise (fun a b => keyLt a.1 b.1) := by
      rw [fromIndex_seg, List.pairwise_map]
      exact h.keyed
    rw [List.pairwise_map] at this
    exact this
  have hord : InOrder k := by
    constructor
    · refine List.Pairwise.imp_of_mem ?_ hkey
      intro i j hik hjk hlt
      obtain ⟨i', hi', e1, -⟩ := hold i hik
      obtain ⟨j', hj', e2, -⟩ := hold j hjk
      rw [← e1, ← e2] at hlt ⊢
      exact item_eq_of_lo h.order hi' hj' hlt
    · intro i hik
      obtain ⟨i', hi', e1, -⟩ := hold i hik
      rw [← e1]
      exact h.order.2 i' hi'
  have hfd : k.Pairwise (fun i j => i.file ≠ j.file) := by
    refine List.Pairwise.imp_of_mem ?_ hkey
    intro i j hik hjk hlt hfe
    obtain ⟨i', hi', e1, e1'⟩ := hold i hik
    obtain ⟨j', hj', e2, e2'⟩ := hold j hjk
    have hne : i' ≠ j' := by
      rintro rfl
      rw [← e1, ← e2] at hlt
      unfold keyLt at hlt
      omega
    have hf' : i'.file = j'.file := by rw [e1', e2', hfe]
    have : ∀ l : List Item, l.Pairwise (fun i j => i.file ≠ j.file) → i' ∈ l → j' ∈ l → False := by
      intro l
      induction l with
      | nil => intro _ h; cases h
      | cons x l ih =>
        intro hp a b
        rcases List.mem_cons.mp a with rfl | a' <;> rcases List.mem_cons.mp b with rfl | b'
        · exact hne rfl
        · exact List.rel_of_pairwise_cons hp b' hf'
        · exact List.rel_of_pairwise_cons hp a' hf'.symm
        · exact ih (List.pairwise_cons.mp hp).2 a' b'
    exact this c.items h.fdiff hi' hj'
  refine ⟨hi ▸ hord, hi ▸ (id1.sublist hk1).imp (fun h => Nat.ne_of_lt h), ?_, by rw [hg]; simp, by rw [hg]; simp, hi ▸ hfd, ?_, by rw [hg]; simp, by rw [hg]; simp,
    h.keyed.sublist hidx, ?_, ?_, by rw [hfiles]; simp, fun r hr => h.rfin r (hidx.subset hr), by rw [hu]; exact h.uslash⟩
  · intro i hm
    rw [hi] at hm
    rw [hn]
    exact (id2 i (hk1.subset hm)).2
  · intro i hm
    rw [hi] at hm
    rw [hu]
    obtain ⟨j, hj, -, e⟩ := hold i hm
    rw [← e]
    exact h.fused j hj
  · intro r hr
    rw [hu]
    exact h.rused r (hidx.subset hr)
  · intro r hr hf
    rw [hfiles] at hf
    simp [hasFile] at hf

theorem inv_step {dir : Path} {c : Cache} (h : Inv dir c) (o : CacheOp) (hf : Fair c o) : Inv dir (stepCache dir c o) := by
  cases o with
  | «open» s base ok => exact inv_open h hf
  | write id bs => exact inv_write h id bs
  | close id ok => exact inv_close h id ok
  | delete s => exact inv_deleteSeg h s
  | verify id => exact inv_verify h id
  | restart => exact inv_load h

theorem inv_run {dir : Path} {c : Cache} (h : Inv dir c) (ops : List CacheOp) (hf : FairAll dir c ops) : Inv dir (ops.foldl (stepCache dir) c) := by
  induction ops generalizing c with
  | nil => exact h
  | cons o l ih => exact ih (inv_step h o hf.1) hf.2

end Verif.Sync
