import Verif.Sync.SegCacheInv
import Verif.Sync.PlanFit
import Mathlib.Data.List.Forall2

/-!
# What the cache of chunks does

Property C83. -/

namespace Verif.Sync

/-- How the cache shows a chunk: its number, range and state, the bytes in its file, and a writer that is open until it is complete. -/
def Shows (dir : Path) (files : List (Path × List UInt8)) (writers : List Nat) (i : Item) (e : Entry) : Prop :=
  i.id = e.id ∧ i.seg = e.seg ∧ i.fin = e.fin ∧ getFile dir files i.file = some e.data ∧ (i.id ∈ writers ↔ i.fin = false)

structure Rel (dir : Path) (c : Cache) (a : Shelf) : Prop where
  next : c.next = a.next
  ent : List.Forall₂ (Shows dir c.files c.writers) c.items a.entries

theorem f2_imp {R S : Item → Entry → Prop} {l : List Item} {m : List Entry} (h : List.Forall₂ R l m) (hi : ∀ i ∈ l, ∀ e ∈ m, R i e → S i e) : List.Forall₂ S l m := by
  induction h with
  | nil => exact .nil
  | cons h1 h2 ih =>
    refine .cons (hi _ List.mem_cons_self _ List.mem_cons_self h1) (ih (fun i hm e he => hi i (List.mem_cons_of_mem _ hm) e (List.mem_cons_of_mem _ he)))

theorem f2_filter {R : Item → Entry → Prop} {l : List Item} {m : List Entry} {p : Item → Bool} {q : Entry → Bool} (h : List.Forall₂ R l m)
    (hi : ∀ i ∈ l, ∀ e ∈ m, R i e → p i = q e) : List.Forall₂ R (l.filter p) (m.filter q) := by
  induction h with
  | nil => exact .nil
  | cons h1 h2 ih =>
    have e := hi _ List.mem_cons_self _ List.mem_cons_self h1
    have ih' := ih (fun i hm e he => hi i (List.mem_cons_of_mem _ hm) e (List.mem_cons_of_mem _ he))
    rw [List.filter_cons, List.filter_cons, ← e]
    split
    · exact .cons h1 ih'
    · exact ih'

theorem f2_map {R S : Item → Entry → Prop} {l : List Item} {m : List Entry} {f : Item → Item} {g : Entry → Entry} (h : List.Forall₂ R l m)
    (hi : ∀ i ∈ l, ∀ e ∈ m, R i e → S (f i) (g e)) : List.Forall₂ S (l.map f) (m.map g) := by
  induction h with
  | nil => exact .nil
  | cons h1 h2 ih =>
    exact .cons (hi _ List.mem_cons_self _ List.mem_cons_self h1) (ih (fun i hm e he => hi i (List.mem_cons_of_mem _ hm) e (List.mem_cons_of_mem _ he)))

theorem f2_right {R : Item → Entry → Prop} {l : List Item} {m : List Entry} (h : List.Forall₂ R l m) {e : Entry} (he : e ∈ m) : ∃ i ∈ l, R i e := by
  induction h with
  | nil => cases he
  | cons h1 h2 ih =>
    rcases List.mem_cons.mp he with rfl | he
    · exact ⟨_, List.mem_cons_self, h1⟩
    · obtain ⟨i, hi, hr⟩ := ih he
      exact ⟨i, List.mem_cons_of_mem _ hi, hr⟩

theorem f2_left {R : Item → Entry → Prop} {l : List Item} {m : List Entry} (h : List.Forall₂ R l m) {i : Item} (hi : i ∈ l) : ∃ e ∈ m, R i e := by
  induction h with
  | nil => cases hi
  | cons h1 h2 ih =>
    rcases List.mem_cons.mp hi with rfl | hi
    · exact ⟨_, List.mem_cons_self, h1⟩
    · obtain ⟨e, he, hr⟩ := ih hi
      exact ⟨e, List.mem_cons_of_mem _ he, hr⟩

theorem f2_place {R : Item → Entry → Prop} (hR : ∀ i e, R i e → i.seg = e.seg) {l : List Item} {m : List Entry} (h : List.Forall₂ R l m) {i : Item} {e : Entry} (hie : R i e) :
    List.Forall₂ R (l.take (searchAfter l e.seg.hi) ++ i :: l.drop (searchAfter l e.seg.hi)) (place e m) := by
  unfold searchAfter
  induction h with
  | nil => simpa [place] using hie
  | cons h1 h2 ih =>
    rename_i x f l m
    have hs := hR _ _ h1
    rw [List.takeWhile_cons, place, hs]
    by_cases hc : e.seg.hi < f.seg.lo
    · have : ¬ ¬ f.seg.lo > e.seg.hi := by omega
      rw [if_pos hc]
      simp only [this, decide_false, Bool.false_eq_true, if_false, List.length_nil, List.take_zero, List.drop_zero, List.nil_append]
      exact .cons hie (.cons h1 h2)
    · have : ¬ f.seg.lo > e.seg.hi := by omega
      rw [if_neg hc]
      simp only [this, not_false_eq_true, decide_true, if_true, List.length_cons, List.take_succ_cons, List.drop_succ_cons, List.cons_append]
      exact .cons h1 ih

theorem rel_empty (dir : Path) : Rel dir emptyCache ⟨[], 0⟩ := ⟨rfl, .nil⟩

theorem rel_open {dir : Path} {c : Cache} {a : Shelf} {s : Seg} {base : Path} {ok : Bool} (hi : Inv dir c) (h : Rel dir c a) (hf : Fair c (.open s base ok)) :
    Rel dir (newWriter dir c s base ok).1 (shelfStep a (.open s base ok)) := by
  obtain ⟨f1, f2, f3, f4⟩ := hf
  have happ : (checkOverlap c.items s).isSome = true ↔ ∀ e ∈ a.entries, Apart e.seg s := by
    rw [checkOverlap_iff hi.order f2]
    constructor
    · intro hh e he
      obtain ⟨i, him, hr⟩ := f2_right h.ent he
      rw [← hr.2.1]
      exact hh i him
    · intro hh i him
      obtain ⟨e, he, hr⟩ := f2_left h.ent him
      rw [hr.2.1]
      exact hh e he
  cases hn : checkOverlap c.items s with
  | none =>
    have : ¬ ∀ e ∈ a.entries, Apart e.seg s := fun hh => by
      have := happ.mpr hh
      rw [hn] at this
      cases this
    unfold newWriter shelfStep
    dsimp only
    rw [hn, if_neg this]
    exact h
  | some n =>
    have hall : ∀ e ∈ a.entries, Apart e.seg s := happ.mp (by rw [hn]; rfl)
    unfold shelfStep
    dsimp only
    rw [if_pos hall]
    cases ok with
    | false =>
      rw [newWriter_fail hi hn]
      exact ⟨by show c.next + 1 = a.next + 1; rw [h.next], h.ent⟩
    | true =>
      rw [newWriter_ok hi hn]
      refine ⟨by show c.next + 1 = a.next + 1; rw [h.next], ?_⟩
      obtain ⟨rfl, -, -⟩ := checkOverlap_some hi.order hn
      refine f2_place (e := ⟨a.next, s, false, []⟩) (fun i e hr => hr.2.1) ?_ ⟨h.next, rfl, rfl, getFile_mk_self, by simp⟩
      refine f2_imp h.ent ?_
      rintro i him e he ⟨r1, r2, r3, r4, r5⟩
      refine ⟨r1, r2, r3, ?_, ?_⟩
      · show getFile dir (mkFile dir c.files base) i.file = _
        rw [getFile_mk, r4]
        obtain ⟨b, hb, e'⟩ := hi.fused i him
        rw [e']
        exact fun e'' => f3 (join_inj e'' ▸ hb)
      · rw [← r5]
        have := hi.next i him
        show i.id ∈ c.next :: c.writers ↔ _
        rw [List.mem_cons]
        constructor
        · rintro (h | h)
          · omega
          · exact h
        · exact Or.inr

theorem items_id {dir : Path} {c : Cache} (hi : Inv dir c) {i j : Item} (h1 : i ∈ c.items) (h2 : j ∈ c.items) (e : i.id = j.id) : i = j := by
  have : ∀ l : List Item, l.Pairwise (fun i j => i.id ≠ j.id) → i ∈ l → j ∈ l → i = j := by
    intro l
    induction l with
    | nil => intro _ h; cases h
    | cons x l ih =>
      intro hp a b
      rcases List.mem_cons.mp a with rfl | a' <;> rcases List.mem_cons.mp b with rfl | b'
      · rfl
      · exact absurd e (List.rel_of_pairwise_cons hp b')
      · exact absurd e.symm (List.rel_of_pairwise_cons hp a')
      · exact ih (List.pairwise_cons.mp hp).2 a' b'
  exact this c.items hi.ids h1 h2

theorem items_file {dir : Path} {c : Cache} (hi : Inv dir c) {i j : Item} (h1 : i ∈ c.items) (h2 : j ∈ c.items) (e : i.id ≠ j.id) : i.file ≠ j.file := by
  have : ∀ l : List Item, l.Pairwise (fun i j => i.file ≠ j.file) → i ∈ l → j ∈ l → i.file ≠ j.file := by
    intro l
    induction l with
    | nil => intro _ h; cases h
    | cons x l ih =>
      intro hp a b
      rcases List.mem_cons.mp a with rfl | a' <;> rcases List.mem_cons.mp b with rfl | b'
      · exact absurd rfl e
      · exact List.rel_of_pairwise_cons hp b'
      · exact (List.rel_of_pairwise_cons hp a').symm
      · exact ih (List.pairwise_cons.mp hp).2 a' b'
  exact this c.items hi.fdiff h1 h2

theorem look_items {c : Cache} {i : Item} (hm : i ∈ c.items) : ∃ j ∈ c.items, j.id = i.id ∧ lookItem c i.id = some j := by
  unfold lookItem
  cases hf : c.items.find? (fun j => decide (j.id = i.id)) with
  | none =>
    rw [List.find?_eq_none] at hf
    exact absurd (by simp) (hf i hm)
  | some j =>
    have := List.find?_some hf
    exact ⟨j, List.mem_of_find?_eq_some hf, by simpa using this, rfl⟩

theorem rel_write {dir : Path} {c : Cache} {a : Shelf} (hi : Inv dir c) (h : Rel dir c a) (id : Nat) (bs : List UInt8) :
    Rel dir (writeTo dir c id bs) (shelfStep a (.write id bs)) := by
  unfold writeTo shelfStep
  by_cases hw : id ∈ c.writers
  · rw [if_pos hw]
    cases hl : lookItem c id with
    | none =>
      refine ⟨h.next, ?_⟩
      rw [← List.map_id c.items]
      refine f2_map h.ent ?_
      rintro i him e he hr
      obtain ⟨j, hj, hj1, hj2⟩ := look_items him
      have : ¬ (e.id = id ∧ e.fin = false) := by
        rintro ⟨e1, -⟩
        rw [← e1, ← hr.1, hj2] at hl
        cases hl
      rw [if_neg this]
      exact hr
    | some k =>
      obtain ⟨hk1, hk2⟩ := look_mem hl
      refine ⟨h.next, ?_⟩
      show List.Forall₂ (Shows dir (addFile dir c.files k.file bs) c.writers) c.items _
      rw [← List.map_id c.items]
      refine f2_map h.ent ?_
      rintro i him e he ⟨r1, r2, r3, r4, r5⟩
      show Shows _ _ _ i _
      rcases hk2 with hk2 | hk2
      · by_cases hid : i.id = id
        · have : i = k := items_id hi him hk2 (by rw [hid, hk1])
          subst this
          have hfin : i.fin = false := r5.mp (by rw [hid]; exact hw)
          rw [if_pos ⟨by rw [← r1]; exact hid, by rw [← r3]; exact hfin⟩]
          refine ⟨r1, r2, r3, ?_, r5⟩
          rw [getFile_add_self, r4]
          rfl
        · rw [if_neg (by rw [← r1]; exact fun hh => hid hh.1)]
          refine ⟨r1, r2, r3, ?_, r5⟩
          rw [getFile_add (items_file hi him hk2 (by rw [hk1]; exact hid)), r4]
      · obtain ⟨a1, a2⟩ := hi.apart i him k hk2
        rw [if_neg (by rw [← r1]; exact fun hh => a1 (by rw [hk1]; exact hh.1))]
        refine ⟨r1, r2, r3, ?_, r5⟩
        rw [getFile_add a2, r4]
  · rw [if_neg hw]
    refine ⟨h.next, ?_⟩
    rw [← List.map_id c.items]
    refine f2_map h.ent ?_
    rintro i him e he ⟨r1, r2, r3, r4, r5⟩
    have : ¬ (e.id = id ∧ e.fin = false) := by
      rintro ⟨e1, e2⟩
      have := r5.mpr (by rw [r3]; exact e2)
      rw [r1, e1] at this
      exact hw this
    rw [if_neg this]
    exact ⟨r1, r2, r3, r4, r5⟩

/-- Taking out one item, by its number. -/
theorem rel_delete {dir : Path} {c : Cache} {a : Shelf} (hi : Inv dir c) (h : Rel dir c a) {k : Item} (hk : k ∈ c.items) {q : Entry → Bool}
    (hq : ∀ i ∈ c.items, ∀ e ∈ a.entries, Shows dir c.files c.writers i e → (i.id ≠ k.id ↔ q e = true)) :
    Rel dir (deleteItem dir c k) { a with entries := a.entries.filter q } := by
  unfold deleteItem
  have : (c.items.any fun j => decide (j.id = k.id)) = true := by
    rw [List.any_eq_true]
    exact ⟨k, hk, by simp⟩
  rw [if_pos this]
  have hne : k.file ≠ [] := by
    obtain ⟨b, -, hb⟩ := hi.fused k hk
    rw [hb]
    exact join_ne_nil dir b
  unfold cleanItem
  rw [if_pos hne]
  refine ⟨h.next, ?_⟩
  show List.Forall₂ (Shows dir (rmFile dir c.files k.file) c.writers) (c.items.filter _) _
  refine f2_imp (f2_filter h.ent ?_) ?_
  · intro i him e he hr
    have := hq i him e he hr
    rw [Bool.eq_iff_iff, ← this]
    simp
  · rintro i him e he ⟨r1, r2, r3, r4, r5⟩
    obtain ⟨m1, m2⟩ := mem_filter_id.mp him
    refine ⟨r1, r2, r3, ?_, r5⟩
    rw [getFile_rm (items_file hi m1 hk m2), r4]

theorem rel_writers {dir : Path} {c : Cache} {a : Shelf} (h : Rel dir c a) (id : Nat) (hg : ∀ i ∈ c.items, i.id ≠ id) :
    Rel dir { c with writers := c.writers.filter (fun w => decide (w ≠ id)) } a := by
  refine ⟨h.next, f2_imp h.ent ?_⟩
  rintro i him e he ⟨r1, r2, r3, r4, r5⟩
  refine ⟨r1, r2, r3, r4, ?_⟩
  rw [← r5]
  simp [hg i him]

theorem rel_close {dir : Path} {c : Cache} {a : Shelf} (hi : Inv dir c) (h : Rel dir c a) (id : Nat) (ok : Bool) :
    Rel dir (closeWriter dir c id ok) (shelfStep a (.close id ok)) := by
  unfold closeWriter shelfStep
  -- when no item has the number, or no writer is open, nothing changes
  have same : (∀ i ∈ c.items, i.id = id → i.fin = true) →
      (if ok = true then ({ a with entries := a.entries.map (fun e => if e.id = id then { e with fin := true } else e) } : Shelf)
        else { a with entries := a.entries.filter (fun e => decide (¬ (e.id = id ∧ e.fin = false))) }) = a := by
    intro hn
    have key : ∀ e ∈ a.entries, e.id = id → e.fin = true := by
      intro e he hid
      obtain ⟨i, him, r1, -, r3, -⟩ := f2_right h.ent he
      rw [← r3]
      exact hn i him (by rw [r1, hid])
    cases ok with
    | true =>
      rw [if_pos rfl]
      have : a.entries.map (fun e => if e.id = id then { e with fin := true } else e) = a.entries := by
        conv_rhs => rw [← List.map_id a.entries]
        apply List.map_congr_left
        intro e he
        split
        · rename_i hid
          have := key e he hid
          obtain ⟨e1, e2, e3, e4⟩ := e
          simp only at this
          subst this
          rfl
        · rfl
      rw [this]
    | false =>
      rw [if_neg (by simp)]
      have : a.entries.filter (fun e => decide (¬ (e.id = id ∧ e.fin = false))) = a.entries := by
        rw [List.filter_eq_self]
        intro e he
        have := key e he
        simp only [decide_eq_true_eq]
        rintro ⟨h1, h2⟩
        rw [this h1] at h2
        cases h2
      rw [this]
  by_cases hw : id ∈ c.writers
  · rw [if_pos hw]
    cases hl : lookItem c id with
    | none =>
      have hno : ∀ i ∈ c.items, i.id ≠ id := by
        intro i him hid
        obtain ⟨j, -, -, hj⟩ := look_items him
        rw [hid, hl] at hj
        cases hj
      simp only
      rw [same (fun i him hid => absurd hid (hno i him))]
      exact h
    | some k =>
      obtain ⟨hk1, hk2⟩ := look_mem hl
      simp only
      rcases hk2 with hk2 | hk2
      · cases ok with
        | true =>
          rw [if_pos rfl, if_pos rfl]
          refine ⟨h.next, ?_⟩
          show List.Forall₂ (Shows dir c.files (c.writers.filter _)) (c.items.map _) _
          refine f2_map h.ent ?_
          rintro i him e he ⟨r1, r2, r3, r4, r5⟩
          by_cases hid : i.id = id
          · rw [if_pos hid, if_pos (by rw [← r1]; exact hid)]
            exact ⟨r1, r2, rfl, r4, by simp [hid]⟩
          · rw [if_neg hid, if_neg (by rw [← r1]; exact hid)]
            refine ⟨r1, r2, r3, r4, ?_⟩
            rw [← r5]
            simp [hid]
        | false =>
          rw [if_neg (by simp), if_neg (by simp)]
          have hfin : k.fin = false := by
            obtain ⟨e, -, -, -, -, -, r5⟩ := f2_left h.ent hk2
            exact r5.mp (by rw [hk1]; exact hw)
          have hd := rel_delete (q := fun e => decide (¬ (e.id = id ∧ e.fin = false))) hi h hk2 (by
            rintro i him e he ⟨r1, r2, r3, r4, r5⟩
            rw [decide_eq_true_eq, hk1]
            constructor
            · intro hne hh
              exact hne (by rw [r1]; exact hh.1)
            · intro hne hid
              apply hne
              refine ⟨by rw [← r1]; exact hid, ?_⟩
              have : i = k := items_id hi him hk2 (by rw [hid, hk1])
              rw [← r3, this]
              exact hfin)
          have hnone : ∀ i ∈ (deleteItem dir c k).items, i.id ≠ id := by
            intro i him
            unfold deleteItem at him
            have : (c.items.any fun j => decide (j.id = k.id)) = true := by
              rw [List.any_eq_true]
              exact ⟨k, hk2, by simp⟩
            rw [if_pos this] at him
            have := (mem_filter_id (l := c.items) (i := k)).mp him
            rw [← hk1]
            exact this.2
          have hcomm : deleteItem dir { c with writers := c.writers.filter (fun w => decide (w ≠ id)) } k =
              { deleteItem dir c k with writers := (deleteItem dir c k).writers.filter (fun w => decide (w ≠ id)) } := by
            unfold deleteItem cleanItem
            split
            · rfl
            · rfl
          rw [hcomm]
          exact rel_writers hd id hnone
      · have hno : ∀ i ∈ c.items, i.id ≠ id := fun i him hid => (hi.apart i him k hk2).1 (by rw [hid, hk1])
        rw [same (fun i him hid => absurd hid (hno i him))]
        have hrel := rel_writers h id hno
        cases ok with
        | true =>
          rw [if_pos rfl]
          refine ⟨hrel.next, ?_⟩
          show List.Forall₂ (Shows dir c.files (c.writers.filter _)) (c.items.map _) _
          have : c.items.map (fun j => if j.id = id then { j with fin := true } else j) = c.items := by
            conv_rhs => rw [← List.map_id c.items]
            apply List.map_congr_left
            intro i him
            rw [if_neg (hno i him)]
            rfl
          rw [this]
          exact hrel.ent
        | false =>
          rw [if_neg (by simp)]
          unfold deleteItem
          rw [if_neg]
          · exact hrel
          · rw [List.any_eq_true]
            rintro ⟨j, hj, e⟩
            exact (hi.apart j hj k hk2).1 (of_decide_eq_true e)
  · rw [if_neg hw]
    dsimp only
    rw [same (fun i him hid => by
      obtain ⟨e, -, -, -, -, -, r5⟩ := f2_left h.ent him
      cases hf : i.fin with
      | true => rfl
      | false => exact absurd (r5.mpr hf) (by rw [hid]; exact hw))]
    exact h

theorem items_seg {dir : Path} {c : Cache} (hi : Inv dir c) {i j : Item} (h1 : i ∈ c.items) (h2 : j ∈ c.items) (e : i.seg = j.seg) : i = j := by
  have : ∀ l : List Item, InOrder l → i ∈ l → j ∈ l → i = j := by
    intro l
    induction l with
    | nil => intro _ h; cases h
    | cons x l ih =>
      intro hp a b
      have hx := hp.2
      rcases List.mem_cons.mp a with rfl | a' <;> rcases List.mem_cons.mp b with rfl | b'
      · rfl
      · have := List.rel_of_pairwise_cons hp.1 b'
        have := hx _ a
        rw [e] at *
        omega
      · have := List.rel_of_pairwise_cons hp.1 a'
        have := hx _ b
        rw [e] at *
        omega
      · exact ih (hp.sub (List.sublist_cons_self x l)) a' b'
  exact this c.items hi.order h1 h2

theorem rel_deleteSeg {dir : Path} {c : Cache} {a : Shelf} (hi : Inv dir c) (h : Rel dir c a) (s : Seg) :
    Rel dir (deleteSeg dir c s) (shelfStep a (.delete s)) := by
  unfold deleteSeg shelfStep
  cases hf : c.items.find? (fun i => segEq i.seg s) with
  | none =>
    rw [List.find?_eq_none] at hf
    have : a.entries.filter (fun e => decide (e.seg ≠ s)) = a.entries := by
      rw [List.filter_eq_self]
      intro e he
      obtain ⟨i, him, r1, r2, -⟩ := f2_right h.ent he
      have := hf i him
      unfold segEq at this
      rw [r2] at this
      simpa using this
    simp only
    rw [this]
    exact h
  | some k =>
    have hk1 := List.mem_of_find?_eq_some hf
    have hk2 : k.seg = s := by
      have := List.find?_some hf
      unfold segEq at this
      simpa using this
    simp only
    refine rel_delete hi h hk1 ?_
    rintro i him e he ⟨r1, r2, -⟩
    rw [decide_eq_true_eq, ← r2, ← hk2]
    constructor
    · intro hne hs
      exact hne (by rw [items_seg hi him hk1 hs])
    · intro hne hs
      exact hne (by rw [items_id hi him hk1 hs])

theorem rel_verify {dir : Path} {c : Cache} {a : Shelf} (h : Rel dir c a) (id : Nat) : Rel dir (verifyItem c id) a := by
  unfold verifyItem
  split
  · split
    · refine ⟨h.next, ?_⟩
      show List.Forall₂ (Shows dir c.files c.writers) (c.items.map _) _
      rw [← List.map_id a.entries]
      refine f2_map h.ent ?_
      rintro i him e he hr
      split
      · exact hr
      · exact hr
    · exact h
  · exact h

/-- No restart. -/
def Running (o : CacheOp) : Prop := o ≠ .restart

theorem rel_step {dir : Path} {c : Cache} {a : Shelf} (hi : Inv dir c) (h : Rel dir c a) (o : CacheOp) (hf : Fair c o) (hr : Running o) :
    Rel dir (stepCache dir c o) (shelfStep a o) := by
  cases o with
  | «open» s base ok => exact rel_open hi h hf
  | write id bs => exact rel_write hi h id bs
  | close id ok => exact rel_close hi h id ok
  | delete s => exact rel_deleteSeg hi h s
  | verify id => exact rel_verify h id
  | restart => exact absurd rfl hr

theorem rel_run {dir : Path} {c : Cache} {a : Shelf} (hi : Inv dir c) (h : Rel dir c a) (ops : List CacheOp) (hf : FairAll dir c ops) (hr : ∀ o ∈ ops, Running o) :
    Rel dir (ops.foldl (stepCache dir) c) (ops.foldl shelfStep a) := by
  induction ops generalizing c a with
  | nil => exact h
  | cons o l ih =>
    exact ih (inv_step hi o hf.1) (rel_step hi h o hf.1 (hr o List.mem_cons_self)) hf.2 (fun o' ho' => hr o' (List.mem_cons_of_mem _ ho'))

theorem rel_chunks {dir : Path} {c : Cache} {a : Shelf} (h : Rel dir c a) : chunks c = shelfChunks a := by
  unfold chunks shelfChunks
  have := h.ent
  revert this
  generalize c.items = l
  generalize a.entries = m
  intro hf
  induction hf with
  | nil => rfl
  | cons h1 h2 ih =>
    rw [List.filter_cons, List.filter_cons, h1.2.2.1]
    split
    · rw [List.map_cons, List.map_cons, ih, h1.2.1]
    · exact ih

theorem rel_read {dir : Path} {c : Cache} {a : Shelf} (hi : Inv dir c) (h : Rel dir c a) (s : Seg) : newReader dir c s = shelfRead a s := by
  unfold newReader shelfRead
  have hu : ∀ e ∈ a.entries, ∀ f ∈ a.entries, e.seg = f.seg → e.fin = f.fin ∧ e.data = f.data := by
    intro e he f hf hs
    obtain ⟨i, him, r1, r2, r3, r4, -⟩ := f2_right h.ent he
    obtain ⟨j, hjm, q1, q2, q3, q4, -⟩ := f2_right h.ent hf
    have : i = j := items_seg hi him hjm (by rw [r2, q2, hs])
    subst this
    refine ⟨by rw [← r3, q3], ?_⟩
    rw [r4] at q4
    simpa using q4
  cases hf : c.items.find? (fun i => segEq i.seg s) with
  | none =>
    rw [List.find?_eq_none] at hf
    have : a.entries.find? (fun e => decide (e.seg = s ∧ e.fin = true)) = none := by
      rw [List.find?_eq_none]
      intro e he
      obtain ⟨i, him, r1, r2, -⟩ := f2_right h.ent he
      have := hf i him
      unfold segEq at this
      rw [r2] at this
      simp at this ⊢
      exact fun hh => absurd hh this
    rw [this]
    rfl
  | some k =>
    have hk1 := List.mem_of_find?_eq_some hf
    have hk2 : k.seg = s := by
      have := List.find?_some hf
      unfold segEq at this
      simpa using this
    obtain ⟨e, he, r1, r2, r3, r4, -⟩ := f2_left h.ent hk1
    simp only
    cases hfin : k.fin with
    | true =>
      rw [if_pos rfl, r4]
      cases hg : a.entries.find? (fun e => decide (e.seg = s ∧ e.fin = true)) with
      | none =>
        rw [List.find?_eq_none] at hg
        exact absurd (by simp [← r2, hk2, ← r3, hfin]) (hg e he)
      | some f =>
        have h1 := List.find?_some hg
        simp only [decide_eq_true_eq] at h1
        have h2 := hu e he f (List.mem_of_find?_eq_some hg) (by rw [← r2, hk2, h1.1])
        rw [Option.map_some, h2.2]
    | false =>
      rw [if_neg (by simp)]
      have : a.entries.find? (fun e => decide (e.seg = s ∧ e.fin = true)) = none := by
        rw [List.find?_eq_none]
        intro f hfm
        simp only [decide_eq_true_eq]
        rintro ⟨h1, h2⟩
        have h3 := hu e he f hfm (by rw [← r2, hk2, h1])
        rw [← r3, hfin, h2] at h3
        exact absurd h3.1 (by simp)
      rw [this]
      rfl

/-! ## The properties -/

/-- **C83.** Along all calls, starts and crashes included, the chunks that are listed have blocks, are in order and do not overlap: what plans rely on. -/
theorem cache_stored (dir : Path) (ops : List CacheOp) (hf : FairAll dir emptyCache ops) : Stored (chunks (ops.foldl (stepCache dir) emptyCache)) := by
  have h := (inv_run (inv_empty dir) ops hf).order
  unfold chunks
  refine ⟨?_, ?_⟩
  · rw [List.pairwise_map]
    exact h.1.sublist List.filter_sublist
  · intro s hs
    obtain ⟨i, hi, rfl⟩ := List.mem_map.mp hs
    exact h.2 i (List.mem_of_mem_filter hi)

/-- **C83.** While the node runs, the cache lists the chunks that were written completely and not deleted, and gives back the bytes that were written. -/
theorem cache_refines_partial (dir : Path) (ops : List CacheOp) (hf : FairAll dir emptyCache ops) (hr : ∀ o ∈ ops, Running o) :
    chunks (ops.foldl (stepCache dir) emptyCache) = shelfChunks (ops.foldl shelfStep ⟨[], 0⟩) ∧
      ∀ s, newReader dir (ops.foldl (stepCache dir) emptyCache) s = shelfRead (ops.foldl shelfStep ⟨[], 0⟩) s := by
  have hi := inv_run (inv_empty dir) ops hf
  have h := rel_run (inv_empty dir) (rel_empty dir) ops hf hr
  exact ⟨rel_chunks h, rel_read hi h⟩

/-- **C83.** A chunk is taken exactly when it has no block in common with one that is there or being written. -/
theorem cache_takes_iff (dir : Path) (ops : List CacheOp) (hf : FairAll dir emptyCache ops) {s : Seg} (hs : s.lo ≤ s.hi) (base : Path) :
    (newWriter dir (ops.foldl (stepCache dir) emptyCache) s base true).2.isSome = true ↔ ∀ i ∈ (ops.foldl (stepCache dir) emptyCache).items, Apart i.seg s := by
  have hi := inv_run (inv_empty dir) ops hf
  rw [← checkOverlap_iff hi.order hs]
  unfold newWriter
  cases checkOverlap (ops.foldl (stepCache dir) emptyCache).items s with
  | none => simp
  | some n => simp

/-- **C83, fails.** After a start nothing can be read, whatever was cached. -/
theorem restart_unreadable (dir : Path) (ops : List CacheOp) (hf : FairAll dir emptyCache ops) (s : Seg) :
    newReader dir (load dir (ops.foldl (stepCache dir) emptyCache)) s = none := by
  have hi := inv_run (inv_empty dir) ops hf
  unfold newReader
  split
  · split
    · rw [load_files hi]
      rfl
    · rfl
  · rfl

theorem loadLoop_lists {dir : Path} (l : List Item) (c : Cache) (hl : ∀ i ∈ l, i.fin = true) {i : Item} (h : hasFile dir c.files i.file = true)
    (hi : i ∈ c.items ∨ i ∈ l) : i ∈ (loadLoop dir c l).items := by
  induction l generalizing c with
  | nil => exact hi.resolve_right (by simp)
  | cons j l ih =>
    unfold loadLoop
    have hl' : ∀ i ∈ l, i.fin = true := fun x hx => hl x (List.mem_cons_of_mem _ hx)
    split
    · refine ih { c with items := c.items ++ [j] } hl' h ?_
      rcases hi with hi | hi
      · exact Or.inl (List.mem_append_left _ hi)
      · rcases List.mem_cons.mp hi with rfl | hi
        · exact Or.inl (by simp)
        · exact Or.inr hi
    · rename_i hc
      have hj : ¬ hasFile dir c.files j.file = true := by
        intro hh
        exact hc (by rw [hh, hl j List.mem_cons_self]; rfl)
      refine ih (cleanItem dir c j) hl' ?_ ?_
      · unfold cleanItem
        simp only
        split
        · exact hasFile_rm.mpr ⟨h, fun e => hj (e ▸ h)⟩
        · exact h
      · rcases hi with hi | hi
        · exact Or.inl hi
        · rcases List.mem_cons.mp hi with rfl | hi
          · exact absurd h hj
          · exact Or.inr hi

/-- **C83, fails.** A chunk that the index has, and whose file is there, is still listed after the start, so plans count on it. -/
theorem restart_listed {dir : Path} (ops : List CacheOp) (hf : FairAll dir emptyCache ops) {r : Rec} (hr : r ∈ (ops.foldl (stepCache dir) emptyCache).index)
    (hfile : hasFile dir (ops.foldl (stepCache dir) emptyCache).files r.file = true) : r.seg ∈ chunks (load dir (ops.foldl (stepCache dir) emptyCache)) := by
  have hi := inv_run (inv_empty dir) ops hf
  generalize ops.foldl (stepCache dir) emptyCache = c at *
  have hfin : ∀ i ∈ fromIndex c.index c.next, i.fin = true := by
    intro i him
    obtain ⟨q, hq, -, e, -⟩ := fromIndex_mem him
    rw [← e]
    exact hi.rfin q hq
  have : (r.seg, r.fin, r.file) ∈ (fromIndex c.index c.next).map (fun i => (i.seg, i.fin, i.file)) := by
    rw [fromIndex_seg]
    exact List.mem_map.mpr ⟨r, hr, rfl⟩
  obtain ⟨i, him, e⟩ := List.mem_map.mp this
  simp only [Prod.mk.injEq] at e
  have hk := loadLoop_lists (fromIndex c.index c.next)
    { items := [], gone := [], writers := [], index := c.index, files := c.files, next := c.next + c.index.length, used := c.used } hfin (i := i)
    (by show hasFile dir c.files i.file = true; rw [e.2.2]; exact hfile) (Or.inr him)
  unfold chunks
  refine List.mem_map.mpr ⟨i, ?_, e.1⟩
  rw [List.mem_filter]
  exact ⟨hk, hfin i him⟩

/-- **C83, fails.** A second start lists nothing that was there before the first. -/
theorem second_restart_empty (dir : Path) (ops : List CacheOp) (hf : FairAll dir emptyCache ops) : chunks (load dir (load dir (ops.foldl (stepCache dir) emptyCache))) = [] := by
  have hi := inv_run (inv_empty dir) ops hf
  generalize ops.foldl (stepCache dir) emptyCache = c at *
  have hfiles := load_files hi
  obtain ⟨-, -, -, -, ⟨k, hk, hk1, hk2⟩, -, -⟩ := loadLoop_spec dir (fromIndex (load dir c).index (load dir c).next)
    { items := [], gone := [], writers := [], index := (load dir c).index, files := (load dir c).files, next := (load dir c).next + (load dir c).index.length, used := (load dir c).used }
  have : k = [] := by
    rw [List.eq_nil_iff_forall_not_mem]
    intro i hm
    have := (hk2 i hm).2
    rw [hfiles] at this
    simp [hasFile] at this
  rw [this] at hk
  unfold chunks
  have e : (load dir (load dir c)).items = [] := hk
  rw [e]
  rfl

/-- **C82, fails.** A plan made when the first cached chunk begins at the last point asks for blocks that the cache has, and the cache refuses them. -/
theorem edge_refused : ∃ (segs : List Seg) (start : Point) (l : List Point) (s t : Seg), Stored segs ∧ Ascending (start :: l) ∧ s ∈ segs ∧ s ∉ (plan segs start (start :: l)).2 ∧
    t ∈ real (plan segs start (start :: l)).1 ∧ ¬ Apart s t := by
  refine ⟨[⟨200, 300, 19, 30⟩], ⟨100, 10, 0⟩, [⟨200, 20, 0⟩], ⟨200, 300, 19, 30⟩, ⟨101, 200, 10, 20⟩, ?_, ?_, ?_, ?_, ?_, ?_⟩
  · exact ⟨by simp, by simp⟩
  · simp [Ascending]
  · simp
  · decide +kernel
  · decide +kernel
  · decide +kernel

end Verif.Sync
