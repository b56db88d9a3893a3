import Verif.State.DbSpec
import Verif.Tactics

/-! Batches and logs. -/

namespace Verif.State
open Verif.Bytes

/-! ### Batches -/

theorem Batch.apply_nil (m : KMap) : Batch.apply [] m = m := rfl

theorem Batch.apply_cons (r : Rec) (b : Batch) (m : KMap) :
    Batch.apply (r :: b) m = Batch.apply b (fun k => if k = r.key then r.val else m k) := rfl

theorem Batch.apply_append (a b : Batch) (m : KMap) : Batch.apply (a ++ b) m = b.apply (a.apply m) := by
  unfold Batch.apply; rw [List.foldl_append]

def Batch.Has (b : Batch) (k : Key) : Prop := ∃ r ∈ b, r.key = k

theorem Batch.has_append {a b : Batch} {k : Key} : Batch.Has (a ++ b) k ↔ a.Has k ∨ b.Has k := by
  unfold Batch.Has
  constructor
  · rintro ⟨r, hr, e⟩
    rcases List.mem_append.mp hr with h | h
    · exact Or.inl ⟨r, h, e⟩
    · exact Or.inr ⟨r, h, e⟩
  · rintro (⟨r, h, e⟩ | ⟨r, h, e⟩)
    · exact ⟨r, List.mem_append.mpr (Or.inl h), e⟩
    · exact ⟨r, List.mem_append.mpr (Or.inr h), e⟩

theorem Batch.apply_not {b : Batch} {m : KMap} {k : Key} (h : ¬ b.Has k) : b.apply m k = m k := by
  induction b generalizing m with
  | nil => rfl
  | cons r b ih =>
    rw [Batch.apply_cons, ih (fun ⟨s, hs, e⟩ => h ⟨s, List.mem_cons_of_mem _ hs, e⟩)]
    rw [if_neg]
    exact fun e => h ⟨r, List.mem_cons_self, e.symm⟩

/-- A key whose records all have one value. -/
theorem Batch.apply_const {b : Batch} {m : KMap} {k : Key} {v : Option Bytes} (h : b.Has k) (hv : ∀ r ∈ b, r.key = k → r.val = v) :
    b.apply m k = v := by
  induction b generalizing m with
  | nil => obtain ⟨r, hr, _⟩ := h; simp at hr
  | cons r b ih =>
    rw [Batch.apply_cons]
    by_cases hb : Batch.Has b k
    · exact ih hb (fun s hs => hv s (List.mem_cons_of_mem _ hs))
    · rw [Batch.apply_not hb]
      obtain ⟨s, hs, e⟩ := h
      rcases List.mem_cons.mp hs with rfl | hs
      · rw [if_pos e.symm]; exact hv _ List.mem_cons_self e
      · exact absurd ⟨s, hs, e⟩ hb

/-- What a batch does to a key does not depend on the other keys. -/
theorem Batch.apply_congr {b : Batch} {m m' : KMap} {k : Key} (h : m k = m' k) : b.apply m k = b.apply m' k := by
  induction b generalizing m m' with
  | nil => exact h
  | cons r b ih =>
    rw [Batch.apply_cons, Batch.apply_cons]
    apply ih
    simp only [h]

theorem Batch.apply_has {b : Batch} {k : Key} (h : b.Has k) (m m' : KMap) : b.apply m k = b.apply m' k := by
  induction b generalizing m m' with
  | nil => obtain ⟨r, hr, _⟩ := h; simp at hr
  | cons r b ih =>
    rw [Batch.apply_cons, Batch.apply_cons]
    by_cases hb : Batch.Has b k
    · exact ih hb _ _
    · rw [Batch.apply_not hb, Batch.apply_not hb]
      obtain ⟨s, hs, e⟩ := h
      rcases List.mem_cons.mp hs with rfl | hs
      · rw [if_pos e.symm, if_pos e.symm]
      · exact absurd ⟨s, hs, e⟩ hb

theorem Batch.apply_idem (b : Batch) (m : KMap) (k : Key) : b.apply (b.apply m) k = b.apply m k := by
  by_cases h : b.Has k
  · exact Batch.apply_has h _ _
  · rw [Batch.apply_not h]

theorem Batch.has_flatMap {X : Type} {xs : List X} {g : X → Batch} {k : Key} :
    Batch.Has (xs.flatMap g) k ↔ ∃ x ∈ xs, (g x).Has k := by
  unfold Batch.Has
  constructor
  · rintro ⟨r, hr, e⟩
    obtain ⟨x, hx, hr⟩ := List.mem_flatMap.mp hr
    exact ⟨x, hx, r, hr, e⟩
  · rintro ⟨x, hx, r, hr, e⟩
    exact ⟨r, List.mem_flatMap.mpr ⟨x, hx, hr⟩, e⟩

/-- Of many batches only one has a key. -/
theorem Batch.apply_flatMap {X : Type} [DecidableEq X] {xs : List X} {g : X → Batch} {k : Key} (x : X)
    (h : ∀ y ∈ xs, y ≠ x → ¬ (g y).Has k) (m : KMap) :
    Batch.apply (xs.flatMap g) m k = if x ∈ xs then (g x).apply m k else m k := by
  induction xs generalizing m with
  | nil => simp [Batch.apply_nil]
  | cons y ys ih =>
    rw [List.flatMap_cons, Batch.apply_append, ih (fun z hz => h z (List.mem_cons_of_mem _ hz))]
    by_cases hy : y = x
    · subst hy
      simp only [List.mem_cons_self, if_true]
      split
      · exact Batch.apply_idem _ _ _
      · rfl
    · have hn := h y List.mem_cons_self hy
      have hxy : (x ∈ y :: ys) ↔ x ∈ ys := by simp [Ne.symm hy]
      by_cases hx : x ∈ ys
      · rw [if_pos hx, if_pos (hxy.mpr hx)]
        exact Batch.apply_congr (Batch.apply_not hn)
      · rw [if_neg hx, if_neg (fun q => hx (hxy.mp q))]
        exact Batch.apply_not hn

/-! ### Last values -/

theorem lastVal_cons {K : Type} [DecidableEq K] (x : K) (w : K × Bytes) (l : List (K × Bytes)) :
    lastVal x (w :: l) = match lastVal x l with
    | some v => some v
    | none => if w.1 = x then some w.2 else none := rfl

theorem lastVal_append {K : Type} [DecidableEq K] (x : K) (l l' : List (K × Bytes)) :
    lastVal x (l ++ l') = (lastVal x l').or (lastVal x l) := by
  induction l with
  | nil => rw [List.nil_append]; cases lastVal x l' <;> rfl
  | cons w l ih =>
    rw [List.cons_append, lastVal_cons, lastVal_cons, ih]
    cases lastVal x l' with
    | some v => rfl
    | none => cases lastVal x l <;> rfl

theorem lastVal_none {K : Type} [DecidableEq K] {x : K} {l : List (K × Bytes)} : lastVal x l = none ↔ ∀ w ∈ l, w.1 ≠ x := by
  induction l with
  | nil => simp [lastVal]
  | cons w l ih =>
    rw [lastVal_cons]
    cases h : lastVal x l with
    | some v =>
      simp only [reduceCtorEq, false_iff]
      intro q
      have := ih.mpr (fun w hw => q w (List.mem_cons_of_mem _ hw))
      rw [h] at this; simp at this
    | none =>
      have := ih.mp h
      by_cases hw : w.1 = x
      · simp [hw]
      · simp only [hw, if_false, true_iff]
        intro w' hw'
        rcases List.mem_cons.mp hw' with rfl | hw'
        · exact hw
        · exact this _ hw'

theorem Batch.apply_map {K : Type} [DecidableEq K] (g : K → Key) (hg : ∀ x y, g x = g y → x = y) (val : K → Bytes → Option Bytes)
    (l : List (K × Bytes)) (m : KMap) (x : K) :
    Batch.apply (l.map (fun w => (⟨g w.1, val w.1 w.2⟩ : Rec))) m (g x) = match lastVal x l with | some v => val x v | none => m (g x) := by
  induction l generalizing m with
  | nil => rfl
  | cons w l ih =>
    rw [List.map_cons, Batch.apply_cons, ih]
    rw [lastVal_cons]
    cases h : lastVal x l with
    | some v => rfl
    | none =>
      by_cases hw : w.1 = x
      · simp [hw]
      · have : ¬ g x = g w.1 := fun q => hw (hg _ _ q).symm
        simp [hw, this]

/-! ### Slots after blocks -/

theorem writesOf_append (bs cs : List Blk) (a : Addr) : writesOf (bs ++ cs) a = writesOf bs a ++ writesOf cs a := by
  unfold writesOf; rw [List.filter_append, List.flatMap_append]

theorem slotAfter_append (bs cs : List Blk) (a : Addr) (f : Field) :
    slotAfter (bs ++ cs) a f = (slotAfter cs a f).or (slotAfter bs a f) := by
  unfold slotAfter; rw [writesOf_append, lastVal_append]

theorem onceAfter_append (bs cs : List Blk) (i : Bytes) : onceAfter (bs ++ cs) i = (onceAfter cs i).or (onceAfter bs i) := by
  unfold onceAfter; rw [List.flatMap_append, lastVal_append]

/-- Only the blocks of the account matter. -/
theorem slotAfter_congr {bs cs : List Blk} {a : Addr}
    (h : bs.filter (fun b => decide (b.addr = a)) = cs.filter (fun b => decide (b.addr = a))) (f : Field) :
    slotAfter bs a f = slotAfter cs a f := by
  unfold slotAfter writesOf; rw [h]

theorem slotAfter_none {bs : List Blk} {a : Addr} {f : Field} :
    slotAfter bs a f = none ↔ ∀ b ∈ bs, b.addr = a → ∀ w ∈ b.writes, w.1 ≠ f := by
  unfold slotAfter writesOf
  rw [lastVal_none]
  constructor
  · intro h b hb ha w hw
    exact h w (List.mem_flatMap.mpr ⟨b, List.mem_filter.mpr ⟨hb, by simpa using ha⟩, hw⟩)
  · intro h w hw
    obtain ⟨b, hb, hw⟩ := List.mem_flatMap.mp hw
    obtain ⟨hb, ha⟩ := List.mem_filter.mp hb
    exact h b hb (by simpa using ha) w hw

theorem onceAfter_none {bs : List Blk} {i : Bytes} : onceAfter bs i = none ↔ ∀ b ∈ bs, ∀ o ∈ b.once, o.1 ≠ i := by
  unfold onceAfter
  rw [lastVal_none]
  constructor
  · intro h b hb o ho
    exact h o (List.mem_flatMap.mpr ⟨b, hb, ho⟩)
  · intro h o ho
    obtain ⟨b, hb, ho⟩ := List.mem_flatMap.mp ho
    exact h b hb o ho

/-- Without repeated names, the order of assignments does not matter. -/
theorem lastVal_perm {K : Type} [DecidableEq K] {x : K} {l l' : List (K × Bytes)} (hp : l.Perm l') (hn : (l.map (·.1)).Nodup) :
    lastVal x l = lastVal x l' := by
  have key : ∀ {l : List (K × Bytes)}, (l.map (·.1)).Nodup → ∀ v, lastVal x l = some v ↔ (x, v) ∈ l := by
    intro l hn v
    induction l with
    | nil => simp [lastVal]
    | cons w l ih =>
      have hn' : w.1 ∉ l.map (·.1) ∧ (l.map (·.1)).Nodup := by simpa [List.nodup_cons] using hn
      rw [lastVal_cons]
      cases h : lastVal x l with
      | some u =>
        simp only [Option.some.injEq]
        have hm := ih hn'.2
        rw [h] at hm
        simp only [Option.some.injEq] at hm
        rw [hm, List.mem_cons]
        constructor
        · exact Or.inr
        · rintro (q | q)
          · have hu : lastVal x l ≠ none := by rw [h]; simp
            exfalso
            apply hu
            rw [lastVal_none]
            intro w' hw' e
            apply hn'.1
            rw [List.mem_map]
            exact ⟨w', hw', by rw [e, ← q]⟩
          · exact q
      | none =>
        have hm := lastVal_none.mp h
        by_cases hw : w.1 = x
        · simp only [hw, if_true, Option.some.injEq, List.mem_cons]
          constructor
          · intro e; left; rw [← e, ← hw]
          · rintro (q | q)
            · rw [← q]
            · exact absurd rfl (hm _ q)
        · simp only [hw, if_false, reduceCtorEq, List.mem_cons, false_iff]
          rintro (q | q)
          · exact hw (by rw [← q])
          · exact hm _ q rfl
  have hn2 : (l'.map (·.1)).Nodup := (hp.map _).nodup_iff.mp hn
  cases h : lastVal x l with
  | some v =>
    have := (key hn v).mp h
    exact ((key hn2 v).mpr (hp.mem_iff.mp this)).symm
  | none =>
    symm
    rw [lastVal_none] at h ⊢
    exact fun w hw => h w (hp.mem_iff.mpr hw)

/-! ### Logs -/

def Blk.item (b : Blk) : LogItem := ⟨b.writes, b.once, b.height⟩

/-- The items of an account. -/
def itemsOf (bs : List Blk) (a : Addr) : List LogItem := (bs.filter (fun b => decide (b.addr = a))).map Blk.item

/-- A log is that of these blocks. -/
structure LogOk (log : SnapLog) (bs : List Blk) : Prop where
  proper : log.Proper
  items : ∀ a, (log.get a).getD [] = itemsOf bs a

theorem itemsOf_append (bs cs : List Blk) (a : Addr) : itemsOf (bs ++ cs) a = itemsOf bs a ++ itemsOf cs a := by
  unfold itemsOf; rw [List.filter_append, List.map_append]

theorem mem_itemsOf {bs : List Blk} {a : Addr} {i : LogItem} : i ∈ itemsOf bs a ↔ ∃ b ∈ bs, b.addr = a ∧ b.item = i := by
  unfold itemsOf
  rw [List.mem_map]
  constructor
  · rintro ⟨b, hb, rfl⟩
    obtain ⟨hb, ha⟩ := List.mem_filter.mp hb
    exact ⟨b, hb, by simpa using ha, rfl⟩
  · rintro ⟨b, hb, ha, rfl⟩
    exact ⟨b, List.mem_filter.mpr ⟨hb, by simpa using ha⟩, rfl⟩

theorem writesOf_items (bs : List Blk) (a : Addr) : writesOf bs a = (itemsOf bs a).flatMap (·.writes) := by
  unfold writesOf itemsOf
  rw [List.flatMap_map]
  rfl

theorem LogOk.exists_iff {log : SnapLog} {bs : List Blk} (h : LogOk log bs) (P : Addr → LogItem → Prop) :
    (∃ e ∈ log, ∃ i ∈ e.2, P e.1 i) ↔ ∃ b ∈ bs, P b.addr b.item := by
  constructor
  · rintro ⟨e, he, i, hi, hp⟩
    have hg : log.get e.1 = some e.2 := Table.mem_get h.proper he
    have := h.items e.1
    rw [hg] at this
    simp only [Option.getD_some] at this
    rw [this] at hi
    obtain ⟨b, hb, ha, rfl⟩ := mem_itemsOf.mp hi
    exact ⟨b, hb, by rw [ha]; exact hp⟩
  · rintro ⟨b, hb, hp⟩
    have := h.items b.addr
    have hm : b.item ∈ itemsOf bs b.addr := mem_itemsOf.mpr ⟨b, hb, rfl, rfl⟩
    rw [← this] at hm
    cases hg : log.get b.addr with
    | none => rw [hg] at hm; simp at hm
    | some l =>
      rw [hg] at hm
      exact ⟨(b.addr, l), Table.get_mem hg, b.item, hm, hp⟩

/-- What the part of a batch that a log makes for an account does. -/
theorem LogOk.apply {log : SnapLog} {bs : List Blk} (h : LogOk log bs) (g : Addr → List LogItem → Batch) (hnil : ∀ a, g a [] = [])
    (a : Addr) (k : Key) (hk : ∀ a' l, a' ≠ a → ¬ (g a' l).Has k) (m : KMap) :
    Batch.apply (log.flatMap (fun e => g e.1 e.2)) m k = (g a (itemsOf bs a)).apply m k := by
  cases hg : log.get a with
  | none =>
    have hi := h.items a
    rw [hg] at hi
    rw [← hi]
    simp only [Option.getD_none, hnil, Batch.apply_nil]
    apply Batch.apply_not
    rw [Batch.has_flatMap]
    rintro ⟨e, he, hh⟩
    by_cases hea : e.1 = a
    · have := Table.mem_get h.proper he
      rw [hea, hg] at this; simp at this
    · exact hk _ _ hea hh
  | some l =>
    have hi := h.items a
    rw [hg] at hi
    simp only [Option.getD_some] at hi
    rw [← hi]
    have hm := Table.get_mem hg
    have := Batch.apply_flatMap (xs := log) (g := fun e => g e.1 e.2) (k := k) (a, l) (by
      intro y hy hne hh
      by_cases hya : y.1 = a
      · have := Table.mem_get h.proper hy
        rw [hya, hg] at this
        apply hne
        rw [← hya]
        simp only [Option.some.injEq] at this
        rw [this]
      · exact hk _ _ hya hh) m
    rw [this, if_pos hm]

end Verif.State
