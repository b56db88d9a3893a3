import Verif.Sync.SegCacheSpec

/-!
# Lemmas on files, the index and the list of the cache -/

namespace Verif.Sync

theorem join_inj {dir a b : Path} (h : join dir a = join dir b) : a = b := by
  unfold join at h
  have := List.append_cancel_left h
  simpa using this

theorem join_ne_nil (dir a : Path) : join dir a ≠ [] := by simp [join]

theorem hasFile_iff {dir : Path} {files : List (Path × List UInt8)} {p : Path} : hasFile dir files p = true ↔ ∃ f ∈ files, join dir f.1 = p := by
  simp [hasFile]

theorem hasFile_rm {dir : Path} {files : List (Path × List UInt8)} {p q : Path} :
    hasFile dir (rmFile dir files p) q = true ↔ hasFile dir files q = true ∧ q ≠ p := by
  rw [hasFile_iff, hasFile_iff]
  simp only [rmFile, List.mem_filter, decide_eq_true_eq]
  constructor
  · rintro ⟨f, ⟨h1, h2⟩, rfl⟩
    exact ⟨⟨f, h1, rfl⟩, h2⟩
  · rintro ⟨⟨f, h1, rfl⟩, h2⟩
    exact ⟨f, ⟨h1, h2⟩, rfl⟩

theorem hasFile_mk {dir : Path} {files : List (Path × List UInt8)} {b : Path} {q : Path} :
    hasFile dir (mkFile dir files b) q = true ↔ hasFile dir files q = true ∨ q = join dir b := by
  rw [hasFile_iff]
  simp only [mkFile, List.mem_append, List.mem_singleton]
  constructor
  · rintro ⟨f, h | rfl, rfl⟩
    · have := (hasFile_rm (q := join dir f.1)).mp (hasFile_iff.mpr ⟨f, h, rfl⟩)
      exact Or.inl this.1
    · exact Or.inr rfl
  · rintro (h | rfl)
    · by_cases hq : q = join dir b
      · exact ⟨(b, []), Or.inr rfl, hq.symm⟩
      · obtain ⟨f, h1, h2⟩ := hasFile_iff.mp (hasFile_rm.mpr ⟨h, hq⟩)
        exact ⟨f, Or.inl h1, h2⟩
    · exact ⟨(b, []), Or.inr rfl, rfl⟩

theorem hasFile_add {dir : Path} {files : List (Path × List UInt8)} {p q : Path} {bs : List UInt8} :
    hasFile dir (addFile dir files p bs) q = hasFile dir files q := by
  unfold hasFile addFile
  induction files with
  | nil => rfl
  | cons f l ih =>
    rw [List.map_cons, List.any_cons, List.any_cons, ih]
    split <;> rfl

theorem getFile_rm {dir : Path} {files : List (Path × List UInt8)} {p q : Path} (h : q ≠ p) : getFile dir (rmFile dir files p) q = getFile dir files q := by
  unfold getFile rmFile
  induction files with
  | nil => rfl
  | cons f l ih =>
    rw [List.filter_cons]
    by_cases h1 : join dir f.1 = p
    · have h2 : ¬ join dir f.1 = q := fun e => h (e.symm.trans h1)
      simp only [h1, ne_eq, not_true_eq_false, decide_false, Bool.false_eq_true, if_false, List.find?_cons]
      have : decide (p = q) = false := decide_eq_false (fun e => h e.symm)
      rw [this]
      exact ih
    · simp only [ne_eq, h1, not_false_eq_true, decide_true, if_true, List.find?_cons]
      split
      · rfl
      · exact ih

theorem getFile_mk {dir : Path} {files : List (Path × List UInt8)} {b q : Path} (h : q ≠ join dir b) : getFile dir (mkFile dir files b) q = getFile dir files q := by
  have : getFile dir (mkFile dir files b) q = getFile dir (rmFile dir files (join dir b)) q := by
    unfold getFile mkFile
    rw [List.find?_append]
    have : List.find? (fun f : Path × List UInt8 => decide (join dir f.1 = q)) [(b, [])] = none := by
      simp [Ne.symm h]
    rw [this, Option.or_none]
  rw [this, getFile_rm h]

theorem getFile_mk_self {dir : Path} {files : List (Path × List UInt8)} {b : Path} : getFile dir (mkFile dir files b) (join dir b) = some [] := by
  unfold getFile mkFile
  rw [List.find?_append]
  have : List.find? (fun f : Path × List UInt8 => decide (join dir f.1 = join dir b)) (rmFile dir files (join dir b)) = none := by
    rw [List.find?_eq_none]
    intro f hf
    simp only [rmFile, List.mem_filter, decide_eq_true_eq] at hf
    simpa using hf.2
  rw [this]
  simp

theorem getFile_add {dir : Path} {files : List (Path × List UInt8)} {p q : Path} {bs : List UInt8} (h : q ≠ p) :
    getFile dir (addFile dir files p bs) q = getFile dir files q := by
  unfold getFile addFile
  induction files with
  | nil => rfl
  | cons f l ih =>
    rw [List.map_cons, List.find?_cons, List.find?_cons]
    by_cases h1 : join dir f.1 = p
    · have h2 : ¬ join dir f.1 = q := fun e => h (e.symm.trans h1)
      rw [if_pos h1]
      simp only [h2, decide_false]
      exact ih
    · rw [if_neg h1]
      split
      · rfl
      · exact ih

theorem getFile_add_self {dir : Path} {files : List (Path × List UInt8)} {p : Path} {bs : List UInt8} :
    getFile dir (addFile dir files p bs) p = (getFile dir files p).map (· ++ bs) := by
  unfold getFile addFile
  induction files with
  | nil => rfl
  | cons f l ih =>
    rw [List.map_cons, List.find?_cons, List.find?_cons]
    by_cases h1 : join dir f.1 = p
    · rw [if_pos h1]
      simp [h1]
    · rw [if_neg h1]
      simp only [h1, decide_false]
      exact ih

theorem hasFile_of_get {dir : Path} {files : List (Path × List UInt8)} {p : Path} {d : List UInt8} (h : getFile dir files p = some d) : hasFile dir files p = true := by
  unfold getFile at h
  cases hf : files.find? (fun f => decide (join dir f.1 = p)) with
  | none => rw [hf] at h; cases h
  | some f =>
    have h1 := List.find?_some hf
    exact hasFile_iff.mpr ⟨f, List.mem_of_find?_eq_some hf, of_decide_eq_true h1⟩

/-! ## The index -/

def Keyed (l : List Rec) : Prop := l.Pairwise (fun a b => keyLt a.seg b.seg)

theorem mem_putRec {l : List Rec} {r q : Rec} (h : q ∈ putRec l r) : q = r ∨ q ∈ l := by
  induction l with
  | nil => simpa [putRec] using h
  | cons x l ih =>
    unfold putRec at h
    split at h
    · rcases List.mem_cons.mp h with rfl | h
      · exact Or.inl rfl
      · exact Or.inr (List.mem_cons_of_mem _ h)
    · split at h
      · rcases List.mem_cons.mp h with rfl | h
        · exact Or.inl rfl
        · exact Or.inr h
      · rcases List.mem_cons.mp h with rfl | h
        · exact Or.inr List.mem_cons_self
        · rcases ih h with h | h
          · exact Or.inl h
          · exact Or.inr (List.mem_cons_of_mem _ h)

theorem keyLt_trans {a b c : Seg} (h1 : keyLt a b) (h2 : keyLt b c) : keyLt a c := by unfold keyLt at *; omega

theorem keyed_put {l : List Rec} (r : Rec) (h : Keyed l) : Keyed (putRec l r) := by
  induction l with
  | nil => exact List.pairwise_singleton _ _
  | cons x l ih =>
    obtain ⟨h1, h2⟩ := List.pairwise_cons.mp h
    unfold putRec
    split
    · rename_i he
      refine List.pairwise_cons.mpr ⟨fun y hy => ?_, h2⟩
      have := h1 y hy
      unfold keyLt at *
      omega
    · split
      · rename_i hlt
        refine List.pairwise_cons.mpr ⟨fun y hy => ?_, h⟩
        rcases List.mem_cons.mp hy with rfl | hy
        · exact hlt
        · exact keyLt_trans hlt (h1 y hy)
      · rename_i hne hnl
        refine List.pairwise_cons.mpr ⟨fun y hy => ?_, ih h2⟩
        rcases mem_putRec hy with rfl | hy
        · unfold keyLt at *
          omega
        · exact h1 y hy

theorem keyed_del {l : List Rec} (s : Seg) (h : Keyed l) : Keyed (delRec l s) := h.sublist List.filter_sublist

/-! ## The list -/

/-- Items in order, without overlap. -/
def InOrder (l : List Item) : Prop := l.Pairwise (fun i j => i.seg.hi < j.seg.lo) ∧ ∀ i ∈ l, 1 ≤ i.seg.lo ∧ i.seg.lo ≤ i.seg.hi

theorem InOrder.sub {l m : List Item} (h : InOrder m) (hs : List.Sublist l m) : InOrder l := ⟨h.1.sublist hs, fun i hi => h.2 i (hs.subset hi)⟩

theorem split_search {l : List Item} (h : InOrder l) (hi : Nat) :
    (∀ i ∈ l.take (searchAfter l hi), i.seg.lo ≤ hi) ∧ ∀ i ∈ l.drop (searchAfter l hi), hi < i.seg.lo := by
  unfold searchAfter
  induction l with
  | nil => simp
  | cons x l ih =>
    rw [List.takeWhile_cons]
    by_cases hx : x.seg.lo > hi
    · simp only [hx, not_true_eq_false, decide_false, Bool.false_eq_true, if_false, List.length_nil, List.take_zero, List.drop_zero]
      refine ⟨by simp, fun i hm => ?_⟩
      rcases List.mem_cons.mp hm with rfl | hm
      · exact hx
      · have h1 := List.rel_of_pairwise_cons h.1 hm
        have h2 := h.2 x List.mem_cons_self
        omega
    · simp only [hx, not_false_eq_true, decide_true, if_true, List.length_cons, List.take_succ_cons, List.drop_succ_cons]
      obtain ⟨h1, h2⟩ := ih (h.sub (List.sublist_cons_self x l))
      refine ⟨fun i hm => ?_, h2⟩
      rcases List.mem_cons.mp hm with rfl | hm
      · omega
      · exact h1 i hm

theorem search_le (l : List Item) (hi : Nat) : searchAfter l hi ≤ l.length := (List.takeWhile_prefix _).length_le

/-- A chunk has room exactly when it has no block in common with an item; then it fits between the items. -/
theorem checkOverlap_some {l : List Item} (h : InOrder l) {s : Seg} {n : Nat} (hn : checkOverlap l s = some n) :
    n = searchAfter l s.hi ∧ (∀ i ∈ l.take n, i.seg.hi < s.lo) ∧ ∀ i ∈ l.drop n, s.hi < i.seg.lo := by
  obtain ⟨h1, h2⟩ := split_search h s.hi
  have hle := search_le l s.hi
  unfold checkOverlap at hn
  simp only at hn
  split at hn
  · rename_i h0
    simp only [Option.some.injEq] at hn
    subst hn
    refine ⟨rfl, ?_, h2⟩
    rw [h0]
    simp
  · rename_i h0
    split at hn
    · rename_i i hi
      split at hn
      · rename_i hlt
        simp only [Option.some.injEq] at hn
        subst hn
        refine ⟨rfl, fun j hj => ?_, h2⟩
        obtain ⟨k, hk, rfl⟩ := List.mem_iff_getElem.mp hj
        rw [List.getElem_take]
        rw [List.length_take] at hk
        obtain ⟨hn1, rfl⟩ := List.getElem?_eq_some_iff.mp hi
        by_cases hk' : k = searchAfter l s.hi - 1
        · subst hk'
          exact hlt
        · have := List.pairwise_iff_getElem.mp h.1 k (searchAfter l s.hi - 1) (by omega) hn1 (by omega)
          have := h.2 _ (List.getElem_mem hn1)
          omega
      · cases hn
    · cases hn

theorem checkOverlap_iff {l : List Item} (h : InOrder l) {s : Seg} (hs : s.lo ≤ s.hi) :
    (checkOverlap l s).isSome = true ↔ ∀ i ∈ l, Apart i.seg s := by
  constructor
  · intro hn
    obtain ⟨n, hn⟩ := Option.isSome_iff_exists.mp hn
    obtain ⟨-, h1, h2⟩ := checkOverlap_some h hn
    intro i hi
    rw [← List.take_append_drop n l] at hi
    rcases List.mem_append.mp hi with hi | hi
    · exact Or.inl (h1 i hi)
    · exact Or.inr (h2 i hi)
  · intro ha
    obtain ⟨h1, h2⟩ := split_search h s.hi
    have hle := search_le l s.hi
    unfold checkOverlap
    simp only
    split
    · rfl
    · rename_i h0
      have hlt : searchAfter l s.hi - 1 < l.length := by omega
      rw [List.getElem?_eq_getElem hlt]
      simp only
      have hm : l[searchAfter l s.hi - 1] ∈ l.take (searchAfter l s.hi) := by
        rw [List.mem_iff_getElem]
        refine ⟨searchAfter l s.hi - 1, by rw [List.length_take]; omega, by rw [List.getElem_take]⟩
      rw [if_pos]
      · rfl
      · rcases ha _ (List.getElem_mem hlt) with h | h
        · exact h
        · have := h1 _ hm
          omega

theorem inOrder_insert {l : List Item} (h : InOrder l) {s : Seg} {n : Nat} (hn : checkOverlap l s = some n) (h1 : 1 ≤ s.lo) (h2 : s.lo ≤ s.hi) {i : Item} (hi : i.seg = s) :
    InOrder (l.take n ++ i :: l.drop n) := by
  obtain ⟨-, ha, hb⟩ := checkOverlap_some h hn
  subst hi
  constructor
  · rw [List.pairwise_append, List.pairwise_cons]
    refine ⟨h.1.sublist (List.take_sublist _ _), ⟨hb, h.1.sublist (List.drop_sublist _ _)⟩, ?_⟩
    intro a hm b hm'
    rcases List.mem_cons.mp hm' with rfl | hm'
    · exact ha a hm
    · have := ha a hm
      have := hb b hm'
      omega
  · intro j hj
    rcases List.mem_append.mp hj with hj | hj
    · exact h.2 j (List.mem_of_mem_take hj)
    · rcases List.mem_cons.mp hj with rfl | hj
      · exact ⟨h1, h2⟩
      · exact h.2 j (List.mem_of_mem_drop hj)

end Verif.Sync
