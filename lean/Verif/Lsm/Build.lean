import Verif.Lsm.Choose

/-! Lemmas about the tables that a compaction writes. -/

namespace Verif.Lsm

variable {K V : Type} [LinearOrder K]

/-- The entries that a compaction keeps. -/
def kept (minSeq : Nat) (base : K → Bool) :
    Option (Entry K V) → List (Entry K V) → List (Entry K V)
  | _, [] => []
  | prev, e :: rest =>
    (if dropped minSeq base prev e then [] else [e]) ++ kept minSeq base (some e) rest

theorem kept_sub (m : Nat) (base : K → Bool) (prev : Option (Entry K V)) (es : List (Entry K V)) :
    (kept m base prev es).Sublist es := by
  induction es generalizing prev with
  | nil => simp [kept]
  | cons e es ih =>
    simp only [kept]
    split
    · exact (ih _).trans (List.sublist_cons_self _ _)
    · simpa using ih _

theorem build_flatten (m : Nat) (base : K → Bool) (stop : Nat → Bool) (es : List (Entry K V))
    (i : Nat) (prev : Option (Entry K V)) (cur : List (Entry K V)) :
    (build m base stop es i prev cur).flatten = cur ++ kept m base prev es := by
  induction es generalizing i prev cur with
  | nil =>
    simp only [build, kept]
    cases cur <;> simp
  | cons e es ih =>
    simp only [build, kept]
    split
    · rw [List.flatten_cons, ih]
    · rw [ih]
      split <;> simp

theorem build_apart (m : Nat) (base : K → Bool) (stop : Nat → Bool) (es : List (Entry K V))
    (i : Nat) (prev : Option (Entry K V)) (cur : List (Entry K V))
    (hs : Sorted (prev.toList ++ es))
    (hc : ∀ x ∈ cur, ∃ p, prev = some p ∧ x.key ≤ p.key) :
    (build m base stop es i prev cur).Pairwise (fun a b => ∀ x ∈ a, ∀ y ∈ b, x.key < y.key) ∧
    ∀ l ∈ build m base stop es i prev cur, l ≠ [] := by
  induction es generalizing i prev cur with
  | nil =>
    simp only [build]
    cases cur <;> simp
  | cons e es ih =>
    have hs' : Sorted ((some e).toList ++ es) := by
      cases prev with
      | none => simpa using hs
      | some p => exact (List.pairwise_cons.1 hs).2
    have hle : ∀ y ∈ e :: es, e.key ≤ y.key := by
      intro y hy
      rcases List.mem_cons.1 hy with rfl | hy
      · exact le_refl _
      · have := (List.pairwise_cons.1 (show List.Pairwise _ (e :: es) from hs')).1 y hy
        rw [prior_iff] at this
        grind
    simp only [build]
    split
    · rename_i hcond
      simp only [Bool.and_eq_true, Bool.not_eq_true', List.isEmpty_eq_false_iff] at hcond
      have hrec := ih (i + 1) (some e) (if dropped m base prev e then [] else [e]) hs' (by
        intro x hx
        split at hx
        · simp at hx
        · simp only [List.mem_singleton] at hx
          subst hx
          exact ⟨x, rfl, le_refl _⟩)
      refine ⟨List.pairwise_cons.2 ⟨fun l hl x hx y hy => ?_, hrec.1⟩, fun l hl => ?_⟩
      · obtain ⟨p, rfl, hxp⟩ := hc x hx
        have hpe := (List.pairwise_cons.1 (show List.Pairwise _ (p :: e :: es) from hs)).1 e
          (by simp)
        rw [prior_iff] at hpe
        have hne : p.key ≠ e.key := by
          have := hcond.1.1
          simpa [fresh] using this
        have hlt : p.key < e.key := by grind
        have hy' : y ∈ (build m base stop es (i + 1) (some e)
            (if dropped m base (some p) e then [] else [e])).flatten :=
          List.mem_flatten.2 ⟨l, hl, hy⟩
        rw [build_flatten] at hy'
        have hye : y ∈ e :: es := by
          rcases List.mem_append.1 hy' with h | h
          · split at h
            · simp at h
            · simp only [List.mem_singleton] at h
              simp [h]
          · exact List.mem_cons_of_mem _ ((kept_sub m base _ es).subset h)
        have := hle y hye
        exact lt_of_le_of_lt hxp (lt_of_lt_of_le hlt this)
      · rcases List.mem_cons.1 hl with rfl | hl
        · exact hcond.1.2
        · exact hrec.2 l hl
    · refine ih (i + 1) (some e) _ hs' (fun x hx => ?_)
      have hxc : ∀ x ∈ cur, x.key ≤ e.key := by
        intro x hx
        obtain ⟨p, rfl, hxp⟩ := hc x hx
        have hpe := (List.pairwise_cons.1 (show List.Pairwise _ (p :: e :: es) from hs)).1 e
          (by simp)
        rw [prior_iff] at hpe
        grind
      split at hx
      · exact ⟨e, rfl, hxc x hx⟩
      · rcases List.mem_append.1 hx with hx | hx
        · exact ⟨e, rfl, hxc x hx⟩
        · simp only [List.mem_singleton] at hx
          subst hx
          exact ⟨x, rfl, le_refl _⟩

theorem dropped_iff (m : Nat) (base : K → Bool) (prev : Option (Entry K V)) (e : Entry K V) :
    dropped m base prev e = true ↔
      (∃ p, prev = some p ∧ p.key = e.key ∧ p.seq ≤ m) ∨
      (e.val = none ∧ e.seq ≤ m ∧ base e.key = true) := by
  cases prev <;> simp [dropped, and_assoc]

/-- What becomes of each entry. -/
theorem kept_or (m : Nat) (base : K → Bool) (prev : Option (Entry K V)) (es : List (Entry K V))
    (hs : Sorted (prev.toList ++ es)) (e : Entry K V) (he : e ∈ es) :
    e ∈ kept m base prev es ∨
    (∃ e' ∈ prev.toList ++ es, e'.key = e.key ∧ e.seq < e'.seq ∧ e'.seq ≤ m) ∨
    (e.val = none ∧ e.seq ≤ m ∧ base e.key = true) := by
  induction es generalizing prev with
  | nil => simp at he
  | cons y es ih =>
    have hs' : Sorted ((some y).toList ++ es) := by
      cases prev with
      | none => simpa using hs
      | some p => exact (List.pairwise_cons.1 hs).2
    rcases List.mem_cons.1 he with rfl | he
    · by_cases hd : dropped m base prev e = true
      · rcases (dropped_iff m base prev e).1 hd with ⟨p, rfl, h1, h2⟩ | h
        · right; left
          have hpe := (List.pairwise_cons.1 (show List.Pairwise _ (p :: e :: es) from hs)).1 e
            (by simp)
          rw [prior_iff] at hpe
          exact ⟨p, by simp, h1, by grind, h2⟩
        · exact .inr (.inr h)
      · left
        simp [kept, hd]
    · rcases ih (some y) hs' he with h | ⟨e', h1, h2⟩ | h
      · left
        simp [kept, h]
      · right; left
        refine ⟨e', ?_, h2⟩
        simp only [Option.toList_some, List.singleton_append] at h1
        exact List.mem_append_right _ h1
      · exact .inr (.inr h)

/-- Below an entry old enough, nothing of its key is kept. -/
theorem kept_above (m : Nat) (base : K → Bool) (prev : Option (Entry K V)) (es : List (Entry K V))
    (hs : Sorted (prev.toList ++ es)) (x e : Entry K V) (hx : x ∈ kept m base prev es)
    (he : e ∈ prev.toList ++ es) (hk : e.key = x.key) (hm : e.seq ≤ m) : e.seq ≤ x.seq := by
  induction es generalizing prev e with
  | nil => simp [kept] at hx
  | cons y es ih =>
    have hs' : Sorted ((some y).toList ++ es) := by
      cases prev with
      | none => simpa using hs
      | some p => exact (List.pairwise_cons.1 hs).2
    have hcons := List.pairwise_cons.1 (show List.Pairwise _ (y :: es) from hs')
    by_contra hlt
    have hlt : x.seq < e.seq := by omega
    simp only [kept, List.mem_append] at hx
    rcases hx with hx | hx
    · split at hx
      · simp at hx
      · rename_i hd
        simp only [List.mem_singleton] at hx
        subst hx
        rcases List.mem_append.1 he with h | h
        · simp only [Option.mem_toList] at h
          exact hd ((dropped_iff m base prev x).2 (.inl ⟨e, h, hk, hm⟩))
        · rcases List.mem_cons.1 h with rfl | h
          · omega
          · have := hcons.1 e h
            rw [prior_iff] at this
            grind
    · rcases List.mem_append.1 he with h | h
      · simp only [Option.mem_toList] at h
        subst h
        have h1 := (List.pairwise_cons.1 (show List.Pairwise _ (e :: y :: es) from hs)).1 y (by simp)
        have h2 := hcons.1 x ((kept_sub m base _ es).subset hx)
        rw [prior_iff] at h1 h2
        have hy : y.key = x.key := by grind
        have h3 := ih (some y) hs' y hx (by simp) hy (by grind)
        grind
      · have h3 := ih (some y) hs' e hx (by simpa using h) hk hm
        omega

theorem sorted_seq_inj {es : List (Entry K V)} (hs : Sorted es) {a b : Entry K V} (ha : a ∈ es)
    (hb : b ∈ es) (hk : a.key = b.key) (hq : a.seq = b.seq) : a = b := by
  induction es with
  | nil => simp at ha
  | cons y es ih =>
    have hc := List.pairwise_cons.1 hs
    rcases List.mem_cons.1 ha with ha' | ha' <;> rcases List.mem_cons.1 hb with hb' | hb'
    · rw [ha', hb']
    · have := hc.1 b hb'
      rw [prior_iff] at this
      grind
    · have := hc.1 a ha'
      rw [prior_iff] at this
      grind
    · exact ih hc.2 ha' hb'

/-- What a compaction as a whole keeps. -/
theorem kept_all (m : Nat) (base : K → Bool) (es : List (Entry K V)) (hs : Sorted es)
    (e : Entry K V) (he : e ∈ es) :
    e ∈ kept m base none es ∨
    (∃ e' ∈ es, e'.key = e.key ∧ e.seq < e'.seq ∧ e'.seq ≤ m) ∨
    (e.val = none ∧ e.seq ≤ m ∧ base e.key = true ∧
      ∀ x ∈ kept m base none es, x.key = e.key → e.seq < x.seq) := by
  by_cases hin : e ∈ kept m base none es
  · exact .inl hin
  · rcases kept_or m base none es (by simpa using hs) e he with h | ⟨e', h1, h2⟩ | ⟨h1, h2, h3⟩
    · exact .inl h
    · exact .inr (.inl ⟨e', by simpa using h1, h2⟩)
    · refine .inr (.inr ⟨h1, h2, h3, fun x hx hk => ?_⟩)
      have hle := kept_above m base none es (by simpa using hs) x e hx (by simpa using he) hk.symm h2
      rcases Nat.lt_or_ge e.seq x.seq with h | h
      · exact h
      · have hx' := (kept_sub m base none es).subset hx
        have := sorted_seq_inj hs hx' he hk (by omega)
        exact absurd (this ▸ hx) hin

theorem le_last {α : Type} {R : α → α → Prop} {l : List α} (h : l.Pairwise R) (hne : l ≠ [])
    (x : α) (hx : x ∈ l) : x = l.getLast hne ∨ R x (l.getLast hne) := by
  rw [← List.dropLast_append_getLast hne] at h hx
  rcases List.mem_append.1 hx with hx | hx
  · exact .inr ((List.pairwise_append.1 h).2.2 x hx _ (by simp))
  · simp only [List.mem_singleton] at hx
    exact .inl hx

theorem mkFile_ok {n : Nat} {es : List (Entry K V)} (hs : Sorted es) :
    ∀ f ∈ mkFile n es, FileOk f ∧ f.es = es ∧ f.num = n := by
  cases es with
  | nil => simp [mkFile]
  | cons e es =>
    simp only [mkFile, List.mem_singleton, forall_eq]
    refine ⟨⟨hs, by simp, by simp, ?_, ?_⟩, by trivial, by trivial⟩
    · intro x hx
      rcases List.mem_cons.1 hx with rfl | hx
      · exact le_refl _
      · have := (List.pairwise_cons.1 hs).1 x hx
        rw [prior_iff] at this
        grind
    · intro x hx
      exact le_last hs (by simp) x hx

omit [LinearOrder K] in
theorem mkFile_entries (n : Nat) (es : List (Entry K V)) (e : Entry K V) :
    InFiles (mkFile n es) e ↔ e ∈ es := by
  cases es <;> simp [mkFile, InFiles]

omit [LinearOrder K] in
theorem mkFiles_mem {n : Nat} {ls : List (List (Entry K V))} {f : File K V}
    (h : f ∈ mkFiles n ls) : ∃ l ∈ ls, ∃ m, n ≤ m ∧ m < n + ls.length ∧ f ∈ mkFile m l := by
  induction ls generalizing n with
  | nil => simp [mkFiles] at h
  | cons l ls ih =>
    simp only [mkFiles, List.mem_append] at h
    rcases h with h | h
    · exact ⟨l, by simp, n, le_refl _, by simp, h⟩
    · obtain ⟨l', h1, m, h2, h3, h4⟩ := ih h
      exact ⟨l', by simp [h1], m, by omega, by simp; omega, h4⟩

omit [LinearOrder K] in
theorem mkFiles_entries (n : Nat) (ls : List (List (Entry K V))) (e : Entry K V) :
    InFiles (mkFiles n ls) e ↔ e ∈ ls.flatten := by
  induction ls generalizing n with
  | nil => simp [mkFiles, InFiles]
  | cons l ls ih =>
    have h1 := mkFile_entries n l e
    have h2 := ih (n + 1)
    simp only [InFiles] at h1 h2
    simp only [mkFiles, InFiles, List.mem_append, List.flatten_cons, or_and_right, exists_or]
    rw [h1, h2]

omit [LinearOrder K] in
theorem mkFiles_length (n : Nat) (ls : List (List (Entry K V))) (hne : ∀ l ∈ ls, l ≠ []) :
    (mkFiles n ls).length = ls.length := by
  induction ls generalizing n with
  | nil => simp [mkFiles]
  | cons l ls ih =>
    have := ih (n + 1) (fun l hl => hne l (by simp [hl]))
    cases l with
    | nil => exact absurd rfl (hne [] (by simp))
    | cons e es => simp [mkFiles, mkFile, this]

theorem mkFiles_ordered (n : Nat) (ls : List (List (Entry K V)))
    (hs : ∀ l ∈ ls, Sorted l)
    (hp : ls.Pairwise (fun a b => ∀ x ∈ a, ∀ y ∈ b, x.key < y.key)) :
    Ordered (mkFiles n ls) ∧ (mkFiles n ls).Pairwise (fun f g => f.num ≠ g.num) := by
  induction ls generalizing n with
  | nil => simp [mkFiles, Ordered]
  | cons l ls ih =>
    have hp' := List.pairwise_cons.1 hp
    have hrec := ih (n + 1) (fun l hl => hs l (by simp [hl])) hp'.2
    have hsingle : ∀ (R : File K V → File K V → Prop), (mkFile n l).Pairwise R := by
      intro R
      cases l <;> simp [mkFile]
    simp only [mkFiles, Ordered]
    refine ⟨List.pairwise_append.2 ⟨hsingle _, hrec.1, fun f hf g hg => ?_⟩,
      List.pairwise_append.2 ⟨hsingle _, hrec.2, fun f hf g hg => ?_⟩⟩
    · obtain ⟨hfo, hfe, _⟩ := mkFile_ok (hs l (by simp)) f hf
      obtain ⟨l', hl', m, _, _, hg'⟩ := mkFiles_mem hg
      obtain ⟨hgo, hge, _⟩ := mkFile_ok (hs l' (by simp [hl'])) g hg'
      exact hp'.1 l' hl' _ (hfe ▸ hfo.hi_mem) _ (hge ▸ hgo.lo_mem)
    · obtain ⟨_, _, hfn⟩ := mkFile_ok (hs l (by simp)) f hf
      obtain ⟨l', hl', m, hm, _, hg'⟩ := mkFiles_mem hg
      obtain ⟨_, _, hgn⟩ := mkFile_ok (hs l' (by simp [hl'])) g hg'
      omega

section
omit [LinearOrder K]

theorem place_perm {α : Type} (le : α → α → Bool) (a : α) (l : List α) :
    (place le a l).Perm (a :: l) := by
  induction l with
  | nil => exact List.Perm.refl _
  | cons b l ih =>
    simp only [place]
    split
    · exact List.Perm.refl _
    · exact (List.Perm.cons b ih).trans (List.Perm.swap a b l)

theorem sortBy_perm {α : Type} (l : List α) (le : α → α → Bool) : (sortBy le l).Perm l := by
  induction l with
  | nil => exact List.Perm.refl _
  | cons a l ih => exact (place_perm le a _).trans (List.Perm.cons a ih)

theorem mem_sortBy {α : Type} {le : α → α → Bool} {l : List α} {x : α} :
    x ∈ sortBy le l ↔ x ∈ l := (sortBy_perm l le).mem_iff

theorem pairwise_sortBy {α : Type} {le : α → α → Bool}
    (trans : ∀ a b c : α, le a b → le b c → le a c) (total : ∀ a b : α, le a b || le b a)
    (l : List α) : (sortBy le l).Pairwise (fun a b => le a b) := by
  induction l with
  | nil => exact List.Pairwise.nil
  | cons a l ih =>
    have h : ∀ m : List α, m.Pairwise (fun a b => le a b = true) →
        (place le a m).Pairwise (fun a b => le a b = true) := by
      intro m hm
      induction m with
      | nil => simp [place]
      | cons b m ihm =>
        obtain ⟨h1, h2⟩ := List.pairwise_cons.1 hm
        simp only [place]
        split
        · rename_i hab
          refine List.pairwise_cons.2 ⟨fun x hx => ?_, hm⟩
          rcases List.mem_cons.1 hx with rfl | hx
          · exact hab
          · exact trans _ _ _ hab (h1 x hx)
        · rename_i hab
          refine List.pairwise_cons.2 ⟨fun x hx => ?_, ihm h2⟩
          rcases List.mem_cons.1 ((place_perm le a m).mem_iff.1 hx) with rfl | hx
          · have := total x b
            simpa [hab] using this
          · exact h1 x hx
    exact h _ ih

end

theorem merge_le_trans (a b c : Entry K V)
    (h : (prior a b || decide (a.key = b.key ∧ a.seq = b.seq)) = true)
    (h' : (prior b c || decide (b.key = c.key ∧ b.seq = c.seq)) = true) :
    (prior a c || decide (a.key = c.key ∧ a.seq = c.seq)) = true := by
  simp only [Bool.or_eq_true, prior_iff, decide_eq_true_eq] at *
  grind

theorem merge_le_total (a b : Entry K V) :
    ((prior a b || decide (a.key = b.key ∧ a.seq = b.seq)) ||
      (prior b a || decide (b.key = a.key ∧ b.seq = a.seq))) = true := by
  simp only [Bool.or_eq_true, prior_iff, decide_eq_true_eq]
  rcases lt_trichotomy a.key b.key with h | h | h <;>
    rcases lt_trichotomy a.seq b.seq with h' | h' | h' <;> grind

theorem merged_sorted (fs : List (File K V))
    (hu : (fs.flatMap (·.es)).Pairwise (fun a b => a.seq ≠ b.seq)) :
    Sorted (mergedEntries fs) := by
  unfold mergedEntries Sorted
  have h1 := pairwise_sortBy (le := fun a b : Entry K V =>
    prior a b || decide (a.key = b.key ∧ a.seq = b.seq)) merge_le_trans merge_le_total
    (fs.flatMap (·.es))
  have h2 := ((sortBy_perm (fs.flatMap (·.es)) (fun a b : Entry K V =>
    prior a b || decide (a.key = b.key ∧ a.seq = b.seq))).pairwise_iff
      (R := fun a b : Entry K V => a.seq ≠ b.seq) (fun h => h.symm)).2 hu
  refine List.Pairwise.imp₂ (fun a b ha hb => ?_) h1 h2
  simp only [Bool.or_eq_true, decide_eq_true_eq] at ha
  rcases ha with ha | ha
  · exact ha
  · exact absurd ha.2 hb

theorem merged_mem (fs : List (File K V)) (e : Entry K V) :
    e ∈ mergedEntries fs ↔ InFiles fs e := by
  simp [mergedEntries, InFiles, mem_sortBy, List.mem_flatMap]

theorem base_none {lev : Nat → List (File K V)} {depth level : Nat} {k : K} (hlev : LevOk lev)
    (hd : ∀ i, depth ≤ i → lev i = []) (hb : baseLevel lev depth level k = true) :
    ∀ i, level + 2 ≤ i → ∀ g ∈ lev i, ∀ x ∈ g.es, x.key ≠ k := by
  rintro i hi g hg x hx rfl
  have hid : i < depth := by
    by_contra h
    rw [hd i (by omega)] at hg
    simp at hg
  simp only [baseLevel, List.all_eq_true, List.mem_range] at hb
  have h1 := hb i hid
  rw [if_pos hi] at h1
  have hgo := hlev.file_ok i g hg
  have hord := hlev.ordered i (by omega)
  have hkh := hgo.key_le hx
  have hkl := hgo.lo_le x hx
  -- the first table not left behind is at or before `g`
  have key : ∀ fs : List (File K V), (∀ f ∈ fs, FileOk f) → Ordered fs → g ∈ fs →
      ∃ t rest, fs.dropWhile (fun t => decide (t.hi.key < x.key)) = t :: rest ∧
        t.lo.key ≤ x.key := by
    intro fs
    induction fs with
    | nil => intro _ _ h; simp at h
    | cons f fs ih =>
      intro hok ho hm
      have hc := List.pairwise_cons.1 ho
      rw [List.dropWhile_cons]
      split
      · rename_i hlt
        simp only [decide_eq_true_eq] at hlt
        rcases List.mem_cons.1 hm with rfl | hm
        · exact absurd hkh (not_le_of_gt hlt)
        · exact ih (fun f hf => hok f (by simp [hf])) hc.2 hm
      · refine ⟨f, fs, rfl, ?_⟩
        rcases List.mem_cons.1 hm with rfl | hm
        · exact hkl
        · have h2 := hc.1 g hm
          have h3 := (hok f (by simp)).lo_le_hi
          exact le_trans h3 (le_trans h2.le hkl)
  obtain ⟨t, rest, ht, hle⟩ := key (lev i) (hlev.file_ok i) hord hg
  rw [ht] at h1
  simp only [decide_eq_true_eq] at h1
  exact absurd hle (not_le_of_gt h1)

end Verif.Lsm
