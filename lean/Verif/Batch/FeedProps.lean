import Verif.Batch.FeedLemmas

/-!
# Properties of inserting chunks -/

namespace Verif.Batch

/-- Blocks that can be inserted in this order: every account block a block refers to is in the ledger or is an account block before it (or a send inside one); the same for the snapshot
block a snapshot block refers to; the blocks of an account, and the snapshot blocks, follow each other, and an account block refers to the one before it; no two blocks have a hash in
common; and the blocks are new. -/
structure Fits (L : Ledger) (ys : List Item) : Prop where
  refs : ∀ pre x post, ys = pre ++ x :: post → ∀ r ∈ x.refs, L.acc r = true ∨ ∃ y ∈ pre, y.owner ≠ none ∧ r ∈ y.keys
  sref : ∀ pre x post, ys = pre ++ x :: post → x.owner = none → ∀ r, x.sref = some r → L.snap r = true ∨ ∃ y ∈ pre, y.owner = none ∧ r ∈ y.keys
  link : ∀ o : Option Nat, (ys.filter fun y => decide (y.owner = o)).IsChain fun x y => x.hash = y.prev ∧ (o ≠ none → x.hash ∈ y.refs)
  own : ∀ x ∈ ys, x.hash ∈ x.keys
  uniq : (ys.flatMap (·.keys)).Nodup
  new : ∀ x ∈ ys, ∀ k ∈ x.keys, L.acc k = false ∧ L.snap k = false

/-- The ledger has grown by these items. -/
structure Grown (L₀ : Ledger) (D : List Item) (L : Ledger) : Prop where
  acc : ∀ k, L.acc k = true ↔ L₀.acc k = true ∨ ∃ y ∈ D, y.owner ≠ none ∧ k ∈ y.keys
  snap : ∀ k, L.snap k = true ↔ L₀.snap k = true ∨ ∃ y ∈ D, y.owner = none ∧ k ∈ y.keys

theorem grown_refl (L : Ledger) : Grown L [] L := ⟨fun k => by simp, fun k => by simp⟩

theorem grown_after {L₀ L : Ledger} {D A B : List Item} (h : Grown L₀ D L) (hp : B.Perm A) : Grown L₀ (D ++ A) (L.after B) := by
  have hany : ∀ p : Item → Bool, B.any p = true ↔ ∃ y ∈ A, p y = true := by
    intro p
    rw [List.any_eq_true]
    exact ⟨fun ⟨y, hy, h⟩ => ⟨y, hp.subset hy, h⟩, fun ⟨y, hy, h⟩ => ⟨y, hp.symm.subset hy, h⟩⟩
  constructor
  · intro k
    simp only [Ledger.after, Bool.or_eq_true, h.acc, hany, Bool.and_eq_true, decide_eq_true_eq, List.mem_append]
    constructor
    · rintro ((h | ⟨y, hy, h1, h2⟩) | ⟨y, hy, h1, h2⟩)
      · exact Or.inl h
      · exact Or.inr ⟨y, Or.inl hy, h1, h2⟩
      · exact Or.inr ⟨y, Or.inr hy, by rintro h; rw [h] at h1; simp at h1, h2⟩
    · rintro (h | ⟨y, hy | hy, h1, h2⟩)
      · exact Or.inl (Or.inl h)
      · exact Or.inl (Or.inr ⟨y, hy, h1, h2⟩)
      · exact Or.inr ⟨y, hy, by rw [Option.isSome_iff_ne_none]; exact h1, h2⟩
  · intro k
    simp only [Ledger.after, Bool.or_eq_true, h.snap, hany, Bool.and_eq_true, decide_eq_true_eq, List.mem_append, Option.isNone_iff_eq_none]
    constructor
    · rintro ((h | ⟨y, hy, h1, h2⟩) | ⟨y, hy, h1, h2⟩)
      · exact Or.inl h
      · exact Or.inr ⟨y, Or.inl hy, h1, h2⟩
      · exact Or.inr ⟨y, Or.inr hy, h1, h2⟩
    · rintro (h | ⟨y, hy | hy, h1, h2⟩)
      · exact Or.inl (Or.inl h)
      · exact Or.inl (Or.inr ⟨y, hy, h1, h2⟩)
      · exact Or.inr ⟨y, hy, h1, h2⟩

/-- Two items with a key in common are the same. -/
theorem uniq_eq {ys : List Item} (h : (ys.flatMap (·.keys)).Nodup) {a b : Item} (ha : a ∈ ys) (hb : b ∈ ys) {k : Nat} (hka : k ∈ a.keys) (hkb : k ∈ b.keys) : a = b := by
  by_contra hne
  have hp := (List.nodup_flatMap.1 h).2
  haveI : Std.Symm (Function.onFun List.Disjoint fun x : Item => x.keys) := ⟨fun _ _ h => List.Disjoint.symm h⟩
  have := hp.forall ha hb hne
  exact this hka hkb

theorem uniq_apart {xs ys : List Item} (h : ((xs ++ ys).flatMap (·.keys)).Nodup) {a b : Item} (ha : a ∈ xs) (hb : b ∈ ys) {k : Nat} (hka : k ∈ a.keys) : k ∉ b.keys := by
  intro hkb
  rw [List.flatMap_append, List.nodup_append] at h
  exact h.2.2 k (List.mem_flatMap.2 ⟨a, ha, hka⟩) k (List.mem_flatMap.2 ⟨b, hb, hkb⟩) rfl

/-- The next item of a list that fits: it may come next, and its blocks are there. -/
theorem fits_next {L₀ L : Ledger} {D A R : List Item} {x : Item} (hf : Fits L₀ (D ++ A ++ x :: R)) (hL : Grown L₀ D L) : Near L A x ∧ Avail L A x := by
  have hxm : x ∈ D ++ A ++ x :: R := by simp
  have hAm : ∀ y ∈ A, y ∈ D ++ A ++ x :: R := fun y hy => by simp [hy]
  have hDm : ∀ y ∈ D, y ∈ D ++ A ++ x :: R := fun y hy => by simp [hy]
  refine ⟨⟨?_, ?_, hf.own x hxm, ?_⟩, ⟨?_, ?_⟩⟩
  · intro _ r hr y hy hyn hk
    rcases hf.refs (D ++ A) x R rfl r hr with h | ⟨y', hy', h1, h2⟩
    · rw [(hf.new y (hAm y hy) r hk).1] at h; simp at h
    · have hy'm : y' ∈ D ++ A ++ x :: R := List.mem_append_left _ hy'
      have := uniq_eq hf.uniq (hAm y hy) hy'm hk h2
      subst this
      exact h1 hyn
  · intro z hz
    have hzA := lastOf_mem hz
    have hch := hf.link x.owner
    rw [List.filter_append, List.filter_append, List.filter_cons_of_pos (by simp), List.append_assoc] at hch
    have hch2 := (List.isChain_append.1 hch).2.1
    have hR := (List.isChain_append.1 hch2).2.2 z (by unfold lastOf at hz; rw [hz]; rfl) x (by simp)
    refine ⟨hR.1, fun ho => ⟨hR.2 ho, ?_⟩⟩
    by_contra hc
    rw [Bool.not_eq_false, hL.acc] at hc
    rcases hc with h | ⟨y, hy, -, hk⟩
    · rw [(hf.new z (hAm z hzA.1) z.hash (hf.own z (hAm z hzA.1))).1] at h; simp at h
    · have hu := hf.uniq
      rw [List.append_assoc] at hu
      exact uniq_apart hu hy (List.mem_append_left _ hzA.1) hk (hf.own z (hAm z hzA.1))
  · intro y hy hk
    exact uniq_apart hf.uniq (List.mem_append_right D hy) (List.mem_cons_self (a := x) (l := R)) (hf.own y (hAm y hy)) hk
  · intro r hr
    rcases hf.refs (D ++ A) x R rfl r hr with h | ⟨y, hy, h1, h2⟩
    · exact Or.inl ((hL.acc r).2 (Or.inl h))
    · rcases List.mem_append.1 hy with hy | hy
      · exact Or.inl ((hL.acc r).2 (Or.inr ⟨y, hy, h1, h2⟩))
      · exact Or.inr ⟨y, hy, h2⟩
  · intro ho r hr
    rcases hf.sref (D ++ A) x R rfl ho r hr with h | ⟨y, hy, h1, h2⟩
    · exact Or.inl ((hL.snap r).2 (Or.inl h))
    · rcases List.mem_append.1 hy with hy | hy
      · exact Or.inl ((hL.snap r).2 (Or.inr ⟨y, hy, h1, h2⟩))
      · exact Or.inr ⟨y, hy, h2⟩

/-- What the batches that were inserted are like: whatever the interleaving, every block comes after the blocks it refers to. -/
def Ordered (L : Ledger) (bs : List St) : Prop :=
  ∀ pre b post, bs = pre ++ b :: post → ∀ t e, Run b.ls t e → ∀ p x q, t = p ++ x :: q →
    (∀ r ∈ x.refs, L.acc r = true ∨ ∃ y ∈ pre.flatMap St.items ++ p, r ∈ y.keys) ∧
      (x.owner = none → ∀ r, x.sref = some r → L.snap r = true ∨ ∃ y ∈ pre.flatMap St.items ++ p, r ∈ y.keys)

theorem ordered_snoc {L₀ L : Ledger} {bs : List St} {D A : List Item} {s : St} (h : Ordered L₀ bs) (hD : (bs.flatMap St.items).Perm D) (hL : Grown L₀ D L) (hc : Core L s A) :
    Ordered L₀ (bs ++ [s]) := by
  intro pre b post hbs t e hr p x q ht
  rcases List.append_eq_append_iff.1 hbs with ⟨c, hc1, hc2⟩ | ⟨c, hc1, hc2⟩
  · have : c = [] ∧ b = s ∧ post = [] := by
      cases c with
      | nil => simp at hc2; exact ⟨rfl, hc2.1.symm, hc2.2⟩
      | cons d c => simp at hc2
    obtain ⟨rfl, rfl, rfl⟩ := this
    rw [List.append_nil] at hc1
    subst hc1
    have hav := run_avail hr [] (fun i l hl => ⟨hc.form i l hl, fun o b hb b₁ z b₂ hz => by simpa using hc.order i l hl o b hb b₁ z b₂ hz⟩) p x q ht
    rw [List.nil_append] at hav
    refine ⟨fun r hr => ?_, fun ho r hr => ?_⟩
    · rcases hav.1 r hr with h | ⟨y, hy, hk⟩
      · rcases (hL.acc r).1 h with h | ⟨y, hy, -, hk⟩
        · exact Or.inl h
        · exact Or.inr ⟨y, List.mem_append_left _ (hD.symm.subset hy), hk⟩
      · exact Or.inr ⟨y, List.mem_append_right _ hy, hk⟩
    · rcases hav.2 ho r hr with h | ⟨y, hy, hk⟩
      · rcases (hL.snap r).1 h with h | ⟨y, hy, -, hk⟩
        · exact Or.inl h
        · exact Or.inr ⟨y, List.mem_append_left _ (hD.symm.subset hy), hk⟩
      · exact Or.inr ⟨y, List.mem_append_right _ hy, hk⟩
  · cases c with
    | nil =>
      simp at hc2
      have : b = s := by simpa using hc2.1
      subst this
      rw [List.append_nil] at hc1
      subst hc1
      obtain ⟨-, hp⟩ := hc2
      have hav := run_avail hr [] (fun i l hl => ⟨hc.form i l hl, fun o b hb b₁ z b₂ hz => by simpa using hc.order i l hl o b hb b₁ z b₂ hz⟩) p x q ht
      rw [List.nil_append] at hav
      refine ⟨fun r hr => ?_, fun ho r hr => ?_⟩
      · rcases hav.1 r hr with h | ⟨y, hy, hk⟩
        · rcases (hL.acc r).1 h with h | ⟨y, hy, -, hk⟩
          · exact Or.inl h
          · exact Or.inr ⟨y, List.mem_append_left _ (hD.symm.subset hy), hk⟩
        · exact Or.inr ⟨y, List.mem_append_right _ hy, hk⟩
      · rcases hav.2 ho r hr with h | ⟨y, hy, hk⟩
        · rcases (hL.snap r).1 h with h | ⟨y, hy, -, hk⟩
          · exact Or.inl h
          · exact Or.inr ⟨y, List.mem_append_left _ (hD.symm.subset hy), hk⟩
        · exact Or.inr ⟨y, List.mem_append_right _ hy, hk⟩
    | cons d c =>
      simp only [List.cons_append, List.cons.injEq] at hc2
      obtain ⟨rfl, hp⟩ := hc2
      exact h pre b c hc1 t e hr p x q ht

/-- What feeding blocks comes to. -/
theorem feed_spec (fine : St → Bool) {cap : Nat} (hcap : 0 < cap) {L₀ : Ledger} (xs : List Item) :
    ∀ (L : Ledger) (s : St) (acc : List St) (D A : List Item), Good L s A → Grown L₀ D L → (acc.flatMap St.items).Perm D → Ordered L₀ acc →
      (∀ b ∈ acc, fine b = true) →
      Fits L₀ (D ++ A ++ xs.filter fun x => !L₀.has x) →
      (∃ bs, feed fine cap L s xs acc = .done bs ∧ (bs.flatMap St.items).Perm (D ++ A ++ xs.filter fun x => !L₀.has x) ∧ Ordered L₀ bs ∧ ∀ b ∈ bs, fine b = true) ∨
        ∃ bs b, feed fine cap L s xs acc = .failed bs ∧ fine b = false ∧ Ordered L₀ (bs ++ [b]) ∧ (∀ b ∈ bs, fine b = true) ∧
          ∃ E, ((bs ++ [b]).flatMap St.items).Perm E ∧ E <+: (D ++ A ++ xs.filter fun x => !L₀.has x) := by
  induction xs with
  | nil =>
    intro L s acc D A hg hL hD hO hfi hf
    have hperm : (s.items).Perm A := hg.core.perm
    unfold feed
    simp only [List.filter_nil, List.append_nil]
    cases he : s.items.isEmpty with
    | true =>
      rw [List.isEmpty_iff] at he
      rw [he] at hperm
      have hA : A = [] := hperm.symm.eq_nil
      subst hA
      exact Or.inl ⟨acc, by simp, by simpa using hD, hO, hfi⟩
    | false =>
      have hO' := ordered_snoc hO hD hL hg.core
      cases hfine : fine s with
      | true =>
        refine Or.inl ⟨acc ++ [s], by simp, ?_, hO', ?_⟩
        · rw [List.flatMap_append]
          exact hD.append (by simpa using hperm)
        · intro b hb
          rcases List.mem_append.1 hb with hb | hb
          · exact hfi b hb
          · rw [List.mem_singleton] at hb; rw [hb]; exact hfine
      | false =>
        refine Or.inr ⟨acc, s, by simp, hfine, hO', hfi, D ++ A, ?_, List.prefix_rfl⟩
        rw [List.flatMap_append]
        exact hD.append (by simpa using hperm)
  | cons x xs ih =>
    intro L s acc D A hg hL hD hO hfi hf
    have hperm : (s.items).Perm A := hg.core.perm
    unfold feed
    cases hhas : L₀.has x with
    | true =>
      have : L.has x = true := by
        unfold Ledger.has at hhas ⊢
        split at hhas
        · rename_i ho
          rw [if_pos ho]; exact (hL.snap _).2 (Or.inl hhas)
        · rename_i ho
          rw [if_neg ho]; exact (hL.acc _).2 (Or.inl hhas)
      rw [if_pos this]
      rw [List.filter_cons_of_neg (by simp [hhas])] at hf ⊢
      exact ih L s acc D A hg hL hD hO hfi hf
    | false =>
      rw [List.filter_cons_of_pos (by simp [hhas])] at hf ⊢
      have hxm : x ∈ D ++ A ++ x :: xs.filter fun x => !L₀.has x := by simp
      have : L.has x = false := by
        by_contra hc
        rw [Bool.not_eq_false] at hc
        unfold Ledger.has at hc
        have hown := hf.own x hxm
        have hu := hf.uniq
        rw [List.append_assoc] at hu
        split at hc
        · rcases (hL.snap _).1 hc with h | ⟨y, hy, -, hk⟩
          · rw [(hf.new x hxm x.hash hown).2] at h; simp at h
          · exact uniq_apart hu hy (b := x) (by simp) hk hown
        · rcases (hL.acc _).1 hc with h | ⟨y, hy, -, hk⟩
          · rw [(hf.new x hxm x.hash hown).1] at h; simp at h
          · exact uniq_apart hu hy (b := x) (by simp) hk hown
      rw [if_neg (by simp [this])]
      obtain ⟨hnear, hav⟩ := fits_next hf hL
      rcases fit_taken hg hnear hav with ⟨s', hadd, hg'⟩ | hadd
      · rw [hadd]
        dsimp only
        have hre : D ++ A ++ x :: (xs.filter fun x => !L₀.has x) = D ++ (A ++ [x]) ++ xs.filter fun x => !L₀.has x := by simp
        rw [hre] at hf ⊢
        exact ih L s' acc D (A ++ [x]) hg' hL hD hO hfi hf
      · rw [hadd]
        dsimp only
        have hO' := ordered_snoc hO hD hL hg.core
        cases hfine : fine s with
        | false =>
          rw [if_neg (by simp)]
          refine Or.inr ⟨acc, s, rfl, hfine, hO', hfi, D ++ A, ?_, List.prefix_append _ _⟩
          rw [List.flatMap_append]
          exact hD.append (by simpa using hperm)
        | true =>
          rw [if_pos rfl]
          have hL' : Grown L₀ (D ++ A) (L.after s.items) := grown_after hL hperm
          have hre : D ++ A ++ x :: (xs.filter fun x => !L₀.has x) = (D ++ A) ++ [] ++ x :: xs.filter fun x => !L₀.has x := by simp
          rw [hre] at hf
          obtain ⟨hnear', hav'⟩ := fits_next hf hL'
          rcases fit_taken (good_new _ hcap) hnear' hav' with ⟨s', hadd', hg'⟩ | hadd'
          · rw [hadd']
            dsimp only
            rw [List.nil_append] at hg'
            have hre : D ++ A ++ x :: (xs.filter fun x => !L₀.has x) = (D ++ A) ++ [x] ++ xs.filter fun x => !L₀.has x := by simp
            have hre2 : (D ++ A) ++ [] ++ x :: (xs.filter fun x => !L₀.has x) = (D ++ A) ++ [x] ++ xs.filter fun x => !L₀.has x := by simp
            rw [hre2] at hf
            rw [hre]
            refine ih _ s' (acc ++ [s]) (D ++ A) [x] hg' hL' ?_ hO' ?_ hf
            · rw [List.flatMap_append]
              exact hD.append (by simpa using hperm)
            · intro b hb
              rcases List.mem_append.1 hb with hb | hb
              · exact hfi b hb
              · rw [List.mem_singleton] at hb; rw [hb]; exact hfine
          · exact absurd hadd' (new_room hcap hav')

/-! ## Sorting keeps what fits -/

/-- Every block stands after the blocks of the list it refers to. -/
def BlocksInOrder (xs : List Item) : Prop := ∀ pre x post, xs = pre ++ x :: post → ∀ r ∈ x.refs, (∃ y ∈ xs, r ∈ y.keys) → ∃ y ∈ pre, r ∈ y.keys

theorem blocksInOrder_nodes {xs : List Item} : BlocksInOrder xs ↔ InOrder (xs.map nodeOf) := by
  constructor
  · intro h pre n post hs k hk hex
    obtain ⟨p, r, hxs, rfl, hr⟩ := List.map_eq_append_iff.1 hs
    obtain ⟨x, q, rfl, rfl, rfl⟩ := List.map_eq_cons_iff.1 hr
    obtain ⟨m, hm, hkm⟩ := hex
    obtain ⟨y, hy, rfl⟩ := List.mem_map.1 hm
    obtain ⟨z, hz, hkz⟩ := h p x q hxs k hk ⟨y, hy, hkm⟩
    exact ⟨nodeOf z, List.mem_map.2 ⟨z, hz, rfl⟩, hkz⟩
  · intro h pre x post hs r hr hex
    obtain ⟨y, hy, hk⟩ := hex
    obtain ⟨m, hm, hkm⟩ := h (pre.map nodeOf) (nodeOf x) (post.map nodeOf) (by rw [hs]; simp) r hr ⟨nodeOf y, List.mem_map.2 ⟨y, hy, rfl⟩, hk⟩
    obtain ⟨z, hz, rfl⟩ := List.mem_map.1 hm
    exact ⟨z, hz, hkm⟩

/-- Blocks that can be sorted are. -/
theorem sortBlocks_done {xs o : List Item} (hid : (xs.map (·.hash)).Nodup) (hu : (xs.flatMap (·.keys)).Nodup) (ho : o.Perm xs) (hord : BlocksInOrder o) :
    ∃ r, sortBlocks xs = .done r ∧ r.Perm xs ∧ BlocksInOrder r := by
  have hnd : ((xs.map nodeOf).map (·.id)).Nodup := by simpa [List.map_map, Function.comp_def, nodeOf] using hid
  obtain ⟨r', hr'⟩ := topo_complete (ns := xs.map nodeOf) hnd (by
    intro a ha b hb k hka hkb
    obtain ⟨x, hx, rfl⟩ := List.mem_map.1 ha
    obtain ⟨y, hy, rfl⟩ := List.mem_map.1 hb
    rw [uniq_eq hu hx hy hka hkb]) (ho.map nodeOf) (blocksInOrder_nodes.1 hord)
  have hprop := (topo_ordered hnd).2 r' hr'
  unfold topoSort at hr'
  rw [List.length_map] at hr'
  unfold sortBlocks
  cases hro : rounds xs.length ([], graphOf (xs.map nodeOf)) with
  | cycle => rw [hro] at hr'; simp at hr'
  | panic => rw [hro] at hr'; simp at hr'
  | done l =>
    rw [hro] at hr'
    simp only [Sorted.done.injEq] at hr'
    refine ⟨_, rfl, List.perm_insertionSort _ _, ?_⟩
    rw [blocksInOrder_nodes]
    have hmap := List.map_insertionSort (r := fun a b : Item => indexIn l (nodeOf a) ≤ indexIn l (nodeOf b)) (s := fun a b : Node => indexIn l a ≤ indexIn l b) nodeOf xs
      (fun a _ b _ => Iff.rfl)
    rw [hmap, hr']
    exact hprop.2

/-- In a list without duplicates the places go up. -/
theorem idx_pairwise {r : List Item} (h : r.Nodup) : r.Pairwise fun a b => r.idxOf a < r.idxOf b := by
  rw [List.pairwise_iff_getElem]
  intro i j hi hj hij
  rw [List.Nodup.idxOf_getElem h i hi, List.Nodup.idxOf_getElem h j hj]
  exact hij

theorem uniq_nodup {xs : List Item} (h : (xs.flatMap (·.keys)).Nodup) (hown : ∀ x ∈ xs, x.hash ∈ x.keys) : xs.Nodup := by
  induction xs with
  | nil => exact List.nodup_nil
  | cons x xs ih =>
    rw [List.nodup_cons]
    refine ⟨fun hx => ?_, ih (by rw [List.flatMap_cons, List.nodup_append] at h; exact h.2.1) fun y hy => hown y (List.mem_cons_of_mem _ hy)⟩
    have hx1 : x.hash ∈ x.keys := hown x (by simp)
    exact uniq_apart (xs := [x]) (ys := xs) (by simpa using h) (List.mem_singleton.2 rfl) hx hx1 hx1

/-- The blocks of an account stay in their order. -/
theorem filter_same {o r : List Item} (hp : r.Perm o) (hu : (o.flatMap (·.keys)).Nodup) (hown : ∀ x ∈ o, x.hash ∈ x.keys) (hord : BlocksInOrder r) (a : Option Nat) (ha : a ≠ none)
    (hch : (o.filter fun y => decide (y.owner = a)).IsChain fun x y => x.hash = y.prev ∧ (a ≠ none → x.hash ∈ y.refs)) :
    (r.filter fun y => decide (y.owner = a)) = o.filter fun y => decide (y.owner = a) := by
  have hur : (r.flatMap (·.keys)).Nodup := (hp.flatMap_right _).nodup_iff.2 hu
  have hrnd : r.Nodup := uniq_nodup hur fun x hx => hown x (hp.subset hx)
  have hr : (r.filter fun y => decide (y.owner = a)).Pairwise fun x y => r.idxOf x < r.idxOf y := (idx_pairwise hrnd).sublist List.filter_sublist
  have ho : (o.filter fun y => decide (y.owner = a)).Pairwise fun x y => r.idxOf x < r.idxOf y := by
    haveI : IsTrans Item (fun x y => r.idxOf x < r.idxOf y) := ⟨fun _ _ _ h1 h2 => Nat.lt_trans h1 h2⟩
    rw [← List.isChain_iff_pairwise]
    have hmem : ∀ x ∈ o.filter fun y => decide (y.owner = a), x ∈ o := fun x hx => (List.mem_filter.1 hx).1
    generalize (o.filter fun y => decide (y.owner = a)) = u at hch hmem
    induction u with
    | nil => exact List.isChain_nil
    | cons x u ih =>
      cases u with
      | nil => exact List.isChain_singleton _
      | cons y u =>
        rw [List.isChain_cons_cons] at hch ⊢
        refine ⟨?_, ih hch.2 fun z hz => hmem z (List.mem_cons_of_mem _ hz)⟩
        have hxo := hmem x (by simp)
        have hyo := hmem y (by simp)
        obtain ⟨r₁, r₂, hrs⟩ := List.append_of_mem (hp.symm.subset hyo)
        obtain ⟨z, hz, hk⟩ := hord r₁ y r₂ hrs x.hash (hch.1.2 ha) ⟨x, hp.symm.subset hxo, hown x hxo⟩
        have hzr : z ∈ r := by rw [hrs]; exact List.mem_append_left _ hz
        have hzx : z = x := uniq_eq hur hzr (hp.symm.subset hxo) hk (hown x hxo)
        subst hzx
        have hynot : y ∉ r₁ := by
          intro hy1
          rw [hrs] at hrnd
          exact (List.nodup_append.1 hrnd).2.2 y hy1 y (by simp) rfl
        rw [hrs, List.idxOf_append_of_mem hz, List.idxOf_append_of_notMem hynot]
        have := List.idxOf_lt_length_of_mem hz
        omega
  refine List.Perm.eq_of_pairwise (fun x y _ _ h1 h2 => ?_) hr ho (hp.filter _)
  omega

/-- Blocks stay insertable when some account blocks that stand together are put in another order in which every block comes after those it refers to. -/
theorem fits_reorder {L : Ledger} {P o r S : List Item} (hf : Fits L (P ++ o ++ S)) (hp : r.Perm o) (hacc : ∀ x ∈ o, x.owner ≠ none) (hord : BlocksInOrder r) : Fits L (P ++ r ++ S) := by
  have hperm : (P ++ r ++ S).Perm (P ++ o ++ S) := (hp.append_left P).append_right S
  have hom : ∀ x ∈ o, x ∈ P ++ o ++ S := fun x hx => by simp [hx]
  have hsplit : ∀ pre x post, P ++ r ++ S = pre ++ x :: post →
      (∃ t, P = pre ++ x :: t) ∨ (∃ r₁ r₂, r = r₁ ++ x :: r₂ ∧ pre = P ++ r₁) ∨ ∃ S₁ S₂, S = S₁ ++ x :: S₂ ∧ pre = P ++ r ++ S₁ := by
    intro pre x post h
    rw [List.append_assoc] at h
    rcases List.append_eq_append_iff.1 h with ⟨c, hc1, hc2⟩ | ⟨c, hc1, hc2⟩
    · rcases List.append_eq_append_iff.1 hc2 with ⟨d, hd1, hd2⟩ | ⟨d, hd1, hd2⟩
      · exact Or.inr (Or.inr ⟨d, post, hd2, by rw [hc1, hd1, List.append_assoc]⟩)
      · cases d with
        | nil => exact Or.inr (Or.inr ⟨[], post, by simpa using hd2.symm, by rw [hc1]; simp at hd1; simp [hd1]⟩)
        | cons e d =>
          simp only [List.cons_append, List.cons.injEq] at hd2
          obtain ⟨rfl, -⟩ := hd2
          exact Or.inr (Or.inl ⟨c, d, hd1, hc1⟩)
    · cases c with
      | nil =>
        rw [List.append_nil] at hc1
        subst hc1
        simp only [List.nil_append] at hc2
        cases hr : r with
        | nil =>
          rw [hr] at hc2
          exact Or.inr (Or.inr ⟨[], post, by simpa using hc2.symm, by simp⟩)
        | cons e r' =>
          rw [hr] at hc2
          simp only [List.cons_append, List.cons.injEq] at hc2
          obtain ⟨rfl, -⟩ := hc2
          exact Or.inr (Or.inl ⟨[], r', rfl, by simp⟩)
      | cons e c =>
        simp only [List.cons_append, List.cons.injEq] at hc2
        obtain ⟨rfl, -⟩ := hc2
        exact Or.inl ⟨c, hc1⟩
  refine ⟨?_, ?_, ?_, ?_, ?_, ?_⟩
  · intro pre x post hs k hk
    rcases hsplit pre x post hs with ⟨t, ht⟩ | ⟨r₁, r₂, hr, rfl⟩ | ⟨S₁, S₂, hS, rfl⟩
    · exact hf.refs pre x (t ++ o ++ S) (by rw [ht]; simp) k hk
    · have hxo : x ∈ o := hp.subset (by rw [hr]; simp)
      obtain ⟨o₁, o₂, ho⟩ := List.append_of_mem hxo
      rcases hf.refs (P ++ o₁) x (o₂ ++ S) (by rw [ho]; simp) k hk with h | ⟨y, hy, h1, h2⟩
      · exact Or.inl h
      · rcases List.mem_append.1 hy with hy | hy
        · exact Or.inr ⟨y, List.mem_append_left _ hy, h1, h2⟩
        · have hyr : y ∈ r := hp.symm.subset (by rw [ho]; exact List.mem_append_left _ hy)
          obtain ⟨z, hz, hkz⟩ := hord r₁ x r₂ hr k hk ⟨y, hyr, h2⟩
          exact Or.inr ⟨z, List.mem_append_right _ hz, hacc z (hp.subset (by rw [hr]; exact List.mem_append_left _ hz)), hkz⟩
    · rcases hf.refs (P ++ o ++ S₁) x S₂ (by rw [hS]; simp) k hk with h | ⟨y, hy, h1, h2⟩
      · exact Or.inl h
      · refine Or.inr ⟨y, ?_, h1, h2⟩
        simp only [List.mem_append] at hy ⊢
        rcases hy with (hy | hy) | hy
        · exact Or.inl (Or.inl hy)
        · exact Or.inl (Or.inr (hp.symm.subset hy))
        · exact Or.inr hy
  · intro pre x post hs hx k hk
    rcases hsplit pre x post hs with ⟨t, ht⟩ | ⟨r₁, r₂, hr, rfl⟩ | ⟨S₁, S₂, hS, rfl⟩
    · exact hf.sref pre x (t ++ o ++ S) (by rw [ht]; simp) hx k hk
    · exact absurd hx (hacc x (hp.subset (by rw [hr]; simp)))
    · rcases hf.sref (P ++ o ++ S₁) x S₂ (by rw [hS]; simp) hx k hk with h | ⟨y, hy, h1, h2⟩
      · exact Or.inl h
      · refine Or.inr ⟨y, ?_, h1, h2⟩
        simp only [List.mem_append] at hy ⊢
        rcases hy with (hy | hy) | hy
        · exact Or.inl (Or.inl hy)
        · exact Or.inl (Or.inr (hp.symm.subset hy))
        · exact Or.inr hy
  · intro a
    have hl := hf.link a
    rw [List.filter_append, List.filter_append] at hl ⊢
    by_cases ha : a = none
    · subst ha
      have h1 : (o.filter fun y => decide (y.owner = none)) = [] := List.filter_eq_nil_iff.2 fun x hx => by simpa using hacc x hx
      have h2 : (r.filter fun y => decide (y.owner = none)) = [] := List.filter_eq_nil_iff.2 fun x hx => by simpa using hacc x (hp.subset hx)
      rw [h1] at hl
      rw [h2]; exact hl
    · rw [filter_same hp ?_ (fun x hx => hf.own x (hom x hx)) hord a ha ?_]
      · exact hl
      · have := hf.uniq
        rw [List.flatMap_append, List.flatMap_append, List.nodup_append, List.nodup_append] at this
        exact this.1.2.1
      · exact (List.isChain_append.1 (List.isChain_append.1 hl).1).2.1
  · exact fun x hx => hf.own x (hperm.subset hx)
  · exact (hperm.flatMap_right _).nodup_iff.2 hf.uniq
  · exact fun x hx => hf.new x (hperm.subset hx)

/-! ## Chunks -/

/-- Chunks whose account blocks are also given in some order, in which every block comes after the blocks of the chunk it refers to. -/
inductive Sortable : List Piece → List Item → Prop
  | nil : Sortable [] []
  | cons {p : Piece} {ps : List Piece} {o l : List Item} : o.Perm p.accs → BlocksInOrder o → (∀ x ∈ p.accs, x.owner ≠ none) → (p.accs.map (·.hash)).Nodup → (p.accs.flatMap (·.keys)).Nodup →
      Sortable ps l → Sortable (p :: ps) (o ++ p.snap.toList ++ l)

theorem filter_inOrder {r : List Item} (hu : (r.flatMap (·.keys)).Nodup) (h : BlocksInOrder r) (f : Item → Bool) : BlocksInOrder (r.filter f) := by
  intro pre x post hs k hk hex
  obtain ⟨y, hy, hky⟩ := hex
  obtain ⟨l₁, l₂, hr, h1, h2⟩ := List.filter_eq_append_iff.1 hs
  obtain ⟨m₁, m₂, hl2, h3, h4, h5⟩ := List.filter_eq_cons_iff.1 h2
  have hrs : r = (l₁ ++ m₁) ++ x :: m₂ := by rw [hr, hl2]; simp
  have hyr : y ∈ r := (List.mem_filter.1 hy).1
  obtain ⟨z, hz, hkz⟩ := h (l₁ ++ m₁) x m₂ hrs k hk ⟨y, hyr, hky⟩
  have hzy : z = y := uniq_eq hu (by rw [hrs]; exact List.mem_append_left _ hz) hyr hkz hky
  subst hzy
  have hfz := (List.mem_filter.1 hy).2
  refine ⟨z, ?_, hkz⟩
  rw [← h1]
  rcases List.mem_append.1 hz with hz | hz
  · exact List.mem_filter.2 ⟨hz, hfz⟩
  · exact absurd hfz (h3 z hz)

theorem line_done {L : Ledger} {ps : List Piece} {l : List Item} (h : Sortable ps l) : ∀ P : List Item, Fits L (P ++ l.filter fun x => !L.has x) →
    ∃ xs, line ps = .done xs ∧ xs.Perm l ∧ Fits L (P ++ xs.filter fun x => !L.has x) := by
  induction h with
  | nil => intro P hf; exact ⟨[], rfl, List.Perm.refl _, hf⟩
  | @cons p ps o l hp hord hacc hid hu _ ih =>
    intro P hf
    obtain ⟨r, hr, hrp, hrord⟩ := sortBlocks_done hid hu hp hord
    have hro : r.Perm o := hrp.trans hp.symm
    have hur : (r.flatMap (·.keys)).Nodup := (hrp.flatMap_right _).nodup_iff.2 hu
    have hf1 : Fits L (P ++ (r.filter fun x => !L.has x) ++ ((p.snap.toList ++ l).filter fun x => !L.has x)) := by
      refine fits_reorder (o := o.filter fun x => !L.has x) ?_ (hro.filter _) (fun x hx => hacc x (hp.subset (List.mem_filter.1 hx).1)) (filter_inOrder hur hrord _)
      simpa [List.filter_append, List.append_assoc] using hf
    obtain ⟨xs, h1, h2, h3⟩ := ih (P ++ (r.filter fun x => !L.has x) ++ p.snap.toList.filter fun x => !L.has x) (by simpa [List.filter_append, List.append_assoc] using hf1)
    refine ⟨r ++ p.snap.toList ++ xs, ?_, ?_, ?_⟩
    · unfold line
      rw [hr, h1]
    · exact (hro.append_right _).append h2
    · simpa [List.filter_append, List.append_assoc] using h3

/-- **C92.** Chunks whose new blocks can be inserted in some order, chunk by chunk, are inserted in full: whatever the order in which the blocks of a chunk came and however many levels
they need, no block is refused and the program does not panic. Every new block is in exactly one of the batches, and when these are inserted, with whatever interleaving, every
block comes after the blocks it refers to. The only thing that can go wrong is that a batch cannot be inserted; then the batches tried so far hold only blocks of the chunks. -/
theorem chunks_inserted (fine : St → Bool) (L : Ledger) {ps : List Piece} {l : List Item} (h : Sortable ps l) (hf : Fits L (l.filter fun x => !L.has x)) :
    (∃ bs, insertChunks fine L ps = .done bs ∧ (bs.flatMap St.items).Perm (l.filter fun x => !L.has x) ∧ Ordered L bs ∧ ∀ b ∈ bs, fine b = true) ∨
      ∃ bs b, insertChunks fine L ps = .failed bs ∧ fine b = false ∧ Ordered L (bs ++ [b]) ∧ (∀ b ∈ bs, fine b = true) ∧
        ((bs ++ [b]).flatMap St.items).Subperm (l.filter fun x => !L.has x) := by
  obtain ⟨xs, h1, h2, h3⟩ := line_done h [] hf
  rw [List.nil_append] at h3
  have := feed_spec fine (cap := 50) (by omega) (L₀ := L) xs L (newBatch 50) [] [] [] (good_new L (by omega)) (grown_refl L) (List.Perm.refl _)
    (fun pre b post hb => by simp at hb) (by simp) (by simpa using h3)
  unfold insertChunks
  rw [h1]
  dsimp only
  rcases this with ⟨bs, g1, g2, g3, g4⟩ | ⟨bs, b, g1, g2, g3, g4, E, g5, g6⟩
  · exact Or.inl ⟨bs, g1, List.Perm.trans (by simpa using g2) (h2.filter _), g3, g4⟩
  · refine Or.inr ⟨bs, b, g1, g2, g3, g4, ?_⟩
    have : E.Subperm (xs.filter fun x => !L.has x) := (by simpa using g6 : E <+: _).sublist.subperm
    exact g5.subperm.trans (this.trans (h2.filter _).subperm)

end Verif.Batch
