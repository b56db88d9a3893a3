import Verif.Sync.SkelModel

/-!
# A majority of peers decides where a node goes

Property C86. -/

namespace Verif.Sync

/-- The hashes of a list of points. -/
def hashes (l : List Point) : List Nat := l.map (·.hash)

/-! ## The tree -/

/-- The tree holds exactly who sent which path. -/
structure TreeOf (t : List TNode) (C : List Nat → Nat → Prop) (S : Point → Prop) : Prop where
  uniq : t.Pairwise (fun n m => n.path ≠ m.path)
  ends : ∀ n ∈ t, ∃ r, n.path = r ++ [n.point.hash]
  nodup : ∀ n ∈ t, n.ps.Nodup
  who : ∀ n ∈ t, ∀ q, q ∈ n.ps ↔ C n.path q
  has : ∀ π q, C π q → ∃ n ∈ t, n.path = π
  src : ∀ n ∈ t, S n.point

theorem treeOf_nil : TreeOf [] (fun _ _ => False) (fun _ => False) := ⟨.nil, by simp, by simp, by simp, by simp, by simp⟩

theorem TreeOf.congr {t : List TNode} {C D : List Nat → Nat → Prop} {S T : Point → Prop} (h : TreeOf t C S) (hC : ∀ π q, C π q ↔ D π q) (hS : ∀ p, S p → T p) : TreeOf t D T :=
  ⟨h.uniq, h.ends, h.nodup, fun n hn q => (h.who n hn q).trans (hC _ _), fun π q hq => h.has π q ((hC _ _).mpr hq), fun n hn => hS _ (h.src n hn)⟩

theorem treeOf_addPoint {t : List TNode} {C : List Nat → Nat → Prop} {S : Point → Prop} (h : TreeOf t C S) (path : List Nat) (p : Point) (q : Nat) :
    TreeOf (addPoint t (path ++ [p.hash]) p q) (fun π x => C π x ∨ (π = path ++ [p.hash] ∧ x = q)) (fun x => S x ∨ x = p) := by
  unfold addPoint findNode
  cases hf : t.find? (fun n => decide (n.path = path ++ [p.hash])) with
  | some m =>
    have hm : m ∈ t := List.mem_of_find?_eq_some hf
    have hmp : m.path = path ++ [p.hash] := by simpa using List.find?_some hf
    dsimp only
    refine ⟨?_, ?_, ?_, ?_, ?_, ?_⟩
    · rw [List.pairwise_map]
      refine h.uniq.imp ?_
      intro a b hab
      have e : ∀ n : TNode, (if n.path = path ++ [p.hash] then { n with ps := if q ∈ n.ps then n.ps else q :: n.ps } else n).path = n.path := by
        intro n; split <;> rfl
      rw [e, e]
      exact hab
    · intro n hn
      obtain ⟨a, ha, rfl⟩ := List.mem_map.mp hn
      obtain ⟨r, hr⟩ := h.ends a ha
      split
      · exact ⟨r, hr⟩
      · exact ⟨r, hr⟩
    · intro n hn
      obtain ⟨a, ha, rfl⟩ := List.mem_map.mp hn
      split
      · show List.Nodup (if q ∈ a.ps then a.ps else q :: a.ps)
        split
        · exact h.nodup a ha
        · rename_i hq
          exact List.nodup_cons.mpr ⟨hq, h.nodup a ha⟩
      · exact h.nodup a ha
    · intro n hn x
      obtain ⟨a, ha, rfl⟩ := List.mem_map.mp hn
      split
      · rename_i hap
        show x ∈ (if q ∈ a.ps then a.ps else q :: a.ps) ↔ C a.path x ∨ (a.path = path ++ [p.hash] ∧ x = q)
        rw [← h.who a ha x]
        split
        · rename_i hq
          constructor
          · exact Or.inl
          · rintro (h' | ⟨-, rfl⟩)
            · exact h'
            · exact hq
        · rw [List.mem_cons]
          constructor
          · rintro (rfl | h')
            · exact Or.inr ⟨hap, rfl⟩
            · exact Or.inl h'
          · rintro (h' | ⟨-, rfl⟩)
            · exact Or.inr h'
            · exact Or.inl rfl
      · rename_i hap
        rw [h.who a ha x]
        constructor
        · exact Or.inl
        · rintro (h' | ⟨h', -⟩)
          · exact h'
          · exact absurd h' hap
    · intro π x hx
      have e : ∀ n : TNode, (if n.path = path ++ [p.hash] then { n with ps := if q ∈ n.ps then n.ps else q :: n.ps } else n).path = n.path := by
        intro n; split <;> rfl
      have : ∃ n ∈ t, n.path = π := by
        rcases hx with hx | ⟨rfl, -⟩
        · exact h.has π x hx
        · exact ⟨m, hm, hmp⟩
      obtain ⟨n, hn, hnp⟩ := this
      exact ⟨_, List.mem_map_of_mem hn, by rw [e]; exact hnp⟩
    · intro n hn
      obtain ⟨a, ha, rfl⟩ := List.mem_map.mp hn
      have := h.src a ha
      split
      · exact Or.inl this
      · exact Or.inl this
  | none =>
    have hno : ∀ n ∈ t, n.path ≠ path ++ [p.hash] := by
      intro n hn he
      have := List.find?_eq_none.mp hf n hn
      simp [he] at this
    dsimp only
    refine ⟨?_, ?_, ?_, ?_, ?_, ?_⟩
    · rw [List.pairwise_append]
      refine ⟨h.uniq, List.pairwise_singleton _ _, fun a ha b hb => ?_⟩
      rw [List.mem_singleton] at hb
      subst hb
      exact hno a ha
    · intro n hn
      rcases List.mem_append.mp hn with hn | hn
      · exact h.ends n hn
      · rw [List.mem_singleton] at hn
        subst hn
        exact ⟨path, rfl⟩
    · intro n hn
      rcases List.mem_append.mp hn with hn | hn
      · exact h.nodup n hn
      · rw [List.mem_singleton] at hn
        subst hn
        simp
    · intro n hn x
      rcases List.mem_append.mp hn with hn | hn
      · rw [h.who n hn x]
        constructor
        · exact Or.inl
        · rintro (h' | ⟨h', -⟩)
          · exact h'
          · exact absurd h' (hno n hn)
      · rw [List.mem_singleton] at hn
        subst hn
        simp only [List.mem_singleton, true_and]
        constructor
        · exact Or.inr
        · rintro (h' | h')
          · obtain ⟨n, hn, hnp⟩ := h.has _ _ h'
            exact absurd hnp (hno n hn)
          · exact h'
    · intro π x hx
      rcases hx with hx | ⟨rfl, -⟩
      · obtain ⟨n, hn, hnp⟩ := h.has π x hx
        exact ⟨n, List.mem_append_left _ hn, hnp⟩
      · exact ⟨_, List.mem_append_right _ (List.mem_singleton.mpr rfl), rfl⟩
    · intro n hn
      rcases List.mem_append.mp hn with hn | hn
      · exact Or.inl (h.src n hn)
      · rw [List.mem_singleton] at hn
        subst hn
        exact Or.inr rfl

theorem treeOf_addBranch {t : List TNode} {C : List Nat → Nat → Prop} {S : Point → Prop} (h : TreeOf t C S) (path : List Nat) (l : List Point) (q : Nat) :
    TreeOf (addBranch t path l q) (fun π x => C π x ∨ (x = q ∧ ∃ r, r ≠ [] ∧ π = path ++ r ∧ r <+: hashes l)) (fun x => S x ∨ x ∈ l) := by
  induction l generalizing t C S path with
  | nil =>
    refine h.congr (fun π x => ⟨Or.inl, ?_⟩) (fun p => Or.inl)
    rintro (h' | ⟨-, r, h1, -, h2⟩)
    · exact h'
    · exact absurd (List.prefix_nil.mp h2) h1
  | cons p l ih =>
    rw [addBranch]
    refine (ih (treeOf_addPoint h path p q) (path ++ [p.hash])).congr (fun π x => ?_) (fun y => ?_)
    · constructor
      · rintro ((h' | ⟨rfl, rfl⟩) | ⟨rfl, r, h1, rfl, h2⟩)
        · exact Or.inl h'
        · exact Or.inr ⟨rfl, [p.hash], by simp, rfl, by simp [hashes]⟩
        · refine Or.inr ⟨rfl, p.hash :: r, by simp, by simp, ?_⟩
          rw [hashes, List.map_cons, List.cons_prefix_cons]
          exact ⟨rfl, h2⟩
      · rintro (h' | ⟨rfl, r, h1, rfl, h2⟩)
        · exact Or.inl (Or.inl h')
        · cases r with
          | nil => exact absurd rfl h1
          | cons a r =>
            rw [hashes, List.map_cons, List.cons_prefix_cons] at h2
            obtain ⟨rfl, h2⟩ := h2
            cases r with
            | nil => exact Or.inl (Or.inr ⟨rfl, rfl⟩)
            | cons b r => exact Or.inr ⟨rfl, b :: r, by simp, by simp, h2⟩
    · rintro ((h' | rfl) | h')
      · exact Or.inl h'
      · exact Or.inr List.mem_cons_self
      · exact Or.inr (List.mem_cons_of_mem _ h')

theorem treeOf_receive (black : Nat → Bool) (ms : List (Nat × List Point)) {t : List TNode} {C : List Nat → Nat → Prop} {S : Point → Prop} (h : TreeOf t C S) :
    TreeOf (ms.foldl (receiveList black) t)
      (fun π x => C π x ∨ (π ≠ [] ∧ ∃ l, (x, l) ∈ ms ∧ (∀ p ∈ l, black p.hash = false) ∧ π <+: hashes l)) (fun p => S p ∨ ∃ m ∈ ms, p ∈ m.2) := by
  induction ms generalizing t C S with
  | nil => exact h.congr (by simp) (fun p => Or.inl)
  | cons m ms ih =>
    rw [List.foldl_cons]
    have h1 : TreeOf (receiveList black t m) (fun π x => C π x ∨ (x = m.1 ∧ π ≠ [] ∧ (∀ p ∈ m.2, black p.hash = false) ∧ π <+: hashes m.2)) (fun p => S p ∨ p ∈ m.2) := by
      unfold receiveList
      split
      · rename_i hb
        refine h.congr (fun π x => ⟨Or.inl, ?_⟩) (fun p => Or.inl)
        rintro (h' | ⟨-, -, h', -⟩)
        · exact h'
        · obtain ⟨p, hp, hpb⟩ := List.any_eq_true.mp hb
          rw [h' p hp] at hpb
          cases hpb
      · rename_i hb
        refine (treeOf_addBranch h [] m.2 m.1).congr (fun π x => ?_) (fun p hp => hp)
        have hclean : ∀ p ∈ m.2, black p.hash = false := by
          intro p hp
          by_contra hh
          exact hb (List.any_eq_true.mpr ⟨p, hp, by simpa using hh⟩)
        constructor
        · rintro (h' | ⟨rfl, r, h1, rfl, h2⟩)
          · exact Or.inl h'
          · exact Or.inr ⟨rfl, by simpa using h1, hclean, by simpa using h2⟩
        · rintro (h' | ⟨rfl, h1, -, h2⟩)
          · exact Or.inl h'
          · exact Or.inr ⟨rfl, π, h1, by simp, h2⟩
    refine (ih h1).congr (fun π x => ?_) (fun p => ?_)
    · constructor
      · rintro ((h' | ⟨rfl, h2, h3, h4⟩) | ⟨h2, l, h3, h4, h5⟩)
        · exact Or.inl h'
        · exact Or.inr ⟨h2, m.2, List.mem_cons_self, h3, h4⟩
        · exact Or.inr ⟨h2, l, List.mem_cons_of_mem _ h3, h4, h5⟩
      · rintro (h' | ⟨h2, l, h3, h4, h5⟩)
        · exact Or.inl (Or.inl h')
        · rcases List.mem_cons.mp h3 with rfl | h3
          · exact Or.inl (Or.inr ⟨rfl, h2, h4, h5⟩)
          · exact Or.inr ⟨h2, l, h3, h4, h5⟩
    · rintro ((h' | h') | ⟨m', hm, hp⟩)
      · exact Or.inl h'
      · exact Or.inr ⟨m, List.mem_cons_self, h'⟩
      · exact Or.inr ⟨m', List.mem_cons_of_mem _ hm, hp⟩

/-! ## The best branch -/

theorem heaviest_spec (l : List TNode) (b : Option TNode) {n : TNode} (h : heaviest l b = some n) :
    (n ∈ l ∨ b = some n) ∧ (∀ m ∈ l, m.ps.length ≤ n.ps.length) ∧ ∀ m, b = some m → m.ps.length ≤ n.ps.length := by
  induction l generalizing b with
  | nil =>
    simp only [heaviest] at h
    subst h
    exact ⟨Or.inr rfl, by simp, fun m hm => by cases hm; exact Nat.le_refl _⟩
  | cons x l ih =>
    cases b with
    | none =>
      rw [heaviest] at h
      split at h
      · obtain ⟨h1, h2, h3⟩ := ih _ h
        refine ⟨Or.inl ?_, ?_, by simp⟩
        · rcases h1 with h1 | h1
          · exact List.mem_cons_of_mem _ h1
          · cases h1; exact List.mem_cons_self
        · intro m hm
          rcases List.mem_cons.mp hm with rfl | hm
          · exact h3 _ rfl
          · exact h2 m hm
      · rename_i hx
        obtain ⟨h1, h2, h3⟩ := ih _ h
        refine ⟨Or.inl ?_, ?_, by simp⟩
        · rcases h1 with h1 | h1
          · exact List.mem_cons_of_mem _ h1
          · cases h1
        · intro m hm
          rcases List.mem_cons.mp hm with rfl | hm
          · omega
          · exact h2 m hm
    | some y =>
      rw [heaviest] at h
      split at h
      · rename_i hx
        obtain ⟨h1, h2, h3⟩ := ih _ h
        have := h3 x rfl
        refine ⟨Or.inl ?_, ?_, ?_⟩
        · rcases h1 with h1 | h1
          · exact List.mem_cons_of_mem _ h1
          · cases h1; exact List.mem_cons_self
        · intro m hm
          rcases List.mem_cons.mp hm with rfl | hm
          · exact this
          · exact h2 m hm
        · intro m hm
          cases hm
          omega
      · rename_i hx
        obtain ⟨h1, h2, h3⟩ := ih _ h
        have := h3 y rfl
        refine ⟨?_, ?_, ?_⟩
        · rcases h1 with h1 | h1
          · exact Or.inl (List.mem_cons_of_mem _ h1)
          · exact Or.inr h1
        · intro m hm
          rcases List.mem_cons.mp hm with rfl | hm
          · omega
          · exact h2 m hm
        · intro m hm
          cases hm
          exact this

theorem heaviest_some (l : List TNode) (b : Option TNode) (h : b ≠ none ∨ ∃ m ∈ l, 0 < m.ps.length) : heaviest l b ≠ none := by
  induction l generalizing b with
  | nil =>
    simp only [heaviest]
    rcases h with h | ⟨m, hm, -⟩
    · exact h
    · cases hm
  | cons x l ih =>
    cases b with
    | none =>
      rw [heaviest]
      split
      · exact ih _ (Or.inl (by simp))
      · rename_i hx
        refine ih _ (Or.inr ?_)
        rcases h with h | ⟨m, hm, hp⟩
        · exact absurd rfl h
        · rcases List.mem_cons.mp hm with rfl | hm
          · omega
          · exact ⟨m, hm, hp⟩
    | some y =>
      rw [heaviest]
      split
      · exact ih _ (Or.inl (by simp))
      · exact ih _ (Or.inl (by simp))

theorem bestFrom_src {ord : List TNode → List TNode} (hord : ∀ l, (ord l).Perm l) {t : List TNode} {C : List Nat → Nat → Prop} {S : Point → Prop} (h : TreeOf t C S) (fuel : Nat) (path : List Nat) :
    ∀ p ∈ bestFrom ord t fuel path, S p := by
  induction fuel generalizing path with
  | zero => simp [bestFrom]
  | succ fuel ih =>
    unfold bestFrom
    split
    · simp
    · rename_i n hn
      intro p hp
      rcases List.mem_cons.mp hp with rfl | hp
      · rcases (heaviest_spec _ _ hn).1 with h1 | h1
        · exact h.src n (List.mem_filter.mp ((hord _).mem_iff.mp h1)).1
        · cases h1
      · exact ih _ p hp

theorem bestFrom_prefix {ord : List TNode → List TNode} (hord : ∀ l, (ord l).Perm l) {t : List TNode} {C : List Nat → Nat → Prop} {S : Point → Prop} (h : TreeOf t C S) {H : List Nat} {good bad : List Nat}
    (hgood : good.Nodup) (hlt : bad.length < good.length) (h1 : ∀ π, π <+: H → π ≠ [] → ∀ q ∈ good, C π q) (h2 : ∀ π, ¬ π <+: H → ∀ q, C π q → q ∈ bad)
    (r : List Nat) (path : List Nat) (hr : H = path ++ r) (fuel : Nat) (hfuel : r.length ≤ fuel) : r <+: hashes (bestFrom ord t fuel path) := by
  induction r generalizing path fuel with
  | nil => exact List.nil_prefix
  | cons x r ih =>
    cases fuel with
    | zero => simp at hfuel
    | succ fuel =>
      have hpre : path ++ [x] <+: H := ⟨r, by rw [hr]; simp⟩
      have hC := h1 (path ++ [x]) hpre (by simp)
      obtain ⟨g, hg⟩ : ∃ g, g ∈ good := List.exists_mem_of_length_pos (by omega)
      obtain ⟨n, hn, hnp⟩ := h.has _ _ (hC g hg)
      have hbig : good.length ≤ n.ps.length := by
        refine (hgood.subperm (fun q hq => ?_)).length_le
        rw [h.who n hn, hnp]
        exact hC q hq
      have hb : n ∈ ord (below t path) := by
        rw [(hord _).mem_iff]
        unfold below
        rw [List.mem_filter, decide_eq_true_eq, hnp]
        exact ⟨hn, by simp, by simp⟩
      unfold bestFrom
      cases hh : heaviest (ord (below t path)) none with
      | none => exact absurd hh (heaviest_some _ _ (Or.inr ⟨n, hb, by omega⟩))
      | some m =>
        obtain ⟨k1, k2, -⟩ := heaviest_spec _ _ hh
        have hm : m ∈ below t path := by
          rcases k1 with k1 | k1
          · exact (hord _).mem_iff.mp k1
          · cases k1
        unfold below at hm
        rw [List.mem_filter, decide_eq_true_eq] at hm
        have hmp : m.path <+: H := by
          by_contra hno
          have : m.ps.length ≤ bad.length := by
            refine ((h.nodup m hm.1).subperm (fun q hq => ?_)).length_le
            exact h2 _ hno q ((h.who m hm.1 q).mp hq)
          have := k2 n hb
          omega
        obtain ⟨y, hy⟩ := h.ends m hm.1
        have hyp : y = path := by rw [← hm.2.2, hy]; simp
        have hx : m.point.hash = x := by
          rw [hy, hyp, hr] at hmp
          rw [List.prefix_append_right_inj, List.cons_prefix_cons] at hmp
          exact hmp.1
        show x :: r <+: hashes (m.point :: bestFrom ord t fuel m.path)
        rw [hashes, List.map_cons, List.cons_prefix_cons]
        refine ⟨hx.symm, ?_⟩
        refine ih m.path ?_ fuel (by simpa using hfuel)
        rw [hy, hyp, hx, hr]
        simp

theorem take_nodup (H : List Nat) : ((List.range H.length).map (fun k => H.take (k + 1))).Nodup := by
  rw [List.Nodup, List.pairwise_map]
  refine (List.nodup_range).pairwise_of_forall_ne ?_ |>.imp (fun h => h)
  intro a ha b hb hab he
  rw [List.mem_range] at ha hb
  have := congrArg List.length he
  simp only [List.length_take] at this
  omega

/-- **C86.** When more peers sent a list of hashes, and no other, than there are other peers who sent anything, the node goes along that list, whatever the others sent, in whatever order all of it
arrived. Every point it goes to was sent by some peer. -/
theorem majority_leads {ord : List TNode → List TNode} (hord : ∀ l, (ord l).Perm l) {black : Nat → Bool} {ms : List (Nat × List Point)} {H good bad : List Nat} (hgood : good.Nodup)
    (hlt : bad.length < good.length) (hsent : ∀ q ∈ good, ∃ l, (q, l) ∈ ms ∧ hashes l = H) (honly : ∀ q ∈ good, ∀ l, (q, l) ∈ ms → hashes l = H)
    (hall : ∀ m ∈ ms, m.1 ∈ good ∨ m.1 ∈ bad) (hblack : ∀ x ∈ H, black x = false) :
    H <+: hashes (bestBranch ord (receiveLists black ms)) ∧ ∀ p ∈ bestBranch ord (receiveLists black ms), ∃ m ∈ ms, p ∈ m.2 := by
  have ht := treeOf_receive black ms treeOf_nil
  have hfl : ∀ l, hashes l = H → ∀ p ∈ l, black p.hash = false := by
    intro l hl p hp
    refine hblack _ ?_
    rw [← hl]
    exact List.mem_map_of_mem hp
  have h1 : ∀ π, π <+: H → π ≠ [] → ∀ q ∈ good, False ∨ (π ≠ [] ∧ ∃ l, (q, l) ∈ ms ∧ (∀ p ∈ l, black p.hash = false) ∧ π <+: hashes l) := by
    intro π hπ hne q hq
    obtain ⟨l, hl, hlH⟩ := hsent q hq
    exact Or.inr ⟨hne, l, hl, hfl l hlH, by rw [hlH]; exact hπ⟩
  refine ⟨?_, fun p hp => ?_⟩
  · refine bestFrom_prefix hord ht hgood hlt h1 ?_ H [] rfl _ ?_
    · rintro π hπ q (h' | ⟨-, l, hl, -, hp⟩)
      · exact h'.elim
      · rcases hall _ hl with hq | hq
        · exact absurd (by rw [← honly q hq l hl]; exact hp) hπ
        · exact hq
    · -- there is a node for every prefix
      have hsub : (List.range H.length).map (fun k => H.take (k + 1)) ⊆ (receiveLists black ms).map (·.path) := by
        intro π hπ
        obtain ⟨k, hk, rfl⟩ := List.mem_map.mp hπ
        rw [List.mem_range] at hk
        obtain ⟨g, hg⟩ : ∃ g, g ∈ good := List.exists_mem_of_length_pos (by omega)
        obtain ⟨n, hn, hnp⟩ := ht.has _ _ (h1 (H.take (k + 1)) (List.take_prefix _ _) (by
          intro e
          have := congrArg List.length e
          simp only [List.length_take, List.length_nil] at this
          omega) g hg)
        exact List.mem_map.mpr ⟨n, hn, hnp⟩
      have := ((take_nodup H).subperm hsub).length_le
      simpa using this
  · rcases bestFrom_src hord ht _ _ p hp with h' | h'
    · exact h'.elim
    · exact h'

/-- **C86, fails.** One peer of four goes on after the end of the list that the three others sent, and the node follows it. -/
theorem one_extends : ∃ ms : List (Nat × List Point), ∀ ord : List TNode → List TNode, (∀ l, (ord l).Perm l) →
    (∀ q ∈ [1, 2, 3], ∃ l, (q, l) ∈ ms ∧ hashes l = [10, 20]) ∧ (∀ q ∈ [1, 2, 3], ∀ l, (q, l) ∈ ms → hashes l = [10, 20]) ∧ (∀ m ∈ ms, m.1 ∈ [1, 2, 3, 4]) ∧
      hashes (bestBranch ord (receiveLists (fun _ => false) ms)) = [10, 20, 99] := by
  refine ⟨[(1, [⟨100, 10, 0⟩, ⟨200, 20, 0⟩]), (2, [⟨100, 10, 0⟩, ⟨200, 20, 0⟩]), (3, [⟨100, 10, 0⟩, ⟨200, 20, 0⟩]), (4, [⟨100, 10, 0⟩, ⟨200, 20, 0⟩, ⟨700000, 99, 0⟩])], fun ord hord => ?_⟩
  refine ⟨fun q hq => ⟨[⟨100, 10, 0⟩, ⟨200, 20, 0⟩], ?_, rfl⟩, ?_, by decide +kernel, ?_⟩
  · simp only [List.mem_cons, List.not_mem_nil, or_false] at hq
    rcases hq with rfl | rfl | rfl <;> simp
  · intro q hq l hl
    simp only [List.mem_cons, Prod.mk.injEq, List.not_mem_nil, or_false] at hl hq
    rcases hl with ⟨rfl, rfl⟩ | ⟨rfl, rfl⟩ | ⟨rfl, rfl⟩ | ⟨rfl, rfl⟩
    · rfl
    · rfl
    · rfl
    · omega
  · have hone : ∀ a, ord [a] = [a] := fun a => List.perm_singleton.mp (hord [a])
    have hT : receiveLists (fun _ => false) [(1, [⟨100, 10, 0⟩, ⟨200, 20, 0⟩]), (2, [⟨100, 10, 0⟩, ⟨200, 20, 0⟩]), (3, [⟨100, 10, 0⟩, ⟨200, 20, 0⟩]),
        (4, [⟨100, 10, 0⟩, ⟨200, 20, 0⟩, ⟨700000, 99, 0⟩])] = [⟨[10], ⟨100, 10, 0⟩, [4, 3, 2, 1]⟩, ⟨[10, 20], ⟨200, 20, 0⟩, [4, 3, 2, 1]⟩, ⟨[10, 20, 99], ⟨700000, 99, 0⟩, [4]⟩] := by
      decide +kernel
    rw [hT]
    have b0 : below [⟨[10], ⟨100, 10, 0⟩, [4, 3, 2, 1]⟩, ⟨[10, 20], ⟨200, 20, 0⟩, [4, 3, 2, 1]⟩, ⟨[10, 20, 99], ⟨700000, 99, 0⟩, [4]⟩] [] = [⟨[10], ⟨100, 10, 0⟩, [4, 3, 2, 1]⟩] := by decide +kernel
    have b1 : below [⟨[10], ⟨100, 10, 0⟩, [4, 3, 2, 1]⟩, ⟨[10, 20], ⟨200, 20, 0⟩, [4, 3, 2, 1]⟩, ⟨[10, 20, 99], ⟨700000, 99, 0⟩, [4]⟩] [10] = [⟨[10, 20], ⟨200, 20, 0⟩, [4, 3, 2, 1]⟩] := by decide +kernel
    have b2 : below [⟨[10], ⟨100, 10, 0⟩, [4, 3, 2, 1]⟩, ⟨[10, 20], ⟨200, 20, 0⟩, [4, 3, 2, 1]⟩, ⟨[10, 20, 99], ⟨700000, 99, 0⟩, [4]⟩] [10, 20] = [⟨[10, 20, 99], ⟨700000, 99, 0⟩, [4]⟩] := by decide +kernel
    simp [bestBranch, bestFrom, b0, b1, b2, hone, heaviest, hashes]

/-- **C86, fails.** Points are told apart by their hashes only: the peer whose answer arrives first sets the heights of the points that all others sent, here to 1 and 7. -/
theorem first_sets_heights : ∃ ms : List (Nat × List Point), ∀ ord : List TNode → List TNode, (∀ l, (ord l).Perm l) →
    (∀ q ∈ [1, 2, 3], (q, [⟨100, 10, 0⟩, ⟨200, 20, 0⟩]) ∈ ms) ∧ ms.map (·.1) = [4, 1, 2, 3] ∧
      bestBranch ord (receiveLists (fun _ => false) ms) = [⟨1, 10, 0⟩, ⟨7, 20, 0⟩] := by
  refine ⟨[(4, [⟨1, 10, 0⟩, ⟨7, 20, 0⟩]), (1, [⟨100, 10, 0⟩, ⟨200, 20, 0⟩]), (2, [⟨100, 10, 0⟩, ⟨200, 20, 0⟩]), (3, [⟨100, 10, 0⟩, ⟨200, 20, 0⟩])], fun ord hord => ?_⟩
  refine ⟨by decide +kernel, rfl, ?_⟩
  have hone : ∀ a, ord [a] = [a] := fun a => List.perm_singleton.mp (hord [a])
  have hnil : ord [] = [] := List.perm_nil.mp (hord [])
  have hT : receiveLists (fun _ => false) [(4, [⟨1, 10, 0⟩, ⟨7, 20, 0⟩]), (1, [⟨100, 10, 0⟩, ⟨200, 20, 0⟩]), (2, [⟨100, 10, 0⟩, ⟨200, 20, 0⟩]), (3, [⟨100, 10, 0⟩, ⟨200, 20, 0⟩])]
      = [⟨[10], ⟨1, 10, 0⟩, [3, 2, 1, 4]⟩, ⟨[10, 20], ⟨7, 20, 0⟩, [3, 2, 1, 4]⟩] := by decide +kernel
  rw [hT]
  have b0 : below [⟨[10], ⟨1, 10, 0⟩, [3, 2, 1, 4]⟩, ⟨[10, 20], ⟨7, 20, 0⟩, [3, 2, 1, 4]⟩] [] = [⟨[10], ⟨1, 10, 0⟩, [3, 2, 1, 4]⟩] := by decide +kernel
  have b1 : below [⟨[10], ⟨1, 10, 0⟩, [3, 2, 1, 4]⟩, ⟨[10, 20], ⟨7, 20, 0⟩, [3, 2, 1, 4]⟩] [10] = [⟨[10, 20], ⟨7, 20, 0⟩, [3, 2, 1, 4]⟩] := by decide +kernel
  have b2 : below [⟨[10], ⟨1, 10, 0⟩, [3, 2, 1, 4]⟩, ⟨[10, 20], ⟨7, 20, 0⟩, [3, 2, 1, 4]⟩] [10, 20] = [] := by decide +kernel
  simp [bestBranch, bestFrom, b0, b1, hone, heaviest]

/-! ## The height to reach -/

theorem insertPeer_perm (x : Nat × Nat) (l : List (Nat × Nat)) : (insertPeer x l).Perm (x :: l) := by
  induction l with
  | nil => exact .refl _
  | cons y l ih =>
    unfold insertPeer
    split
    · exact .refl _
    · exact (ih.cons y).trans (.swap x y l)

theorem sortPeers_perm (l : List (Nat × Nat)) : (sortPeers l).Perm l := by
  induction l with
  | nil => exact .refl _
  | cons x l ih => exact (insertPeer_perm x _).trans (ih.cons x)

theorem insertPeer_sorted {x : Nat × Nat} {l : List (Nat × Nat)} (h : l.Pairwise (fun a b => b.2 ≤ a.2)) : (insertPeer x l).Pairwise (fun a b => b.2 ≤ a.2) := by
  induction l with
  | nil => exact List.pairwise_singleton _ _
  | cons y l ih =>
    obtain ⟨h1, h2⟩ := List.pairwise_cons.mp h
    unfold insertPeer
    split
    · rename_i hxy
      refine List.pairwise_cons.mpr ⟨fun z hz => ?_, h⟩
      rcases List.mem_cons.mp hz with rfl | hz
      · omega
      · have := h1 z hz
        omega
    · rename_i hxy
      refine List.pairwise_cons.mpr ⟨fun z hz => ?_, ih h2⟩
      rcases List.mem_cons.mp ((insertPeer_perm x l).mem_iff.mp hz) with rfl | hz
      · omega
      · exact h1 z hz

theorem sortPeers_sorted (l : List (Nat × Nat)) : (sortPeers l).Pairwise (fun a b => b.2 ≤ a.2) := by
  induction l with
  | nil => exact .nil
  | cons x l ih => exact insertPeer_sorted ih

/-- **C86.** The height to reach is that of some peer. If at most a third of the peers claim a height they do not have, some other peer has at least that height; and if fewer than two thirds do, some other
peer has at most that height. There is one whenever there are peers. -/
theorem target_height (l : List (Nat × Nat)) (hne : l ≠ []) : ∃ p ∈ l, syncPeer l = some p ∧ ∀ liar : Nat × Nat → Bool,
    (l.countP liar ≤ l.length / 3 → ∃ x ∈ l, liar x = false ∧ p.2 ≤ x.2) ∧ (l.countP liar < l.length - l.length / 3 → ∃ x ∈ l, liar x = false ∧ x.2 ≤ p.2) := by
  have hp := sortPeers_perm l
  have hlen := hp.length_eq
  have hpos := List.length_pos_of_ne_nil hne
  have hk : l.length / 3 < (sortPeers l).length := by omega
  have hg : (sortPeers l)[l.length / 3]? = some (sortPeers l)[l.length / 3] := List.getElem?_eq_getElem hk
  have hs := List.pairwise_iff_getElem.mp (sortPeers_sorted l)
  refine ⟨(sortPeers l)[l.length / 3], hp.mem_iff.mp (List.getElem_mem _), hg, fun liar => ⟨fun hc => ?_, fun hc => ?_⟩⟩
  · by_contra hno
    have hall : ∀ x ∈ (sortPeers l).take (l.length / 3 + 1), liar x = true := by
      intro x hx
      by_contra hl
      obtain ⟨i, hi, rfl⟩ := List.mem_iff_getElem.mp hx
      simp only [List.length_take] at hi
      rw [List.getElem_take] at hl
      refine hno ⟨(sortPeers l)[i], hp.mem_iff.mp (List.getElem_mem _), by simpa using hl, ?_⟩
      rcases Nat.lt_or_ge i (l.length / 3) with h | h
      · exact hs i (l.length / 3) (by omega) hk h
      · have : i = l.length / 3 := by omega
        subst this
        exact Nat.le_refl _
    have h1 : ((sortPeers l).take (l.length / 3 + 1)).countP liar = l.length / 3 + 1 := by
      rw [List.countP_eq_length.mpr hall, List.length_take]
      omega
    have h2 : ((sortPeers l).take (l.length / 3 + 1)).countP liar ≤ (sortPeers l).countP liar := (List.take_sublist _ _).countP_le
    rw [hp.countP_eq] at h2
    omega
  · by_contra hno
    have hall : ∀ x ∈ (sortPeers l).drop (l.length / 3), liar x = true := by
      intro x hx
      by_contra hl
      obtain ⟨i, hi, rfl⟩ := List.mem_iff_getElem.mp hx
      simp only [List.length_drop] at hi
      rw [List.getElem_drop] at hl
      refine hno ⟨(sortPeers l)[l.length / 3 + i], hp.mem_iff.mp (List.getElem_mem _), by simpa using hl, ?_⟩
      rcases Nat.eq_zero_or_pos i with rfl | h
      · exact Nat.le_refl _
      · exact hs (l.length / 3) (l.length / 3 + i) hk (by omega) (by omega)
    have h1 : ((sortPeers l).drop (l.length / 3)).countP liar = l.length - l.length / 3 := by
      rw [List.countP_eq_length.mpr hall, List.length_drop]
      omega
    have h2 : ((sortPeers l).drop (l.length / 3)).countP liar ≤ (sortPeers l).countP liar := (List.drop_sublist _ _).countP_le
    rw [hp.countP_eq] at h2
    omega

/-- **C86.** A part of the way ends after its start, not after the height to reach, and has at most 50000 blocks. -/
theorem end_ahead {start sync : Nat} (h : start < sync) : start < getEnd start sync ∧ getEnd start sync ≤ sync ∧ getEnd start sync ≤ start + 50000 := by
  unfold getEnd
  simp only
  split <;> omega

/-! ## Cases -/

example : syncPeer [(1, 4), (2, 10), (3, 7), (4, 5), (5, 8), (6, 7), (7, 7)] = some (3, 7) ∨ syncPeer [(1, 4), (2, 10), (3, 7), (4, 5), (5, 8), (6, 7), (7, 7)] = some (6, 7) ∨
    syncPeer [(1, 4), (2, 10), (3, 7), (4, 5), (5, 8), (6, 7), (7, 7)] = some (7, 7) := by decide +kernel
/-- Three peers agree, one sends something else first: the hypotheses of `majority_leads` hold. -/
example : hashes (bestBranch id (receiveLists (fun h => decide (h = 666)) [(9, [⟨100, 11, 0⟩, ⟨200, 21, 0⟩, ⟨300, 31, 0⟩]), (1, [⟨100, 10, 0⟩, ⟨200, 20, 0⟩]), (2, [⟨100, 10, 0⟩, ⟨200, 20, 0⟩]),
    (8, [⟨100, 10, 0⟩, ⟨200, 666, 0⟩])])) = [10, 20] := by decide +kernel

end Verif.Sync
