import Verif.Fork.ForkPrune

/-! What pruning a branch gives. -/

namespace Verif.Fork

variable {K : Knot → Prop}

/-- The first block of the branch is not a block of its root. -/
def Pruned (t : Tree) (j : Nat) : Prop :=
  ∀ r, (t.br j).root = some r → (t.br j).tail < (t.br j).head →
    ∀ k, t.knot r ((t.br j).tail + 1) true = some k → k.hash ≠ (t.br j).hashAt ((t.br j).tail + 1)

/-- Only blocks shared with roots are gone, and branches without blocks of their own. -/
structure Lean (t t' : Tree) : Prop where
  main : t'.main = t.main
  next : t'.next = t.next
  disk : t'.disk = t.disk
  live : ∀ j ∈ t'.live, j ∈ t.live
  head : ∀ j ∈ t'.live, (t'.br j).head = (t.br j).head ∧ (t'.br j).headHash = (t.br j).headHash
  anc : ∀ j ∈ t'.live, ∀ y, Anc t' j y → Anc t j y
  mono : ∀ j ∈ t'.live, (t.br j).tail ≤ (t'.br j).tail
  full : ∀ j ∈ t'.live, (t.br j).tail < (t.br j).head → (t'.br j).tail < (t'.br j).head

theorem Lean.refl (t : Tree) : Lean t t :=
  ⟨rfl, rfl, rfl, fun _ h => h, fun _ _ => ⟨rfl, rfl⟩, fun _ _ _ h => h, fun _ _ => Nat.le_refl _, fun _ _ h => h⟩

theorem Lean.trans {t t' t'' : Tree} (a : Lean t t') (b : Lean t' t'') : Lean t t'' :=
  ⟨b.main.trans a.main, b.next.trans a.next, b.disk.trans a.disk, fun j h => a.live j (b.live j h),
    fun j h => ⟨(b.head j h).1.trans (a.head j (b.live j h)).1, (b.head j h).2.trans (a.head j (b.live j h)).2⟩,
    fun j h y c => a.anc j (b.live j h) y (b.anc j h y c), fun j h => Nat.le_trans (a.mono j (b.live j h)) (b.mono j h),
    fun j h c => b.full j h (a.full j (b.live j h) c)⟩

theorem Lean.stale (uq : Uniq K) {t t' : Tree} {s s' : Nat} (inv : Inv K t s) (inv' : Inv K t' s') (a : Lean t t') {j : Nat} (hj : j ∈ t'.live)
    (S : Stale t' j) : Stale t j := by
  obtain ⟨s1, y, k, s2, s3, s4⟩ := S
  have hy' := s2.live inv' hj
  have hh := a.head j hj
  have hy := a.head y hy'
  refine ⟨?_, y, k, a.anc j hj y s2, ?_, by rw [← hh.2]; exact s4⟩
  · have := a.mono j hj; omega
  · rw [← hh.1, ← inv.same uq inv' (a.live y hy') hy' hy.1 hy.2]; exact s3

structure PruneRes (K : Knot → Prop) (t t' : Tree) (i : Nat) : Prop where
  inv : Inv K t' t'.main
  lean : Lean t t'
  stays : ∀ j ∈ t.live, j ≠ i → ¬ Anc t i j → j ∈ t'.live
  keep : ∀ j ∈ t'.live, ∀ p, (t.br j).root = some p → p ≠ i → ¬ Anc t i p → (t'.br j).root = some p
  own : i ∈ t'.live → Pruned t' i ∧ ∀ y, Anc t' i y → Pruned t' y
  kid : ∀ j ∈ t'.live, (t.br j).root = some i → ∀ y, Anc t' j y → Pruned t' y
  fate : ∀ j ∈ t.live, j ∉ t'.live → Stale t j

theorem Anc.of_roots {t t' : Tree} {P : Nat → Prop} (H : ∀ x z, P x → (t'.br x).root = some z → Anc t x z ∧ P z) {x y : Nat}
    (a : Anc t' x y) (hx : P x) : Anc t x y := by
  induction a with
  | root e => exact (H _ _ hx e).1
  | step e _ ih => exact (H _ _ hx e).1.trans (ih (H _ _ hx e).2)

theorem main_prune {t : Tree} (inv : Inv K t t.main) (f : Nat) : Tree.prune (f + 1) t.main t = some t := by
  rw [Tree.prune, inv.main_root]
  dsimp only
  rw [Option.bind_some]
  have : Tree.pruneLoop t.main (t.br t.main).size ((t.br t.main).tail + 1) t = some (t, false) := by
    cases e : (t.br t.main).size with
    | zero => rfl
    | succ n =>
      rw [Tree.pruneLoop, inv.main_root]
      have : t.disk[(t.br t.main).tail + 1]? = none := List.getElem?_eq_none (by have := inv.size; omega)
      simp [Tree.findAt, this]
  rw [this]
  rfl

theorem prune_main_res {t : Tree} (inv : Inv K t t.main) : PruneRes K t t t.main := by
  have na : ∀ y, ¬ Anc t t.main y := by
    intro y a
    cases a with
    | root e => rw [inv.main_root] at e; exact absurd e (by simp)
    | step e _ => rw [inv.main_root] at e; exact absurd e (by simp)
  have pm : Pruned t t.main := by intro r e; rw [inv.main_root] at e; exact absurd e (by simp)
  refine ⟨inv, Lean.refl t, fun j h _ _ => h, fun j _ p e _ _ => e, fun _ => ⟨pm, fun y a => absurd a (na y)⟩, ?_,
    fun j hj h => absurd hj h⟩
  intro j hj e y a
  cases a with
  | root e' =>
    rw [e] at e'
    obtain rfl : t.main = y := by simpa using e'
    exact pm
  | step e' a' =>
    rw [e] at e'
    rename_i z
    obtain rfl : t.main = z := by simpa using e'
    exact absurd a' (na y)

/-- One step of pruning, the root and all it stems from being pruned. -/
theorem prune_one (uq : Uniq K) {t : Tree} (inv : Inv K t t.main) {i r : Nat} (hi : i ∈ t.live) (er : (t.br i).root = some r)
    (hp : ∀ y, Anc t i y → Pruned t y) :
    ∃ t', ((Tree.pruneLoop i (t.br i).size ((t.br i).tail + 1) t).bind (fun p =>
        if p.2 then
          (match (p.1.br i).root with
            | none => some p.1
            | some r => Tree.shiftKids i r (p.1.kidsOf i) p.1).bind
            (fun t => if i ≠ t.main ∧ (t.br i).size = 0 then t.removeBranch i else some t)
        else some p.1)) = some t' ∧ PruneRes K t t' i := by
  obtain ⟨hr, hold, hm⟩ := inv.root_live hi er
  have ok := inv.ok i hi
  obtain ⟨a0, ra0, ra1, ra2⟩ := inv.holds_read hr hold
  have start := pruneLoop_spec inv hi er (t.br i).size (t.br i).tail (Nat.le_refl _) (by have := ok.le; simp only [Br.size]; omega)
    ⟨a0, ra0, by rw [ra1, Br.hashAt, if_pos rfl]⟩
  rw [ok.trim_tail, Tree.set_same rfl] at start
  obtain ⟨m, m1, m2, m3, m4, m5⟩ := start
  rw [m3, Option.bind_some]
  dsimp only
  by_cases c : (t.br i).tail < m
  swap
  · -- nothing to remove
    obtain rfl : m = (t.br i).tail := by omega
    rw [if_neg (by simp)]
    rw [ok.trim_tail, Tree.set_same rfl]
    refine ⟨t, rfl, inv, Lean.refl t, fun j h _ _ => h, fun j _ p e _ _ => e, fun _ => ⟨?_, hp⟩, ?_, fun j hj h => absurd hj h⟩
    · intro r' er' g k ek
      rw [er] at er'
      obtain rfl : r = r' := by simpa using er'
      exact m5 g k ek
    · intro j hj ej y a
      have own : Pruned t i := by
        intro r' er' g k ek
        rw [er] at er'
        obtain rfl : r = r' := by simpa using er'
        exact m5 g k ek
      cases a with
      | root e' =>
        rw [ej] at e'
        obtain rfl : i = y := by simpa using e'
        exact own
      | step e' a' =>
        rw [ej] at e'
        rename_i z
        obtain rfl : i = z := by simpa using e'
        exact hp y a'
  rw [if_pos (by simpa using c)]
  obtain ⟨t1, ht1⟩ : ∃ t1, t1 = t.set i ((t.br i).trim m) := ⟨_, rfl⟩
  rw [← ht1]
  have b1i : t1.br i = (t.br i).trim m := by rw [ht1, Tree.set_self]
  have b1 : ∀ j, j ≠ i → t1.br j = t.br j := fun j hj => by rw [ht1, Tree.set_ne _ _ hj]
  have k1 : t1.kids = t.kids := by rw [ht1]; rfl
  have r1 : (t1.br i).root = some r := by rw [b1i]; exact er
  rw [r1]
  dsimp only
  obtain ⟨rank, hrank⟩ := inv.rank
  have rri := hrank i hi r er
  have hir : i ≠ r := by rintro rfl; omega
  have kidNe : ∀ j, (i, j) ∈ t.kids → j ≠ i ∧ j ≠ r ∧ rank i < rank j := by
    intro j hj
    obtain ⟨hl, ej⟩ := (inv.kids _ _).mp hj
    have := hrank j hl i ej
    refine ⟨?_, ?_, this⟩ <;> (rintro rfl; omega)
  have okt := ok.trim m1 m2
  have low : r ≠ t.main → (t.br r).tail < (t.br i).tail := by
    intro g
    rcases hold with ⟨k, e1, -⟩ | ⟨H, -⟩ | ⟨H, -⟩
    · exact ((inv.ok r hr).range e1).1
    · exact absurd H g
    · exact absurd H g
  have hko : ∀ v, v ∈ t1.kidsOf i ↔ (i, v) ∈ t.kids := by intro v; rw [mem_kidsOf, k1]
  obtain ⟨t2, e2, M⟩ := shiftKids_spec hir (t1.kidsOf i) t1 (by rw [hko]; exact fun g => (kidNe _ g).2.1 rfl)
    (by rw [hko]; exact fun g => (kidNe _ g).1 rfl) (by
      intro v hv hh
      rw [hko] at hv
      rw [b1i, b1 v (kidNe v hv).1] at hh
      rw [b1 v (kidNe v hv).1]
      obtain ⟨-, -, k, e1, e2⟩ := inv.kid hm hv
      have rg := ok.range e1
      have hl : (t.br v).tail ≤ m := by
        by_contra g
        have : ((t.br i).trim m).has (t.br v).tail (t.br v).tailHash = true := (okt.has_iff _ _).mpr ⟨k, by
          simp only [Br.trim]; rw [if_neg g]; exact e1, e2⟩
        rw [hh] at this; exact absurd this (by simp)
      obtain ⟨a, a1, a2⟩ := m4 (t.br v).tail (by omega) hl
      rw [Br.hashAt, if_neg (by omega), e1] at a2
      simp only [Option.map_some, Option.getD_some] at a2
      rw [e2] at a2
      unfold Sees
      rw [b1 r (Ne.symm hir)]
      rcases inv.held hr a1 (fun g => by have := low g; omega) with H | ⟨rfl, -, H⟩ | ⟨rfl, H1, H2⟩
      · left; rw [← a2]; exact ((inv.ok r hr).has_iff _ _).mpr H
      · right
        rw [a2] at H
        exact ⟨inv.main_root, by rw [ht1]; exact H⟩
      · right
        refine ⟨inv.main_root, ?_⟩
        obtain ⟨k, d1, d2⟩ := inv.top
        exact ⟨k, by rw [ht1, H1]; exact d1, by rw [d2, ← H2, a2]⟩)
  rw [e2, Option.bind_some]
  have M : Moved (t.set i ((t.br i).trim m)) t2
      (fun j => (i, j) ∈ t.kids ∧ ((t.br i).trim m).has (t.br j).tail (t.br j).tailHash = false) i r := by
    rw [ht1] at M
    refine M.congr ?_
    intro j
    rw [← ht1, hko, b1i]
    by_cases g : (i, j) ∈ t.kids
    · rw [b1 j (kidNe j g).1]
    · simp [g]
  have inv2 : Inv K t2 t2.main := inv.trimmed hi er m1 m2 m4 M
  have main2 : t2.main = t.main := M.main
  have live2 : t2.live = t.live := M.live
  have bi2 : t2.br i = (t.br i).trim m := by rw [M.no i (fun c => (kidNe i c.1).1 rfl), Tree.set_self]
  have bno2 : ∀ j, j ≠ i → ¬ ((i, j) ∈ t.kids ∧ ((t.br i).trim m).has (t.br j).tail (t.br j).tailHash = false) → t2.br j = t.br j := by
    intro j hj c; rw [M.no j c, Tree.set_ne _ _ hj]
  have byes2 : ∀ j, ((i, j) ∈ t.kids ∧ ((t.br i).trim m).has (t.br j).tail (t.br j).tailHash = false) →
      t2.br j = { t.br j with root := some r } := by
    intro j c; rw [M.yes j c, Tree.set_ne _ _ (kidNe j c.1).1]
  have root2 : ∀ j z, (t2.br j).root = some z → (t.br j).root = some z ∨ ((t.br j).root = some i ∧ z = r) := by
    intro j z e
    by_cases g : j = i
    · subst g; rw [bi2] at e; exact Or.inl e
    · by_cases g' : (i, j) ∈ t.kids ∧ ((t.br i).trim m).has (t.br j).tail (t.br j).tailHash = false
      · rw [byes2 j g'] at e
        right
        exact ⟨((inv.kids _ _).mp g'.1).2, by simpa using e.symm⟩
      · rw [bno2 j g g'] at e; exact Or.inl e
  have anc2 : ∀ x y, Anc t2 x y → Anc t x y := by
    intro x y a
    refine Anc.of_roots (P := fun _ => True) ?_ a trivial
    intro x z _ e
    rcases root2 x z e with e | ⟨e, rfl⟩
    · exact ⟨Anc.root e, trivial⟩
    · exact ⟨Anc.step e (Anc.root er), trivial⟩
  have head2 : ∀ j, (t2.br j).head = (t.br j).head ∧ (t2.br j).headHash = (t.br j).headHash := by
    intro j
    by_cases g : j = i
    · subst g; rw [bi2]; exact ⟨rfl, rfl⟩
    · by_cases g' : (i, j) ∈ t.kids ∧ ((t.br i).trim m).has (t.br j).tail (t.br j).tailHash = false
      · rw [byes2 j g']; exact ⟨rfl, rfl⟩
      · rw [bno2 j g g']; exact ⟨rfl, rfl⟩
  have tail2 : ∀ j, j ≠ i → (t2.br j).tail = (t.br j).tail := by
    intro j g
    by_cases g' : (i, j) ∈ t.kids ∧ ((t.br i).trim m).has (t.br j).tail (t.br j).tailHash = false
    · rw [byes2 j g']
    · rw [bno2 j g g']
  have same2 : ∀ j ∈ t.live, ∀ h, t2.knot j h true = t.knot j h true := fun j hj h =>
    inv.same uq inv2 hj (by rw [live2]; exact hj) (head2 j).1 (head2 j).2 h
  have root2i : (t2.br i).root = some r := by rw [bi2]; exact er
  -- what is pruned stays so
  have pr2 : ∀ y, Anc t i y → t2.br y = t.br y ∧ Pruned t2 y := by
    intro y a
    have ry := a.rank inv hrank hi
    have ly := a.live inv hi
    have e : t2.br y = t.br y := bno2 y (by rintro rfl; omega) (fun g => by have := (kidNe y g.1).2.2; omega)
    refine ⟨e, ?_⟩
    intro z ez g k ek
    rw [e] at ez g ek ⊢
    have lz := (inv.root_live ly ez).1
    rw [same2 z lz] at ek
    exact hp y a z ez g k ek
  have pri : Pruned t2 i := by
    intro z ez g k ek
    rw [root2i] at ez
    obtain rfl : r = z := by simpa using ez
    rw [bi2] at g ek ⊢
    rw [same2 r hr] at ek
    rw [trim_hashAt _ m1 (by simp [Br.trim])]
    exact m5 (by simpa [Br.trim] using g) k ek
  have kid2 : ∀ j, (t.br j).root = some i → ∀ y, Anc t2 j y → y = i ∨ Anc t2 i y := by
    intro j ej y a
    cases a with
    | root e =>
      rcases root2 _ _ e with e' | ⟨-, rfl⟩
      · rw [ej] at e'
        exact Or.inl (by simpa using e'.symm)
      · exact Or.inr (Anc.root root2i)
    | step e a' =>
      rcases root2 _ _ e with e' | ⟨-, rfl⟩
      · rw [ej] at e'
        rename_i z
        obtain rfl : i = z := by simpa using e'
        exact Or.inr a'
      · exact Or.inr (Anc.step root2i a')
  have mono2 : ∀ j, (t.br j).tail ≤ (t2.br j).tail := by
    intro j
    by_cases g : j = i
    · subst g; rw [bi2]; exact m1
    · rw [tail2 j g]
  have keep2 : ∀ j p, (t.br j).root = some p → p ≠ i → (t2.br j).root = some p := by
    intro j p e g
    by_cases gi : j = i
    · subst gi; rw [bi2]; exact e
    · rw [bno2 j gi]
      · exact e
      · intro c
        have := ((inv.kids _ _).mp c.1).2
        rw [e] at this
        exact g (by simpa using this)
  by_cases c2 : m = (t.br i).head
  swap
  · have lean2 : Lean t t2 := ⟨main2, M.next, M.disk, fun j h => by rw [live2] at h; exact h, fun j _ => head2 j, fun j _ y a => anc2 j y a,
      fun j _ => mono2 j, fun j _ g => by
        rw [(head2 j).1]
        by_cases gi : j = i
        · subst gi; rw [bi2]; simp only [Br.trim]; omega
        · rw [tail2 j gi]; exact g⟩
    rw [if_neg (by rw [bi2]; simp only [Br.size, Br.trim]; omega)]
    refine ⟨t2, rfl, inv2, lean2, fun j h _ _ => by rw [live2]; exact h, fun j _ p e g _ => keep2 j p e g,
      fun _ => ⟨pri, fun y a => (pr2 y (anc2 i y a)).2⟩, ?_, fun j hj h => absurd (by rw [live2]; exact hj) h⟩
    intro j hj ej y a
    rcases kid2 j ej y a with rfl | a
    · exact pri
    · exact (pr2 y (anc2 i y a)).2
  · rw [if_pos ⟨by rw [main2]; exact hm, by rw [bi2]; simp only [Br.size, Br.trim]; omega⟩]
    have leaf : ∀ v, (i, v) ∉ t2.kids := by
      intro v hv
      obtain ⟨-, -, k, e1, -⟩ := inv2.kid (by rw [main2]; exact hm) hv
      have := (inv2.ok i (by rw [live2]; exact hi)).range e1
      rw [bi2] at this
      simp only [Br.trim] at this
      omega
    obtain ⟨t3, e3, R⟩ := inv2.removeBranch (by rw [live2]; exact hi) (by rw [main2]; exact hm) leaf
    rw [e3]
    have inv3 := inv2.removed (by rw [main2]; exact hm) leaf R
    have mem3 : ∀ j, j ∈ t3.live ↔ j ∈ t.live ∧ j ≠ i := by intro j; rw [R.live, live2]; simp
    have root3 : ∀ x z, x ∈ t3.live → (t3.br x).root = some z → (t2.br x).root = some z ∧ z ∈ t3.live := by
      intro x z hx e
      refine ⟨?_, (inv3.root_live hx e).1⟩
      rw [R.br x ((mem3 x).mp hx).2] at e; exact e
    have anc3 : ∀ x y, x ∈ t3.live → Anc t3 x y → Anc t2 x y := by
      intro x y hx a
      exact Anc.of_roots (P := fun x => x ∈ t3.live) (fun x z hx e => ⟨Anc.root (root3 x z hx e).1, (root3 x z hx e).2⟩) a hx
    have same3 : ∀ j ∈ t3.live, ∀ h, t3.knot j h true = t2.knot j h true := fun j hj h => by
      have e := R.br j ((mem3 j).mp hj).2
      exact inv2.same uq inv3 (by rw [live2]; exact ((mem3 j).mp hj).1) hj (by rw [e]) (by rw [e]) h
    have pr3 : ∀ y, Anc t i y → y ∈ t3.live → Pruned t3 y := by
      intro y a hy z ez g k ek
      have e := R.br y ((mem3 y).mp hy).2
      obtain ⟨ez', lz⟩ := root3 y z hy ez
      rw [e] at g ek ⊢
      rw [same3 z lz] at ek
      exact (pr2 y a).2 z ez' g k ek
    have lean3 : Lean t t3 := by
      refine ⟨R.main.trans main2, R.next.trans M.next, R.disk.trans M.disk, fun j h => ((mem3 j).mp h).1, ?_,
        fun j hj y a => anc2 j y (anc3 j y hj a), ?_, ?_⟩
      · intro j hj; rw [R.br j ((mem3 j).mp hj).2]; exact head2 j
      · intro j hj; rw [R.br j ((mem3 j).mp hj).2]; exact mono2 j
      · intro j hj g; rw [R.br j ((mem3 j).mp hj).2, (head2 j).1, tail2 j ((mem3 j).mp hj).2]; exact g
    refine ⟨t3, rfl, inv3, lean3, ?_, ?_, ?_, ?_, ?_⟩
    · intro j hj ne _; exact (mem3 j).mpr ⟨hj, ne⟩
    · intro j hj p e g _
      rw [R.br j ((mem3 j).mp hj).2]; exact keep2 j p e g
    · intro h; exact absurd rfl ((mem3 i).mp h).2
    · intro j hj ej y a
      have hy := a.live inv3 hj
      rcases kid2 j ej y (anc3 j y hj a) with rfl | a'
      · exact absurd rfl ((mem3 _).mp hy).2
      · exact pr3 y (anc2 i y a') hy
    · intro j hj hn
      obtain rfl : j = i := by by_contra g; exact hn ((mem3 j).mpr ⟨hj, g⟩)
      obtain ⟨a, a1, a2⟩ := m4 (t.br j).head (by omega) (by omega)
      exact ⟨by omega, r, a, Anc.root er, a1, by rw [a2, ← ok.last]⟩

theorem Up.length_root {t : Tree} {i r : Nat} {l : List Nat} (u : Up t i l) (e : (t.br i).root = some r) : ∃ l', l = r :: l' ∧ Up t r l' := by
  cases u with
  | top e' => rw [e] at e'; exact absurd e' (by simp)
  | @up _ r' l e' _ u =>
    rw [e] at e'
    obtain rfl : r = r' := by simpa using e'
    exact ⟨l, rfl, u⟩

/-- Pruning a branch succeeds, changes what no branch reads, and removes it only if it adds nothing to what it stems from. -/
theorem prune_spec (uq : Uniq K) : ∀ (f : Nat) (t : Tree) (i : Nat) (l : List Nat), Inv K t t.main → i ∈ t.live → Up t i l → l.length < f →
    ∃ t', Tree.prune f i t = some t' ∧ PruneRes K t t' i := by
  intro f
  induction f with
  | zero => intro t i l _ _ _ h; omega
  | succ f ih =>
    intro t i l inv hi u hl
    cases er : (t.br i).root with
    | none =>
      obtain rfl := inv.root_none hi er
      exact ⟨t, main_prune inv f, prune_main_res inv⟩
    | some r =>
      obtain ⟨hr, hold, hm⟩ := inv.root_live hi er
      obtain ⟨l', rfl, u'⟩ := u.length_root er
      simp only [List.length_cons, Nat.add_lt_add_iff_right] at hl
      obtain ⟨t1, e1, P⟩ := ih t r l' inv hr u' hl
      have nri : ¬ Anc t r i := fun a => Anc.irrefl inv hi (Anc.step er a)
      have hir : i ≠ r := by rintro rfl; exact Anc.irrefl inv hi (Anc.root er)
      have hi1 : i ∈ t1.live := P.stays i hi hir nri
      have hm1 : i ≠ t1.main := by rw [P.lean.main]; exact hm
      obtain ⟨r1, hr1, er1, -⟩ := P.inv.anchored i hi1 hm1
      obtain ⟨t2, e2, Q⟩ := prune_one uq P.inv hi1 er1 (P.kid i hi1 er)
      refine ⟨t2, ?_, Q.inv, P.lean.trans Q.lean, ?_, ?_, Q.own, ?_, ?_⟩
      · rw [Tree.prune, er]
        dsimp only
        rw [e1, Option.bind_some]
        exact e2
      · intro j hj ne na
        refine Q.stays j (P.stays j hj ?_ (fun a => na (Anc.step er a))) ne (fun a => na (P.lean.anc i hi1 j a))
        rintro rfl; exact na (Anc.root er)
      · intro j hj p e g na
        have hj1 := Q.lean.live j hj
        have := P.keep j hj1 p e (by rintro rfl; exact na (Anc.root er)) (fun a => na (Anc.step er a))
        exact Q.keep j hj p this g (fun a => na (P.lean.anc i hi1 p a))
      · intro j hj ej y a
        have hj1 := Q.lean.live j hj
        have := P.keep j hj1 i ej hir nri
        exact Q.kid j hj this y a
      · intro j hj hn
        by_cases g : j ∈ t1.live
        · exact P.lean.stale uq inv P.inv g (Q.fate j g hn)
        · exact P.fate j hj g

end Verif.Fork
