import Verif.Fork.ForkSwap

/-! Making a branch the main branch. -/

namespace Verif.Fork

variable {K : Knot → Prop}

/-- What the exchange of a branch and its root needs, and what it keeps. -/
structure Fits (t : Tree) (i r : Nat) : Prop where
  le : (t.br r).tail ≤ (t.br i).tail
  lt : r ≠ t.main → (t.br r).tail < (t.br i).tail
  head : (t.br i).tail ≤ (t.br r).head
  hash : (t.br r).hashAt (t.br i).tail = (t.br i).tailHash

theorem Swapped.keep {t t' : Tree} {i r : Nat} (S : Swapped t t' i r) {j : Nat} (hj : j ≠ i) :
    (t'.br j).tail = (t.br j).tail ∧ (t'.br j).tailHash = (t.br j).tailHash ∧ (t'.br j).knots = (t.br j).knots ∧
    (t'.br j).head = (t.br j).head ∧ (t'.br j).headHash = (t.br j).headHash := by
  by_cases c : j = r
  · subst c; rw [S.br]; exact ⟨rfl, rfl, rfl, rfl, rfl⟩
  · by_cases c' : j ∈ t.live ∧ (t.br j).root = some r ∧ (t.br r).has (t.br j).tail (t.br j).tailHash = false
    · rw [S.yes j hj c c']; exact ⟨rfl, rfl, rfl, rfl, rfl⟩
    · rw [S.no j hj c c']; exact ⟨rfl, rfl, rfl, rfl, rfl⟩

theorem Swapped.head {t t' : Tree} {i r : Nat} (S : Swapped t t' i r) (j : Nat) :
    (t'.br j).head = (t.br j).head ∧ (t'.br j).headHash = (t.br j).headHash := by
  by_cases c : j = i
  · subst c; rw [S.bi]; exact ⟨rfl, rfl⟩
  · exact ⟨(S.keep c).2.2.2.1, (S.keep c).2.2.2.2⟩

theorem Swapped.ok {t t' : Tree} {i r : Nat} (inv : Inv K t i) (hi : i ∈ t.live) (hr : r ∈ t.live) (F : Fits t i r) (S : Swapped t t' i r)
    {j : Nat} (hj : j ∈ t.live) : BrOk K (t'.br j) := by
  by_cases c : j = i
  · subst c
    rw [S.bi]
    have := (inv.ok j hi).join (inv.ok r hr) (Nat.le_refl _) F.le F.head F.hash
    exact ⟨this.le, this.out, this.mem, this.last⟩
  · obtain ⟨k1, k2, k3, k4, k5⟩ := S.keep c
    have ok := inv.ok j hj
    have hh : ∀ h, (t'.br j).hashAt h = (t.br j).hashAt h := by intro h; simp only [Br.hashAt, k1, k2, k3]
    refine ⟨by rw [k1, k4]; exact ok.le, ?_, ?_, by rw [k4, k5, hh]; exact ok.last⟩
    · intro h g; rw [k1, k4] at g; rw [k3]; exact ok.out h g
    · intro h g1 g2; rw [k1] at g1; rw [k4] at g2; rw [k3, hh]; exact ok.mem h g1 g2

theorem Swapped.rank {t t' : Tree} {i r : Nat} (inv : Inv K t i) (hi : i ∈ t.live) (hr : r ∈ t.live) (er : (t.br i).root = some r)
    (S : Swapped t t' i r) : ∃ rank : Nat → Nat, ∀ j ∈ t'.live, ∀ q, (t'.br j).root = some q → rank q < rank j := by
  obtain ⟨rank, hrank⟩ := inv.rank
  have rri := hrank i hi r er
  refine ⟨fun j => if j = i then 2 * rank r + 1 else 2 * rank j + 2, ?_⟩
  intro j hj q eq
  rw [S.live] at hj
  by_cases c : j = i
  · subst c
    rw [S.bi] at eq
    have := hrank r hr q eq
    simp only [if_true]
    rw [if_neg (by rintro rfl; omega)]; omega
  · simp only [if_neg c]
    by_cases c1 : j = r
    · subst c1
      rw [S.br] at eq
      obtain rfl : i = q := by simpa using eq
      simp only [if_true]; omega
    · by_cases c' : j ∈ t.live ∧ (t.br j).root = some r ∧ (t.br r).has (t.br j).tail (t.br j).tailHash = false
      · rw [S.yes j c c1 c'] at eq
        obtain rfl : i = q := by simpa using eq
        have := hrank j hj r c'.2.1
        simp only [if_true]; omega
      · rw [S.no j c c1 c'] at eq
        have := hrank j hj q eq
        split
        · rename_i h; subst h; omega
        · omega

/-- The blocks the branch has after the exchange. -/
theorem Swapped.local {t t' : Tree} {i r : Nat} (inv : Inv K t i) (hi : i ∈ t.live) (hr : r ∈ t.live) (F : Fits t i r) (S : Swapped t t' i r)
    {h : Nat} : (∀ k, (t.br i).knots h = some k → (t'.br i).knots h = some k) ∧
      (h = (t.br i).tail → (t.br r).tail < h → ∃ k, (t'.br i).knots h = some k ∧ k.hash = (t.br i).tailHash) := by
  rw [S.bi]
  constructor
  · intro k e
    have := ((inv.ok i hi).range e).1
    simp only [Br.join]
    rw [if_neg (by omega)]; exact e
  · rintro rfl g
    obtain ⟨k, e1, -, -, -, e2⟩ := (inv.ok r hr).get g F.head
    refine ⟨k, ?_, by rw [e2, F.hash]⟩
    simp only [Br.join]
    rw [if_pos ⟨g, Nat.le_refl _⟩]; exact e1

theorem Inv.swap_mid {t t' : Tree} {i r : Nat} (inv : Inv K t i) (hi : i ∈ t.live) (er : (t.br i).root = some r) (hrm : r ≠ t.main)
    (F : Fits t i r) (S : Swapped t t' i r) : Inv K t' i := by
  obtain ⟨hr, -, hm⟩ := inv.root_live hi er
  have hir : i ≠ r := by rintro rfl; exact Anc.irrefl inv hi (Anc.root er)
  have moved : ∀ j, ¬ (j ∈ t.live ∧ (t.br j).root = some r ∧ (t.br r).has (t.br j).tail (t.br j).tailHash = false) := by
    rintro j ⟨h1, h2, h3⟩
    rcases (inv.root_live h1 h2).2.1 with ⟨k, e1, e2⟩ | ⟨h, -⟩ | ⟨h, -⟩
    · have := ((inv.ok r hr).has_iff _ _).mpr ⟨k, e1, e2⟩
      rw [h3] at this; exact absurd this (by simp)
    · exact hrm h
    · exact hir h.symm
  have bm : t'.br t'.main = t.br t.main := by rw [S.main]; exact S.no _ (Ne.symm hm) (Ne.symm hrm) (moved _)
  have ti : (t'.br i).tail = (t.br r).tail := by rw [S.bi]; rfl
  have xi : (t'.br i).tailHash = (t.br r).tailHash := by rw [S.bi]; simp [Br.join, Br.hashAt]
  refine ⟨by rw [S.disk]; exact inv.disk, fun j hj => S.ok inv hi hr F (by rw [← S.live]; exact hj), by rw [S.main, S.live]; exact inv.main_live,
    by rw [bm]; exact inv.main_root, by rw [bm, S.disk]; exact inv.size, by rw [bm, S.disk]; exact inv.top, ?_, S.kids,
    S.rank inv hi hr er, by rw [S.live]; exact inv.nodup, by rw [S.live, S.next]; exact inv.ids⟩
  intro j hj nm
  rw [S.live] at hj
  rw [S.main] at nm
  -- a place in a branch other than `i` stays
  have keep : ∀ q h x, q ≠ i → Holds t i q h x → Holds t' i q h x := by
    intro q h x hq H
    rcases H with H | ⟨h1, h2, h3⟩ | ⟨h1, -⟩
    · left; rw [(S.keep hq).2.2.1]; exact H
    · right; left; rw [bm, S.main, S.disk]; exact ⟨h1, h2, h3⟩
    · exact absurd h1 hq
  by_cases c : j = i
  · subst c
    obtain ⟨q, hq, eq, H⟩ := inv.anchored r hr hrm
    refine ⟨q, by rw [S.live]; exact hq, by rw [S.bi]; exact eq, ?_⟩
    rw [ti, xi]
    exact keep _ _ _ (by rintro rfl; exact Anc.irrefl inv hi (Anc.step er (Anc.root eq))) H
  · obtain ⟨k1, k2, -⟩ := S.keep c
    rw [k1, k2]
    by_cases c1 : j = r
    · subst c1
      exact ⟨i, by rw [S.live]; exact hi, by rw [S.br], Or.inr (Or.inr ⟨rfl, ti.symm, xi.symm⟩)⟩
    · obtain ⟨q, hq, eq, H⟩ := inv.anchored j hj nm
      refine ⟨q, by rw [S.live]; exact hq, by rw [S.no j c c1 (moved j)]; exact eq, ?_⟩
      by_cases cq : q = i
      · subst cq
        rcases H with ⟨k, e1, e2⟩ | ⟨h1, -⟩ | ⟨-, h1, h2⟩
        · exact Or.inl ⟨k, (S.local inv hi hr F).1 k e1, e2⟩
        · exact absurd h1 hm
        · left
          rw [h2]
          exact (S.local inv hi hr F).2 h1 (by have := F.lt hrm; omega)
      · exact keep _ _ _ cq H

theorem Inv.swap_last {t t' : Tree} {i : Nat} (inv : Inv K t i) (hi : i ∈ t.live) (er : (t.br i).root = some t.main)
    (F : Fits t i t.main) (S : Swapped t t' i t.main) : Inv K { t' with main := i } i := by
  obtain ⟨hr, -, hm⟩ := inv.root_live hi er
  have ti : (t'.br i).tail = (t.br t.main).tail := by rw [S.bi]; rfl
  have xi : (t'.br i).tailHash = (t.br t.main).tailHash := by rw [S.bi]; simp [Br.join, Br.hashAt]
  obtain ⟨p, p1, p2⟩ := inv.top
  have onDisk : ∀ h x, h ≤ (t.br t.main).tail → (∃ k, t.disk[h]? = some k ∧ k.hash = x) → Holds { t' with main := i } i i h x := by
    intro h x g ⟨k, e1, e2⟩
    refine Or.inr (Or.inl ⟨rfl, ?_, k, ?_, e2⟩)
    · dsimp only; rw [ti]; exact g
    · dsimp only; rw [S.disk]; exact e1
  refine ⟨by dsimp only; rw [S.disk]; exact inv.disk, fun j hj => S.ok inv hi hr F (by rw [← S.live]; exact hj),
    by dsimp only; rw [S.live]; exact hi,
    by dsimp only; rw [S.bi]; exact inv.main_root, by dsimp only; rw [ti, S.disk]; exact inv.size,
    by dsimp only; rw [ti, xi, S.disk]; exact ⟨p, p1, p2⟩, ?_, S.kids,
    by have := S.rank inv hi hr er; exact this, by dsimp only; rw [S.live]; exact inv.nodup, by dsimp only; rw [S.live, S.next]; exact inv.ids⟩
  intro j hj nm
  dsimp only at hj nm ⊢
  rw [S.live] at hj ⊢
  obtain ⟨k1, k2, -⟩ := S.keep nm
  rw [k1, k2]
  by_cases c1 : j = t.main
  · subst c1
    exact ⟨i, hi, by rw [S.br], onDisk _ _ (Nat.le_refl _) ⟨p, p1, p2⟩⟩
  · by_cases c' : j ∈ t.live ∧ (t.br j).root = some t.main ∧ (t.br t.main).has (t.br j).tail (t.br j).tailHash = false
    · refine ⟨i, hi, by rw [S.yes j nm c1 c'], ?_⟩
      rcases (inv.root_live c'.1 c'.2.1).2.1 with ⟨k, e1, e2⟩ | ⟨-, h1, h2⟩ | ⟨h, -⟩
      · have := ((inv.ok _ hr).has_iff _ _).mpr ⟨k, e1, e2⟩
        rw [c'.2.2] at this; exact absurd this (by simp)
      · exact onDisk _ _ h1 h2
      · exact absurd h.symm hm
    · obtain ⟨q, hq, eq, H⟩ := inv.anchored j hj c1
      refine ⟨q, hq, by rw [S.no j nm c1 c']; exact eq, ?_⟩
      by_cases cq : q = i
      · subst cq
        rcases H with ⟨k, e1, e2⟩ | ⟨h1, -⟩ | ⟨-, h1, h2⟩
        · exact Or.inl ⟨k, (S.local inv hi hr F).1 k e1, e2⟩
        · exact absurd h1 hm
        · by_cases g : (t.br t.main).tail < (t.br j).tail
          · left
            dsimp only
            rw [h2]
            exact (S.local inv hi hr F).2 h1 g
          · have e := F.le
            have e' : (t.br q).tail = (t.br t.main).tail := by omega
            have hx := F.hash
            rw [Br.hashAt, if_pos e'] at hx
            refine onDisk _ _ (by omega) ⟨p, by rw [h1, e']; exact p1, by rw [p2, h2, hx]⟩
      · left
        dsimp only
        rw [(S.keep cq).2.2.1]
        rcases H with H | ⟨rfl, -⟩ | ⟨h, -⟩
        · exact H
        · have : (t.br t.main).has (t.br j).tail (t.br j).tailHash = true := by
            by_contra g; exact c' ⟨hj, eq, by simpa using g⟩
          exact ((inv.ok _ hr).has_iff _ _).mp this
        · exact absurd h cq

theorem Up.mem_anc {t : Tree} {i : Nat} {l : List Nat} (u : Up t i l) : ∀ y ∈ l, Anc t i y := by
  induction u with
  | top _ => intro y h; exact absurd h (by simp)
  | up e _ _ ih =>
    intro y h
    rcases List.mem_cons.mp h with rfl | h
    · exact Anc.root e
    · exact Anc.step e (ih y h)

theorem Up.congr {t t' : Tree} {i i' : Nat} {l : List Nat} (u : Up t i l) (hl : t'.live = t.live) (hi : (t'.br i').root = (t.br i).root)
    (h : ∀ y ∈ l, (t'.br y).root = (t.br y).root) : Up t' i' l := by
  induction u generalizing i' with
  | top e => exact Up.top (by rw [hi]; exact e)
  | up e hr _ ih =>
    exact Up.up (by rw [hi]; exact e) (by rw [hl]; exact hr) (ih (h _ (List.mem_cons_self ..)) (fun y hy => h y (List.mem_cons_of_mem _ hy)))

/-- Roots are exchanged until the branch has none. -/
theorem exchangeAll_spec : ∀ (f : Nat) (l : List Nat) (t : Tree) (i : Nat), Inv K t i → i ∈ t.live → i ≠ t.main → Up t i l → l.length < f →
    (t.br t.main).tail ≤ (t.br i).tail → (∀ y ∈ l, (t.br t.main).tail ≤ (t.br y).tail) →
    ∃ t', Tree.exchangeAll i f t = some (t', true) ∧ Inv K { t' with main := i } i ∧ t'.live = t.live ∧ t'.disk = t.disk ∧ t'.next = t.next ∧
      (∀ j, (t'.br j).head = (t.br j).head ∧ (t'.br j).headHash = (t.br j).headHash) := by
  intro f
  induction f with
  | zero => intro l t i _ _ _ _ h; omega
  | succ f ih =>
    intro l t i inv hi hm u hl low lows
    obtain ⟨r, hr, er, -⟩ := inv.anchored i hi hm
    obtain ⟨l', rfl, u'⟩ := u.length_root er
    simp only [List.length_cons, Nat.add_lt_add_iff_right] at hl
    obtain ⟨f1, f2, f3, f4, t1, e1, S⟩ := exchange_spec inv hi er low
    have F : Fits t i r := ⟨f1, f2, f3, f4⟩
    have hir : i ≠ r := by rintro rfl; exact Anc.irrefl inv hi (Anc.root er)
    rw [Tree.exchangeAll, er]
    dsimp only
    rw [e1, Option.bind_some]
    simp only [if_true]
    by_cases hrm : r = t.main
    · subst hrm
      cases u' with
      | up e _ _ => rw [inv.main_root] at e; exact absurd e (by simp)
      | top e =>
        obtain ⟨g, rfl⟩ : ∃ g, f = g + 1 := ⟨f - 1, by omega⟩
        refine ⟨t1, ?_, inv.swap_last hi er F S, S.live, S.disk, S.next, S.head⟩
        rw [Tree.exchangeAll, S.bi]
        dsimp only
        rw [e]
    · have inv1 := inv.swap_mid hi er hrm F S
      have sub : ∀ y ∈ l', Anc t r y := u'.mem_anc
      have roots : ∀ y ∈ l', (t1.br y) = t.br y := by
        intro y hy
        have a := sub y hy
        refine S.no y ?_ ?_ ?_
        · rintro rfl; exact Anc.irrefl inv hi (Anc.step er a)
        · rintro rfl; exact Anc.irrefl inv hr a
        · rintro ⟨h1, h2, -⟩
          exact Anc.irrefl inv h1 (Anc.step h2 a)
      have main1 : t1.br t1.main = t.br t.main := by
        rw [S.main]
        refine S.no _ (Ne.symm hm) (Ne.symm hrm) ?_
        rintro ⟨-, h2, -⟩
        rw [inv.main_root] at h2; exact absurd h2 (by simp)
      have ti : (t1.br i).tail = (t.br r).tail := by rw [S.bi]; rfl
      obtain ⟨t', e', I, a1, a2, a3, a4⟩ := ih l' t1 i inv1 (by rw [S.live]; exact hi) (by rw [S.main]; exact hm)
        (u'.congr S.live (by rw [S.bi]) (fun y hy => by rw [roots y hy])) hl
        (by rw [main1, ti]; exact lows r (List.mem_cons_self ..))
        (fun y hy => by rw [main1, roots y hy]; exact lows y (List.mem_cons_of_mem _ hy))
      exact ⟨t', e', I, a1.trans S.live, a2.trans S.disk, a3.trans S.next,
        fun j => ⟨(a4 j).1.trans (S.head j).1, (a4 j).2.trans (S.head j).2⟩⟩

/-- The lowest of the branches above one, itself a child of the main branch. -/
theorem Inv.bottom {t : Tree} (inv : Inv K t t.main) {i : Nat} {l : List Nat} (u : Up t i l) (hi : i ∈ t.live) (hm : i ≠ t.main) :
    ∃ c ∈ t.live, (t.br c).root = some t.main ∧ (c = i ∨ Anc t i c) ∧ (t.br c).tail ≤ (t.br i).tail ∧
      (∀ y ∈ l, (t.br c).tail ≤ (t.br y).tail ∨ y = t.main) ∧
      (∀ h, h ≤ (t.br c).tail + 1 → t.knot i h true = t.knot c h true) := by
  induction u with
  | top e => exact absurd (inv.root_none hi e) hm
  | @up i r l e hr u ih =>
    by_cases c : r = t.main
    · subst c
      cases u with
      | top e' => exact ⟨i, hi, e, Or.inl rfl, Nat.le_refl _, fun y hy => Or.inr (by simpa using hy), fun h _ => rfl⟩
      | up e' _ _ => rw [inv.main_root] at e'; exact absurd e' (by simp)
    · obtain ⟨b, b1, b2, b3, b4, b5, b6⟩ := ih hr c
      have lt : (t.br r).tail < (t.br i).tail := by
        rcases (inv.root_live hi e).2.1 with ⟨k, e1, -⟩ | ⟨h, -⟩ | ⟨h, -⟩
        · exact ((inv.ok r hr).range e1).1
        · exact absurd h c
        · exact absurd h c
      refine ⟨b, b1, b2, Or.inr ?_, by omega, ?_, ?_⟩
      · rcases b3 with rfl | b3
        · exact Anc.root e
        · exact Anc.step e b3
      · intro y hy
        rcases List.mem_cons.mp hy with rfl | hy
        · exact Or.inl b4
        · exact b5 y hy
      · intro h g
        rw [(inv.below hi e (by omega)).1]
        exact b6 h g

theorem OnPath.lows (uq : Uniq K) {t : Tree} (inv : Inv K t t.main) {i : Nat} {l : List Nat} (u : Up t i l) (hi : i ∈ t.live) (hm : i ≠ t.main)
    (own : Pruned t i) (hp : ∀ y, Anc t i y → Pruned t y) (p : OnPath t i) :
    (t.br t.main).tail ≤ (t.br i).tail ∧ ∀ y ∈ l, (t.br t.main).tail ≤ (t.br y).tail := by
  obtain ⟨c, c1, c2, c3, c4, c5, c6⟩ := inv.bottom u hi hm
  have key : (t.br t.main).tail ≤ (t.br c).tail := by
    by_contra g
    obtain ⟨k, k1, k2⟩ := p
    obtain ⟨q, q1, q2⟩ := inv.top
    have hh := (inv.reads_of hi k1).1
    have e := inv.same_from uq inv inv.main_live hi ((inv.main_low (Nat.le_refl _)).trans q1) k1 (by rw [k2, q2]) ((t.br c).tail + 1) (by omega)
    rw [c6 _ (Nat.le_refl _)] at e
    obtain ⟨a, Ra⟩ := inv.reads inv.main_live (h := (t.br c).tail + 1) (by have := (inv.ok _ inv.main_live).le; omega)
    rw [Ra.read] at e
    have hc := (inv.reads_of c1 e).1
    obtain ⟨b, b1, -, -, -, b2⟩ := (inv.ok c c1).get (h := (t.br c).tail + 1) (by omega) hc
    rw [Tree.knot_local b1] at e
    obtain rfl : b = a := by simpa using e
    have pc : Pruned t c := by
      rcases c3 with rfl | c3
      · exact own
      · exact hp c c3
    exact pc t.main c2 (by omega) b Ra.read b2
  refine ⟨by omega, ?_⟩
  intro y hy
  rcases c5 y hy with h | rfl
  · omega
  · exact Nat.le_refl _

/-- A branch that has the block the main branch stands on, and a block of its own beyond its roots, or none at all, becomes the main branch. -/
theorem switch_spec (uq : Uniq K) {t : Tree} (inv : Inv K t t.main) {i : Nat} (hi : i ∈ t.live) (p : OnPath t i) (ns : ¬ Stale t i) :
    ∃ t', t.switchTo i = some (t', true) ∧ Inv K t' t'.main ∧ t'.main = i ∧ t'.disk = t.disk ∧ t'.next = t.next ∧
      (∀ j ∈ t'.live, j ∈ t.live) ∧ (∀ j ∈ t.live, j ∉ t'.live → Stale t j) ∧
      (∀ j ∈ t'.live, (t'.br j).head = (t.br j).head ∧ (t'.br j).headHash = (t.br j).headHash) := by
  unfold Tree.switchTo
  by_cases c : i = t.main
  · rw [if_pos c]
    exact ⟨t, rfl, inv, c.symm, rfl, rfl, fun _ h => h, fun j h1 h2 => absurd h1 h2, fun _ _ => ⟨rfl, rfl⟩⟩
  rw [if_neg c]
  obtain ⟨l, u, hl⟩ := inv.up i hi
  obtain ⟨t1, e1, P⟩ := prune_spec uq (t.next + 1) t i l inv hi u (by omega)
  rw [e1, Option.bind_some]
  have hi1 : i ∈ t1.live := by by_contra g; exact ns (P.fate i hi g)
  have hm1 : i ≠ t1.main := by rw [P.lean.main]; exact c
  obtain ⟨l1, u1, hl1⟩ := P.inv.up i hi1
  have main1 : (t1.br t1.main).tail = (t.br t.main).tail ∧ (t1.br t1.main).tailHash = (t.br t.main).tailHash := by
    have s1 := P.inv.size
    have s2 := inv.size
    rw [P.lean.disk] at s1
    have e : (t1.br t1.main).tail = (t.br t.main).tail := by omega
    refine ⟨e, ?_⟩
    obtain ⟨a, a1, a2⟩ := P.inv.top
    obtain ⟨b, b1, b2⟩ := inv.top
    rw [P.lean.disk, e, b1] at a1
    obtain rfl : b = a := by simpa using a1
    rw [← a2, b2]
  have p1 : OnPath t1 i := by
    obtain ⟨k, k1, k2⟩ := p
    refine ⟨k, ?_, by rw [main1.2]; exact k2⟩
    rw [main1.1, inv.same uq P.inv hi hi1 (P.lean.head i hi1).1 (P.lean.head i hi1).2]; exact k1
  obtain ⟨own, hp⟩ := P.own hi1
  obtain ⟨w1, w2⟩ := p1.lows uq P.inv u1 hi1 hm1 own hp
  obtain ⟨t2, e2, I, a1, a2, a3, a4⟩ := exchangeAll_spec (t1.next + 1) l1 t1 i (P.inv.reseat i) hi1 hm1 u1 (by omega) w1 w2
  rw [e2, Option.bind_some]
  have lk := I.linked
  have : t2.linked i = true := lk
  simp only [this, if_true]
  refine ⟨{ t2 with main := i }, rfl, I, rfl, a2.trans P.lean.disk, a3.trans P.lean.next, ?_, ?_, ?_⟩
  · intro j hj; exact P.lean.live j (by rw [← a1]; exact hj)
  · intro j h1 h2; exact P.fate j h1 (by rw [← a1]; exact h2)
  · intro j hj
    have hj1 : j ∈ t1.live := by rw [← a1]; exact hj
    exact ⟨(a4 j).1.trans (P.lean.head j hj1).1, (a4 j).2.trans (P.lean.head j hj1).2⟩

end Verif.Fork
