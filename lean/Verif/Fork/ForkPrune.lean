import Verif.Fork.ForkConfirm

/-! Pruning: blocks a branch shares with its root are removed from it, empty branches are removed. -/

namespace Verif.Fork

variable {K : Knot → Prop}

theorem Anc.trans {t : Tree} {x y z : Nat} (a : Anc t x y) (b : Anc t y z) : Anc t x z := by
  induction a with
  | root e => exact Anc.step e b
  | step e _ ih => exact Anc.step e (ih b)

theorem Anc.live {t : Tree} {s : Nat} (inv : Inv K t s) {x y : Nat} (a : Anc t x y) (hx : x ∈ t.live) : y ∈ t.live := by
  induction a with
  | root e => exact (inv.root_live hx e).1
  | step e _ ih => exact ih (inv.root_live hx e).1

theorem Anc.rank {t : Tree} {s : Nat} (inv : Inv K t s) {rank : Nat → Nat} (hr : ∀ i ∈ t.live, ∀ r, (t.br i).root = some r → rank r < rank i)
    {x y : Nat} (a : Anc t x y) (hx : x ∈ t.live) : rank y < rank x := by
  induction a with
  | root e => exact hr _ hx _ e
  | step e _ ih =>
    have := hr _ hx _ e
    have := ih (inv.root_live hx e).1
    omega

theorem Anc.irrefl {t : Tree} {s : Nat} (inv : Inv K t s) {x : Nat} (hx : x ∈ t.live) : ¬ Anc t x x := by
  obtain ⟨rank, hr⟩ := inv.rank
  intro a
  have := a.rank inv hr hx
  omega

theorem walk_congr {t t' : Tree} (hd : t'.disk = t.disk) (h : Nat) : ∀ (f : Nat) (o : Option Nat),
    (∀ y, o = some y → t'.br y = t.br y ∧ ∀ z, Anc t y z → t'.br z = t.br z) → t'.walk f o h = t.walk f o h := by
  intro f
  induction f with
  | zero => intro o _; cases o <;> simp [Tree.walk, hd]
  | succ f ih =>
    intro o H
    cases o with
    | none => simp [Tree.walk, hd]
    | some r =>
      obtain ⟨e, e'⟩ := H r rfl
      rw [Tree.walk, Tree.walk, e, ih (t.br r).root (by
        intro y ey
        exact ⟨e' y (Anc.root ey), fun z az => e' z (Anc.step ey az)⟩)]

theorem find_congr {t t' : Tree} (hd : t'.disk = t.disk) (hn : t'.next = t.next) {r : Nat} (h : Nat) (e : t'.br r = t.br r)
    (e' : ∀ z, Anc t r z → t'.br z = t.br z) : t'.find r h = t.find r h ∧ t'.knot r h true = t.knot r h true := by
  have : t'.find r h = t.find r h := by
    unfold Tree.find
    rw [e, hn, walk_congr hd h _ _ (fun y ey => ⟨e' y (Anc.root ey), fun z az => e' z (Anc.step ey az)⟩)]
  refine ⟨this, ?_⟩
  unfold Tree.knot
  rw [this, e]

theorem trim_hashAt (b : Br) {m h : Nat} (h0 : b.tail ≤ m) (g : m ≤ h) : (b.trim m).hashAt h = b.hashAt h := by
  by_cases c : h = m
  · subst c; simp [Br.hashAt, Br.trim]
  · simp [Br.hashAt, Br.trim, c, show ¬ h ≤ m by omega, show h ≠ b.tail by omega]

theorem BrOk.trim_trim {b : Br} {m m' : Nat} (h0 : b.tail ≤ m) (h : m ≤ m') : (b.trim m).trim m' = b.trim m' := by
  ext1
  · rfl
  · exact trim_hashAt b h0 h
  · rfl
  · rfl
  · funext x
    simp only [Br.trim]
    split
    · rfl
    · rw [if_neg (by omega)]
  · rfl

theorem Tree.set_set (t : Tree) (i : Nat) (b c : Br) : (t.set i b).set i c = t.set i c := by
  simp only [Tree.set, Tree.mk.injEq, and_self, and_true]
  funext j; split <;> rfl

theorem Tree.set_same {t : Tree} {i : Nat} {b : Br} (e : b = t.br i) : t.set i b = t := by
  subst e
  cases t
  simp only [Tree.set, Tree.mk.injEq, and_self, and_true]
  funext j; split
  · rename_i h; rw [h]
  · rfl

/-- The root of `i` and what it stems from are not `i`. -/
theorem Inv.root_read {t : Tree} {s : Nat} (inv : Inv K t s) {i r : Nat} (hi : i ∈ t.live) (er : (t.br i).root = some r) (b : Br)
    (h : Nat) : (t.set i b).find r h = t.find r h ∧ (t.set i b).knot r h true = t.knot r h true := by
  have hir : r ≠ i := by rintro rfl; exact Anc.irrefl inv hi (Anc.root er)
  refine find_congr (t := t) (t' := t.set i b) rfl rfl h (Tree.set_ne t b hir) ?_
  intro z az
  refine Tree.set_ne t b ?_
  rintro rfl
  exact Anc.irrefl inv hi (Anc.step er az)

/-- The loop of prune removes exactly the blocks the branch shares with its root. -/
theorem pruneLoop_spec {t : Tree} (inv : Inv K t t.main) {i r : Nat} (hi : i ∈ t.live) (er : (t.br i).root = some r) :
    ∀ (n m : Nat), (t.br i).tail ≤ m → m + n = (t.br i).head → (∃ a, t.knot r m true = some a ∧ a.hash = (t.br i).hashAt m) →
    ∃ m', m ≤ m' ∧ m' ≤ (t.br i).head ∧ Tree.pruneLoop i n (m + 1) (t.set i ((t.br i).trim m)) =
        some (t.set i ((t.br i).trim m'), decide (m < m')) ∧
      (∀ h, m ≤ h → h ≤ m' → ∃ a, t.knot r h true = some a ∧ a.hash = (t.br i).hashAt h) ∧
      (m' < (t.br i).head → ∀ a, t.knot r (m' + 1) true = some a → a.hash ≠ (t.br i).hashAt (m' + 1)) := by
  have ok := inv.ok i hi
  have hr := (inv.root_live hi er).1
  intro n
  induction n with
  | zero =>
    intro m h1 h2 h3
    refine ⟨m, Nat.le_refl _, by omega, by simp [Tree.pruneLoop], ?_, fun g => by omega⟩
    intro h g1 g2
    obtain rfl : h = m := by omega
    exact h3
  | succ n ih =>
    intro m h1 h2 h3
    have stop : (∀ a, t.knot r (m + 1) true = some a → a.hash ≠ (t.br i).hashAt (m + 1)) →
        Tree.pruneLoop i (n + 1) (m + 1) (t.set i ((t.br i).trim m)) = some (t.set i ((t.br i).trim m), false) →
        ∃ m', m ≤ m' ∧ m' ≤ (t.br i).head ∧ Tree.pruneLoop i (n + 1) (m + 1) (t.set i ((t.br i).trim m)) =
            some (t.set i ((t.br i).trim m'), decide (m < m')) ∧
          (∀ h, m ≤ h → h ≤ m' → ∃ a, t.knot r h true = some a ∧ a.hash = (t.br i).hashAt h) ∧
          (m' < (t.br i).head → ∀ a, t.knot r (m' + 1) true = some a → a.hash ≠ (t.br i).hashAt (m' + 1)) := by
      intro g1 g2
      refine ⟨m, Nat.le_refl _, by omega, by rw [g2]; simp, ?_, fun _ => g1⟩
      intro h c1 c2
      obtain rfl : h = m := by omega
      exact h3
    obtain ⟨sk, s1, s2, s3, s4, s5⟩ := ok.get (h := m + 1) (by omega) (by omega)
    have root' : ((t.set i ((t.br i).trim m)).br i).root = some r := by rw [Tree.set_self]; exact er
    have own' : ((t.set i ((t.br i).trim m)).br i).knots (m + 1) = some sk := by
      rw [Tree.set_self]; simp only [Br.trim]; rw [if_neg (by omega)]; exact s1
    have find' : (t.set i ((t.br i).trim m)).findAt (some r) (m + 1) = t.find r (m + 1) := (inv.root_read hi er _ _).1
    cases ef : t.find r (m + 1) with
    | none =>
      refine stop ?_ ?_
      · intro a ea
        have := (inv.reads_of hr ea).1
        rw [← Tree.find_fst this, ef] at ea
        exact absurd ea (by simp)
      · rw [Tree.pruneLoop, root', find', ef]
    | some p =>
      obtain ⟨k, w⟩ := p
      have hle : m + 1 ≤ (t.br r).head := by
        by_contra g
        rw [(inv.above hr (by omega)).2] at ef
        exact absurd ef (by simp)
      have ek : t.knot r (m + 1) true = some k := by rw [← Tree.find_fst hle, ef]; rfl
      by_cases c : k.hash = sk.hash
      · have R := (inv.reads_of hr ek).2
        obtain ⟨a, ea, ea'⟩ := h3
        have Ra := (inv.reads_of hr ea).2
        have lk := Ra.link k (by omega) ek
        have okm := ok.trim (m := m) h1 (by omega)
        have rem : ((t.br i).trim m).removeTail k = some ((t.br i).trim (m + 1)) := by
          have := okm.removeTail (k := k) (by rw [R.height]; rfl) (by simp only [Br.trim]; omega) (by
            simp only [Br.trim]; rw [lk, ea']) (by
            show k.hash = ((t.br i).trim m).hashAt (m + 1)
            rw [trim_hashAt _ h1 (by omega), c, s5])
          rw [this]
          congr 1
          exact BrOk.trim_trim h1 (by simp [Br.trim])
        obtain ⟨m', i1, i2, i3, i4, i5⟩ := ih (m + 1) (by omega) (by omega) ⟨k, ek, by rw [c, s5]⟩
        refine ⟨m', by omega, i2, ?_, ?_, i5⟩
        · rw [Tree.pruneLoop, root', find', ef]
          dsimp only
          rw [own']
          dsimp only
          rw [if_pos c, Tree.set_self, rem]
          dsimp only
          rw [Tree.set_set, i3]
          simp; omega
        · intro h c1 c2
          by_cases g : h = m
          · subst g; exact ⟨a, ea, ea'⟩
          · exact i4 h (by omega) c2
      · refine stop ?_ ?_
        · intro a ea
          rw [ek] at ea
          obtain rfl : k = a := by simpa using ea
          rw [← s5]; exact c
        · rw [Tree.pruneLoop, root', find', ef]
          dsimp only
          rw [own']
          dsimp only
          rw [if_neg c]

/-- The children of a branch `i` that is not the main branch. -/
theorem Inv.kid {t : Tree} (inv : Inv K t t.main) {i v : Nat} (hm : i ≠ t.main) (hv : (i, v) ∈ t.kids) :
    v ∈ t.live ∧ (t.br v).root = some i ∧ ∃ k, (t.br i).knots (t.br v).tail = some k ∧ k.hash = (t.br v).tailHash := by
  obtain ⟨hl, er⟩ := (inv.kids _ _).mp hv
  refine ⟨hl, er, ?_⟩
  rcases (inv.root_live hl er).2.1 with H | ⟨H, -⟩ | ⟨H, -⟩
  · exact H
  · exact absurd H hm
  · exact absurd H hm

/-- The tree after the blocks of `i` up to `m` have been removed and its children have been moved. -/
theorem Inv.trimmed {t t' : Tree} (inv : Inv K t t.main) {i r m : Nat} (hi : i ∈ t.live) (er : (t.br i).root = some r)
    (h1 : (t.br i).tail ≤ m) (h2 : m ≤ (t.br i).head)
    (sh : ∀ h, (t.br i).tail ≤ h → h ≤ m → ∃ a, t.knot r h true = some a ∧ a.hash = (t.br i).hashAt h)
    (M : Moved (t.set i ((t.br i).trim m)) t'
      (fun j => (i, j) ∈ t.kids ∧ ((t.br i).trim m).has (t.br j).tail (t.br j).tailHash = false) i r) : Inv K t' t'.main := by
  obtain ⟨hr, hold, hm⟩ := inv.root_live hi er
  have ok := inv.ok i hi
  have okt := ok.trim h1 h2
  have hir : r ≠ i := by rintro rfl; exact Anc.irrefl inv hi (Anc.root er)
  obtain ⟨rank, hrank⟩ := inv.rank
  have rri := hrank i hi r er
  have low : r ≠ t.main → (t.br r).tail < (t.br i).tail := by
    intro g
    rcases hold with ⟨k, e1, -⟩ | ⟨H, -⟩ | ⟨H, -⟩
    · exact ((inv.ok r hr).range e1).1
    · exact absurd H g
    · exact absurd H g
  have main' : t'.main = t.main := M.main
  have live' : t'.live = t.live := M.live
  have disk' : t'.disk = t.disk := M.disk
  have kidNe : ∀ j, (i, j) ∈ t.kids → j ≠ i ∧ j ≠ r := by
    intro j hj
    obtain ⟨hl, ej⟩ := (inv.kids _ _).mp hj
    have := hrank j hl i ej
    constructor <;> (rintro rfl; omega)
  have bi : t'.br i = (t.br i).trim m := by rw [M.no i (fun c => (kidNe i c.1).1 rfl), Tree.set_self]
  have bno : ∀ j, j ≠ i → ¬ ((i, j) ∈ t.kids ∧ ((t.br i).trim m).has (t.br j).tail (t.br j).tailHash = false) → t'.br j = t.br j := by
    intro j hj c; rw [M.no j c, Tree.set_ne _ _ hj]
  have byes : ∀ j, ((i, j) ∈ t.kids ∧ ((t.br i).trim m).has (t.br j).tail (t.br j).tailHash = false) →
      t'.br j = { t.br j with root := some r } := by
    intro j c; rw [M.yes j c, Tree.set_ne _ _ (kidNe j c.1).1]
  have bm : t'.br t.main = t.br t.main := bno _ (Ne.symm hm) (by
    intro c
    have := ((inv.kids _ _).mp c.1).2
    rw [inv.main_root] at this; exact absurd this (by simp))
  have keep : ∀ j, j ≠ i → (t'.br j).knots = (t.br j).knots ∧ (t'.br j).tail = (t.br j).tail ∧ (t'.br j).tailHash = (t.br j).tailHash := by
    intro j hj
    by_cases c : (i, j) ∈ t.kids ∧ ((t.br i).trim m).has (t.br j).tail (t.br j).tailHash = false
    · rw [byes j c]; exact ⟨rfl, rfl, rfl⟩
    · rw [bno j hj c]; exact ⟨rfl, rfl, rfl⟩
  have hold' : ∀ q h x, q ≠ i → Holds t t.main q h x → Holds t' t'.main q h x := by
    intro q h x hq H
    rcases H with ⟨k, e1, e2⟩ | ⟨e1, e2, e3⟩ | ⟨e1, e2, e3⟩
    · exact Or.inl ⟨k, by rw [(keep q hq).1]; exact e1, e2⟩
    · exact Or.inr (Or.inl ⟨by rw [main']; exact e1, by rw [main', bm]; exact e2, by rw [disk']; exact e3⟩)
    · exact Or.inr (Or.inr ⟨by rw [main']; exact e1, by rw [main', bm]; exact e2, by rw [main', bm]; exact e3⟩)
  have held : ∀ h, (t.br i).tail ≤ h → h ≤ m → Holds t t.main r h ((t.br i).hashAt h) := by
    intro h g1 g2
    obtain ⟨a, ea, ea'⟩ := sh h g1 g2
    rw [← ea']
    exact inv.held hr ea (fun g => by have := low g; omega)
  refine ⟨by rw [disk']; exact inv.disk, ?_, by rw [main', live']; exact inv.main_live, by rw [main', bm]; exact inv.main_root,
    by rw [main', bm, disk']; exact inv.size, by rw [main', bm, disk']; exact inv.top, ?_, ?_, ?_, by rw [live']; exact inv.nodup, ?_⟩
  · intro j hj
    rw [live'] at hj
    by_cases c : j = i
    · subst c; rw [bi]; exact okt
    · have okj := inv.ok j hj
      by_cases c' : (i, j) ∈ t.kids ∧ ((t.br i).trim m).has (t.br j).tail (t.br j).tailHash = false
      · rw [byes j c']; exact ⟨okj.le, okj.out, okj.mem, okj.last⟩
      · rw [bno j c c']; exact okj
  · intro j hj ne
    rw [live'] at hj
    rw [main'] at ne
    by_cases c : j = i
    · subst c
      refine ⟨r, by rw [live']; exact hr, by rw [bi]; exact er, ?_⟩
      rw [bi]
      exact hold' r _ _ hir (held m h1 (Nat.le_refl _))
    · obtain ⟨q, hq, eq, H⟩ := inv.anchored j hj ne
      rw [(keep j c).2.1, (keep j c).2.2]
      by_cases c' : (i, j) ∈ t.kids ∧ ((t.br i).trim m).has (t.br j).tail (t.br j).tailHash = false
      · refine ⟨r, by rw [live']; exact hr, by rw [byes j c'], hold' r _ _ hir ?_⟩
        obtain ⟨-, -, k, e1, e2⟩ := inv.kid hm c'.1
        have rg := ok.range e1
        have hl : (t.br j).tail ≤ m := by
          by_contra g
          have : ((t.br i).trim m).has (t.br j).tail (t.br j).tailHash = true := (okt.has_iff _ _).mpr ⟨k, by
            simp only [Br.trim]; rw [if_neg g]; exact e1, e2⟩
          rw [c'.2] at this; exact absurd this (by simp)
        have := held (t.br j).tail (by omega) hl
        rw [Br.hashAt, if_neg (by omega), e1] at this
        rw [← e2]; exact this
      · refine ⟨q, by rw [live']; exact hq, by rw [bno j c c']; exact eq, ?_⟩
        by_cases cq : q = i
        · subst cq
          have hk := (inv.kids q j).mpr ⟨hj, eq⟩
          have : ((t.br q).trim m).has (t.br j).tail (t.br j).tailHash = true := by
            by_contra g; exact c' ⟨hk, by simpa using g⟩
          left
          rw [bi]
          exact (okt.has_iff _ _).mp this
        · exact hold' q _ _ cq H
  · intro p c
    rw [M.kids, live', Tree.set_kids]
    by_cases c' : (i, c) ∈ t.kids ∧ ((t.br i).trim m).has (t.br c).tail (t.br c).tailHash = false
    · rw [byes c c']
      have hl := (inv.kids _ _).mp c'.1
      simp only [c', and_true, hl.1, true_and, Option.some.injEq]
      rw [inv.kids, hl.2]
      simp only [hl.1, true_and, Option.some.injEq]
      constructor
      · rintro (⟨a, b⟩ | a)
        · exact absurd a.symm b
        · exact a.symm
      · rintro rfl; exact Or.inr rfl
    · have eroot : (t'.br c).root = (t.br c).root := by
        by_cases ci : c = i
        · subst ci; rw [bi]; rfl
        · rw [bno c ci c']
      rw [eroot, inv.kids]
      simp only [c', and_false, not_false_eq_true, and_true, or_false]
  · refine ⟨rank, ?_⟩
    intro j hj q eq
    rw [live'] at hj
    by_cases c : j = i
    · subst c; rw [bi] at eq; exact hrank _ hj q eq
    · by_cases c' : (i, j) ∈ t.kids ∧ ((t.br i).trim m).has (t.br j).tail (t.br j).tailHash = false
      · rw [byes j c'] at eq
        obtain rfl : r = q := by simpa using eq
        have := hrank j hj i ((inv.kids _ _).mp c'.1).2
        omega
      · rw [bno j c c'] at eq; exact hrank j hj q eq
  · intro j hj
    rw [live'] at hj
    rw [M.next]; exact inv.ids j hj

/-- The tree after a branch without children has been removed. -/
structure Removed (t t' : Tree) (i : Nat) : Prop where
  live : t'.live = t.live.filter (fun j => j ≠ i)
  main : t'.main = t.main
  next : t'.next = t.next
  disk : t'.disk = t.disk
  br : ∀ j, j ≠ i → t'.br j = t.br j
  kids : ∀ p c, (p, c) ∈ t'.kids ↔ (p, c) ∈ t.kids ∧ c ≠ i

theorem Inv.removed {t t' : Tree} (inv : Inv K t t.main) {i : Nat} (hm : i ≠ t.main) (leaf : ∀ v, (i, v) ∉ t.kids)
    (R : Removed t t' i) : Inv K t' t'.main := by
  have mem : ∀ j, j ∈ t'.live ↔ j ∈ t.live ∧ j ≠ i := by intro j; rw [R.live]; simp
  have bm : t'.br t'.main = t.br t.main := by rw [R.main]; exact R.br _ (Ne.symm hm)
  refine ⟨by rw [R.disk]; exact inv.disk, ?_, ?_, by rw [bm]; exact inv.main_root, by rw [bm, R.disk]; exact inv.size,
    by rw [bm, R.disk]; exact inv.top, ?_, ?_, ?_, ?_, ?_⟩
  · intro j hj
    obtain ⟨hj, ne⟩ := (mem j).mp hj
    rw [R.br j ne]; exact inv.ok j hj
  · rw [mem, R.main]; exact ⟨inv.main_live, Ne.symm hm⟩
  · intro j hj nm
    obtain ⟨hj, ne⟩ := (mem j).mp hj
    rw [R.main] at nm
    obtain ⟨q, hq, eq, H⟩ := inv.anchored j hj nm
    have hqi : q ≠ i := by rintro rfl; exact leaf j ((inv.kids _ _).mpr ⟨hj, eq⟩)
    refine ⟨q, (mem q).mpr ⟨hq, hqi⟩, by rw [R.br j ne]; exact eq, ?_⟩
    rw [R.br j ne]
    rcases H with ⟨k, e1, e2⟩ | ⟨e1, e2, e3⟩ | ⟨e1, e2, e3⟩
    · exact Or.inl ⟨k, by rw [R.br q hqi]; exact e1, e2⟩
    · exact Or.inr (Or.inl ⟨by rw [R.main]; exact e1, by rw [bm]; exact e2, by rw [R.disk]; exact e3⟩)
    · exact Or.inr (Or.inr ⟨by rw [R.main]; exact e1, by rw [bm]; exact e2, by rw [bm]; exact e3⟩)
  · intro p c
    rw [R.kids, mem, inv.kids]
    by_cases h : c = i
    · simp [h]
    · rw [R.br c h]; simp [h]
  · obtain ⟨rank, hr⟩ := inv.rank
    refine ⟨rank, fun j hj q eq => ?_⟩
    obtain ⟨hj, ne⟩ := (mem j).mp hj
    exact hr j hj q (by rw [R.br j ne] at eq; exact eq)
  · rw [R.live]; exact inv.nodup.filter _
  · intro j hj
    rw [R.next]; exact inv.ids j ((mem j).mp hj).1

theorem BrOk.destroy {b : Br} (ok : BrOk K b) : ∃ b', b.destroy b.size = some b' := by
  have key : ∀ n (b : Br), BrOk K b → b.head = b.tail + n → ∃ b', b.destroy n = some b' := by
    intro n
    induction n with
    | zero => intro b _ _; exact ⟨b, rfl⟩
    | succ n ih =>
      intro b ok e
      obtain ⟨k, e1, e2, e3, e4, e5⟩ := ok.get (h := b.head) (by omega) (Nat.le_refl _)
      rw [Br.destroy, e1]
      dsimp only
      rw [Br.removeHead, if_neg (by rw [ok.last, e5]; simp), if_neg (by omega), Option.bind_some]
      refine ih _ ⟨?_, ?_, ?_, ?_⟩ ?_
      · simp only; omega
      · intro h g
        simp only [put] at g ⊢
        split
        · rfl
        · exact ok.out h (by omega)
      · intro h g1 g2
        simp only at g1 g2
        obtain ⟨a, a1, a2, a3, a4⟩ := ok.mem h g1 (by omega)
        refine ⟨a, ?_, a2, a3, ?_⟩
        · simp only [put]; rw [if_neg (by omega)]; exact a1
        · rw [a4]; simp only [Br.hashAt, put]
          split
          · rfl
          · rw [if_neg (by omega)]
      · rw [e4]
        simp only [Br.hashAt, put]
        rw [e2]
        split
        · rfl
        · rw [if_neg (by omega)]
      · simp only; omega
  exact key _ b ok (by have := ok.le; simp only [Br.size]; omega)

theorem Inv.removeBranch {t : Tree} (inv : Inv K t t.main) {i : Nat} (hi : i ∈ t.live) (hm : i ≠ t.main) (leaf : ∀ v, (i, v) ∉ t.kids) :
    ∃ t', t.removeBranch i = some t' ∧ Removed t t' i := by
  unfold Tree.removeBranch
  rw [if_neg hm]
  obtain ⟨r, hr, er, -⟩ := inv.anchored i hi hm
  rw [er]
  dsimp only
  have hl : t.leaf i = true := by
    simp only [Tree.leaf, List.isEmpty_iff]
    rw [List.eq_nil_iff_forall_not_mem]
    intro v hv; exact leaf v (mem_kidsOf.mp hv)
  rw [if_pos hl]
  obtain ⟨b, eb⟩ := (inv.ok i hi).destroy
  have : (({ t.unkid (some r) i with live := t.live.filter (fun j => j ≠ i) } : Tree).br i) = t.br i := by simp
  rw [this, eb, Option.map_some]
  refine ⟨_, rfl, ?_, ?_, ?_, ?_, ?_, ?_⟩
  · simp
  · simp
  · simp
  · simp
  · intro j hj; rw [Tree.set_ne _ _ hj]; simp
  · intro p c
    simp only [Tree.set_kids]
    rw [mem_unkid]
    constructor
    · rintro ⟨h, h'⟩
      refine ⟨h, ?_⟩
      rintro rfl
      have := ((inv.kids _ _).mp h).2
      rw [er] at this
      obtain rfl : r = p := by simpa using this
      exact h' rfl
    · rintro ⟨h, h'⟩
      exact ⟨h, by simp [h']⟩

end Verif.Fork
