import Verif.Fork.ForkSwitch

/-! Switching to an empty branch, pruning the tree, the fork point and the pool's own check. -/

namespace Verif.Fork

variable {K : Knot → Prop}

theorem Inv.forked_stale (uq : Uniq K) {t t' : Tree} (inv : Inv K t t.main) (inv' : Inv K t' t'.main) {b : Nat} {k : Knot} (F : Forked t t' b k)
    {j : Nat} (hj : j ∈ t.live) (S : Stale t' j) : Stale t j := by
  have hn : t.next ∉ t.live := fun c => by have := inv.ids _ c; omega
  have old : ∀ j ∈ t.live, t'.br j = t.br j := fun j hj => F.old j (by rintro rfl; exact hn hj)
  have anc : ∀ x y, x ∈ t.live → Anc t' x y → Anc t x y := by
    intro x y hx a
    refine Anc.of_roots (P := fun x => x ∈ t.live) ?_ a hx
    intro x z hx e
    rw [old x hx] at e
    exact ⟨Anc.root e, (inv.root_live hx e).1⟩
  obtain ⟨s1, y, a, s2, s3, s4⟩ := S
  have ay := anc j y hj s2
  have ly := ay.live inv hj
  rw [old j hj] at s1 s3 s4
  refine ⟨s1, y, a, ay, ?_, s4⟩
  rw [← inv.same uq inv' ly (by rw [F.live]; exact List.mem_append_left _ ly) (by rw [old y ly]) (by rw [old y ly])]; exact s3

/-- Switching to an empty branch. -/
theorem toEmpty_spec (uq : Uniq K) {t : Tree} (inv : Inv K t t.main) {order : List Nat} (ho : ∀ c ∈ order, c ∈ t.live) :
    ∃ t', t.toEmpty order = some (t', true) ∧ Inv K t' t'.main ∧ t'.disk = t.disk ∧ (t'.br t'.main).tail = (t'.br t'.main).head ∧
      (∀ j ∈ t'.live, j ∈ t.live ∨ j = t.next) ∧ (∀ j ∈ t.live, j ∉ t'.live → Stale t j) ∧
      (∀ j ∈ t.live, j ∈ t'.live → (t'.br j).head = (t.br j).head ∧ (t'.br j).headHash = (t.br j).headHash) := by
  obtain ⟨k, e1, e2, e3, e4, e5⟩ := inv.main_tail
  have okm := inv.ok _ inv.main_live
  unfold Tree.toEmpty
  by_cases c : (t.br t.main).size = 0
  · rw [if_pos c]
    refine ⟨t, rfl, inv, rfl, ?_, fun j h => Or.inl h, fun j h1 h2 => absurd h1 h2, fun _ _ _ => ⟨rfl, rfl⟩⟩
    have := okm.le; simp only [Br.size] at c; omega
  rw [if_neg c, e1]
  dsimp only
  cases hf : order.find? (fun c => (t.br c).size = 0 && (t.br c).headHash = k.hash && (t.br c).head = k.height) with
  | some c =>
    dsimp only
    have hc := ho c (List.mem_of_find?_eq_some hf)
    have pc := List.find?_some hf
    simp only [Bool.and_eq_true, decide_eq_true_eq] at pc
    obtain ⟨⟨p1, p2⟩, p3⟩ := pc
    have ok := inv.ok c hc
    have te : (t.br c).tail = (t.br c).head := by have := ok.le; simp only [Br.size] at p1; omega
    obtain ⟨a, R⟩ := inv.reads hc (h := (t.br t.main).tail) (by omega)
    have on : OnPath t c := ⟨a, R.read, by rw [R.head (by omega), p2, e3]⟩
    obtain ⟨t', s1, s2, s3, s4, s5, s6, s7, s8⟩ := switch_spec uq inv hc on (fun S => by have := S.1; omega)
    refine ⟨t', s1, s2, s4, ?_, fun j h => Or.inl (s6 j h), s7, fun j _ h => s8 j h⟩
    have g1 := s2.size
    have g2 := inv.size
    rw [s4] at g1
    have g3 := (s8 t'.main s2.main_live).1
    rw [s3] at g3 g1 ⊢
    omega
  | none =>
    dsimp only
    have hk : t.knot t.main k.height true = some k := by rw [e2, inv.main_low (Nat.le_refl _)]; exact e5
    obtain ⟨t1, f1, F⟩ := fork_spec hk
    rw [f1, Option.bind_some]
    have inv1 := inv.forked inv.main_live hk (fun g => absurd rfl g) F
    have hn : t.next ∉ t.live := fun c => by have := inv.ids _ c; omega
    have old : ∀ j ∈ t.live, t1.br j = t.br j := fun j hj => F.old j (by rintro rfl; exact hn hj)
    have hc : t.next ∈ t1.live := by rw [F.live]; simp
    have bm : t1.br t1.main = t.br t.main := by rw [F.main]; exact old _ inv.main_live
    have hd : (t1.br t.next).head = k.height := by rw [F.new]; rfl
    have tl : (t1.br t.next).tail = k.height := by rw [F.new]; rfl
    have hx : (t1.br t.next).headHash = k.hash := by rw [F.new]; rfl
    obtain ⟨a, R⟩ := inv1.reads hc (h := (t1.br t1.main).tail) (by rw [bm, hd]; omega)
    have on : OnPath t1 t.next := ⟨a, R.read, by rw [R.head (by rw [bm, hd]; omega), hx, bm, e3]⟩
    obtain ⟨t', s1, s2, s3, s4, s5, s6, s7, s8⟩ := switch_spec uq inv1 hc on (fun S => by have := S.1; omega)
    refine ⟨t', s1, s2, s4.trans F.disk, ?_, ?_, ?_, ?_⟩
    · have g1 := s2.size
      have g2 := inv.size
      rw [s4, F.disk] at g1
      have g3 := (s8 t'.main s2.main_live).1
      rw [s3] at g3 g1 ⊢
      omega
    · intro j hj
      have := s6 j hj
      rw [F.live] at this
      simpa using this
    · intro j hj hj'
      exact inv.forked_stale uq inv1 F hj (s7 j (by rw [F.live]; exact List.mem_append_left _ hj) hj')
    · intro j hj hj'
      have := s8 j hj'
      rw [old j hj] at this
      exact this

theorem pruneAll_spec (uq : Uniq K) : ∀ (is : List Nat) (t : Tree), Inv K t t.main →
    ∃ t', Tree.pruneAll is t = some t' ∧ Inv K t' t'.main ∧ Lean t t' ∧ ∀ j ∈ t.live, j ∉ t'.live → Stale t j := by
  intro is
  induction is with
  | nil => intro t inv; exact ⟨t, rfl, inv, Lean.refl t, fun j h1 h2 => absurd h1 h2⟩
  | cons i is ih =>
    intro t inv
    rw [Tree.pruneAll]
    split
    · exact ih t inv
    · rename_i c
      have hi : i ∈ t.live := by by_contra g; exact c (Or.inr g)
      obtain ⟨l, u, hl⟩ := inv.up i hi
      obtain ⟨t1, e1, P⟩ := prune_spec uq (t.next + 1) t i l inv hi u (by omega)
      obtain ⟨t2, e2, inv2, L, G⟩ := ih t1 P.inv
      refine ⟨t2, by rw [e1]; exact e2, inv2, P.lean.trans L, ?_⟩
      intro j h1 h2
      by_cases g : j ∈ t1.live
      · exact P.lean.stale uq inv P.inv g (G j g h2)
      · exact P.fate j h1 g

theorem sweep_spec (old : Nat → Bool) : ∀ (is : List Nat) (t : Tree), Inv K t t.main →
    ∃ t', Tree.sweep old is t = some t' ∧ Inv K t' t'.main ∧ t'.main = t.main ∧ t'.disk = t.disk ∧ (∀ j ∈ t'.live, j ∈ t.live ∧ t'.br j = t.br j) ∧
      ∀ j ∈ t.live, j ∉ t'.live → old j = true ∨ (t.br j).tail = (t.br j).head := by
  intro is
  induction is with
  | nil => intro t inv; exact ⟨t, rfl, inv, rfl, rfl, fun j h => ⟨h, rfl⟩, fun j h1 h2 => absurd h1 h2⟩
  | cons i is ih =>
    intro t inv
    rw [Tree.sweep]
    split
    · exact ih t inv
    · rename_i c
      split
      · rename_i g
        have hi : i ∈ t.live := by by_contra g; exact c (Or.inr g)
        have hm : i ≠ t.main := fun g => c (Or.inl g)
        have leaf : ∀ v, (i, v) ∉ t.kids := by
          intro v hv
          have h1 := g.1
          rw [Tree.leaf, List.isEmpty_iff] at h1
          have := mem_kidsOf.mpr hv
          rw [h1] at this; exact absurd this (by simp)
        obtain ⟨t1, e1, R⟩ := inv.removeBranch hi hm leaf
        have inv1 := inv.removed hm leaf R
        have mem : ∀ j, j ∈ t1.live ↔ j ∈ t.live ∧ j ≠ i := by intro j; rw [R.live]; simp
        obtain ⟨t2, e2, inv2, h1, h2, h3, h4⟩ := ih t1 inv1
        refine ⟨t2, by rw [e1]; exact e2, inv2, h1.trans R.main, h2.trans R.disk, ?_, ?_⟩
        · intro j hj
          have := h3 j hj
          have hne := (mem j).mp this.1
          exact ⟨hne.1, by rw [this.2, R.br j hne.2]⟩
        · intro j hj hn
          by_cases gj : j = i
          · subst gj
            rcases g.2 with g | g
            · exact Or.inl g
            · right; have := (inv.ok j hj).le; simp only [Br.size] at g; omega
          · have := h4 j ((mem j).mpr ⟨hj, gj⟩) hn
            rw [R.br j gj] at this; exact this
      · exact ih t inv

/-- Pruning the tree: no reading changes, and a branch goes only if it adds nothing to the others, is empty, or is old. -/
theorem pruneTree_spec (uq : Uniq K) {t : Tree} (inv : Inv K t t.main) (old : Nat → Bool) (o1 o2 : List Nat) :
    ∃ t', t.pruneTree old o1 o2 = some t' ∧ Inv K t' t'.main ∧ t'.main = t.main ∧ t'.disk = t.disk ∧ (∀ j ∈ t'.live, j ∈ t.live) ∧
      (∀ j ∈ t'.live, (t'.br j).head = (t.br j).head ∧ (t'.br j).headHash = (t.br j).headHash) ∧
      ∀ j ∈ t.live, j ∉ t'.live → Stale t j ∨ old j = true ∨ (t.br j).tail = (t.br j).head := by
  obtain ⟨t1, e1, inv1, L, G⟩ := pruneAll_spec uq o1 t inv
  obtain ⟨t2, e2, inv2, h1, h2, h3, h4⟩ := sweep_spec old o2 t1 inv1
  refine ⟨t2, by rw [Tree.pruneTree, e1]; exact e2, inv2, h1.trans L.main, h2.trans L.disk, fun j h => L.live j (h3 j h).1, ?_, ?_⟩
  · intro j hj
    obtain ⟨a, b⟩ := h3 j hj
    rw [b]; exact L.head j a
  · intro j hj hn
    by_cases g : j ∈ t1.live
    · rcases h4 j g hn with h | h
      · exact Or.inr (Or.inl h)
      · right; right
        by_contra c
        have := L.full j g (by have := (inv.ok j hj).le; omega)
        omega
    · exact Or.inl (G j hj g)

/-- The pool's own check passes. -/
theorem Inv.check {t : Tree} (inv : Inv K t t.main) : t.check = true ∧ t.checkTail = true := by
  refine ⟨?_, inv.linked⟩
  unfold Tree.check
  rw [List.all_eq_true]
  intro c hc
  cases e : (t.br c).root with
  | none =>
    obtain rfl := inv.root_none hc e
    simp [inv.linked]
  | some r =>
    obtain ⟨hr, H, -⟩ := inv.root_live hc e
    dsimp only
    obtain ⟨k, k1, k2, -⟩ := inv.holds_read hr H
    by_cases g : r = t.main
    · rw [decide_eq_true g, k1]; simp [k2]
    · rcases H with ⟨a, a1, a2⟩ | ⟨h, -⟩ | ⟨h, -⟩
      · rw [Tree.knot_local a1]; simp [a2]
      · exact absurd h g
      · exact absurd h g

theorem Inv.bottom_read {t : Tree} {s : Nat} (inv : Inv K t s) {i : Nat} (hi : i ∈ t.live) : t.knot i 0 true = t.disk[0]? := by
  obtain ⟨l, u, -⟩ := inv.up i hi
  induction u with
  | top e => obtain rfl := inv.root_none hi e; exact inv.main_low (Nat.zero_le _)
  | up e hr _ ih => rw [(inv.below hi e (Nat.zero_le _)).1]; exact ih hr

theorem forkLoop_spec {t : Tree} {s : Nat} (inv : Inv K t s) {a b : Nat} (ha : a ∈ t.live) (hb : b ∈ t.live) : ∀ n, n ≤ (t.br a).head →
    n ≤ (t.br b).head → ∃ f g, t.forkLoop a b (n + 1) = some (t.knot a (f.height + 1) true, f) ∧ f.height ≤ n ∧
      t.knot a f.height true = some f ∧ t.knot b f.height true = some g ∧ f.hash = g.hash ∧
      ∀ h x y, f.height < h → h ≤ n → t.knot a h true = some x → t.knot b h true = some y → x.hash ≠ y.hash := by
  intro n
  induction n with
  | zero =>
    intro _ _
    obtain ⟨x, X⟩ := inv.reads ha (Nat.zero_le _)
    have hx := X.read
    have hy := X.read
    rw [inv.bottom_read ha, ← inv.bottom_read hb] at hy
    have h0 := X.height
    refine ⟨x, x, ?_, by omega, by rw [h0]; exact hx, by rw [h0]; exact hy, rfl, fun h _ _ g1 g2 => by omega⟩
    rw [Tree.forkLoop, hx, hy]
    simp [h0]
  | succ n ih =>
    intro h1 h2
    obtain ⟨x, X⟩ := inv.reads ha h1
    obtain ⟨y, Y⟩ := inv.reads hb h2
    rw [Tree.forkLoop, X.read, Y.read]
    dsimp only
    by_cases c : x.hash = y.hash
    · rw [if_pos c]
      have h0 := X.height
      exact ⟨x, y, by rw [h0], by omega, by rw [h0]; exact X.read, by rw [h0]; exact Y.read, c, fun h _ _ g1 g2 => by omega⟩
    · rw [if_neg c]
      obtain ⟨f, g, f1, f2, f3, f4, f5, f6⟩ := ih (by omega) (by omega)
      refine ⟨f, g, f1, by omega, f3, f4, f5, ?_⟩
      intro h x' y' g1 g2 ex ey
      by_cases ch : h = n + 1
      · subst ch
        rw [X.read] at ex
        rw [Y.read] at ey
        obtain rfl : x = x' := by simpa using ex
        obtain rfl : y = y' := by simpa using ey
        exact c
      · exact f6 h x' y' g1 (by omega) ex ey

/-- The fork point is the highest block a branch shares with the main branch, and the key point the next block of the longer one. -/
theorem forkPoint_spec (uq : Uniq K) {t : Tree} {s : Nat} (inv : Inv K t s) {i : Nat} (hi : i ∈ t.live) :
    ∃ f, t.forkPoint i = some (t.knot (if (t.br t.main).head < (t.br i).head then i else t.main) (f.height + 1) true, f) ∧
      (∀ h, h ≤ f.height → t.knot t.main h true = t.knot i h true) ∧ t.knot t.main f.height true = some f ∧
      ∀ h x y, f.height < h → t.knot t.main h true = some x → t.knot i h true = some y → x ≠ y := by
  have hm := inv.main_live
  unfold Tree.forkPoint
  by_cases c : (t.br t.main).head < (t.br i).head
  · simp only [if_pos c]
    obtain ⟨f, g, f1, f2, f3, f4, f5, f6⟩ := forkLoop_spec inv hi hm (t.br t.main).head (by omega) (Nat.le_refl _)
    refine ⟨f, f1, ?_, ?_, ?_⟩
    · intro h hh; exact inv.same_from uq inv hi hm f3 f4 f5 h hh
    · rw [f4, uq f g (inv.reads_of hi f3).2.known (inv.reads_of hm f4).2.known f5]
    · rintro h x y g1 g2 g3 rfl
      exact f6 h x x g1 (inv.reads_of hm g2).1 g3 g2 rfl
  · simp only [if_neg c]
    obtain ⟨f, g, f1, f2, f3, f4, f5, f6⟩ := forkLoop_spec inv hm hi (t.br i).head (by omega) (Nat.le_refl _)
    refine ⟨f, f1, ?_, f3, ?_⟩
    · intro h hh; exact (inv.same_from uq inv hm hi f3 f4 f5 h hh).symm
    · rintro h x y g1 g2 g3 rfl
      exact f6 h x x g1 (inv.reads_of hi g3).1 g2 g3 rfl

/-- The test made before a switch. -/
theorem forkPoint_guard (uq : Uniq K) {t : Tree} {s : Nat} (inv : Inv K t s) {i : Nat} (hi : i ∈ t.live) :
    OnPath t i ↔ ∃ p f, t.forkPoint i = some (p, f) ∧ (t.br t.main).tail ≤ f.height := by
  obtain ⟨f, f1, f2, f3, f4⟩ := forkPoint_spec uq inv hi
  have okm := inv.ok _ inv.main_live
  obtain ⟨x, X⟩ := inv.reads inv.main_live (h := (t.br t.main).tail) okm.le
  constructor
  · rintro ⟨k, k1, k2⟩
    refine ⟨_, f, f1, ?_⟩
    by_contra g
    refine f4 _ x k (by omega) X.read k1 ?_
    exact uq x k X.known (inv.reads_of hi k1).2.known (by rw [X.tail rfl, k2])
  · rintro ⟨p, f', e, g⟩
    rw [f1] at e
    obtain rfl : f = f' := by simp at e; exact e.2
    exact ⟨x, by rw [← f2 _ g]; exact X.read, X.tail rfl⟩

/-- The branches chosen from when the main branch is changed at random. -/
theorem brothers_onPath {t : Tree} {s : Nat} (inv : Inv K t s) {v : Nat} (hv : v ∈ t.brothers t.main) : v ∈ t.live ∧ OnPath t v := by
  unfold Tree.brothers at hv
  rw [List.mem_filter] at hv
  obtain ⟨h1, h2⟩ := hv
  simp only [Bool.and_eq_true, decide_eq_true_eq] at h2
  have hl := ((inv.kids _ _).mp (mem_kidsOf.mp h1)).1
  obtain ⟨x, X⟩ := inv.reads hl (h := (t.br v).tail) (inv.ok v hl).le
  exact ⟨hl, x, by rw [← h2.1]; exact X.read, by rw [X.tail rfl, h2.2]⟩

end Verif.Fork
