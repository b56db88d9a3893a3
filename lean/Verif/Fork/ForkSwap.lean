import Verif.Fork.ForkPruned

/-! Exchanging a branch and its root. -/

namespace Verif.Fork

variable {K : Knot → Prop}

/-- The blocks of `c` above `m` go to the bottom of `b`. -/
def Br.join (b c : Br) (m : Nat) : Br :=
  { b with tail := m, tailHash := c.hashAt m, knots := fun h => if m < h ∧ h ≤ b.tail then c.knots h else b.knots h }

theorem Br.join_self {b c : Br} (e : c.hashAt b.tail = b.tailHash) : b.join c b.tail = b := by
  ext1
  · rfl
  · exact e
  · rfl
  · rfl
  · funext h
    simp only [Br.join]
    rw [if_neg (by omega)]
  · rfl

theorem Br.join_hashAt {b c : Br} {m h : Nat} (hm : c.tail ≤ m) (hb : m ≤ b.tail) (e : c.hashAt b.tail = b.tailHash) (g : m ≤ h) :
    (b.join c m).hashAt h = if h ≤ b.tail then c.hashAt h else b.hashAt h := by
  by_cases c0 : h = m
  · subst c0
    rw [if_pos hb]
    simp [Br.hashAt, Br.join]
  · by_cases c1 : h ≤ b.tail
    · rw [if_pos c1]
      have c2 : m < h := by omega
      simp [Br.hashAt, Br.join, c0, c1, c2, show ¬ h = c.tail by omega]
    · rw [if_neg c1]
      simp [Br.hashAt, Br.join, c0, c1, show ¬ h = b.tail by omega]

theorem BrOk.join {b c : Br} (okb : BrOk K b) (okc : BrOk K c) {m : Nat} (hm : c.tail ≤ m) (hb : m ≤ b.tail) (hc : b.tail ≤ c.head)
    (e : c.hashAt b.tail = b.tailHash) : BrOk K (b.join c m) := by
  have le := okb.le
  refine ⟨by simp only [Br.join]; omega, ?_, ?_, ?_⟩
  · intro h g
    simp only [Br.join] at g ⊢
    rw [if_neg (by omega)]
    exact okb.out h (by omega)
  · intro h g1 g2
    simp only [Br.join] at g1 g2
    rw [Br.join_hashAt hm hb e g1]
    by_cases c1 : h + 1 ≤ b.tail
    · obtain ⟨k, e1, e2, e3, e4⟩ := okc.mem h (by omega) (by omega)
      refine ⟨k, ?_, e2, e3, ?_⟩
      · simp only [Br.join]; rw [if_pos ⟨by omega, c1⟩]; exact e1
      · rw [if_pos (by omega)]; exact e4
    · obtain ⟨k, e1, e2, e3, e4⟩ := okb.mem h (by omega) (by omega)
      refine ⟨k, ?_, e2, e3, ?_⟩
      · simp only [Br.join]; rw [if_neg (by omega)]; exact e1
      · rw [e4]
        by_cases c2 : h = b.tail
        · subst c2; rw [if_pos (Nat.le_refl _), e]; simp [Br.hashAt]
        · rw [if_neg (by omega)]
  · show b.headHash = (b.join c m).hashAt b.head
    rw [Br.join_hashAt hm hb e (by omega), okb.last]
    by_cases c1 : b.head = b.tail
    · rw [c1, if_pos (Nat.le_refl _), e]; simp [Br.hashAt]
    · rw [if_neg (by omega)]

theorem takeOver_spec {t : Tree} {i r : Nat} (hir : i ≠ r) (okr : BrOk K (t.br r)) (hle : (t.br i).tail ≤ (t.br r).head) : ∀ (n m : Nat), (t.br r).tail + n ≤ m → m ≤ (t.br i).tail →
    Tree.takeOver i r n m (t.set i ((t.br i).join (t.br r) m)) = some (t.set i ((t.br i).join (t.br r) (m - n))) := by
  intro n
  induction n with
  | zero => intro m _ _; simp [Tree.takeOver]
  | succ n ih =>
    intro m h1 h2
    rw [Tree.takeOver, Tree.set_ne _ _ (Ne.symm hir)]
    obtain ⟨w, e1, e2, e3, e4, e5⟩ := okr.get (h := m) (by omega) (by omega)
    rw [e1]
    dsimp only
    rw [Tree.set_self]
    have : ((t.br i).join (t.br r) m).addTail w = some ((t.br i).join (t.br r) (m - 1)) := by
      rw [Br.addTail, if_neg (by simp [Br.join, e5]), Option.some.injEq]
      ext1
      · simp [Br.join, e2]
      · simp [Br.join, e4]
      · rfl
      · rfl
      · funext h
        simp only [Br.join, put]
        by_cases c : h = m
        · subst c; rw [if_pos e2.symm, if_pos ⟨by omega, h2⟩, e1]
        · rw [if_neg (by omega)]
          by_cases c' : m < h ∧ h ≤ (t.br i).tail
          · rw [if_pos c', if_pos (by omega)]
          · rw [if_neg c', if_neg (by omega)]
      · rfl
    rw [this, Option.bind_some, Tree.set_set, ih (m - 1) (by omega) (by omega)]
    rw [show m - 1 - n = m - (n + 1) by omega]

/-- What exchanging the branch `i` and its root `r` gives. -/
structure Swapped (t t' : Tree) (i r : Nat) : Prop where
  live : t'.live = t.live
  main : t'.main = t.main
  next : t'.next = t.next
  disk : t'.disk = t.disk
  bi : t'.br i = { (t.br i).join (t.br r) (t.br r).tail with root := (t.br r).root }
  br : t'.br r = { t.br r with root := some i }
  yes : ∀ j, j ≠ i → j ≠ r → (j ∈ t.live ∧ (t.br j).root = some r ∧ (t.br r).has (t.br j).tail (t.br j).tailHash = false) →
    t'.br j = { t.br j with root := some i }
  no : ∀ j, j ≠ i → j ≠ r → ¬ (j ∈ t.live ∧ (t.br j).root = some r ∧ (t.br r).has (t.br j).tail (t.br j).tailHash = false) →
    t'.br j = t.br j
  kids : ∀ p c, (p, c) ∈ t'.kids ↔ c ∈ t'.live ∧ (t'.br c).root = some p

/-- While roots are exchanged tails may be anchored at the tail of the branch that goes up. -/
theorem Inv.reseat {t : Tree} (inv : Inv K t t.main) (i : Nat) : Inv K t i := by
  refine ⟨inv.disk, inv.ok, inv.main_live, inv.main_root, inv.size, inv.top, ?_, inv.kids, inv.rank, inv.nodup, inv.ids⟩
  intro j hj nm
  obtain ⟨r, hr, er, H⟩ := inv.anchored j hj nm
  refine ⟨r, hr, er, ?_⟩
  rcases H with H | H | ⟨h1, h2, h3⟩
  · exact Or.inl H
  · exact Or.inr (Or.inl H)
  · obtain ⟨k, k1, k2⟩ := inv.top
    exact Or.inr (Or.inl ⟨h1, by omega, k, by rw [h2]; exact k1, by rw [k2, h3]⟩)

theorem exchange_spec {t : Tree} {i r : Nat} (inv : Inv K t i) (hi : i ∈ t.live) (er : (t.br i).root = some r)
    (low : (t.br t.main).tail ≤ (t.br i).tail) :
    (t.br r).tail ≤ (t.br i).tail ∧ (r ≠ t.main → (t.br r).tail < (t.br i).tail) ∧ (t.br i).tail ≤ (t.br r).head ∧
    (t.br r).hashAt (t.br i).tail = (t.br i).tailHash ∧ ∃ t', t.exchange i r = some (t', true) ∧ Swapped t t' i r := by
  obtain ⟨hr, hold, hm⟩ := inv.root_live hi er
  obtain ⟨rank, hrank⟩ := inv.rank
  have rri := hrank i hi r er
  have hir : i ≠ r := by rintro rfl; omega
  have ok := inv.ok i hi
  have okr := inv.ok r hr
  have facts : (t.br r).tail ≤ (t.br i).tail ∧ (r ≠ t.main → (t.br r).tail < (t.br i).tail) ∧ (t.br i).tail ≤ (t.br r).head ∧
      (t.br r).hashAt (t.br i).tail = (t.br i).tailHash := by
    rcases hold with ⟨k, e1, e2⟩ | ⟨rfl, e1, k, e2, e3⟩ | ⟨h, -⟩
    · have rg := okr.range e1
      refine ⟨by omega, fun _ => rg.1, rg.2, ?_⟩
      simp [Br.hashAt, e1, e2, show (t.br i).tail ≠ (t.br r).tail by omega]
    · have eq : (t.br i).tail = (t.br t.main).tail := by omega
      refine ⟨by omega, fun g => absurd rfl g, by have := okr.le; omega, ?_⟩
      obtain ⟨k', k1, k2⟩ := inv.top
      rw [eq, k1] at e2
      obtain rfl : k' = k := by simpa using e2
      rw [Br.hashAt, if_pos eq, ← k2, e3]
    · exact absurd h.symm hir
  obtain ⟨f1, f2, f3, f4⟩ := facts
  refine ⟨f1, f2, f3, f4, ?_⟩
  obtain ⟨rr, hrr⟩ : ∃ rr, rr = (t.br r).root := ⟨_, rfl⟩
  obtain ⟨J, hJ⟩ : ∃ J, J = (t.br i).join (t.br r) (t.br r).tail := ⟨_, rfl⟩
  obtain ⟨t3, ht3⟩ : ∃ t3, t3 = ((t.unkid rr r).set i J).reroot i (some r) rr := ⟨_, rfl⟩
  have toT3 : t.exchange i r = (t3.updateRoot r rr i).map (fun t => (t, true)) := by
    unfold Tree.exchange
    rw [← hrr]
    dsimp only
    simp only [unkid_br]
    by_cases c : (t.br r).tail = (t.br i).tail ∧ (t.br r).tailHash = (t.br i).tailHash
    · rw [if_pos c, ht3, hJ, c.1, Br.join_self f4]
      congr 3
      exact (Tree.set_same (by simp)).symm
    · rw [if_neg c, if_pos ⟨f1, f3⟩]
      have := takeOver_spec (K := K) (t := t.unkid rr r) (i := i) (r := r) hir (by rw [unkid_br]; exact okr) (by simp only [unkid_br]; exact f3)
        ((t.br i).tail - (t.br r).tail) (t.br i).tail (by simp only [unkid_br]; omega)
        (by simp only [unkid_br]; omega)
      simp only [unkid_br] at this
      rw [Br.join_self f4, Tree.set_same (by simp), show (t.br i).tail - ((t.br i).tail - (t.br r).tail) = (t.br r).tail by omega] at this
      rw [this, Option.bind_some, ht3, hJ]
  have b3i : t3.br i = { J with root := rr } := by rw [ht3]; simp [Tree.reroot, Tree.set]
  have b3 : ∀ j, j ≠ i → t3.br j = t.br j := by intro j hj; rw [ht3]; simp [Tree.reroot, Tree.set, hj]
  have rrNe : ∀ q, rr = some q → q ≠ r ∧ q ≠ i ∧ r ≠ t.main := by
    rintro q rfl
    have h1 := hrank r hr q hrr.symm
    refine ⟨by rintro rfl; omega, by rintro rfl; omega, ?_⟩
    rintro rfl; rw [inv.main_root] at hrr; exact absurd hrr (by simp)
  have k3 : ∀ p c, (p, c) ∈ t3.kids ↔ c ∈ t.live ∧ c ≠ r ∧ ((c = i ∧ rr = some p) ∨ (c ≠ i ∧ (t.br c).root = some p)) := by
    intro p c
    rw [ht3]
    simp only [Tree.reroot]
    cases hq : rr with
    | none =>
      have hrn : (t.br r).root = none := by rw [← hrr, hq]
      simp only [Tree.addKid, Tree.set_kids]
      rw [mem_unkid]
      simp only [Tree.unkid, Tree.set_kids, inv.kids, ne_eq, Prod.mk.injEq, not_and]
      constructor
      · rintro ⟨⟨h1, h2⟩, h3⟩
        have c1 : c ≠ r := by rintro rfl; rw [hrn] at h2; exact absurd h2 (by simp)
        refine ⟨h1, c1, Or.inr ⟨?_, h2⟩⟩
        rintro rfl
        rw [er] at h2
        exact h3 (by simpa using h2.symm) rfl
      · rintro ⟨h1, h2, ⟨-, h3⟩ | ⟨h3, h4⟩⟩
        · exact absurd h3 (by simp)
        · exact ⟨⟨h1, h4⟩, fun _ h => h3 h⟩
    | some q =>
      obtain ⟨n1, n2, -⟩ := rrNe q hq
      have hrn : (t.br r).root = some q := by rw [← hrr, hq]
      rw [mem_addKid]
      simp only [Tree.set_kids]
      rw [mem_unkid]
      simp only [Tree.set_kids]
      rw [mem_unkid, inv.kids]
      simp only [ne_eq, Prod.mk.injEq, not_and, Option.some.injEq]
      constructor
      · rintro (⟨⟨⟨h1, h2⟩, h3⟩, h4⟩ | ⟨rfl, rfl⟩)
        · have c1 : c ≠ r := by
            rintro rfl
            rw [hrn] at h2
            exact h3 (by simpa using h2.symm) rfl
          refine ⟨h1, c1, Or.inr ⟨?_, h2⟩⟩
          rintro rfl
          rw [er] at h2
          exact h4 (by simpa using h2.symm) rfl
        · exact ⟨hi, hir, Or.inl ⟨rfl, rfl⟩⟩
      · rintro ⟨h1, h2, ⟨h3, h4⟩ | ⟨h3, h4⟩⟩
        · exact Or.inr ⟨h4.symm, h3⟩
        · exact Or.inl ⟨⟨⟨h1, h4⟩, fun _ h => h2 h⟩, fun _ h => h3 h⟩
  have d3 : t3.disk = t.disk := by rw [ht3]; simp [Tree.reroot]
  have kr3 : ∀ c, (r, c) ∈ t3.kids ↔ c ∈ t.live ∧ c ≠ i ∧ (t.br c).root = some r := by
    intro c
    rw [k3]
    constructor
    · rintro ⟨h1, h2, ⟨h3, h4⟩ | ⟨h3, h4⟩⟩
      · exact absurd rfl (rrNe r h4).1
      · exact ⟨h1, h3, h4⟩
    · rintro ⟨h1, h2, h3⟩
      refine ⟨h1, ?_, Or.inr ⟨h2, h3⟩⟩
      rintro rfl
      have := hrank _ h1 _ h3; omega
  obtain ⟨t', e', g1, g2, g3, g4, g5, g6, g7, g8⟩ := updateRoot_spec (t := t3) (i := r) (r := i) rr (Ne.symm hir)
    (by rw [kr3]; exact fun g => g.2.1 rfl)
    (by rw [kr3]; exact fun g => by have := hrank _ g.1 _ g.2.2; omega) (by
      intro v hv hh
      obtain ⟨h1, h2, h3⟩ := (kr3 v).mp hv
      rw [b3 r (Ne.symm hir), b3 v h2] at hh
      rw [b3 v h2]
      rcases (inv.root_live h1 h3).2.1 with ⟨k, e1, e2⟩ | ⟨rfl, e1, k, e2, e3⟩ | ⟨h, -⟩
      · have := (okr.has_iff _ _).mpr ⟨k, e1, e2⟩
        rw [hh] at this; exact absurd this (by simp)
      · right
        rw [b3i, d3]
        exact ⟨by rw [hrr]; exact inv.main_root, k, e2, e3⟩
      · exact absurd h.symm hir)
  have mv : ∀ j, j ≠ i → (((r, j) ∈ t3.kids ∧ (t3.br r).has (t3.br j).tail (t3.br j).tailHash = false) ↔
      (j ∈ t.live ∧ (t.br j).root = some r ∧ (t.br r).has (t.br j).tail (t.br j).tailHash = false)) := by
    intro j hj
    rw [kr3, b3 r (Ne.symm hir), b3 j hj]
    constructor
    · rintro ⟨⟨h1, h2, h3⟩, h4⟩; exact ⟨h1, h3, h4⟩
    · rintro ⟨h1, h2, h3⟩; exact ⟨⟨h1, hj, h2⟩, h3⟩
  have hlive : t'.live = t.live := by rw [g1, ht3]; simp [Tree.reroot]
  have bi' : t'.br i = { J with root := rr } := by
    rw [g7 i hir, b3i]
    intro g; exact ((kr3 i).mp g.1).2.1 rfl
  have br' : t'.br r = { t.br r with root := some i } := by rw [g5, b3 r (Ne.symm hir)]
  have yes' : ∀ j, j ≠ i → j ≠ r → (j ∈ t.live ∧ (t.br j).root = some r ∧ (t.br r).has (t.br j).tail (t.br j).tailHash = false) →
      t'.br j = { t.br j with root := some i } := by
    intro j h1 h2 h3
    rw [g6 j h2 ((mv j h1).mpr h3), b3 j h1]
  have no' : ∀ j, j ≠ i → j ≠ r → ¬ (j ∈ t.live ∧ (t.br j).root = some r ∧ (t.br r).has (t.br j).tail (t.br j).tailHash = false) →
      t'.br j = t.br j := by
    intro j h1 h2 h3
    rw [g7 j h2 (fun g => h3 ((mv j h1).mp g)), b3 j h1]
  refine ⟨t', by rw [toT3, e']; rfl, hlive, ?_, ?_, ?_, by rw [bi', hJ, hrr], br', yes', no', ?_⟩
  · rw [g2, ht3]; simp [Tree.reroot]
  · rw [g3, ht3]; simp [Tree.reroot]
  · rw [g4, d3]
  · intro p c
    rw [g8, hlive]
    by_cases ci : c = i
    · subst ci
      rw [bi', k3]
      have n1 : ¬ ((r, c) ∈ t3.kids ∧ (t3.br r).has (t3.br c).tail (t3.br c).tailHash = false) := fun g => ((kr3 c).mp g.1).2.1 rfl
      dsimp only
      constructor
      · rintro (⟨⟨-, -, ⟨-, h⟩ | ⟨h, -⟩⟩ | h, -⟩ | h)
        · exact ⟨hi, h⟩
        · exact absurd rfl h
        · exact absurd (Prod.mk.inj h).2 hir
        · exact absurd h.2 n1
      · rintro ⟨-, h⟩
        exact Or.inl ⟨Or.inl ⟨hi, hir, Or.inl ⟨rfl, h⟩⟩, fun g => n1 g.2⟩
    · by_cases cr : c = r
      · subst cr
        rw [br', k3]
        have n1 : ¬ ((c, c) ∈ t3.kids ∧ (t3.br c).has (t3.br c).tail (t3.br c).tailHash = false) := by
          intro g; have h := (kr3 c).mp g.1; have := hrank _ h.1 _ h.2.2; omega
        dsimp only
        constructor
        · rintro (⟨⟨-, h, -⟩ | h, -⟩ | h)
          · exact absurd rfl h
          · exact ⟨hr, by rw [(Prod.mk.inj h).1]⟩
          · exact absurd h.2 n1
        · rintro ⟨-, h⟩
          obtain rfl : i = p := by simpa using h
          exact Or.inl ⟨Or.inr rfl, fun g => n1 g.2⟩
      · rw [k3, mv c ci]
        by_cases cm : c ∈ t.live ∧ (t.br c).root = some r ∧ (t.br r).has (t.br c).tail (t.br c).tailHash = false
        · rw [yes' c ci cr cm]
          dsimp only
          constructor
          · rintro (⟨⟨-, -, ⟨h, -⟩ | ⟨-, h⟩⟩ | h, h'⟩ | h)
            · exact absurd h ci
            · rw [cm.2.1] at h
              exact absurd ⟨by simpa using h.symm, cm⟩ h'
            · exact absurd (Prod.mk.inj h).2 cr
            · exact ⟨cm.1, by rw [h.1]⟩
          · rintro ⟨-, h⟩
            obtain rfl : i = p := by simpa using h
            exact Or.inr ⟨rfl, cm⟩
        · rw [no' c ci cr cm]
          constructor
          · rintro (⟨⟨h1, -, ⟨h, -⟩ | ⟨-, h⟩⟩ | h, h'⟩ | h)
            · exact absurd h ci
            · exact ⟨h1, h⟩
            · exact absurd (Prod.mk.inj h).2 cr
            · exact absurd h.2 cm
          · rintro ⟨h1, h2⟩
            exact Or.inl ⟨Or.inl ⟨h1, cr, Or.inr ⟨ci, h2⟩⟩, fun g => cm g.2⟩

end Verif.Fork
