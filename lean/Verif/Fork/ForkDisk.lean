import Verif.Fork.ForkGrow

/-! Blocks that are written to the chain, or taken from it. -/

namespace Verif.Fork

variable {K : Knot → Prop}

/-- A branch without its blocks up to a height. -/
def Br.trim (b : Br) (m : Nat) : Br :=
  { b with tail := m, tailHash := b.hashAt m, knots := fun h => if h ≤ m then none else b.knots h }

theorem BrOk.trim {b : Br} (ok : BrOk K b) {m : Nat} (h1 : b.tail ≤ m) (h2 : m ≤ b.head) : BrOk K (b.trim m) := by
  have hash : ∀ h, m ≤ h → (b.trim m).hashAt h = b.hashAt h := by
    intro h g
    by_cases c : h = m
    · subst c; simp [Br.hashAt, Br.trim]
    · simp [Br.hashAt, Br.trim, c, show ¬ h ≤ m by omega, show h ≠ b.tail by omega]
  refine ⟨h2, ?_, ?_, ?_⟩
  · intro h g
    simp only [Br.trim] at g ⊢
    split
    · rfl
    · exact ok.out h (by omega)
  · intro h g1 g2
    simp only [Br.trim] at g1 g2
    obtain ⟨k, e1, e2, e3, e4⟩ := ok.mem h (by omega) g2
    refine ⟨k, ?_, e2, e3, by rw [hash h g1]; exact e4⟩
    simp only [Br.trim]
    rw [if_neg (by omega)]; exact e1
  · rw [hash _ (by exact h2)]; exact ok.last

theorem BrOk.trim_tail {b : Br} (ok : BrOk K b) : b.trim b.tail = b := by
  ext1
  · rfl
  · simp [Br.trim, Br.hashAt]
  · rfl
  · rfl
  · funext h
    simp only [Br.trim]
    split
    · exact (ok.out h (by omega)).symm
    · rfl
  · rfl

theorem BrOk.removeTail {b : Br} (ok : BrOk K b) {k : Knot} (eh : k.height = b.tail + 1) (g : b.tail < b.head)
    (ep : b.tailHash = k.prev) (ex : k.hash = b.hashAt (b.tail + 1)) : b.removeTail k = some (b.trim (b.tail + 1)) := by
  rw [Br.removeTail, if_neg (by simp [ep]), if_neg (by omega), Option.some.injEq]
  ext1
  · simp [Br.trim, eh]
  · simp [Br.trim, ex]
  · rfl
  · rfl
  · funext h
    simp only [Br.trim, put]
    split
    · rw [if_pos (by omega)]
    · split
      · exact ok.out h (by omega)
      · rfl
  · rfl

theorem Inv.main_tail {t : Tree} {s : Nat} (inv : Inv K t s) :
    ∃ k, t.top = some k ∧ k.height = (t.br t.main).tail ∧ k.hash = (t.br t.main).tailHash ∧ K k ∧
      t.disk[(t.br t.main).tail]? = some k := by
  obtain ⟨k, e1, e2⟩ := inv.top
  have := inv.disk.ok _ _ e1
  refine ⟨k, ?_, this.1, e2, this.2, e1⟩
  rw [Tree.top, List.getLast?_eq_getElem?, inv.size, Nat.add_sub_cancel]; exact e1

theorem Inv.linked {t : Tree} {s : Nat} (inv : Inv K t s) : t.linked t.main = true := by
  obtain ⟨k, e1, e2, e3, -, -⟩ := inv.main_tail
  simp [Tree.linked, e1, e2, e3]

theorem DiskOk.append {d : List Knot} (ok : DiskOk K d) {k p : Knot} (hk : K k) (el : d[d.length - 1]? = some p)
    (eh : k.height = d.length) (ep : k.prev = p.hash) : DiskOk K (d ++ [k]) := by
  have key : ∀ h a, (d ++ [k])[h]? = some a → d[h]? = some a ∨ (h = d.length ∧ a = k) := by
    intro h a e
    by_cases c : h < d.length
    · rw [List.getElem?_append_left c] at e; exact Or.inl e
    · right
      rw [List.getElem?_append_right (by omega)] at e
      have := (List.getElem?_eq_some_iff.mp e).1
      simp only [List.length_singleton] at this
      have hd : h = d.length := by omega
      subst hd
      simp at e
      exact ⟨rfl, e.symm⟩
  constructor
  · intro h a e
    rcases key h a e with e | ⟨rfl, rfl⟩
    · exact ok.ok h a e
    · exact ⟨eh, hk⟩
  · intro h a b e e'
    rcases key _ _ e' with e2 | ⟨c, rfl⟩
    · rcases key _ _ e with e1 | ⟨c, rfl⟩
      · exact ok.link h a b e1 e2
      · have := (List.getElem?_eq_some_iff.mp e2).1; omega
    · rcases key _ _ e with e1 | ⟨c', rfl⟩
      · have : d.length - 1 = h := by omega
        rw [this, e1] at el
        obtain rfl : a = p := by simpa using el
        exact ep
      · omega

/-- A block is written to the chain, and the main branch goes on from there. -/
theorem Inv.confirmed {t : Tree} (inv : Inv K t t.main) {k : Knot} {b : Br} (hk : K k) (eh : k.height = (t.br t.main).tail + 1)
    (ep : k.prev = (t.br t.main).tailHash) (ok : BrOk K b) (er : b.root = none) (et : b.tail = k.height) (ex : b.tailHash = k.hash)
    (keep : ∀ h a, (t.br t.main).knots h = some a → b.knots h = some a ∨ (h = k.height ∧ a.hash = k.hash)) :
    Inv K ({ t with disk := t.disk ++ [k] }.set t.main b) t.main := by
  obtain ⟨p, -, -, e2, -, e3⟩ := inv.main_tail
  have size := inv.size
  have low : ∀ h, h ≤ (t.br t.main).tail → (t.disk ++ [k])[h]? = t.disk[h]? := by
    intro h g; rw [List.getElem?_append_left (by omega)]
  have new : (t.disk ++ [k])[k.height]? = some k := by
    rw [List.getElem?_append_right (by omega), show k.height - t.disk.length = 0 by omega]; rfl
  have hb : ∀ j, ((t.set t.main b).br j).root = (t.br j).root := by
    intro j
    by_cases c : j = t.main
    · subst c; rw [Tree.set_self, er, inv.main_root]
    · rw [Tree.set_ne t b c]
  have hm : (t.set t.main b).br t.main = b := Tree.set_self ..
  refine ⟨?_, ?_, inv.main_live, ?_, ?_, ?_, ?_, ?_, ?_, inv.nodup, inv.ids⟩
  · exact inv.disk.append hk (by rw [size, Nat.add_sub_cancel]; exact e3) (by omega) (by rw [ep, e2])
  · intro j hj
    show BrOk K ((t.set t.main b).br j)
    by_cases c : j = t.main
    · subst c; rw [Tree.set_self]; exact ok
    · rw [Tree.set_ne t b c]; exact inv.ok j hj
  · show ((t.set t.main b).br t.main).root = none
    rw [hm, er]
  · show (t.disk ++ [k]).length = ((t.set t.main b).br t.main).tail + 1
    rw [hm, et]; simp; omega
  · show ∃ k', (t.disk ++ [k])[((t.set t.main b).br t.main).tail]? = some k' ∧ k'.hash = ((t.set t.main b).br t.main).tailHash
    rw [hm, et, ex]; exact ⟨k, new, rfl⟩
  · intro j hj ne
    obtain ⟨r, hr, e, H⟩ := inv.anchored j hj ne
    have ej : (t.set t.main b).br j = t.br j := Tree.set_ne t b ne
    refine ⟨r, hr, by show ((t.set t.main b).br j).root = some r; rw [ej]; exact e, ?_⟩
    show Holds _ _ r ((t.set t.main b).br j).tail ((t.set t.main b).br j).tailHash
    rw [ej]
    rcases H with ⟨a, e1, e4⟩ | ⟨rfl, e4, a, e5, e6⟩ | ⟨rfl, e4, e5⟩
    · by_cases c : r = t.main
      · subst c
        rcases keep _ _ e1 with e6 | ⟨e6, e7⟩
        · refine Or.inl ⟨a, ?_, e4⟩
          show ((t.set t.main b).br t.main).knots _ = _
          rw [hm]; exact e6
        · refine Or.inr (Or.inl ⟨rfl, ?_, k, ?_, by rw [← e7, e4]⟩)
          · show _ ≤ ((t.set t.main b).br t.main).tail
            rw [hm]; omega
          · rw [e6]; exact new
      · refine Or.inl ⟨a, ?_, e4⟩
        show ((t.set t.main b).br r).knots _ = _
        rw [Tree.set_ne t b c]; exact e1
    · refine Or.inr (Or.inl ⟨rfl, ?_, a, ?_, e6⟩)
      · show _ ≤ ((t.set t.main b).br t.main).tail
        rw [hm]; omega
      · exact (low _ e4).trans e5
    · refine Or.inr (Or.inl ⟨rfl, ?_, p, ?_, by rw [e2, e5]⟩)
      · show _ ≤ ((t.set t.main b).br t.main).tail
        rw [hm]; omega
      · rw [e4]; exact (low _ (Nat.le_refl _)).trans e3
  · intro q c
    show _ ↔ _ ∧ ((t.set t.main b).br c).root = some q
    rw [hb c]; exact inv.kids q c
  · obtain ⟨rank, hr⟩ := inv.rank
    exact ⟨rank, fun j hj r e => hr j hj r (by rw [← hb j]; exact e)⟩

/-- The last block of the chain becomes a block of the main branch. -/
def Tree.pop (t : Tree) (k : Knot) : Tree :=
  { t with disk := t.disk.dropLast }.set t.main
    { t.br t.main with tailHash := k.prev, tail := k.height - 1, knots := put (t.br t.main).knots k.height (some k) }

theorem Inv.pop {t : Tree} (inv : Inv K t t.main) {k : Knot} (e : t.top = some k) (g : 0 < (t.br t.main).tail) :
    Inv K (t.pop k) (t.pop k).main := by
  obtain ⟨k', e1, e2, e3, e4, e5⟩ := inv.main_tail
  rw [e] at e1
  obtain rfl : k = k' := by simpa using e1
  have size := inv.size
  have okm := inv.ok _ inv.main_live
  have low : ∀ h, h < (t.br t.main).tail → t.disk.dropLast[h]? = t.disk[h]? := by
    intro h c; rw [List.getElem?_dropLast, if_pos (by omega)]
  have lowq : ∀ (h : Nat) (a : Knot), t.disk.dropLast[h]? = some a → t.disk[h]? = some a := by
    intro h a c
    rw [List.getElem?_dropLast] at c
    split at c
    · exact c
    · exact absurd c (by simp)
  obtain ⟨b, hbdef⟩ : ∃ b, b = { t.br t.main with tailHash := k.prev, tail := k.height - 1, knots := put (t.br t.main).knots k.height (some k) } :=
    ⟨_, rfl⟩
  have hpop : t.pop k = { t with disk := t.disk.dropLast }.set t.main b := by rw [hbdef]; rfl
  have ok : BrOk K b := by
    have hash : ∀ h, (t.br t.main).tail ≤ h → b.hashAt h = (t.br t.main).hashAt h := by
      intro h c
      rw [hbdef]
      simp only [Br.hashAt, put]
      rw [if_neg (by omega)]
      by_cases c' : h = (t.br t.main).tail
      · rw [if_pos (by omega), if_pos c']; simpa using e3
      · rw [if_neg (by omega), if_neg c']
    refine ⟨?_, ?_, ?_, ?_⟩
    · rw [hbdef]; simp only; have := okm.le; omega
    · intro h c
      rw [hbdef] at c ⊢
      simp only [put] at c ⊢
      have := okm.le
      rw [if_neg (by omega)]
      exact okm.out h (by omega)
    · intro h c1 c2
      rw [hbdef] at c1 c2
      simp only at c1 c2
      by_cases c : h + 1 = k.height
      · refine ⟨k, ?_, by omega, e4, ?_⟩
        · rw [hbdef]; simp only [put]; rw [if_pos c]
        · rw [hbdef]; simp only [Br.hashAt]; rw [if_pos (by omega)]
      · obtain ⟨a, d1, d2, d3, d4⟩ := okm.mem h (by omega) c2
        refine ⟨a, ?_, d2, d3, by rw [hash h (by omega)]; exact d4⟩
        rw [hbdef]; simp only [put]; rw [if_neg c]; exact d1
    · rw [hash b.head (by rw [hbdef]; exact okm.le)]
      rw [hbdef]; exact okm.last
  have et : b.tail = (t.br t.main).tail - 1 := by rw [hbdef]; simp only; omega
  have er : b.root = none := by rw [hbdef]; exact inv.main_root
  have ek : b.knots (t.br t.main).tail = some k := by rw [hbdef]; simp only [put]; rw [if_pos e2.symm]
  have keep : ∀ h a, (t.br t.main).knots h = some a → b.knots h = some a := by
    intro h a c
    have := okm.range c
    rw [hbdef]; simp only [put]; rw [if_neg (by omega)]; exact c
  have hb : ∀ j, ((t.set t.main b).br j).root = (t.br j).root := by
    intro j
    by_cases c : j = t.main
    · subst c; rw [Tree.set_self, er, inv.main_root]
    · rw [Tree.set_ne t b c]
  have hm : (t.set t.main b).br t.main = b := Tree.set_self ..
  rw [hpop]
  show Inv K _ t.main
  refine ⟨?_, ?_, inv.main_live, ?_, ?_, ?_, ?_, ?_, ?_, inv.nodup, inv.ids⟩
  · exact ⟨fun h a c => inv.disk.ok h a (lowq _ _ c), fun h a a' c c' => inv.disk.link h a a' (lowq _ _ c) (lowq _ _ c')⟩
  · intro j hj
    show BrOk K ((t.set t.main b).br j)
    by_cases c : j = t.main
    · subst c; rw [Tree.set_self]; exact ok
    · rw [Tree.set_ne t b c]; exact inv.ok j hj
  · show ((t.set t.main b).br t.main).root = none
    rw [hm, er]
  · show t.disk.dropLast.length = ((t.set t.main b).br t.main).tail + 1
    rw [hm, et, List.length_dropLast]; omega
  · show ∃ k', t.disk.dropLast[((t.set t.main b).br t.main).tail]? = some k' ∧ k'.hash = ((t.set t.main b).br t.main).tailHash
    rw [hm, et, low _ (by omega)]
    have hlt : (t.br t.main).tail - 1 < t.disk.length := by omega
    refine ⟨_, List.getElem?_eq_getElem hlt, ?_⟩
    have := inv.disk.link ((t.br t.main).tail - 1) _ k (List.getElem?_eq_getElem hlt) (by rw [Nat.sub_add_cancel g]; exact e5)
    rw [← this, hbdef]
  · intro j hj ne
    obtain ⟨r, hr, e, H⟩ := inv.anchored j hj ne
    have ej : (t.set t.main b).br j = t.br j := Tree.set_ne t b ne
    refine ⟨r, hr, by show ((t.set t.main b).br j).root = some r; rw [ej]; exact e, ?_⟩
    show Holds _ _ r ((t.set t.main b).br j).tail ((t.set t.main b).br j).tailHash
    rw [ej]
    rcases H with ⟨a, e1, e4⟩ | ⟨rfl, e4, a, e5', e6⟩ | ⟨rfl, e4, e6⟩
    · refine Or.inl ⟨a, ?_, e4⟩
      show ((t.set t.main b).br r).knots _ = _
      by_cases c : r = t.main
      · subst c; rw [hm]; exact keep _ _ e1
      · rw [Tree.set_ne t b c]; exact e1
    · by_cases c : (t.br j).tail = (t.br t.main).tail
      · refine Or.inl ⟨k, ?_, ?_⟩
        · show ((t.set t.main b).br t.main).knots _ = _
          rw [hm, c]; exact ek
        · rw [c, e5] at e5'
          obtain rfl : k = a := by simpa using e5'
          exact e6
      · refine Or.inr (Or.inl ⟨rfl, ?_, a, ?_, e6⟩)
        · show _ ≤ ((t.set t.main b).br t.main).tail
          rw [hm]; omega
        · exact (low _ (by omega)).trans e5'
    · refine Or.inl ⟨k, ?_, ?_⟩
      · show ((t.set t.main b).br t.main).knots _ = _
        rw [hm, e4]; exact ek
      · rw [e3, e6]
  · intro q c
    show _ ↔ _ ∧ ((t.set t.main b).br c).root = some q
    rw [hb c]; exact inv.kids q c
  · obtain ⟨rank, hr⟩ := inv.rank
    exact ⟨rank, fun j hj r e => hr j hj r (by rw [← hb j]; exact e)⟩

theorem Tree.rollback_pop {t : Tree} {k : Knot} {h : Nat} (e : t.top = some k) (ex : (t.br t.main).tailHash = k.hash) (h0 : 0 < h)
    (g : h < t.disk.length) : t.rollback h = (t.pop k).rollback h := by
  unfold Tree.rollback
  rw [if_pos h0, if_pos h0]
  have hd : t.disk = t.disk.dropLast ++ [k] := by
    rw [Tree.top] at e
    have hne : t.disk ≠ [] := by intro c; rw [c] at e; simp at e
    rw [List.getLast?_eq_some_getLast hne] at e
    simp only [Option.some.injEq] at e
    rw [← e, List.dropLast_append_getLast]
  have e1 : (t.disk.drop h).reverse = k :: ((t.disk.dropLast).drop h).reverse := by
    conv_lhs => rw [hd]
    rw [List.drop_append_of_le_length (by rw [List.length_dropLast]; omega)]
    simp
  rw [e1, Tree.addTails]
  simp only [Br.addTail, ex, ne_eq, not_true_eq_false, if_false, Option.bind_some]
  have e2 : (t.pop k).disk = t.disk.dropLast := rfl
  have e3 : (t.pop k).main = t.main := rfl
  rw [e2, e3]
  congr 1
  have e4 : t.disk.take h = t.disk.dropLast.take h := by
    conv_lhs => rw [hd]
    rw [List.take_append_of_le_length (by rw [List.length_dropLast]; omega)]
  rw [e4]
  rfl

/-- Rolling back succeeds; the blocks taken from the chain are in the main branch, and no head changes. -/
theorem Inv.rollback {t : Tree} (inv : Inv K t t.main) (h : Nat) :
    ∃ t', t.rollback h = some t' ∧ Inv K t' t'.main ∧ t'.live = t.live ∧ t'.main = t.main ∧
      (∀ j, (t'.br j).head = (t.br j).head ∧ (t'.br j).headHash = (t.br j).headHash ∧ (t'.br j).root = (t.br j).root ∧
        (j ≠ t.main → (t'.br j).tail = (t.br j).tail)) ∧
      (0 < h → t'.disk = t.disk.take h) := by
  by_cases h0 : 0 < h
  swap
  · exact ⟨t, by rw [Tree.rollback, if_neg h0], inv, rfl, rfl, fun _ => ⟨rfl, rfl, rfl, fun _ => rfl⟩, fun c => absurd c h0⟩
  have key : ∀ n (t : Tree), Inv K t t.main → t.disk.length - h = n →
      ∃ t', t.rollback h = some t' ∧ Inv K t' t'.main ∧ t'.live = t.live ∧ t'.main = t.main ∧
      (∀ j, (t'.br j).head = (t.br j).head ∧ (t'.br j).headHash = (t.br j).headHash ∧ (t'.br j).root = (t.br j).root ∧
        (j ≠ t.main → (t'.br j).tail = (t.br j).tail)) ∧
      t'.disk = t.disk.take h := by
    intro n
    induction n with
    | zero =>
      intro t inv e
      have hl : t.disk.length ≤ h := by omega
      refine ⟨t, ?_, inv, rfl, rfl, fun _ => ⟨rfl, rfl, rfl, fun _ => rfl⟩, (List.take_of_length_le hl).symm⟩
      rw [Tree.rollback, if_pos h0, List.drop_of_length_le hl, List.take_of_length_le hl]
      rfl
    | succ n ih =>
      intro t inv e
      obtain ⟨k, e1, e2, e3, -, -⟩ := inv.main_tail
      have size := inv.size
      rw [Tree.rollback_pop e1 e3.symm h0 (by omega)]
      have hl : (t.pop k).disk = t.disk.dropLast := rfl
      obtain ⟨t', r1, r2, r3, r4, r5, r6⟩ := ih (t.pop k) (inv.pop e1 (by omega)) (by rw [hl, List.length_dropLast]; omega)
      refine ⟨t', r1, r2, r3, r4, ?_, ?_⟩
      · intro j
        obtain ⟨c1, c2, c3, c4⟩ := r5 j
        rw [c1, c2, c3]
        have hm : (t.pop k).main = t.main := rfl
        rw [hm] at c4
        by_cases c : j = t.main
        · subst c; simp [Tree.pop, Tree.set]
        · rw [c4 c]; simp [Tree.pop, Tree.set, c]
      · rw [r6, hl]
        rw [List.dropLast_eq_take, List.take_take, Nat.min_eq_left (by omega)]
  obtain ⟨t', r1, r2, r3, r4, r5, r6⟩ := key _ t inv rfl
  exact ⟨t', r1, r2, r3, r4, r5, fun _ => r6⟩

end Verif.Fork
