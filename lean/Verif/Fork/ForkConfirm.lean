import Verif.Fork.ForkMove

/-! A block is written to the chain. -/

namespace Verif.Fork

variable {K : Knot → Prop}

theorem updateRoot_spec {t : Tree} {i r : Nat} (old : Option Nat) (hir : i ≠ r)
    (hr : (i, r) ∉ t.kids) (hi : (i, i) ∉ t.kids)
    (H : ∀ v, (i, v) ∈ t.kids → (t.br i).has (t.br v).tail (t.br v).tailHash = false → Sees t r (t.br v).tail (t.br v).tailHash) :
    ∃ t', t.updateRoot i old r = some t' ∧ t'.live = t.live ∧ t'.main = t.main ∧ t'.next = t.next ∧ t'.disk = t.disk ∧
      t'.br i = { t.br i with root := some r } ∧
      (∀ j, j ≠ i → (i, j) ∈ t.kids ∧ (t.br i).has (t.br j).tail (t.br j).tailHash = false → t'.br j = { t.br j with root := some r }) ∧
      (∀ j, j ≠ i → ¬ ((i, j) ∈ t.kids ∧ (t.br i).has (t.br j).tail (t.br j).tailHash = false) → t'.br j = t.br j) ∧
      (∀ p c, (p, c) ∈ t'.kids ↔
        (((p, c) ∈ t.kids ∨ (p, c) = (r, i)) ∧ ¬ (p = i ∧ (i, c) ∈ t.kids ∧ (t.br i).has (t.br c).tail (t.br c).tailHash = false)) ∨
        (p = r ∧ (i, c) ∈ t.kids ∧ (t.br i).has (t.br c).tail (t.br c).tailHash = false)) := by
  unfold Tree.updateRoot
  obtain ⟨t1, ht1⟩ : ∃ t1, t1 = (t.set i { t.br i with root := some r }).addKid (some r) i := ⟨_, rfl⟩
  have bi : t1.br i = { t.br i with root := some r } := by rw [ht1]; simp [Tree.set]
  have bj : ∀ j, j ≠ i → t1.br j = t.br j := by intro j hj; rw [ht1]; simp [Tree.set, hj]
  have kk : ∀ x, x ∈ t1.kids ↔ x ∈ t.kids ∨ x = (r, i) := by intro x; rw [ht1, mem_addKid]; simp
  have ki : ∀ v, v ∈ t1.kidsOf i ↔ (i, v) ∈ t.kids := by
    intro v; rw [mem_kidsOf, kk]
    simp only [Prod.mk.injEq, hir, false_and, or_false]
  have tl : ∀ v, (t1.br v).tail = (t.br v).tail ∧ (t1.br v).tailHash = (t.br v).tailHash := by
    intro v
    by_cases c : v = i
    · subst c; rw [bi]; exact ⟨rfl, rfl⟩
    · rw [bj v c]; exact ⟨rfl, rfl⟩
  have hasEq : ∀ h x, (t1.br i).has h x = (t.br i).has h x := by intro h x; rw [bi]; rfl
  have dk : t1.disk = t.disk := by rw [ht1]; simp
  obtain ⟨t', e, M⟩ := moveKids_spec old hir (t1.kidsOf i) t1 (by rw [ki]; exact hr) (by rw [ki]; exact hi) (by
    intro v hv hh
    rw [ki] at hv
    rw [hasEq, (tl v).1, (tl v).2] at hh
    rw [(tl v).1, (tl v).2]
    have := H v hv hh
    unfold Sees at this ⊢
    rw [dk, bj r (Ne.symm hir)]; exact this)
  have hS : ∀ j, (j ∈ t1.kidsOf i ∧ (t1.br i).has (t1.br j).tail (t1.br j).tailHash = false) ↔
      ((i, j) ∈ t.kids ∧ (t.br i).has (t.br j).tail (t.br j).tailHash = false) := by
    intro j; rw [ki, hasEq, (tl j).1, (tl j).2]
  have M := M.congr (S' := fun j => (i, j) ∈ t.kids ∧ (t.br i).has (t.br j).tail (t.br j).tailHash = false) (fun j => (hS j).symm)
  refine ⟨t', ?_, ?_, ?_, ?_, ?_, ?_, ?_, ?_, ?_⟩
  · rw [ht1] at e; exact e
  · rw [M.live, ht1]; simp
  · rw [M.main, ht1]; simp
  · rw [M.next, ht1]; simp
  · rw [M.disk, dk]
  · rw [M.no i (fun c => hi c.1), bi]
  · intro j hj c; rw [M.yes j c, bj j hj]
  · intro j hj c; rw [M.no j c, bj j hj]
  · intro p c; rw [M.kids, kk]

/-- What a tree with a new, empty main branch at the head of the chain looks like. -/
structure Replaced (t t' : Tree) (k : Knot) : Prop where
  live : ∀ j, j ∈ t'.live ↔ j ∈ t.live ∨ j = t.next
  nodup : t'.live.Nodup
  main : t'.main = t.next
  next : t'.next = t.next + 1
  disk : t'.disk = t.disk ++ [k]
  new : t'.br t.next = Br.new k none
  old : t'.br t.main = { t.br t.main with root := some t.next }
  yes : ∀ j, j ≠ t.main → j ≠ t.next → (t.main, j) ∈ t.kids →
    (t.br t.main).has (t.br j).tail (t.br j).tailHash = false → t'.br j = { t.br j with root := some t.next }
  no : ∀ j, j ≠ t.main → j ≠ t.next → ¬ ((t.main, j) ∈ t.kids ∧ (t.br t.main).has (t.br j).tail (t.br j).tailHash = false) →
    t'.br j = t.br j
  kids : ∀ p c, (p, c) ∈ t'.kids ↔
    (((p, c) ∈ t.kids ∨ (p, c) = (t.next, t.main)) ∧
      ¬ (p = t.main ∧ (t.main, c) ∈ t.kids ∧ (t.br t.main).has (t.br c).tail (t.br c).tailHash = false)) ∨
    (p = t.next ∧ (t.main, c) ∈ t.kids ∧ (t.br t.main).has (t.br c).tail (t.br c).tailHash = false)

theorem Inv.main_sees {t : Tree} (inv : Inv K t t.main) {v : Nat} (hv : (t.main, v) ∈ t.kids)
    (hh : (t.br t.main).has (t.br v).tail (t.br v).tailHash = false) :
    (t.br v).tail ≤ (t.br t.main).tail ∧ ∃ a, t.disk[(t.br v).tail]? = some a ∧ a.hash = (t.br v).tailHash := by
  obtain ⟨hl, er⟩ := (inv.kids _ _).mp hv
  obtain ⟨-, H, -⟩ := inv.root_live hl er
  rcases H with ⟨a, e1, e2⟩ | ⟨-, e1, a, e2, e3⟩ | ⟨-, e1, e2⟩
  · have := ((inv.ok _ inv.main_live).has_iff _ _).mpr ⟨a, e1, e2⟩
    rw [hh] at this; exact absurd this (by simp)
  · exact ⟨e1, a, e2, e3⟩
  · obtain ⟨p, -, -, e3, -, e4⟩ := inv.main_tail
    refine ⟨by omega, p, by rw [e1]; exact e4, by rw [e3, e2]⟩

theorem Inv.replaced {t t' : Tree} (inv : Inv K t t.main) {k : Knot} (hk : K k) (eh : k.height = (t.br t.main).tail + 1)
    (ep : k.prev = (t.br t.main).tailHash) (R : Replaced t t' k) : Inv K t' t'.main := by
  have hn : t.next ∉ t.live := fun c => by have := inv.ids _ c; omega
  have ne : ∀ j ∈ t.live, j ≠ t.next := by rintro j hj rfl; exact hn hj
  have size := inv.size
  obtain ⟨p, -, -, e2, -, e3⟩ := inv.main_tail
  have low : ∀ h, h ≤ (t.br t.main).tail → (t.disk ++ [k])[h]? = t.disk[h]? := by
    intro h g; rw [List.getElem?_append_left (by omega)]
  have new : (t.disk ++ [k])[k.height]? = some k := by
    rw [List.getElem?_append_right (by omega), show k.height - t.disk.length = 0 by omega]; rfl
  have hm : t'.br t'.main = Br.new k none := by rw [R.main, R.new]
  have keep : ∀ j ∈ t.live, (t'.br j).tail = (t.br j).tail ∧ (t'.br j).tailHash = (t.br j).tailHash ∧
      (t'.br j).knots = (t.br j).knots ∧ (BrOk K (t'.br j)) := by
    intro j hj
    have ok := inv.ok j hj
    by_cases c : j = t.main
    · subst c; rw [R.old]; exact ⟨rfl, rfl, rfl, ⟨ok.le, ok.out, ok.mem, ok.last⟩⟩
    · by_cases c' : (t.main, j) ∈ t.kids ∧ (t.br t.main).has (t.br j).tail (t.br j).tailHash = false
      · rw [R.yes j c (ne j hj) c'.1 c'.2]; exact ⟨rfl, rfl, rfl, ⟨ok.le, ok.out, ok.mem, ok.last⟩⟩
      · rw [R.no j c (ne j hj) c']; exact ⟨rfl, rfl, rfl, ok⟩
  have roots : ∀ j ∈ t.live, ∀ r, (t'.br j).root = some r → r = t.next ∨ (t.br j).root = some r := by
    intro j hj r er
    by_cases c : j = t.main
    · subst c; rw [R.old] at er; left; simpa using er.symm
    · by_cases c' : (t.main, j) ∈ t.kids ∧ (t.br t.main).has (t.br j).tail (t.br j).tailHash = false
      · rw [R.yes j c (ne j hj) c'.1 c'.2] at er; left; simpa using er.symm
      · rw [R.no j c (ne j hj) c'] at er; exact Or.inr er
  refine ⟨?_, ?_, ?_, by rw [hm]; rfl, ?_, ?_, ?_, ?_, ?_, R.nodup, ?_⟩
  · rw [R.disk]
    exact inv.disk.append hk (by rw [size, Nat.add_sub_cancel]; exact e3) (by omega) (by rw [ep, e2])
  · intro j hj
    rcases (R.live j).mp hj with hj | rfl
    · exact (keep j hj).2.2.2
    · rw [R.new]; exact BrOk.new k none
  · rw [R.live, R.main]; exact Or.inr rfl
  · rw [hm, R.disk]; simp only [Br.new, List.length_append, List.length_singleton]; omega
  · rw [hm, R.disk]; exact ⟨k, new, rfl⟩
  · intro j hj nm
    rw [R.main] at nm
    have hj := ((R.live j).mp hj).resolve_right nm
    obtain ⟨k1, k2, -, -⟩ := keep j hj
    rw [k1, k2]
    have onDisk : (t.br j).tail ≤ (t.br t.main).tail → (∃ a, t.disk[(t.br j).tail]? = some a ∧ a.hash = (t.br j).tailHash) →
        Holds t' t'.main t.next (t.br j).tail (t.br j).tailHash := by
      rintro g ⟨a, ea, ea'⟩
      refine Or.inr (Or.inl ⟨R.main.symm, ?_, a, ?_, ea'⟩)
      · rw [hm]; simp only [Br.new]; omega
      · rw [R.disk, low _ g]; exact ea
    by_cases c : j = t.main
    · subst c
      refine ⟨t.next, (R.live _).mpr (Or.inr rfl), by rw [R.old], onDisk (Nat.le_refl _) ⟨p, e3, e2⟩⟩
    · by_cases c' : (t.main, j) ∈ t.kids ∧ (t.br t.main).has (t.br j).tail (t.br j).tailHash = false
      · have := inv.main_sees c'.1 c'.2
        refine ⟨t.next, (R.live _).mpr (Or.inr rfl), by rw [R.yes j c (ne j hj) c'.1 c'.2], onDisk this.1 this.2⟩
      · obtain ⟨r, hr, er, H⟩ := inv.anchored j hj c
        refine ⟨r, (R.live r).mpr (Or.inl hr), by rw [R.no j c (ne j hj) c']; exact er, Or.inl ?_⟩
        rw [(keep r hr).2.2.1]
        rcases H with H | ⟨rfl, H⟩ | ⟨rfl, H⟩
        · exact H
        all_goals
          have hk := (inv.kids t.main j).mpr ⟨hj, er⟩
          have : (t.br t.main).has (t.br j).tail (t.br j).tailHash = true := by
            by_contra g; exact c' ⟨hk, by simpa using g⟩
          exact ((inv.ok _ inv.main_live).has_iff _ _).mp this
  · intro q c
    rw [R.kids, R.live]
    by_cases hc : c = t.next
    · subst hc
      rw [R.new]
      have k1 : ∀ q, (q, t.next) ∉ t.kids := fun q g => hn ((inv.kids _ _).mp g).1
      have k2 : t.next ≠ t.main := fun g => hn (g ▸ inv.main_live)
      simp [k1, k2, Br.new]
    · by_cases hcm : c = t.main
      · subst hcm
        rw [R.old]
        have k1 : ∀ q, (q, t.main) ∉ t.kids := by
          intro q g
          have := ((inv.kids _ _).mp g).2
          rw [inv.main_root] at this; exact absurd this (by simp)
        simp only [k1, false_or, Prod.mk.injEq, and_true, and_false, not_false_eq_true, or_false, false_and, inv.main_live,
          true_or, true_and, Option.some.injEq]
        exact eq_comm
      · by_cases c' : (t.main, c) ∈ t.kids ∧ (t.br t.main).has (t.br c).tail (t.br c).tailHash = false
        · obtain ⟨c1, c2⟩ := c'
          have hl := (inv.kids _ _).mp c1
          rw [R.yes c hcm hc c1 c2]
          simp only [c1, c2, and_true, Prod.mk.injEq, hcm, and_false, or_false, hl.1, true_or, true_and, Option.some.injEq]
          rw [inv.kids, hl.2]
          simp only [hl.1, true_and, Option.some.injEq]
          constructor
          · rintro (⟨a, b⟩ | a)
            · exact absurd a.symm b
            · exact a.symm
          · rintro rfl; exact Or.inr rfl
        · rw [R.no c hcm hc c', inv.kids]
          have n1 : ¬ (q = t.main ∧ (t.main, c) ∈ t.kids ∧ (t.br t.main).has (t.br c).tail (t.br c).tailHash = false) := fun g => c' g.2
          have n2 : ¬ (q = t.next ∧ (t.main, c) ∈ t.kids ∧ (t.br t.main).has (t.br c).tail (t.br c).tailHash = false) := fun g => c' g.2
          have n3 : ¬ ((q, c) = (t.next, t.main)) := by simp [hcm]
          constructor
          · rintro (⟨h | h, -⟩ | h)
            · exact ⟨Or.inl h.1, h.2⟩
            · exact absurd h n3
            · exact absurd h n2
          · rintro ⟨h | h, h'⟩
            · exact Or.inl ⟨Or.inl ⟨h, h'⟩, n1⟩
            · exact absurd h hc
  · obtain ⟨rank, hr⟩ := inv.rank
    refine ⟨fun j => if j = t.next then 0 else rank j + 1, ?_⟩
    intro j hj r er
    rcases (R.live j).mp hj with hj | rfl
    · simp only [if_neg (ne j hj)]
      rcases roots j hj r er with rfl | er
      · simp
      · have := hr j hj r er
        split <;> omega
    · rw [R.new] at er; exact absurd er (by simp [Br.new])
  · intro j hj
    rw [R.next]
    rcases (R.live j).mp hj with hj | rfl
    · have := inv.ids j hj; omega
    · omega

/-- Writing a block to the chain succeeds; the chain has it, and no head but that of an empty main branch changes. -/
theorem Inv.confirm (uq : Uniq K) {t : Tree} (inv : Inv K t t.main) {k : Knot} (hk : K k) :
    ∃ t', t.confirm k = some t' ∧ Inv K t' t'.main ∧
      (¬ (k.height = (t.br t.main).tail + 1 ∧ k.prev = (t.br t.main).tailHash) → t' = t) ∧
      (k.height = (t.br t.main).tail + 1 → k.prev = (t.br t.main).tailHash → t'.disk = t.disk ++ [k] ∧
        (∀ j ∈ t.live, j ∈ t'.live ∧ ((j = t.main ∧ (t.br j).tail = (t.br j).head ∧ (t'.br j).head = k.height ∧ (t'.br j).headHash = k.hash) ∨
          ((t'.br j).head = (t.br j).head ∧ (t'.br j).headHash = (t.br j).headHash))) ∧
        (t'.main = t.main ∨ (t'.main = t.next ∧ (t'.br t'.main).head = k.height))) := by
  unfold Tree.confirm
  obtain ⟨p, e1, e2, e3, e4, e5⟩ := inv.main_tail
  have okm := inv.ok _ inv.main_live
  by_cases c : k.height = (t.br t.main).tail + 1 ∧ k.prev = (t.br t.main).tailHash
  swap
  · rw [if_neg (by rw [e1]; simp only [Option.any_some, decide_eq_true_eq]; rw [e2, e3]; exact c)]
    exact ⟨t, rfl, inv, fun _ => rfl, fun g1 g2 => absurd ⟨g1, g2⟩ c⟩
  rw [if_pos (by rw [e1]; simp only [Option.any_some, decide_eq_true_eq]; rw [e2, e3]; exact c)]
  obtain ⟨eh, ep⟩ := c
  unfold Tree.rootAdd
  dsimp only
  rw [if_neg (by simp [ep])]
  by_cases c1 : (t.br t.main).headHash = k.prev
  · rw [if_pos c1]
    -- the main branch is empty
    have empty : (t.br t.main).tail = (t.br t.main).head := by
      by_contra g
      obtain ⟨a, d1, d2, d3, -, d4⟩ := okm.get (h := (t.br t.main).head) (by have := okm.le; omega) (Nat.le_refl _)
      have : a = p := uq a p d3 e4 (by rw [d4, ← okm.last, c1, ep, e3])
      subst this
      omega
    obtain ⟨b, f1, f2, f3, f4, f5, f6, f7, f8, f9⟩ := okm.addHead hk (by omega) c1
    have f10 := f2.removeTail (k := k) (by omega) (by omega) (by rw [f5, ep]) (by
      rw [Br.hashAt, if_neg (by omega), f4, empty, f9]; rfl)
    rw [f1, Option.bind_some, f10, Option.map_some]
    have okb := f2.trim (m := b.tail + 1) (by omega) (by omega)
    refine ⟨_, rfl, inv.confirmed hk eh ep okb ?_ ?_ ?_ ?_, fun g => absurd ⟨eh, ep⟩ g, fun _ _ => ⟨rfl, ?_, Or.inl rfl⟩⟩
    · simp only [Br.trim]; rw [f3, inv.main_root]
    · simp only [Br.trim]; omega
    · simp only [Br.trim, Br.hashAt]; rw [if_neg (by omega), f4, empty, f9]; rfl
    · intro h a ha; have := okm.range ha; omega
    · intro j hj
      refine ⟨hj, ?_⟩
      by_cases cj : j = t.main
      · subst cj
        left
        rw [Tree.set_self]
        exact ⟨rfl, empty, by simp only [Br.trim]; omega, f7⟩
      · right
        rw [Tree.set_ne _ _ cj]; exact ⟨rfl, rfl⟩
  rw [if_neg c1]
  by_cases c2 : (t.br t.main).has k.height k.hash = true
  · rw [if_pos c2]
    obtain ⟨a, d1, d2⟩ := (okm.has_iff _ _).mp c2
    have d3 := okm.range d1
    have f10 := okm.removeTail (k := k) eh (by omega) ep.symm (by
      rw [Br.hashAt, if_neg (by omega), ← eh, d1, ← d2]; rfl)
    rw [f10, Option.map_some]
    refine ⟨_, rfl, inv.confirmed hk eh ep (okm.trim (m := (t.br t.main).tail + 1) (by omega) (by omega)) ?_ ?_ ?_ ?_,
      fun g => absurd ⟨eh, ep⟩ g, fun _ _ => ⟨rfl, ?_, Or.inl rfl⟩⟩
    · simp only [Br.trim]; exact inv.main_root
    · simp only [Br.trim]; omega
    · simp only [Br.trim, Br.hashAt]; rw [if_neg (by omega), ← eh, d1, ← d2]; rfl
    · intro h b hb
      have := okm.range hb
      by_cases g : h = k.height
      · right
        refine ⟨g, ?_⟩
        rw [g, d1] at hb
        obtain rfl : a = b := by simpa using hb
        exact d2
      · left
        simp only [Br.trim]; rw [if_neg (by omega)]; exact hb
    · intro j hj
      refine ⟨hj, Or.inr ?_⟩
      by_cases cj : j = t.main
      · subst cj; rw [Tree.set_self]; exact ⟨rfl, rfl⟩
      · rw [Tree.set_ne _ _ cj]; exact ⟨rfl, rfl⟩
  rw [if_neg c2]
  have hn : t.next ∉ t.live := fun c => by have := inv.ids _ c; omega
  have hmn : t.main ≠ t.next := fun g => hn (g ▸ inv.main_live)
  have size := inv.size
  -- the block below is read on disk
  have er : ({ t with disk := t.disk ++ [k] } : Tree).knot t.main (k.height - 1) true = some p := by
    have : k.height - 1 = (t.br t.main).tail := by omega
    rw [this, Tree.knot_low (t := { t with disk := t.disk ++ [k] }) (okm.out _ (Or.inl (Nat.le_refl _))) (by exact okm.le)]
    show ((({ t with disk := t.disk ++ [k] } : Tree).walk t.next (t.br t.main).root _).map _) = _
    rw [inv.main_root]
    have : (t.disk ++ [k])[(t.br t.main).tail]? = some p := by rw [List.getElem?_append_left (by omega)]; exact e5
    cases t.next <;> simp [Tree.walk, this]
  obtain ⟨t1, f1, F⟩ := fork_spec er
  rw [f1, Option.bind_some]
  have hnew : t1.br t.next = Br.new p (some t.main) := F.new
  have addRem : ((t1.br t.next).addHead k).bind (fun b => b.removeTail k) = some (Br.new k (some t.main)) := by
    rw [hnew, Br.addHead, if_neg (by simp [Br.new, e3, ep]), Option.bind_some, Br.removeTail,
      if_neg (by simp [Br.new, e3, ep]), if_neg (by simp)]
    rw [Option.some.injEq]
    ext1
    · rfl
    · rfl
    · rfl
    · rfl
    · funext h; simp only [put, Br.new]; split <;> rfl
    · rfl
  rw [addRem, Option.bind_some]
  obtain ⟨t2, ht2⟩ : ∃ t2, t2 = (t1.set t.next (Br.new k (some t.main))).reroot t.next (some t.main) none := ⟨_, rfl⟩
  rw [← ht2]
  have b2n : t2.br t.next = Br.new k none := by rw [ht2]; simp [Tree.reroot, Tree.set, Br.new]
  have b2 : ∀ j, j ≠ t.next → t2.br j = t.br j := by
    intro j hj; rw [ht2]; simp [Tree.reroot, Tree.set, hj]; exact F.old j hj
  have k2 : ∀ x, x ∈ t2.kids ↔ x ∈ t.kids := by
    intro x
    have : t2.kids = ((t1.set t.next (Br.new k (some t.main))).unkid (some t.main) t.next).kids := by rw [ht2]; rfl
    rw [this, mem_unkid, Tree.set_kids, F.kids]
    constructor
    · rintro ⟨h | h, h'⟩
      · exact h
      · exact absurd h h'
    · intro h
      refine ⟨Or.inl h, ?_⟩
      rintro rfl
      exact hn ((inv.kids _ _).mp h).1
  have l2 : t2.live = t.live ++ [t.next] := by rw [ht2]; simp [Tree.reroot]; exact F.live
  have n2 : t2.next = t.next + 1 := by rw [ht2]; simp [Tree.reroot]; exact F.next
  have d2 : t2.disk = t.disk ++ [k] := by rw [ht2]; simp [Tree.reroot]; exact F.disk
  have kn : ∀ q, (q, t.next) ∉ t.kids := fun q g => hn ((inv.kids _ _).mp g).1
  have kv : ∀ q v, (q, v) ∈ t.kids → v ≠ t.next := by rintro q v h rfl; exact kn q h
  obtain ⟨t3, g1, g2, g3, g4, g5, g6, g7, g8, g9⟩ := updateRoot_spec (t := t2) (i := t.main) (r := t.next) ((t2.br t.main).root) hmn
    (by rw [k2]; exact kn _) (by
      rw [k2]; intro g
      have := ((inv.kids _ _).mp g).2
      rw [inv.main_root] at this; exact absurd this (by simp)) (by
      intro v hv hh
      rw [k2] at hv
      rw [b2 v (kv _ v hv), b2 _ hmn] at hh
      rw [b2 v (kv _ v hv)]
      obtain ⟨s1, a, s2, s3⟩ := inv.main_sees hv hh
      refine Or.inr ⟨by rw [b2n]; rfl, a, ?_, s3⟩
      rw [d2, List.getElem?_append_left (by omega)]; exact s2)
  rw [g1, Option.map_some]
  have R : Replaced t { t3 with main := t.next } k := by
    refine ⟨?_, ?_, rfl, by rw [← n2]; exact g4, by rw [← d2]; exact g5, ?_, ?_, ?_, ?_, ?_⟩
    · intro j; show j ∈ t3.live ↔ _; rw [g2, l2]; simp
    · show t3.live.Nodup
      rw [g2, l2]
      refine List.nodup_append.mpr ⟨inv.nodup, by simp, ?_⟩
      intro a ha c hc
      simp only [List.mem_singleton] at hc
      subst hc
      rintro rfl; exact hn ha
    · show t3.br t.next = _
      rw [g8 t.next (Ne.symm hmn) (by rw [k2]; exact fun h => kn _ h.1), b2n]
    · show t3.br t.main = _
      rw [g6, b2 _ hmn]
    · intro j j1 j2 j3 j4
      show t3.br j = _
      rw [g7 j j1 (by rw [k2, b2 _ hmn, b2 j j2]; exact ⟨j3, j4⟩), b2 j j2]
    · intro j j1 j2 j3
      show t3.br j = _
      rw [g8 j j1 (by rw [k2, b2 _ hmn, b2 j j2]; exact j3), b2 j j2]
    · intro q c
      show (q, c) ∈ t3.kids ↔ _
      by_cases hc : c = t.next
      · subst hc
        rw [g9]
        simp [k2, kn, b2 _ hmn]
      · rw [g9, k2, k2, b2 _ hmn, b2 c hc]
  refine ⟨_, rfl, inv.replaced hk eh ep R, fun g => absurd ⟨eh, ep⟩ g, fun _ _ => ⟨R.disk, ?_, Or.inr ⟨rfl, ?_⟩⟩⟩
  · intro j hj
    refine ⟨(R.live j).mpr (Or.inl hj), Or.inr ?_⟩
    have ne : j ≠ t.next := by rintro rfl; exact hn hj
    by_cases cj : j = t.main
    · subst cj; rw [R.old]; exact ⟨rfl, rfl⟩
    · by_cases c' : (t.main, j) ∈ t.kids ∧ (t.br t.main).has (t.br j).tail (t.br j).tailHash = false
      · rw [R.yes j cj ne c'.1 c'.2]; exact ⟨rfl, rfl⟩
      · rw [R.no j cj ne c']; exact ⟨rfl, rfl⟩
  · have : ({ t3 with main := t.next } : Tree).br t.next = Br.new k none := R.new
    rw [this]; rfl

end Verif.Fork
