import Verif.Fork.ForkSweep

/-! The properties of the fork tree. -/

namespace Verif.Fork

variable {K : Knot → Prop}

theorem start_inv {disk : List Knot} (hne : disk ≠ []) (ok : DiskOk K disk) : Inv K (start disk) (start disk).main := by
  obtain ⟨k, hk⟩ : ∃ k, disk.getLast? = some k := by
    cases h : disk.getLast? with
    | none => exact absurd (List.getLast?_eq_none_iff.mp h) hne
    | some k => exact ⟨k, rfl⟩
  have hlen : 0 < disk.length := List.length_pos_iff.mpr hne
  have last : disk[disk.length - 1]? = some k := by rw [← List.getLast?_eq_getElem?]; exact hk
  have ht := (ok.ok _ _ last).1
  have hb : ∀ j, (start disk).br j = Br.new k none := by intro j; simp [start, hk]
  refine ⟨ok, ?_, by simp [start], by rw [hb]; rfl, ?_, ?_, ?_, ?_, ⟨fun _ => 0, ?_⟩, by simp [start], by simp [start]⟩
  · intro i _; rw [hb]; exact BrOk.new k none
  · rw [hb]; simp only [Br.new, start]; omega
  · rw [hb]; simp only [Br.new, start]; exact ⟨k, by rw [ht]; exact last, rfl⟩
  · intro i hi hm
    simp [start] at hi hm
    exact absurd hi hm
  · intro p c
    rw [hb]
    simp [start, Br.new]
  · intro i _ r e; rw [hb] at e; exact absurd e (by simp [Br.new])

/-- A branch that got one block more reads all others as before. -/
theorem Inv.one_more (uq : Uniq K) {t t' : Tree} {s s' : Nat} (inv : Inv K t s) (inv' : Inv K t' s') {j : Nat} (hj : j ∈ t.live) (hj' : j ∈ t'.live)
    {w : Knot} (hw : K w) (e1 : (t'.br j).head = w.height) (e2 : (t'.br j).headHash = w.hash) (eh : w.height = (t.br j).head + 1)
    (ep : w.prev = (t.br j).headHash) : ∀ h k, t.knot j h true = some k → t'.knot j h true = some k := by
  intro h k e
  obtain ⟨hh, -⟩ := inv.reads_of hj e
  obtain ⟨a, A⟩ := inv'.reads hj' (h := w.height) (by omega)
  have ea : a = w := uq a w A.known hw (by rw [A.head e1.symm, e2])
  subst ea
  obtain ⟨b, B⟩ := inv'.reads hj' (h := (t.br j).head) (by omega)
  obtain ⟨c, C⟩ := inv.reads hj (h := (t.br j).head) (Nat.le_refl _)
  have hp := B.link a (by omega) (by rw [← eh]; exact A.read)
  rw [inv.same_from uq inv' hj hj' C.read B.read (by rw [C.head rfl, ← ep, hp]) h hh]
  exact e

/-- What one operation does. -/
structure Done (K : Knot → Prop) (t t' : Tree) (o : Op) : Prop where
  inv : Inv K t' t'.main
  reads : ∀ j ∈ t.live, j ∈ t'.live → ∀ h k, t.knot j h true = some k → t'.knot j h true = some k
  stays : ∀ j ∈ t.live, (∀ w, o ≠ .extend j w) → (∀ w, o = .confirm w → j ≠ t.main) → j ∈ t'.live →
    ∀ h, t'.knot j h true = t.knot j h true
  gone : ∀ j ∈ t.live, j ∉ t'.live → Stale t j ∨ ∃ old o1 o2, o = .prune old o1 o2 ∧ (old j = true ∨ (t.br j).tail = (t.br j).head)

theorem step_done (uq : Uniq K) {t : Tree} (inv : Inv K t t.main) {o : Op} (al : Allowed K t o) :
    ∃ t', t.step o = some t' ∧ Done K t t' o := by
  -- operations that change no head
  have easy : ∀ t' o, Inv K t' t'.main → (∀ j ∈ t.live, j ∈ t'.live → (t'.br j).head = (t.br j).head ∧ (t'.br j).headHash = (t.br j).headHash) →
      (∀ j ∈ t.live, j ∉ t'.live → Stale t j ∨ ∃ old o1 o2, o = Op.prune old o1 o2 ∧ (old j = true ∨ (t.br j).tail = (t.br j).head)) →
      Done K t t' o := by
    intro t' o inv' hd gone
    have same : ∀ j ∈ t.live, j ∈ t'.live → ∀ h, t'.knot j h true = t.knot j h true := fun j hj hj' h =>
      inv.same uq inv' hj hj' (hd j hj hj').1 (hd j hj hj').2 h
    exact ⟨inv', fun j hj hj' h k e => by rw [same j hj hj']; exact e, fun j hj _ _ hj' h => same j hj hj' h, gone⟩
  cases al with
  | @extend i w hi hw =>
    obtain ⟨t', e, inv', h1, h2, h3, h4, h5, h6⟩ := inv.extend hi hw
    refine ⟨t', e, ?_⟩
    by_cases c : w.height = (t.br i).head + 1 ∧ (t.br i).headHash = w.prev
    · obtain ⟨g1, g2⟩ := h5 c.1 c.2
      have stays : ∀ j ∈ t.live, j ≠ i → j ∈ t'.live → ∀ h, t'.knot j h true = t.knot j h true := fun j hj ne hj' h =>
        inv.same uq inv' hj hj' (by rw [h4 j ne]) (by rw [h4 j ne]) h
      refine ⟨inv', ?_, ?_, fun j hj hn => absurd (by rw [h1]; exact hj) hn⟩
      · intro j hj hj' h k ek
        by_cases ci : j = i
        · subst ci; exact inv.one_more uq inv' hj hj' hw g1 g2 c.1 c.2.symm h k ek
        · rw [stays j hj ci hj']; exact ek
      · intro j hj n1 _ hj' h
        exact stays j hj (fun ci => n1 w (by rw [ci])) hj' h
    · obtain rfl := h6 c
      exact easy _ _ inv (fun _ _ _ => ⟨rfl, rfl⟩) (fun j h1 h2 => absurd h1 h2)
  | @attach c h hc =>
    obtain ⟨t', e, inv', hh⟩ := inv.attach hc (h := h)
    refine ⟨t', e, ?_⟩
    rcases hh with rfl | ⟨b, k, F, -⟩
    · exact easy _ _ inv (fun _ _ _ => ⟨rfl, rfl⟩) (fun j h1 h2 => absurd h1 h2)
    · have hn : t.next ∉ t.live := fun c => by have := inv.ids _ c; omega
      refine easy _ _ inv' ?_ ?_
      · intro j hj _; rw [F.old j (by rintro rfl; exact hn hj)]; exact ⟨rfl, rfl⟩
      · intro j hj h; exact absurd (by rw [F.live]; exact List.mem_append_left _ hj) h
  | @confirm w hw =>
    obtain ⟨t', e, inv', h1, h2⟩ := inv.confirm uq hw
    refine ⟨t', e, ?_⟩
    by_cases c : w.height = (t.br t.main).tail + 1 ∧ w.prev = (t.br t.main).tailHash
    · obtain ⟨g1, g2, g3⟩ := h2 c.1 c.2
      refine ⟨inv', ?_, ?_, fun j hj hn => absurd (g2 j hj).1 hn⟩
      · intro j hj hj' h k ek
        rcases (g2 j hj).2 with ⟨rfl, a1, a2, a3⟩ | ⟨a1, a2⟩
        · refine inv.one_more uq inv' hj hj' hw a2 a3 (by omega) ?_ h k ek
          rw [c.2, (inv.ok _ hj).last, ← a1, Br.hashAt, if_pos rfl]
        · rw [inv.same uq inv' hj hj' a1 a2]; exact ek
      · intro j hj _ n2 hj' h
        rcases (g2 j hj).2 with ⟨rfl, -⟩ | ⟨a1, a2⟩
        · exact absurd rfl (n2 w rfl)
        · exact inv.same uq inv' hj hj' a1 a2 h
    · obtain rfl := h1 c
      exact easy _ _ inv (fun _ _ _ => ⟨rfl, rfl⟩) (fun j h1 h2 => absurd h1 h2)
  | @rollback h =>
    obtain ⟨t', e, inv', h1, h2, h3, -⟩ := inv.rollback h
    exact ⟨t', e, easy _ _ inv' (fun j _ _ => ⟨(h3 j).1, (h3 j).2.1⟩) (fun j hj hn => absurd (by rw [h1]; exact hj) hn)⟩
  | @switch i hi p ns =>
    obtain ⟨t', e, inv', h1, h2, h3, h4, h5, h6⟩ := switch_spec uq inv hi p ns
    exact ⟨t', by simp [Tree.step, e], easy _ _ inv' (fun j _ hj => h6 j hj) (fun j hj hn => Or.inl (h5 j hj hn))⟩
  | @toEmpty order ho =>
    obtain ⟨t', e, inv', h1, h2, h3, h4, h5⟩ := toEmpty_spec uq inv ho
    exact ⟨t', by simp [Tree.step, e], easy _ _ inv' h5 (fun j hj hn => Or.inl (h4 j hj hn))⟩
  | @prune old o1 o2 =>
    obtain ⟨t', e, inv', h1, h2, h3, h4, h5⟩ := pruneTree_spec uq inv old o1 o2
    refine ⟨t', e, easy _ _ inv' (fun j _ hj => h4 j hj) ?_⟩
    intro j hj hn
    rcases h5 j hj hn with h | h
    · exact Or.inl h
    · exact Or.inr ⟨old, o1, o2, rfl, h⟩

theorem Reach.inv (uq : Uniq K) {t : Tree} (r : Reach K t) : Inv K t t.main := by
  induction r with
  | start hne ok => exact start_inv hne ok
  | step _ al e ih =>
    obtain ⟨t', e', D⟩ := step_done uq ih al
    rw [e] at e'
    obtain rfl : _ = t' := by simpa using e'
    exact D.inv

theorem Reach.done (uq : Uniq K) {t t' : Tree} {o : Op} (r : Reach K t) (al : Allowed K t o) (e : t.step o = some t') : Done K t t' o := by
  obtain ⟨t'', e', D⟩ := step_done uq (r.inv uq) al
  rw [e] at e'
  obtain rfl : t' = t'' := by simpa using e'
  exact D

/-! ### C68 -/

/-- No operation panics, and the pool's own check of the tree passes after it. Missing: switches to a branch that adds
nothing to the branches it stems from, which the code does not exclude (`stale_switch`). -/
theorem never_panics_partial (uq : Uniq K) {t : Tree} (r : Reach K t) {o : Op} (al : Allowed K t o) :
    ∃ t', t.step o = some t' ∧ t'.check = true ∧ t'.checkTail = true := by
  obtain ⟨t', e, D⟩ := step_done uq (r.inv uq) al
  exact ⟨t', e, D.inv.check.1, D.inv.check.2⟩

/-- The main branch is one of the branches and continues the chain on disk. -/
theorem main_continues_chain (uq : Uniq K) {t : Tree} (r : Reach K t) :
    t.main ∈ t.live ∧ (t.br t.main).root = none ∧ t.disk.length = (t.br t.main).tail + 1 ∧
    (∃ k, t.disk.getLast? = some k ∧ k.height = (t.br t.main).tail ∧ k.hash = (t.br t.main).tailHash) ∧
    ∀ h, h ≤ (t.br t.main).tail → t.knot t.main h true = t.disk[h]? := by
  have inv := r.inv uq
  obtain ⟨k, e1, e2, e3, -⟩ := inv.main_tail
  exact ⟨inv.main_live, inv.main_root, inv.size, ⟨k, e1, e2, e3⟩, fun h g => inv.main_low g⟩

/-- Every branch stems, in finitely many steps, from the main branch. -/
theorem all_stem_from_main (uq : Uniq K) {t : Tree} (r : Reach K t) {i : Nat} (hi : i ∈ t.live) (hm : i ≠ t.main) :
    Anc t i t.main ∧ ¬ Anc t i i := by
  have inv := r.inv uq
  refine ⟨?_, Anc.irrefl inv hi⟩
  obtain ⟨l, u, -⟩ := inv.up i hi
  obtain ⟨c, -, c2, c3, -⟩ := inv.bottom u hi hm
  rcases c3 with rfl | c3
  · exact Anc.root c2
  · exact c3.trans (Anc.root c2)

/-! ### C69 -/

/-- Reading a branch gives one block per height up to its head, each linked to the one before, and nothing above. -/
theorem branch_is_chain (uq : Uniq K) {t : Tree} (r : Reach K t) {i : Nat} (hi : i ∈ t.live) :
    (∀ h, h ≤ (t.br i).head → ∃ k, t.knot i h true = some k ∧ k.height = h ∧ K k) ∧
    (∀ h, (t.br i).head < h → t.knot i h true = none) ∧
    (∀ h k k', t.knot i h true = some k → t.knot i (h + 1) true = some k' → k'.prev = k.hash) ∧
    (∃ k, t.knot i (t.br i).head true = some k ∧ k.hash = (t.br i).headHash) ∧
    t.knot i 0 true = t.disk[0]? := by
  have inv := r.inv uq
  refine ⟨?_, fun h g => (inv.above hi g).1, ?_, ?_, inv.bottom_read hi⟩
  · intro h g
    obtain ⟨k, R⟩ := inv.reads hi g
    exact ⟨k, R.read, R.height, R.known⟩
  · intro h k k' e e'
    have := (inv.reads_of hi e').1
    exact (inv.reads_of hi e).2.link k' (by omega) e'
  · obtain ⟨k, R⟩ := inv.reads hi (Nat.le_refl _)
    exact ⟨k, R.read, R.head rfl⟩

/-- No operation changes a block of a branch that stays; only adding a block to a branch, or writing one while the main
branch is empty, makes it longer. -/
theorem blocks_stay (uq : Uniq K) {t t' : Tree} (r : Reach K t) {o : Op} (al : Allowed K t o) (e : t.step o = some t') {j : Nat}
    (hj : j ∈ t.live) (hj' : j ∈ t'.live) :
    (∀ h k, t.knot j h true = some k → t'.knot j h true = some k) ∧
    ((∀ w, o ≠ .extend j w) → (∀ w, o = .confirm w → j ≠ t.main) → ∀ h, t'.knot j h true = t.knot j h true) := by
  have D := r.done uq al e
  exact ⟨D.reads j hj hj', fun a b => D.stays j hj a b hj'⟩

/-- A branch goes only when all its blocks are blocks of a branch it stems from, or when the tree is pruned and it is
empty or old. -/
theorem goes_only_if (uq : Uniq K) {t t' : Tree} (r : Reach K t) {o : Op} (al : Allowed K t o) (e : t.step o = some t') {j : Nat}
    (hj : j ∈ t.live) (hj' : j ∉ t'.live) :
    (∃ y, Anc t j y ∧ ∀ h k, t.knot j h true = some k → t.knot y h true = some k) ∨
    ∃ old o1 o2, o = .prune old o1 o2 ∧ (old j = true ∨ (t.br j).tail = (t.br j).head) := by
  have inv := r.inv uq
  have D := r.done uq al e
  rcases D.gone j hj hj' with ⟨s1, y, k, s2, s3, s4⟩ | h
  · left
    refine ⟨y, s2, ?_⟩
    intro h a ea
    obtain ⟨hh, -⟩ := inv.reads_of hj ea
    obtain ⟨b, B⟩ := inv.reads hj (Nat.le_refl _)
    rw [inv.same_from uq inv hj (s2.live inv hj) B.read s3 (by rw [B.head rfl, s4]) h hh]; exact ea
  · exact Or.inr h

/-- No operation loses a block, but pruning with old branches: for every branch there is one after it with all its blocks. -/
theorem nothing_lost (uq : Uniq K) {t t' : Tree} (r : Reach K t) {o : Op} (al : Allowed K t o) (e : t.step o = some t')
    (ho : ∀ old o1 o2, o = .prune old o1 o2 → ∀ j, old j = false) :
    ∀ j ∈ t.live, ∃ y ∈ t'.live, ∀ h k, t.knot j h true = some k → t'.knot y h true = some k := by
  have inv := r.inv uq
  have D := r.done uq al e
  obtain ⟨rank, hrank⟩ := inv.rank
  have key : ∀ n, ∀ j ∈ t.live, rank j < n → ∃ y ∈ t'.live, ∀ h k, t.knot j h true = some k → t'.knot y h true = some k := by
    intro n
    induction n with
    | zero => intro j _ h; omega
    | succ n ih =>
      intro j hj hn
      by_cases c : j ∈ t'.live
      · exact ⟨j, c, D.reads j hj c⟩
      · have up : ∃ y ∈ t.live, rank y < rank j ∧ ∀ h k, t.knot j h true = some k → t.knot y h true = some k := by
          rcases D.gone j hj c with ⟨s1, y, k, s2, s3, s4⟩ | ⟨old, o1, o2, rfl, h⟩
          · refine ⟨y, s2.live inv hj, s2.rank inv hrank hj, ?_⟩
            intro h a ea
            obtain ⟨hh, -⟩ := inv.reads_of hj ea
            obtain ⟨b, B⟩ := inv.reads hj (Nat.le_refl _)
            rw [inv.same_from uq inv hj (s2.live inv hj) B.read s3 (by rw [B.head rfl, s4]) h hh]; exact ea
          · have h : (t.br j).tail = (t.br j).head := h.resolve_left (by rw [ho old o1 o2 rfl j]; simp)
            have hm : j ≠ t.main := by
              rintro rfl
              obtain ⟨t2, e2, inv2, m2, -⟩ := pruneTree_spec uq inv old o1 o2
              have : t.step (.prune old o1 o2) = some t2 := e2
              rw [e] at this
              obtain rfl : t' = t2 := by simpa using this
              exact c (by rw [← m2]; exact inv2.main_live)
            obtain ⟨y, hy, er, -⟩ := inv.anchored j hj hm
            refine ⟨y, hy, hrank j hj y er, ?_⟩
            intro h' a ea
            obtain ⟨hh, -⟩ := inv.reads_of hj ea
            rw [← (inv.below hj er (by omega)).1]; exact ea
        obtain ⟨y, hy, ry, sub⟩ := up
        obtain ⟨z, hz, sub'⟩ := ih y hy (by omega)
        exact ⟨z, hz, fun h k ek => sub' h k (sub h k ek)⟩
  exact fun j hj => key (rank j + 1) j hj (by omega)

/-- Writing a block appends it to the chain, and only one that continues it; rolling back cuts the chain; nothing else changes it. -/
theorem chain_changes (uq : Uniq K) {t t' : Tree} (r : Reach K t) {o : Op} (al : Allowed K t o) (e : t.step o = some t') :
    t'.disk = chainAfter t.disk o := by
  have inv := r.inv uq
  have fin : ∀ t2, t.step o = some t2 → t' = t2 := fun t2 h => by rw [e] at h; simpa using h
  cases al with
  | extend hi hw =>
    obtain ⟨t2, e2, -, -, -, h3, -⟩ := inv.extend hi hw
    rw [fin t2 e2]; exact h3
  | @attach c h hc =>
    obtain ⟨t2, e2, -, hh⟩ := inv.attach hc (h := h)
    rw [fin t2 e2]
    rcases hh with rfl | ⟨b, k, F, -⟩
    · rfl
    · exact F.disk
  | @confirm w hw =>
    obtain ⟨t2, e2, -, h1, h2⟩ := inv.confirm uq hw
    rw [fin t2 e2]
    obtain ⟨p, p1, p2, p3, -⟩ := inv.main_tail
    have p1 : t.disk.getLast? = some p := p1
    rw [chainAfter]
    have size := inv.size
    by_cases c : w.height = (t.br t.main).tail + 1 ∧ w.prev = (t.br t.main).tailHash
    · rw [if_pos ⟨by omega, by rw [p1]; simp [p3, c.2]⟩]
      exact (h2 c.1 c.2).1
    · rw [if_neg ?_, h1 c]
      rintro ⟨g1, g2⟩
      rw [p1] at g2
      simp only [Option.any_some, decide_eq_true_eq] at g2
      exact c ⟨by omega, by rw [← p3, g2]⟩
  | @rollback h =>
    obtain ⟨t2, e2, -, -, -, -, h4⟩ := inv.rollback h
    rw [chainAfter]
    by_cases c : 0 < h
    · rw [if_pos c, fin t2 e2]; exact h4 c
    · rw [if_neg c]
      have : t.step (.rollback h) = some t := by simp [Tree.step, Tree.rollback, c]
      rw [fin t this]
  | switch hi p ns =>
    obtain ⟨t2, e2, -, -, h2, -⟩ := switch_spec uq inv hi p ns
    rw [fin t2 (by simp [Tree.step, e2])]; exact h2
  | toEmpty ho =>
    obtain ⟨t2, e2, -, h1, -⟩ := toEmpty_spec uq inv ho
    rw [fin t2 (by simp [Tree.step, e2])]; exact h1
  | @prune old o1 o2 =>
    obtain ⟨t2, e2, -, -, h2, -⟩ := pruneTree_spec uq inv old o1 o2
    rw [fin t2 e2]; exact h2

/-! ### C70 -/

/-- The fork point is the highest block shared with the main branch: up to it both have the same blocks, above it no
block is the same. The key point is the block after it in the longer of the two. -/
theorem fork_point_exact (uq : Uniq K) {t : Tree} (r : Reach K t) {i : Nat} (hi : i ∈ t.live) :
    ∃ f, t.forkPoint i = some (t.knot (if (t.br t.main).head < (t.br i).head then i else t.main) (f.height + 1) true, f) ∧
      (∀ h, h ≤ f.height → t.knot t.main h true = t.knot i h true) ∧ t.knot t.main f.height true = some f ∧
      ∀ h x y, f.height < h → t.knot t.main h true = some x → t.knot i h true = some y → x ≠ y :=
  forkPoint_spec uq (r.inv uq) hi

/-- The test made before a switch says exactly whether the branch has the block the main branch stands on; the branches
chosen at random have it. -/
theorem guard_exact (uq : Uniq K) {t : Tree} (r : Reach K t) :
    (∀ i ∈ t.live, OnPath t i ↔ ∃ p f, t.forkPoint i = some (p, f) ∧ (t.br t.main).tail ≤ f.height) ∧
    ∀ v ∈ t.brothers t.main, v ∈ t.live ∧ OnPath t v :=
  ⟨fun _ hi => forkPoint_guard uq (r.inv uq) hi, fun _ hv => brothers_onPath (r.inv uq) hv⟩

/-- Switching makes the branch the main branch and leaves the chain. -/
theorem switch_makes_main (uq : Uniq K) {t : Tree} (r : Reach K t) {i : Nat} (hi : i ∈ t.live) (p : OnPath t i) (ns : ¬ Stale t i) :
    ∃ t', t.step (.switch i) = some t' ∧ t'.main = i ∧ i ∈ t'.live ∧ t'.disk = t.disk ∧ ∀ h, t'.knot i h true = t.knot i h true := by
  have inv := r.inv uq
  obtain ⟨t', e, inv', h1, h2, h3, h4, h5, h6⟩ := switch_spec uq inv hi p ns
  have hi' : i ∈ t'.live := by have := inv'.main_live; rw [h1] at this; exact this
  exact ⟨t', by simp [Tree.step, e], h1, hi', h2, fun h => inv.same uq inv' hi hi' (h6 i hi').1 (h6 i hi').2 h⟩

/-- Switching to an empty branch gives a main branch without blocks, at the head of the chain. -/
theorem switch_to_empty (uq : Uniq K) {t : Tree} (r : Reach K t) {order : List Nat} (ho : ∀ c ∈ order, c ∈ t.live) :
    ∃ t', t.step (.toEmpty order) = some t' ∧ t'.disk = t.disk ∧ t'.main ∈ t'.live ∧ (t'.br t'.main).tail = (t'.br t'.main).head ∧
      ∀ h, t'.knot t'.main h true = t.disk[h]? := by
  have inv := r.inv uq
  obtain ⟨t', e, inv', h1, h2, -⟩ := toEmpty_spec uq inv ho
  refine ⟨t', by simp [Tree.step, e], h1, inv'.main_live, h2, ?_⟩
  intro h
  by_cases c : h ≤ (t'.br t'.main).tail
  · rw [inv'.main_low c, h1]
  · rw [(inv'.above inv'.main_live (by omega)).1]
    exact (List.getElem?_eq_none (by have := inv'.size; rw [h1] at this; omega)).symm

/-- Rolling the chain back to the fork point and switching makes any branch the main branch, but one that adds nothing to
the branches it stems from; no more of the chain is given up than what the branch does not share. -/
theorem fork_to_branch (uq : Uniq K) {t : Tree} (r : Reach K t) {i : Nat} (hi : i ∈ t.live) (ns : ¬ Stale t i) :
    ∃ p f t1 t2, t.forkPoint i = some (p, f) ∧ t.step (.rollback (f.height + 1)) = some t1 ∧ t1.step (.switch i) = some t2 ∧
      Reach K t2 ∧ t2.main = i ∧ t2.disk = t.disk.take (f.height + 1) ∧ (∀ h, t2.knot i h true = t.knot i h true) ∧
      ∀ h, h < t2.disk.length → t2.knot i h true = t2.disk[h]? := by
  have inv := r.inv uq
  obtain ⟨f, f1, f2, f3, f4⟩ := forkPoint_spec uq inv hi
  obtain ⟨t1, e1, inv1, l1, m1, h1, d1⟩ := inv.rollback (f.height + 1)
  have d1 := d1 (by omega)
  have s0 := inv.size
  have s1 := inv1.size
  rw [d1, List.length_take] at s1
  have hi1 : i ∈ t1.live := by rw [l1]; exact hi
  have same1 : ∀ j ∈ t.live, ∀ h, t1.knot j h true = t.knot j h true := fun j hj h =>
    inv.same uq inv1 hj (by rw [l1]; exact hj) (h1 j).1 (h1 j).2.1 h
  have on : OnPath t1 i := by
    obtain ⟨x, X⟩ := inv1.reads inv1.main_live (h := (t1.br t1.main).tail) (inv1.ok _ inv1.main_live).le
    refine ⟨x, ?_, X.tail rfl⟩
    rw [same1 i hi, ← f2 _ (by omega), ← same1 _ inv.main_live, ← m1]; exact X.read
  have anc : ∀ x y, Anc t1 x y → Anc t x y := by
    intro x y a
    refine Anc.of_roots (P := fun _ => True) ?_ a trivial
    intro x z _ e
    rw [(h1 x).2.2.1] at e
    exact ⟨Anc.root e, trivial⟩
  have ns1 : ¬ Stale t1 i := by
    rintro ⟨q1, y, k, q2, q3, q4⟩
    have ay := anc i y q2
    rw [(h1 i).1, same1 y (ay.live inv hi)] at q3
    rw [(h1 i).2.1] at q4
    refine ns ⟨?_, y, k, ay, q3, q4⟩
    by_contra g
    have hm : i ≠ t.main := by
      rintro rfl
      cases ay with
      | root e => rw [inv.main_root] at e; exact absurd e (by simp)
      | step e _ => rw [inv.main_root] at e; exact absurd e (by simp)
    have := (h1 i).2.2.2 hm
    rw [(h1 i).1] at q1
    omega
  obtain ⟨t2, e2, m2, l2, d2, same2⟩ := switch_makes_main uq (Reach.step (o := .rollback (f.height + 1)) r Allowed.rollback e1) hi1 on ns1
  have R2 : Reach K t2 := Reach.step (o := .switch i) (Reach.step (o := .rollback (f.height + 1)) r Allowed.rollback e1) (Allowed.switch hi1 on ns1) e2
  refine ⟨_, f, t1, t2, f1, e1, e2, R2, m2, d2.trans d1, fun h => by rw [same2, same1 i hi], ?_⟩
  intro h hh
  have M := main_continues_chain uq R2
  rw [← m2]
  exact M.2.2.2.2 h (by have := M.2.2.1; omega)

end Verif.Fork
