import Verif.Fork.ForkInv

/-! Blocks that continue a branch, new branches, blocks written to the chain or taken from it. -/

namespace Verif.Fork

variable {K : Knot → Prop}

/-- Two readings that end with the same block are the same. -/
theorem Inv.same_from (uq : Uniq K) {t t' : Tree} {s s' : Nat} (inv : Inv K t s) (inv' : Inv K t' s') {i j : Nat} (hi : i ∈ t.live)
    (hj : j ∈ t'.live) {g : Nat} {a b : Knot} (ea : t.knot i g true = some a) (eb : t'.knot j g true = some b) (hab : a.hash = b.hash) :
    ∀ h, h ≤ g → t'.knot j h true = t.knot i h true := by
  have key : ∀ d h, g = h + d → t'.knot j h true = t.knot i h true := by
    intro d
    induction d with
    | zero =>
      intro h e
      obtain rfl : g = h := by omega
      rw [ea, eb, uq a b (inv.reads_of hi ea).2.known (inv'.reads_of hj eb).2.known hab]
    | succ d ih =>
      intro h e
      have e1 := ih (h + 1) (by omega)
      have h1 := (inv.reads_of hi ea).1
      have h2 := (inv'.reads_of hj eb).1
      obtain ⟨k, R⟩ := inv.reads hi (h := h + 1) (by omega)
      obtain ⟨k0, R0⟩ := inv.reads hi (h := h) (by omega)
      obtain ⟨k1, R1⟩ := inv'.reads hj (h := h) (by omega)
      have l0 := R0.link k (by omega) R.read
      have l1 := R1.link k (by omega) (by rw [e1, R.read])
      rw [R0.read, R1.read, uq k1 k0 R1.known R0.known (by rw [← l1, l0])]
  intro h hh
  exact key (g - h) h (by omega)

/-- A branch with the same head reads the same. -/
theorem Inv.same (uq : Uniq K) {t t' : Tree} {s s' : Nat} (inv : Inv K t s) (inv' : Inv K t' s') {i : Nat} (hi : i ∈ t.live)
    (hi' : i ∈ t'.live) (e1 : (t'.br i).head = (t.br i).head) (e2 : (t'.br i).headHash = (t.br i).headHash) (h : Nat) :
    t'.knot i h true = t.knot i h true := by
  by_cases g : h ≤ (t.br i).head
  · obtain ⟨a, Ra⟩ := inv.reads hi (Nat.le_refl _)
    obtain ⟨b, Rb⟩ := inv'.reads hi' (Nat.le_refl _)
    rw [e1] at Rb
    exact inv.same_from uq inv' hi hi' Ra.read Rb.read (by rw [Ra.head rfl, Rb.head e1.symm, e2]) h g
  · rw [(inv.above hi (by omega)).1, (inv'.above hi' (by omega)).1]

@[simp] theorem Tree.set_live (t : Tree) (i : Nat) (b : Br) : (t.set i b).live = t.live := rfl
@[simp] theorem Tree.set_kids (t : Tree) (i : Nat) (b : Br) : (t.set i b).kids = t.kids := rfl
@[simp] theorem Tree.set_main (t : Tree) (i : Nat) (b : Br) : (t.set i b).main = t.main := rfl
@[simp] theorem Tree.set_next (t : Tree) (i : Nat) (b : Br) : (t.set i b).next = t.next := rfl
@[simp] theorem Tree.set_disk (t : Tree) (i : Nat) (b : Br) : (t.set i b).disk = t.disk := rfl
theorem Tree.set_self (t : Tree) (i : Nat) (b : Br) : (t.set i b).br i = b := by simp [Tree.set]
theorem Tree.set_ne (t : Tree) {i j : Nat} (b : Br) (h : j ≠ i) : (t.set i b).br j = t.br j := by simp [Tree.set, h]

/-- One branch is changed, and stays anchored: its root and its tail stay, and it keeps its blocks. -/
theorem Inv.grow {t : Tree} (inv : Inv K t t.main) {i : Nat} (hi : i ∈ t.live) {b : Br} (ok : BrOk K b) (er : b.root = (t.br i).root)
    (et : b.tail = (t.br i).tail) (ex : b.tailHash = (t.br i).tailHash)
    (keep : ∀ h k, (t.br i).knots h = some k → b.knots h = some k) : Inv K (t.set i b) t.main := by
  have hb : ∀ j, ((t.set i b).br j).root = (t.br j).root ∧ ((t.set i b).br j).tail = (t.br j).tail ∧
      ((t.set i b).br j).tailHash = (t.br j).tailHash ∧ ∀ h k, (t.br j).knots h = some k → ((t.set i b).br j).knots h = some k := by
    intro j
    by_cases c : j = i
    · subst c; rw [Tree.set_self]; exact ⟨er, et, ex, keep⟩
    · rw [Tree.set_ne t b c]; exact ⟨rfl, rfl, rfl, fun _ _ h => h⟩
  refine ⟨inv.disk, ?_, inv.main_live, by rw [Tree.set_main, (hb _).1]; exact inv.main_root,
    by rw [Tree.set_main, (hb _).2.1]; exact inv.size, by rw [Tree.set_main, (hb _).2.1, (hb _).2.2.1]; exact inv.top, ?_, ?_, ?_,
    inv.nodup, inv.ids⟩
  · intro j hj
    by_cases c : j = i
    · subst c; rw [Tree.set_self]; exact ok
    · rw [Tree.set_ne t b c]; exact inv.ok j hj
  · intro j hj ne
    obtain ⟨r, hr, e, H⟩ := inv.anchored j hj ne
    refine ⟨r, hr, by rw [(hb j).1]; exact e, ?_⟩
    rw [(hb j).2.1, (hb j).2.2.1]
    rcases H with ⟨k, e1, e2⟩ | ⟨e1, e2, e3⟩ | ⟨e1, e2, e3⟩
    · exact Or.inl ⟨k, (hb r).2.2.2 _ _ e1, e2⟩
    · exact Or.inr (Or.inl ⟨e1, by rw [Tree.set_main, (hb _).2.1]; exact e2, e3⟩)
    · exact Or.inr (Or.inr ⟨e1, by rw [(hb _).2.1]; exact e2, by rw [(hb _).2.2.1]; exact e3⟩)
  · intro p c; rw [(hb c).1]; exact inv.kids p c
  · obtain ⟨rank, hr⟩ := inv.rank
    exact ⟨rank, fun j hj r e => hr j hj r (by rw [← (hb j).1]; exact e)⟩

theorem BrOk.addHead {b : Br} (ok : BrOk K b) {w : Knot} (hk : K w) (eh : w.height = b.head + 1) (ep : b.headHash = w.prev) :
    ∃ b', b.addHead w = some b' ∧ BrOk K b' ∧ b'.root = b.root ∧ b'.tail = b.tail ∧ b'.tailHash = b.tailHash ∧
      b'.head = b.head + 1 ∧ b'.headHash = w.hash ∧ (∀ h k, b.knots h = some k → b'.knots h = some k) ∧ b'.knots (b.head + 1) = some w := by
  have le := ok.le
  refine ⟨{ b with headHash := w.hash, head := w.height, knots := put b.knots w.height (some w) },
    by rw [Br.addHead, if_neg (by simp [ep])], ⟨?_, ?_, ?_, ?_⟩, rfl, rfl, rfl, eh, rfl, ?_, ?_⟩
  · simp only; omega
  · intro h g
    simp only at g
    simp only [put]
    rw [if_neg (by omega)]
    exact ok.out h (by omega)
  · intro h g1 g2
    simp only at g1 g2
    simp only [put]
    by_cases c : h = b.head
    · refine ⟨w, by rw [if_pos (by omega)], by omega, hk, ?_⟩
      rw [← ep, ok.last, c]
      simp only [Br.hashAt]
      split
      · rfl
      · rw [put, if_neg (by omega)]
    · obtain ⟨k, e1, e2, e3, e4⟩ := ok.mem h g1 (by omega)
      refine ⟨k, by rw [if_neg (by omega)]; exact e1, e2, e3, ?_⟩
      rw [e4]
      simp only [Br.hashAt]
      split
      · rfl
      · rw [put, if_neg (by omega)]
  · simp only [Br.hashAt, put]
    rw [if_neg (by omega)]; simp
  · intro h k e
    have := ok.range e
    simp only [put]
    rw [if_neg (by omega)]; exact e
  · simp only [put]; rw [if_pos (by omega)]

theorem Inv.extend {t : Tree} (inv : Inv K t t.main) {i : Nat} (hi : i ∈ t.live) {w : Knot} (hk : K w) :
    ∃ t', t.extend i w = some t' ∧ Inv K t' t'.main ∧ t'.live = t.live ∧ t'.main = t.main ∧ t'.disk = t.disk ∧
      (∀ j, j ≠ i → t'.br j = t.br j) ∧
      (w.height = (t.br i).head + 1 → (t.br i).headHash = w.prev →
        (t'.br i).head = w.height ∧ (t'.br i).headHash = w.hash) ∧
      (¬ (w.height = (t.br i).head + 1 ∧ (t.br i).headHash = w.prev) → t' = t) := by
  unfold Tree.extend
  by_cases c : w.height = (t.br i).head + 1 ∧ (t.br i).headHash = w.prev
  · rw [if_pos c]
    obtain ⟨b, e, ok, e1, e2, e3, e4, e5, e6, -⟩ := (inv.ok i hi).addHead hk c.1 c.2
    refine ⟨t.set i b, by rw [e]; rfl, inv.grow hi ok e1 e2 e3 e6, rfl, rfl, rfl, fun j hj => Tree.set_ne t b hj, ?_, fun g => absurd c g⟩
    intro _ _
    rw [Tree.set_self]
    exact ⟨by omega, e5⟩
  · rw [if_neg c]
    exact ⟨t, rfl, inv, rfl, rfl, rfl, fun _ _ => rfl, fun g1 g2 => absurd ⟨g1, g2⟩ c, fun _ => rfl⟩

theorem BrOk.new (k : Knot) (r : Option Nat) : BrOk K (Br.new k r) :=
  ⟨Nat.le_refl _, fun _ _ => rfl, fun h g1 g2 => absurd g1 (by simp only [Br.new] at g2 ⊢; omega), by simp [Br.hashAt, Br.new]⟩

theorem mem_addKid (t : Tree) (p c : Nat) (x : Nat × Nat) : x ∈ (t.addKid (some p) c).kids ↔ x ∈ t.kids ∨ x = (p, c) := by
  simp only [Tree.addKid]
  split
  · constructor
    · exact Or.inl
    · rintro (h | rfl)
      · exact h
      · assumption
  · simp only [List.mem_cons]; tauto

theorem mem_unkid (t : Tree) (p c : Nat) (x : Nat × Nat) : x ∈ (t.unkid (some p) c).kids ↔ x ∈ t.kids ∧ x ≠ (p, c) := by
  simp [Tree.unkid]

@[simp] theorem addKid_br (t : Tree) (p : Option Nat) (c : Nat) : (t.addKid p c).br = t.br := by
  cases p <;> simp only [Tree.addKid]; split <;> rfl
@[simp] theorem addKid_live (t : Tree) (p : Option Nat) (c : Nat) : (t.addKid p c).live = t.live := by
  cases p <;> simp only [Tree.addKid]; split <;> rfl
@[simp] theorem addKid_main (t : Tree) (p : Option Nat) (c : Nat) : (t.addKid p c).main = t.main := by
  cases p <;> simp only [Tree.addKid]; split <;> rfl
@[simp] theorem addKid_next (t : Tree) (p : Option Nat) (c : Nat) : (t.addKid p c).next = t.next := by
  cases p <;> simp only [Tree.addKid]; split <;> rfl
@[simp] theorem addKid_disk (t : Tree) (p : Option Nat) (c : Nat) : (t.addKid p c).disk = t.disk := by
  cases p <;> simp only [Tree.addKid]; split <;> rfl
@[simp] theorem unkid_br (t : Tree) (p : Option Nat) (c : Nat) : (t.unkid p c).br = t.br := by cases p <;> rfl
@[simp] theorem unkid_live (t : Tree) (p : Option Nat) (c : Nat) : (t.unkid p c).live = t.live := by cases p <;> rfl
@[simp] theorem unkid_main (t : Tree) (p : Option Nat) (c : Nat) : (t.unkid p c).main = t.main := by cases p <;> rfl
@[simp] theorem unkid_next (t : Tree) (p : Option Nat) (c : Nat) : (t.unkid p c).next = t.next := by cases p <;> rfl
@[simp] theorem unkid_disk (t : Tree) (p : Option Nat) (c : Nat) : (t.unkid p c).disk = t.disk := by cases p <;> rfl

/-- What forking gives. -/
structure Forked (t t' : Tree) (b : Nat) (k : Knot) : Prop where
  live : t'.live = t.live ++ [t.next]
  main : t'.main = t.main
  next : t'.next = t.next + 1
  disk : t'.disk = t.disk
  new : t'.br t.next = Br.new k (some b)
  old : ∀ j, j ≠ t.next → t'.br j = t.br j
  kids : ∀ x, x ∈ t'.kids ↔ x ∈ t.kids ∨ x = (b, t.next)

theorem fork_spec {t : Tree} {b h : Nat} {k : Knot} (e : t.knot b h true = some k) : ∃ t', t.fork b h = some t' ∧ Forked t t' b k := by
  refine ⟨_, by rw [Tree.fork, e], ?_, ?_, ?_, ?_, ?_, ?_, ?_⟩
  · simp
  · simp
  · simp
  · simp
  · simp [Tree.set]
  · intro j hj; simp [Tree.set, hj]
  · intro x; simp only; rw [mem_addKid]; simp [Tree.set]

theorem Inv.forked {t t' : Tree} (inv : Inv K t t.main) {b h : Nat} {k : Knot} (hb : b ∈ t.live) (e : t.knot b h true = some k)
    (g : b ≠ t.main → (t.br b).tail < h) (F : Forked t t' b k) : Inv K t' t'.main := by
  have hn : t.next ∉ t.live := fun c => by have := inv.ids _ c; omega
  have old : ∀ j ∈ t.live, t'.br j = t.br j := fun j hj => F.old j (by rintro rfl; exact hn hj)
  have hm : t'.br t'.main = t.br t.main := by rw [F.main]; exact old _ inv.main_live
  have R := (inv.reads_of hb e).2
  have mem : ∀ j, j ∈ t'.live ↔ j ∈ t.live ∨ j = t.next := by intro j; rw [F.live]; simp
  have hold : ∀ r h x, r ∈ t.live → Holds t t.main r h x → Holds t' t'.main r h x := by
    intro r h x hr H
    rcases H with ⟨k, e1, e2⟩ | ⟨e1, e2, e3⟩ | ⟨e1, e2, e3⟩
    · exact Or.inl ⟨k, by rw [old r hr]; exact e1, e2⟩
    · exact Or.inr (Or.inl ⟨by rw [F.main]; exact e1, by rw [hm]; exact e2, by rw [F.disk]; exact e3⟩)
    · exact Or.inr (Or.inr ⟨by rw [F.main]; exact e1, by rw [hm]; exact e2, by rw [hm]; exact e3⟩)
  refine ⟨by rw [F.disk]; exact inv.disk, ?_, ?_, by rw [hm]; exact inv.main_root, by rw [hm, F.disk]; exact inv.size,
    by rw [hm, F.disk]; exact inv.top, ?_, ?_, ?_, ?_, ?_⟩
  · intro j hj
    rcases (mem j).mp hj with hj | rfl
    · rw [old j hj]; exact inv.ok j hj
    · rw [F.new]; exact BrOk.new k _
  · rw [mem, F.main]; exact Or.inl inv.main_live
  · intro j hj ne
    rcases (mem j).mp hj with hj | rfl
    · rw [F.main] at ne
      obtain ⟨r, hr, e1, H⟩ := inv.anchored j hj ne
      exact ⟨r, (mem r).mpr (Or.inl hr), by rw [old j hj]; exact e1, by rw [old j hj]; exact hold r _ _ hr H⟩
    · refine ⟨b, (mem b).mpr (Or.inl hb), by rw [F.new]; rfl, ?_⟩
      rw [F.new]
      refine hold b _ _ hb ?_
      have := inv.held hb e g
      simp only [Br.new]
      rw [R.height]; exact this
  · intro p c
    rw [F.kids, mem, inv.kids]
    by_cases hc : c = t.next
    · subst hc
      rw [F.new]
      constructor
      · rintro (h | h)
        · exact absurd h.1 hn
        · refine ⟨Or.inr rfl, ?_⟩
          simp only [Prod.mk.injEq, and_true] at h
          rw [h]; rfl
      · rintro ⟨-, h⟩
        right
        simp only [Br.new, Option.some.injEq] at h
        rw [h]
    · rw [F.old c hc]
      simp [hc]
  · obtain ⟨rank, hr⟩ := inv.rank
    refine ⟨fun j => if j = t.next then rank b + 1 else rank j, ?_⟩
    intro j hj r er
    have hbn : b ≠ t.next := by rintro rfl; exact hn hb
    rcases (mem j).mp hj with hj | rfl
    · rw [old j hj] at er
      have hr' := (inv.root_live hj er).1
      have : r ≠ t.next := by rintro rfl; exact hn hr'
      have : j ≠ t.next := by rintro rfl; exact hn hj
      simp only [*, if_false]
    · rw [F.new] at er
      obtain rfl : b = r := by simpa [Br.new] using er
      simp [hbn]
  · rw [F.live]
    refine List.nodup_append.mpr ⟨inv.nodup, by simp, ?_⟩
    intro a ha c hc
    simp only [List.mem_singleton] at hc
    subst hc
    rintro rfl; exact hn ha
  · intro j hj
    rw [F.next]
    rcases (mem j).mp hj with hj | rfl
    · have := inv.ids j hj; omega
    · omega

/-- Where the loop over the roots stops. -/
theorem walk_where {t : Tree} {s : Nat} (inv : Inv K t s) {h : Nat} : ∀ (f : Nat) (o : Option Nat) (k : Knot) (w : Option Nat),
    (∀ r, o = some r → r ∈ t.live) → t.walk f o h = some (k, w) →
    (w = none ∧ t.disk[h]? = some k) ∨ ∃ r ∈ t.live, w = some r ∧ (t.br r).knots h = some k := by
  intro f
  induction f with
  | zero =>
    intro o k w hl e
    cases o with
    | none => simp [Tree.walk] at e; exact Or.inl ⟨e.2.symm, by rw [← e.1]⟩
    | some r => simp [Tree.walk] at e
  | succ f ih =>
    intro o k w hl e
    cases o with
    | none => simp [Tree.walk] at e; exact Or.inl ⟨e.2.symm, by rw [← e.1]⟩
    | some r =>
      rw [Tree.walk] at e
      have hr := hl r rfl
      cases g : (t.br r).knots h with
      | some k' =>
        rw [g] at e
        simp at e
        exact Or.inr ⟨r, hr, e.2.symm, by rw [g, e.1]⟩
      | none =>
        rw [g] at e
        exact ih _ k w (fun r' er => (inv.root_live hr er).1) e

theorem Inv.find_where {t : Tree} {s : Nat} (inv : Inv K t s) {c h : Nat} (hc : c ∈ t.live) {k : Knot} {w : Option Nat}
    (e : t.find c h = some (k, w)) :
    (w = none ∧ t.disk[h]? = some k) ∨ ∃ r ∈ t.live, w = some r ∧ (t.br r).knots h = some k := by
  unfold Tree.find at e
  split at e
  · exact absurd e (by simp)
  · cases g : (t.br c).knots h with
    | some k' =>
      rw [g] at e
      simp at e
      exact Or.inr ⟨c, hc, e.2.symm, by rw [g, e.1]⟩
    | none =>
      rw [g] at e
      exact walk_where inv _ _ k w (fun r er => (inv.root_live hc er).1) e

theorem Inv.attach {t : Tree} (inv : Inv K t t.main) {c h : Nat} (hc : c ∈ t.live) :
    ∃ t', t.attach c h = some t' ∧ Inv K t' t'.main ∧ (t' = t ∨
      ∃ b k, Forked t t' b k ∧ t.knot c h true = some k) := by
  unfold Tree.attach
  cases e : t.find c h with
  | none => exact ⟨t, rfl, inv, Or.inl rfl⟩
  | some p =>
    obtain ⟨k, w⟩ := p
    have hh : h ≤ (t.br c).head := by
      by_contra g
      rw [(inv.above hc (by omega)).2] at e
      exact absurd e (by simp)
    have ek : t.knot c h true = some k := by rw [← Tree.find_fst hh, e]; rfl
    rcases inv.find_where hc e with ⟨rfl, e1⟩ | ⟨r, hr, rfl, e1⟩
    · have hlt : h ≤ (t.br t.main).tail := by
        have := (List.getElem?_eq_some_iff.mp e1).1
        have := inv.size
        omega
      have e2 : t.knot t.main h true = some k := by rw [inv.main_low hlt]; exact e1
      obtain ⟨t', e3, F⟩ := fork_spec e2
      exact ⟨t', e3, inv.forked inv.main_live e2 (fun c => absurd rfl c) F, Or.inr ⟨_, k, F, ek⟩⟩
    · have e2 : t.knot r h true = some k := Tree.knot_local e1
      obtain ⟨t', e3, F⟩ := fork_spec e2
      exact ⟨t', e3, inv.forked hr e2 (fun _ => ((inv.ok r hr).range e1).1) F, Or.inr ⟨_, k, F, ek⟩⟩

end Verif.Fork
