import Verif.State.GidModel

/-!
# C55: the contract list of a consensus group

Every contract is listed, whatever happened (`listed`). A list without rollbacks has nothing else (`list_exact_partial`). After a rollback a
contract that does not exist can be listed (`deleted_stays_listed`), for good after a rollback of snapshots (`rolled_back_stays_listed`).
-/

namespace Verif.State.Gid
open Verif.Bytes

/-- The contract `a` of the group `g` was created by a block of the ledger. -/
def Node.Exists (n : Node) (g a : Bytes) : Prop := ∃ b ∈ n.all, (g, a) ∈ b.metas

/-- What holds of all histories. -/
structure Inv (n : Node) : Prop where
  len : ∀ b ∈ n.all, ∀ m ∈ b.metas, m.1.length = 10 ∧ m.2.length = 21
  conf : ∀ b ∈ n.snaps.flatten, ∀ k ∈ b.keys, k ∈ n.conf
  pend : ∀ b ∈ n.unconf, ∀ k ∈ b.keys, k ∈ n.conf ∨ ∃ p ∈ n.pend, p.1 = b.hash ∧ k ∈ p.2
  seen : ∀ k, (k ∈ n.conf ∨ ∃ p ∈ n.pend, k ∈ p.2) → k ∈ n.view
  uniq : ∀ b ∈ n.all, ∀ c ∈ n.all, b.hash = c.hash → b = c

theorem mem_keys {b : Blk} {k : Bytes} : k ∈ b.keys ↔ ∃ m ∈ b.metas, rightKey m.1 m.2 = k := by
  unfold Blk.keys; rw [List.mem_map]

theorem mem_all {n : Node} {b : Blk} : b ∈ n.all ↔ b ∈ n.snaps.flatten ∨ b ∈ n.unconf := by
  unfold Node.all; rw [List.mem_append]

theorem mem_getD {l : List (List Blk)} {h : Nat} {b : Blk} (hb : b ∈ l.getD h []) : b ∈ l.flatten := by
  rw [List.getD_eq_getElem?_getD] at hb
  cases hg : l[h]? with
  | none => rw [hg] at hb; simp at hb
  | some s =>
    rw [hg] at hb
    exact List.mem_flatten.2 ⟨s, List.mem_of_getElem? hg, hb⟩

theorem mem_take {l : List (List Blk)} {h : Nat} {b : Blk} (hb : b ∈ (l.take h).flatten) : b ∈ l.flatten := by
  obtain ⟨s, hs, hb⟩ := List.mem_flatten.1 hb
  exact List.mem_flatten.2 ⟨s, List.mem_of_mem_take hs, hb⟩

theorem mem_again {l : List (List Blk)} {h : Nat} {r : Bool} {b : Blk} (hb : b ∈ (if r = true then l.getD h [] else [])) : b ∈ l.flatten := by
  cases r
  · simp at hb
  · exact mem_getD (by simpa using hb)

theorem Inv.step {n : Node} {op : Op} (i : Inv n) (a : n.Allows op) : Inv (n.step op) := by
  cases op with
  | insert b =>
    obtain ⟨ha, hl⟩ := a
    have hall : ∀ c, c ∈ (n.step (.insert b)).all ↔ c ∈ n.all ∨ c = b := by
      intro c; simp [Node.all, Node.step, or_assoc]
    refine ⟨?_, i.conf, ?_, ?_, ?_⟩
    · intro c hc
      rcases (hall c).1 hc with hc | rfl
      · exact i.len c hc
      · exact hl
    · intro c hc k hk
      change c ∈ n.unconf ++ [b] at hc
      change k ∈ n.conf ∨ ∃ p ∈ n.pend ++ [(b.hash, b.keys)], _
      rcases List.mem_append.1 hc with hc | hc
      · rcases i.pend c hc k hk with h | ⟨p, hp, h⟩
        · exact Or.inl h
        · exact Or.inr ⟨p, List.mem_append_left _ hp, h⟩
      · obtain rfl := List.mem_singleton.1 hc
        exact Or.inr ⟨_, List.mem_append_right _ (List.mem_singleton.2 rfl), rfl, hk⟩
    · intro k hk
      change k ∈ n.view ++ b.keys
      rcases hk with hk | ⟨p, hp, hk⟩
      · exact List.mem_append_left _ (i.seen k (Or.inl hk))
      · change p ∈ n.pend ++ [(b.hash, b.keys)] at hp
        rcases List.mem_append.1 hp with hp | hp
        · exact List.mem_append_left _ (i.seen k (Or.inr ⟨p, hp, hk⟩))
        · obtain rfl := List.mem_singleton.1 hp
          exact List.mem_append_right _ hk
    · intro c hc d hd e
      rcases (hall c).1 hc with hc | hc <;> rcases (hall d).1 hd with hd | hd
      · exact i.uniq c hc d hd e
      · exact absurd (hd ▸ e) (ha c hc)
      · exact absurd (hc ▸ e).symm (ha d hd)
      · rw [hc, hd]
  | snapshot bs =>
    have hall : ∀ c, c ∈ (n.step (.snapshot bs)).all → c ∈ n.all := by
      intro c hc
      simp only [Node.all, Node.step, List.flatten_append, List.mem_append, List.mem_filter] at hc ⊢
      rcases hc with (hc | hc) | hc
      · exact Or.inl hc
      · exact Or.inr (a c (by simpa using hc))
      · exact Or.inr hc.1
    have keep : ∀ k, (∃ p ∈ n.pend, k ∈ p.2) → k ∈ (n.step (.snapshot bs)).conf ∨ ∃ p ∈ (n.step (.snapshot bs)).pend, k ∈ p.2 := by
      rintro k ⟨p, hp, hk⟩
      by_cases hm : p.1 ∈ bs.map (·.hash)
      · exact Or.inl (List.mem_append_right _ (List.mem_flatMap.2 ⟨p, List.mem_filter.2 ⟨hp, by simpa using hm⟩, hk⟩))
      · exact Or.inr ⟨p, List.mem_filter.2 ⟨hp, by simpa using hm⟩, hk⟩
    refine ⟨fun c hc => i.len c (hall c hc), ?_, ?_, ?_, fun c hc d hd => i.uniq c (hall c hc) d (hall d hd)⟩
    · intro c hc k hk
      change k ∈ n.conf ++ _
      change c ∈ (n.snaps ++ [bs]).flatten at hc
      rw [List.flatten_append, List.mem_append] at hc
      rcases hc with hc | hc
      · exact List.mem_append_left _ (i.conf c hc k hk)
      · have hc : c ∈ bs := by simpa using hc
        rcases i.pend c (a c hc) k hk with h | ⟨p, hp, e, h⟩
        · exact List.mem_append_left _ h
        · refine List.mem_append_right _ (List.mem_flatMap.2 ⟨p, List.mem_filter.2 ⟨hp, ?_⟩, h⟩)
          exact decide_eq_true (List.mem_map.2 ⟨c, hc, e.symm⟩)
    · intro c hc k hk
      have hc : c ∈ n.unconf := (List.mem_filter.1 hc).1
      rcases i.pend c hc k hk with h | ⟨p, hp, e, h⟩
      · exact Or.inl (List.mem_append_left _ h)
      · by_cases hm : p.1 ∈ bs.map (·.hash)
        · exact Or.inl (List.mem_append_right _ (List.mem_flatMap.2 ⟨p, List.mem_filter.2 ⟨hp, decide_eq_true hm⟩, h⟩))
        · exact Or.inr ⟨p, List.mem_filter.2 ⟨hp, decide_eq_true hm⟩, e, h⟩
    · intro k hk
      change k ∈ n.view
      rcases hk with hk | ⟨p, hp, hk⟩
      · rcases List.mem_append.1 hk with hk | hk
        · exact i.seen k (Or.inl hk)
        · obtain ⟨p, hp, hk⟩ := List.mem_flatMap.1 hk
          exact i.seen k (Or.inr ⟨p, (List.mem_filter.1 hp).1, hk⟩)
      · exact i.seen k (Or.inr ⟨p, (List.mem_filter.1 hp).1, hk⟩)
  | delete bs =>
    have hall : ∀ c, c ∈ (n.step (.delete bs)).all → c ∈ n.all := by
      intro c hc
      simp only [Node.all, Node.step, List.mem_append, List.mem_filter] at hc ⊢
      exact hc.imp id And.left
    refine ⟨fun c hc => i.len c (hall c hc), i.conf, ?_, ?_, fun c hc d hd => i.uniq c (hall c hc) d (hall d hd)⟩
    · intro c hc k hk
      obtain ⟨hc, hn⟩ := List.mem_filter.1 hc
      have hn : c ∉ bs := of_decide_eq_true hn
      rcases i.pend c hc k hk with h | ⟨p, hp, e, h⟩
      · exact Or.inl h
      · refine Or.inr ⟨p, List.mem_filter.2 ⟨hp, decide_eq_true ?_⟩, e, h⟩
        intro hm
        obtain ⟨b, hb, he⟩ := List.mem_map.1 hm
        have := i.uniq c (mem_all.2 (Or.inr hc)) b (mem_all.2 (Or.inr (a b hb))) (by rw [← e]; exact he.symm)
        exact hn (this ▸ hb)
    · intro k hk
      change k ∈ n.view
      rcases hk with hk | ⟨p, hp, hk⟩
      · exact i.seen k (Or.inl hk)
      · exact i.seen k (Or.inr ⟨p, (List.mem_filter.1 hp).1, hk⟩)
  | rollback h r =>
    have hall : ∀ c, c ∈ (n.step (.rollback h r)).all → c ∈ n.all := by
      intro c hc
      rcases mem_all.1 hc with hc | hc
      · exact mem_all.2 (Or.inl (mem_take hc))
      · exact mem_all.2 (Or.inl (mem_again hc))
    refine ⟨fun c hc => i.len c (hall c hc), ?_, ?_, ?_, fun c hc d hd => i.uniq c (hall c hc) d (hall d hd)⟩
    · intro c hc k hk
      exact List.mem_append_left _ (i.conf c (mem_take hc) k hk)
    · intro c hc k hk
      exact Or.inl (List.mem_append_left _ (i.conf c (mem_again hc) k hk))
    · intro k hk
      rcases hk with hk | ⟨p, hp, hk⟩
      · refine List.mem_append_left _ ?_
        rcases List.mem_append.1 hk with hk | hk
        · exact i.seen k (Or.inl hk)
        · obtain ⟨p, hp, hk⟩ := List.mem_flatMap.1 hk
          exact i.seen k (Or.inr ⟨p, hp, hk⟩)
      · obtain ⟨b, hb, rfl⟩ := List.mem_map.1 hp
        exact List.mem_append_right _ (List.mem_flatMap.2 ⟨b, hb, hk⟩)
  | flush =>
    refine ⟨i.len, i.conf, i.pend, ?_, i.uniq⟩
    intro k hk
    change k ∈ n.conf ++ n.pend.flatMap (·.2)
    rcases hk with hk | ⟨p, hp, hk⟩
    · exact List.mem_append_left _ hk
    · exact List.mem_append_right _ (List.mem_flatMap.2 ⟨p, hp, hk⟩)
  | restart =>
    have hall : ∀ c, c ∈ (n.step .restart).all → c ∈ n.all := by
      intro c hc
      rcases mem_all.1 hc with hc | hc
      · exact mem_all.2 (Or.inl hc)
      · exact absurd hc (by simp [Node.step])
    refine ⟨fun c hc => i.len c (hall c hc), i.conf, ?_, ?_, fun c hc d hd => i.uniq c (hall c hc) d (hall d hd)⟩
    · intro c hc; exact absurd hc (by simp [Node.step])
    · intro k hk
      rcases hk with hk | ⟨p, hp, hk⟩
      · exact hk
      · exact absurd hp (by simp [Node.step])

theorem Inv.start : Inv Node.start := by
  refine ⟨?_, ?_, ?_, ?_, ?_⟩ <;> simp [Node.start, Node.all]

theorem Hist.inv {n : Node} (h : Hist n) : Inv n := by
  induction h with
  | start => exact Inv.start
  | step _ a ih => exact ih.step a

theorem drop_rightKey {g a : Bytes} (hg : g.length = 10) (ha : a.length = 21) :
    (rightKey g a).drop ((rightKey g a).length - 21) = a := by
  have e : (rightKey g a).length - 21 = (9 :: g).length := by simp [rightKey, hg, ha]
  rw [e, show rightKey g a = (9 :: g) ++ a from rfl, List.drop_left]

theorem prefix_rightKey {g g' a : Bytes} (h : g'.length = g.length) : (9 :: g) <+: rightKey g' a ↔ g = g' := by
  constructor
  · rintro ⟨t, e⟩
    have e : g ++ t = g' ++ a := by simpa [rightKey] using e
    exact (List.append_inj e h.symm).1
  · rintro rfl; exact ⟨a, rfl⟩

/-- **C55** Whatever was done, every contract that a block of the ledger created is in the list of its group: after insertions,
confirmations, deletions, rollbacks with and without a redo log, flushes and restarts. -/
theorem listed {n : Node} (h : Hist n) {g a : Bytes} (e : n.Exists g a) : a ∈ n.list g := by
  have i := h.inv
  obtain ⟨b, hb, hm⟩ := e
  obtain ⟨lg, la⟩ := i.len b hb _ hm
  have hk : rightKey g a ∈ b.keys := mem_keys.2 ⟨_, hm, rfl⟩
  have hv : rightKey g a ∈ n.view := by
    rcases mem_all.1 hb with hb | hb
    · exact i.seen _ (Or.inl (i.conf b hb _ hk))
    · rcases i.pend b hb _ hk with hc | ⟨p, hp, -, hk⟩
      · exact i.seen _ (Or.inl hc)
      · exact i.seen _ (Or.inr ⟨p, hp, hk⟩)
  refine List.mem_map.2 ⟨_, List.mem_filter.2 ⟨hv, decide_eq_true ((prefix_rightKey rfl).2 rfl)⟩, ?_⟩
  exact drop_rightKey lg la

theorem Forward.hist {n : Node} (h : Forward n) : Hist n := by
  induction h with
  | start => exact .start
  | step _ a _ _ _ ih => exact .step ih a

/-- What a reader sees comes from a block of the ledger. -/
theorem Forward.sound {n : Node} (h : Forward n) :
    (∀ k ∈ n.view, ∃ b ∈ n.all, k ∈ b.keys) ∧ (∀ k ∈ n.conf, ∃ b ∈ n.all, k ∈ b.keys) ∧ ∀ p ∈ n.pend, ∀ k ∈ p.2, ∃ b ∈ n.all, k ∈ b.keys := by
  induction h with
  | start => simp [Node.start]
  | @step n op h a hd hr hs ih =>
    obtain ⟨iv, ic, ip⟩ := ih
    cases op with
    | insert b =>
      have hall : ∀ c, c ∈ (n.step (.insert b)).all ↔ c ∈ n.all ∨ c = b := by
        intro c; simp [Node.all, Node.step, or_assoc]
      have up : ∀ k, (∃ c ∈ n.all, k ∈ c.keys) → ∃ c ∈ (n.step (.insert b)).all, k ∈ c.keys :=
        fun k ⟨c, hc, hk⟩ => ⟨c, (hall c).2 (Or.inl hc), hk⟩
      refine ⟨?_, fun k hk => up k (ic k hk), ?_⟩
      · intro k hk
        rcases List.mem_append.1 hk with hk | hk
        · exact up k (iv k hk)
        · exact ⟨b, (hall b).2 (Or.inr rfl), hk⟩
      · intro p hp k hk
        rcases List.mem_append.1 hp with hp | hp
        · exact up k (ip p hp k hk)
        · obtain rfl := List.mem_singleton.1 hp
          exact ⟨b, (hall b).2 (Or.inr rfl), hk⟩
    | snapshot bs =>
      have up : ∀ k, (∃ c ∈ n.all, k ∈ c.keys) → ∃ c ∈ (n.step (.snapshot bs)).all, k ∈ c.keys := by
        rintro k ⟨c, hc, hk⟩
        refine ⟨c, ?_, hk⟩
        simp only [Node.all, Node.step, List.flatten_append, List.mem_append, List.mem_filter] at hc ⊢
        rcases hc with hc | hc
        · exact Or.inl (Or.inl hc)
        · by_cases hb : c ∈ bs
          · exact Or.inl (Or.inr (by simpa using hb))
          · exact Or.inr ⟨hc, decide_eq_true hb⟩
      refine ⟨fun k hk => up k (iv k hk), ?_, fun p hp k hk => up k (ip p (List.mem_filter.1 hp).1 k hk)⟩
      intro k hk
      rcases List.mem_append.1 hk with hk | hk
      · exact up k (ic k hk)
      · obtain ⟨p, hp, hk⟩ := List.mem_flatMap.1 hk
        exact up k (ip p (List.mem_filter.1 hp).1 k hk)
    | delete bs => exact absurd rfl (hd bs)
    | rollback h r => exact absurd rfl (hr h r)
    | flush =>
      refine ⟨?_, ic, ip⟩
      intro k hk
      rcases List.mem_append.1 hk with hk | hk
      · exact ic k hk
      · obtain ⟨p, hp, hk⟩ := List.mem_flatMap.1 hk
        exact ip p hp k hk
    | restart => exact absurd rfl hs

/-- **C55** If nothing was taken back, the list of a group has its contracts and nothing else. Missing for the full property: the
histories with deletions and rollbacks, of which it is false (`deleted_stays_listed`, `rolled_back_stays_listed`). -/
theorem list_exact_partial {n : Node} (h : Forward n) {g : Bytes} (hg : g.length = 10) (a : Bytes) : a ∈ n.list g ↔ n.Exists g a := by
  refine ⟨?_, listed h.hist⟩
  intro ha
  obtain ⟨k, hk, rfl⟩ := List.mem_map.1 ha
  obtain ⟨hv, hp⟩ := List.mem_filter.1 hk
  have hp := of_decide_eq_true hp
  obtain ⟨b, hb, hkb⟩ := h.sound.1 k hv
  obtain ⟨m, hm, rfl⟩ := mem_keys.1 hkb
  obtain ⟨lg, la⟩ := h.hist.inv.len b hb m hm
  have e := (prefix_rightKey (by rw [hg, lg])).1 hp
  rw [drop_rightKey lg la, e]
  exact ⟨b, hb, hm⟩

/-! ## Histories -/

def g1 : Bytes := [0, 0, 0, 0, 0, 0, 0, 0, 0, 2]
def a1 : Bytes := List.replicate 20 7 ++ [1]
def a2 : Bytes := List.replicate 20 8 ++ [1]
def b1 : Blk := ⟨1, [(g1, a1)]⟩
def b2 : Blk := ⟨2, [(g1, a2)]⟩

def Node.AllowsAll (n : Node) : List Op → Prop
  | [] => True
  | op :: ops => n.Allows op ∧ (n.step op).AllowsAll ops

theorem Hist.run {n : Node} {ops : List Op} (h : Hist n) (a : n.AllowsAll ops) : Hist (n.run ops) := by
  induction ops generalizing n with
  | nil => exact h
  | cons op ops ih => exact ih (h.step a.1) a.2

theorem allows_b1 : Node.start.Allows (.insert b1) := ⟨by simp [Node.start, Node.all], by decide⟩

/-- A history with two contracts, one confirmed. -/
theorem forward_example : Forward (Node.start.run [.insert b1, .insert b2, .snapshot [b1], .flush]) := by
  change Forward ((((Node.start.step (.insert b1)).step (.insert b2)).step (.snapshot [b1])).step .flush)
  refine .step (.step (.step (.step .start allows_b1 ?_ ?_ ?_) ?_ ?_ ?_ ?_) ?_ ?_ ?_ ?_) ?_ ?_ ?_ ?_
  any_goals (intros; simp; done)
  · exact ⟨by decide, by decide⟩
  · change ∀ b ∈ [b1], b ∈ ((Node.start.step (.insert b1)).step (.insert b2)).unconf
    decide
  · trivial

example : (Node.start.run [.insert b1, .insert b2, .snapshot [b1], .flush]).list g1 = [a1, a2] := by decide +kernel

/-- **C55, negation** The block that created a contract is deleted; no block of the ledger creates the contract, and it is still listed
until the next flush, after which it is gone. -/
theorem deleted_stays_listed : ∃ n : Node, Hist n ∧ ¬ n.Exists g1 a1 ∧ a1 ∈ n.list g1 ∧ Hist (n.step .flush) ∧ a1 ∉ (n.step .flush).list g1 := by
  have h : Hist (Node.start.run [.insert b1, .delete [b1]]) :=
    Hist.start.run ⟨allows_b1, (by decide : ∀ b ∈ [b1], b ∈ (Node.start.step (.insert b1)).unconf), trivial⟩
  refine ⟨_, h, ?_, by decide +kernel, .step h trivial, by decide +kernel⟩
  rintro ⟨b, hb, -⟩
  have : (Node.start.run [.insert b1, .delete [b1]]).all = [] := by decide
  rw [this] at hb; exact absurd hb (by simp)

/-- **C55, negation** A snapshot that confirmed the creation of a contract is rolled back. The contract is listed from then on: after a
flush, after a restart, although no block creates it. -/
theorem rolled_back_stays_listed :
    ∃ n : Node, Hist n ∧ ¬ n.Exists g1 a1 ∧ a1 ∈ n.list g1 ∧ a1 ∈ (n.step .flush).list g1 ∧ a1 ∈ ((n.step .flush).step .restart).list g1 := by
  refine ⟨Node.start.run [.insert b1, .snapshot [b1], .rollback 0 false], ?_, ?_, by decide +kernel, by decide +kernel, by decide +kernel⟩
  · exact Hist.start.run ⟨allows_b1, (by decide : ∀ b ∈ [b1], b ∈ (Node.start.step (.insert b1)).unconf), trivial, trivial⟩
  · rintro ⟨b, hb, -⟩
    have : (Node.start.run [.insert b1, .snapshot [b1], .rollback 0 false]).all = [] := by decide
    rw [this] at hb; exact absurd hb (by simp)

/-- **C55, negation** The entry that a rollback with a redo log writes is under the address, not under the group: a group whose number is
how the address of the contract begins gets a contract that is not one. -/
theorem redo_lists_a_stranger : ∃ n : Node, Hist n ∧ ∃ g a, g.length = 10 ∧ a.length = 21 ∧ a ∈ n.list g ∧ ∀ b ∈ n.all, ∀ m ∈ b.metas, m.1 ≠ g ∧ m.2 ≠ a := by
  refine ⟨Node.start.run [.insert b1, .snapshot [b1], .rollback 0 true, .flush], ?_, List.replicate 10 7, List.replicate 10 7 ++ [1] ++ g1, rfl, rfl, by decide +kernel, by decide +kernel⟩
  exact Hist.start.run ⟨allows_b1, (by decide : ∀ b ∈ [b1], b ∈ (Node.start.step (.insert b1)).unconf), trivial, trivial, trivial⟩

end Verif.State.Gid
