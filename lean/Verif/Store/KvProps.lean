import Verif.Store.KvModel
import Verif.Tactics

/-!
# A flush changes nothing that a reader sees

Part of C38 and C52, for one store.
-/

namespace Verif.Store
open Verif.Bytes

/-- What a store should hold, to its user: `conf` is what snapshots have confirmed, `pend` the changes of the blocks that are not
confirmed yet, `view` what a reader should see. Flushes do not occur here. -/
structure KvSpec where
  conf : KMap
  pend : Pending
  view : KMap

/-- What each change should do. -/
def KvSpec.step (x : KvSpec) : KvOp → KvSpec
  | .direct b => { x with conf := b.apply x.conf, view := b.apply x.view }
  | .block h b => { x with pend := x.pend.put h b, view := b.apply x.view }
  | .snapshot b hs =>
    match x.pend.takeOut hs with
    | none => x
    | some (done, rest) => ⟨b.apply (done.apply x.conf), rest, b.apply x.view⟩
  | .rollbackBlocks b hs => { x with pend := hs.foldl (fun p h => p.remove h) x.pend, view := b.apply x.view }
  | .rollbackSnapshot b => ⟨b.apply (x.pend.all.apply x.conf), [], b.apply x.view⟩

/-- Two batches change no key in common. -/
def Apart (a b : Batch) : Prop := ∀ r ∈ a, ∀ s ∈ b, r.key ≠ s.key

/-- The blocks with these hashes can be confirmed, in this order, before the others: each is there, and is apart from all that were
written before it and are still unconfirmed; the snapshot is apart from those that stay unconfirmed. -/
def Movable (b : Batch) : List Bytes → Pending → Prop
  | [], p => ∀ e ∈ p, Apart e.2 b
  | h :: hs, p => (∃ c, p.get h = some c ∧ ∀ e ∈ p.takeWhile (fun e => e.1 != some h), Apart e.2 c) ∧ Movable b hs (p.remove h)

/-- What the callers of the store keep to.

* A direct write is apart from all unconfirmed blocks.
* A snapshot confirms blocks that are there, in an order that does not matter to the others.
* The batch that rolls back blocks restores what was there before them. -/
def KvSpec.Allowed (x : KvSpec) : KvOp → Prop
  | .direct b => ∀ e ∈ x.pend, Apart e.2 b
  | .block _ _ => True
  | .snapshot b hs => Movable b hs x.pend
  | .rollbackBlocks b hs => b.apply x.view = (hs.foldl (fun p h => p.remove h) x.pend : Pending).all.apply x.conf
  | .rollbackSnapshot _ => True

/-! ### Batches -/

theorem Batch.apply_append (m : KMap) (a b : Batch) : Batch.apply m (a ++ b) = Batch.apply (Batch.apply m a) b := by
  unfold Batch.apply; rw [List.foldl_append]

/-- The last record of a key. -/
def Batch.last (b : Batch) (k : Bytes) : Option Rec := b.reverse.find? (fun r => r.key == k)

theorem Batch.apply_eq (b : Batch) (m : KMap) (k : Bytes) : b.apply m k = match b.last k with | some r => r.val | none => m k := by
  unfold Batch.last
  induction b generalizing m with
  | nil => rfl
  | cons r b ih =>
    have hc : Batch.apply m (r :: b) = Batch.apply (r.apply m) b := rfl
    rw [hc, ih, List.reverse_cons, List.find?_append]
    cases hf : b.reverse.find? (fun r => r.key == k) with
    | some s => rfl
    | none =>
      simp only [Option.none_or]
      by_cases hk : k = r.key
      · simp [Rec.apply, hk]
      · have : ¬ r.key = k := fun h => hk h.symm
        simp [Rec.apply, hk, this]

theorem Kv.get_eq (kv : Kv) : kv.get = kv.mem.apply kv.disk := by
  funext k; rw [Batch.apply_eq]; rfl

def Batch.HasKey (b : Batch) (k : Bytes) : Prop := ∃ r ∈ b, r.key = k

theorem Batch.last_none {b : Batch} {k : Bytes} : b.last k = none ↔ ¬ b.HasKey k := by
  unfold Batch.last Batch.HasKey
  rw [List.find?_eq_none]
  simp

theorem Batch.apply_of_not {b : Batch} {m : KMap} {k : Bytes} (h : ¬ b.HasKey k) : b.apply m k = m k := by
  rw [Batch.apply_eq, Batch.last_none.mpr h]

theorem Batch.apply_of_has {b : Batch} {k : Bytes} (h : b.HasKey k) (m m' : KMap) : b.apply m k = b.apply m' k := by
  rw [Batch.apply_eq, Batch.apply_eq]
  cases hl : b.last k with
  | none => exact absurd h (Batch.last_none.mp hl)
  | some r => rfl

theorem Batch.apply_idem (b : Batch) (m : KMap) : b.apply (b.apply m) = b.apply m := by
  funext k
  by_cases h : b.HasKey k
  · exact Batch.apply_of_has h _ _
  · rw [Batch.apply_of_not h]

theorem Apart.not_both {a b : Batch} (h : Apart a b) {k : Bytes} (ha : a.HasKey k) : ¬ b.HasKey k := by
  rintro ⟨s, hs, rfl⟩
  obtain ⟨r, hr, he⟩ := ha
  exact h r hr s hs he

theorem Apart.comm {a b : Batch} (h : Apart a b) (m : KMap) : b.apply (a.apply m) = a.apply (b.apply m) := by
  funext k
  by_cases ha : a.HasKey k
  · rw [Batch.apply_of_not (h.not_both ha)]
    exact Batch.apply_of_has ha _ _
  · rw [Batch.apply_of_not (b := a) ha]
    by_cases hb : b.HasKey k
    · exact Batch.apply_of_has hb _ _
    · rw [Batch.apply_of_not hb, Batch.apply_of_not hb, Batch.apply_of_not ha]

theorem Batch.hasKey_append {a b : Batch} {k : Bytes} : Batch.HasKey (a ++ b) k ↔ a.HasKey k ∨ b.HasKey k := by
  unfold Batch.HasKey
  constructor
  · rintro ⟨r, hr, he⟩
    rcases List.mem_append.mp hr with h | h
    · exact Or.inl ⟨r, h, he⟩
    · exact Or.inr ⟨r, h, he⟩
  · rintro (⟨r, hr, he⟩ | ⟨r, hr, he⟩)
    · exact ⟨r, List.mem_append.mpr (Or.inl hr), he⟩
    · exact ⟨r, List.mem_append.mpr (Or.inr hr), he⟩

/-! ### Unconfirmed batches -/

theorem Pending.all_append (p q : Pending) : Pending.all (p ++ q) = p.all ++ q.all := by simp [Pending.all]

theorem Pending.all_cons (e : Option Bytes × Batch) (p : Pending) : Pending.all (e :: p) = e.2 ++ Pending.all p := by simp [Pending.all]

theorem Pending.all_put (h : Bytes) (b : Batch) (p : Pending) : (p.put h b).all = p.all ++ b := by
  unfold Pending.put
  rw [Pending.all_append]
  congr 1
  · unfold Pending.all
    rw [List.map_map]
    congr 1
    apply List.map_congr_left
    intro e _
    simp only [Function.comp]
    split <;> rfl
  · simp [Pending.all]

theorem Pending.apart_all {p : Pending} {b : Batch} (h : ∀ e ∈ p, Apart e.2 b) : Apart p.all b := by
  intro r hr
  unfold Pending.all at hr
  obtain ⟨l, hl, hr⟩ := List.mem_flatten.mp hr
  obtain ⟨e, he, rfl⟩ := List.mem_map.mp hl
  exact h e he r hr

theorem Pending.hasKey_all {p : Pending} {k : Bytes} : p.all.HasKey k ↔ ∃ e ∈ p, e.2.HasKey k := by
  unfold Pending.all Batch.HasKey
  constructor
  · rintro ⟨r, hr, he⟩
    obtain ⟨l, hl, hr⟩ := List.mem_flatten.mp hr
    obtain ⟨e, hm, rfl⟩ := List.mem_map.mp hl
    exact ⟨e, hm, r, hr, he⟩
  · rintro ⟨e, hm, r, hr, he⟩
    exact ⟨r, List.mem_flatten.mpr ⟨e.2, List.mem_map.mpr ⟨e, hm, rfl⟩, hr⟩, he⟩

/-- At most one entry has a given hash. -/
def Pending.Proper (p : Pending) : Prop := p.Pairwise (fun a b => ∀ h, a.1 = some h → b.1 ≠ some h)

theorem Pending.Proper.remove {p : Pending} (hp : p.Proper) (h : Bytes) : (p.remove h).Proper :=
  List.Pairwise.filter _ hp

theorem Pending.Proper.put {p : Pending} (hp : p.Proper) (h : Bytes) (b : Batch) : (p.put h b).Proper := by
  unfold Pending.put Pending.Proper
  rw [List.pairwise_append]
  refine ⟨?_, List.pairwise_singleton _ _, ?_⟩
  · rw [List.pairwise_map]
    refine hp.imp ?_
    intro x y hxy g
    split
    · simp
    · intro hx
      split
      · simp
      · exact hxy g hx
  · intro x hx y hy g hg
    obtain ⟨e, he, rfl⟩ := List.mem_map.mp hx
    rw [List.mem_singleton] at hy
    subst hy
    simp only at *
    split at hg
    · simp at hg
    · rename_i hne
      intro hc
      injection hc with hc
      exact hne (by rw [hg, hc])

/-- The entry of a hash, and what is before and after it. -/
theorem Pending.get_split {p : Pending} (hp : p.Proper) {h : Bytes} {b : Batch} (hg : p.get h = some b) :
    ∃ q, p = p.takeWhile (fun e => e.1 != some h) ++ (some h, b) :: q ∧ p.remove h = p.takeWhile (fun e => e.1 != some h) ++ q := by
  induction p with
  | nil => simp [Pending.get] at hg
  | cons e p ih =>
    rw [Pending.Proper, List.pairwise_cons] at hp
    by_cases he : e.1 = some h
    · refine ⟨p, ?_, ?_⟩
      · have : (e.1 != some h) = false := by simp [he]
        rw [List.takeWhile_cons, this]
        simp only [Pending.get, List.find?_cons, he, beq_self_eq_true, Option.map_some] at hg
        injection hg with hg
        subst hg
        simp [← he]
      · have : (e.1 != some h) = false := by simp [he]
        rw [List.takeWhile_cons, this]
        unfold Pending.remove
        rw [List.filter_cons, this]
        simp only [Bool.false_eq_true, if_false, List.nil_append]
        rw [List.filter_eq_self]
        intro x hx
        have := hp.1 x hx h he
        simp [this]
    · have h1 : (e.1 != some h) = true := by simp [he]
      have h2 : (e.1 == some h) = false := by simp [he]
      have hg' : Pending.get h p = some b := by
        unfold Pending.get at hg ⊢
        rw [List.find?_cons, h2] at hg
        exact hg
      obtain ⟨q, e1, e2⟩ := ih hp.2 hg'
      refine ⟨q, ?_, ?_⟩
      · rw [List.takeWhile_cons, h1]
        simp only [if_true, List.cons_append]
        rw [← e1]
      · rw [List.takeWhile_cons, h1]
        unfold Pending.remove at *
        rw [List.filter_cons, h1]
        simp only [if_true, List.cons_append]
        rw [e2]

theorem Movable.takeOut {b : Batch} : ∀ {hs : List Bytes} {p : Pending}, p.Proper → Movable b hs p →
    ∃ done rest, p.takeOut hs = some (done, rest) ∧ Pending.Proper rest ∧ (∀ e ∈ rest, Apart e.2 b) ∧
      (∀ m : KMap, p.all.apply m = (Pending.all rest).apply (done.apply m)) ∧
      (∀ k, done.HasKey k ∨ (Pending.all rest).HasKey k → p.all.HasKey k)
  | [], p, hp, hm => ⟨[], p, rfl, hp, hm, fun _ => rfl, fun k hk => by
      rcases hk with ⟨r, hr, _⟩ | hk
      · simp at hr
      · exact hk⟩
  | h :: hs, p, hp, hm => by
    obtain ⟨⟨c, hc, ha⟩, hm⟩ := hm
    obtain ⟨done, rest, k1, k2, k3, k4, k5⟩ := Movable.takeOut (hp.remove h) hm
    obtain ⟨q, e1, e2⟩ := Pending.get_split hp hc
    have hA := Pending.apart_all ha
    refine ⟨c ++ done, rest, by simp [Pending.takeOut, hc, k1], k2, k3, ?_, ?_⟩
    · intro m
      rw [Batch.apply_append, ← k4, e2, e1]
      have e3 : ∀ (A : Pending) , Pending.all (A ++ (some h, c) :: q) = A.all ++ (c ++ Pending.all q) := by
        intro A; rw [Pending.all_append, Pending.all_cons]
      conv_lhs => rw [e3]
      rw [Pending.all_append, Batch.apply_append, Batch.apply_append, Batch.apply_append, hA.comm, ← e1]
    · intro k hk
      rw [Batch.hasKey_append] at hk
      have : c.HasKey k ∨ (Pending.all (p.remove h)).HasKey k := by
        rcases hk with (hk | hk) | hk
        · exact Or.inl hk
        · exact Or.inr (k5 k (Or.inl hk))
        · exact Or.inr (k5 k (Or.inr hk))
      rw [e1, Pending.all_append, Pending.all_cons, Batch.hasKey_append, Batch.hasKey_append]
      rcases this with hk | hk
      · exact Or.inr (Or.inl hk)
      · rw [e2, Pending.all_append, Batch.hasKey_append] at hk
        tauto

theorem Pending.removes {hs : List Bytes} : ∀ {p : Pending}, p.Proper → (hs.foldl (fun p h => Pending.remove h p) p).Proper ∧
    ∀ e ∈ hs.foldl (fun p h => Pending.remove h p) p, e ∈ p := by
  induction hs with
  | nil => intro p hp; exact ⟨hp, fun e he => he⟩
  | cons h hs ih =>
    intro p hp
    obtain ⟨h1, h2⟩ := ih (hp.remove h)
    exact ⟨h1, fun e he => (List.mem_filter.mp (h2 e he)).1⟩

/-! ### The invariant -/

/-- The store holds what it should. -/
structure KvInv (kv : Kv) (x : KvSpec) : Prop where
  conf : x.conf = (kv.fly.getD [] ++ kv.snap).apply kv.disk
  pend : x.pend = kv.pend
  view : x.view = kv.mem.apply kv.disk
  sum : x.view = x.pend.all.apply x.conf
  keys : ∀ k, (kv.fly.getD []).HasKey k ∨ kv.snap.HasKey k ∨ kv.pend.all.HasKey k → kv.mem.HasKey k
  proper : kv.pend.Proper

theorem KvInv.fresh (m : KMap) : KvInv (Kv.fresh m) ⟨m, [], m⟩ :=
  ⟨rfl, rfl, rfl, rfl, by rintro k (⟨r, hr, _⟩ | ⟨r, hr, _⟩ | ⟨r, hr, _⟩) <;> simp [Kv.fresh, Pending.all] at hr, List.Pairwise.nil⟩

/-- Every allowed change succeeds and does what it should. -/
theorem KvInv.step {kv : Kv} {x : KvSpec} (h : KvInv kv x) (op : KvOp) (ha : x.Allowed op) :
    ∃ kv', kv.step op = some kv' ∧ KvInv kv' (x.step op) ∧ kv'.disk = kv.disk ∧ kv'.fly = kv.fly := by
  obtain ⟨conf, pend, view⟩ := x
  obtain ⟨h1, h2, h3, h4, h5, h6⟩ := h
  simp only at h1 h2 h3 h4
  subst h2
  cases op with
  | direct b =>
    have hA := Pending.apart_all ha
    refine ⟨_, rfl, ⟨?_, rfl, ?_, ?_, ?_, h6⟩, rfl, rfl⟩
    · show b.apply conf = _
      rw [h1, ← List.append_assoc, Batch.apply_append _ (_ ++ _)]
    · show b.apply view = _
      rw [h3, ← Batch.apply_append]
    · show b.apply view = kv.pend.all.apply (b.apply conf)
      rw [h4, hA.comm]
    · intro k
      show _ ∨ Batch.HasKey (kv.snap ++ b) k ∨ _ → Batch.HasKey (kv.mem ++ b) k
      rw [Batch.hasKey_append, Batch.hasKey_append]
      have := h5 k
      tauto
  | block g b =>
    refine ⟨_, rfl, ⟨h1, rfl, ?_, ?_, ?_, h6.put g b⟩, rfl, rfl⟩
    · show b.apply view = _
      rw [h3, ← Batch.apply_append]
    · show b.apply view = (kv.pend.put g b).all.apply conf
      rw [h4, Pending.all_put, Batch.apply_append]
    · intro k
      show _ ∨ _ ∨ (kv.pend.put g b).all.HasKey k → Batch.HasKey (kv.mem ++ b) k
      rw [Pending.all_put, Batch.hasKey_append, Batch.hasKey_append]
      have := h5 k
      tauto
  | snapshot b hs =>
    obtain ⟨done, rest, k1, k2, k3, k4, k5⟩ := Movable.takeOut h6 ha
    have hA := Pending.apart_all k3
    refine ⟨{ kv with mem := kv.mem ++ b, snap := kv.snap ++ done ++ b, pend := rest }, by simp only [Kv.step, k1, Option.map_some], ?_, rfl, rfl⟩
    simp only [KvSpec.step, k1]
    refine ⟨?_, rfl, ?_, ?_, ?_, k2⟩
    · show b.apply (done.apply conf) = _
      rw [h1, ← Batch.apply_append, ← Batch.apply_append]; simp only [List.append_assoc]
    · show b.apply view = _
      rw [h3, ← Batch.apply_append]
    · show b.apply view = (Pending.all rest).apply (b.apply (done.apply conf))
      rw [h4, k4, hA.comm]
    · intro k
      show _ ∨ Batch.HasKey (kv.snap ++ done ++ b) k ∨ (Pending.all rest).HasKey k → Batch.HasKey (kv.mem ++ b) k
      rw [Batch.hasKey_append, Batch.hasKey_append, Batch.hasKey_append]
      have := h5 k
      have := k5 k
      tauto
  | rollbackBlocks b hs =>
    obtain ⟨p1, p2⟩ := Pending.removes (hs := hs) h6
    refine ⟨_, rfl, ⟨h1, rfl, ?_, ha, ?_, p1⟩, rfl, rfl⟩
    · show b.apply view = _
      rw [h3, ← Batch.apply_append]
    · intro k
      show (kv.fly.getD []).HasKey k ∨ kv.snap.HasKey k ∨ (Pending.all (hs.foldl (fun p h => Pending.remove h p) kv.pend)).HasKey k →
        Batch.HasKey (kv.mem ++ b) k
      rw [Batch.hasKey_append, Pending.hasKey_all]
      have := h5 k
      have hx : (∃ e ∈ hs.foldl (fun p h => Pending.remove h p) kv.pend, e.2.HasKey k) → kv.pend.all.HasKey k := by
        rintro ⟨e, he, hk⟩
        exact Pending.hasKey_all.mpr ⟨e, p2 e he, hk⟩
      rintro (hk | hk | hk)
      · exact Or.inl (this (Or.inl hk))
      · exact Or.inl (this (Or.inr (Or.inl hk)))
      · exact Or.inl (this (Or.inr (Or.inr (hx hk))))
  | rollbackSnapshot b =>
    refine ⟨_, rfl, ⟨?_, rfl, ?_, ?_, ?_, List.Pairwise.nil⟩, rfl, rfl⟩
    · show b.apply (kv.pend.all.apply conf) = _
      rw [h1, ← Batch.apply_append, ← Batch.apply_append]; simp only [List.append_assoc]
    · show b.apply view = _
      rw [h3, ← Batch.apply_append]
    · show b.apply view = b.apply (kv.pend.all.apply conf)
      rw [h4]
    · intro k
      show _ ∨ Batch.HasKey (kv.snap ++ kv.pend.all ++ b) k ∨ Batch.HasKey [] k → Batch.HasKey (kv.mem ++ b) k
      rw [Batch.hasKey_append, Batch.hasKey_append, Batch.hasKey_append]
      have := h5 k
      have hn : ¬ Batch.HasKey [] k := by rintro ⟨r, hr, _⟩; simp at hr
      tauto

theorem KvInv.prepare {kv : Kv} {x : KvSpec} (h : KvInv kv x) (hf : kv.fly = none) :
    ∃ kv' b, kv.prepare = some kv' ∧ KvInv kv' x ∧ kv'.fly = some b ∧ kv'.disk = kv.disk ∧ b.apply kv.disk = x.conf := by
  obtain ⟨h1, h2, h3, h4, h5, h6⟩ := h
  refine ⟨{ kv with fly := some kv.snap, snap := [] }, kv.snap, by simp [Kv.prepare, hf], ⟨?_, h2, h3, h4, ?_, h6⟩, rfl, rfl, ?_⟩
  · rw [h1, hf]; simp
  · intro k
    have := h5 k
    show kv.snap.HasKey k ∨ Batch.HasKey [] k ∨ _ → _
    have hn : ¬ Batch.HasKey [] k := by rintro ⟨r, hr, _⟩; simp at hr
    tauto
  · rw [h1, hf]; simp

theorem KvInv.cancel {kv : Kv} {x : KvSpec} (h : KvInv kv x) : KvInv kv.cancel x := by
  obtain ⟨h1, h2, h3, h4, h5, h6⟩ := h
  refine ⟨?_, h2, h3, h4, ?_, h6⟩
  · rw [h1]; rfl
  · intro k
    show Batch.HasKey [] k ∨ Batch.HasKey (kv.fly.getD [] ++ kv.snap) k ∨ _ → _
    rw [Batch.hasKey_append]
    have := h5 k
    have hn : ¬ Batch.HasKey [] k := by rintro ⟨r, hr, _⟩; simp at hr
    tauto

theorem KvInv.commit {kv : Kv} {x : KvSpec} (h : KvInv kv x) : KvInv kv.commit x := by
  obtain ⟨h1, h2, h3, h4, h5, h6⟩ := h
  refine ⟨?_, h2, ?_, h4, h5, h6⟩
  · rw [h1]
    show _ = (kv.fly.getD [] ++ kv.snap).apply ((kv.fly.getD []).apply kv.disk)
    rw [Batch.apply_append, Batch.apply_append, Batch.apply_idem]
  · rw [h3]
    show _ = kv.mem.apply ((kv.fly.getD []).apply kv.disk)
    funext k
    by_cases hk : kv.mem.HasKey k
    · exact Batch.apply_of_has hk _ _
    · rw [Batch.apply_of_not hk, Batch.apply_of_not hk, Batch.apply_of_not]
      exact fun hf => hk (h5 k (Or.inl hf))

/-- After the commit: the disk already holds what was being flushed. -/
theorem KvInv.afterCommit {kv : Kv} {x : KvSpec} (h : KvInv kv x) (hd : (kv.fly.getD []).apply kv.disk = kv.disk) : KvInv kv.afterCommit x := by
  obtain ⟨h1, h2, h3, h4, h5, h6⟩ := h
  have hc : x.conf = kv.snap.apply kv.disk := by rw [h1, Batch.apply_append, hd]
  refine ⟨hc, h2, ?_, h4, ?_, h6⟩
  · rw [h4, hc, h2, ← Batch.apply_append]; rfl
  · intro k
    show Batch.HasKey [] k ∨ _ ∨ _ → Batch.HasKey (kv.snap ++ kv.pend.all) k
    rw [Batch.hasKey_append]
    have hn : ¬ Batch.HasKey [] k := by rintro ⟨r, hr, _⟩; simp at hr
    tauto

end Verif.Store
