import Verif.Work.HeapLemmas

/-!
C100: the claims about the queue of tasks.
-/

namespace Verif.Work.Heap

/-- C100: whatever was pushed and popped before, popping gives a contract of the table with its last quota, which no other contract
exceeds, and leaves the others. -/
theorem pop_is_max {q q' : Pq} {m : Table} {a k : Nat} (h : Reach q m) (hp : q.pop = some ((a, k), q')) :
    m a = some k ∧ (∀ b k', m b = some k' → k' ≤ k) ∧ Reach q' (m.drop a) :=
  ⟨(pop_rep h.rep hp).1, (pop_rep h.rep hp).2.1, Reach.pop h hp⟩

/-- C100: there is nothing to pop exactly if the table is empty. -/
theorem pop_none {q : Pq} {m : Table} (h : Reach q m) : q.pop = none ↔ ∀ a, m a = none := by
  have hr := h.rep
  constructor
  · intro hp a
    have h0 : q.len = 0 := by
      unfold Pq.pop at hp
      split at hp
      · assumption
      · simp at hp
    rcases hm : m a with _ | k
    · rfl
    · obtain ⟨i, hi, _⟩ := (hr.has a k).2 hm
      omega
  · intro hall
    unfold Pq.pop
    by_cases h0 : q.len = 0
    · rw [if_pos h0]
    · have := (hr.has _ _).1 ⟨0, by omega, rfl, rfl⟩
      rw [hall] at this
      simp at this

/-- C100: the queue has an entry for exactly the contracts of the table, with their last quotas, each once, and each task knows where it
is. -/
theorem queue_is_table {q : Pq} {m : Table} (h : Reach q m) :
    (∀ a k, (∃ i < q.len, (q.get i).addr = a ∧ (q.get i).quota = k) ↔ m a = some k) ∧
    (∀ i < q.len, ∀ j < q.len, (q.get i).addr = (q.get j).addr → i = j) ∧ ∀ i < q.len, (q.get i).index = i :=
  ⟨h.rep.has, h.rep.fit.2, h.rep.fit.1⟩

/-- C100: a contract that is pushed with a quota no smaller than any other's, and was not in the queue, is the next to be popped, also
before contracts with the same quota that have waited longer. -/
theorem equal_is_next {q q' : Pq} {m : Table} {a b k k' : Nat} (h : Reach q m) (hn : m a = none) (hk : ∀ c k'', m c = some k'' → k'' ≤ k)
    (hp : (q.push a k).pop = some ((b, k'), q')) : b = a ∧ k' = k := by
  have hr := h.rep
  have hpr := pop_rep (push_rep hr a k) hp
  have hf : q.find a = none := by
    rcases hf : q.find a with _ | i
    · rfl
    · obtain ⟨hi, ha⟩ := find_some hf
      have := (hr.has a (q.get i).quota).1 ⟨i, hi, ha, rfl⟩
      rw [hn] at this; simp at this
  have hroot : ((q.push a k).get 0).addr = a := by
    unfold Pq.push
    rw [hf]
    dsimp only
    rw [up_root (q.append a k) q.len (q.len + 1) (by omega)]
    · simp [Pq.append]
    · intro c hc
      have hqt : ∀ c, (q.append a k).qt c = if c = q.len then k else q.qt c := by
        intro c; unfold Pq.qt Pq.append; dsimp only; split <;> rfl
      rw [hqt, hqt, if_pos rfl]
      split
      · exact Nat.le_refl _
      · rename_i hne
        exact hk _ _ ((hr.has _ _).1 ⟨c, by omega, rfl, rfl⟩)
  have hb : b = a := by rw [hpr.2.2.1, hroot]
  refine ⟨hb, ?_⟩
  have := hpr.1
  rw [hb] at this
  unfold Table.put at this
  rw [if_pos rfl] at this
  exact (Option.some.inj this).symm

/-- One processor, `n` times: it pops a task, and pushes it again with the same quota. -/
inductive Rounds (a k : Nat) : Nat → Pq → Pq → Prop
  | zero (q : Pq) : Rounds a k 0 q q
  | succ {n : Nat} {q q' q'' : Pq} : Rounds a k n q q' → q'.pop = some ((a, k), q'') → Rounds a k (n + 1) q (q''.push a k)

/-- C100, what it costs: once a contract with the greatest quota was popped and still has work, it alone is popped, over and over, as
long as its quota stays; others with the same quota, like the quota-free built-in contracts, are not served by this processor. -/
theorem greatest_is_served_alone {q q0 : Pq} {m : Table} {a k n : Nat} (h : Reach q m) (hp : q.pop = some ((a, k), q0)) :
    ∃ q', Rounds a k n (q0.push a k) q' ∧ ∃ q'', q'.pop = some ((a, k), q'') := by
  have h0 := pop_is_max h hp
  have key : ∀ {p : Pq}, Reach p (m.drop a) → ∃ p', (p.push a k).pop = some ((a, k), p') := by
    intro p hp
    have hr := Reach.push a k hp
    rcases hpop : (p.push a k).pop with _ | ⟨⟨b, k'⟩, p'⟩
    · have := (pop_none hr).1 hpop a
      simp [Table.put] at this
    · have := equal_is_next hp (by simp [Table.drop]) (by
        intro c k'' hc
        unfold Table.drop at hc
        split at hc
        · simp at hc
        · exact h0.2.1 c k'' hc) hpop
      obtain ⟨rfl, rfl⟩ := this
      exact ⟨p', rfl⟩
  have drop_put : ((m.drop a).put a k).drop a = m.drop a := by
    funext b
    unfold Table.drop Table.put
    by_cases hb : b = a <;> simp [hb]
  have main : ∃ p, Reach p (m.drop a) ∧ Rounds a k n (q0.push a k) (p.push a k) := by
    induction n with
    | zero => exact ⟨q0, h0.2.2, Rounds.zero _⟩
    | succ n ih =>
      obtain ⟨p, hp1, hp2⟩ := ih
      obtain ⟨p', hp'⟩ := key hp1
      refine ⟨p', ?_, Rounds.succ hp2 hp'⟩
      have := Reach.pop (Reach.push a k hp1) hp'
      rwa [drop_put] at this
  obtain ⟨p, hp1, hp2⟩ := main
  exact ⟨_, hp2, key hp1⟩

end Verif.Work.Heap
