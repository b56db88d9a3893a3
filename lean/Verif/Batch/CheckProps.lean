import Verif.Batch.CheckModel

/-!
# Properties of the test whether a chunk joins the chain -/

namespace Verif.Batch

/-- `b` follows `a`. -/
def Next (ht par : Nat → Nat) (a b : Nat) : Prop := par b = a ∧ ht b = ht a + 1

/-- The blocks of a chunk join the chain: those that are not higher than the head of the chain are on it, and those that are higher follow its head one after the other. -/
def Joins (ht par : Nat → Nat) (chain bs : List Nat) : Prop :=
  (∀ b ∈ bs, ht b ≤ ht (chain.getLastD 0) → b ∈ chain) ∧ (chain ++ bs.filter fun b => decide (ht (chain.getLastD 0) < ht b)).IsChain (Next ht par)

theorem next_low {ht par : Nat → Nat} : ∀ {l : List Nat} {a : Nat}, (a :: l).IsChain (Next ht par) → ∀ b ∈ l, ht a < ht b := by
  intro l
  induction l with
  | nil => intro a _ b hb; cases hb
  | cons c l ih =>
    intro a h b hb
    rw [List.isChain_cons_cons] at h
    rcases List.mem_cons.1 hb with rfl | hb
    · have := h.1.2; omega
    · have := ih h.2 b hb
      have := h.1.2
      omega

/-- Two blocks of a chain of the same height are the same. -/
theorem next_inj {ht par : Nat → Nat} {l : List Nat} (h : l.IsChain (Next ht par)) {a b : Nat} (ha : a ∈ l) (hb : b ∈ l) (he : ht a = ht b) : a = b := by
  induction l with
  | nil => cases ha
  | cons c l ih =>
    have hl := next_low h
    rcases List.mem_cons.1 ha with ha | ha <;> rcases List.mem_cons.1 hb with hb | hb
    · rw [ha, hb]
    · have := hl b hb; rw [← ha] at this; omega
    · have := hl a ha; rw [← hb] at this; omega
    · exact ih h.tail ha hb

theorem next_last {ht par : Nat → Nat} {l : List Nat} (h : l.IsChain (Next ht par)) {a z : Nat} (ha : a ∈ l) (hz : l.getLast? = some z) : ht a ≤ ht z := by
  obtain ⟨m, rfl⟩ := List.getLast?_eq_some_iff.1 hz
  rcases List.mem_append.1 ha with ha | ha
  · obtain ⟨p, q, rfl⟩ := List.append_of_mem ha
    rw [List.append_assoc, List.cons_append] at h
    have := next_low (List.isChain_append.1 h).2.1 z (by simp)
    omega
  · rw [List.mem_singleton] at ha; rw [ha]

/-- The block before a block of a chain is on the chain. -/
theorem next_back {ht par : Nat → Nat} {r : Nat} {l : List Nat} (h : (r :: l).IsChain (Next ht par)) {b : Nat} (hb : b ∈ l) : par b ∈ r :: l := by
  obtain ⟨p, q, rfl⟩ := List.append_of_mem hb
  rcases List.eq_nil_or_concat p with rfl | ⟨p', a, rfl⟩
  · simp only [List.nil_append, List.isChain_cons_cons] at h
    rw [h.1.1]; simp
  · rw [show r :: (p'.concat a ++ b :: q) = (r :: p') ++ (a :: b :: q) by simp] at h
    have := (List.isChain_append.1 h).2.1
    rw [List.isChain_cons_cons] at this
    rw [this.1.1]; simp

/-- Below a block of both, two chains agree. -/
theorem next_down {ht par : Nat → Nat} {r : Nat} {l : List Nat} (hc : (r :: l).IsChain (Next ht par)) : ∀ {bs : List Nat} {z : Nat}, (bs ++ [z]).IsChain (Next ht par) → z ∈ r :: l →
    (∀ b ∈ bs, ht r ≤ ht b) → ∀ b ∈ bs, b ∈ r :: l := by
  intro bs
  induction bs using List.reverseRecOn with
  | nil => intro z _ _ _ b hb; cases hb
  | append_singleton bs y ih =>
    intro z h hz hr b hb
    have hR : Next ht par y z := by
      rw [List.append_assoc] at h
      have := (List.isChain_append.1 h).2.1
      simpa using this
    have hy : y ∈ r :: l := by
      rcases List.mem_cons.1 hz with rfl | hz
      · have := hr y (by simp); have := hR.2; omega
      · rw [← hR.1]; exact next_back hc hz
    rcases List.mem_append.1 hb with hb | hb
    · exact ih (z := y) (List.isChain_append.1 h).1 hy (fun b hb => hr b (List.mem_append_left _ hb)) b hb
    · rw [List.mem_singleton] at hb; rw [hb]; exact hy

/-- **C94.** The test of a chunk is exact. `chain` is a chain from its first block on; `bs` are the blocks of that chain in the chunk, each following the one before, the first
saying that it follows `tail` at height `tailHeight`, not below the first block; `hashes` are the hashes of the chunk, among them the blocks `bs` and no other block of the chain. Then the chunk is disconnected when it begins above the
head of the chain, connected when it joins, and forked when it does neither. -/
theorem check_exact {ht par : Nat → Nat} {r : Nat} {l bs : List Nat} {head tail tailHeight : Nat} {hashes : List Nat} (hc : (r :: l).IsChain (Next ht par)) (hb : bs.IsChain (Next ht par))
    (hhead : bs.getLast? = some head) (hfirst : ∀ b, bs.head? = some b → par b = tail ∧ ht b = tailHeight + 1) (hr : ht r ≤ tailHeight) (hin : ∀ b ∈ bs, b ∈ hashes)
    (hown : ∀ b ∈ hashes, b ∈ r :: l → b ∈ bs) :
    (checkInsert ht (r :: l) head tail tailHeight hashes = .disconnect ↔ ht ((r :: l).getLastD 0) < tailHeight) ∧
    (checkInsert ht (r :: l) head tail tailHeight hashes = .connected ↔ tailHeight ≤ ht ((r :: l).getLastD 0) ∧ Joins ht par (r :: l) bs) ∧
    (checkInsert ht (r :: l) head tail tailHeight hashes = .forked ↔ tailHeight ≤ ht ((r :: l).getLastD 0) ∧ ¬ Joins ht par (r :: l) bs) := by
  obtain ⟨cur, hcur⟩ : ∃ cur, (r :: l).getLast? = some cur := ⟨_, List.getLast?_eq_some_getLast (by simp)⟩
  have hD : (r :: l).getLastD 0 = cur := by rw [List.getLastD_eq_getLast?, hcur]; rfl
  have hcurm : cur ∈ r :: l := List.mem_of_getLast? hcur
  obtain ⟨b₀, bs', rfl⟩ : ∃ b₀ bs', bs = b₀ :: bs' := by
    cases bs with
    | nil => simp at hhead
    | cons b bs' => exact ⟨b, bs', rfl⟩
  obtain ⟨hp0, hh0⟩ := hfirst b₀ rfl
  have hheadm : head ∈ b₀ :: bs' := List.mem_of_getLast? hhead
  have hlow : ∀ b ∈ b₀ :: bs', tailHeight < ht b := by
    intro b hb'
    rcases List.mem_cons.1 hb' with rfl | hb'
    · omega
    · have := next_low hb b hb'; omega
  have hle : ∀ b ∈ b₀ :: bs', ht b ≤ ht head := fun b h => next_last hb h hhead
  -- the whole claim, given when it joins
  have main : ∀ P : Prop, (P ↔ Joins ht par (r :: l) (b₀ :: bs')) → tailHeight ≤ ht cur →
      ((checkInsert ht (r :: l) head tail tailHeight hashes = .connected ∧ P) ∨ (checkInsert ht (r :: l) head tail tailHeight hashes = .forked ∧ ¬ P)) → 
      (checkInsert ht (r :: l) head tail tailHeight hashes = .disconnect ↔ ht cur < tailHeight) ∧
      (checkInsert ht (r :: l) head tail tailHeight hashes = .connected ↔ tailHeight ≤ ht cur ∧ Joins ht par (r :: l) (b₀ :: bs')) ∧
      (checkInsert ht (r :: l) head tail tailHeight hashes = .forked ↔ tailHeight ≤ ht cur ∧ ¬ Joins ht par (r :: l) (b₀ :: bs')) := by
    intro P hP hle' h
    rw [← hP]
    rcases h with ⟨h1, h2⟩ | ⟨h1, h2⟩ <;> rw [h1] <;> simp [h2, hle']
  rw [hD]
  -- the blocks above the head
  have hnone : ∀ {m : List Nat}, (∀ b ∈ m, ht b ≤ ht cur) → (m.filter fun b => decide (ht cur < ht b)) = [] := fun h => by
    rw [List.filter_eq_nil_iff]; intro b hb'; simpa using h b hb'
  have hall : ∀ {m : List Nat}, (∀ b ∈ m, ht cur < ht b) → (m.filter fun b => decide (ht cur < ht b)) = m := fun h => by
    rw [List.filter_eq_self]; intro b hb'; simpa using h b hb'
  by_cases h1 : tailHeight = ht cur
  · refine main (tail = cur) ?_ (by omega) (by unfold checkInsert; rw [hD]; simp only; rw [if_pos h1]; by_cases h : tail = cur <;> simp [h])
    unfold Joins
    rw [hD, hall (fun b hb' => by have := hlow b hb'; omega)]
    constructor
    · rintro rfl
      refine ⟨fun b hb' h => by have := hlow b hb'; omega, List.isChain_append.2 ⟨hc, hb, ?_⟩⟩
      intro x hx y hy
      rw [hcur] at hx
      simp only [Option.mem_def, Option.some.injEq, List.head?_cons] at hx hy
      subst hx hy
      exact ⟨hp0, by omega⟩
    · rintro ⟨-, h⟩
      have := (List.isChain_append.1 h).2.2 cur (by rw [hcur]; rfl) b₀ (by simp)
      rw [← hp0]; exact this.1
  by_cases h2 : tailHeight < ht cur
  · by_cases h3 : ht head ≤ ht cur
    · refine main (head ∈ r :: l) ?_ (by omega) (by unfold checkInsert; rw [hD]; simp only; rw [if_neg h1, if_pos h2, if_pos h3]; by_cases h : head ∈ r :: l <;> simp [h])
      unfold Joins
      rw [hD, hnone (fun b hb' => by have := hle b hb'; omega), List.append_nil]
      constructor
      · intro hm
        refine ⟨fun b hb' _ => ?_, hc⟩
        obtain ⟨m, hm'⟩ := List.getLast?_eq_some_iff.1 hhead
        rw [hm'] at hb hb'
        rcases List.mem_append.1 hb' with hb' | hb'
        · exact next_down hc hb hm (fun x hx => by have := hlow x (by rw [hm']; exact List.mem_append_left _ hx); omega) b hb'
        · rw [List.mem_singleton] at hb'; rw [hb']; exact hm
      · exact fun h => h.1 head hheadm h3
    · refine main (cur ∈ hashes) ?_ (by omega) (by unfold checkInsert; rw [hD]; simp only; rw [if_neg h1, if_pos h2, if_neg h3]; by_cases h : cur ∈ hashes <;> simp [h])
      unfold Joins
      rw [hD]
      constructor
      · intro hm
        obtain ⟨p, q, hpq⟩ := List.append_of_mem (hown cur hm hcurm)
        rw [hpq] at hb ⊢
        have hpc : (p ++ [cur]).IsChain (Next ht par) := by
          rw [show p ++ cur :: q = (p ++ [cur]) ++ q by simp] at hb
          exact (List.isChain_append.1 hb).1
        have hq : ∀ b ∈ q, ht cur < ht b := next_low (List.isChain_append.1 hb).2.1
        have hp : ∀ b ∈ p, b ∈ r :: l := next_down hc hpc hcurm (fun x hx => by have := hlow x (by rw [hpq]; exact List.mem_append_left _ hx); omega)
        constructor
        · intro b hb' h
          rcases List.mem_append.1 hb' with hb' | hb'
          · exact hp b hb'
          · rcases List.mem_cons.1 hb' with rfl | hb'
            · exact hcurm
            · have := hq b hb'; omega
        · rw [List.filter_append, hnone (fun b hb' => next_last hc (hp b hb') hcur), List.nil_append, List.filter_cons_of_neg (by simp), hall hq]
          refine List.isChain_append.2 ⟨hc, (List.isChain_append.1 hb).2.1.tail, ?_⟩
          intro x hx y hy
          rw [hcur] at hx
          simp only [Option.mem_def, Option.some.injEq] at hx
          subst hx
          have := (List.isChain_append.1 hb).2.1
          rw [List.isChain_cons] at this
          exact this.1 y hy
      · rintro ⟨h4, h5⟩
        -- the first block above the head follows the head, and the block before it is in the chunk
        obtain ⟨y, hy⟩ : ∃ y, (b₀ :: bs').find? (fun b => decide (ht cur < ht b)) = some y := by
          rw [← Option.isSome_iff_exists, List.find?_isSome]
          exact ⟨head, hheadm, by simp; omega⟩
        obtain ⟨hy1, p, q, hpq, hp⟩ := List.find?_eq_some_iff_append.1 hy
        simp only [decide_eq_true_eq] at hy1
        have hp : ∀ b ∈ p, ht b ≤ ht cur := fun b hb' => by simpa using hp b hb'
        rw [hpq, List.filter_append, hnone hp, List.nil_append, List.filter_cons_of_pos (by simpa using hy1)] at h5
        have hR := (List.isChain_append.1 h5).2.2 cur (by rw [hcur]; rfl) y (by simp)
        rcases List.eq_nil_or_concat p with rfl | ⟨p', a, rfl⟩
        · simp only [List.nil_append, List.cons.injEq] at hpq
          obtain ⟨rfl, -⟩ := hpq
          have := hR.2
          omega
        · rw [hpq, show p'.concat a ++ y :: q = p' ++ (a :: y :: q) by simp] at hb
          have := (List.isChain_append.1 hb).2.1
          rw [List.isChain_cons_cons] at this
          have e : a = cur := by rw [← this.1.1, hR.1]
          rw [← e]
          exact hin a (by rw [hpq]; simp)
  · have h4 : checkInsert ht (r :: l) head tail tailHeight hashes = .disconnect := by unfold checkInsert; rw [hD]; simp only; rw [if_neg h1, if_neg h2]
    rw [h4]
    refine ⟨⟨fun _ => by omega, fun _ => rfl⟩, ⟨by simp, fun h => by omega⟩, ⟨by simp, fun h => by omega⟩⟩

theorem checkAll_connected {js : List Joint} : checkAll js = .connected ↔ ∀ j ∈ js, j = .connected := by
  induction js with
  | nil => simp [checkAll]
  | cons j js ih => cases j <;> simp [checkAll, ih]

/-- **C94.** The blocks of a chunk go into the chain only when under the lock the chunk joins the snapshot chain and every account chain; a chunk is taken off the reader exactly when its blocks went into the
chain or the pool, so that it is never lost; and only a chunk that forks, or whose blocks could not be inserted, goes to the pool. -/
theorem chunk_fate (s : Joint) (a : List Joint) (s' : Joint) (a' : List Joint) (works : Bool) :
    ((chunkFate s a s' a' works).inserted = true → s' = .connected ∧ ∀ j ∈ a', j = .connected) ∧
    ((chunkFate s a s' a' works).popped = ((chunkFate s a s' a' works).inserted || (chunkFate s a s' a' works).pooled)) ∧
    ((chunkFate s a s' a' works).inserted = true → (chunkFate s a s' a' works).pooled = false) ∧
    ((chunkFate s a s' a' works).pooled = true → s = .forked ∨ .forked ∈ a ∨ works = false) ∧
    (s = .connected → (∀ j ∈ a, j = .connected) → s' = .connected → (∀ j ∈ a', j = .connected) → works = true → (chunkFate s a s' a' works).inserted = true) := by
  have hmem : ∀ js : List Joint, checkAll js = .forked → .forked ∈ js := by
    intro js
    induction js with
    | nil => simp [checkAll]
    | cons j js ih => cases j <;> simp [checkAll]; exact ih
  refine ⟨?_, ?_, ?_, ?_, ?_⟩
  · unfold chunkFate
    split_ifs <;> simp_all [checkAll_connected]
    assumption
  · unfold chunkFate
    split_ifs <;> rfl
  · unfold chunkFate
    split_ifs <;> simp
  · unfold chunkFate
    split_ifs with h1 h2 h3 h4 h5 h6 h7
    · exact fun _ => Or.inl h1
    · simp
    · exact fun _ => Or.inr (Or.inl (hmem _ h3))
    · simp
    · simp
    · simp
    · simp
    · exact fun _ => Or.inr (Or.inr (by simpa using h7))
  · intro h1 h2 h3 h4 h5
    unfold chunkFate
    rw [checkAll_connected.2 h2, checkAll_connected.2 h4]
    simp [h1, h3, h5]

/-! ## Concrete cases: block `10 h + b` has height `h` and is on branch `b` -/

/-- Heights, and parents: blocks of branch 1 from height 3 on follow block 20. -/
def exHt (n : Nat) : Nat := n / 10
def exPar (n : Nat) : Nat := if n = 31 then 20 else n - 10

example : [10, 20, 30].IsChain (Next exHt exPar) := by simp [Next, exHt, exPar]
/-- The chunk begins at the head. -/
example : checkInsert exHt [10, 20, 30] 50 30 3 [40, 50] = .connected := by decide +kernel
/-- It begins below the head and ends above. -/
example : checkInsert exHt [10, 20, 30] 40 10 1 [20, 30, 40] = .connected := by decide +kernel
/-- It is on the chain. -/
example : checkInsert exHt [10, 20, 30] 20 10 1 [20] = .connected := by decide +kernel
/-- It is on another branch. -/
example : checkInsert exHt [10, 20, 30] 41 20 2 [31, 41] = .forked := by decide +kernel
example : checkInsert exHt [10, 20, 30] 31 20 2 [31] = .forked := by decide +kernel
/-- It begins above the head. -/
example : checkInsert exHt [10, 20] 41 31 3 [41] = .disconnect := by decide +kernel
/-- The theorem applies to a chunk on another branch. -/
example : ¬ Joins exHt exPar [10, 20, 30] [31, 41] :=
  (((check_exact (ht := exHt) (par := exPar) (r := 10) (l := [20, 30]) (bs := [31, 41]) (head := 41) (tail := 20) (tailHeight := 2) (hashes := [31, 41])
    (by simp [Next, exHt, exPar]) (by simp [Next, exHt, exPar]) rfl (by simp [exHt, exPar]) (by decide) (by decide) (by decide)).2.2).1 (by decide +kernel)).2

end Verif.Batch
