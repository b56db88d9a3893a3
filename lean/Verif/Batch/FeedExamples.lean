import Verif.Batch.QueueProps
import Verif.Batch.Examples

/-!
# Inserting chunks and queueing a snapshot block: concrete cases -/

namespace Verif.Batch

/-- A test for the first two parts of `Fits`. -/
def refsOk (L : Ledger) : List Item → List Item → Bool
  | _, [] => true
  | pre, x :: ys =>
    x.refs.all (fun r => L.acc r || pre.any fun y => y.owner.isSome && decide (r ∈ y.keys)) &&
      (x.owner.isSome || x.sref.all fun r => L.snap r || pre.any fun y => y.owner.isNone && decide (r ∈ y.keys)) && refsOk L (pre ++ [x]) ys

theorem refsOk_spec {L : Ledger} : ∀ (ys pre : List Item), refsOk L pre ys = true → ∀ p x q, ys = p ++ x :: q →
    (∀ r ∈ x.refs, L.acc r = true ∨ ∃ y ∈ pre ++ p, y.owner ≠ none ∧ r ∈ y.keys) ∧
      (x.owner = none → ∀ r, x.sref = some r → L.snap r = true ∨ ∃ y ∈ pre ++ p, y.owner = none ∧ r ∈ y.keys) := by
  intro ys
  induction ys with
  | nil => intro pre _ p x q h; simp at h
  | cons y ys ih =>
    intro pre h p x q hs
    unfold refsOk at h
    rw [Bool.and_eq_true, Bool.and_eq_true] at h
    obtain ⟨⟨h1, h2⟩, h3⟩ := h
    cases p with
    | nil =>
      simp only [List.nil_append, List.cons.injEq] at hs
      obtain ⟨rfl, -⟩ := hs
      constructor
      · intro r hr
        have := List.all_eq_true.1 h1 r hr
        simp only [Bool.or_eq_true, List.any_eq_true, Bool.and_eq_true, decide_eq_true_eq, Option.isSome_iff_ne_none] at this
        simpa using this
      · intro ho r hr
        rw [ho, hr] at h2
        simp only [Option.isSome_none, Bool.false_or, Option.all_some, Bool.or_eq_true, List.any_eq_true, Bool.and_eq_true, decide_eq_true_eq, Option.isNone_iff_eq_none] at h2
        simpa using h2
    | cons z p =>
      simp only [List.cons_append, List.cons.injEq] at hs
      obtain ⟨rfl, hs⟩ := hs
      have := ih (pre ++ [y]) h3 p x q hs
      simpa [List.append_assoc] using this

/-- The blocks of the other examples can be inserted in this order. -/
theorem exFits : Fits exLedger [exA, exB, exS, exC] := by
  have h := refsOk_spec (L := exLedger) [exA, exB, exS, exC] [] (by decide +kernel)
  refine ⟨fun p x q hs => by simpa using (h p x q hs).1, fun p x q hs => by simpa using (h p x q hs).2, ?_, by decide +kernel, by decide +kernel, by decide +kernel⟩
  intro o
  by_cases h1 : o = some 1
  · subst h1
    rw [show ([exA, exB, exS, exC].filter fun y => decide (y.owner = some 1)) = [exA, exC] by decide +kernel]
    simp [exA, exC]
  by_cases h2 : o = some 2
  · subst h2
    rw [show ([exA, exB, exS, exC].filter fun y => decide (y.owner = some 2)) = [exB] by decide +kernel]
    simp
  by_cases h3 : o = none
  · subst h3
    rw [show ([exA, exB, exS, exC].filter fun y => decide (y.owner = none)) = [exS] by decide +kernel]
    simp
  · rw [show ([exA, exB, exS, exC].filter fun y => decide (y.owner = o)) = [] by
      rw [List.filter_eq_nil_iff]
      intro x hx
      simp only [List.mem_cons, List.not_mem_nil, or_false] at hx
      rcases hx with rfl | rfl | rfl | rfl <;> rw [decide_eq_true_eq] <;> first | exact Ne.symm h1 | exact Ne.symm h2 | exact Ne.symm h3]
    simp

/-- Two chunks; the account blocks of the first came in the wrong order. -/
def exPieces : List Piece := [⟨[exB, exA], some exS⟩, ⟨[exC], none⟩]

theorem exSortable : Sortable exPieces ([exA, exB] ++ [exS] ++ ([exC] ++ [] ++ [])) := by
  refine Sortable.cons (List.Perm.swap _ _ _) ?_ (by decide +kernel) (by decide +kernel) (by decide +kernel) (Sortable.cons (List.Perm.refl _) ?_ (by decide +kernel) (by decide +kernel) (by decide +kernel) Sortable.nil)
  · intro pre x post hs k hk hex
    rcases pre with _ | ⟨a, _ | ⟨b, pre⟩⟩
    · simp only [List.nil_append, List.cons.injEq] at hs
      obtain ⟨rfl, -⟩ := hs
      exfalso
      simp [exA, exB] at hk hex
      subst hk
      simp at hex
    · simp only [List.cons_append, List.nil_append, List.cons.injEq] at hs
      obtain ⟨rfl, rfl, -⟩ := hs
      simp [exA, exB] at hk hex ⊢
      rcases hk with rfl | rfl <;> simp at hex ⊢
    · simp at hs
  · intro pre x post hs k hk hex
    rcases pre with _ | ⟨a, pre⟩
    · simp only [List.nil_append, List.cons.injEq] at hs
      obtain ⟨rfl, -⟩ := hs
      exfalso
      simp [exC] at hk hex
      omega
    · simp at hs

/-- The chunks are inserted as one batch of four levels. -/
example : ∃ bs, insertChunks (fun _ => true) exLedger exPieces = .done bs ∧ bs.map (·.items) = [[exA, exB, exS, exC]] := by
  refine ⟨[batchOf exLedger 50 [exA, exB, exS, exC]], ?_, ?_⟩ <;> decide +kernel
/-- The theorem applies to them. -/
example : ∃ bs, insertChunks (fun _ => true) exLedger exPieces = .done bs ∧ (bs.flatMap St.items).Perm [exA, exB, exS, exC] := by
  have hf : Fits exLedger (([exA, exB] ++ [exS] ++ ([exC] ++ [] ++ [])).filter fun x => !exLedger.has x) := by
    have h : (([exA, exB] ++ [exS] ++ ([exC] ++ [] ++ [])).filter fun x => !exLedger.has x) = [exA, exB, exS, exC] := by decide +kernel
    rw [h]; exact exFits
  rcases chunks_inserted (fun _ => true) exLedger exSortable hf with ⟨bs, h1, h2, -⟩ | ⟨bs, b, -, h, -⟩
  · exact ⟨bs, h1, h2⟩
  · cases h
/-- With two levels for a batch there are two batches. -/
example : ∃ bs, feed (fun _ => true) 2 exLedger (newBatch 2) [exA, exB, exS, exC] [] = .done bs ∧ bs.map (·.items) = [[exA, exB], [exS, exC]] := by
  refine ⟨[batchOf exLedger 2 [exA, exB], batchOf (exLedger.after [exA, exB]) 2 [exS, exC]], ?_, ?_⟩ <;> decide +kernel

/-- Going through account 2 before account 1 takes two passes, and queues the snapshot block all the same. -/
example : (queueSnapshot exLedger (fun _ l => l) (newBatch 50) [[exB], [exA]] exS).2 = .ok := by decide +kernel
example : (sweep exLedger (newBatch 50) [[exB], [exA]]).2.1 = [[exB], []] := by decide +kernel
/-- The theorem applies. -/
example : (queueSnapshot exLedger (fun _ l => l.reverse) (batchOf exLedger 50 []) ([2, 1].map (ofAcc [exA, exB])) exS).2 = .full ∨
    ((queueSnapshot exLedger (fun _ l => l.reverse) (batchOf exLedger 50 []) ([2, 1].map (ofAcc [exA, exB])) exS).2 = .ok ∧
      (queueSnapshot exLedger (fun _ l => l.reverse) (batchOf exLedger 50 []) ([2, 1].map (ofAcc [exA, exB])) exS).1.items.Perm [exA, exB, exS]) :=
  snapshot_queued exLedger (by decide) [] (fun _ _ => List.reverse_perm _) (o := [exA, exB]) (z := exS) (as := [2, 1]) (by decide) (by decide +kernel) rfl
    (fits_prefix (b := [exC]) exFits)
/-- Without the block of account 1 the snapshot block is not queued. -/
example : (queueSnapshot exLedger (fun _ l => l) (newBatch 50) [[exB]] exS).2 = .noRef := by decide +kernel

end Verif.Batch
