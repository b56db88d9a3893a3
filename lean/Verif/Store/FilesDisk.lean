import Verif.Store.FilesWrite

namespace Verif.Store
open Verif.Bytes

/-! ### The disk -/

theorem get_remove (f g : Nat) : ∀ (fs : Files), Table.get g (fs.remove f) = if g = f then none else Table.get g fs
  | [] => by simp [Files.remove, Table.get]
  | (k, v) :: fs => by
    have ih := get_remove f g fs
    unfold Files.remove at *
    by_cases hk : k = f
    · subst hk
      rw [List.filter_cons_of_neg (by simp), ih]
      by_cases hg : g = k
      · simp [hg]
      · simp [hg, Table.get, Ne.symm hg]
    · rw [List.filter_cons_of_pos (by simpa using hk)]
      by_cases hkg : k = g
      · subst hkg
        simp [Table.get, hk]
      · simp only [Table.get, hkg, if_false]
        exact ih

/-- The length of a file, zero if it is missing. -/
def len (files : Files) (g : Nat) : Nat := ((Table.get g files).getD []).length

theorem over_length (d : Bytes) (o : Nat) (b : Bytes) : (over d o b).length = max d.length (o + b.length) := by
  unfold over
  simp only [List.length_append, List.length_take, List.length_replicate, List.length_drop]
  omega

/-- An operation that does not touch the first `n` bytes and keeps to the sizes of files. -/
def Safe (S n : Nat) : DiskOp → Prop
  | .create f => 1 ≤ f ∧ n ≤ (f - 1) * S
  | .write f o b => 1 ≤ f ∧ n ≤ (f - 1) * S + o ∧ o + b.length ≤ S
  | .remove f => 1 ≤ f ∧ n ≤ (f - 1) * S
  | .truncate f o => 1 ≤ f ∧ n ≤ (f - 1) * S + o ∧ o ≤ S

theorem Safe.mono {S n m : Nat} {op : DiskOp} (h : Safe S n op) (hm : m ≤ n) : Safe S m op := by
  cases op <;> simp only [Safe] at * <;> omega

theorem truncate_none {files : Files} {f o : Nat} (h : Table.get f files = none) : DiskOp.apply files (.truncate f o) = files := by
  simp only [DiskOp.apply, h]

theorem truncate_some {files : Files} {f o : Nat} {d : Bytes} (h : Table.get f files = some d) :
    DiskOp.apply files (.truncate f o) = Table.put f (d.take o ++ List.replicate (o - d.length) 0) files := by
  simp only [DiskOp.apply, h]

/-- Sizes of files, and no file number zero. -/
def Sane (S : Nat) (files : Files) : Prop := Table.get 0 files = none ∧ ∀ g, len files g ≤ S

theorem Sane.apply {S n : Nat} {files : Files} {op : DiskOp} (h : Sane S files) (ho : Safe S n op) : Sane S (op.apply files) := by
  obtain ⟨h0, hs⟩ := h
  cases op with
  | create f =>
    simp only [Safe] at ho
    refine ⟨?_, fun g => ?_⟩
    · show Table.get 0 (Table.put f [] files) = none
      rw [Table.get_put, if_neg (by omega)]; exact h0
    · show ((Table.get g (Table.put f [] files)).getD []).length ≤ S
      rw [Table.get_put]; split
      · simp
      · exact hs g
  | write f o b =>
    simp only [Safe] at ho
    refine ⟨?_, fun g => ?_⟩
    · show Table.get 0 (Table.put f _ files) = none
      rw [Table.get_put, if_neg (by omega)]; exact h0
    · show ((Table.get g (Table.put f _ files)).getD []).length ≤ S
      rw [Table.get_put]; split
      · simp only [Option.getD_some]
        rw [over_length]
        have := hs f
        unfold len at this
        omega
      · exact hs g
  | remove f =>
    refine ⟨?_, fun g => ?_⟩
    · show Table.get 0 (files.remove f) = none
      rw [get_remove]; split
      · rfl
      · exact h0
    · show ((Table.get g (files.remove f)).getD []).length ≤ S
      rw [get_remove]; split
      · simp
      · exact hs g
  | truncate f o =>
    simp only [Safe] at ho
    cases hg : Table.get f files with
    | none => rw [truncate_none hg]; exact ⟨h0, hs⟩
    | some d =>
      rw [truncate_some hg]
      refine ⟨?_, fun g => ?_⟩
      · show Table.get 0 (Table.put f _ files) = none
        rw [Table.get_put, if_neg (by omega)]; exact h0
      · show ((Table.get g (Table.put f _ files)).getD []).length ≤ S
        rw [Table.get_put]; split
        · simp only [Option.getD_some, List.length_append, List.length_take, List.length_replicate]; omega
        · exact hs g

theorem prefix_over {c d : Bytes} {o : Nat} {b : Bytes} (h : c <+: d) (hc : c.length ≤ o) : c <+: over d o b := by
  obtain ⟨r, rfl⟩ := h
  unfold over
  rw [List.take_append, List.take_of_length_le hc]
  simp only [List.append_assoc]
  exact List.prefix_append _ _

theorem prefix_trunc {c d : Bytes} {o : Nat} (h : c <+: d) (hc : c.length ≤ o) : c <+: d.take o ++ List.replicate (o - d.length) 0 := by
  obtain ⟨r, rfl⟩ := h
  rw [List.take_append, List.take_of_length_le hc]
  simp only [List.append_assoc]
  exact List.prefix_append _ _

/-- Safe operations keep what is on disk. -/
theorem Has.apply {S : Nat} {files : Files} {Q : Bytes} {op : DiskOp} (h : Has S files Q) (ho : Safe S Q.length op) : Has S (op.apply files) Q := by
  intro g hg
  have hh := h g hg
  have hcl : (chunk S Q g).length = min S (Q.length - (g - 1) * S) := chunk_length _ _ _
  cases op with
  | create f =>
    simp only [Safe] at ho
    show _ <+: (Table.get g (Table.put f [] files)).getD []
    rw [Table.get_put]; split
    · rename_i hgf; subst hgf
      rw [chunk_nil (by omega)]; exact List.nil_prefix
    · exact hh
  | write f o b =>
    simp only [Safe] at ho
    show _ <+: (Table.get g (Table.put f _ files)).getD []
    rw [Table.get_put]; split
    · rename_i hgf; subst hgf
      simp only [Option.getD_some]
      exact prefix_over hh (by omega)
    · exact hh
  | remove f =>
    simp only [Safe] at ho
    show _ <+: (Table.get g (files.remove f)).getD []
    rw [get_remove]; split
    · rename_i hgf; subst hgf
      rw [chunk_nil (by omega)]; exact List.nil_prefix
    · exact hh
  | truncate f o =>
    simp only [Safe] at ho
    cases hgf : Table.get f files with
    | none => rw [truncate_none hgf]; exact hh
    | some d =>
      rw [truncate_some hgf]
      show _ <+: (Table.get g (Table.put f _ files)).getD []
      rw [Table.get_put]; split
      · rename_i hh2; subst hh2
        rw [hgf] at hh
        simp only [Option.getD_some] at hh ⊢
        exact prefix_trunc hh (by omega)
      · exact hh

theorem applyAll_append (fs : Files) (a b : List DiskOp) : applyAll fs (a ++ b) = applyAll (applyAll fs a) b := by
  unfold applyAll; rw [List.foldl_append]

theorem Has.applyAll {S : Nat} {Q : Bytes} : ∀ (ops : List DiskOp) {files : Files}, Has S files Q → (∀ op ∈ ops, Safe S Q.length op) →
    Has S (applyAll files ops) Q
  | [], _, h, _ => h
  | op :: ops, _, h, ho => Has.applyAll ops (h.apply (ho op (by simp))) (fun x hx => ho x (by simp [hx]))

theorem Sane.applyAll {S n : Nat} : ∀ (ops : List DiskOp) {files : Files}, Sane S files → (∀ op ∈ ops, Safe S n op) → Sane S (applyAll files ops)
  | [], _, h, _ => h
  | op :: ops, _, h, ho => Sane.applyAll ops (h.apply (ho op (by simp))) (fun x hx => ho x (by simp [hx]))

/-- Writing at the end of what is on disk makes it longer. -/
theorem Has.write {S : Nat} {files : Files} {Q : Bytes} {f o : Nat} {b : Bytes} (h : Has S files Q) (hf : 1 ≤ f) (hq : Q.length = (f - 1) * S + o)
    (ho : o + b.length ≤ S) : Has S (DiskOp.apply files (.write f o b)) (Q ++ b) := by
  have hm := mul_pred_add S f hf
  intro g hg
  show _ <+: (Table.get g (Table.put f _ files)).getD []
  rw [Table.get_put]; split
  · rename_i hgf; subst hgf
    have hh := h g hg
    simp only [Option.getD_some]
    have hcl : (chunk S Q g).length = o := by rw [chunk_length]; omega
    have e : chunk S (Q ++ b) g = chunk S Q g ++ b := by
      unfold chunk
      rw [List.drop_append, show (g - 1) * S - Q.length = 0 by omega, List.drop_zero, List.take_append, List.length_drop]
      congr 1
      exact List.take_of_length_le (by omega)
    rw [e]
    obtain ⟨r, hr⟩ := hh
    unfold over
    rw [← hr, List.take_append, List.take_of_length_le (by omega : (chunk S Q g).length ≤ o)]
    rw [show o - (chunk S Q g).length = 0 by omega, List.take_zero, List.append_nil]
    rw [show o - (chunk S Q g ++ r).length = 0 by rw [List.length_append]; omega]
    simp only [List.replicate_zero, List.append_nil]
    exact List.prefix_append _ _
  · rename_i hgf
    rcases Nat.lt_or_gt_of_ne hgf with hlt | hgt
    · have := Nat.mul_le_mul_right S (show g ≤ f - 1 by omega)
      rw [chunk_append hg (by omega)]; exact h g hg
    · have := Nat.mul_le_mul_right S (show f ≤ g - 1 by omega)
      rw [chunk_nil (by rw [List.length_append]; omega)]; exact List.nil_prefix

theorem Has.take {S : Nat} {files : Files} {Q : Bytes} (h : Has S files Q) (n : Nat) : Has S files (Q.take n) := by
  intro f hf
  rw [chunk_take]
  exact List.IsPrefix.trans (List.take_prefix _ _) (h f hf)

/-- A full file on disk is the chunk. -/
theorem Has.full {S : Nat} {files : Files} {Q : Bytes} (h : Has S files Q) (hs : Sane S files) (hS : 0 < S) {f : Nat} (hf : 1 ≤ f) (hq : f * S ≤ Q.length) :
    Table.get f files = some (chunk S Q f) := by
  have hm := mul_pred_add S f hf
  have h1 := h f hf
  have h2 := hs.2 f
  have hcl : (chunk S Q f).length = S := by rw [chunk_length]; omega
  unfold len at h2
  cases hg : Table.get f files with
  | none => rw [hg] at h1; simp only [Option.getD_none] at h1; rw [List.prefix_nil] at h1; rw [h1] at hcl; simp at hcl; omega
  | some d =>
    rw [hg] at h1 h2
    simp only [Option.getD_some] at h1 h2
    rw [h1.eq_of_length (by have := h1.length_le; omega)]

theorem Has.exists {S : Nat} {files : Files} {Q : Bytes} (h : Has S files Q) {f : Nat} (hf : 1 ≤ f) (hS : 0 < S) (hq : (f - 1) * S < Q.length) :
    ∃ d, Table.get f files = some d ∧ chunk S Q f <+: d := by
  have h1 := h f hf
  have hcl : (chunk S Q f).length = min S (Q.length - (f - 1) * S) := chunk_length _ _ _
  cases hg : Table.get f files with
  | none => rw [hg] at h1; simp only [Option.getD_none] at h1; rw [List.prefix_nil] at h1; rw [h1] at hcl; simp at hcl; omega
  | some d => rw [hg] at h1; exact ⟨d, rfl, h1⟩

end Verif.Store
