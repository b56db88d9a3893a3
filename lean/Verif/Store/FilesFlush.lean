import Verif.Store.FilesDisk

namespace Verif.Store
open Verif.Bytes

/-! ### Flushing -/

/-- An operation that makes no file reach over `t`. -/
def Within (t : Loc) : DiskOp → Prop
  | .create f => f ≤ t.file
  | .write f o b => f ≤ t.file ∧ (f = t.file → o + b.length ≤ t.off)
  | .remove _ => True
  | .truncate _ _ => False

/-- No file reaches over `t`. -/
def Upto (files : Files) (t : Loc) : Prop := (∀ g, t.file < g → Table.get g files = none) ∧ len files t.file ≤ t.off

theorem ends_iff {S : Nat} {files : Files} {t : Loc} : Ends S files t ↔ Sane S files ∧ Upto files t := by
  unfold Ends Sane Upto len; tauto

theorem Upto.apply {files : Files} {t : Loc} {op : DiskOp} (h : Upto files t) (ho : Within t op) : Upto (op.apply files) t := by
  obtain ⟨h1, h2⟩ := h
  cases op with
  | create f =>
    simp only [Within] at ho
    refine ⟨fun g hg => ?_, ?_⟩
    · show Table.get g (Table.put f [] files) = none
      rw [Table.get_put, if_neg (by omega)]; exact h1 g hg
    · show ((Table.get t.file (Table.put f [] files)).getD []).length ≤ t.off
      rw [Table.get_put]; split
      · simp
      · exact h2
  | write f o b =>
    simp only [Within] at ho
    refine ⟨fun g hg => ?_, ?_⟩
    · show Table.get g (Table.put f _ files) = none
      rw [Table.get_put, if_neg (by omega)]; exact h1 g hg
    · show ((Table.get t.file (Table.put f _ files)).getD []).length ≤ t.off
      rw [Table.get_put]; split
      · rename_i hf
        have h3 := ho.2 hf.symm
        rw [hf] at h2
        simp only [Option.getD_some]
        rw [over_length]
        unfold len at h2
        omega
      · exact h2
  | remove f =>
    refine ⟨fun g hg => ?_, ?_⟩
    · show Table.get g (files.remove f) = none
      rw [get_remove]; split
      · rfl
      · exact h1 g hg
    · show ((Table.get t.file (files.remove f)).getD []).length ≤ t.off
      rw [get_remove]; split
      · simp
      · exact h2
  | truncate f o => exact absurd ho (by simp [Within])

theorem Upto.applyAll {t : Loc} : ∀ (ops : List DiskOp) {files : Files}, Upto files t → (∀ op ∈ ops, Within t op) → Upto (applyAll files ops) t
  | [], _, h, _ => h
  | op :: ops, _, h, ho => Upto.applyAll ops (h.apply (ho op (by simp))) (fun x hx => ho x (by simp [hx]))

/-- An operation that makes no file with a number over `m`. -/
def Low (m : Nat) : DiskOp → Prop
  | .create f => f ≤ m
  | .write f _ _ => f ≤ m
  | .remove _ => True
  | .truncate _ _ => True

theorem Within.low {t : Loc} {op : DiskOp} (h : Within t op) {m : Nat} (hm : t.file ≤ m) : Low m op := by
  cases op <;> simp only [Within, Low] at * <;> omega

theorem none_above {m : Nat} {files : Files} {op : DiskOp} (h : ∀ g, m < g → Table.get g files = none) (ho : Low m op) :
    ∀ g, m < g → Table.get g (op.apply files) = none := by
  intro g hg
  cases op with
  | create f =>
    simp only [Low] at ho
    show Table.get g (Table.put f [] files) = none
    rw [Table.get_put, if_neg (by omega)]; exact h g hg
  | write f o b =>
    simp only [Low] at ho
    show Table.get g (Table.put f _ files) = none
    rw [Table.get_put, if_neg (by omega)]; exact h g hg
  | remove f =>
    show Table.get g (files.remove f) = none
    rw [get_remove]; split
    · rfl
    · exact h g hg
  | truncate f o =>
    cases hgf : Table.get f files with
    | none => rw [truncate_none hgf]; exact h g hg
    | some d =>
      rw [truncate_some hgf, Table.get_put]
      split
      · rename_i hh; rw [← hh, h g hg] at hgf; simp at hgf
      · exact h g hg

theorem none_above_all {m : Nat} : ∀ (ops : List DiskOp) {files : Files}, (∀ g, m < g → Table.get g files = none) → (∀ op ∈ ops, Low m op) →
    ∀ g, m < g → Table.get g (applyAll files ops) = none
  | [], _, h, _ => h
  | op :: ops, _, h, ho => none_above_all ops (none_above h (ho op (by simp))) (fun x hx => ho x (by simp [hx]))

theorem Cached.setWriter {S L} (f : Nat) : ∀ {a : Nat} {c : List Item}, Cached S L a c →
    Cached S L a (c.map (fun x => if x.id == f then { x with writer := true } else x))
  | _, [], _ => trivial
  | a, it :: c, h => by
    refine ⟨?_, ?_, Cached.setWriter f h.2.2⟩
    · simp only; split <;> exact h.1
    · simp only; split <;> exact h.2.1

theorem latest_eq {S L a} {fm fm' : FM} (h : Mem S fm.cache L a) (h' : Mem S fm'.cache L a) (hl : fm'.cache.length = fm.cache.length) :
    fm'.latest = fm.latest := by
  have h1 := h.latest (next := fm.next) (prev := fm.prev)
  have h2 := h'.latest (next := fm'.next) (prev := fm'.prev)
  change fm.latest.file = _ ∧ fm.latest.off = _ ∧ _ at h1
  change fm'.latest.file = _ ∧ fm'.latest.off = _ ∧ _ at h2
  rw [hl] at h2
  cases hx : fm.latest; cases hy : fm'.latest
  rw [hx] at h1; rw [hy] at h2
  simp only at h1 h2
  simp only [Loc.mk.injEq]
  exact ⟨h2.1.trans h1.1.symm, h2.2.1.trans h1.2.1.symm⟩

theorem flushFd_spec {S L a} {fm : FM} {files : Files} (h : Mem S fm.cache L a) (f o : Nat) (hf : a ≤ f)
    (hw : ∀ it ∈ fm.cache, it.id = f → it.writer = false → o = 0) (hn : Table.get f files = none → o = 0) :
    ∃ fm' pre, fm.flushFd files f = some (fm', pre) ∧ Mem S fm'.cache L a ∧ fm'.next = fm.next ∧ fm'.prev = fm.prev ∧
      fm'.latest = fm.latest ∧ (pre = [] ∨ (pre = [.create f] ∧ o = 0)) ∧
      ∀ it ∈ fm'.cache, it.writer = false → it.id ≠ f ∧ ∃ it0 ∈ fm.cache, it0.id = it.id ∧ it0.writer = false := by
  have hl := (h.latest (next := fm.next) (prev := fm.prev)).1
  change fm.latest.file = _ at hl
  unfold FM.flushFd
  by_cases hlt : fm.latest.file < f
  · rw [if_pos hlt]
    refine ⟨fm, _, rfl, h, rfl, rfl, rfl, ?_, ?_⟩
    · cases hg : Table.get f files with
      | none => right; exact ⟨by simp, hn hg⟩
      | some d => left; simp
    · intro it hm hwf
      have := h.cached.ids it hm
      exact ⟨by omega, it, hm, rfl, hwf⟩
  · rw [if_neg hlt]
    have hne : fm.cache.length ≠ 0 := fun hh => h.ne (List.length_eq_zero_iff.mp hh)
    obtain ⟨it, h1, h2, h3, _⟩ := h.cached.find f hf (by omega)
    rw [h1]
    simp only
    cases hwt : it.writer with
    | true =>
      simp only [if_true]
      refine ⟨fm, [], rfl, h, rfl, rfl, rfl, Or.inl rfl, fun x hx hxw => ⟨?_, x, hx, rfl, hxw⟩⟩
      intro hxf
      -- both have number `f`: the numbers are distinct
      have hx' : ∀ {a : Nat} {c : List Item}, Cached S L a c → x ∈ c → c.find? (fun it => it.id == f) = some x := by
        intro a c
        induction c generalizing a with
        | nil => intro _ hm; simp at hm
        | cons y c ih =>
          intro hc hm
          rcases List.mem_cons.mp hm with rfl | hm
          · rw [List.find?_cons_of_pos (by simp [hxf])]
          · have hi := hc.2.2.ids x hm
            rw [List.find?_cons_of_neg (by have := hc.1; simp; omega)]
            exact ih hc.2.2 hm
      have := hx' h.cached hx
      rw [h1] at this
      injection this with this
      rw [this, hxw] at hwt; simp at hwt
    | false =>
      simp only [Bool.false_eq_true, if_false]
      have hm' : Mem S (fm.cache.map (fun x => if x.id == f then { x with writer := true } else x)) L a :=
        ⟨h.pos, by simpa using h.ne, h.cached.setWriter f, by rw [List.length_map]; exact h.lo, by rw [List.length_map]; exact h.hi⟩
      refine ⟨_, _, rfl, hm', rfl, rfl, latest_eq h hm' (by simp), Or.inr ⟨rfl, hw it h2 h3 hwt⟩, ?_⟩
      intro x hx hxw
      obtain ⟨y, hy, rfl⟩ := List.mem_map.mp hx
      by_cases hyf : y.id = f
      · rw [if_pos (by simpa using hyf)] at hxw; simp at hxw
      · rw [if_neg (by simpa using hyf)] at hxw ⊢
        exact ⟨hyf, y, hy, rfl, hxw⟩

theorem flushLoop_spec {S : Nat} (hS : 0 < S) {t : Loc} (ht : Valid S t) {L : Bytes} {a : Nat} : ∀ (n : Nat) (c : Loc) (buf : Bytes) (fm : FM)
    (files : Files) (R : Bytes), Mem S fm.cache L a → a ≤ c.file → (∀ it ∈ fm.cache, it.id = c.file → it.writer = false → c.off = 0) →
    Has S files R → R.length = pos S c → Valid S c → pos S c ≤ pos S t → buf.length = pos S t - pos S c → n = t.file + 1 - c.file →
    ∃ fm' ops, FM.flushLoop S t n c buf fm files = some (fm', ops) ∧ Has S (applyAll files ops) (R ++ buf) ∧
      (∀ op ∈ ops, Safe S R.length op) ∧ (∀ op ∈ ops, Within t op) ∧ Mem S fm'.cache L a ∧ fm'.next = fm.next ∧ fm'.prev = fm.prev ∧
      fm'.latest = fm.latest ∧
      ∀ it ∈ fm'.cache, it.writer = false → (∃ it0 ∈ fm.cache, it0.id = it.id ∧ it0.writer = false) ∧
        (it.id < c.file ∨ Before t it.id ∨ c.lt t = false)
  | n, c, buf, fm, files, R, hm, hac, hw, hh, hR, hc, hp, hb, hn => by
    by_cases hlt : c.lt t = true
    · have hlt' := lt_iff.mp hlt
      have hpc : pos S c = (c.file - 1) * S + c.off := rfl
      have hpt : pos S t = (t.file - 1) * S + t.off := rfl
      have hmc := mul_pred_add S c.file hc.1
      cases n with
      | zero => omega
      | succ n =>
        unfold FM.flushLoop
        rw [hlt]
        simp only [Bool.not_true, Bool.false_eq_true, if_false]
        generalize hfin : (if c.file = t.file then t.off else S) = fin
        -- the end of this round
        have hfinS : fin ≤ S := by rw [← hfin]; split; exact ht.2; exact Nat.le_refl _
        have hcf : c.off ≤ fin := by
          rw [← hfin]; split
          · omega
          · exact hc.2
        have hend : (c.file - 1) * S + fin ≤ pos S t := by
          rw [← hfin]; split
          · rename_i he; rw [hpt, he]
          · have := Nat.mul_le_mul_right S (show c.file ≤ t.file - 1 by omega); omega
        rw [if_neg (by omega)]
        obtain ⟨fm1, pre, g1, g2, g3, g4, g5, g6, g7⟩ := flushFd_spec (files := files) hm c.file c.off hac hw (fun hg => by
          by_cases h0 : c.off = 0
          · exact h0
          · obtain ⟨d, hd, _⟩ := hh.exists hc.1 hS (by omega)
            rw [hg] at hd; simp at hd)
        rw [g1]
        simp only
        have hpreS : ∀ op ∈ pre, Safe S R.length op := by
          intro op hop
          rcases g6 with rfl | ⟨rfl, h0⟩
          · simp at hop
          · simp only [List.mem_singleton] at hop; subst hop
            exact ⟨hc.1, by omega⟩
        have hpreW : ∀ op ∈ pre, Within t op := by
          intro op hop
          rcases g6 with rfl | ⟨rfl, h0⟩
          · simp at hop
          · simp only [List.mem_singleton] at hop; subst hop
            show c.file ≤ t.file; omega
        have htl : (buf.take (fin - c.off)).length = fin - c.off := by rw [List.length_take]; omega
        have hwS : Safe S R.length (.write c.file c.off (buf.take (fin - c.off))) := ⟨hc.1, by omega, by rw [htl]; omega⟩
        have hwW : Within t (.write c.file c.off (buf.take (fin - c.off))) := by
          refine ⟨by omega, fun he => ?_⟩
          rw [htl, ← hfin, if_pos he] at *; omega
        have hh1 : Has S (applyAll files (pre ++ [.write c.file c.off (buf.take (fin - c.off))])) (R ++ buf.take (fin - c.off)) := by
          rw [applyAll_append]
          exact (hh.applyAll pre hpreS).write hc.1 (by omega) (by rw [htl]; omega)
        generalize hloc : (if S ≤ fin then (⟨c.file + 1, 0⟩ : Loc) else ⟨c.file, fin⟩) = loc'
        have hlocf : loc'.file = c.file + 1 ∧ loc'.off = 0 ∧ fin = S ∨ loc'.file = c.file ∧ loc'.off = fin ∧ fin < S := by
          rw [← hloc]; split
          · exact Or.inl ⟨rfl, rfl, by omega⟩
          · exact Or.inr ⟨rfl, rfl, by omega⟩
        have hlocp : pos S loc' = (c.file - 1) * S + fin := by
          have hpl : pos S loc' = (loc'.file - 1) * S + loc'.off := rfl
          rcases hlocf with ⟨h1, h2, h3⟩ | ⟨h1, h2, h3⟩
          · rw [hpl, h1, h2]; simp only [Nat.add_sub_cancel]; omega
          · rw [hpl, h1, h2]
        have hlocV : Valid S loc' := by
          unfold Valid
          have := hc.1
          omega
        -- a file of the same number is at its target
        have hsame : loc'.file = c.file → c.file = t.file ∧ loc' = t := by
          intro he
          rcases hlocf with ⟨h1, _, _⟩ | ⟨h1, h2, h3⟩
          · omega
          · have hct : c.file = t.file := by
              by_contra hne
              rw [if_neg hne] at hfin; omega
            refine ⟨hct, ?_⟩
            rw [if_pos hct] at hfin
            cases loc'; cases t
            simp only at *
            simp only [Loc.mk.injEq]; omega
        by_cases hs : loc'.file = c.file
        · obtain ⟨hct, hlt2⟩ := hsame hs
          subst hlt2
          have hn0 : n = 0 := by omega
          subst hn0
          have hself : loc'.lt loc' = false := by rw [lt_false_iff]; omega
          refine ⟨fm1, pre ++ [.write c.file c.off (buf.take (fin - c.off))], ?_, ?_, ?_, ?_, g2, g3, g4, g5, ?_⟩
          · unfold FM.flushLoop; rw [hself]; simp only [Bool.false_eq_true, if_false, Option.map_some, List.append_nil]
          · have : buf.take (fin - c.off) = buf := List.take_of_length_le (by omega)
            rw [this] at hh1 ⊢; exact hh1
          · intro op hop
            rcases List.mem_append.mp hop with hop | hop
            · exact hpreS op hop
            · simp only [List.mem_singleton] at hop; subst hop; exact hwS
          · intro op hop
            rcases List.mem_append.mp hop with hop | hop
            · exact hpreW op hop
            · simp only [List.mem_singleton] at hop; subst hop; exact hwW
          · intro it hit hwf
            obtain ⟨k1, k2⟩ := g7 it hit hwf
            refine ⟨k2, ?_⟩
            unfold Before
            omega
        · have hs' : loc'.file = c.file + 1 ∧ loc'.off = 0 ∧ fin = S := by omega
          obtain ⟨fm2, ops, k1, k2, k3, k4, k5, k6, k7, k8, k9⟩ := flushLoop_spec hS ht n loc' (buf.drop (fin - c.off)) fm1
            (applyAll files (pre ++ [.write c.file c.off (buf.take (fin - c.off))])) (R ++ buf.take (fin - c.off)) g2 (by omega)
            (fun _ _ _ _ => hs'.2.1) hh1 (by rw [List.length_append, htl]; omega) hlocV (by omega) (by rw [List.length_drop]; omega) (by omega)
          refine ⟨fm2, pre ++ [.write c.file c.off (buf.take (fin - c.off))] ++ ops, ?_, ?_, ?_, ?_, k5, by rw [k6, g3], by rw [k7, g4], by rw [k8, g5], ?_⟩
          · rw [k1]; rfl
          · rw [applyAll_append]
            rw [List.append_assoc, List.take_append_drop] at k2
            exact k2
          · intro op hop
            rcases List.mem_append.mp hop with hop | hop
            · rcases List.mem_append.mp hop with hop | hop
              · exact hpreS op hop
              · simp only [List.mem_singleton] at hop; subst hop; exact hwS
            · exact (k3 op hop).mono (by rw [List.length_append]; omega)
          · intro op hop
            rcases List.mem_append.mp hop with hop | hop
            · rcases List.mem_append.mp hop with hop | hop
              · exact hpreW op hop
              · simp only [List.mem_singleton] at hop; subst hop; exact hwW
            · exact k4 op hop
          · intro it hit hwf
            obtain ⟨⟨it0, j1, j2, j3⟩, j4⟩ := k9 it hit hwf
            obtain ⟨i1, it00, i2, i3, i4⟩ := g7 it0 j1 j3
            refine ⟨⟨it00, i2, by omega, i4⟩, ?_⟩
            rw [lt_false_iff] at j4
            unfold Before at *
            omega
    · have hlf : c.lt t = false := by simpa using hlt
      have hle := pos_le_of_not_lt hc ht hlf
      have hbn : buf = [] := List.length_eq_zero_iff.mp (by omega)
      subst hbn
      refine ⟨fm, [], ?_, ?_, by simp, by simp, hm, rfl, rfl, rfl, fun it hit hwf => ⟨⟨it, hit, rfl, hwf⟩, Or.inr (Or.inr hlf)⟩⟩
      · cases n <;> simp [FM.flushLoop, hlf]
      · simpa [applyAll] using hh

theorem get_removes (g : Nat) : ∀ (l : List Nat) (fs : Files),
    Table.get g (applyAll fs (l.map DiskOp.remove)) = if g ∈ l then none else Table.get g fs
  | [], fs => by simp [applyAll]
  | f :: l, fs => by
    rw [List.map_cons]
    show Table.get g (applyAll (fs.remove f) (l.map DiskOp.remove)) = _
    rw [get_removes g l, get_remove]
    by_cases h1 : g ∈ l
    · simp [h1]
    · by_cases h2 : g = f
      · simp [h2]
      · simp [h1, h2]

theorem diskDelete_upto {files : Files} {high low : Loc} (hh : ∀ g, high.file < g → Table.get g files = none) :
    Upto (applyAll files (diskDelete high low)) low := by
  unfold diskDelete
  rw [applyAll_append]
  have e : (List.range (high.file - low.file)).map (fun i => DiskOp.remove (high.file - i)) =
      ((List.range (high.file - low.file)).map (fun i => high.file - i)).map DiskOp.remove := by rw [List.map_map]; rfl
  rw [e]
  generalize hfs : applyAll files (((List.range (high.file - low.file)).map (fun i => high.file - i)).map DiskOp.remove) = fs
  have hn : ∀ g, low.file < g → Table.get g fs = none := by
    intro g hg
    rw [← hfs, get_removes]
    split
    · rfl
    · rename_i hni
      apply hh
      by_contra hc
      apply hni
      rw [List.mem_map]
      exact ⟨high.file - g, by rw [List.mem_range]; omega, by omega⟩
  show Upto (DiskOp.apply fs (.truncate low.file low.off)) low
  cases hg : Table.get low.file fs with
  | none =>
    rw [truncate_none hg]
    exact ⟨hn, by unfold len; rw [hg]; simp⟩
  | some d =>
    rw [truncate_some hg]
    refine ⟨fun g hlg => ?_, ?_⟩
    · rw [Table.get_put, if_neg (by omega)]; exact hn g hlg
    · unfold len
      rw [Table.get_put, if_pos rfl]
      simp only [Option.getD_some, List.length_append, List.length_take, List.length_replicate]
      omega

theorem diskDelete_safe {S : Nat} {high low : Loc} (hl : Valid S low) : ∀ op ∈ diskDelete high low, Safe S (pos S low) op := by
  intro op hop
  have hm := mul_pred_add S low.file hl.1
  have hpl : pos S low = (low.file - 1) * S + low.off := rfl
  unfold diskDelete at hop
  rcases List.mem_append.mp hop with hop | hop
  · obtain ⟨i, hi, rfl⟩ := List.mem_map.mp hop
    rw [List.mem_range] at hi
    have := Nat.mul_le_mul_right S (show low.file ≤ high.file - i - 1 by omega)
    have := hl.2
    exact ⟨by omega, by omega⟩
  · simp only [List.mem_singleton] at hop
    subst hop
    exact ⟨hl.1, by omega, hl.2⟩

theorem diskDelete_low {high low : Loc} (m : Nat) : ∀ op ∈ diskDelete high low, Low m op := by
  intro op hop
  unfold diskDelete at hop
  rcases List.mem_append.mp hop with hop | hop
  · obtain ⟨i, hi, rfl⟩ := List.mem_map.mp hop; trivial
  · simp only [List.mem_singleton] at hop
    subst hop; trivial

/-- **Flushing** from `s` to `t` puts the bytes on disk after those before `s`, ends the disk at `t`, and never touches the bytes
before `s`. -/
theorem flush_spec {S : Nat} (hS : 0 < S) {s t : Loc} {L : Bytes} {a : Nat} {buf : Bytes} {fm : FM} {files : Files} {R : Bytes}
    (hs : Valid S s) (ht : Valid S t) (hst : t.lt s = false) (hm : Mem S fm.cache L a) (ha : a ≤ s.file)
    (hw : ∀ it ∈ fm.cache, it.id = s.file → it.writer = false → s.off = 0)
    (hh : Has S files R) (hR : R.length = pos S s) (he : Ends S files fm.prev) (hb : buf.length = pos S t - pos S s) :
    ∃ fm' ops, fm.flush S files s t buf = some (fm', ops) ∧ Has S (applyAll files ops) (R ++ buf) ∧ Ends S (applyAll files ops) t ∧
      (∀ op ∈ ops, Safe S R.length op) ∧ (∀ op ∈ ops, Low t.file op) ∧ Mem S fm'.cache L a ∧ fm'.next = fm.next ∧ fm'.prev = t ∧
      fm'.latest = fm.latest ∧
      ∀ it ∈ fm'.cache, it.writer = false → (∃ it0 ∈ fm.cache, it0.id = it.id ∧ it0.writer = false) ∧
        (it.id < s.file ∨ Before t it.id) := by
  have hle := pos_le_of_not_lt ht hs hst
  rw [ends_iff] at he
  obtain ⟨fm1, ops, k1, k2, k3, k4, k5, k6, k7, k8, k9⟩ := flushLoop_spec hS ht (t.file + 1 - s.file) s buf fm files R hm ha hw hh hR hs hle hb rfl
  unfold FM.flush
  rw [k1]
  simp only [Option.map_some]
  have hRl : (R ++ buf).length = pos S t := by rw [List.length_append]; omega
  have hk9 : ∀ it ∈ fm1.cache, it.writer = false → (∃ it0 ∈ fm.cache, it0.id = it.id ∧ it0.writer = false) ∧
        (it.id < s.file ∨ Before t it.id) := by
    intro it hit hwf
    obtain ⟨j1, j2⟩ := k9 it hit hwf
    refine ⟨j1, ?_⟩
    rcases j2 with j2 | j2 | j2
    · exact Or.inl j2
    · exact Or.inr j2
    · rw [lt_false_iff] at j2 hst
      obtain ⟨it0, i1, i2, i3⟩ := j1
      by_cases hid : it.id = s.file
      · have := hw it0 i1 (by omega) i3
        right; unfold Before; omega
      · unfold Before; omega
  by_cases hlt : t.lt fm1.prev = true
  · rw [if_pos hlt]
    have hlt' := lt_iff.mp hlt
    rw [k7] at hlt'
    have hd := diskDelete_safe (S := S) (high := fm1.prev) ht
    have hall : ∀ op ∈ ops ++ diskDelete fm1.prev t, Safe S R.length op := by
      intro op hop
      rcases List.mem_append.mp hop with hop | hop
      · exact k3 op hop
      · exact (hd op hop).mono (by omega)
    refine ⟨_, _, rfl, ?_, ?_, hall, ?_, k5, k6, rfl, ?_, hk9⟩
    · rw [applyAll_append]
      exact k2.applyAll _ (by rw [hRl]; exact hd)
    · rw [ends_iff]
      refine ⟨he.1.applyAll _ hall, ?_⟩
      rw [applyAll_append]
      apply diskDelete_upto
      rw [k7]
      exact none_above_all ops he.2.1 (fun op hop => (k4 op hop).low (by omega))
    · intro op hop
      rcases List.mem_append.mp hop with hop | hop
      · exact (k4 op hop).low (Nat.le_refl _)
      · exact diskDelete_low _ op hop
    · exact k8
  · rw [if_neg hlt]
    have hlf : t.lt fm1.prev = false := by simpa using hlt
    rw [k7, lt_false_iff] at hlf
    refine ⟨_, _, rfl, by simpa using k2, ?_, by simpa using k3, fun op hop => (k4 op (by simpa using hop)).low (Nat.le_refl _), k5, k6, rfl, k8, hk9⟩
    rw [List.append_nil, ends_iff]
    refine ⟨he.1.applyAll _ k3, Upto.applyAll ops ?_ k4⟩
    refine ⟨fun g hg => he.2.1 g (by omega), ?_⟩
    rcases hlf with hlf | ⟨h1, h2⟩
    · unfold len; rw [he.2.1 _ hlf]; simp
    · rw [h1]; exact Nat.le_trans he.2.2 h2

end Verif.Store
