import Verif.Store.FilesLemmas

namespace Verif.Store
open Verif.Bytes

/-- The start of file `id` is not before `base`. -/
def Before (base : Loc) (id : Nat) : Prop := base.file < id ∨ (base.file = id ∧ base.off = 0)

/-- The files in memory that have not been created on disk since they are in memory have numbers that satisfy `Q`. -/
def Wr (Q : Nat → Prop) (cache : List Item) : Prop := ∀ it ∈ cache, it.writer = false → Q it.id

theorem Wr.mono {Q Q' : Nat → Prop} {c : List Item} (h : Wr Q c) (hb : ∀ id, Q id → Q' id) : Wr Q' c :=
  fun it hm hw => hb _ (h it hm hw)

theorem Before.mono {b b' : Loc} (hb : b.lt b' = false) {id : Nat} (h : Before b id) : Before b' id := by
  rw [lt_false_iff] at hb
  unfold Before at *; omega

theorem Wr.sub {Q : Nat → Prop} {c d : List Item} (h : Wr Q c) (hd : ∀ it ∈ d, ∃ it' ∈ c, it'.id = it.id ∧ it'.writer = it.writer) : Wr Q d := by
  intro it hm hw
  obtain ⟨x, h1, h2, h3⟩ := hd it hm
  rw [← h2]; exact h x h1 (by rw [h3]; exact hw)

theorem Cached.drop {S L} : ∀ {a : Nat} {c : List Item} (j : Nat), Cached S L a c → Cached S L (a + j) (c.drop j)
  | a, c, 0, h => by simpa using h
  | a, [], j + 1, _ => by simp [Cached]
  | a, it :: c, j + 1, h => by
    rw [List.drop_succ_cons, show a + (j + 1) = a + 1 + j by omega]
    exact Cached.drop j h.2.2

theorem dropStale_spec {S L} (cap nf : Nat) : ∀ {a : Nat} {c : List Item}, Cached S L a c →
    ∃ j, dropStale cap nf c = c.drop j ∧ j ≤ c.length ∧ (j = 0 ∨ a + j ≤ nf ∧ cap + j ≤ c.length)
  | _, [], _ => ⟨0, rfl, by simp, Or.inl rfl⟩
  | a, it :: c, h => by
    unfold dropStale
    by_cases hc : cap < c.length + 1 ∧ it.id < nf
    · rw [if_pos hc]
      obtain ⟨j, h1, h2, h3⟩ := dropStale_spec cap nf h.2.2
      have := h.1
      exact ⟨j + 1, by rw [h1]; rfl, by simp; omega, Or.inr (by rw [List.length_cons]; omega)⟩
    · rw [if_neg hc]; exact ⟨0, rfl, by simp, Or.inl rfl⟩

theorem evict_spec {S L} (cap nf : Nat) {a : Nat} {c : List Item} (h : Cached S L a c) :
    ∃ j, evict cap nf c = c.drop j ∧ j ≤ c.length ∧ (j = 0 ∨ a + j ≤ nf ∧ cap + j ≤ c.length + 1) := by
  obtain ⟨j, h1, h2, h3⟩ := dropStale_spec cap nf h
  unfold evict
  rw [h1]
  have hd := h.drop j
  cases hc : c.drop j with
  | nil => exact ⟨j, by simp [hc], h2, by omega⟩
  | cons it rest =>
    rw [hc] at hd
    have hl : j + (rest.length + 1) = c.length := by
      have := congrArg List.length hc
      rw [List.length_drop, List.length_cons] at this
      omega
    simp only
    by_cases hcc : cap ≤ rest.length + 1 ∧ it.id < nf
    · rw [if_pos hcc]
      refine ⟨j + 1, ?_, by omega, Or.inr (by have := hd.1; omega)⟩
      rw [← List.drop_drop, hc]; rfl
    · rw [if_neg hcc]; exact ⟨j, hc.symm, h2, by omega⟩

theorem fill_spec {S L a} {fm : FM} (h : Mem S fm.cache L a) (buf : Bytes) :
    ∃ fm', fm.fill S buf = (fm', min (S - fm.latest.off) buf.length) ∧ Mem S fm'.cache (L ++ buf.take (S - fm.latest.off)) a ∧
      fm'.next = fm.next ∧ fm'.prev = fm.prev ∧ fm'.latest.file = fm.latest.file ∧
      fm'.latest.off = fm.latest.off + min (S - fm.latest.off) buf.length ∧ (∀ base : Nat → Prop, Wr base fm.cache → Wr base fm'.cache) := by
  obtain ⟨pre, it, hc, hid, hd, hpre, hl, hdl⟩ := h.split
  have hlt : fm.latest = ⟨it.id, it.data.length⟩ := by unfold FM.latest; rw [hl]
  have hlen : fm.cache.length = pre.length + 1 := by rw [hc]; simp
  have hlo := h.lo
  have hhi := h.hi
  rw [hlen] at hlo hhi
  rw [show a + (pre.length + 1) - 2 = a + pre.length - 1 by omega] at hlo
  rw [show a + (pre.length + 1) - 1 = a + pre.length by omega] at hhi
  have hpos := h.pos
  have hm := mul_pred_add S (a + pre.length) (by omega)
  have hdlen : it.data.length = L.length - (a + pre.length - 1) * S := by rw [hd, List.length_drop]
  rw [hlt]
  simp only
  unfold FM.fill
  rw [hl]
  simp only
  by_cases hfull : S ≤ it.data.length
  · rw [if_pos hfull]
    refine ⟨fm, ?_, ?_, rfl, rfl, by rw [hlt], by rw [hlt]; simp only; omega, fun _ h => h⟩
    · rw [show S - it.data.length = 0 by omega]; simp
    · rw [show S - it.data.length = 0 by omega]; simpa using h
  · rw [if_neg hfull]
    refine ⟨_, rfl, ?_, rfl, rfl, ?_, ?_, ?_⟩
    · simp only
      rw [hdl]
      have hlen' : (pre ++ [{ it with data := it.data ++ buf.take (S - it.data.length) }]).length = pre.length + 1 := by simp
      refine ⟨h.pos, by simp, ?_, ?_, ?_⟩
      · rw [Cached.append]
        refine ⟨hpre.congr (fun f h1 h2 => ?_), hid, ?_, trivial⟩
        · have h3 := Nat.mul_le_mul_right S (show f ≤ a + pre.length - 1 by omega)
          rw [chunk_append (by omega) (by omega)]
        · show it.data ++ _ = _
          unfold chunk
          rw [List.drop_append, hd]
          rw [show (a + pre.length - 1) * S - L.length = 0 by omega, List.drop_zero]
          refine (List.take_of_length_le (i := S) ?_).symm
          rw [List.length_append, List.length_drop, List.length_take]
          omega
      · rw [hlen', List.length_append]
        rw [show a + (pre.length + 1) - 2 = a + pre.length - 1 by omega]
        omega
      · rw [hlen', List.length_append, List.length_take]
        rw [show a + (pre.length + 1) - 1 = a + pre.length by omega]
        omega
    · unfold FM.latest; simp
    · unfold FM.latest; simp
    · intro base hw
      refine hw.sub (fun x hx => ?_)
      simp only [hdl] at hx
      rcases List.mem_append.mp hx with hx | hx
      · exact ⟨x, by rw [hc]; exact List.mem_append_left _ hx, rfl, rfl⟩
      · simp only [List.mem_singleton] at hx
        exact ⟨it, by rw [hc]; simp, by rw [hx], by rw [hx]⟩

theorem createNext_spec {S L a cap} {fm : FM} {files : Files} (h : Mem S fm.cache L a) (hfull : fm.latest.off = S) :
    ∃ fm' a', fm.createNext cap files = some fm' ∧ Mem S fm'.cache L a' ∧ a ≤ a' ∧ (a' = a ∨ a' ≤ fm.next.file ∧ a' + cap ≤ fm'.latest.file + 1) ∧ fm'.next = fm.next ∧
      fm'.prev = fm.prev ∧ fm'.latest = ⟨fm.latest.file + 1, 0⟩ ∧ (∀ base : Nat → Prop, (∀ id, fm.latest.file < id → base id) → Wr base fm.cache → Wr base fm'.cache) := by
  have hl := h.latest (next := fm.next) (prev := fm.prev)
  change fm.latest.file = _ ∧ fm.latest.off = _ ∧ pos S fm.latest = _ ∧ Valid S fm.latest at hl
  have hne : fm.cache.length ≠ 0 := fun hh => h.ne (List.length_eq_zero_iff.mp hh)
  have hpos := h.pos
  obtain ⟨j, hj1, hj2, hj3⟩ := evict_spec (S := S) (L := L) cap fm.next.file h.cached
  obtain ⟨pre, it, hc, hid, _, _, hgl, _⟩ := h.split
  have hlf : fm.latest.file = it.id := by unfold FM.latest; rw [hgl]
  unfold FM.createNext FM.openAt
  rw [if_neg (by rw [hgl]; simp; omega)]
  simp only
  rw [if_neg (by simp), hj1]
  refine ⟨_, a + j, rfl, ?_, by omega, ?_, rfl, rfl, ?_, ?_⟩
  rotate_left
  · have hx : FM.latest ⟨fm.cache.drop j ++ [(⟨fm.latest.file + 1, [], false⟩ : Item)], fm.next, fm.prev⟩ = ⟨fm.latest.file + 1, 0⟩ := by
      unfold FM.latest; simp
    rw [hx]
    simp only
    omega
  rotate_right
  · have hlen : (fm.cache.drop j ++ [(⟨fm.latest.file + 1, [], false⟩ : Item)]).length = fm.cache.length - j + 1 := by simp
    have hp := hl.2.2.1
    have hmp := mul_pred_add S fm.latest.file (by omega)
    have hLlen : L.length = fm.latest.file * S := by
      rw [← hp]; unfold pos; rw [hfull]; exact hmp
    refine ⟨by omega, by simp, ?_, ?_, ?_⟩
    · simp only
      rw [Cached.append]
      refine ⟨h.cached.drop j, by rw [List.length_drop]; simp only; omega, ?_, trivial⟩
      simp only
      rw [List.length_drop]
      rw [chunk_nil]
      rw [show a + j + (fm.cache.length - j) - 1 = fm.latest.file by omega, hLlen]
    · simp only; rw [hlen, show a + j + (fm.cache.length - j + 1) - 2 = fm.latest.file by omega, hLlen]
    · simp only; rw [hlen, show a + j + (fm.cache.length - j + 1) - 1 = fm.latest.file + 1 by omega, hLlen, Nat.add_mul]; omega
  · unfold FM.latest; simp
  · intro base hb hw x hx hxw
    simp only at hx
    rcases List.mem_append.mp hx with hx | hx
    · exact hw x (List.mem_of_mem_drop hx) hxw
    · simp only [List.mem_singleton] at hx
      rw [hx]; exact hb _ (by simp only; omega)

theorem writeLoop_spec {S cap : Nat} {files : Files} (hS : 0 < S) : ∀ (n : Nat) (fm : FM) (buf L : Bytes) (a : Nat), Mem S fm.cache L a →
    buf.length + (if fm.latest.off = S then 1 else 0) ≤ n →
    ∃ fm' a', fm.writeLoop S cap files n buf = some fm' ∧ Mem S fm'.cache (L ++ buf) a' ∧ a ≤ a' ∧ (a' = a ∨ a' ≤ fm.next.file ∧ a' + cap ≤ fm'.latest.file + 1) ∧
      fm'.next = fm.next ∧ fm'.prev = fm.prev ∧ (∀ base : Nat → Prop, (∀ id, fm.latest.file < id → base id) → Wr base fm.cache → Wr base fm'.cache) ∧
      fm'.latest.lt fm.latest = false
  | 0, fm, buf, L, a, h, hn => by
    have : buf = [] := List.length_eq_zero_iff.mp (by omega)
    subst this
    exact ⟨fm, a, by simp [FM.writeLoop], by simpa using h, Nat.le_refl _, Or.inl rfl, rfl, rfl, fun _ _ h => h, by rw [lt_false_iff]; omega⟩
  | n + 1, fm, buf, L, a, h, hn => by
    unfold FM.writeLoop
    by_cases hb : buf = []
    · subst hb
      exact ⟨fm, a, by simp, by simpa using h, Nat.le_refl _, Or.inl rfl, rfl, rfl, fun _ _ h => h, by rw [lt_false_iff]; omega⟩
    · rw [if_neg hb]
      have hl := h.latest (next := fm.next) (prev := fm.prev)
      change fm.latest.file = _ ∧ fm.latest.off = _ ∧ pos S fm.latest = _ ∧ Valid S fm.latest at hl
      have hoS := hl.2.2.2.2
      obtain ⟨fm1, h1, h2, h3, h4, h5, h6, h7⟩ := fill_spec h buf
      rw [h1]
      simp only
      by_cases hlt : min (S - fm.latest.off) buf.length < buf.length
      · rw [if_pos hlt]
        have hmin : min (S - fm.latest.off) buf.length = S - fm.latest.off := by omega
        obtain ⟨fm2, a2, g1, g2, g3, g4, g5, g6, g7, g8⟩ := createNext_spec (cap := cap) (files := files) h2 (by rw [h6, hmin]; omega)
        rw [g1]
        simp only
        have hblen : 0 < buf.length := List.length_pos_iff.mpr hb
        obtain ⟨fm3, a3, k1, k2, k3, k4, k5, k6, k7, k8⟩ := writeLoop_spec (cap := cap) (files := files) hS n fm2 (buf.drop (S - fm.latest.off)) _ a2 g2 (by
          rw [g7, List.length_drop]
          simp only
          rw [if_neg (by omega)]
          by_cases hf : fm.latest.off = S
          · rw [if_pos hf] at hn; omega
          · rw [if_neg hf] at hn; omega)
        refine ⟨fm3, a3, by rw [hmin]; exact k1, ?_, by omega, ?_, by rw [k5, g5, h3], by rw [k6, g6, h4], ?_, ?_⟩
        · rw [List.append_assoc, List.take_append_drop] at k2; exact k2
        · rw [g5, h3] at k4
          rw [h3] at g4
          rw [lt_false_iff] at k8
          omega
        · intro base hb1 hb2
          exact k7 base (fun id hid => hb1 id (by rw [g7] at hid; simp only at hid; omega)) (g8 base (fun id hid => hb1 id (by omega)) (h7 base hb2))
        · rw [lt_false_iff] at k8 ⊢
          rw [g7] at k8
          simp only at k8
          omega
      · rw [if_neg hlt]
        refine ⟨fm1, a, rfl, ?_, Nat.le_refl _, Or.inl rfl, h3, h4, fun base _ hw => h7 base hw, by rw [lt_false_iff]; omega⟩
        rw [List.take_of_length_le (by omega)] at h2; exact h2

/-- **Writing** puts the data at the end, and says where it starts. -/
theorem write_spec {S cap : Nat} {files : Files} (hS : 0 < S) {fm : FM} {L : Bytes} {a : Nat} (h : Mem S fm.cache L a) (buf : Bytes) :
    ∃ fm' a', fm.write S cap files buf = some (fm.latest, fm') ∧ Mem S fm'.cache (L ++ buf) a' ∧ a ≤ a' ∧ (a' = a ∨ a' ≤ fm.next.file ∧ a' + cap ≤ fm'.latest.file + 1) ∧
      fm'.next = fm.next ∧ fm'.prev = fm.prev ∧ (∀ base : Nat → Prop, (∀ id, fm.latest.file < id → base id) → Wr base fm.cache → Wr base fm'.cache) ∧
      fm'.latest.lt fm.latest = false := by
  obtain ⟨fm', a', h1, h2⟩ := writeLoop_spec (cap := cap) (files := files) hS (buf.length + 1) fm buf L a h (by split <;> omega)
  exact ⟨fm', a', by unfold FM.write; rw [h1]; rfl, h2⟩

/-- **Cutting**: `deleteTo` a location of the string leaves what is before it. It succeeds if and only if at most one of the
files to go is not in memory. -/
theorem deleteTo_spec {S cap : Nat} {files : Files} {fm : FM} {L : Bytes} {a : Nat} (h : Mem S fm.cache L a)
    (ho : ∀ f, 1 ≤ f → f < a → Table.get f files = some (chunk S L f)) (loc : Loc) (hv : Valid S loc) (hp : pos S loc ≤ L.length)
    (hc : a ≤ loc.file + 1) :
    ∃ fm' a', fm.deleteTo cap files loc = some fm' ∧ Mem S fm'.cache (L.take (pos S loc)) a' ∧ a' ≤ a ∧ (a' = a ∨ a' = loc.file) ∧
      fm'.prev = fm.prev ∧
      (fm.latest.lt loc = true ∨ loc = fm.latest → fm' = fm) ∧
      (loc.lt fm.latest = true → fm'.latest = loc ∧ fm'.next = (if loc.lt fm.next then loc else fm.next)) ∧
      (∀ base : Nat → Prop, Wr base fm.cache → (loc.file < a → loc.off = 0 → base loc.file) → Wr base fm'.cache) := by
  have hl := h.latest (next := fm.next) (prev := fm.prev)
  change fm.latest.file = _ ∧ fm.latest.off = _ ∧ pos S fm.latest = _ ∧ Valid S fm.latest at hl
  have hpos := h.pos
  have hne : fm.cache.length ≠ 0 := fun hh => h.ne (List.length_eq_zero_iff.mp hh)
  have hmS := mul_pred_add S loc.file hv.1
  have hpl : pos S loc = (loc.file - 1) * S + loc.off := rfl
  unfold FM.deleteTo
  by_cases hlt : loc.lt fm.latest = true
  · rw [hlt]
    simp only [Bool.not_true, Bool.false_eq_true, if_false]
    have hlt' := lt_iff.mp hlt
    have hnot : ¬ (fm.latest.lt loc = true ∨ loc = fm.latest) := by
      rintro (hh | hh)
      · rw [lt_iff] at hh; omega
      · rw [hh] at hlt'; omega
    -- the common conclusion for a cache `pre ++ [it]` whose last file is that of `loc`
    have key : ∀ (pre : List Item) (it : Item), Cached S L a (pre ++ [it]) → it.id = loc.file → it ∈ fm.cache → (∀ x ∈ pre, x ∈ fm.cache) →
        Mem S (pre ++ [{ it with data := it.data.take loc.off }]) (L.take (pos S loc)) a ∧
        (∀ base : Nat → Prop, Wr base fm.cache → Wr base (pre ++ [{ it with data := it.data.take loc.off }])) := by
      intro pre it hcc hid hmem hpre
      have hcc' := Cached.append.mp hcc
      have hid2 : loc.file = a + pre.length := by rw [← hid]; exact hcc'.2.1
      have hlen : (pre ++ [{ it with data := it.data.take loc.off }]).length = pre.length + 1 := by simp
      refine ⟨⟨hpos, by simp, ?_, ?_, ?_⟩, ?_⟩
      · rw [Cached.append]
        refine ⟨hcc'.1.congr (fun f h1 h2 => ?_), hcc'.2.1, ?_, trivial⟩
        · have := Nat.mul_le_mul_right S (show f ≤ loc.file - 1 by omega)
          exact (chunk_take_full (by omega) (by omega)).symm
        · show it.data.take loc.off = _
          rw [hcc'.2.2.1, ← hid2, chunk_take]
          congr 1; omega
      · rw [hlen, show a + (pre.length + 1) - 2 = loc.file - 1 by omega, List.length_take]; omega
      · rw [hlen, show a + (pre.length + 1) - 1 = loc.file by omega, List.length_take]; have := hv.2; omega
      · intro base hw
        refine hw.sub (fun x hx => ?_)
        rcases List.mem_append.mp hx with hx | hx
        · exact ⟨x, hpre x hx, rfl, rfl⟩
        · simp only [List.mem_singleton] at hx
          exact ⟨it, hmem, by rw [hx], by rw [hx]⟩
    by_cases hk : fm.latest.file - loc.file = 0
    · rw [if_pos hk]
      simp only [Option.map_some]
      obtain ⟨pre, it, hc1, hid, hd, _, hgl, hdl⟩ := h.split
      have hlf : fm.latest = ⟨it.id, it.data.length⟩ := by unfold FM.latest; rw [hgl]
      have hidl : it.id = loc.file := by have := congrArg Loc.file hlf; simp only at this; omega
      obtain ⟨k1, k2⟩ := key pre it (by rw [← hc1]; exact h.cached) hidl (by rw [hc1]; simp) (fun x hx => by rw [hc1]; exact List.mem_append_left _ hx)
      refine ⟨_, a, rfl, ?_, Nat.le_refl _, Or.inl rfl, rfl, fun hh => absurd hh hnot, fun _ => ⟨?_, rfl⟩, ?_⟩
      · simp only [hdl, hgl, Option.map_some, Option.toList_some]; exact k1
      · have hoff : loc.off ≤ it.data.length := by have := congrArg Loc.off hlf; simp only at this; omega
        unfold FM.latest
        simp only [hdl, hgl, Option.map_some, Option.toList_some, List.getLast?_append, List.getLast?_singleton, Option.some_or]
        rw [List.length_take, hidl, Nat.min_eq_left hoff]
      · intro base hw _
        simp only [hdl, hgl, Option.map_some, Option.toList_some]; exact k2 base hw
    · rw [if_neg hk, if_neg (show ¬ fm.cache.length < fm.latest.file - loc.file by omega)]
      by_cases hkl : fm.cache.length - (fm.latest.file - loc.file) = 0
      · -- the file is read from disk
        have hla : loc.file = a - 1 := by omega
        rw [hkl, List.take_zero]
        unfold FM.openAt
        simp only [List.getLast?_nil, Option.map_none]
        rw [if_neg (show ¬ ((none : Option Nat) = some loc.file) by simp)]
        have hev : evict cap fm.next.file ([] : List Item) = [] := rfl
        by_cases hoff : 0 < loc.off
        · rw [if_pos hoff, ho loc.file hv.1 (by omega)]
          simp only
          have hLl : loc.file * S ≤ L.length := by
            have h1 := h.lo
            have h2 := Nat.mul_le_mul_right S (show loc.file ≤ a + fm.cache.length - 2 by omega)
            omega
          have hcl : (chunk S L loc.file).length = S := by rw [chunk_length]; omega
          rw [if_neg (show ¬ List.length (chunk S L loc.file) < loc.off by have := hv.2; omega), hev]
          simp only [List.nil_append, Option.map_some]
          refine ⟨_, loc.file, rfl, ?_, by omega, Or.inr rfl, rfl, fun hh => absurd hh hnot, fun _ => ⟨?_, rfl⟩, ?_⟩
          · refine ⟨hv.1, by simp, ⟨rfl, ?_, trivial⟩, ?_, ?_⟩
            · show (chunk S L loc.file).take loc.off = _
              rw [chunk_take]; congr 1; omega
            · simp only [List.length_singleton, List.length_take]
              rw [show loc.file + 1 - 2 = loc.file - 1 by omega]; omega
            · simp only [List.length_singleton, List.length_take]
              rw [show loc.file + 1 - 1 = loc.file by omega]; have := hv.2; omega
          · unfold FM.latest
            simp only [List.getLast?_singleton]
            rw [List.length_take, hcl, Nat.min_eq_left hv.2]
          · intro base _ _ x hx hxw
            simp only [List.mem_singleton] at hx
            rw [hx] at hxw; simp at hxw
        · rw [if_neg hoff, hev]
          have hoff0 : loc.off = 0 := by omega
          simp only [List.nil_append, Option.map_some]
          refine ⟨_, loc.file, rfl, ?_, by omega, Or.inr rfl, rfl, fun hh => absurd hh hnot, fun _ => ⟨?_, rfl⟩, ?_⟩
          · refine ⟨hv.1, by simp, ⟨rfl, ?_, trivial⟩, ?_, ?_⟩
            · show [] = _
              rw [chunk_nil]; rw [List.length_take]; omega
            · simp only [List.length_singleton, List.length_take]
              rw [show loc.file + 1 - 2 = loc.file - 1 by omega]; omega
            · simp only [List.length_singleton, List.length_take]
              rw [show loc.file + 1 - 1 = loc.file by omega]; omega
          · unfold FM.latest
            simp only [List.getLast?_singleton, List.length_nil]
            rw [← hoff0]
          · intro base _ hb x hx hxw
            simp only [List.mem_singleton] at hx
            rw [hx]; exact hb (by omega) hoff0
      · -- the file is in memory
        have hj : 0 < fm.cache.length - (fm.latest.file - loc.file) := by omega
        obtain ⟨pre, it, hc1⟩ : ∃ pre it, fm.cache.take (fm.cache.length - (fm.latest.file - loc.file)) = pre ++ [it] := by
          have hne' : fm.cache.take (fm.cache.length - (fm.latest.file - loc.file)) ≠ [] := by
            intro hh
            have := congrArg List.length hh
            rw [List.length_take, List.length_nil] at this; omega
          exact ⟨_, _, (List.dropLast_append_getLast hne').symm⟩
        have hcc : Cached S L a (pre ++ [it]) := by
          rw [← hc1]
          have := h.cached
          rw [← List.take_append_drop (fm.cache.length - (fm.latest.file - loc.file)) fm.cache] at this
          exact (Cached.append.mp this).1
        have hplen : pre.length + 1 = fm.cache.length - (fm.latest.file - loc.file) := by
          have := congrArg List.length hc1
          rw [List.length_take, List.length_append, List.length_singleton] at this; omega
        have hid : it.id = loc.file := by rw [(Cached.append.mp hcc).2.1]; omega
        have hsub : ∀ x ∈ pre ++ [it], x ∈ fm.cache := fun x hx => List.mem_of_mem_take (hc1 ▸ hx)
        obtain ⟨k1, k2⟩ := key pre it hcc hid (hsub it (by simp)) (fun x hx => hsub x (List.mem_append_left _ hx))
        rw [hc1]
        unfold FM.openAt
        simp only [List.getLast?_append, List.getLast?_singleton, Option.some_or, Option.map_some, hid, if_true, List.dropLast_concat,
          Option.toList_some]
        refine ⟨_, a, rfl, ?_, Nat.le_refl _, Or.inl rfl, rfl, fun hh => absurd hh hnot, fun _ => ⟨?_, rfl⟩, ?_⟩
        · rw [← hid]; exact k1
        · have hdl : it.data.length = S := by
            rw [(Cached.append.mp hcc).2.2.1, chunk_length]
            have h1 := h.lo
            have h2 := Nat.mul_le_mul_right S (show loc.file ≤ a + fm.cache.length - 2 by omega)
            rw [show a + pre.length = loc.file by omega]
            omega
          unfold FM.latest
          simp only [List.getLast?_append, List.getLast?_singleton, Option.some_or]
          rw [List.length_take, hdl, Nat.min_eq_left hv.2]
        · intro base hw _
          rw [← hid]; exact k2 base hw
  · have hlf : loc.lt fm.latest = false := by simpa using hlt
    rw [hlf]
    simp only [Bool.not_false, if_true]
    have h1 := pos_le_of_not_lt hv hl.2.2.2 hlf
    refine ⟨fm, a, rfl, ?_, Nat.le_refl _, Or.inl rfl, rfl, fun _ => rfl, fun hh => absurd hh (by simp), fun base hw _ => hw⟩
    rw [show pos S loc = L.length by omega, List.take_length]; exact h

/-- The panic: two or more of the files to go are not in memory. -/
theorem deleteTo_panics {S cap : Nat} {files : Files} {fm : FM} {L : Bytes} {a : Nat} (h : Mem S fm.cache L a) (loc : Loc)
    (hc : loc.file + 1 < a) : fm.deleteTo cap files loc = none := by
  have hl := h.latest (next := fm.next) (prev := fm.prev)
  change fm.latest.file = _ ∧ fm.latest.off = _ ∧ pos S fm.latest = _ ∧ Valid S fm.latest at hl
  have hne : fm.cache.length ≠ 0 := fun hh => h.ne (List.length_eq_zero_iff.mp hh)
  unfold FM.deleteTo
  rw [show loc.lt fm.latest = true from lt_iff.mpr (by omega)]
  simp only [Bool.not_true, Bool.false_eq_true, if_false]
  rw [if_neg (show ¬ fm.latest.file - loc.file = 0 by omega), if_pos (show fm.cache.length < fm.latest.file - loc.file by omega)]
  rfl

end Verif.Store
