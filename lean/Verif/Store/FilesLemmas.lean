import Verif.Store.FilesSpec

namespace Verif.Store
open Verif.Bytes

/-! ### Positions and chunks -/

theorem lt_iff {l a : Loc} : l.lt a = true ↔ l.file < a.file ∨ (l.file = a.file ∧ l.off < a.off) := by
  unfold Loc.lt
  by_cases h1 : l.file < a.file
  · simp [h1]
  · by_cases h2 : a.file < l.file
    · simp [h1, h2]; omega
    · simp [h1, h2]; omega

theorem lt_false_iff {l a : Loc} : l.lt a = false ↔ a.file < l.file ∨ (l.file = a.file ∧ a.off ≤ l.off) := by
  rw [← Bool.not_eq_true, lt_iff]; omega

/-- Lexicographic order and positions agree, up to the two names of a file border. -/
theorem pos_le_of_not_lt {S : Nat} {l a : Loc} (hl : Valid S l) (ha : Valid S a) (h : l.lt a = false) : pos S a ≤ pos S l := by
  rw [lt_false_iff] at h
  unfold pos
  obtain ⟨h1, h2⟩ := hl
  obtain ⟨h3, h4⟩ := ha
  rcases h with h | ⟨h, h'⟩
  · obtain ⟨k, hk⟩ : ∃ k, l.file = a.file + 1 + k := ⟨l.file - a.file - 1, by omega⟩
    rw [hk, show a.file + 1 + k - 1 = (a.file - 1) + 1 + k by omega, Nat.add_mul, Nat.add_mul]
    omega
  · rw [h]; omega

theorem pos_le_of_lt {S : Nat} {l a : Loc} (hl : Valid S l) (ha : Valid S a) (h : l.lt a = true) : pos S l ≤ pos S a := by
  apply pos_le_of_not_lt ha hl
  rw [lt_iff] at h
  rw [lt_false_iff]; omega

theorem mul_pred_add (S f : Nat) (h : 1 ≤ f) : (f - 1) * S + S = f * S := by
  obtain ⟨g, rfl⟩ : ∃ g, f = g + 1 := ⟨f - 1, by omega⟩
  rw [Nat.add_sub_cancel, Nat.add_mul, Nat.one_mul]

theorem mul_lt_succ {S f g : Nat} (h : f < g) : f * S + S ≤ g * S := by
  obtain ⟨k, rfl⟩ : ∃ k, g = f + 1 + k := ⟨g - f - 1, by omega⟩
  rw [Nat.add_mul, Nat.add_mul]; omega

theorem chunk_length (S : Nat) (L : Bytes) (f : Nat) : (chunk S L f).length = min S (L.length - (f - 1) * S) := by
  simp [chunk]

theorem chunk_append {S : Nat} {L b : Bytes} {f : Nat} (hf : 1 ≤ f) (h : f * S ≤ L.length) : chunk S (L ++ b) f = chunk S L f := by
  have := mul_pred_add S f hf
  unfold chunk
  rw [List.drop_append, List.take_append, List.length_drop]
  rw [show S - (L.length - (f - 1) * S) = 0 by omega, List.take_zero, List.append_nil]

theorem chunk_take (S : Nat) (L : Bytes) (n f : Nat) : chunk S (L.take n) f = (chunk S L f).take (n - (f - 1) * S) := by
  unfold chunk
  rw [List.drop_take, List.take_take, List.take_take, Nat.min_comm]

theorem chunk_take_full {S : Nat} {L : Bytes} {n f : Nat} (hf : 1 ≤ f) (h : f * S ≤ n) : chunk S (L.take n) f = chunk S L f := by
  have := mul_pred_add S f hf
  rw [chunk_take]
  apply List.take_of_length_le
  rw [chunk_length]; omega

theorem chunk_eq_of_take {S : Nat} {L P : Bytes} {n f : Nat} (hf : 1 ≤ f) (h : f * S ≤ n) (he : L.take n = P.take n) :
    chunk S L f = chunk S P f := by
  rw [← chunk_take_full hf h, he, chunk_take_full hf h]

theorem chunk_nil {S : Nat} {L : Bytes} {f : Nat} (h : L.length ≤ (f - 1) * S) : chunk S L f = [] := by
  unfold chunk; rw [List.drop_of_length_le h]; simp

/-- A string is its chunks. -/
theorem chunk_cut (S : Nat) (L : Bytes) (f : Nat) (hf : 1 ≤ f) : L.drop ((f - 1) * S) = chunk S L f ++ L.drop (f * S) := by
  have := mul_pred_add S f hf
  unfold chunk
  rw [← this, ← List.drop_drop, List.take_append_drop]

/-! ### The files in memory -/

/-- The items hold the chunks `a, a + 1, …` of `L`. -/
def Cached (S : Nat) (L : Bytes) : Nat → List Item → Prop
  | _, [] => True
  | a, it :: rest => it.id = a ∧ it.data = chunk S L a ∧ Cached S L (a + 1) rest

theorem Cached.append {S L} : ∀ {a : Nat} {c d : List Item}, Cached S L a (c ++ d) ↔ Cached S L a c ∧ Cached S L (a + c.length) d
  | a, [], d => by simp [Cached]
  | a, it :: c, d => by
    simp only [List.cons_append, Cached, Cached.append (c := c), List.length_cons]
    rw [show a + 1 + c.length = a + (c.length + 1) by omega]
    tauto

theorem Cached.congr {S L L'} : ∀ {a : Nat} {c : List Item}, Cached S L a c → (∀ f, a ≤ f → f < a + c.length → chunk S L f = chunk S L' f) →
    Cached S L' a c
  | _, [], _, _ => trivial
  | a, it :: c, h, hc => by
    refine ⟨h.1, ?_, Cached.congr h.2.2 (fun f h1 h2 => hc f (by omega) (by simp only [List.length_cons]; omega))⟩
    rw [h.2.1]; exact hc a (Nat.le_refl _) (by simp)

theorem Cached.find {S L} : ∀ {a : Nat} {c : List Item}, Cached S L a c → ∀ f, a ≤ f → f < a + c.length →
    ∃ it, c.find? (fun it => it.id == f) = some it ∧ it ∈ c ∧ it.id = f ∧ it.data = chunk S L f
  | _, [], _, f, h1, h2 => by simp at h2; omega
  | a, it :: c, h, f, h1, h2 => by
    by_cases hf : it.id = f
    · refine ⟨it, ?_, by simp, hf, ?_⟩
      · simp [hf]
      · rw [h.2.1, ← h.1, hf]
    · obtain ⟨x, hx, hm, h3, h4⟩ := Cached.find h.2.2 f (by have := h.1; omega) (by simp only [List.length_cons] at h2; omega)
      exact ⟨x, by rw [List.find?_cons_of_neg (by simpa using hf)]; exact hx, List.mem_cons_of_mem _ hm, h3, h4⟩

theorem Cached.find_none {S L} : ∀ {a : Nat} {c : List Item}, Cached S L a c → ∀ f, f < a → c.find? (fun it => it.id == f) = none
  | _, [], _, _, _ => rfl
  | a, it :: c, h, f, hf => by
    rw [List.find?_cons_of_neg (by have := h.1; simp; omega)]
    exact Cached.find_none h.2.2 f (by omega)

theorem Cached.ids {S L} : ∀ {a : Nat} {c : List Item}, Cached S L a c → ∀ it ∈ c, a ≤ it.id ∧ it.id < a + c.length
  | _, [], _, _, hm => by simp at hm
  | a, x :: c, h, it, hm => by
    rcases List.mem_cons.mp hm with rfl | hm
    · have := h.1; simp; omega
    · have := Cached.ids h.2.2 it hm; simp; omega

/-- The files in memory hold the end of `L`, from file `a`. -/
structure Mem (S : Nat) (cache : List Item) (L : Bytes) (a : Nat) : Prop where
  pos : 1 ≤ a
  ne : cache ≠ []
  cached : Cached S L a cache
  lo : (a + cache.length - 2) * S ≤ L.length
  hi : L.length ≤ (a + cache.length - 1) * S

theorem Mem.split {S cache L a} (h : Mem S cache L a) :
    ∃ pre it, cache = pre ++ [it] ∧ it.id = a + pre.length ∧ it.data = L.drop ((a + pre.length - 1) * S) ∧ Cached S L a pre ∧
      cache.getLast? = some it ∧ cache.dropLast = pre := by
  obtain ⟨pre, it, hc⟩ : ∃ pre it, cache = pre ++ [it] := ⟨_, _, (List.dropLast_append_getLast h.ne).symm⟩
  have hh := h.cached
  rw [hc, Cached.append] at hh
  refine ⟨pre, it, hc, hh.2.1, ?_, hh.1, by simp [hc], by simp [hc]⟩
  rw [hh.2.2.1]
  unfold chunk
  apply List.take_of_length_le
  have h1 := h.hi
  have h2 := h.pos
  rw [hc, List.length_append, List.length_singleton] at h1
  rw [List.length_drop, show a + pre.length - 1 = (a + pre.length) - 1 by rfl]
  have := mul_pred_add S (a + pre.length) (by omega)
  rw [show a + (pre.length + 1) - 1 = a + pre.length by omega] at h1
  omega

theorem Mem.latest {S cache L a next prev} (h : Mem S cache L a) :
    (FM.latest ⟨cache, next, prev⟩).file = a + cache.length - 1 ∧
    (FM.latest ⟨cache, next, prev⟩).off = L.length - (a + cache.length - 2) * S ∧
    Verif.Store.pos S (FM.latest ⟨cache, next, prev⟩) = L.length ∧ Valid S (FM.latest ⟨cache, next, prev⟩) := by
  obtain ⟨pre, it, hc, hid, hd, _, hl, _⟩ := h.split
  have hp := h.pos
  have e : FM.latest ⟨cache, next, prev⟩ = ⟨it.id, it.data.length⟩ := by unfold FM.latest; simp only; rw [hl]
  have hlen : cache.length = pre.length + 1 := by rw [hc]; simp
  have h1 := h.lo
  have h2 := h.hi
  rw [hlen] at h1 h2
  rw [show a + (pre.length + 1) - 2 = a + pre.length - 1 by omega] at h1
  rw [show a + (pre.length + 1) - 1 = a + pre.length by omega] at h2
  have h3 := mul_pred_add S (a + pre.length) (by omega)
  rw [e, hid, hd, hlen, List.length_drop, show a + (pre.length + 1) - 2 = a + pre.length - 1 by omega]
  unfold Valid Verif.Store.pos
  simp only
  generalize (a + pre.length - 1) * S = x at h1 h3 ⊢
  generalize (a + pre.length) * S = y at h2 h3
  refine ⟨by omega, trivial, by omega, by omega, by omega⟩

theorem Mem.content {S a L} {fm : FM} {files : Files} (h : Mem S fm.cache L a) (ho : ∀ f, 1 ≤ f → f < a → Table.get f files = some (chunk S L f))
    (f : Nat) (h1 : 1 ≤ f) (h2 : f ≤ fm.latest.file) : fm.content files f = some (chunk S L f) := by
  have hl := (h.latest (next := fm.next) (prev := fm.prev)).1
  change fm.latest.file = _ at hl
  unfold FM.content
  rw [if_neg (by omega)]
  by_cases hfa : f < a
  · rw [h.cached.find_none f hfa]; exact ho f h1 hfa
  · have : fm.cache.length ≠ 0 := fun hh => h.ne (List.length_eq_zero_iff.mp hh)
    obtain ⟨it, h3, _, _, h4⟩ := h.cached.find f (by omega) (by omega)
    rw [h3]; simp only; rw [h4]

/-! ### Reading -/

theorem rangeLoop_spec {S a L} {fm : FM} {files : Files} (h : Mem S fm.cache L a)
    (ho : ∀ f, 1 ≤ f → f < a → Table.get f files = some (chunk S L f)) (e : Loc) (he : Valid S e) (hee : e.lt fm.latest = true ∨ e = fm.latest) :
    ∀ (n f off : Nat), 1 ≤ f → off ≤ S → f ≤ e.file → (f = e.file → off ≤ e.off) → n = e.file + 1 - f →
      fm.rangeLoop S files e n f off = some ((L.take (pos S e)).drop ((f - 1) * S + off))
  | 0, f, off, _, _, h3, _, hn => by omega
  | n + 1, f, off, h1, h2, h3, h4, hn => by
    have hl := h.latest (next := fm.next) (prev := fm.prev)
    change fm.latest.file = _ ∧ fm.latest.off = _ ∧ pos S fm.latest = _ ∧ Valid S fm.latest at hl
    have hel : e.file ≤ fm.latest.file := by
      rcases hee with hh | hh
      · rw [lt_iff] at hh; omega
      · rw [hh]
    have hep : pos S e ≤ L.length := by
      rw [← hl.2.2.1]
      rcases hee with hh | hh
      · exact pos_le_of_lt he hl.2.2.2 hh
      · rw [hh]
    have hm := mul_pred_add S f h1
    unfold FM.rangeLoop
    rw [if_neg (by omega), h.content ho f h1 (by omega)]
    simp only
    by_cases hfe : f = e.file
    · have hoff := h4 hfe
      have hpe : pos S e = (f - 1) * S + e.off := by unfold pos; rw [hfe]
      have he2 := he.2
      rw [if_pos hfe, if_neg (by omega)]
      rw [if_neg (by rw [chunk_length]; omega)]
      have hn0 : n = 0 := by omega
      subst hn0
      have : FM.rangeLoop S files fm e 0 (f + 1) 0 = some [] := by unfold FM.rangeLoop; rw [if_neg (by omega)]
      rw [this]
      simp only [Option.map_some, List.append_nil]
      congr 1
      unfold chunk
      rw [hpe]
      rw [List.drop_take, List.drop_take, List.take_take, List.drop_drop]
      congr 1
      omega
    · rw [if_neg hfe, if_neg (by omega)]
      have hfull : f * S ≤ pos S e := by
        unfold pos
        have := Nat.mul_le_mul_right S (show f ≤ e.file - 1 by omega)
        omega
      rw [if_neg (by rw [chunk_length]; omega)]
      rw [rangeLoop_spec h ho e he hee n (f + 1) 0 (by omega) (by omega) (by omega) (by omega) (by omega)]
      simp only [Option.map_some]
      congr 1
      rw [show (f + 1 - 1) * S + 0 = f * S by rw [Nat.add_sub_cancel, Nat.add_zero]]
      have hc : chunk S L f = chunk S (L.take (pos S e)) f := (chunk_take_full h1 hfull).symm
      rw [hc, ← List.drop_drop, chunk_cut S _ f h1, List.drop_append]
      have hcl : (chunk S (L.take (pos S e)) f).length = S := by rw [chunk_length, List.length_take]; omega
      rw [hcl, show off - S = 0 by omega, List.drop_zero]
      congr 1
      apply List.take_of_length_le
      rw [List.length_drop, hcl]

theorem readRange_spec {S a L} {fm : FM} {files : Files} (h : Mem S fm.cache L a)
    (ho : ∀ f, 1 ≤ f → f < a → Table.get f files = some (chunk S L f)) (s : Loc) (hs : Valid S s) (hle : fm.latest.lt s = false) :
    fm.readRange S files s fm.latest = some (L.drop (pos S s)) := by
  have hl := h.latest (next := fm.next) (prev := fm.prev)
  change fm.latest.file = _ ∧ fm.latest.off = _ ∧ pos S fm.latest = _ ∧ Valid S fm.latest at hl
  rw [lt_false_iff] at hle
  unfold FM.readRange
  rw [rangeLoop_spec h ho fm.latest hl.2.2.2 (Or.inr rfl) _ s.file s.off hs.1 hs.2 (by omega) (by omega) rfl, hl.2.2.1, List.take_length]
  rfl

theorem rawLoop_spec {S a L} {fm : FM} {files : Files} (hS : 0 < S) (h : Mem S fm.cache L a)
    (ho : ∀ f, 1 ≤ f → f < a → Table.get f files = some (chunk S L f)) :
    ∀ (k : Nat) (loc : Loc) (n : Nat), Valid S loc → pos S loc + n ≤ L.length → n + (if loc.off = S then 1 else 0) ≤ k →
      ∃ loc', fm.rawLoop S files k loc n = some (loc', (L.drop (pos S loc)).take n) ∧ pos S loc' = pos S loc + n ∧ Valid S loc'
  | 0, loc, n, hv, _, hk => by
    have : n = 0 := by split at hk <;> omega
    subst this
    exact ⟨loc, by simp [FM.rawLoop], rfl, hv⟩
  | k + 1, loc, n, hv, hp, hk => by
    unfold FM.rawLoop
    by_cases hn : n = 0
    · subst hn; exact ⟨loc, by simp, rfl, hv⟩
    · rw [if_neg hn]
      obtain ⟨h1, h2⟩ := hv
      have hl := h.latest (next := fm.next) (prev := fm.prev)
      change fm.latest.file = _ ∧ fm.latest.off = _ ∧ pos S fm.latest = _ ∧ Valid S fm.latest at hl
      have hm := mul_pred_add S loc.file h1
      have hfl : loc.file ≤ fm.latest.file := by
        by_contra hcon
        have h5 := Nat.mul_le_mul_right S (show fm.latest.file ≤ loc.file - 1 by omega)
        have h6 := h.hi
        have h7 := hl.1
        rw [← h7] at h6
        unfold pos at hp
        omega
      rw [h.content ho loc.file h1 hfl]
      simp only
      have hpd : pos S loc = (loc.file - 1) * S + loc.off := rfl
      have hlen : (chunk S L loc.file).length = min S (L.length - (loc.file - 1) * S) := chunk_length ..
      rw [if_neg (by rw [hlen]; omega)]
      set sz := min n (S - loc.off) with hsz
      have hsz0 : sz ≤ n := by omega
      generalize hloc' : (if S ≤ loc.off + sz then (⟨loc.file + 1, 0⟩ : Loc) else ⟨loc.file, loc.off + sz⟩) = loc'
      have hpl : pos S loc' = pos S loc + sz ∧ Valid S loc' ∧ loc'.off < S := by
        rw [← hloc']
        split
        · rename_i hge
          refine ⟨?_, ⟨by simp, by simp⟩, hS⟩
          show (loc.file + 1 - 1) * S + 0 = _
          rw [Nat.add_sub_cancel]; omega
        · rename_i hge
          refine ⟨?_, ⟨h1, by simp only; omega⟩, by simp only; omega⟩
          unfold pos; simp only; omega
      have hk' : (n - sz) + (if loc'.off = S then 1 else 0) ≤ k := by
        rw [if_neg (by omega)]
        by_cases hfull : loc.off = S
        · rw [if_pos hfull] at hk; omega
        · rw [if_neg hfull] at hk; omega
      obtain ⟨l2, h3, h4, h5⟩ := rawLoop_spec hS h ho k loc' (n - sz) hpl.2.1 (by rw [hpl.1]; omega) hk'
      refine ⟨l2, ?_, by rw [h4, hpl.1]; omega, h5⟩
      rw [h3]
      simp only [Option.map_some]
      congr 2
      have hd : (List.drop loc.off (chunk S L loc.file)).take sz = (L.drop (pos S loc)).take sz := by
        unfold chunk
        rw [List.drop_take, List.take_take, List.drop_drop, hpd]
        congr 1
        omega
      rw [hd, hpl.1, ← List.drop_drop]
      have : (List.drop (pos S loc) L).take n = (List.drop (pos S loc) L).take (sz + (n - sz)) := by
        congr 1; omega
      rw [this, List.take_add]

/-- **Reading**: the bytes at a location are those at its position. -/
theorem readRaw_spec {S a L} {fm : FM} {files : Files} (hS : 0 < S) (h : Mem S fm.cache L a)
    (ho : ∀ f, 1 ≤ f → f < a → Table.get f files = some (chunk S L f)) (loc : Loc) (n : Nat) (hv : Valid S loc) (hp : pos S loc + n ≤ L.length) :
    ∃ loc', fm.readRaw S files loc n = some (loc', (L.drop (pos S loc)).take n) ∧ pos S loc' = pos S loc + n ∧ Valid S loc' :=
  rawLoop_spec hS h ho (n + 1) loc n hv hp (by split <;> omega)

end Verif.Store
