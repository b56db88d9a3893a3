import Verif.Tab.TableModel
import Verif.Tab.BlockProps

/-! # What the writer of tables keeps true -/

namespace Verif.Tab
open Verif.Bytes Verif.Store

variable {O : Type} [LinearOrder O]

/-- What is asked of comparer, checksum, compression and filter.  `fk` is the part of a key the filter
looks at. -/
structure Good (o : Opts O) (fk : Bytes → Bytes) : Prop where
  interval : 0 < o.interval
  crc : ∀ d, o.crc d < 2 ^ 32
  codec : ∀ c, o.codec = some c → ∀ d, c.dec (c.enc d) = some d ∧ c.enc d ≠ []
  sep : ∀ a b s, o.sep a b = some s → o.ord a < o.ord b →
    o.ord a ≤ o.ord s ∧ o.ord s < o.ord b ∧ ∀ k x, o.ord k ≤ o.ord s → o.ord b ≤ o.ord x → fk k ≠ fk x
  succ : ∀ a s, o.succ a = some s → o.ord a ≤ o.ord s
  convex : ∀ k a x, o.ord k ≤ o.ord a → o.ord a ≤ o.ord x → fk k = fk x → fk a = fk k
  filter : ∀ f, o.filter = some f → (∀ ks k k', k' ∈ ks → fk k' = fk k → f.has (f.gen ks) k = true) ∧
    ∀ ks, ks ≠ [] → f.gen ks ≠ []

/-- A block of a table: its entries, its key in the index and where it lies. -/
structure Blk where
  ents : List (Bytes × Bytes)
  key : Bytes
  h : Handle

/-- Its entry in the index. -/
def Blk.idx (t : Blk) : Bytes × Bytes := (t.key, encH t.h)

variable {o : Opts O} {fk : Bytes → Bytes}

/-! ### Blocks in the file -/

theorem packed_pos (g : Good o fk) (c : Bool) {d : Bytes} (hd : d ≠ []) : 1 < (packed o c d).length := by
  unfold packed
  have hl : 0 < d.length := List.length_pos_iff.2 hd
  cases hc : (if c then o.codec else none) with
  | none => simp; omega
  | some k =>
    have : o.codec = some k := by
      cases c
      · cases hc
      · exact hc
    have := List.length_pos_iff.2 (g.codec k this d).2
    simp; omega

theorem packed_read (g : Good o fk) (v c : Bool) (file rest : Bytes) {d : Bytes} (hd : d ≠ []) :
    readRaw o v (file ++ ((packed o c d ++ put4 (o.crc (packed o c d))) ++ rest)) (file.length, (packed o c d).length - 1) = some d := by
  have hp := packed_pos g c hd
  unfold readRaw
  generalize hpk : packed o c d = p at hp ⊢
  have he : p.length - 1 + 5 = (p ++ put4 (o.crc p)).length := by rw [List.length_append, put4_length]; omega
  dsimp only
  rw [List.drop_left, he, List.take_left, if_neg (by omega)]
  have h1 : p.length - 1 + 1 = p.length := by omega
  have hcrc : get4 ((p ++ put4 (o.crc p)).drop (p.length - 1 + 1)) = o.crc ((p ++ put4 (o.crc p)).take (p.length - 1 + 1)) := by
    rw [h1, List.drop_left, List.take_left]
    have := get4_put4 (o.crc p) (g.crc p) []
    rwa [List.append_nil] at this
  rw [if_neg (by rw [hcrc]; simp)]
  have hb : ∃ x y, p = x ++ [y] := by
    rw [← hpk]; unfold packed; cases (if c then o.codec else none) <;> exact ⟨_, _, rfl⟩
  obtain ⟨x, y, hxy⟩ := hb
  have hlx : p.length - 1 = x.length := by rw [hxy]; simp
  have hget : (p ++ put4 (o.crc p))[p.length - 1]? = some y := by
    rw [hlx]
    conv_lhs => rw [hxy]
    rw [List.append_assoc, List.getElem?_append_right (le_refl _)]
    simp
  have htk : (p ++ put4 (o.crc p)).take (p.length - 1) = x := by
    rw [hlx]
    conv_lhs => rw [hxy]
    rw [List.append_assoc, List.take_left]
  rw [hget, htk]
  unfold packed at hpk
  cases hc : (if c then o.codec else none) with
  | none =>
    rw [hc] at hpk
    dsimp only at hpk
    rw [hxy] at hpk
    obtain ⟨e1, e2⟩ := List.append_inj' hpk rfl
    injection e2 with e2
    subst e1; subst e2
    rfl
  | some k =>
    rw [hc] at hpk
    dsimp only at hpk
    rw [hxy] at hpk
    obtain ⟨e1, e2⟩ := List.append_inj' hpk rfl
    injection e2 with e2
    subst e1; subst e2
    have hk : o.codec = some k := by
      cases c
      · cases hc
      · exact hc
    show (match o.codec with | some c => c.dec (k.enc d) | none => none) = some d
    rw [hk]
    exact (g.codec k hk d).1

/-- What was in the file stays in it. -/
theorem readRaw_append (v : Bool) (file rest : Bytes) (h : Handle) {d : Bytes} (hr : readRaw o v file h = some d) : readRaw o v (file ++ rest) h = some d := by
  unfold readRaw at hr ⊢
  dsimp only at hr ⊢
  by_cases hl : ((file.drop h.1).take (h.2 + 5)).length < h.2 + 5
  · rw [if_pos hl] at hr; cases hr
  · have : ((file ++ rest).drop h.1).take (h.2 + 5) = (file.drop h.1).take (h.2 + 5) := by
      rw [List.length_take, List.length_drop] at hl
      rw [List.drop_append_of_le_length (by omega), List.take_append_of_le_length (by rw [List.length_drop]; omega)]
    rw [this]; exact hr

/-- The block is in the file. -/
structure Blk.InFile (o : Opts O) (file : Bytes) (log : List Bytes) (ents : List (Bytes × Bytes)) (h : Handle) : Prop where
  ne : ents ≠ []
  read : ∀ v, readRaw o v file h = some (blockBytes o.interval ents)
  logged : blockBytes o.interval ents ∈ log
  len : h.1 + h.2 + 5 ≤ file.length
  pos : 0 < h.2

theorem Blk.InFile.grow {file : Bytes} {log : List Bytes} {ents : List (Bytes × Bytes)} {h : Handle} (b : Blk.InFile o file log ents h)
    (rest : Bytes) (log' : List Bytes) : Blk.InFile o (file ++ rest) (log ++ log') ents h :=
  ⟨b.ne, fun v => readRaw_append v file rest h (b.read v), List.mem_append_left _ b.logged, by have := b.len; rw [List.length_append]; omega, b.pos⟩

/-! ### The filter -/

/-- What is generated from some keys: nothing from none. -/
def genOr (f : Filt) (ks : List Bytes) : Bytes := if ks.length > 0 then f.gen ks else []

/-- The bytes of the filters, and where they begin. -/
structure Segs (f : Filt) (w : FW) (segs : List (List Bytes)) : Prop where
  buf : w.buf = (segs.map (genOr f)).flatten
  offsets : w.offsets = (List.range segs.length).map (fun i => ((segs.take i).map (genOr f)).flatten.length)

theorem Segs.generate {f : Filt} {w : FW} {segs : List (List Bytes)} (s : Segs f w segs) : Segs f (w.generate f) (segs ++ [w.keys]) := by
  refine ⟨?_, ?_⟩
  · unfold FW.generate
    rw [List.map_append, List.flatten_append, ← s.buf]
    unfold genOr
    by_cases h : w.keys.length > 0
    · simp [h]
    · have : w.keys = [] := by
        cases hk : w.keys with
        | nil => rfl
        | cons a l => rw [hk] at h; simp at h
      simp [this]
  · unfold FW.generate
    dsimp only
    rw [s.offsets, List.length_append, List.length_singleton, List.range_succ, List.map_append]
    congr 1
    · apply List.map_congr_left
      intro i hi
      rw [List.take_append_of_le_length (Nat.le_of_lt (List.mem_range.1 hi))]
    · simp [s.buf]

/-- The keys a filter by index knows, those pending last. -/
def known (segs : List (List Bytes)) (keys : List Bytes) (i : Nat) : List Bytes := (segs ++ [keys]).getD i []

theorem known_generate (segs : List (List Bytes)) (keys : List Bytes) (i : Nat) {k : Bytes} (h : k ∈ known segs keys i) :
    k ∈ known (segs ++ [keys]) [] i := by
  unfold known at h ⊢
  rw [List.getD_eq_getElem?_getD] at h ⊢
  by_cases hi : i < (segs ++ [keys]).length
  · rw [List.getElem?_append_left hi]; exact h
  · rw [List.getElem?_eq_none (by omega)] at h
    simp at h

theorem flushTo_segs {f : Filt} (x : Nat) : ∀ (n : Nat) (w : FW) (segs : List (List Bytes)), Segs f w segs → segs.length ≤ x → x ≤ segs.length + n →
    ∃ segs', Segs f (FW.flushTo f x n w) segs' ∧ segs'.length = x ∧ (∀ i k, k ∈ known segs w.keys i → k ∈ known segs' (FW.flushTo f x n w).keys i) := by
  intro n
  induction n with
  | zero => intro w segs s h1 h2; exact ⟨segs, s, by omega, fun _ _ h => h⟩
  | succ n ih =>
    intro w segs s h1 h2
    unfold FW.flushTo
    have hl : w.offsets.length = segs.length := by rw [s.offsets, List.length_map, List.length_range]
    by_cases hlt : segs.length < x
    · rw [if_pos (by omega)]
      obtain ⟨segs', g1, g2, g3⟩ := ih (w.generate f) (segs ++ [w.keys]) s.generate (by rw [List.length_append, List.length_singleton]; exact hlt)
        (by rw [List.length_append, List.length_singleton]; omega)
      exact ⟨segs', g1, g2, fun i k hk => g3 i k (known_generate segs w.keys i hk)⟩
    · rw [if_neg (by omega)]
      exact ⟨segs, s, by omega, fun _ _ h => h⟩

/-- The keys of the blocks are known to their filters. -/
def FInv (o : Opts O) (w : FW) (size : Nat) (blocks : List (List (Bytes × Bytes) × Handle)) (cur : List (Bytes × Bytes)) : Prop :=
  ∀ f, o.filter = some f → ∃ segs, Segs f w segs ∧ segs.length = size / 2048 ∧
    (∀ t ∈ blocks, ∀ e ∈ t.1, e.1 ∈ known segs w.keys (t.2.1 / 2048)) ∧ (∀ e ∈ cur, e.1 ∈ w.keys)

theorem FInv.add {w : FW} {size : Nat} {blocks : List (List (Bytes × Bytes) × Handle)} {cur : List (Bytes × Bytes)} (h : FInv o w size blocks cur)
    (e : Bytes × Bytes) : FInv o (w.add o.filter e.1) size blocks (cur ++ [e]) := by
  intro f hf
  obtain ⟨segs, s, h1, h2, h3⟩ := h f hf
  unfold FW.add
  rw [hf]
  dsimp only
  refine ⟨segs, ⟨s.buf, s.offsets⟩, h1, ?_, ?_⟩
  · intro t ht e' he'
    have := h2 t ht e' he'
    unfold known at this ⊢
    rw [List.getD_eq_getElem?_getD] at this ⊢
    rcases Nat.lt_trichotomy (t.2.1 / 2048) segs.length with hl | hl | hl
    · rw [List.getElem?_append_left hl] at this ⊢; exact this
    · rw [hl, List.getElem?_append_right (le_refl _)] at this ⊢
      simp at this ⊢
      exact Or.inl this
    · rw [List.getElem?_eq_none (by rw [List.length_append, List.length_singleton]; omega)] at this
      simp at this
  · intro e' he'
    rcases List.mem_append.1 he' with q | q
    · exact List.mem_append_left _ (h3 e' q)
    · have : e' = e := by simpa using q
      rw [this]; exact List.mem_append_right _ (List.mem_singleton.2 rfl)

theorem FInv.flush {w : FW} {size : Nat} {blocks : List (List (Bytes × Bytes) × Handle)} {cur : List (Bytes × Bytes)} (h : FInv o w size blocks cur)
    (size' : Nat) (hs : size ≤ size') (n : Nat) : FInv o (w.flush o.filter size') size' (blocks ++ [(cur, (size, n))]) [] := by
  intro f hf
  obtain ⟨segs, s, h1, h2, h3⟩ := h f hf
  unfold FW.flush
  rw [hf]
  dsimp only
  obtain ⟨segs', g1, g2, g3⟩ := flushTo_segs (size' / 2048) (size' / 2048) w segs s
    (by rw [h1]; exact Nat.div_le_div_right hs) (by omega)
  refine ⟨segs', g1, g2, ?_, by intro e he; cases he⟩
  intro t ht e he
  rcases List.mem_append.1 ht with q | q
  · exact g3 _ _ (h2 t q e he)
  · have : t = (cur, (size, n)) := by simpa using q
    subst this
    apply g3
    have := h3 e he
    unfold known
    rw [List.getD_eq_getElem?_getD, ← h1, List.getElem?_append_right (le_refl _)]
    simpa using this

/-! ### The invariant -/

/-- The last key. -/
def lastKey (l : List (Bytes × Bytes)) : Bytes := (l.getLast?.map Prod.fst).getD []

/-- All keys up to the key of the block come before, and a later entry with the same part as a sought key
at or before the key of the block is foreshadowed in the block. -/
def Blk.Before (o : Opts O) (fk : Bytes → Bytes) (t : Blk) (x : Bytes) : Prop :=
  o.ord t.key < o.ord x ∧ ∀ k, o.ord k ≤ o.ord t.key → fk k = fk x → ∃ e ∈ t.ents, fk e.1 = fk k

/-- The state of the writer: blocks in the index, a block that waits for its key, and the entries of the
current block. -/
structure Mid (o : Opts O) (fk : Bytes → Bytes) (w : TW) (T : List Blk) (P cur : List (Bytes × Bytes)) : Prop where
  inFile : ∀ t ∈ T, Blk.InFile o w.file w.log t.ents t.h
  upTo : ∀ t ∈ T, ∀ e ∈ t.ents, o.ord e.1 ≤ o.ord t.key
  before : T.Pairwise (fun t t' => ∀ e ∈ t'.ents, t.Before o fk e.1)
  rest : ∀ t ∈ T, ∀ e ∈ P ++ cur, t.Before o fk e.1
  iw : w.iw = runW 1 (T.map Blk.idx)
  st : (P = [] ∧ w.pend = (0, 0) ∧ w.bw = runW o.interval cur) ∨
    (P ≠ [] ∧ cur = [] ∧ Blk.InFile o w.file w.log P w.pend ∧ w.bw = { BW.new o.interval with prev := lastKey P })
  filter : FInv o w.fw w.file.length (T.map (fun t => (t.ents, t.h)) ++ (if P = [] then [] else [(P, w.pend)])) cur

theorem lastKey_append (l : List (Bytes × Bytes)) (e : Bytes × Bytes) : lastKey (l ++ [e]) = e.1 := by
  unfold lastKey; simp

theorem lastKey_mem {l : List (Bytes × Bytes)} (h : l ≠ []) : ∃ e ∈ l, e.1 = lastKey l := by
  refine ⟨l.getLast h, List.getLast_mem h, ?_⟩
  unfold lastKey
  rw [List.getLast?_eq_some_getLast h]; rfl

theorem le_lastKey {l : List (Bytes × Bytes)} (hs : l.Pairwise (fun x y => o.ord x.1 < o.ord y.1)) : ∀ e ∈ l, o.ord e.1 ≤ o.ord (lastKey l) := by
  induction l using List.reverseRecOn with
  | nil => intro e he; cases he
  | append_singleton l a ih =>
    intro e he
    rw [lastKey_append]
    rcases List.mem_append.1 he with h | h
    · exact le_of_lt ((List.pairwise_append.1 hs).2.2 e h a (List.mem_singleton.2 rfl))
    · have : e = a := by simpa using h
      rw [this]

/-- The index gets the key of the waiting block. -/
theorem flushPending_mid (g : Good o fk) {w : TW} {T : List Blk} {P cur : List (Bytes × Bytes)} (m : Mid o fk w T P cur)
    (hsP : P.Pairwise (fun x y => o.ord x.1 < o.ord y.1)) (key : Bytes) (post : List Bytes) (hk : key = [] → post = [])
    (hpost : ∀ x ∈ post, o.ord key ≤ o.ord x) (hlt : P ≠ [] → key ≠ [] → o.ord (lastKey P) < o.ord key)
    (hT : ∀ t ∈ T, ∀ x ∈ post, t.Before o fk x) :
    ∃ T', Mid o fk (w.flushPending o key) T' [] cur ∧ (T'.map Blk.ents).flatten = (T.map Blk.ents).flatten ++ P ∧
      (∀ t ∈ T', ∀ x ∈ post, t.Before o fk x) ∧ (w.flushPending o key).file = w.file ∧ (w.flushPending o key).log = w.log ∧
      (w.flushPending o key).n = w.n ∧ (w.flushPending o key).fw = w.fw := by
  rcases m.st with ⟨hP, hpend, hbw⟩ | ⟨hP, hcur, hin, hbw⟩
  · have he : w.flushPending o key = w := by unfold TW.flushPending; rw [if_pos (by rw [hpend])]
    rw [he]
    subst hP
    exact ⟨T, m, by simp, hT, rfl, rfl, rfl, rfl⟩
  · subst hcur
    have hprev : w.bw.prev = lastKey P := by rw [hbw]
    have hpp := hin.pos
    generalize hs : ((if key.length = 0 then o.succ (lastKey P) else o.sep (lastKey P) key).getD (lastKey P)) = s
    have he : w.flushPending o key = { w with iw := w.iw.append (s, encH w.pend), bw := { w.bw with prev := [] }, pend := (0, 0) } := by
      unfold TW.flushPending; rw [if_neg (by omega), hprev, hs]
    rw [he]
    have hle : ∀ e ∈ P, o.ord e.1 ≤ o.ord (lastKey P) := le_lastKey hsP
    obtain ⟨a, ha, hal⟩ := lastKey_mem hP
    have hsp : o.ord (lastKey P) ≤ o.ord s ∧ ∀ x ∈ post, Blk.Before o fk ⟨P, s, w.pend⟩ x := by
      by_cases hk0 : key.length = 0
      · have hk1 : key = [] := List.length_eq_zero_iff.1 hk0
        have hp0 := hk hk1
        refine ⟨?_, by rw [hp0]; intro x hx; cases hx⟩
        rw [if_pos hk0] at hs
        cases hsu : o.succ (lastKey P) with
        | none => rw [hsu] at hs; rw [← hs]; exact le_refl _
        | some s' => rw [hsu] at hs; rw [← hs]; exact g.succ _ _ hsu
      · have hlt' := hlt hP (by intro h; rw [h] at hk0; simp at hk0)
        rw [if_neg hk0] at hs
        cases hse : o.sep (lastKey P) key with
        | none =>
          rw [hse] at hs
          have hs' : lastKey P = s := hs
          rw [← hs']
          refine ⟨le_refl _, fun x hx => ⟨lt_of_lt_of_le hlt' (hpost x hx), ?_⟩⟩
          intro k hk2 hkx
          refine ⟨a, ha, ?_⟩
          rw [hal]
          exact g.convex k _ x hk2 (le_trans (le_of_lt hlt') (hpost x hx)) hkx
        | some s' =>
          rw [hse] at hs
          have hs' : s' = s := hs
          rw [← hs']
          obtain ⟨g1, g2, g3⟩ := g.sep _ _ _ hse hlt'
          refine ⟨g1, fun x hx => ⟨lt_of_lt_of_le g2 (hpost x hx), ?_⟩⟩
          intro k hk2 hkx
          exact absurd hkx (g3 k x hk2 (hpost x hx))
    refine ⟨T ++ [⟨P, s, w.pend⟩], ⟨?_, ?_, ?_, ?_, ?_, ?_, ?_⟩, ?_, ?_, rfl, rfl, rfl, rfl⟩
    · intro t ht
      rcases List.mem_append.1 ht with q | q
      · exact m.inFile t q
      · have : t = ⟨P, s, w.pend⟩ := by simpa using q
        rw [this]; exact hin
    · intro t ht
      rcases List.mem_append.1 ht with q | q
      · exact m.upTo t q
      · have : t = ⟨P, s, w.pend⟩ := by simpa using q
        rw [this]
        intro e he'
        exact le_trans (hle e he') hsp.1
    · rw [List.pairwise_append]
      refine ⟨m.before, List.pairwise_singleton _ _, ?_⟩
      intro t ht t' ht'
      have : t' = ⟨P, s, w.pend⟩ := by simpa using ht'
      rw [this]
      intro e he'
      exact m.rest t ht e (by simpa using he')
    · intro t _ e he'; cases he'
    · rw [List.map_append]
      show w.iw.append (s, encH w.pend) = _
      rw [m.iw]
      unfold runW
      rw [List.foldl_append]; rfl
    · refine Or.inl ⟨rfl, rfl, ?_⟩
      show { w.bw with prev := [] } = runW o.interval []
      rw [hbw]; rfl
    · have := m.filter
      rw [if_neg hP] at this
      rw [if_pos rfl, List.append_nil, List.map_append]
      exact this
    · simp
    · intro t ht
      rcases List.mem_append.1 ht with q | q
      · exact hT t q
      · have : t = ⟨P, s, w.pend⟩ := by simpa using q
        rw [this]; exact hsp.2

theorem finish_ne (w : BW) : w.finish ≠ [] := by
  unfold BW.finish
  intro h
  have := congrArg List.length h
  simp only [List.length_append, flat4_length] at this
  simp at this

/-- The current block is written. -/
theorem finishBlock_mid (g : Good o fk) {w : TW} {T : List Blk} {cur : List (Bytes × Bytes)} (m : Mid o fk w T [] cur) (hc : cur ≠ []) :
    Mid o fk (w.finishBlock o) T cur [] ∧ (w.finishBlock o).n = w.n := by
  rcases m.st with ⟨_, hpend, hbw⟩ | ⟨hP, _⟩
  · have hd : w.bw.finish = blockBytes o.interval cur := by rw [hbw]; rfl
    have hdn := finish_ne w.bw
    refine ⟨⟨?_, ?_, m.before, ?_, ?_, ?_, ?_⟩, rfl⟩
    · intro t ht
      exact (m.inFile t ht).grow _ _
    · exact m.upTo
    · intro t ht e he
      exact m.rest t ht e (by simpa using he)
    · exact m.iw
    · refine Or.inr ⟨hc, rfl, ⟨hc, ?_, ?_, ?_, ?_⟩, ?_⟩
      · intro v
        have := packed_read g v true w.file [] hdn
        rw [List.append_nil] at this
        rw [← hd]
        exact this
      · rw [← hd]; exact List.mem_append_right _ (List.mem_singleton.2 rfl)
      · have hp := packed_pos g true hdn
        show w.file.length + ((packed o true w.bw.finish).length - 1) + 5 ≤ (w.file ++ (packed o true w.bw.finish ++ put4 _)).length
        rw [List.length_append, List.length_append, put4_length]; omega
      · have hp := packed_pos g true hdn
        show 0 < (packed o true w.bw.finish).length - 1
        omega
      · show w.bw.reset = _
        have hpv : (runW o.interval cur).prev = lastKey cur := by
          obtain ⟨l, a, hla⟩ : ∃ l a, cur = l ++ [a] := ⟨cur.dropLast, cur.getLast hc, (List.dropLast_append_getLast hc).symm⟩
          rw [hla, runW_prev, lastKey_append]
        have hiv := (runW_interval o.interval cur).1
        unfold BW.reset
        rw [hbw, hpv, hiv]
        rfl
    · have hf := m.filter
      rw [if_pos rfl, List.append_nil] at hf
      rw [if_neg hc]
      have := FInv.flush hf ((w.finishBlock o).file.length) (by
        show w.file.length ≤ (w.file ++ _).length
        rw [List.length_append]; omega) ((packed o true w.bw.finish).length - 1)
      exact this
  · exact absurd rfl hP

/-- The start. -/
theorem new_mid (g : Good o fk) : Mid o fk (TW.new o) [] [] [] := by
  refine ⟨?_, ?_, List.Pairwise.nil, ?_, rfl, Or.inl ⟨rfl, rfl, rfl⟩, ?_⟩
  · intro t ht; cases ht
  · intro t ht; cases ht
  · intro t ht; cases ht
  · intro f hf
    refine ⟨[], ?_, by show 0 = 0 / 2048; rfl, ?_, ?_⟩
    · unfold TW.new FW.flush
      rw [hf]
      exact ⟨rfl, rfl⟩
    · intro t ht; cases ht
    · intro e he; cases he

/-- The writer has taken some entries. -/
def Took (o : Opts O) (fk : Bytes → Bytes) (w : TW) (es : List (Bytes × Bytes)) : Prop :=
  ∃ T P cur, Mid o fk w T P cur ∧ es = (T.map Blk.ents).flatten ++ (P ++ cur) ∧ w.n = es.length ∧ (es ≠ [] → P ++ cur ≠ [])

/-- One more entry. -/
theorem append_took (g : Good o fk) {w : TW} {es : List (Bytes × Bytes)} (t : Took o fk w es) (e : Bytes × Bytes)
    (hs : (es ++ [e]).Pairwise (fun x y => o.ord x.1 < o.ord y.1)) (he : e.1 ≠ []) :
    ∃ w', w.append o e = some w' ∧ Took o fk w' (es ++ [e]) := by
  obtain ⟨T, P, cur, m, hes, hn, hne⟩ := t
  have hall : ∀ x ∈ es, o.ord x.1 < o.ord e.1 := fun x hx => (List.pairwise_append.1 hs).2.2 x hx e (List.mem_singleton.2 rfl)
  have hses : es.Pairwise (fun x y => o.ord x.1 < o.ord y.1) := (List.pairwise_append.1 hs).1
  have hsPc : (P ++ cur).Pairwise (fun x y => o.ord x.1 < o.ord y.1) := by rw [hes] at hses; exact (List.pairwise_append.1 hses).2.1
  have hsP : P.Pairwise (fun x y => o.ord x.1 < o.ord y.1) := (List.pairwise_append.1 hsPc).1
  have hPe : ∀ x ∈ P ++ cur, x ∈ es := by intro x hx; rw [hes]; exact List.mem_append_right _ hx
  have hprev : es ≠ [] → o.ord w.bw.prev < o.ord e.1 := by
    intro h0
    have h1 := hne h0
    rcases m.st with ⟨hP, hpend, hbw⟩ | ⟨hP, hcur, hin, hbw⟩
    · subst hP
      have hc : cur ≠ [] := by simpa using h1
      obtain ⟨l, a, hla⟩ : ∃ l a, cur = l ++ [a] := ⟨cur.dropLast, cur.getLast hc, (List.dropLast_append_getLast hc).symm⟩
      rw [hbw, hla, runW_prev]
      exact hall a (hPe a (by rw [hla]; simp))
    · rw [hbw]
      obtain ⟨a, ha, hal⟩ := lastKey_mem hP
      show o.ord (lastKey P) < _
      rw [← hal]
      exact hall a (hPe a (List.mem_append_left _ ha))
  have hT : ∀ t ∈ T, ∀ x ∈ [e.1], t.Before o fk x := by
    -- an entry of the rest lies between
    intro t ht x hx
    have hx' : x = e.1 := by simpa using hx
    subst hx'
    have h0 : es ≠ [] := by
      intro h
      rw [h] at hes
      have hnil := (List.append_eq_nil_iff.1 hes.symm).1
      have hin := (m.inFile t ht).ne
      have : t.ents ∈ T.map Blk.ents := List.mem_map.2 ⟨t, ht, rfl⟩
      have h2 := List.flatten_eq_nil_iff.1 hnil t.ents this
      exact hin h2
    have h1 := hne h0
    obtain ⟨y, hy⟩ := List.exists_mem_of_ne_nil _ h1
    have hb := m.rest t ht y hy
    refine ⟨lt_trans hb.1 (hall y (hPe y hy)), ?_⟩
    intro k hk hkx
    have hfy : fk y.1 = fk k := g.convex k y.1 e.1 (le_trans hk (le_of_lt hb.1)) (le_of_lt (hall y (hPe y hy))) hkx
    exact hb.2 k hk hfy.symm
  obtain ⟨T', m1, hfl, hB, hfile, hlog, hn1, hfw⟩ := flushPending_mid g m hsP e.1 [e.1] (fun h => absurd h he) (by intro x hx; simp at hx; rw [hx])
    (by
      intro hP _
      obtain ⟨a, ha, hal⟩ := lastKey_mem hP
      rw [← hal]
      exact hall a (hPe a (List.mem_append_left _ ha))) hT
  generalize hw1 : w.flushPending o e.1 = w1 at m1 hfile hlog hn1 hfw
  have m2 : Mid o fk { w1 with bw := w1.bw.append e, fw := w1.fw.add o.filter e.1 } T' [] (cur ++ [e]) := by
    rcases m1.st with ⟨_, hpend, hbw⟩ | ⟨hP, _⟩
    · refine ⟨m1.inFile, m1.upTo, m1.before, ?_, m1.iw, Or.inl ⟨rfl, hpend, ?_⟩, ?_⟩
      · intro t ht x hx
        rw [List.nil_append] at hx
        rcases List.mem_append.1 hx with q | q
        · exact m1.rest t ht x (by simpa using q)
        · have : x = e := by simpa using q
          rw [this]; exact hB t ht e.1 (List.mem_singleton.2 rfl)
      · show w1.bw.append e = runW o.interval (cur ++ [e])
        rw [hbw]; unfold runW; rw [List.foldl_append]; rfl
      · exact FInv.add m1.filter e
    · exact absurd rfl hP
  unfold TW.append
  rw [if_neg (by
    rintro ⟨h1, h2⟩
    have h0 : es ≠ [] := by intro h; rw [hn, h] at h1; simp at h1
    exact absurd (hprev h0) (not_lt.2 h2))]
  dsimp only
  rw [hw1]
  by_cases hb : o.blockSize ≤ (w1.bw.append e).bytesLen
  · rw [if_pos hb]
    obtain ⟨m3, hn3⟩ := finishBlock_mid g m2 (by simp)
    refine ⟨_, rfl, T', cur ++ [e], [], ⟨m3.inFile, m3.upTo, m3.before, m3.rest, m3.iw, m3.st, m3.filter⟩, ?_, ?_, ?_⟩
    · rw [hfl, hes]; simp
    · show (TW.finishBlock o _).n + 1 = _
      rw [hn3]
      show w1.n + 1 = _
      rw [hn1, hn, List.length_append]; rfl
    · intro _; simp
  · rw [if_neg hb]
    refine ⟨_, rfl, T', [], cur ++ [e], ⟨m2.inFile, m2.upTo, m2.before, m2.rest, m2.iw, m2.st, m2.filter⟩, ?_, ?_, ?_⟩
    · rw [hfl, hes]; simp
    · show w1.n + 1 = _
      rw [hn1, hn, List.length_append]; rfl
    · intro _; simp

theorem appends_took (g : Good o fk) : ∀ (es pre : List (Bytes × Bytes)) (w : TW), Took o fk w pre →
    (pre ++ es).Pairwise (fun x y => o.ord x.1 < o.ord y.1) → (∀ e ∈ es, e.1 ≠ []) →
    ∃ w', TW.appends o w es = some w' ∧ Took o fk w' (pre ++ es) := by
  intro es
  induction es with
  | nil => intro pre w t _ _; exact ⟨w, rfl, by simpa using t⟩
  | cons e es ih =>
    intro pre w t hs he
    have hs' : ((pre ++ [e]) ++ es).Pairwise (fun x y => o.ord x.1 < o.ord y.1) := by simpa using hs
    obtain ⟨w1, h1, t1⟩ := append_took g t e (List.pairwise_append.1 hs').1 (he e (List.mem_cons_self ..))
    obtain ⟨w2, h2, t2⟩ := ih (pre ++ [e]) w1 t1 hs' (fun x hx => he x (List.mem_cons_of_mem _ hx))
    refine ⟨w2, ?_, by simpa using t2⟩
    unfold TW.appends
    rw [h1]; exact h2

end Verif.Tab
