import Verif.Tab.TableClose
import Verif.Tab.BlockProps

/-! # What a table answers -/

namespace Verif.Tab
open Verif.Bytes Verif.Store

variable {O : Type} [LinearOrder O]
variable {o : Opts O} {fk : Bytes → Bytes}

/-! ### Specification -/

/-- The first entry whose key is not smaller. -/
def atOrAfter (ord : Bytes → O) (es : List (Bytes × Bytes)) (k : Bytes) : Option (Bytes × Bytes) :=
  es.find? (fun e => decide (ord k ≤ ord e.1))

/-- The entry of a key. -/
def entryOf (ord : Bytes → O) (es : List (Bytes × Bytes)) (k : Bytes) : Option (Bytes × Bytes) :=
  es.find? (fun e => decide (ord e.1 = ord k))

/-- An answer without an error. -/
def Found.of : Option (Bytes × Bytes) → Found
  | Option.some e => .some e
  | Option.none => .none

/-! ### Lemmas -/

theorem getD_of_lt {l : List (Bytes × Bytes)} {j : Nat} (h : j < l.length) : l.getD j ([], []) = l[j] := by
  rw [List.getD_eq_getElem?_getD, List.getElem?_eq_getElem h]; rfl

/-- A search in a whole block. -/
theorem blockSeek {I : Nat} {es : List (Bytes × Bytes)} (hI : 0 < I) (hne : es ≠ []) (ord : Bytes → O)
    (hs : es.Pairwise (fun x y => ord x.1 < ord y.1)) (hsz : (blockBytes I es).length < 2 ^ 32) (k : Bytes) :
    (∃ j, ∃ hj : j < es.length, ord k ≤ ord es[j].1 ∧ (∀ e ∈ es.take j, ord e.1 < ord k) ∧
      ((BI.whole (Block.ofBytes (blockBytes I es))).seek ord (Block.ofBytes (blockBytes I es)) k).2 = true ∧
      ((BI.whole (Block.ofBytes (blockBytes I es))).seek ord (Block.ofBytes (blockBytes I es)) k).1.key = es[j].1 ∧
      ((BI.whole (Block.ofBytes (blockBytes I es))).seek ord (Block.ofBytes (blockBytes I es)) k).1.value = es[j].2 ∧
      (if h : j + 1 < es.length then
        (BI.next (Block.ofBytes (blockBytes I es)) ((BI.whole (Block.ofBytes (blockBytes I es))).seek ord (Block.ofBytes (blockBytes I es)) k).1).2 = true ∧
        (BI.next (Block.ofBytes (blockBytes I es)) ((BI.whole (Block.ofBytes (blockBytes I es))).seek ord (Block.ofBytes (blockBytes I es)) k).1).1.value = es[j + 1].2
      else
        (BI.next (Block.ofBytes (blockBytes I es)) ((BI.whole (Block.ofBytes (blockBytes I es))).seek ord (Block.ofBytes (blockBytes I es)) k).1).2 = false ∧
        (BI.next (Block.ofBytes (blockBytes I es)) ((BI.whole (Block.ofBytes (blockBytes I es))).seek ord (Block.ofBytes (blockBytes I es)) k).1).1.bad = false)) ∨
    ((∀ e ∈ es, ord e.1 < ord k) ∧
      ((BI.whole (Block.ofBytes (blockBytes I es))).seek ord (Block.ofBytes (blockBytes I es)) k).2 = false ∧
      ((BI.whole (Block.ofBytes (blockBytes I es))).seek ord (Block.ofBytes (blockBytes I es)) k).1.bad = false) := by
  have h := rep_of_writer (ord := ord) hI hne hs hsz
  have c := whole_cut h
  obtain ⟨p, p1, p2, p3, p4, p5⟩ := seek_stands h c rfl (fun _ => rfl) k
  generalize hi : (BI.whole (Block.ofBytes (blockBytes I es))).seek ord (Block.ofBytes (blockBytes I es)) k = i at p2 p3 p4 p5 ⊢
  cases p with
  | before => exact absurd p1 (by intro h; exact h)
  | on j =>
    obtain ⟨_, q1, q2, q3⟩ := p1
    have hn := next_stands h (c.same p3) p2
    obtain ⟨_, _, _, hk, hv, _⟩ := p2
    refine Or.inl ⟨j, q1, ?_, ?_, p4.2 ⟨j, rfl⟩, ?_, ?_, ?_⟩
    · have := q2; unfold keyOf at this; rwa [getD_of_lt q1] at this
    · intro e he
      obtain ⟨q, hq, rfl⟩ := List.getElem_of_mem he
      rw [List.length_take] at hq
      have := q3 q (Nat.zero_le _) (by omega)
      unfold keyOf at this
      rw [getD_of_lt (by omega)] at this
      rwa [List.getElem_take]
    · rw [hk]; unfold keyOf; rw [getD_of_lt q1]
    · rw [hv]; unfold valOf; rw [getD_of_lt q1]
    · obtain ⟨_, n2, n3⟩ := hn
      by_cases hj : j + 1 < es.length
      · rw [dif_pos hj]
        have ha : nextAt 0 es.length (.on j) = .on (j + 1) := if_pos hj
        rw [ha] at n2 n3
        obtain ⟨_, _, _, _, hv', _⟩ := n3
        refine ⟨n2, ?_⟩
        rw [hv']; unfold valOf; rw [getD_of_lt hj]
      · rw [dif_neg hj]
        have ha : nextAt 0 es.length (.on j) = .past := if_neg hj
        rw [ha] at n2 n3
        exact ⟨n2, n3.1⟩
  | past =>
    refine Or.inr ⟨?_, ?_, p2.1⟩
    · intro e he
      obtain ⟨q, hq, rfl⟩ := List.getElem_of_mem he
      have := p1 q (Nat.zero_le _) hq
      unfold keyOf at this
      rwa [getD_of_lt hq] at this
    · by_contra hc
      obtain ⟨j, hj⟩ := p4.1 (by simpa using hc)
      cases hj

/-- The first entry of a whole block. -/
theorem blockFirst {I : Nat} {es : List (Bytes × Bytes)} (hI : 0 < I) (hne : 0 < es.length) (ord : Bytes → O)
    (hs : es.Pairwise (fun x y => ord x.1 < ord y.1)) (hsz : (blockBytes I es).length < 2 ^ 32) :
    (BI.next (Block.ofBytes (blockBytes I es)) (BI.whole (Block.ofBytes (blockBytes I es)))).2 = true ∧
    (BI.next (Block.ofBytes (blockBytes I es)) (BI.whole (Block.ofBytes (blockBytes I es)))).1.key = es[0].1 ∧
    (BI.next (Block.ofBytes (blockBytes I es)) (BI.whole (Block.ofBytes (blockBytes I es)))).1.value = es[0].2 := by
  have h := rep_of_writer (ord := ord) hI (List.length_pos_iff.1 hne) hs hsz
  obtain ⟨n1, n2, n3⟩ := next_stands h (whole_cut h) (p := .before) ⟨rfl, rfl, rfl⟩
  have ha : nextAt 0 es.length .before = .on 0 := if_pos hne
  rw [ha] at n2 n3
  obtain ⟨_, _, _, hk, hv, _⟩ := n3
  refine ⟨n2, ?_, ?_⟩
  · rw [hk]; unfold keyOf; rw [getD_of_lt hne]
  · rw [hv]; unfold valOf; rw [getD_of_lt hne]

theorem find_none_of {ord : Bytes → O} {l : List (Bytes × Bytes)} {k : Bytes} (h : ∀ e ∈ l, ord e.1 < ord k) : atOrAfter ord l k = none := by
  unfold atOrAfter
  rw [List.find?_eq_none]
  intro e he
  simpa using h e he

theorem find_append_none {ord : Bytes → O} {l l' : List (Bytes × Bytes)} {k : Bytes} (h : ∀ e ∈ l, ord e.1 < ord k) :
    atOrAfter ord (l ++ l') k = atOrAfter ord l' k := by
  have := find_none_of h
  unfold atOrAfter at this ⊢
  rw [List.find?_append, this]; rfl

theorem find_at {ord : Bytes → O} {l l' : List (Bytes × Bytes)} {k : Bytes} {j : Nat} (hj : j < l.length) (h1 : ord k ≤ ord l[j].1)
    (h2 : ∀ e ∈ l.take j, ord e.1 < ord k) : atOrAfter ord (l ++ l') k = some l[j] := by
  have hl : l ++ l' = l.take j ++ (l[j] :: (l.drop (j + 1) ++ l')) := by
    have : l = l.take j ++ l[j] :: l.drop (j + 1) := by rw [← List.drop_eq_getElem_cons hj, List.take_append_drop]
    conv_lhs => rw [this]
    rw [List.append_assoc]; rfl
  rw [hl, find_append_none h2]
  unfold atOrAfter
  rw [List.find?_cons, decide_eq_true h1]

/-- **A search finds the first entry that is not smaller**; with the filter it finds that or nothing, and
it finds that if the filter could not have told its key from the one sought. -/
theorem find_spec (g : Good o fk) {r : TR} {T : List Blk} (t : Table o fk r T) (hTne : T ≠ [])
    (hs : ((T.map Blk.ents).flatten).Pairwise (fun x y => o.ord x.1 < o.ord y.1)) (k : Bytes) (fl : Bool) :
    (r.find o k fl = Found.of (atOrAfter o.ord (T.map Blk.ents).flatten k) ∨ (fl = true ∧ r.find o k fl = .none)) ∧
    (∀ e, atOrAfter o.ord (T.map Blk.ents).flatten k = some e → fk e.1 = fk k → r.find o k fl = .some e) ∧
    (fl = false → r.find o k fl = Found.of (atOrAfter o.ord (T.map Blk.ents).flatten k)) := by
  have hblk : ∀ t' ∈ T, t'.ents.Pairwise (fun x y => o.ord x.1 < o.ord y.1) := by
    intro t' ht'
    exact (List.pairwise_flatten.1 hs).1 _ (List.mem_map.2 ⟨t', ht', rfl⟩)
  have hidx : (T.map Blk.idx).Pairwise (fun x y => o.ord x.1 < o.ord y.1) := by
    rw [List.pairwise_map]
    refine t.before.imp_of_mem ?_
    intro a b _ hb hab
    obtain ⟨e, he⟩ := List.exists_mem_of_ne_nil _ (t.ne b hb)
    exact lt_of_lt_of_le (hab e he).1 (t.upTo b hb e he)
  have hread : ∀ t' ∈ T, r.dataBlock o t'.h = some (Block.ofBytes (blockBytes o.interval t'.ents)) := by
    intro t' ht'
    unfold TR.dataBlock
    rw [t.read t' ht']; rfl
  have hdec : ∀ t' ∈ T, decH (encH t'.h) = some (t'.h, []) := by
    intro t' ht'
    have := decH_enc t'.h (t.handle t' ht').1 (t.handle t' ht').2 []
    rwa [List.append_nil] at this
  rcases blockSeek (I := 1) (by omega) (by simpa using hTne) o.ord hidx t.isize k with ⟨j, hj, h1, h2, h3, h4, h5, h6⟩ | ⟨h1, h2, h3⟩
  · have hjT : j < T.length := by simpa using hj
    have htm : T[j] ∈ T := List.getElem_mem hjT
    have hji : (T.map Blk.idx)[j] = T[j].idx := List.getElem_map _
    rw [hji] at h1 h4 h5
    have hT : T = T.take j ++ T[j] :: T.drop (j + 1) := by rw [← List.drop_eq_getElem_cons hjT, List.take_append_drop]
    have hfl : (T.map Blk.ents).flatten = ((T.take j).map Blk.ents).flatten ++ (T[j].ents ++ ((T.drop (j + 1)).map Blk.ents).flatten) := by
      conv_lhs => rw [hT]
      rw [List.map_append, List.flatten_append, List.map_cons, List.flatten_cons]
    have hpre : ∀ e ∈ ((T.take j).map Blk.ents).flatten, o.ord e.1 < o.ord k := by
      intro e he
      obtain ⟨l, hl, hel⟩ := List.mem_flatten.1 he
      obtain ⟨t', ht', rfl⟩ := List.mem_map.1 hl
      refine lt_of_le_of_lt (t.upTo t' (List.mem_of_mem_take ht') e hel) (h2 t'.idx ?_)
      rw [← List.map_take]
      exact List.mem_map.2 ⟨t', ht', rfl⟩
    have hsub : r.find o k fl = if r.refuses o fl T[j].h k = true then .none else
        (let d := (BI.whole (Block.ofBytes (blockBytes o.interval T[j].ents))).seek o.ord (Block.ofBytes (blockBytes o.interval T[j].ents)) k
         if d.2 = true then .some (d.1.key, d.1.value) else if d.1.bad then .err
         else r.findNext o (Block.ofBytes (blockBytes 1 (T.map Blk.idx)))
           ((BI.whole (Block.ofBytes (blockBytes 1 (T.map Blk.idx)))).seek o.ord (Block.ofBytes (blockBytes 1 (T.map Blk.idx))) k).1) := by
      unfold TR.find
      rw [t.index]
      dsimp only
      rw [if_neg (by rw [h3]; simp), h5]
      show (match decH (encH T[j].h) with | none => _ | some (h, _) => _) = _
      rw [hdec _ htm]
      dsimp only
      rw [hread _ htm]
    -- without the filter
    have hplain : r.refuses o fl T[j].h k = false → r.find o k fl = Found.of (atOrAfter o.ord (T.map Blk.ents).flatten k) := by
      intro hrf
      rw [hsub, if_neg (by rw [hrf]; simp), hfl, find_append_none hpre]
      dsimp only
      rcases blockSeek g.interval (t.ne _ htm) o.ord (hblk _ htm) (t.small _ htm) k with ⟨q, hq, q1, q2, q3, q4, q5, _⟩ | ⟨q1, q2, q3⟩
      · rw [if_pos q3, q4, q5, find_at hq q1 q2]; rfl
      · rw [if_neg (by rw [q2]; simp), if_neg (by rw [q3]; simp), find_append_none q1]
        unfold TR.findNext
        dsimp only
        by_cases hj1 : j + 1 < T.length
        · rw [dif_pos (by simpa using hj1)] at h6
          have hji1 : (T.map Blk.idx)[j + 1]'(by simpa using hj1) = T[j + 1].idx := List.getElem_map _
          rw [hji1] at h6
          have htm1 : T[j + 1] ∈ T := List.getElem_mem hj1
          rw [if_neg (by rw [h6.1]; simp), h6.2]
          show (match decH (encH T[j + 1].h) with | none => _ | some (h, _) => _) = _
          rw [hdec _ htm1]
          dsimp only
          rw [hread _ htm1]
          dsimp only
          have hpos : 0 < T[j + 1].ents.length := List.length_pos_iff.2 (t.ne _ htm1)
          obtain ⟨f1, f2, f3⟩ := blockFirst g.interval hpos o.ord (hblk _ htm1) (t.small _ htm1)
          rw [if_neg (by rw [f1]; simp), f2, f3, List.drop_eq_getElem_cons hj1, List.map_cons, List.flatten_cons]
          have hlt : o.ord T[j].key < o.ord (T[j + 1].ents[0]).1 :=
            ((List.pairwise_iff_getElem.1 t.before) j (j + 1) hjT hj1 (by omega) _ (List.getElem_mem hpos)).1
          rw [find_at hpos (le_of_lt (lt_of_le_of_lt h1 hlt)) (by intro e he; simp at he)]
          rfl
        · rw [dif_neg (by simpa using hj1)] at h6
          rw [if_pos h6.1, if_neg (by rw [h6.2]; simp), List.drop_eq_nil_of_le (by omega)]
          rfl
    refine ⟨?_, ?_, ?_⟩
    · cases hrf : r.refuses o fl T[j].h k with
      | false => exact Or.inl (hplain hrf)
      | true =>
        refine Or.inr ⟨?_, ?_⟩
        · by_contra hc
          unfold TR.refuses at hrf
          cases hrr : r.filter with
          | none => rw [hrr] at hrf; cases hrf
          | some x => rw [hrr] at hrf; dsimp only at hrf; rw [if_neg hc] at hrf; cases hrf
        · rw [hsub, if_pos hrf]
    · intro e he hfe
      have hrf : r.refuses o fl T[j].h k = false := by
        -- the block knows such a key
        have hmem : e ∈ (T.map Blk.ents).flatten := List.mem_of_find?_eq_some he
        rw [hfl, find_append_none hpre] at he
        have he' := List.mem_of_find?_eq_some he
        rcases List.mem_append.1 he' with hin | hin
        · exact t.filter _ htm e hin k hfe fl
        · obtain ⟨l, hl, hel⟩ := List.mem_flatten.1 hin
          obtain ⟨t', ht', rfl⟩ := List.mem_map.1 hl
          have hbef := t.before
          rw [hT] at hbef
          have := (List.pairwise_cons.1 (List.pairwise_append.1 hbef).2.1).1 t' ht' e hel
          obtain ⟨e', he'm, he'f⟩ := this.2 k h1 hfe.symm
          exact t.filter _ htm e' he'm k he'f fl
      rw [hplain hrf, he]; rfl
    · intro hfl'
      apply hplain
      unfold TR.refuses
      cases r.filter with
      | none => rfl
      | some x => dsimp only; rw [if_neg (by rw [hfl']; simp)]
  · have hall : atOrAfter o.ord (T.map Blk.ents).flatten k = none := by
      apply find_none_of
      intro e he
      obtain ⟨l, hl, hel⟩ := List.mem_flatten.1 he
      obtain ⟨t', ht', rfl⟩ := List.mem_map.1 hl
      exact lt_of_le_of_lt (t.upTo t' ht' e hel) (h1 t'.idx (List.mem_map.2 ⟨t', ht', rfl⟩))
    have hf : r.find o k fl = .none := by
      unfold TR.find
      rw [t.index]
      dsimp only
      rw [if_pos h2, if_neg (by rw [h3]; simp)]
    rw [hall, hf]
    exact ⟨Or.inl rfl, (by intro e he; cases he), fun _ => rfl⟩

theorem entryOf_eq {ord : Bytes → O} {es : List (Bytes × Bytes)} (hs : es.Pairwise (fun x y => ord x.1 < ord y.1)) (k : Bytes) :
    entryOf ord es k = (atOrAfter ord es k).filter (fun e => decide (ord e.1 = ord k)) := by
  induction es with
  | nil => rfl
  | cons e es ih =>
    obtain ⟨h1, h2⟩ := List.pairwise_cons.1 hs
    unfold entryOf atOrAfter at ih ⊢
    rw [List.find?_cons, List.find?_cons]
    rcases lt_trichotomy (ord e.1) (ord k) with h | h | h
    · rw [decide_eq_false (ne_of_lt h), decide_eq_false (not_le_of_gt h)]
      exact ih h2
    · rw [decide_eq_true h, decide_eq_true (le_of_eq h.symm)]
      dsimp only
      rw [Option.filter_some, if_pos (by simpa using h)]
    · rw [decide_eq_false (ne_of_gt h), decide_eq_true (le_of_lt h)]
      dsimp only
      rw [Option.filter_some, if_neg (by simpa using ne_of_gt h), List.find?_eq_none]
      intro e' he'
      simpa using ne_of_gt (lt_trans h (h1 e' he'))

/-! ### Theorems -/

/-- What was written for the entries. -/
def tableOf (o : Opts O) (es : List (Bytes × Bytes)) : Option TW := (TW.appends o (TW.new o) es).map (TW.close o)

/-- **A table of entries can be written, read again, and searched.**  The entries are taken if their keys
grow.  The table can be opened.  A search gives the first entry that is not smaller than the key sought.
A lookup gives the entry of the key, or says that there is none.  No answer is an error. -/
theorem table_answers (g : Good o fk) {es : List (Bytes × Bytes)} (hne : es ≠ []) (hk : ∀ e ∈ es, e.1 ≠ [])
    (hs : es.Pairwise (fun x y => o.ord x.1 < o.ord y.1)) :
    ∃ w, tableOf o es = some w ∧ ((∀ d ∈ w.log, d.length < 2 ^ 32) → w.file.length < 2 ^ 63 →
      ∃ r, openT o w.file = some r ∧
        (∀ k, r.find o k false = Found.of (atOrAfter o.ord es k)) ∧
        (∀ k, r.get o k = Found.of (entryOf o.ord es k)) ∧
        (∀ k e, atOrAfter o.ord es k = some e → fk e.1 = fk k → r.find o k true = .some e) ∧
        (∀ k, r.find o k true = Found.of (atOrAfter o.ord es k) ∨ r.find o k true = .none)) := by
  have t0 : Took o fk (TW.new o) [] := ⟨[], [], [], new_mid g, rfl, rfl, fun h => absurd rfl h⟩
  obtain ⟨w, hw, t⟩ := appends_took g es [] _ t0 (by simpa using hs) hk
  rw [List.nil_append] at t
  refine ⟨w.close o, by unfold tableOf; rw [hw]; rfl, ?_⟩
  intro hlog hsz
  obtain ⟨r, T, hr, tb, hfl⟩ := close_open g t hne hs hlog hsz
  have hTne : T ≠ [] := by
    intro h
    rw [h] at hfl
    exact hne hfl.symm
  have hs' : ((T.map Blk.ents).flatten).Pairwise (fun x y => o.ord x.1 < o.ord y.1) := by rw [hfl]; exact hs
  have sp := find_spec g tb hTne hs'
  rw [hfl] at sp
  refine ⟨r, hr, fun k => (sp k false).2.2 rfl, ?_, fun k e => (sp k true).2.1 e, ?_⟩
  · intro k
    unfold TR.get
    rw [(sp k false).2.2 rfl, entryOf_eq hs]
    cases ha : atOrAfter o.ord es k with
    | none => rfl
    | some e =>
      show (if o.ord e.1 = o.ord k then Found.some e else Found.none) = Found.of (Option.filter _ (some e))
      rw [Option.filter_some]
      by_cases h : o.ord e.1 = o.ord k
      · rw [if_pos h, if_pos (by simpa using h)]; rfl
      · rw [if_neg h, if_neg (by simpa using h)]; rfl
  · intro k
    rcases (sp k true).1 with h | h
    · exact Or.inl h
    · exact Or.inr h.2

/-- **Keys that do not grow are refused**: a key that is not greater than the last one is not taken, and
the table is not written. -/
theorem table_refuses (g : Good o fk) {pre : List (Bytes × Bytes)} (hne : pre ≠ []) (hk : ∀ e ∈ pre, e.1 ≠ [])
    (hs : pre.Pairwise (fun x y => o.ord x.1 < o.ord y.1)) (e : Bytes × Bytes) (post : List (Bytes × Bytes))
    (he : o.ord e.1 ≤ o.ord (pre.getLast hne).1) : tableOf o (pre ++ e :: post) = none := by
  have t0 : Took o fk (TW.new o) [] := ⟨[], [], [], new_mid g, rfl, rfl, fun h => absurd rfl h⟩
  obtain ⟨w, hw, t⟩ := appends_took g pre [] _ t0 (by simpa using hs) hk
  rw [List.nil_append] at t
  have happ : ∀ (l l' : List (Bytes × Bytes)) (w : TW), TW.appends o w (l ++ l') = (TW.appends o w l).bind (fun w => TW.appends o w l') := by
    intro l l'
    induction l with
    | nil => intro w; rfl
    | cons a l ih =>
      intro w
      show (match w.append o a with | none => none | some w' => TW.appends o w' (l ++ l')) = Option.bind (match w.append o a with | none => none | some w' => TW.appends o w' l) _
      cases w.append o a with
      | none => rfl
      | some w' => exact ih w'
  unfold tableOf
  rw [happ, hw]
  show ((TW.appends o w (e :: post)).map _) = none
  have hn : w.append o e = none := by
    unfold TW.append
    obtain ⟨T, P, cur, m, hes, hn, hne'⟩ := t
    have hPc := hne' hne
    have hlast : (pre.getLast hne).1 = w.bw.prev := by
      have h1 : pre.getLast hne = (P ++ cur).getLast hPc := by
        simp only [hes]
        exact List.getLast_append_of_ne_nil _ hPc
      rw [h1]
      rcases m.st with ⟨hP, _, hbw⟩ | ⟨hP, hcur, _, hbw⟩
      · subst hP
        have hc : cur ≠ [] := by simpa using hPc
        have h2 : ([] ++ cur).getLast hPc = cur.getLast hc := by simp
        rw [h2, hbw]
        conv_rhs => rw [← List.dropLast_append_getLast hc, runW_prev]
      · subst hcur
        rw [hbw]
        simp only [List.append_nil]
        unfold lastKey
        rw [List.getLast?_eq_some_getLast hP]; rfl
    rw [if_pos ⟨by rw [hn]; exact List.length_pos_iff.2 hne, by rw [← hlast]; exact he⟩]
  show ((match w.append o e with | none => none | some w' => TW.appends o w' post).map _) = none
  rw [hn]; rfl

end Verif.Tab
