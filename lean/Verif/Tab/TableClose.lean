import Verif.Tab.TableLemmas

/-! # What a closed table holds -/

namespace Verif.Tab
open Verif.Bytes Verif.Store

variable {O : Type} [LinearOrder O]
variable {o : Opts O} {fk : Bytes → Bytes}

/-! ### Handles and footer -/

theorem uvarint_length : ∀ (k n : Nat), n < 128 ^ (k + 1) → (uvarint n).length ≤ k + 1 := by
  intro k
  induction k with
  | zero => intro n hn; unfold uvarint; rw [if_pos (by simpa using hn)]; simp
  | succ k ih =>
    intro n hn
    unfold uvarint
    by_cases h : n < 128
    · rw [if_pos h]; simp
    · rw [if_neg h, List.length_cons]
      have : n / 128 < 128 ^ (k + 1) := by
        rw [Nat.div_lt_iff_lt_mul (by omega)]
        rw [pow_succ] at hn; exact hn
      have := ih _ this
      omega

theorem uvarint_length_63 {n : Nat} (h : n < 2 ^ 63) : (uvarint n).length ≤ 9 := by
  have : (128 : Nat) ^ (8 + 1) = 2 ^ 63 := by norm_num
  exact uvarint_length 8 n (by omega)

theorem decH_enc (h : Handle) (h1 : h.1 < 2 ^ 63) (h2 : h.2 < 2 ^ 63) (rest : Bytes) : decH (encH h ++ rest) = some (h, rest) := by
  unfold decH encH
  rw [List.append_assoc, read_uvarint _ h1]
  dsimp only
  rw [read_uvarint _ h2]

theorem footer_length (m i : Handle) (m1 : m.1 < 2 ^ 63) (m2 : m.2 < 2 ^ 63) (i1 : i.1 < 2 ^ 63) (i2 : i.2 < 2 ^ 63) :
    (footer m i).length = 48 ∧ (footer m i).drop 40 = magic ∧ ∃ rest, footer m i = encH m ++ (encH i ++ rest) := by
  have hl : (encH m ++ encH i).length ≤ 40 := by
    unfold encH
    simp only [List.length_append]
    have := uvarint_length_63 m1
    have := uvarint_length_63 m2
    have := uvarint_length_63 i1
    have := uvarint_length_63 i2
    omega
  unfold footer
  refine ⟨?_, ?_, ?_⟩
  · rw [List.length_append, List.length_append (as := List.replicate _ _), List.length_replicate]
    show _ + (_ + 8) = 48
    omega
  · rw [← List.append_assoc]
    have : 40 = ((encH m ++ encH i) ++ List.replicate (40 - (encH m ++ encH i).length) (0 : UInt8)).length := by
      rw [List.length_append, List.length_replicate]; omega
    exact List.drop_left' this.symm
  · exact ⟨_, by rw [List.append_assoc]⟩

/-! ### The filter block -/

theorem flat_slice (l : List Bytes) : ∀ i (hi : i < l.length) (rest : Bytes),
    (((l.flatten ++ rest)).drop (l.take i).flatten.length).take ((l.take (i + 1)).flatten.length - (l.take i).flatten.length) = l[i] ∧
    (l.take i).flatten.length + l[i].length = (l.take (i + 1)).flatten.length := by
  intro i hi rest
  have h1 : l.take (i + 1) = l.take i ++ [l[i]] := List.take_succ_eq_append_getElem hi
  have h2 : (l.take (i + 1)).flatten.length = (l.take i).flatten.length + l[i].length := by
    rw [h1, List.flatten_append, List.length_append, List.flatten_singleton]
  have h3 : l.flatten ++ rest = (l.take i).flatten ++ (l[i] ++ ((l.drop (i + 1)).flatten ++ rest)) := by
    conv_lhs => rw [← List.take_append_drop (i + 1) l, h1]
    simp only [List.flatten_append, List.append_assoc, List.flatten_cons, List.flatten_nil, List.nil_append]
  refine ⟨?_, h2.symm⟩
  rw [h2, Nat.add_sub_cancel_left, h3, List.drop_left, List.take_left]

/-- **A filter block does not refuse a key of the block it is asked about.** -/
theorem filterBlock_contains (g : Good o fk) {f : Filt} (hf : o.filter = some f) {w : FW} {segs : List (List Bytes)} (s : Segs f w segs)
    (hsz : (w.finish (some f)).length < 2 ^ 32) :
    ∃ b, FB.ofBytes (w.finish (some f)) = some b ∧ ∀ off k k', k' ∈ known segs w.keys (off / 2048) → fk k' = fk k → b.contains f off k = true := by
  obtain ⟨w', S, hw', s', hknown⟩ : ∃ w' S, (if w.keys.length > 0 then w.generate f else w) = w' ∧ Segs f w' S ∧
      (∀ i k, k ∈ known segs w.keys i → i < S.length ∧ k ∈ S.getD i []) := by
    have hk : ∀ i k, k ∈ known segs w.keys i → i < segs.length + 1 := by
      intro i k hk
      unfold known at hk
      rw [List.getD_eq_getElem?_getD] at hk
      by_contra hc
      rw [List.getElem?_eq_none (by rw [List.length_append, List.length_singleton]; omega)] at hk
      simp at hk
    by_cases h : w.keys.length > 0
    · rw [if_pos h]
      refine ⟨_, _, rfl, s.generate, ?_⟩
      intro i k hik
      exact ⟨by rw [List.length_append, List.length_singleton]; exact hk i k hik, hik⟩
    · rw [if_neg h]
      have hke : w.keys = [] := by
        cases hkk : w.keys with
        | nil => rfl
        | cons a l => rw [hkk] at h; simp at h
      refine ⟨_, _, rfl, s, ?_⟩
      intro i k hik
      have hi := hk i k hik
      unfold known at hik
      rw [List.getD_eq_getElem?_getD] at hik ⊢
      rcases Nat.lt_or_ge i segs.length with q | q
      · rw [List.getElem?_append_left q] at hik
        exact ⟨q, hik⟩
      · have : i = segs.length := by omega
        subst this
        rw [List.getElem?_append_right (le_refl _), hke] at hik
        simp at hik
  have hfin : w.finish (some f) = w'.buf ++ (((w'.offsets ++ [w'.buf.length]).map put4).flatten ++ [11]) := by
    unfold FW.finish; dsimp only; rw [hw']
  have hol : w'.offsets.length = S.length := by rw [s'.offsets, List.length_map, List.length_range]
  have hlen : (w.finish (some f)).length = w'.buf.length + (4 * (S.length + 1) + 1) := by
    rw [hfin, List.length_append, List.length_append, flat4_length, List.length_append, hol]; rfl
  -- all offsets
  have hoff : ∀ i, i ≤ S.length → (w'.offsets ++ [w'.buf.length])[i]? = some ((S.map (genOr f)).take i).flatten.length := by
    intro i hi
    rcases Nat.lt_or_ge i S.length with q | q
    · rw [List.getElem?_append_left (by rw [hol]; exact q), s'.offsets, List.getElem?_map, List.getElem?_range q]
      simp [List.map_take]
    · have : i = S.length := by omega
      subst this
      rw [List.getElem?_append_right (by rw [hol]), hol, s'.buf, List.take_of_length_le (by rw [List.length_map])]
      simp
  have hle : ∀ i, ((S.map (genOr f)).take i).flatten.length ≤ w'.buf.length := by
    intro i
    rw [s'.buf]
    conv_rhs => rw [← List.take_append_drop i (S.map (genOr f))]
    rw [List.flatten_append, List.length_append]; omega
  have hget : ∀ i, i ≤ S.length → get4 ((w.finish (some f)).drop (w'.buf.length + 4 * i)) = ((S.map (genOr f)).take i).flatten.length := by
    intro i hi
    have hlt : i < (w'.offsets ++ [w'.buf.length]).length := by rw [List.length_append, hol, List.length_singleton]; omega
    rw [hfin, ← List.drop_drop, List.drop_left, get4_flat _ (by
      intro x hx
      obtain ⟨j, hj, rfl⟩ := List.getElem_of_mem hx
      rw [List.length_append, hol, List.length_singleton] at hj
      have h1 := hoff j (by omega)
      rw [List.getElem?_eq_getElem (by rw [List.length_append, hol, List.length_singleton]; exact hj)] at h1
      rw [Option.some.inj h1]
      have := hle j
      omega) _ i hlt]
    have h1 := hoff i hi
    rw [List.getElem?_eq_getElem hlt] at h1
    exact Option.some.inj h1
  have hm : (w.finish (some f)).length - 5 = w'.buf.length + 4 * S.length := by omega
  have hlast : ((S.map (genOr f)).take S.length).flatten.length = w'.buf.length := by
    rw [s'.buf, List.take_of_length_le (by rw [List.length_map])]
  have hbl : ((w.finish (some f)).getD ((w.finish (some f)).length - 1) 0).toNat = 11 := by
    have : (w.finish (some f)) = (w'.buf ++ ((w'.offsets ++ [w'.buf.length]).map put4).flatten) ++ [11] := by rw [hfin, List.append_assoc]
    rw [this]
    have h1 : ((w'.buf ++ ((w'.offsets ++ [w'.buf.length]).map put4).flatten) ++ [(11 : UInt8)]).length - 1 =
        (w'.buf ++ ((w'.offsets ++ [w'.buf.length]).map put4).flatten).length := by
      rw [List.length_append (bs := [11]), List.length_singleton, Nat.add_sub_cancel]
    rw [h1, List.getD_eq_getElem?_getD, List.getElem?_append_right (le_refl _), Nat.sub_self]
    rfl
  refine ⟨⟨w.finish (some f), w'.buf.length, 11, S.length⟩, ?_, ?_⟩
  · unfold FB.ofBytes
    rw [if_neg (by omega)]
    dsimp only
    rw [hm, hget _ (le_refl _), hlast, if_neg (by omega), hbl]
    have : (w'.buf.length + 4 * S.length - w'.buf.length) / 4 = S.length := by omega
    rw [this]
  · intro off k k' hk hkk
    obtain ⟨h1, h2⟩ := hknown _ _ hk
    unfold FB.contains
    dsimp only
    have hp : (2 : Nat) ^ 11 = 2048 := by norm_num
    rw [hp, if_pos h1]
    have e1 : w'.buf.length + off / 2048 * 4 = w'.buf.length + 4 * (off / 2048) := by omega
    have e2 : w'.buf.length + off / 2048 * 4 + 4 = w'.buf.length + 4 * (off / 2048 + 1) := by omega
    rw [e2, e1, hget _ (by omega), hget _ (by omega)]
    have hml : off / 2048 < (S.map (genOr f)).length := by rw [List.length_map]; exact h1
    obtain ⟨q1, q2⟩ := flat_slice (S.map (genOr f)) (off / 2048) hml (((w'.offsets ++ [w'.buf.length]).map put4).flatten ++ [11])
    have hsi : S.getD (off / 2048) [] = S[off / 2048] := by rw [List.getD_eq_getElem?_getD, List.getElem?_eq_getElem h1]; rfl
    rw [hsi] at h2
    have hne : S[off / 2048] ≠ [] := List.ne_nil_of_mem h2
    have hgo : (S.map (genOr f))[off / 2048] = f.gen S[off / 2048] := by
      rw [List.getElem_map]
      unfold genOr
      rw [if_pos (List.length_pos_iff.2 hne)]
    have hgl : 0 < (S.map (genOr f))[off / 2048].length := by
      rw [hgo]; exact List.length_pos_iff.2 ((g.filter f hf).2 _ hne)
    have hle2 := hle (off / 2048 + 1)
    rw [if_pos ⟨by omega, hle2⟩, hfin, s'.buf]
    rw [s'.buf] at q1
    rw [q1, hgo]
    exact (g.filter f hf).1 _ k k' h2 hkk

/-! ### The table -/

/-- An open table and its blocks. -/
structure Table (o : Opts O) (fk : Bytes → Bytes) (r : TR) (T : List Blk) : Prop where
  read : ∀ t ∈ T, ∀ v, readRaw o v r.file t.h = some (blockBytes o.interval t.ents)
  ne : ∀ t ∈ T, t.ents ≠ []
  small : ∀ t ∈ T, (blockBytes o.interval t.ents).length < 2 ^ 32
  handle : ∀ t ∈ T, t.h.1 < 2 ^ 63 ∧ t.h.2 < 2 ^ 63
  upTo : ∀ t ∈ T, ∀ e ∈ t.ents, o.ord e.1 ≤ o.ord t.key
  before : T.Pairwise (fun t t' => ∀ e ∈ t'.ents, t.Before o fk e.1)
  index : readRaw o true r.file r.indexH = some (blockBytes 1 (T.map Blk.idx))
  isize : (blockBytes 1 (T.map Blk.idx)).length < 2 ^ 32
  filter : ∀ t ∈ T, ∀ e ∈ t.ents, ∀ k, fk e.1 = fk k → ∀ fl, r.refuses o fl t.h k = false

/-- The last data block. -/
theorem lastBlock_mid (g : Good o fk) {w : TW} {es : List (Bytes × Bytes)} (t : Took o fk w es) (hne : es ≠ [])
    (hs : es.Pairwise (fun x y => o.ord x.1 < o.ord y.1)) :
    ∃ T, Mid o fk (w.lastBlock o) T [] [] ∧ (T.map Blk.ents).flatten = es := by
  obtain ⟨T, P, cur, m, hes, hn, hne'⟩ := t
  have hsPc : (P ++ cur).Pairwise (fun x y => o.ord x.1 < o.ord y.1) := by rw [hes] at hs; exact (List.pairwise_append.1 hs).2.1
  unfold TW.lastBlock
  have hwn : w.n ≠ 0 := by rw [hn]; intro h; exact hne (List.length_eq_zero_iff.1 h)
  rcases m.st with ⟨hP, hpend, hbw⟩ | ⟨hP, hcur, hin, hbw⟩
  · subst hP
    have hc : cur ≠ [] := by simpa using hne' hne
    have hbn : w.bw.n > 0 := by rw [hbw, (runW_interval o.interval cur).2]; exact List.length_pos_iff.2 hc
    rw [if_pos (Or.inl hbn)]
    obtain ⟨m2, _⟩ := finishBlock_mid g m hc
    obtain ⟨T', m3, hfl, _⟩ := flushPending_mid g m2 (by simpa using hsPc) [] [] (fun _ => rfl) (by intro x hx; cases hx)
      (fun _ h => absurd rfl h) (by intro t _ x hx; cases hx)
    exact ⟨T', m3, by rw [hfl, hes]; simp⟩
  · subst hcur
    have hbn : ¬ (w.bw.n > 0 ∨ w.n = 0) := by
      rw [hbw]
      show ¬ (0 > 0 ∨ w.n = 0)
      omega
    rw [if_neg hbn]
    obtain ⟨T', m3, hfl, _⟩ := flushPending_mid g m (by simpa using hsPc) [] [] (fun _ => rfl) (by intro x hx; cases hx)
      (fun _ h => absurd rfl h) (by intro t _ x hx; cases hx)
    exact ⟨T', m3, by rw [hfl, hes]; simp⟩

theorem metaLoop_none (b : Block) : ∀ n i, metaLoop none b n i = none := by
  intro n
  induction n with
  | zero => intro i; rfl
  | succ n ih =>
    intro i
    unfold metaLoop
    split
    · exact ih _
    · rfl

/-- The filter is found in the metaindex. -/
theorem metaLoop_some (f : Filt) (I : Nat) (hI : 0 < I) (h : Handle) (h1 : h.1 < 2 ^ 63) (h2 : h.2 < 2 ^ 63)
    (hsz : (blockBytes I [(filterKey f, encH h)]).length < 2 ^ 32) :
    metaLoop (some f) (Block.ofBytes (blockBytes I [(filterKey f, encH h)])) (Block.ofBytes (blockBytes I [(filterKey f, encH h)])).fuel
      (BI.whole (Block.ofBytes (blockBytes I [(filterKey f, encH h)]))) = some (f, h) := by
  have hr := rep_of_writer (ord := fun _ : Bytes => (0 : Nat)) hI (es := [(filterKey f, encH h)]) (by simp) (List.pairwise_singleton _ _) hsz
  obtain ⟨n1, n2, n3⟩ := next_stands hr (whole_cut hr) (p := .before) ⟨rfl, rfl, rfl⟩
  have hat : nextAt 0 [(filterKey f, encH h)].length .before = .on 0 := rfl
  rw [hat] at n2 n3
  obtain ⟨_, _, _, hk, hv, _⟩ := n3
  unfold Block.fuel metaLoop
  rw [if_pos (by rw [n2]; rfl)]
  dsimp only
  have hk' : keyOf [(filterKey f, encH h)] 0 = filterKey f := rfl
  have hv' : valOf [(filterKey f, encH h)] 0 = encH h := rfl
  rw [if_pos (by rw [hk, hk']), hv, hv']
  have := decH_enc h h1 h2 []
  rw [List.append_nil] at this
  rw [this]

/-- **A closed table can be opened, and holds the entries in blocks.** -/
theorem close_open (g : Good o fk) {w : TW} {es : List (Bytes × Bytes)} (t : Took o fk w es) (hne : es ≠ [])
    (hs : es.Pairwise (fun x y => o.ord x.1 < o.ord y.1)) (hlog : ∀ d ∈ (w.close o).log, d.length < 2 ^ 32)
    (hsz : (w.close o).file.length < 2 ^ 63) :
    ∃ r T, openT o (w.close o).file = some r ∧ Table o fk r T ∧ (T.map Blk.ents).flatten = es := by
  obtain ⟨T, m, hfl⟩ := lastBlock_mid g t hne hs
  have hbw : (w.lastBlock o).bw = BW.new o.interval := by
    rcases m.st with ⟨_, _, hb⟩ | ⟨hP, _⟩
    · rw [hb]; rfl
    · exact absurd rfl hP
  generalize hw1 : w.lastBlock o = w1 at m hbw
  -- the filter block
  obtain ⟨x2, l2, e2, fh, hfbw, hfiw, hwf, hfh⟩ : ∃ x2 l2 e2 fh, (w1.writeFilter o).1.bw = w1.bw ∧ (w1.writeFilter o).1.iw = w1.iw ∧
      (w1.writeFilter o) = (e2, fh) ∧ e2.file = w1.file ++ x2 ∧ e2.log = w1.log ++ l2 ∧
      (∀ f, o.filter = some f → (∀ v rest, readRaw o v (e2.file ++ rest) fh = some (w1.fw.finish o.filter)) ∧ fh.1 + fh.2 ≤ e2.file.length ∧ 0 < fh.2 ∧
        w1.fw.finish o.filter ∈ e2.log) := by
    unfold TW.writeFilter
    by_cases hp : (w1.fw.finish o.filter).length > 0
    · rw [if_pos hp]
      have hd : w1.fw.finish o.filter ≠ [] := List.length_pos_iff.1 hp
      refine ⟨_, _, _, _, rfl, rfl, rfl, rfl, rfl, ?_⟩
      intro f hf
      have hpp := packed_pos g false hd
      refine ⟨?_, ?_, ?_, ?_⟩
      · intro v rest
        have := packed_read g v false w1.file rest hd
        show readRaw o v ((w1.file ++ _) ++ rest) _ = _
        rw [List.append_assoc]
        exact this
      · show w1.file.length + ((packed o false _).length - 1) ≤ (w1.file ++ (packed o false _ ++ put4 _)).length
        rw [List.length_append, List.length_append, put4_length]; omega
      · show 0 < (packed o false _).length - 1
        omega
      · exact List.mem_append_right _ (List.mem_singleton.2 rfl)
    · rw [if_neg hp]
      refine ⟨[], [], w1, (0, 0), rfl, rfl, rfl, by simp, by simp, ?_⟩
      intro f hf
      exfalso
      apply hp
      rw [hf]
      unfold FW.finish
      dsimp only
      simp
  obtain ⟨hefile, helog, hfh⟩ := hfh
  rw [hwf] at hfbw hfiw
  dsimp only at hfbw hfiw
  -- the metaindex and the index
  generalize hmd : metaBlock o e2.bw fh = md
  have hmdne : md ≠ [] := by
    rw [← hmd]
    unfold metaBlock
    cases o.filter with
    | none => exact finish_ne _
    | some f =>
      dsimp only
      split
      · exact finish_ne _
      · exact finish_ne _
  have hid : e2.iw.finish = blockBytes 1 (T.map Blk.idx) := by rw [hfiw, m.iw]; rfl
  have hidne : e2.iw.finish ≠ [] := finish_ne _
  generalize hpm : packed o true md ++ put4 (o.crc (packed o true md)) = pm
  generalize hpi : packed o true e2.iw.finish ++ put4 (o.crc (packed o true e2.iw.finish)) = pi
  have hmpos := packed_pos g true hmdne
  have hipos := packed_pos g true hidne
  have hpml : pm.length = (packed o true md).length + 4 := by rw [← hpm, List.length_append, put4_length]
  have hpil : pi.length = (packed o true e2.iw.finish).length + 4 := by rw [← hpi, List.length_append, put4_length]
  generalize hmh : ((e2.file.length, (packed o true md).length - 1) : Handle) = mh
  generalize hih : (((e2.file ++ pm).length, (packed o true e2.iw.finish).length - 1) : Handle) = ih
  have hclose : (w.close o).file = ((e2.file ++ pm) ++ pi) ++ footer mh ih ∧ (w.close o).log = (e2.log ++ [md]) ++ [e2.iw.finish] := by
    unfold TW.close
    rw [hw1]
    dsimp only
    rw [hwf]
    dsimp only
    unfold TW.writeBlock
    dsimp only
    rw [hmd, hpm, hpi, hmh, hih]
    exact ⟨rfl, rfl⟩
  rw [hclose.2] at hlog
  have hflen : (w.close o).file.length = e2.file.length + pm.length + pi.length + (footer mh ih).length := by
    rw [hclose.1, List.length_append, List.length_append, List.length_append]
  have hmh1 : mh.1 < 2 ^ 63 ∧ mh.2 < 2 ^ 63 := by rw [← hmh]; dsimp only; omega
  have hih1 : ih.1 < 2 ^ 63 ∧ ih.2 < 2 ^ 63 := by rw [← hih, List.length_append]; dsimp only; omega
  obtain ⟨hf1, hf2, frest, hf3⟩ := footer_length mh ih hmh1.1 hmh1.2 hih1.1 hih1.2
  have hrm : ∀ v, readRaw o v (w.close o).file mh = some md := by
    intro v
    have := packed_read g v true e2.file (pi ++ footer mh ih) hmdne
    rw [hpm, hmh] at this
    rw [hclose.1, List.append_assoc, List.append_assoc]
    exact this
  have hri : ∀ v, readRaw o v (w.close o).file ih = some e2.iw.finish := by
    intro v
    have := packed_read g v true (e2.file ++ pm) (footer mh ih) hidne
    rw [hpi, hih] at this
    rw [hclose.1, List.append_assoc]
    exact this
  -- opening
  have hopen : openT o (w.close o).file = some ⟨(w.close o).file, mh, ih, metaLoop o.filter (Block.ofBytes md) (Block.ofBytes md).fuel (BI.whole (Block.ofBytes md))⟩ := by
    unfold openT
    rw [if_neg (by omega)]
    have hdrop : (w.close o).file.drop ((w.close o).file.length - 48) = footer mh ih := by
      have : (w.close o).file.length - 48 = (e2.file ++ pm ++ pi).length := by
        rw [hflen, List.length_append, List.length_append]; omega
      rw [this, hclose.1, List.drop_left]
    dsimp only
    rw [hdrop, if_neg (by rw [hf2]; simp), hf3, decH_enc mh hmh1.1 hmh1.2]
    dsimp only
    rw [decH_enc ih hih1.1 hih1.2]
    dsimp only
    rw [hrm true]
  refine ⟨_, T, hopen, ?_, hfl⟩
  have hfile : ∃ rest, (w.close o).file = w1.file ++ rest := ⟨x2 ++ (pm ++ (pi ++ footer mh ih)), by
    rw [hclose.1, hefile]; simp only [List.append_assoc]⟩
  have hlogm : ∀ d ∈ w1.log, d.length < 2 ^ 32 := by
    intro d hd
    exact hlog d (List.mem_append_left _ (List.mem_append_left _ (by rw [helog]; exact List.mem_append_left _ hd)))
  refine ⟨?_, fun t ht => (m.inFile t ht).ne, fun t ht => hlogm _ (m.inFile t ht).logged, ?_, m.upTo, m.before, ?_, ?_, ?_⟩
  · intro t ht v
    obtain ⟨rest, hrest⟩ := hfile
    show readRaw o v (w.close o).file t.h = _
    rw [hrest]
    exact readRaw_append v w1.file rest t.h ((m.inFile t ht).read v)
  · intro t ht
    have h1 := (m.inFile t ht).len
    have h2 : w1.file.length ≤ e2.file.length := by rw [hefile, List.length_append]; omega
    omega
  · show readRaw o true (w.close o).file ih = _
    rw [hri, hid]
  · rw [← hid]
    exact hlog _ (List.mem_append_right _ (List.mem_singleton.2 rfl))
  · intro t ht e he k hk fl
    unfold TR.refuses
    dsimp only
    cases hof : o.filter with
    | none => rw [metaLoop_none]
    | some f =>
      obtain ⟨q1, q2, q3, q4⟩ := hfh f hof
      have hmd' : md = blockBytes o.interval [(filterKey f, encH fh)] := by
        rw [← hmd]
        unfold metaBlock
        rw [hof]
        dsimp only
        rw [if_pos q3, hfbw, hbw]; rfl
      have hmsz : (blockBytes o.interval [(filterKey f, encH fh)]).length < 2 ^ 32 := by
        rw [← hmd']
        exact hlog _ (List.mem_append_left _ (List.mem_append_right _ (List.mem_singleton.2 rfl)))
      rw [hmd', metaLoop_some f o.interval g.interval fh (by omega) (by omega) hmsz]
      dsimp only
      by_cases hfl' : fl = true
      · rw [if_pos hfl']
        obtain ⟨segs, s1, s2, s3, s4⟩ := m.filter f hof
        rw [if_pos rfl, List.append_nil] at s3
        have hfsz : (w1.fw.finish (some f)).length < 2 ^ 32 := by
          rw [← hof]
          exact hlog _ (List.mem_append_left _ (List.mem_append_left _ q4))
        obtain ⟨b, hb1, hb2⟩ := filterBlock_contains g hof s1 hfsz
        have hrd : readRaw o true (w.close o).file fh = some (w1.fw.finish (some f)) := by
          rw [hclose.1, List.append_assoc, List.append_assoc, q1 true, hof]
        rw [hrd]
        show (match FB.ofBytes (w1.fw.finish (some f)) with | none => false | some b => !(b.contains f t.h.1 k)) = false
        rw [hb1]
        dsimp only
        rw [hb2 t.h.1 k e.1 (s3 (t.ents, t.h) (List.mem_map.2 ⟨t, ht, rfl⟩) e he) hk]
        rfl
      · rw [if_neg hfl']

end Verif.Tab
