import Verif.Tab.BlockWrite

/-! # The block written holds the entries -/

namespace Verif.Tab
open Verif.Bytes Verif.Store

variable {O : Type} [LinearOrder O]

theorem read_uvarint (n : Nat) (hn : n < 2 ^ 63) (rest : Bytes) : readUvarint 0 0 (uvarint n ++ rest) = some (n, rest) := by
  have := readUvarint_spec rest 8 0 0 n (by
    have : (128 : Nat) ^ (8 + 1) = 2 ^ 63 := by norm_num
    omega) (by omega)
  simpa using this

theorem uvarint_zero : uvarint 0 = [0] := by
  unfold uvarint; simp

/-- An entry is read as it was written. -/
theorem entry_read (b : Block) (off s : Nat) (e : Bytes × Bytes) (rest : Bytes) (hs : s < 2 ^ 63) (h1 : e.1.length < 2 ^ 63) (h2 : e.2.length < 2 ^ 63)
    (hoff : off < b.roff) (hlen : off ≤ b.data.length) (hd : b.data.drop off = encEntry s e ++ rest) (hr : off + (encEntry s e).length ≤ b.roff) :
    b.entry off = .ent ⟨e.1.drop s, e.2, s, (encEntry s e).length⟩ := by
  have hlen2 : b.data.length - off = (encEntry s e).length + rest.length := by
    have := congrArg List.length hd
    simpa using this
  have hsplit : encEntry s e ++ rest = uvarint s ++ (uvarint (e.1.length - s) ++ (uvarint e.2.length ++ (e.1.drop s ++ (e.2 ++ rest)))) := by
    unfold encEntry; simp only [List.append_assoc]
  have hel : (encEntry s e).length = (uvarint s).length + ((uvarint (e.1.length - s)).length + ((uvarint e.2.length).length + ((e.1.length - s) + e.2.length))) := by
    unfold encEntry; simp only [List.length_append, List.length_drop]
  unfold Block.entry
  rw [if_neg (by omega), hd, hsplit, read_uvarint s hs]
  dsimp only
  rw [read_uvarint _ (by omega)]
  dsimp only
  rw [read_uvarint _ h2]
  dsimp only
  have hm : b.data.length - off - (e.1.drop s ++ (e.2 ++ rest)).length + (e.1.length - s) + e.2.length = (encEntry s e).length := by
    rw [hlen2, hel]; simp only [List.length_append, List.length_drop]; omega
  rw [hm, if_neg (by omega)]
  have hk : (e.1.drop s ++ (e.2 ++ rest)).take (e.1.length - s) = e.1.drop s := by
    have : e.1.length - s = (e.1.drop s).length := by simp
    rw [this, List.take_left]
  have hv : ((e.1.drop s ++ (e.2 ++ rest)).drop (e.1.length - s)).take e.2.length = e.2 := by
    have : e.1.length - s = (e.1.drop s).length := by simp
    rw [this, List.drop_left, List.take_left]
  rw [hk, hv]

/-- The key at a restart point is read as it was written. -/
theorem restartKey_read (b : Block) (off : Nat) (e : Bytes × Bytes) (rest : Bytes) (h1 : e.1.length < 2 ^ 63) (h2 : e.2.length < 2 ^ 63)
    (hd : b.data.drop off = encEntry 0 e ++ rest) : b.restartKey off = e.1 := by
  have hsplit : b.data.drop (off + 1) = uvarint e.1.length ++ (uvarint e.2.length ++ (e.1 ++ (e.2 ++ rest))) := by
    rw [← List.drop_drop, hd]
    unfold encEntry
    rw [uvarint_zero]
    simp
  unfold Block.restartKey
  rw [hsplit, read_uvarint _ h1]
  dsimp only
  rw [read_uvarint _ h2]
  dsimp only
  rw [List.take_left]

/-- The bytes of a block of entries. -/
def blockBytes (I : Nat) (es : List (Bytes × Bytes)) : Bytes := (runW I es).finish

section
variable {ord : Bytes → O} {I : Nat} {es : List (Bytes × Bytes)}

theorem blockBytes_eq (hne : es ≠ []) : blockBytes I es =
    (runW I es).buf ++ (((runW I es).restarts ++ [(runW I es).restarts.length]).map put4).flatten := by
  have hn := (runW_interval I es).2
  unfold blockBytes BW.finish
  rw [if_neg (by rw [hn]; intro h; exact hne (List.length_eq_zero_iff.1 h))]

theorem ofBytes_eq (hne : es ≠ []) (hsz : (blockBytes I es).length < 2 ^ 32) :
    (Block.ofBytes (blockBytes I es)).data = blockBytes I es ∧
    (Block.ofBytes (blockBytes I es)).rlen = (runW I es).restarts.length ∧
    (Block.ofBytes (blockBytes I es)).roff = (runW I es).buf.length := by
  have hb := blockBytes_eq (I := I) hne
  have hl : (blockBytes I es).length = (runW I es).buf.length + 4 * ((runW I es).restarts.length + 1) := by
    rw [hb, List.length_append, flat4_length, List.length_append]; rfl
  have hg : get4 ((blockBytes I es).drop ((blockBytes I es).length - 4)) = (runW I es).restarts.length := by
    have h1 : (blockBytes I es).length - 4 = (runW I es).buf.length + ((((runW I es).restarts).map put4).flatten).length := by
      rw [hl, flat4_length]; omega
    rw [h1, hb, ← List.drop_drop, List.drop_left, List.map_append, List.flatten_append, List.drop_left]
    show get4 (put4 (runW I es).restarts.length ++ []) = _
    exact get4_put4 _ (by omega) _
  unfold Block.ofBytes
  dsimp only
  rw [hg]
  exact ⟨rfl, rfl, by omega⟩

/-- **The block holds the entries.** -/
theorem rep_of_writer (hI : 0 < I) (hne : es ≠ []) (hs : es.Pairwise (fun x y => ord x.1 < ord y.1))
    (hsz : (blockBytes I es).length < 2 ^ 32) :
    Rep ord (Block.ofBytes (blockBytes I es)) es.length (keyOf es) (valOf es) (offOf I es) (startOf I es) := by
  obtain ⟨hdata, hrlen, hroff⟩ := ofBytes_eq hne hsz
  have hb := blockBytes_eq (I := I) hne
  have hpos : 0 < es.length := List.length_pos_iff.2 hne
  have htake : es.take es.length = es := List.take_length
  have hres : (runW I es).restarts = (starts I es).map (offOf I es) := by
    have := restarts_eq I es es.length (le_refl _)
    rw [htake] at this; exact this
  have hoffn : offOf I es es.length = (runW I es).buf.length := by unfold offOf; rw [htake]
  have hbl : (runW I es).buf.length ≤ (blockBytes I es).length := by rw [hb, List.length_append]; omega
  have hmono : ∀ j, j < es.length → offOf I es (j + 1) = offOf I es j + (encEntry (shareOf I es j) (es.getD j ([], []))).length := by
    intro j hj
    unfold offOf
    rw [(runW_succ I es hj).1, List.length_append]
  have hdrop : ∀ j, j < es.length → ∃ rest, (blockBytes I es).drop (offOf I es j) = encEntry (shareOf I es j) (es.getD j ([], [])) ++ rest := by
    intro j hj
    obtain ⟨r1, hr1⟩ := buf_prefix I es (j := j + 1) es.length (by omega) (le_refl _)
    rw [htake, (runW_succ I es hj).1] at hr1
    refine ⟨r1 ++ (((runW I es).restarts ++ [(runW I es).restarts.length]).map put4).flatten, ?_⟩
    rw [hb, hr1]
    unfold offOf
    rw [List.append_assoc, List.append_assoc, List.drop_left]
  have hle : ∀ j, j ≤ es.length → offOf I es j ≤ (runW I es).buf.length := by
    intro j hj
    obtain ⟨r1, hr1⟩ := buf_prefix I es (j := j) es.length hj (le_refl _)
    rw [htake] at hr1
    rw [hr1]; unfold offOf; rw [List.length_append]; omega
  have hsmall : ∀ j, j < es.length → (keyOf es j).length < 2 ^ 63 ∧ (valOf es j).length < 2 ^ 63 ∧ shareOf I es j < 2 ^ 63 := by
    intro j hj
    have h1 := hmono j hj
    have h2 := hle (j + 1) (by omega)
    have hel : (encEntry (shareOf I es j) (es.getD j ([], []))).length ≥ ((keyOf es j).length - shareOf I es j) + (valOf es j).length := by
      unfold encEntry keyOf valOf; simp only [List.length_append, List.length_drop]; omega
    have hsl : ∀ q, shareOf I es q ≤ (keyOf es (q - 1)).length ∧ shareOf I es q ≤ (keyOf es q).length := by
      have hsh : ∀ a b : Bytes, shared a b ≤ a.length ∧ shared a b ≤ b.length := by
        intro a
        induction a with
        | nil => intro b; simp [shared]
        | cons x a ih =>
          intro b
          cases b with
          | nil => simp [shared]
          | cons y b =>
            by_cases hxy : x = y
            · have := ih b; simp [shared, hxy]; omega
            · simp [shared, hxy]
      intro q
      unfold shareOf
      split
      · omega
      · exact hsh _ _
    have hkey : ∀ q, q ≤ j → (keyOf es q).length ≤ offOf I es (q + 1) := by
      intro q
      induction q with
      | zero =>
        intro _
        have g1 := hmono 0 (by omega)
        have g2 : shareOf I es 0 = 0 := by unfold shareOf; simp
        have : (encEntry (shareOf I es 0) (es.getD 0 ([], []))).length ≥ (keyOf es 0).length := by
          rw [g2]; unfold encEntry keyOf; simp only [List.length_append, List.length_drop]; omega
        omega
      | succ q ih =>
        intro hq
        have g1 := hmono (q + 1) (by omega)
        have g2 := ih (by omega)
        have g3 := (hsl (q + 1)).1
        have : (encEntry (shareOf I es (q + 1)) (es.getD (q + 1) ([], []))).length ≥ (keyOf es (q + 1)).length - shareOf I es (q + 1) := by
          unfold encEntry keyOf; simp only [List.length_append, List.length_drop]; omega
        have g4 : keyOf es (q + 1 - 1) = keyOf es q := rfl
        rw [g4] at g3
        omega
    have := hkey j (le_refl _)
    have := (hsl j).2
    omega
  have hst : ∀ r, r < (starts I es).length → startOf I es r ∈ starts I es := by
    intro r hr
    unfold startOf
    rw [List.getD_eq_getElem?_getD, List.getElem?_eq_getElem hr]
    exact List.getElem_mem hr
  have hrl : (Block.ofBytes (blockBytes I es)).rlen = (starts I es).length := by rw [hrlen, hres, List.length_map]
  have hshare0 : ∀ j, j % I = 0 → shareOf I es j = 0 := by intro j hj; unfold shareOf; rw [if_pos hj]
  have hfl : ∀ r, r < (starts I es).length + 1 → (Block.ofBytes (blockBytes I es)).restart r =
      ((starts I es).map (offOf I es) ++ [(starts I es).length]).getD r 0 := by
    intro r hr
    unfold Block.restart
    rw [hdata, hroff, hb, ← List.drop_drop, List.drop_left, hres, List.length_map]
    have hlt : r < ((starts I es).map (offOf I es) ++ [(starts I es).length]).length := by simp; omega
    have := get4_flat ((starts I es).map (offOf I es) ++ [(starts I es).length]) (by
      intro x hx
      rcases List.mem_append.1 hx with h1 | h1
      · obtain ⟨j, hj, rfl⟩ := List.mem_map.1 h1
        have := hle j (Nat.le_of_lt ((mem_starts I es).1 hj).1)
        omega
      · have hx : x = (starts I es).length := by simpa using h1
        have h2 : (blockBytes I es).length = (runW I es).buf.length + 4 * ((runW I es).restarts.length + 1) := by
          rw [hb, List.length_append, flat4_length, List.length_append]; rfl
        rw [hres, List.length_map] at h2
        omega) [] r hlt
    rw [List.append_nil] at this
    rw [this, List.getD_eq_getElem?_getD, List.getElem?_eq_getElem hlt]; rfl
  have hmem0 : 0 ∈ starts I es := (mem_starts I es).2 ⟨hpos, by simp⟩
  have hstlt : ∀ r, r < (starts I es).length → startOf I es r < es.length := fun r hr => ((mem_starts I es).1 (hst r hr)).1
  have hrestart : ∀ r, r < (starts I es).length → (Block.ofBytes (blockBytes I es)).restart r = offOf I es (startOf I es r) := by
    intro r hr
    rw [hfl r (by omega)]
    unfold startOf
    simp only [List.getD_eq_getElem?_getD]
    rw [List.getElem?_append_left (by simpa using hr), List.getElem?_map, List.getElem?_eq_getElem hr]
    rfl
  have hstm : ∀ r q, r < q → q < (starts I es).length → startOf I es r < startOf I es q := by
    intro r q hrq hq
    have := List.pairwise_iff_getElem.1 (starts_sorted I es) r q (by omega) hq hrq
    unfold startOf
    rw [List.getD_eq_getElem?_getD, List.getD_eq_getElem?_getD, List.getElem?_eq_getElem hq, List.getElem?_eq_getElem (by omega : r < _)]
    exact this
  refine ⟨hpos, ?_, ?_, ?_, ?_, ?_, ?_, ?_, ?_, ?_, ?_, ?_, ?_, ?_, ?_⟩
  · rfl
  · rw [hroff, hoffn]
  · intro j hj
    have := encEntry_pos (shareOf I es j) (es.getD j ([], []))
    have := hmono j hj
    omega
  · rw [hroff, hdata]; exact hbl
  · intro j hj
    obtain ⟨rest, hrest⟩ := hdrop j hj
    obtain ⟨s1, s2, s3⟩ := hsmall j hj
    have hm := hmono j hj
    have hp := encEntry_pos (shareOf I es j) (es.getD j ([], []))
    have hl1 := hle (j + 1) (by omega)
    refine ⟨shareOf I es j, (keyOf es j).drop (shareOf I es j), ?_, ?_, ?_, ?_⟩
    · rw [entry_read _ (offOf I es j) (shareOf I es j) (es.getD j ([], [])) rest s3 s1 s2 (by rw [hroff]; omega) (by rw [hdata]; omega)
        (by rw [hdata]; exact hrest) (by rw [hroff]; omega), hm, Nat.add_sub_cancel_left]
      rfl
    · unfold shareOf
      by_cases h0 : j % I = 0
      · rw [if_pos h0]; simp
      · rw [if_neg h0, shared_take, List.take_append_drop]
    · rintro rfl; exact hshare0 0 (by simp)
    · intro r hr hrj
      rw [hrl] at hr
      have := ((mem_starts I es).1 (hst r hr)).2
      rw [hrj] at this
      exact hshare0 j this
  · intro j hj
    obtain ⟨rest, hrest⟩ := hdrop j hj
    have hm := hmono j hj
    have hel : encEntry (shareOf I es j) (es.getD j ([], [])) = (uvarint (shareOf I es j) ++ (uvarint ((keyOf es j).length - shareOf I es j) ++
        (uvarint (valOf es j).length ++ (keyOf es j).drop (shareOf I es j)))) ++ valOf es j := by
      unfold encEntry keyOf valOf; simp only [List.append_assoc]
    have hll := congrArg List.length hel
    rw [List.length_append] at hll
    refine ⟨by omega, ?_⟩
    have he : offOf I es (j + 1) - (valOf es j).length = offOf I es j + (uvarint (shareOf I es j) ++ (uvarint ((keyOf es j).length - shareOf I es j) ++
        (uvarint (valOf es j).length ++ (keyOf es j).drop (shareOf I es j)))).length := by omega
    rw [hdata, he, ← List.drop_drop, hrest, hel, List.append_assoc, List.drop_left, List.take_left]
  · rw [hrl]; exact List.length_pos_of_mem hmem0
  · obtain ⟨r, hr, he⟩ := List.getElem_of_mem hmem0
    rcases Nat.eq_zero_or_pos r with h0 | h0
    · subst h0
      unfold startOf
      rw [List.getD_eq_getElem?_getD, List.getElem?_eq_getElem hr]; exact he
    · have := hstm 0 r h0 hr
      have h2 : startOf I es r = 0 := by
        unfold startOf
        rw [List.getD_eq_getElem?_getD, List.getElem?_eq_getElem hr]; exact he
      omega
  · intro r hr; rw [hrl] at hr; exact hstm r (r + 1) (by omega) hr
  · intro r hr; rw [hrl] at hr; exact hstlt r hr
  · intro r hr; rw [hrl] at hr; exact hrestart r hr
  · rw [hrl, hfl _ (by omega), hroff]
    have h1 : ((starts I es).map (offOf I es) ++ [(starts I es).length]).getD (starts I es).length 0 = (starts I es).length := by
      rw [List.getD_eq_getElem?_getD, List.getElem?_append_right (by simp)]
      simp
    rw [h1]
    have h2 : (starts I es).length ≤ es.length := by
      unfold starts
      have := List.length_filter_le (fun j => decide (j % I = 0)) (List.range es.length)
      simpa using this
    have h3 : ∀ j, j ≤ es.length → j ≤ offOf I es j := by
      intro j
      induction j with
      | zero => intro _; omega
      | succ j ih =>
        intro hj
        have := encEntry_pos (shareOf I es j) (es.getD j ([], []))
        have := hmono j (by omega)
        have := ih (by omega)
        omega
    have := h3 es.length (le_refl _)
    omega
  · intro r hr
    rw [hrl] at hr
    obtain ⟨rest, hrest⟩ := hdrop _ (hstlt r hr)
    obtain ⟨s1, s2, _⟩ := hsmall _ (hstlt r hr)
    rw [hshare0 _ ((mem_starts I es).1 (hst r hr)).2] at hrest
    exact restartKey_read _ _ (es.getD (startOf I es r) ([], [])) rest s1 s2 (by rw [hdata]; exact hrest)
  · intro i j hij hj
    have := List.pairwise_iff_getElem.1 hs i j (by omega) hj hij
    unfold keyOf
    rw [List.getD_eq_getElem?_getD, List.getD_eq_getElem?_getD, List.getElem?_eq_getElem hj, List.getElem?_eq_getElem (by omega : i < _)]
    exact this

end

end Verif.Tab
