import Verif.Wal.JournalLemmas

/-! # The journal of the database (C106) -/

namespace Verif.Wal

theorem canon_start (B : Nat) (crc : List Nat → Nat) (strict check : Bool) (t : List Nat) (hB : 7 < B) : readFile B crc strict check t = recover B crc strict check none (canon B 0 t) := by
  unfold readFile
  by_cases ht : t = []
  · subst ht
    apply recover_of_eq
    simp [nextChunk, canon]
  · rw [← recover_full B crc strict check none t hB ht, canon_full]
    apply recover_of_eq
    have hc : ¬ (B = 0 ∨ t = []) := by rintro (h | h); · omega
                                       · exact ht h
    simp [nextChunk, hc]

theorem recover_encs (B : Nat) (crc : List Nat → Nat) (strict check : Bool) (hB : 7 < B ∧ B ≤ 65535) : ∀ (ps : List (List Nat)) (o : Nat), o ≤ B →
    recover B crc strict check none (canon B o (encs B crc o ps)) = (ps, false)
  | [], o, ho => by
    rw [recover_eq]
    have : nextChunk B crc strict check true (canon B o []) = (.eof, canon B o []) := by
      simp [nextChunk, canon, atEnd]
    rw [encs, Option.isNone_none, this]
  | p :: ps, o, ho => by
    rw [encs, recover_enc B crc strict check hB o ho, recover_encs B crc strict check hB ps _ (enc_fits B crc hB.1 o p)]

/-- **C106 (part).** Whatever records are written, in whatever parts: reading the file gives exactly these records, in order, with every setting of the reader. -/
theorem journal_round_trip (B : Nat) (crc : List Nat → Nat) (strict check : Bool) (hB : 7 < B ∧ B ≤ 65535) (recs : List (List (List Nat))) :
    readFile B crc strict check (journal B crc recs) = (recs.map List.flatten, false) := by
  rw [canon_start B crc strict check _ hB.1, journal_enc B crc hB.1]
  exact recover_encs B crc strict check hB _ 0 (by omega)

theorem cut_encs (B : Nat) (crc : List Nat → Nat) (check : Bool) (hB : 7 < B ∧ B ≤ 65535) : ∀ (ps : List (List Nat)) (o k : Nat), o ≤ B →
    ∃ m ≤ ps.length, recover B crc false check none (canon B o ((encs B crc o ps).take k)) = (ps.take m, false) ∧
      (encs B crc o (ps.take m)).length ≤ k ∧ ∀ i, i ≤ ps.length → (encs B crc o (ps.take i)).length ≤ k → i ≤ m
  | [], o, k, ho => by
    refine ⟨0, le_refl _, ?_, by simp [encs], fun i hi _ => by simpa using hi⟩
    have := recover_encs B crc false check hB [] o ho
    simpa [encs] using this
  | p :: ps, o, k, ho => by
    by_cases hk : k < (enc B crc o p).1.length
    · refine ⟨0, by simp, ?_, by simp [encs], ?_⟩
      · rw [encs, List.take_append_of_le_length (by omega), torn_enc B crc check hB o ho p k hk]
        simp
      · intro i hi hl
        cases i with
        | zero => exact le_refl _
        | succ i => simp only [List.take_succ_cons, encs, List.length_append] at hl; omega
    · obtain ⟨m, hm, h1, h2, h3⟩ := cut_encs B crc check hB ps (enc B crc o p).2 (k - (enc B crc o p).1.length) (enc_fits B crc hB.1 o p)
      refine ⟨m + 1, by simp; omega, ?_, ?_, ?_⟩
      · rw [encs, List.take_append, List.take_of_length_le (by omega), recover_enc B crc false check hB o ho, h1]
        simp
      · simp only [List.take_succ_cons, encs, List.length_append]; omega
      · intro i hi hl
        cases i with
        | zero => omega
        | succ i =>
          simp only [List.take_succ_cons, encs, List.length_append] at hl
          have := h3 i (by simpa using hi) (by omega)
          omega

/-- **C106 (part).** A crash leaves the first `k` bytes of the file, for any `k`. Reading it then gives, without failing, the first `m` records, and `m` is as large as can be: every record whose last byte is there is read, and of no other anything. -/
theorem journal_crash (B : Nat) (crc : List Nat → Nat) (check : Bool) (hB : 7 < B ∧ B ≤ 65535) (recs : List (List (List Nat))) (k : Nat) :
    ∃ m ≤ recs.length, readFile B crc false check ((journal B crc recs).take k) = ((recs.take m).map List.flatten, false) ∧
      (journal B crc (recs.take m)).length ≤ k ∧ ∀ i, i ≤ recs.length → (journal B crc (recs.take i)).length ≤ k → i ≤ m := by
  obtain ⟨m, hm, h1, h2, h3⟩ := cut_encs B crc check hB (recs.map List.flatten) 0 k (by omega)
  refine ⟨m, by simpa using hm, ?_, ?_, ?_⟩
  · rw [canon_start B crc false check _ hB.1, journal_enc B crc hB.1, h1, List.map_take]
  · rw [journal_enc B crc hB.1, List.map_take]; exact h2
  · intro i hi hl
    rw [journal_enc B crc hB.1, List.map_take] at hl
    exact h3 i (by simpa using hi) hl

/-- The file only grows: what a record left in it stays when more records are written. -/
theorem journal_grows (B : Nat) (crc : List Nat → Nat) (hB : 7 < B) (recs more : List (List (List Nat))) : journal B crc recs <+: journal B crc (recs ++ more) := by
  unfold journal
  rw [List.foldl_append]
  have hi : Idle B (recs.foldl (putRec B crc) {}) := by
    have : ∀ (rs : List (List (List Nat))) (w : WSt), Idle B w → Idle B (rs.foldl (putRec B crc) w) := by
      intro rs
      induction rs with
      | nil => exact fun w h => h
      | cons r rs ih => exact fun w h => ih _ (putRec_enc B crc hB w h r).2.2
    exact this recs {} (idle_start B)
  exact ⟨_, (foldl_enc B crc hB more _ hi).symm⟩

theorem recover_then (B : Nat) (crc : List Nat → Nat) (strict check : Bool) (hB : 7 < B ∧ B ≤ 65535) (t : List Nat) : ∀ (ps : List (List Nat)) (o : Nat), o ≤ B →
    ∃ o' ≤ B, recover B crc strict check none (canon B o (encs B crc o ps ++ t)) =
      (ps ++ (recover B crc strict check none (canon B o' t)).1, (recover B crc strict check none (canon B o' t)).2)
  | [], o, ho => ⟨o, ho, by simp [encs]⟩
  | p :: ps, o, ho => by
    obtain ⟨o', h1, h2⟩ := recover_then B crc strict check hB t ps _ (enc_fits B crc hB.1 o p)
    refine ⟨o', h1, ?_⟩
    rw [encs, List.append_assoc, recover_enc B crc strict check hB o ho, h2]
    simp

theorem inBlock_nofail (crc : List Nat → Nat) (check first : Bool) (s : RSt) : (inBlock crc false check first s).1 ≠ .fail := by
  have hc : ∀ b, corrupt false b = .skip := by intro b; simp [corrupt]
  unfold inBlock
  dsimp only
  simp only [hc]
  split_ifs <;> simp

theorem nextChunk_nofail (B : Nat) (crc : List Nat → Nat) (check first : Bool) (s : RSt) : (nextChunk B crc false check first s).1 ≠ .fail := by
  have ha : atEnd false first ≠ .fail := by unfold atEnd corrupt; split <;> simp
  unfold nextChunk
  split
  · exact inBlock_nofail _ _ _ _
  · split
    · exact ha
    · dsimp only
      split
      · exact ha
      · split
        · exact inBlock_nofail _ _ _ _
        · exact ha

theorem recover_nofail (B : Nat) (crc : List Nat → Nat) (check : Bool) (acc : Option (List Nat)) (s : RSt) : (recover B crc false check acc s).2 = false := by
  fun_induction recover B crc false check acc s with
  | case1 => assumption
  | case2 => assumption
  | case3 => assumption
  | case4 => rfl
  | case5 acc s s' h =>
    have := nextChunk_nofail B crc check acc.isNone s
    rw [h] at this
    exact absurd rfl this

/-- **C106 (part).** Whatever follows the records in the file — a torn record, zeros, rubbish — the reading does not fail, and it begins with all of them. -/
theorem journal_then_anything (B : Nat) (crc : List Nat → Nat) (check : Bool) (hB : 7 < B ∧ B ≤ 65535) (recs : List (List (List Nat))) (junk : List Nat) :
    recs.map List.flatten <+: (readFile B crc false check (journal B crc recs ++ junk)).1 ∧ (readFile B crc false check (journal B crc recs ++ junk)).2 = false := by
  refine ⟨?_, recover_nofail ..⟩
  rw [canon_start B crc false check _ hB.1, journal_enc B crc hB.1]
  obtain ⟨o', _, h⟩ := recover_then B crc false check hB junk (recs.map List.flatten) 0 (by omega)
  rw [h]
  exact List.prefix_append _ _

theorem zeros_recover (B : Nat) (crc : List Nat → Nat) (check : Bool) : ∀ (n : Nat) (s : RSt), s.size ≤ n → (∀ x ∈ s.blk, x = 0) → (∀ x ∈ s.rest, x = 0) → recover B crc false check none s = ([], false) := by
  have hget : ∀ (l : List Nat) (i : Nat), (∀ x ∈ l, x = 0) → l.getD i 0 = 0 := by
    intro l i hl
    by_cases h : i < l.length
    · simp [List.getD, h, hl _ (List.getElem_mem h)]
    · simp [List.getD, List.getElem?_eq_none (Nat.le_of_not_lt h)]
  have hin : ∀ s : RSt, (∀ x ∈ s.blk, x = 0) → inBlock crc false check true s = (.skip, { s with blk := [] }) := by
    intro s hs
    have hd : ∀ x ∈ s.blk.drop 4, x = 0 := fun x hx => hs x (List.mem_of_mem_drop hx)
    have h4 : un4 s.blk = 0 := by unfold un4; rw [hget _ _ hs, hget _ _ hs, hget _ _ hs, hget _ _ hs]
    have h2 : un2 (s.blk.drop 4) = 0 := by unfold un2; rw [hget _ _ hd, hget _ _ hd]
    unfold inBlock
    dsimp only
    rw [h4, h2, hget _ _ hs, if_pos ⟨rfl, rfl, rfl⟩]
    rfl
  intro n
  induction n using Nat.strongRecOn with
  | ind n ih =>
    intro s hsz hb hr
    rw [recover_eq]
    unfold nextChunk
    simp only [Option.isNone_none]
    by_cases h7 : 7 ≤ s.blk.length
    · rw [if_pos h7, hin s hb]
      dsimp only
      refine ih (n - 1) ?_ _ ?_ (by simp) hr
      · unfold RSt.size at hsz; omega
      · unfold RSt.size at hsz ⊢; simp only [List.length_nil]; omega
    · rw [if_neg h7]
      by_cases hn : s.n < B ∧ 0 < s.n
      · rw [if_pos hn]; simp [atEnd]
      · rw [if_neg hn]
        by_cases h0 : (s.rest.take B).length = 0
        · rw [if_pos h0]; simp [atEnd]
        · rw [if_neg h0]
          by_cases h8 : 7 ≤ (s.rest.take B).length
          · rw [if_pos h8, hin _ (fun x hx => hr x (List.mem_of_mem_take hx))]
            dsimp only
            rw [List.length_take] at h8 h0
            refine ih (n - 1) ?_ _ ?_ (by simp) (fun x hx => hr x (List.mem_of_mem_drop hx))
            · unfold RSt.size at hsz; omega
            · unfold RSt.size at hsz ⊢; simp only [List.length_nil, List.length_drop]; omega
          · rw [if_neg h8]; simp [atEnd]

/-- **C106 (part).** When a crash leaves zeros after the records, as file systems do that extend a file before its data is written, exactly the records are read. -/
theorem journal_then_zeros (B : Nat) (crc : List Nat → Nat) (check : Bool) (hB : 7 < B ∧ B ≤ 65535) (recs : List (List (List Nat))) (n : Nat) :
    readFile B crc false check (journal B crc recs ++ zeros n) = (recs.map List.flatten, false) := by
  rw [canon_start B crc false check _ hB.1, journal_enc B crc hB.1]
  obtain ⟨o', _, h⟩ := recover_then B crc false check hB (zeros n) (recs.map List.flatten) 0 (by omega)
  have hz : ∀ x ∈ zeros n, x = 0 := fun x hx => (List.mem_replicate.mp hx).2
  rw [h, zeros_recover B crc check _ (canon B o' (zeros n)) (le_refl _) (fun x hx => hz x (List.mem_of_mem_take hx)) (fun x hx => hz x (List.mem_of_mem_drop hx))]
  simp

end Verif.Wal
