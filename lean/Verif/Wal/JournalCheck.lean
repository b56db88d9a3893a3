import Verif.Wal.JournalExamples

/-!
# The journal of the database: damaged files (C106)

Whatever is in the file: with the checksums on, nothing is read whose checksum
does not agree.
-/

namespace Verif.Wal

theorem take7_eq (h : List Nat) (hb : ∀ b ∈ h, b < 256) (hl : 7 ≤ h.length) :
    h.take 7 = le4 (un4 h) ++ le2 (un2 (h.drop 4)) ++ [h.getD 6 0] := by
  match h, hl with
  | a :: b :: c :: d :: e :: f :: g :: t, _ =>
    have h1 := hb a (by simp); have h2 := hb b (by simp); have h3 := hb c (by simp)
    have h4 := hb d (by simp); have h5 := hb e (by simp); have h6 := hb f (by simp)
    simp [le4, le2, un4, un2]
    omega

/-- The pieces of a record that was read: each lies in the file, right after a
header with its type, its length and its checksum, and the first is marked as
the beginning of a record. -/
def Sound (crc : List Nat → Nat) (file : List Nat) (r : List Nat) : Prop :=
  ∃ pieces : List (Nat × List Nat), r = (pieces.map Prod.snd).flatten
    ∧ (∀ e ∈ pieces, header crc e.1 e.2 ++ e.2 <:+: file)
    ∧ (∀ e ∈ pieces.head?, e.1 = 1 ∨ e.1 = 2)
    ∧ (∀ e ∈ pieces.getLast?, e.1 = 1 ∨ e.1 = 4)

/-- The same for the part of a record read so far. -/
def SoundPart (crc : List Nat → Nat) (file : List Nat) (r : Option (List Nat)) : Prop :=
  ∃ pieces : List (Nat × List Nat), r.getD [] = (pieces.map Prod.snd).flatten
    ∧ (r.isSome → pieces ≠ [])
    ∧ (∀ e ∈ pieces, header crc e.1 e.2 ++ e.2 <:+: file)
    ∧ (∀ e ∈ pieces.head?, e.1 = 1 ∨ e.1 = 2)

theorem inBlock_checked (crc : List Nat → Nat) (strict first : Bool) (s : RSt) (p : List Nat)
    (last : Bool) (s' : RSt) (hb : ∀ b ∈ s.blk, b < 256) (h7 : 7 ≤ s.blk.length)
    (h : inBlock crc strict true first s = (.ok p last, s')) :
    ∃ ty, header crc ty p ++ p <+: s.blk ∧ (first = true → ty = 1 ∨ ty = 2)
      ∧ (last = true → ty = 1 ∨ ty = 4) := by
  have hc : ∀ x, corrupt strict x ≠ .ok p last := by
    intro x; unfold corrupt; split <;> simp
  unfold inBlock at h
  dsimp only at h
  split_ifs at h with g1 g2 g3 g4 g5
  · exact absurd (congrArg Prod.fst h) (hc _)
  · exact absurd (congrArg Prod.fst h) (hc _)
  · exact absurd (congrArg Prod.fst h) (hc _)
  · exact absurd (congrArg Prod.fst h) (hc _)
  · exact absurd (congrArg Prod.fst h) (hc _)
  · simp only [Prod.mk.injEq, Res.ok.injEq] at h
    obtain ⟨⟨hp, hl⟩, _⟩ := h
    simp only [true_and, not_not] at g4
    refine ⟨s.blk.getD 6 0, ?_, ?_, ?_⟩
    · have hlen : p.length = un2 (s.blk.drop 4) := by
        rw [← hp, List.length_take, List.length_drop]; omega
      have hu : un2 (s.blk.drop 4) < 65536 := by
        match hs : s.blk, h7 with
        | a :: b :: c :: d :: e :: f :: g :: t, _ =>
          have h5 := hb e (by simp [hs]); have h6 := hb f (by simp [hs])
          simp [un2]; omega
      have htake := take7_eq s.blk hb h7
      rw [g4, hp] at htake
      have hh : header crc (s.blk.getD 6 0) p = s.blk.take 7 := by
        rw [htake, header, hlen, Nat.mod_eq_of_lt (by omega : un2 (s.blk.drop 4) < 2 ^ 16)]
      rw [hh, ← hp]
      refine ⟨(s.blk.drop 7).drop (un2 (s.blk.drop 4)), ?_⟩
      rw [List.append_assoc, List.take_append_drop, List.take_append_drop]
    · intro hf
      by_contra hne
      exact g5 ⟨hf, by omega, by omega⟩
    · intro hf; rw [hf] at hl; simpa using hl

theorem nextChunk_checked (B : Nat) (crc : List Nat → Nat) (strict first : Bool) (s : RSt)
    (p : List Nat) (last : Bool) (s' : RSt) (file : List Nat) (hb : ∀ b ∈ file, b < 256)
    (hblk : s.blk <:+: file) (hrest : s.rest <:+: file)
    (h : nextChunk B crc strict true first s = (.ok p last, s')) :
    ∃ ty, header crc ty p ++ p <:+: file ∧ (first = true → ty = 1 ∨ ty = 2)
      ∧ (last = true → ty = 1 ∨ ty = 4) := by
  have hbs : ∀ l, l <:+: file → ∀ b ∈ l, b < 256 := fun l hl b hx => hb b (hl.subset hx)
  have he : atEnd strict first ≠ .ok p last := by
    unfold atEnd corrupt; split_ifs <;> simp
  have go : ∀ t : RSt, t.blk <:+: file → 7 ≤ t.blk.length →
      inBlock crc strict true first t = (.ok p last, s') →
      ∃ ty, header crc ty p ++ p <:+: file ∧ (first = true → ty = 1 ∨ ty = 2)
        ∧ (last = true → ty = 1 ∨ ty = 4) := by
    intro t ht h7 hh
    obtain ⟨ty, a, b, c⟩ := inBlock_checked crc strict first t p last s' (hbs _ ht) h7 hh
    exact ⟨ty, a.isInfix.trans ht, b, c⟩
  unfold nextChunk at h
  dsimp only at h
  split_ifs at h with g1 g2 g3 g4
  · exact go s hblk g1 h
  · exact absurd (congrArg Prod.fst h) he
  · exact absurd (congrArg Prod.fst h) he
  · exact go _ ((List.take_prefix _ _).isInfix.trans hrest) g4 h
  · exact absurd (congrArg Prod.fst h) he

theorem inBlock_infix (crc : List Nat → Nat) (strict check first : Bool) (s : RSt) (file : List Nat)
    (hblk : s.blk <:+: file) : (inBlock crc strict check first s).2.blk <:+: file
      ∧ (inBlock crc strict check first s).2.rest = s.rest := by
  have h0 : ([] : List Nat) <:+: file := List.nil_infix
  have hd : ∀ k, s.blk.drop k <:+: file := fun k => (List.drop_suffix _ _).isInfix.trans hblk
  unfold inBlock
  dsimp only
  split_ifs <;> first | exact ⟨h0, rfl⟩ | exact ⟨hd _, rfl⟩

theorem nextChunk_infix (B : Nat) (crc : List Nat → Nat) (strict check first : Bool) (s : RSt)
    (file : List Nat) (hblk : s.blk <:+: file) (hrest : s.rest <:+: file) :
    (nextChunk B crc strict check first s).2.blk <:+: file
      ∧ (nextChunk B crc strict check first s).2.rest <:+: file := by
  have hr : s.rest.drop B <:+: file := (List.drop_suffix _ _).isInfix.trans hrest
  have ht : s.rest.take B <:+: file := (List.take_prefix _ _).isInfix.trans hrest
  unfold nextChunk
  dsimp only
  split_ifs
  · have := inBlock_infix crc strict check first s file hblk
    exact ⟨this.1, by rw [this.2]; exact hrest⟩
  · exact ⟨hblk, hrest⟩
  · exact ⟨hblk, hrest⟩
  · have := inBlock_infix crc strict check first ⟨s.rest.take B, (s.rest.take B).length, s.rest.drop B⟩ file ht
    exact ⟨this.1, by rw [this.2]; exact hr⟩
  · exact ⟨ht, hr⟩

theorem recover_checked (B : Nat) (crc : List Nat → Nat) (strict : Bool) (file : List Nat)
    (hb : ∀ b ∈ file, b < 256) (acc : Option (List Nat)) (s : RSt) (hblk : s.blk <:+: file)
    (hrest : s.rest <:+: file) (hacc : SoundPart crc file acc) :
    ∀ r ∈ (recover B crc strict true acc s).1, Sound crc file r := by
  have hnone : SoundPart crc file none := ⟨[], by simp, by simp, by simp, by simp⟩
  have hstep : ∀ (acc : Option (List Nat)) (s : RSt) (p : List Nat) (last : Bool) (s' : RSt),
      s.blk <:+: file → s.rest <:+: file → SoundPart crc file acc →
      nextChunk B crc strict true acc.isNone s = (.ok p last, s') →
      ∃ ty pieces, acc.getD [] ++ p = ((pieces ++ [(ty, p)]).map Prod.snd).flatten
        ∧ (∀ e ∈ pieces ++ [(ty, p)], header crc e.1 e.2 ++ e.2 <:+: file)
        ∧ (∀ e ∈ (pieces ++ [(ty, p)]).head?, e.1 = 1 ∨ e.1 = 2)
        ∧ (last = true → ty = 1 ∨ ty = 4) := by
    intro acc s p last s' h1 h2 ⟨ps, q1, q2, q3, q4⟩ h
    obtain ⟨ty, a, b, c⟩ := nextChunk_checked B crc strict _ s p last s' file hb h1 h2 h
    refine ⟨ty, ps, by simp [q1], ?_, ?_, c⟩
    · intro e he
      rcases List.mem_append.mp he with he | he
      · exact q3 e he
      · simp only [List.mem_singleton] at he; subst he; exact a
    · intro e he
      cases ps with
      | nil =>
        simp only [List.nil_append, List.head?_cons, Option.mem_some_iff] at he
        subst he
        apply b
        cases acc with
        | none => rfl
        | some x => exact absurd rfl (q2 rfl)
      | cons q qs => exact q4 e (by simpa using he)
  fun_induction recover B crc strict true acc s with
  | case1 acc s p s' r h ih =>
    have hi := nextChunk_infix B crc strict true acc.isNone s file hblk hrest
    rw [h] at hi
    obtain ⟨ty, pieces, a, b, c, d⟩ := hstep acc s p true s' hblk hrest hacc h
    intro x hx
    rcases List.mem_cons.mp hx with rfl | hx
    · exact ⟨_, a, b, c, by simpa using d rfl⟩
    · exact ih hi.1 hi.2 hnone x hx
  | case2 acc s p last s' h hl ih =>
    have hi := nextChunk_infix B crc strict true acc.isNone s file hblk hrest
    rw [h] at hi
    obtain ⟨ty, pieces, a, b, c, d⟩ := hstep acc s p _ s' hblk hrest hacc h
    exact ih hi.1 hi.2 ⟨_, a, by simp, b, c⟩
  | case3 acc s s' h ih =>
    have hi := nextChunk_infix B crc strict true acc.isNone s file hblk hrest
    rw [h] at hi
    exact ih hi.1 hi.2 hnone
  | case4 => simp
  | case5 => simp

/-- **C106 (damage).** Whatever bytes the file has, with the checksums on every
record that is read consists of pieces that lie in the file under a header with
their checksum, from one that begins a record to one that ends it. -/
theorem journal_checked (B : Nat) (crc : List Nat → Nat) (strict : Bool) (file : List Nat)
    (hb : ∀ b ∈ file, b < 256) :
    ∀ r ∈ (readFile B crc strict true file).1, Sound crc file r :=
  recover_checked B crc strict file hb none _ List.nil_infix (List.infix_refl _)
    ⟨[], by simp, by simp, by simp, by simp⟩

/-- One byte of a record of two bytes has changed: it is not read, and nothing
of its block either. -/
example : readFile 20 sum1 false true (header sum1 1 [1, 2] ++ [1, 2] ++ (header sum1 1 [3] ++ [3])) = ([[1, 2], [3]], false)
    ∧ readFile 20 sum1 false true (header sum1 1 [1, 2] ++ [1, 5] ++ (header sum1 1 [3] ++ [3])) = ([], false) :=
  ⟨recoverN_eq 20 sum1 false true 9 none _ _ (by decide +kernel),
    recoverN_eq 20 sum1 false true 9 none _ _ (by decide +kernel)⟩

end Verif.Wal
