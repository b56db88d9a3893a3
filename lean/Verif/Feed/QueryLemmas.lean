import Verif.Feed.QuerySpec

/-! # Lemmas on queries for logs -/

namespace Verif.Feed

theorem topicFlag_iff (x : Nat) : ∀ (r : List Nat) (flag : Bool), topicFlag x r flag = true ↔ flag = true ∨ x ∈ r
  | [], flag => by simp [topicFlag]
  | t :: ts, flag => by
    rw [topicFlag, topicFlag_iff x ts]
    by_cases h : t = x
    · simp [h]
    · simp [h, Ne.symm h]

theorem topicLoop_iff (tps : List Nat) : ∀ (rest : List (List Nat)) (i : Nat), i + rest.length ≤ tps.length →
    (topicLoop tps i rest = true ↔ ∀ (j t : Nat) (r : List Nat), rest[j]? = some r → tps[i + j]? = some t → r = [] ∨ t ∈ r)
  | [], i, _ => by simp [topicLoop]
  | r :: rest, i, hl => by
    have hl' : i + 1 + rest.length ≤ tps.length := by simp at hl; omega
    have hi : i < tps.length := by simp at hl; omega
    have ih := topicLoop_iff tps rest (i + 1) hl'
    have split : (∀ (j t : Nat) (r' : List Nat), (r :: rest)[j]? = some r' → tps[i + j]? = some t → r' = [] ∨ t ∈ r') ↔
        ((r = [] ∨ tps[i] ∈ r) ∧ ∀ (j t : Nat) (r' : List Nat), rest[j]? = some r' → tps[i + 1 + j]? = some t → r' = [] ∨ t ∈ r') := by
      constructor
      · intro h
        refine ⟨h 0 tps[i] r rfl (by simp [hi]), fun j t r' hr ht => h (j + 1) t r' (by simpa using hr) (by rw [← ht]; congr 1; omega)⟩
      · rintro ⟨h0, h1⟩ j t r' hr ht
        cases j with
        | zero =>
          simp only [List.getElem?_cons_zero, Option.some.injEq] at hr
          subst hr
          have : tps[i] = t := by simpa [hi] using ht
          rw [← this]; exact h0
        | succ j =>
          exact h1 j t r' (by simpa using hr) (by rw [← ht]; congr 1; omega)
    rw [split, topicLoop]
    have hg : tps.getD i 0 = tps[i] := by simp [List.getD, hi]
    rw [hg]
    by_cases hr : r.length = 0
    · have : r = [] := List.length_eq_zero_iff.mp hr
      simp [this, ih]
    · have hne : r ≠ [] := fun h => hr (by simp [h])
      rw [if_neg hr]
      by_cases hf : topicFlag tps[i] r false = true
      · rw [if_pos hf, ih]
        have := (topicFlag_iff tps[i] r false).mp hf
        simp at this
        simp [this]
      · rw [if_neg hf]
        have : tps[i] ∉ r := fun h => hf ((topicFlag_iff _ _ _).mpr (.inr h))
        simp [this, hne]

/-- The filter passes exactly the logs that match. -/
theorem filterLog_iff (topics : List (List Nat)) (l : Log) : filterLog topics l = true ↔ Spec.Matches topics l := by
  unfold filterLog Spec.Matches
  by_cases h : l.topics.length < topics.length
  · simp only [h, if_true, Bool.false_eq_true, false_iff, not_and]; intro h'; omega
  · rw [if_neg h, topicLoop_iff _ _ _ (by omega)]
    simp only [Nat.zero_add]
    exact ⟨fun h' => ⟨by omega, h'⟩, fun h' => h'.2⟩

/-- The loops over a list of entries that match. -/
def scan1 (ps : Nat) : List (Log × Nat × Nat) → QSt → QSt
  | [], s => s
  | e :: es, s =>
    if s.skip > 0 then scan1 ps es { s with skip := s.skip - 1 }
    else if (s.out ++ [e]).length ≥ ps then { s with out := s.out ++ [e], full := true }
    else scan1 ps es { s with out := s.out ++ [e] }

/-- The entries of a block that match. -/
def entries (topics : List (List Nat)) (b : QBlk × Nat) : List (Log × Nat × Nat) :=
  ((b.1.logs.getD []).filter fun l => decide (Spec.Matches topics l)).map fun l => (l, b.1.hash, b.2)

theorem scanLogs_eq (topics : List (List Nat)) (ps hash height : Nat) : ∀ (ls : List Log) (s : QSt),
    scanLogs topics ps hash height ls s = scan1 ps ((ls.filter fun l => decide (Spec.Matches topics l)).map fun l => (l, hash, height)) s
  | [], s => rfl
  | l :: ls, s => by
    rw [scanLogs]
    by_cases hm : Spec.Matches topics l
    · rw [if_pos ((filterLog_iff _ _).mpr hm), List.filter_cons_of_pos (by simpa using hm), List.map_cons, scan1]
      simp only [scanLogs_eq topics ps hash height ls]
    · rw [if_neg (fun h => hm ((filterLog_iff _ _).mp h)), List.filter_cons_of_neg (by simpa using hm), scanLogs_eq]

theorem scan1_append (ps : Nat) : ∀ (a b : List (Log × Nat × Nat)) (s : QSt), s.full = false →
    scan1 ps (a ++ b) s = if (scan1 ps a s).full then scan1 ps a s else scan1 ps b (scan1 ps a s)
  | [], b, s, hs => by simp [scan1, hs]
  | e :: a, b, s, hs => by
    rw [List.cons_append, scan1, scan1]
    by_cases h1 : s.skip > 0
    · simp only [h1, if_true]
      exact scan1_append ps a b _ hs
    · simp only [h1, if_false]
      by_cases h2 : (s.out ++ [e]).length ≥ ps
      · simp only [h2, if_true]
      · simp only [h2, if_false]
        exact scan1_append ps a b _ hs

theorem scanBlocks_eq (topics : List (List Nat)) (ps : Nat) : ∀ (bs : List (QBlk × Nat)) (s : QSt), s.full = false →
    scanBlocks topics ps bs s = scan1 ps (bs.flatMap (entries topics)) s
  | [], s, _ => rfl
  | b :: bs, s, hs => by
    rw [List.flatMap_cons, scan1_append ps _ _ s hs, scanBlocks]
    cases hb : b.1.logs with
    | none =>
      have he : entries topics b = [] := by simp [entries, hb]
      simp only [he, scan1, hs, Bool.false_eq_true, if_false]
      exact scanBlocks_eq topics ps bs s hs
    | some ls =>
      have he : scanLogs topics ps b.1.hash b.2 ls s = scan1 ps (entries topics b) s := by
        rw [scanLogs_eq]; simp [entries, hb]
      simp only [he]
      by_cases hf : (scan1 ps (entries topics b) s).full = true
      · simp [hf]
      · simp only [hf, Bool.false_eq_true, if_false]
        exact scanBlocks_eq topics ps bs _ (by simpa using hf)

/-- The blocks with the heights from `a` to `b`. -/
def slice (bs : List QBlk) (a b : Nat) : List (QBlk × Nat) := ((bs.zipIdx 1).drop (a - 1)).take (b + 1 - a)

theorem slice_append (bs : List QBlk) (a m b : Nat) (ha : 1 ≤ a) (h1 : a ≤ m + 1) (h2 : m ≤ b) :
    slice bs a m ++ slice bs (m + 1) b = slice bs a b := by
  unfold slice
  have e1 : m + 1 - 1 = (a - 1) + (m + 1 - a) := by omega
  have e2 : b + 1 - a = (m + 1 - a) + (b + 1 - (m + 1)) := by omega
  rw [e1, ← List.drop_drop, e2, List.take_add]

theorem blocksByHeight_eq (bs : List QBlk) (a b : Nat) (ha : 1 ≤ a) (h : a ≤ b) :
    (blocksByHeight bs b (b + 1 - a)).reverse = slice bs a b := by
  unfold blocksByHeight slice
  rw [List.reverse_reverse]
  have : (if b > b + 1 - a then b - (b + 1 - a) + 1 else 1) = a := by split <;> omega
  rw [this]

theorem scanPages_eq (topics : List (List Nat)) (ps : Nat) (bs : List QBlk) (start stop : Nat) (s : QSt)
    (h1 : 1 ≤ start) (h2 : start ≤ stop) (hs : s.full = false) :
    scanPages topics ps bs start stop s = scan1 ps ((slice bs start stop).flatMap (entries topics)) s := by
  induction hk : stop + 1 - start using Nat.strong_induction_on generalizing start s with
  | _ k ih =>
    rw [scanPages]
    by_cases hp : stop + 1 - start ≤ 100
    · have hh : heightPage start stop 100 = (stop, stop + 1 - start, true) := by unfold heightPage; rw [if_pos hp]
      rw [hh]
      rw [if_neg (by simp; omega), if_pos (.inl rfl)]
      rw [scanBlocks_eq _ _ _ _ hs, blocksByHeight_eq _ _ _ h1 h2]
    · have hh : heightPage start stop 100 = (start + 100 - 1, 100, false) := by unfold heightPage; rw [if_neg hp]
      rw [hh]
      have hb : (blocksByHeight bs (start + 100 - 1) 100).reverse = slice bs start (start + 100 - 1) := by
        have := blocksByHeight_eq bs start (start + 100 - 1) h1 (by omega)
        rw [← this]; congr 2; omega
      have hcat : slice bs start stop = slice bs start (start + 100 - 1) ++ slice bs (start + 100 - 1 + 1) stop :=
        (slice_append bs start (start + 100 - 1) stop h1 (by omega) (by omega)).symm
      simp only [hb]
      rw [if_neg (by simp), scanBlocks_eq topics ps _ _ hs, hcat, List.flatMap_append, scan1_append ps _ _ s hs]
      by_cases hf : (scan1 ps ((slice bs start (start + 100 - 1)).flatMap (entries topics)) s).full = true
      · rw [if_pos hf, if_pos (.inr hf)]
      · rw [if_neg (by simpa using hf), if_neg hf]
        exact ih (stop + 1 - (start + 100 - 1 + 1)) (by omega) (start + 100 - 1 + 1) _ (by omega) (by omega) (by simpa using hf) rfl

theorem scan1_out (ps : Nat) : ∀ (es : List (Log × Nat × Nat)) (s : QSt), s.full = false → s.out.length < ps →
    (scan1 ps es s).out = s.out ++ (es.drop s.skip).take (ps - s.out.length)
  | [], s, _, _ => by simp [scan1]
  | e :: es, s, hs, hl => by
    rw [scan1]
    by_cases h1 : s.skip > 0
    · rw [if_pos h1, scan1_out ps es { s with skip := s.skip - 1 } hs hl]
      obtain ⟨k, hk⟩ : ∃ k, s.skip = k + 1 := ⟨s.skip - 1, by omega⟩
      simp [hk]
    · rw [if_neg h1]
      have h0 : s.skip = 0 := by omega
      by_cases h2 : (s.out ++ [e]).length ≥ ps
      · rw [if_pos h2]
        have : ps - s.out.length = 1 := by simp at h2; omega
        simp [h0, this]
      · rw [if_neg h2, scan1_out ps es { s with out := s.out ++ [e] } hs (by simp at h2 ⊢; omega)]
        have : ps - s.out.length = (ps - (s.out ++ [e]).length) + 1 := by simp at h2 ⊢; omega
        simp only [h0, List.drop_zero]
        rw [this]
        simp

theorem scan1_rest (ps : Nat) : ∀ (es : List (Log × Nat × Nat)) (s : QSt), s.full = false → s.out.length + (es.length - s.skip) < ps →
    (scan1 ps es s).full = false ∧ (scan1 ps es s).skip = s.skip - es.length
  | [], s, hs, _ => by simp [scan1, hs]
  | e :: es, s, hs, hl => by
    rw [scan1]
    by_cases h1 : s.skip > 0
    · rw [if_pos h1]
      have := scan1_rest ps es { s with skip := s.skip - 1 } hs (by simp at hl ⊢; omega)
      refine ⟨this.1, ?_⟩
      rw [this.2]; simp; omega
    · rw [if_neg h1]
      by_cases h2 : (s.out ++ [e]).length ≥ ps
      · simp at hl h2; omega
      · rw [if_neg h2]
        have := scan1_rest ps es { s with out := s.out ++ [e] } hs (by simp at hl h2 ⊢; omega)
        refine ⟨this.1, ?_⟩
        rw [this.2]; simp; omega

theorem slice_eq_filter (bs : List QBlk) (a b : Nat) (ha : 1 ≤ a) :
    slice bs a b = (bs.zipIdx 1).filter fun x => decide (a ≤ x.2 ∧ x.2 ≤ b) := by
  unfold slice
  -- by induction on the list, for any first number
  have key : ∀ (bs : List QBlk) (n : Nat), n ≤ a →
      ((bs.zipIdx n).drop (a - n)).take (b + 1 - a) = (bs.zipIdx n).filter fun x => decide (a ≤ x.2 ∧ x.2 ≤ b) := by
    intro bs
    induction bs with
    | nil => intro n _; simp
    | cons q bs ih =>
      intro n hn
      rw [List.zipIdx_cons]
      rcases Nat.lt_or_eq_of_le hn with h | h
      · obtain ⟨k, hk⟩ : ∃ k, a - n = k + 1 := ⟨a - n - 1, by omega⟩
        rw [hk, List.drop_succ_cons, List.filter_cons_of_neg (by simp; omega)]
        have := ih (n + 1) (by omega)
        rw [show a - (n + 1) = k by omega] at this
        exact this
      · subst h
        rw [Nat.sub_self, List.drop_zero]
        -- from here on everything up to `b` is taken
        have tk : ∀ (bs : List QBlk) (m : Nat), n ≤ m → (bs.zipIdx m).take (b + 1 - m) = (bs.zipIdx m).filter fun x => decide (n ≤ x.2 ∧ x.2 ≤ b) := by
          intro bs
          induction bs with
          | nil => intro m _; simp
          | cons q bs ih2 =>
            intro m hm
            rw [List.zipIdx_cons]
            by_cases hb : m ≤ b
            · obtain ⟨k, hk⟩ : ∃ k, b + 1 - m = k + 1 := ⟨b - m, by omega⟩
              rw [hk, List.take_succ_cons, List.filter_cons_of_pos (by simp; omega)]
              have := ih2 (m + 1) (by omega)
              rw [show b + 1 - (m + 1) = k by omega] at this
              rw [this]
            · rw [show b + 1 - m = 0 by omega, List.take_zero, List.filter_cons_of_neg (by simp; omega)]
              symm
              rw [List.filter_eq_nil_iff]
              intro x hx
              have := List.le_snd_of_mem_zipIdx hx
              simp; omega
        exact tk (q :: bs) n (Nat.le_refl _)
  exact key bs 1 ha

theorem height_bounds (bs : List QBlk) (x : QBlk × Nat) (hx : x ∈ bs.zipIdx 1) : 1 ≤ x.2 ∧ x.2 ≤ bs.length := by
  have h1 := List.le_snd_of_mem_zipIdx hx
  have h2 := List.snd_lt_add_of_mem_zipIdx hx
  omega

/-- What is done for an address, in terms of the entries wanted of it. -/
theorem scanAddr_eq (topics : List (List Nat)) (ps : Nat) (bs : List QBlk) (hr : HRange) (s : QSt) (hs : s.full = false)
    (hlo : hr.lo ≤ bs.length) :
    scanAddr topics ps bs hr s =
      scan1 ps (((bs.zipIdx 1).filter fun b => decide (Spec.InRange hr bs.length b.2)).flatMap (entries topics)) s := by
  unfold scanAddr
  by_cases h0 : bs.length = 0
  · have : bs = [] := List.length_eq_zero_iff.mp h0
    simp [this, scan1]
  simp only [h0, if_false]
  have hst : (if hr.lo = 0 ∨ hr.lo > bs.length then bs.length else hr.lo) = if hr.lo = 0 then bs.length else hr.lo := by
    by_cases hz : hr.lo = 0
    · simp [hz]
    · simp [hz]; omega
  rw [hst]
  generalize hA : (if hr.lo = 0 then bs.length else hr.lo) = A
  generalize hB : (if hr.hi = 0 ∨ hr.hi > bs.length then bs.length else hr.hi) = B
  have hA1 : 1 ≤ A := by rw [← hA]; split <;> omega
  have hf : ((bs.zipIdx 1).filter fun b => decide (Spec.InRange hr bs.length b.2)) = slice bs A B := by
    rw [slice_eq_filter _ _ _ hA1]
    apply List.filter_congr
    intro x hx
    have := height_bounds bs x hx
    have : Spec.InRange hr bs.length x.2 ↔ A ≤ x.2 ∧ x.2 ≤ B := by
      unfold Spec.InRange
      rw [← hA, ← hB]
      by_cases hz : hr.lo = 0
      · simp only [hz, if_true]
        constructor
        · rintro ⟨h1, h2⟩
          refine ⟨by omega, ?_⟩
          split <;> omega
        · rintro ⟨h1, h2⟩
          split at h2 <;> refine ⟨by omega, by omega⟩
      · simp only [hz, if_false]
        constructor
        · rintro ⟨h1, h2⟩
          refine ⟨h1, ?_⟩
          split <;> omega
        · rintro ⟨h1, h2⟩
          refine ⟨h1, ?_⟩
          split at h2 <;> omega
    simp only [this]
  rw [hf]
  by_cases hgt : A > B
  · rw [if_pos hgt]
    have : slice bs A B = [] := by unfold slice; rw [show B + 1 - A = 0 by omega]; simp
    simp [this, scan1]
  · rw [if_neg hgt, scanPages_eq _ _ _ _ _ _ hA1 (by omega) hs]

theorem wanted_eq (topics : List (List Nat)) (bs : List QBlk) (hr : HRange) (addr : Nat) :
    Spec.wanted topics bs hr addr =
      (((bs.zipIdx 1).filter fun b => decide (Spec.InRange hr bs.length b.2)).flatMap (entries topics)).map
        fun x => { log := x.1, hash := x.2.1, height := x.2.2, addr := addr } := by
  unfold Spec.wanted
  rw [List.map_flatMap]
  congr 1
  funext b
  simp [entries]

end Verif.Feed
