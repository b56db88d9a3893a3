import Verif.Mem.Props

/-! # The iterator of a memory table is a cursor, also while entries are put -/

namespace Verif.Mem

variable {K V : Type} [LinearOrder K]

/-- The iterator stands where the cursor stands. -/
structure Stands (p : DB K V) (L : List Nat) (start limit : Option K) (i : It K) (pos : Pos K) : Prop where
  lower : i.start = start
  upper : i.limit = limit
  place : match pos with
    | .before => i.node = 0 ∧ i.forward = false
    | .after => i.node = 0 ∧ i.forward = true
    | .on k => i.node ∈ L ∧ i.key = some k ∧ p.key i.node = some k ∧
        (∀ s, start = some s → s ≤ k) ∧ ∀ l, limit = some l → k < l

/-- Standing on the first of the nodes from somewhere on. -/
theorem fill_up {p : DB K V} {A X : List Nat} (hi : Inv p (A ++ X)) {start limit : Option K} {i : It K}
    (hs : i.start = start) (hl : i.limit = limit) (hn : i.node = X.headD 0) (hf : i.forward = true)
    (hX : ∀ e ∈ p.entries X, ∀ s, start = some s → s ≤ e.1) :
    (It.fill p i false true).2 = (up ((p.entries X).filter (within start limit))).2 ∧
    Stands p (A ++ X) start limit (It.fill p i false true).1
      (up ((p.entries X).filter (within start limit))).1 := by
  cases X with
  | nil =>
    have hn : i.node = 0 := hn
    have : It.fill p i false true = ({ i with key := none }, none) := by
      unfold It.fill; rw [if_neg (by simp [hn])]
    rw [this]
    exact ⟨rfl, hs, hl, hn, hf⟩
  | cons b X =>
    have hn : i.node = b := hn
    have hbL : b ∈ A ++ b :: X := by simp
    have hb0 := hi.ne_zero hbL
    obtain ⟨k, v, hk, hv⟩ := hi.keys b hbL
    have hsX : (p.entries (b :: X)).Pairwise (fun a c => a.1 < c.1) := by
      have := entries_sorted hi
      rw [entries_append, List.pairwise_append] at this
      exact this.2.1
    rw [entries_cons hk hv] at hX hsX ⊢
    have hwl : ∀ e : K × V, e ∈ (k, v) :: p.entries X → within start limit e =
        (match limit with | some l => decide (e.1 < l) | none => true) := by
      intro e he
      unfold within
      cases start with
      | none => cases limit <;> simp
      | some s =>
        have := hX e he s rfl
        cases limit <;> simp [this]
    by_cases hlim : ∃ l, limit = some l ∧ l ≤ k
    · obtain ⟨l, rfl, hlk⟩ := hlim
      have hnil : ((k, v) :: p.entries X).filter (within start (some l)) = [] := by
        rw [List.filter_eq_nil_iff]
        intro e he
        rw [hwl e he]
        simp only [decide_eq_true_eq, not_lt]
        rcases List.mem_cons.1 he with rfl | he
        · exact hlk
        · exact le_trans hlk (le_of_lt ((List.pairwise_cons.1 hsX).1 e he))
      have : It.fill p i false true = ({ i with node := 0, key := none }, none) := by
        unfold It.fill
        rw [if_pos (by rw [hn]; exact hb0), if_pos (by simp [hn, hk, hl, atLeast, hlk])]
      rw [this, hnil]
      exact ⟨rfl, hs, hl, rfl, hf⟩
    · have hw : within start limit (k, v) = true := by
        rw [hwl _ (by simp)]
        cases limit with
        | none => rfl
        | some l =>
          simp only [decide_eq_true_eq]
          exact lt_of_not_ge (fun h => hlim ⟨l, rfl, h⟩)
      rw [List.filter_cons_of_pos hw]
      have : It.fill p i false true = ({ i with key := some k }, some (k, v)) := by
        unfold It.fill
        rw [if_pos (by rw [hn]; exact hb0), if_neg, hn, hk]
        · simp [DB.pair, hk, hv]
        · rw [hn, hk, hl]
          cases limit with
          | none => simp [atLeast]
          | some l =>
            simp only [atLeast, Bool.true_and, Bool.false_and, Bool.or_false, decide_eq_true_eq]
            exact fun h => hlim ⟨l, rfl, h⟩
      rw [this]
      refine ⟨rfl, hs, hl, ?_⟩
      refine ⟨by simp only; rw [hn]; exact hbL, rfl, by simp only; rw [hn]; exact hk, ?_, ?_⟩
      · intro s h; exact hX (k, v) (by simp) s h
      · intro l h; exact lt_of_not_ge (fun h' => hlim ⟨l, h, h'⟩)

/-- Standing on the last of the nodes up to somewhere. -/
theorem fill_down {p : DB K V} {X B : List Nat} (hi : Inv p (X ++ B)) {start limit : Option K} {i : It K}
    (hs : i.start = start) (hl : i.limit = limit) (hn : i.node = lastOr 0 X) (hf : i.forward = false)
    (hX : ∀ e ∈ p.entries X, ∀ l, limit = some l → e.1 < l) :
    (It.fill p i true false).2 = (down ((p.entries X).filter (within start limit))).2 ∧
    Stands p (X ++ B) start limit (It.fill p i true false).1
      (down ((p.entries X).filter (within start limit))).1 := by
  rcases List.eq_nil_or_concat X with rfl | ⟨X, b, rfl⟩
  · have hn : i.node = 0 := hn
    have : It.fill p i true false = ({ i with key := none }, none) := by
      unfold It.fill; rw [if_neg (by simp [hn])]
    rw [this]
    exact ⟨rfl, hs, hl, hn, hf⟩
  · rw [List.concat_eq_append] at hi hn hX ⊢
    rw [lastOr_append] at hn
    have hn : i.node = b := hn
    have hbL : b ∈ (X ++ [b]) ++ B := by simp
    have hb0 := hi.ne_zero hbL
    obtain ⟨k, v, hk, hv⟩ := hi.keys b hbL
    have hsX : (p.entries (X ++ [b])).Pairwise (fun a c => a.1 < c.1) := by
      have := entries_sorted hi
      rw [entries_append, List.pairwise_append] at this
      exact this.1
    have hone : p.entries [b] = [(k, v)] := by rw [entries_cons hk hv]; rfl
    rw [entries_append, hone] at hX hsX ⊢
    have hwl : ∀ e : K × V, e ∈ p.entries X ++ [(k, v)] → within start limit e =
        (match start with | some s => decide (s ≤ e.1) | none => true) := by
      intro e he
      unfold within
      cases limit with
      | none => cases start <;> simp
      | some s =>
        have := hX e he s rfl
        cases start <;> simp [this]
    by_cases hst : ∃ s, start = some s ∧ k < s
    · obtain ⟨s, rfl, hsk⟩ := hst
      have hnil : (p.entries X ++ [(k, v)]).filter (within (some s) limit) = [] := by
        rw [List.filter_eq_nil_iff]
        intro e he
        rw [hwl e he]
        simp only [decide_eq_true_eq, not_le]
        rcases List.mem_append.1 he with he | he
        · exact lt_trans ((List.pairwise_append.1 hsX).2.2 e he (k, v) (by simp)) hsk
        · rw [List.mem_singleton] at he
          rw [he]; exact hsk
      have : It.fill p i true false = ({ i with node := 0, key := none }, none) := by
        unfold It.fill
        rw [if_pos (by rw [hn]; exact hb0), if_pos (by simp [hn, hk, hs, below, hsk])]
      rw [this, hnil]
      exact ⟨rfl, hs, hl, rfl, hf⟩
    · have hw : within start limit (k, v) = true := by
        rw [hwl _ (by simp)]
        cases start with
        | none => rfl
        | some s =>
          simp only [decide_eq_true_eq]
          exact le_of_not_gt (fun h => hst ⟨s, rfl, h⟩)
      rw [List.filter_append, List.filter_cons_of_pos hw, List.filter_nil]
      have : It.fill p i true false = ({ i with key := some k }, some (k, v)) := by
        unfold It.fill
        rw [if_pos (by rw [hn]; exact hb0), if_neg, hn, hk]
        · simp [DB.pair, hk, hv]
        · rw [hn, hk, hs]
          cases start with
          | none => simp [below]
          | some s =>
            simp only [below, Bool.true_and, Bool.false_and, Bool.false_or, decide_eq_true_eq]
            exact fun h => hst ⟨s, rfl, h⟩
      rw [this]
      have hd : down ((p.entries X).filter (within start limit) ++ [(k, v)]) = (.on k, some (k, v)) := by
        unfold down; rw [List.getLast?_concat]
      rw [hd]
      refine ⟨rfl, hs, hl, ?_⟩
      refine ⟨by simp only; rw [hn]; exact hbL, rfl, by simp only; rw [hn]; exact hk, ?_, ?_⟩
      · intro s h; exact le_of_not_gt (fun h' => hst ⟨s, h, h'⟩)
      · intro l h; exact hX (k, v) (by simp) l h

/-- The entries at `k` or above, and those below. -/
theorem entries_high {p : DB K V} {L : List Nat} (hi : Inv p L) (k : K) :
    p.entries (p.high L k) = (p.entries L).filter (fun e => decide (k ≤ e.1)) ∧
    p.entries (p.low L k) = (p.entries L).filter (fun e => decide (e.1 < k)) := by
  have hc := hi.cut k
  obtain ⟨hlow, hhigh⟩ := hi.found k
  have hge : ∀ e ∈ p.entries (p.high L k), k ≤ e.1 := by
    rcases hhigh with ⟨hhit, b, B, w, hb, hkb, hvb, hgt⟩ | ⟨hhit, hgt⟩
    · rw [hb, entries_cons hkb hvb]
      intro e he
      rcases List.mem_cons.1 he with rfl | he
      · exact le_refl _
      · exact le_of_lt (hgt e he)
    · exact fun e he => le_of_lt (hgt e he)
  have hE : p.entries L = p.entries (p.low L k) ++ p.entries (p.high L k) := by
    conv => lhs; rw [hc]
    rw [entries_append]
  constructor
  · rw [hE, List.filter_append, List.filter_eq_nil_iff.2, List.filter_eq_self.2, List.nil_append]
    · intro e he; simpa using hge e he
    · intro e he; simpa using hlow e he
  · rw [hE]
    exact (filter_lt hlow hge).symm

theorem filter_within_start {start limit : Option K} {s : K} (hs : start = some s) (m : List (K × V)) :
    (m.filter (fun e => decide (s ≤ e.1))).filter (within start limit) = m.filter (within start limit) := by
  subst hs
  rw [List.filter_filter]
  refine List.filter_congr (fun e _ => ?_)
  unfold within
  by_cases h : s ≤ e.1 <;> simp [h]

theorem filter_within_limit {start limit : Option K} {l : K} (hl : limit = some l) (m : List (K × V)) :
    (m.filter (fun e => decide (e.1 < l))).filter (within start limit) = m.filter (within start limit) := by
  subst hl
  rw [List.filter_filter]
  refine List.filter_congr (fun e _ => ?_)
  unfold within
  by_cases h : e.1 < l <;> simp [h]

theorem filter_swap (q r : K × V → Bool) (m : List (K × V)) : (m.filter q).filter r = (m.filter r).filter q := by
  rw [List.filter_filter, List.filter_filter]
  refine List.filter_congr (fun e _ => ?_)
  exact Bool.and_comm _ _

theorem first_spec {p : DB K V} {L : List Nat} (hi : Inv p L) {start limit : Option K} {i : It K}
    (hs : i.start = start) (hl : i.limit = limit) :
    ∃ r, i.first p = some r ∧ r.2 = (up ((p.entries L).filter (within start limit))).2 ∧
      Stands p L start limit r.1 (up ((p.entries L).filter (within start limit))).1 := by
  unfold It.first
  rw [hs]
  cases hst : start with
  | none =>
    refine ⟨_, rfl, ?_⟩
    have hn := Inv.next_at (A := []) (B := L) hi 0 (.inl rfl)
    rw [Inv.zero_level (A := []) (B := L) hi] at hn
    exact fill_up (A := []) (X := L) hi (start := none) rfl hl hn rfl (by simp)
  | some s =>
    obtain ⟨prev, hf, _⟩ := findGE_spec hi s false
    have hc := hi.cut s
    have he := (entries_high hi s).1
    refine ⟨It.fill p { i with forward := true, node := (p.high L s).headD 0 } false true,
      by simp only [hf, Option.map_some, hs, hst], ?_⟩
    have := fill_up (A := p.low L s) (X := p.high L s) (hc ▸ hi) (start := some s) (limit := limit)
      (i := { i with forward := true, node := (p.high L s).headD 0 }) (by simp only; rw [hs, hst]) hl rfl rfl
      (by
        intro e hm s' hs'
        rw [he] at hm
        cases hs'
        simpa using (List.mem_filter.1 hm).2)
    rw [he, filter_within_start rfl, ← hc] at this
    exact this

theorem last_spec {p : DB K V} {L : List Nat} (hi : Inv p L) {start limit : Option K} {i : It K}
    (hs : i.start = start) (hl : i.limit = limit) :
    ∃ r, i.last p = some r ∧ r.2 = (down ((p.entries L).filter (within start limit))).2 ∧
      Stands p L start limit r.1 (down ((p.entries L).filter (within start limit))).1 := by
  unfold It.last
  rw [hl]
  cases hst : limit with
  | none =>
    refine ⟨It.fill p { i with forward := false, node := lastOr 0 L } true false,
      by simp only [findLast_spec hi, Option.map_some, hl, hst], ?_⟩
    have := fill_down (X := L) (B := []) (p := p) (by rw [List.append_nil]; exact hi) (limit := none)
      (start := start) (i := { i with forward := false, node := lastOr 0 L }) hs
      (by simp only; rw [hl, hst]) rfl rfl (by simp)
    rw [List.append_nil] at this
    exact this
  | some l =>
    have hc := hi.cut l
    have he := (entries_high hi l).2
    refine ⟨It.fill p { i with forward := false, node := lastOr 0 (p.low L l) } true false,
      by simp only [findLT_spec hi, Option.map_some, hl, hst], ?_⟩
    have := fill_down (X := p.low L l) (B := p.high L l) (p := p) (hc ▸ hi) (limit := some l) (start := start)
      (i := { i with forward := false, node := lastOr 0 (p.low L l) }) hs (by simp only; rw [hl, hst]) rfl rfl
      (by
        intro e hm l' hl'
        rw [he] at hm
        cases hl'
        simpa using (List.mem_filter.1 hm).2)
    rw [he, filter_within_limit rfl, ← hc] at this
    exact this

theorem seek_spec {p : DB K V} {L : List Nat} (hi : Inv p L) {start limit : Option K} {i : It K}
    (hs : i.start = start) (hl : i.limit = limit) (k : K) :
    ∃ r, i.seek p k = some r ∧
      r.2 = (up (((p.entries L).filter (within start limit)).filter (fun e => decide (k ≤ e.1)))).2 ∧
      Stands p L start limit r.1
        (up (((p.entries L).filter (within start limit)).filter (fun e => decide (k ≤ e.1)))).1 := by
  unfold It.seek
  rw [hs]
  generalize hk' : seekKey start k = k'
  obtain ⟨prev, hf, _⟩ := findGE_spec hi k' false
  have hc := hi.cut k'
  have he := (entries_high hi k').1
  have hge : ∀ s, start = some s → s ≤ k' := by
    intro s h
    rw [h] at hk'
    simp only [seekKey] at hk'
    rw [← hk']
    split
    · exact le_refl _
    · rename_i h; exact le_of_not_gt h
  refine ⟨It.fill p { i with forward := true, node := (p.high L k').headD 0 } false true,
    by simp only [hf, Option.map_some, hs], ?_⟩
  have := fill_up (A := p.low L k') (X := p.high L k') (hc ▸ hi) (start := start) (limit := limit)
    (i := { i with forward := true, node := (p.high L k').headD 0 }) hs hl rfl rfl
    (by
      intro e hm s hs'
      rw [he] at hm
      exact le_trans (hge s hs') (by simpa using (List.mem_filter.1 hm).2))
  have hfil : ((p.entries L).filter (fun e => decide (k' ≤ e.1))).filter (within start limit) =
      ((p.entries L).filter (within start limit)).filter (fun e => decide (k ≤ e.1)) := by
    rw [List.filter_filter, List.filter_filter]
    refine List.filter_congr (fun e _ => ?_)
    cases hst : start with
    | none =>
      rw [hst] at hk'
      simp only [seekKey] at hk'
      rw [← hk', Bool.and_comm]
    | some s =>
      rw [hst] at hk'
      simp only [seekKey] at hk'
      unfold within
      by_cases hlt : k < s
      · rw [if_pos hlt] at hk'
        rw [← hk']
        by_cases hse : s ≤ e.1
        · have : k ≤ e.1 := le_trans (le_of_lt hlt) hse
          simp [hse, this]
        · simp [hse]
      · rw [if_neg hlt] at hk'
        rw [← hk']
        simp only [Bool.and_comm]
  rw [he, hfil, ← hc] at this
  exact this

theorem next_spec {p : DB K V} {L : List Nat} (hi : Inv p L) {start limit : Option K} {i : It K} {pos : Pos K}
    (h : Stands p L start limit i pos) :
    ∃ r, i.next p = some r ∧
      r.2 = (cursor ((p.entries L).filter (within start limit)) pos .next).2 ∧
      Stands p L start limit r.1 (cursor ((p.entries L).filter (within start limit)) pos .next).1 := by
  have hp := h.place
  unfold It.next
  cases pos with
  | before =>
    simp only at hp
    rw [if_pos hp.1, if_neg (by simp [hp.2])]
    exact first_spec hi h.lower h.upper
  | after =>
    simp only at hp
    rw [if_pos hp.1, if_pos hp.2]
    exact ⟨_, rfl, rfl, h.lower, h.upper, hp⟩
  | on k =>
    simp only at hp
    obtain ⟨hm, hkey, hk, h1, h2⟩ := hp
    rw [if_neg (hi.ne_zero hm)]
    refine ⟨_, rfl, ?_⟩
    obtain ⟨A, X, hL⟩ := List.append_of_mem hm
    have hL' : L = (A ++ [i.node]) ++ X := by rw [hL]; simp
    have hi' : Inv p ((A ++ [i.node]) ++ X) := hL' ▸ hi
    have hlast : lastOr 0 (A ++ [i.node]) = i.node := by rw [lastOr_append]; rfl
    have hn := hi'.next_at 0 (.inr (by rw [hlast]; have := (hi.heights _ hm).1; omega))
    rw [hlast, hi'.zero_level] at hn
    obtain ⟨_, v, hk', hv⟩ := hi.keys _ hm
    have hsrt := entries_sorted hi'
    have hone : p.entries [i.node] = [(k, v)] := by rw [entries_cons hk hv]; rfl
    rw [entries_append, entries_append, hone, List.pairwise_append] at hsrt
    have hgt : ∀ e ∈ p.entries X, k < e.1 := fun e he => hsrt.2.2 (k, v) (by simp) e he
    have hle : ∀ e ∈ p.entries A ++ [(k, v)], e.1 ≤ k := by
      intro e he
      rcases List.mem_append.1 he with he | he
      · exact le_of_lt ((List.pairwise_append.1 hsrt.1).2.2 e he (k, v) (by simp))
      · rw [List.mem_singleton] at he
        rw [he]
    have hE : p.entries L = (p.entries A ++ [(k, v)]) ++ p.entries X := by
      rw [hL', entries_append, entries_append, hone]
    have hX : p.entries X = (p.entries L).filter (fun e => decide (k < e.1)) := by
      rw [hE]; exact (filter_gt hle hgt).symm
    have := fill_up hi' (start := start) (limit := limit)
      (i := { i with forward := true, node := p.next i.node 0 }) h.lower h.upper hn rfl
      (fun e he s hs => le_trans (h1 s hs) (le_of_lt (hgt e he)))
    rw [hX, filter_swap, ← hL'] at this
    exact this

theorem prev_spec {p : DB K V} {L : List Nat} (hi : Inv p L) {start limit : Option K} {i : It K} {pos : Pos K}
    (h : Stands p L start limit i pos) :
    ∃ r, i.prev p = some r ∧
      r.2 = (cursor ((p.entries L).filter (within start limit)) pos .prev).2 ∧
      Stands p L start limit r.1 (cursor ((p.entries L).filter (within start limit)) pos .prev).1 := by
  have hp := h.place
  unfold It.prev
  cases pos with
  | before =>
    simp only at hp
    rw [if_pos hp.1, if_neg (by simp [hp.2])]
    exact ⟨_, rfl, rfl, h.lower, h.upper, hp⟩
  | after =>
    simp only at hp
    rw [if_pos hp.1, if_pos hp.2]
    exact last_spec hi h.lower h.upper
  | on k =>
    simp only at hp
    obtain ⟨hm, hkey, hk, h1, h2⟩ := hp
    rw [if_neg (hi.ne_zero hm), hkey]
    have hc := hi.cut k
    have he := (entries_high hi k).2
    refine ⟨It.fill p { i with forward := false, node := lastOr 0 (p.low L k) } true false,
      by simp only [Option.bind_some, findLT_spec hi, Option.map_some, hkey], ?_⟩
    have := fill_down (X := p.low L k) (B := p.high L k) (p := p) (hc ▸ hi) (limit := limit) (start := start)
      (i := { i with forward := false, node := lastOr 0 (p.low L k), key := some k }) h.lower h.upper rfl rfl
      (by
        intro e hm l hl
        rw [he] at hm
        exact lt_trans (by simpa using (List.mem_filter.1 hm).2) (h2 l hl))
    rw [he, filter_swap, ← hc] at this
    have hi2 : ({ i with forward := false, node := lastOr 0 (p.low L k), key := some k } : It K) =
        { i with forward := false, node := lastOr 0 (p.low L k) } := by simp only [hkey]
    rw [hi2] at this
    exact this

/-- The iterator of a table, with or without bounds, asked for any moves with puts between them: it
gives what a cursor gives over the entries that the table holds at the time of each move. -/
theorem moves_spec (klen : K → Nat) (vlen : V → Nat) (start limit : Option K) (ops : List (Move K V)) :
    ∀ {p : DB K V} {L : List Nat} {i : It K} {pos : Pos K}, Inv p L → p.n = (p.entries L).length →
      p.size = total klen vlen (p.entries L) → Stands p L start limit i pos → (∀ o ∈ ops, o.fine) →
      moves klen vlen p i ops = some (cursorRun start limit (p.entries L) pos ops) := by
  induction ops with
  | nil => intros; rfl
  | cons o ops ih =>
    intro p L i pos hi hn hsz hst hf
    have hf' : ∀ o ∈ ops, o.fine := fun o ho => hf o (by simp [ho])
    have same : ∀ r : It K × Option (K × V),
        (move klen vlen p i o) = some (p, r) → entriesAfter (p.entries L) o = p.entries L →
        r.2 = (cursor ((p.entries L).filter (within start limit)) pos o).2 →
        Stands p L start limit r.1 (cursor ((p.entries L).filter (within start limit)) pos o).1 →
        moves klen vlen p i (o :: ops) = some (cursorRun start limit (p.entries L) pos (o :: ops)) := by
      intro r h1 h2 h3 h4
      simp only [moves, h1, Option.bind_some, cursorRun, h2]
      rw [ih hi hn hsz h4 hf', h3]
      rfl
    cases o with
    | put k v h =>
      obtain ⟨q, L', h1, h2, h3, h4, h5, h6⟩ := put_spec klen vlen hi k v h (hf (.put k v h) (.head _)) hn hsz
      have hst' : Stands q L' start limit i pos := by
        refine ⟨hst.lower, hst.upper, ?_⟩
        have hp := hst.place
        cases pos with
        | before => exact hp
        | after => exact hp
        | on x =>
          obtain ⟨ha, hb, hc, hd⟩ := hp
          exact ⟨(h3 _ ha).1, hb, by rw [(h3 _ ha).2]; exact hc, hd⟩
      simp only [moves, move, h1, Option.map_some, Option.bind_some, cursorRun, cursor, entriesAfter]
      rw [ih h2 h5 h6 hst' hf', h4]
      rfl
    | first =>
      obtain ⟨r, h1, h2, h3⟩ := first_spec hi hst.lower hst.upper
      exact same r (by simp [move, h1]) rfl (by cases pos <;> exact h2) (by cases pos <;> exact h3)
    | last =>
      obtain ⟨r, h1, h2, h3⟩ := last_spec hi hst.lower hst.upper
      exact same r (by simp [move, h1]) rfl (by cases pos <;> exact h2) (by cases pos <;> exact h3)
    | seek k =>
      obtain ⟨r, h1, h2, h3⟩ := seek_spec hi hst.lower hst.upper k
      exact same r (by simp [move, h1]) rfl (by cases pos <;> exact h2) (by cases pos <;> exact h3)
    | next =>
      obtain ⟨r, h1, h2, h3⟩ := next_spec hi hst
      exact same r (by simp [move, h1]) rfl h2 h3
    | prev =>
      obtain ⟨r, h1, h2, h3⟩ := prev_spec hi hst
      exact same r (by simp [move, h1]) rfl h2 h3

/-- After any history of a table (puts and deletes), an iterator over it, with any moves and with puts
between the moves, is a cursor over what the table holds. -/
theorem iterator_is_cursor (klen : K → Nat) (vlen : V → Nat) (hist : List (Op K V)) (h : ∀ o ∈ hist, o.fine)
    (start limit : Option K) (ops : List (Move K V)) (h' : ∀ o ∈ ops, o.fine) :
    ∃ p outs, run klen vlen (DB.new : DB K V) hist = some (p, outs) ∧
      moves klen vlen p (It.new start limit) ops =
        some (cursorRun start limit (specEnd klen vlen [] hist) .before ops) := by
  obtain ⟨p, h1, L, hi, he, hn, hsz⟩ := run_spec klen vlen hist (holds_new klen vlen) h
  refine ⟨p, _, h1, ?_⟩
  rw [← he] at hn hsz ⊢
  exact moves_spec klen vlen start limit ops hi hn hsz ⟨rfl, rfl, rfl, rfl⟩ h'

/-! ### Cases -/

/-- The second of two neighbours goes after the first: the iterator that stood on the first gives an
entry that is no longer there. -/
theorem deleted_entry_shown :
    ∃ p q : DB Nat Nat, ∃ i : It Nat,
      (run (fun _ => 1) (fun _ => 1) DB.new [.put 1 10 1, .put 2 20 1, .put 3 30 1]).map (·.1) = some p ∧
      ((It.new none none).next p).map (·.1) = some i ∧ i.key = some 1 ∧
      (run (fun _ => 1) (fun _ => 1) p [.del 1, .del 2]).map (·.1) = some q ∧
      (q.get 2) = some none ∧ (i.next q).map (·.2) = some (some (2, 20)) := by
  refine ⟨_, _, _, rfl, rfl, rfl, rfl, ?_, ?_⟩ <;> decide +kernel

end Verif.Mem
