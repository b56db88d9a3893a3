import Verif.Mem.IterProps

/-! # A copy of a memory table -/

namespace Verif.Mem

variable {K V : Type} [LinearOrder K]

/-- The loop of an iterator, `for iter.Next()`: each entry is put into the new table.  `memdb.go:299-307`;
`hs` are the heights drawn.  At most `n` turns are made here; `p.n + 1` are enough. -/
def copyLoop (klen : K → Nat) (vlen : V → Nat) (p : DB K V) :
    Nat → It K → (Nat → Nat) → DB K V → Option (DB K V)
  | 0, _, _, _ => none
  | n + 1, i, hs, q => (i.next p).bind (fun r =>
      match r.2 with
      | none => some q
      | some e => (q.put klen vlen e.1 e.2 (hs n)).bind (fun q' => copyLoop klen vlen p n r.1 hs q'))

/-- `memdb.go:290-321` (`Copy2`), and `memdb.go:273-288` (`Copy`) when `wasted` is false: when much of
the buffer is no longer used (`wasted`), the entries are put one by one into a new table, and otherwise
the nodes are copied. -/
def DB.copy (klen : K → Nat) (vlen : V → Nat) (p : DB K V) (wasted : Bool) (hs : Nat → Nat) : Option (DB K V) :=
  if wasted then copyLoop klen vlen p (p.n + 1) (It.new none none) hs DB.new else some p

/-- What an iterator has still to give. -/
def rest (m : List (K × V)) : Pos K → List (K × V)
  | .before => m
  | .on k => m.filter (fun e => decide (k < e.1))
  | .after => []

theorem within_none (m : List (K × V)) : m.filter (within (none : Option K) none) = m := by
  rw [List.filter_eq_self]
  intro e _
  rfl

theorem cursor_next_rest (m : List (K × V)) (pos : Pos K) : cursor m pos .next = up (rest m pos) := by
  cases pos <;> rfl

theorem rest_tail {m : List (K × V)} (hs : m.Pairwise (fun a b => a.1 < b.1)) {pos : Pos K} {e : K × V}
    {t : List (K × V)} (h : rest m pos = e :: t) : rest m (.on e.1) = t := by
  have key : ∀ l : List (K × V), l.Pairwise (fun a b => a.1 < b.1) → l = e :: t →
      l.filter (fun x => decide (e.1 < x.1)) = t := by
    intro l hl he
    subst he
    rw [List.filter_cons_of_neg (by simp), List.filter_eq_self]
    intro x hx
    simpa using (List.pairwise_cons.1 hl).1 x hx
  cases pos with
  | before => exact key m hs h
  | after => cases h
  | on k =>
    simp only [rest] at h ⊢
    have he : k < e.1 := by
      have : e ∈ m.filter (fun x => decide (k < x.1)) := by rw [h]; simp
      simpa using (List.mem_filter.1 this).2
    have := key _ (hs.sublist List.filter_sublist) h
    rw [List.filter_filter] at this
    rw [← this]
    refine List.filter_congr (fun x _ => ?_)
    by_cases hx : e.1 < x.1
    · simp [hx, lt_trans he hx]
    · simp [hx]

theorem put_at_end {m : List (K × V)} (k : K) (v : V) (h : ∀ e ∈ m, e.1 < k) :
    m.filter (fun e => decide (e.1 < k)) ++ (k, v) :: m.filter (fun e => decide (k < e.1)) = m ++ [(k, v)] := by
  rw [List.filter_eq_self.2, List.filter_eq_nil_iff.2]
  · intro e he
    simpa using le_of_lt (h e he)
  · intro e he
    simpa using h e he

theorem copyLoop_spec (klen : K → Nat) (vlen : V → Nat) {p : DB K V} {L : List Nat} (hi : Inv p L)
    (hs : Nat → Nat) (hh : ∀ n, 1 ≤ hs n ∧ hs n ≤ 12) :
    ∀ n (i : It K) (pos : Pos K) (q : DB K V) (done : List (K × V)), Stands p L none none i pos →
      Holds klen vlen q done → done ++ rest (p.entries L) pos = p.entries L →
      (rest (p.entries L) pos).length < n →
      ∃ q', copyLoop klen vlen p n i hs q = some q' ∧ Holds klen vlen q' (p.entries L) := by
  intro n
  induction n with
  | zero => intro i pos q done _ _ _ h; omega
  | succ n ih =>
    intro i pos q done hst hq hd hn
    obtain ⟨r, h1, h2, h3⟩ := next_spec hi hst
    rw [within_none, cursor_next_rest] at h2 h3
    simp only [copyLoop, h1, Option.bind_some]
    cases hr : rest (p.entries L) pos with
    | nil =>
      rw [hr] at h2 hd
      have : r.2 = none := h2
      rw [this]
      rw [List.append_nil] at hd
      exact ⟨q, rfl, hd ▸ hq⟩
    | cons e t =>
      rw [hr] at h2 h3 hd
      have h2 : r.2 = some e := h2
      have h3 : Stands p L none none r.1 (.on e.1) := h3
      rw [h2]
      simp only
      have hsrt := entries_sorted hi
      have hlt : ∀ x ∈ done, x.1 < e.1 := by
        rw [← hd, List.pairwise_append] at hsrt
        exact fun x hx => hsrt.2.2 x hx e (by simp)
      obtain ⟨Lq, hiq, rfl, hnq, hszq⟩ := hq
      obtain ⟨q', L', g1, g2, _, g4, g5, g6⟩ := put_spec klen vlen hiq e.1 e.2 (hs n) (hh n) hnq hszq
      rw [g1, Option.bind_some]
      rw [put_at_end e.1 e.2 hlt] at g4
      have hrt := rest_tail hsrt hr
      refine ih r.1 (.on e.1) q' (q.entries Lq ++ [(e.1, e.2)]) h3 ⟨L', g2, g4, ?_, ?_⟩ ?_ ?_
      · rw [g5, g4]
      · rw [g6, g4]
      · rw [hrt, ← hd]
        simp
      · rw [hrt]
        rw [hr, List.length_cons] at hn
        omega

/-- A copy of a table, made in either way and with any heights, answers every later question as the
table it was made of would, and a sorted list of the same entries. -/
theorem copy_same (klen : K → Nat) (vlen : V → Nat) (hist : List (Op K V)) (h : ∀ o ∈ hist, o.fine)
    (wasted : Bool) (hs : Nat → Nat) (hh : ∀ n, 1 ≤ hs n ∧ hs n ≤ 12) (ops : List (Op K V))
    (h' : ∀ o ∈ ops, o.fine) :
    ∃ p q outs, run klen vlen (DB.new : DB K V) hist = some (p, outs) ∧
      p.copy klen vlen wasted hs = some q ∧
      (run klen vlen q ops).map Prod.snd = some (specRun klen vlen (specEnd klen vlen [] hist) ops) ∧
      (run klen vlen p ops).map Prod.snd = some (specRun klen vlen (specEnd klen vlen [] hist) ops) := by
  obtain ⟨p, h1, hp⟩ := run_spec klen vlen hist (holds_new klen vlen) h
  obtain ⟨p2, h2, _⟩ := run_spec klen vlen ops hp h'
  have hc : ∃ q, p.copy klen vlen wasted hs = some q ∧ Holds klen vlen q (specEnd klen vlen [] hist) := by
    cases wasted with
    | false => exact ⟨p, rfl, hp⟩
    | true =>
      obtain ⟨L, hi, he, hn, hsz⟩ := hp
      have := copyLoop_spec klen vlen hi hs hh (p.n + 1) (It.new none none) .before DB.new []
        ⟨rfl, rfl, rfl, rfl⟩ (holds_new klen vlen) rfl (by simp only [rest]; rw [he, hn]; omega)
      rw [he] at this
      exact this
  obtain ⟨q, hq1, hq2⟩ := hc
  obtain ⟨q2, h3, _⟩ := run_spec klen vlen ops hq2 h'
  exact ⟨p, q, _, h1, hq1, by rw [h3]; rfl, by rw [h2]; rfl⟩

/-! ### Cases -/

/-- Entries put out of order, with different heights, one of them again and one taken out. -/
example : (run (fun _ => 1) (fun _ => 2) (DB.new : DB Nat Nat)
      [.put 5 50 1, .put 1 10 3, .put 3 30 2, .put 3 31 1, .find 2, .del 5, .get 3, .has 5, .find 4, .len, .size]).map
        Prod.snd =
    some [.ok, .ok, .ok, .ok, .entry (some (3, 31)), .found true, .value (some 31), .found false, .entry none,
      .count 2, .bytes 6] := by decide +kernel

/-- An iterator from 2 up to 6 over 1, 3, 5, 7 that goes to the end, comes back, and meets a new entry. -/
example : ((run (fun _ => 1) (fun _ => 1) (DB.new : DB Nat Nat)
      [.put 7 70 1, .put 1 10 2, .put 3 30 1, .put 5 50 4]).bind (fun r =>
      moves (fun _ => 1) (fun _ => 1) r.1 (It.new (some 2) (some 6))
        [.next, .next, .next, .put 4 40 2, .prev, .prev, .prev, .prev, .next])) =
    some [some (3, 30), some (5, 50), none, none, some (5, 50), some (4, 40), some (3, 30), none, some (3, 30)] := by
  decide +kernel

/-- A copy by entries. -/
example : ((run (fun _ => 1) (fun _ => 1) (DB.new : DB Nat Nat)
      [.put 7 70 1, .put 1 10 2, .put 3 30 1, .del 7]).bind (fun r =>
      (r.1.copy (fun _ => 1) (fun _ => 1) true (fun n => n + 1)).bind (fun q =>
        (run (fun _ => 1) (fun _ => 1) q [.find 0, .find 2, .find 4, .len]).map Prod.snd))) =
    some [.entry (some (1, 10)), .entry (some (3, 30)), .entry none, .count 2] := by decide +kernel

end Verif.Mem
