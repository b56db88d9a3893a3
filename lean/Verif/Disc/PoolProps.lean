import Verif.Disc.PoolModel

/-! # An answer with nodes: two packets are safe, three may stop the node (C112) -/

namespace Verif.Disc

/-- Everything was read and worked off. -/
def Pool.finished (s : Pool) : Prop :=
  s.packets = [] ∧ s.inRec = none ∧ s.chan = none ∧ s.searcher = .done ∧ s.workers = 0

/-- A bound for the number of steps that are left. -/
def Pool.left (s : Pool) : Nat :=
  (s.packets.map fun p => 2 * p.1 + 5).sum + (match s.inRec with | some p => 2 * p.1 + 4 | none => 0)
    + (match s.chan with | some n => 2 * n + 3 | none => 0)
    + (match s.searcher with | .waiting => 1 | .working k => 2 * k + 2 | .done => 0)
    + s.workers + (if s.closed then 0 else 1)

/-- A step may only close the channel, not open it again. -/
def Pool.Inv (s : Pool) : Prop := s.inRec.isSome → s.closed = false

theorem Pool.Inv_step {count : Nat} {s t : Pool} (h : s.Inv) (hs : Pool.Step count s t) : t.Inv := by
  cases hs <;> simp_all [Pool.Inv]

/-- **C112 (every run ends).** Each step leaves fewer to come. -/
theorem Pool.step_left {count : Nat} {s t : Pool} (h : s.Inv) (hs : Pool.Step count s t) : t.left < s.left := by
  cases hs with
  | read n last rest h1 h2 =>
    cases hc : s.closed <;> simp [Pool.left, h1, h2, hc] <;> omega
  | send n last h1 h2 =>
    have := h (by rw [h1]; rfl)
    have hle : (if (decide (count ≤ s.received + n) || last) = true then 0 else 1) ≤ 1 := by split <;> omega
    simp only [Pool.left, h1, h2, this, Bool.false_eq_true, if_false]
    omega
  | take n h1 h2 => simp [Pool.left, h1, h2]; omega
  | leave h1 h2 h3 => simp [Pool.left, h1, h2, h3]
  | launch k h1 h2 => simp [Pool.left, h1]; omega
  | next h1 => simp [Pool.left, h1]
  | work h1 h2 => simp [Pool.left, h2]; omega
  | expire h1 h2 => simp [Pool.left, h1, h2]

/-- Packets of the answer that the searcher has not taken yet. -/
def Pool.untaken (s : Pool) : Nat :=
  s.packets.length + (if s.inRec.isSome then 1 else 0) + (if s.chan.isSome then 1 else 0)

/-- With at most two packets: while the searcher works, at most one is left. -/
def Pool.Two (s : Pool) : Prop :=
  s.Inv ∧ s.untaken ≤ 2 ∧ (∀ k, s.searcher = .working k → s.untaken ≤ 1)
    ∧ (s.searcher = .done → s.chan = none ∧ s.closed = true)

theorem Pool.Two_step {count : Nat} {s t : Pool} (h : s.Two) (hs : Pool.Step count s t) : t.Two := by
  obtain ⟨h0, h1, h2, h4⟩ := h
  refine ⟨Pool.Inv_step h0 hs, ?_⟩
  cases hs with
  | read n last rest g1 g2 =>
    have hle : ∀ k, s.searcher = .working k → rest.length + 1 + (if s.chan.isSome then 1 else 0) ≤ 1 := by
      intro k hk; have := h2 k hk; simpa [Pool.untaken, g1, g2] using this
    have h1' : rest.length + 1 + (if s.chan.isSome then 1 else 0) ≤ 2 := by
      simpa [Pool.untaken, g1, g2] using h1
    refine ⟨?_, ?_, h4⟩
    · cases hc : s.closed <;> simp [Pool.untaken] <;> omega
    · intro k hk
      have := hle k hk
      cases hc : s.closed <;> simp [Pool.untaken] <;> omega
  | send n last g1 g2 =>
    have hc := h0 (by rw [g1]; rfl)
    refine ⟨?_, ?_, ?_⟩
    · simpa [Pool.untaken, g1, g2] using h1
    · intro k hk; have := h2 k hk; simpa [Pool.untaken, g1, g2] using this
    · intro hd; have := (h4 hd).2; rw [hc] at this; cases this
  | take n g1 g2 =>
    have h1' : s.packets.length + (if s.inRec.isSome then 1 else 0) + 1 ≤ 2 := by
      simpa [Pool.untaken, g2] using h1
    refine ⟨?_, ?_, ?_⟩
    · simp [Pool.untaken]; omega
    · intro k _; simp [Pool.untaken]; omega
    · intro hd; cases hd
  | leave g1 g2 g3 => exact ⟨h1, by simp, fun _ => ⟨g2, g3⟩⟩
  | launch k g1 g2 =>
    exact ⟨h1, fun k' _ => h2 _ g1, by simp⟩
  | next g1 => exact ⟨h1, by simp, by simp⟩
  | work g1 g2 => exact ⟨h1, h2, h4⟩
  | expire g1 g2 => exact ⟨h1, h2, fun hd => ⟨(h4 hd).1, rfl⟩⟩

/-- In such a state something can happen, or all is done. -/
theorem Pool.Two_progress {count : Nat} {s : Pool} (h : s.Two) (hs : s.Stuck count) : s.finished := by
  obtain ⟨_, h1, h2, h4⟩ := h
  have hin : s.inRec = none := by
    cases hi : s.inRec with
    | none => rfl
    | some p =>
      obtain ⟨n, last⟩ := p
      exfalso
      cases hc : s.chan with
      | none => exact hs _ (.send s n last hi hc)
      | some m =>
        cases hk : s.searcher with
        | waiting => exact hs _ (.take s m hk hc)
        | done => have := (h4 hk).1; rw [hc] at this; cases this
        | working k => have := h2 k hk; simp [Pool.untaken, hi, hc] at this
  have hw : s.workers = 0 := by
    by_contra hne
    exact hs _ (.work s (by omega) hin)
  have hp : s.packets = [] := by
    cases hpk : s.packets with
    | nil => rfl
    | cons p rest => exact absurd (Pool.Step.read s p.1 p.2 rest hin hpk) (hs _)
  cases hk : s.searcher with
  | waiting =>
    exfalso
    cases hc : s.chan with
    | some m => exact hs _ (.take s m hk hc)
    | none =>
      cases hcl : s.closed with
      | true => exact hs _ (.leave s hk hc hcl)
      | false => exact hs _ (.expire s hin hcl)
  | working k =>
    exfalso
    cases k with
    | zero => exact hs _ (.next s hk)
    | succ k => exact hs _ (.launch s k hk (by rw [hw]; decide))
  | done => exact ⟨hp, hin, (h4 hk).1, hk, hw⟩

theorem Pool.steps_two {count : Nat} {s t : Pool} (h : s.Two) (hs : Pool.Steps count s t) : t.Two := by
  induction hs with
  | refl => exact h
  | tail t u _ hst ih => exact Pool.Two_step ih hst

/-- **C112 (answers of at most two packets).** Whatever the packets hold and
however the goroutines take turns: a run that cannot go on has read all packets
and worked off all end points.  (With `runs_end`: every run gets there.) -/
theorem two_packets_safe_partial (count : Nat) (packets : List (Nat × Bool)) (h : packets.length ≤ 2)
    (s : Pool) (hs : Pool.Steps count (Pool.start packets) s) (hstuck : s.Stuck count) : s.finished := by
  refine Pool.Two_progress (Pool.steps_two ?_ hs) hstuck
  exact ⟨by simp [Pool.Inv, Pool.start], by simpa [Pool.untaken, Pool.start] using h,
    by simp [Pool.start], by simp [Pool.start]⟩

/-- Runs with their number of steps. -/
inductive Pool.StepsN (count : Nat) : Nat → Pool → Pool → Prop
  | refl (s : Pool) : Pool.StepsN count 0 s s
  | tail (n : Nat) (s t u : Pool) : Pool.StepsN count n s t → Pool.Step count t u → Pool.StepsN count (n + 1) s u

/-- **C112 (no endless run).** For any answer, the number of steps is bounded. -/
theorem runs_end (count n : Nat) (packets : List (Nat × Bool)) (s : Pool)
    (hs : Pool.StepsN count n (Pool.start packets) s) : n + s.left ≤ (Pool.start packets).left := by
  have key : ∀ n a b, Pool.StepsN count n a b → a.Inv → b.Inv ∧ n + b.left ≤ a.left := by
    intro n a b h
    induction h with
    | refl s => intro hi; exact ⟨hi, by omega⟩
    | tail n s t u _ hst ih =>
      intro hi
      obtain ⟨h1, h2⟩ := ih hi
      have := Pool.step_left h1 hst
      exact ⟨Pool.Inv_step h1 hst, by omega⟩
  exact (key n _ _ hs (by simp [Pool.Inv, Pool.start])).2

theorem Pool.Steps.trans {count : Nat} {s t u : Pool} (h : Pool.Steps count s t)
    (h2 : Pool.Steps count t u) : Pool.Steps count s u := by
  induction h2 with
  | refl => exact h
  | tail a b _ hst ih => exact .tail _ _ _ ih hst

/-- The searcher starts `j` workers while none of them gets on. -/
theorem launches (count : Nat) (s : Pool) (j k : Nat) (h : s.searcher = .working (k + j))
    (hw : s.workers + j ≤ workersMax) :
    Pool.Steps count s { s with searcher := .working k, workers := s.workers + j } := by
  induction j generalizing k with
  | zero => simp only [Nat.add_zero] at h ⊢; rw [← h]; exact .refl s
  | succ j ih =>
    have h1 := ih (k + 1) (by rw [h]; congr 1; omega) (by omega)
    refine .tail _ _ _ h1 ?_
    exact Pool.Step.launch _ k rfl (by simp only; omega)

/-- **The node stops answering.** An answer comes in three packets, the first
with more than ten end points, before all that was asked for is there.  There is
an order of the steps after which the reader waits for room in the channel, with
the lock of the pool; the ten workers wait for the lock; and the searcher waits
for a worker to end.  Nothing can happen any more: the node reads no packet, and
even the cleaner of the pool, which would end the request, waits for the
lock. -/
theorem three_packets_deadlock (count n1 n2 n3 : Nat) (last : Bool) (rest : List (Nat × Bool))
    (h1 : 10 < n1) (h2 : n1 + n2 < count) :
    ∃ s, Pool.Steps count (Pool.start ((n1, false) :: (n2, false) :: (n3, last) :: rest)) s
      ∧ s.Stuck count ∧ s.packets = rest ∧ s.workers = 10 ∧ s.inRec = some (n3, last) := by
  obtain ⟨k, rfl⟩ : ∃ k, n1 = k + 1 + 10 := ⟨n1 - 11, by omega⟩
  refine ⟨⟨rest, some (n3, last), some n2, false, k + 1 + 10 + n2, .working (k + 1), 10⟩, ?_, ?_, rfl, rfl, rfl⟩
  · have s1 : Pool.Steps count (Pool.start ((k + 1 + 10, false) :: (n2, false) :: (n3, last) :: rest))
        ⟨(n2, false) :: (n3, last) :: rest, none, none, false, k + 1 + 10, .working (k + 1 + 10), 0⟩ := by
      refine .tail _ ⟨(n2, false) :: (n3, last) :: rest, none, some (k + 1 + 10), false, k + 1 + 10, .waiting, 0⟩ _
        (.tail _ _ _ (.tail _ _ _ (.refl _) (.read _ (k + 1 + 10) false _ rfl rfl)) ?_) ?_
      · have := Pool.Step.send (count := count) ⟨(n2, false) :: (n3, last) :: rest, some (k + 1 + 10, false), none, false, 0, .waiting, 0⟩
          (k + 1 + 10) false rfl rfl
        simpa [Pool.start, show ¬ count ≤ k + 1 + 10 by omega] using this
      · exact .take _ (k + 1 + 10) rfl rfl
    have s2 := launches count ⟨(n2, false) :: (n3, last) :: rest, none, none, false, k + 1 + 10, .working (k + 1 + 10), 0⟩
      10 (k + 1) rfl (Nat.le_refl 10)
    refine Pool.Steps.trans s1 (Pool.Steps.trans s2 ?_)
    refine .tail _ ⟨(n3, last) :: rest, none, some n2, false, k + 1 + 10 + n2, .working (k + 1), 10⟩ _
      (.tail _ _ _ (.tail _ _ _ (.refl _) (.read _ n2 false _ rfl rfl)) ?_) ?_
    · have := Pool.Step.send (count := count) ⟨(n3, last) :: rest, some (n2, false), none, false, k + 1 + 10, .working (k + 1), 10⟩
        n2 false rfl rfl
      simpa [show ¬ count ≤ k + 1 + 10 + n2 by omega] using this
    · exact .read _ n3 last rest rfl rfl
  · intro t ht
    cases ht <;> simp_all [workersMax]

/-- An answer as it usually comes, of one packet, and a run to its end. -/
example : ∃ s, Pool.Steps 64 (Pool.start [(1, true)]) s ∧ s.finished := by
  refine ⟨⟨[], none, none, true, 1, .done, 0⟩, ?_, rfl, rfl, rfl, rfl, rfl⟩
  refine .tail _ _ _ (.tail _ _ _ (.tail _ _ _ (.tail _ _ _ (.tail _ _ _ (.tail _ _ _ (.tail _ _ _ (.refl _)
    (.read _ 1 true [] rfl rfl)) (.send _ 1 true rfl rfl)) (.take _ 1 rfl rfl)) (.launch _ 0 rfl (by decide)))
    (.work _ (by decide) rfl)) (.next _ rfl)) (.leave _ rfl rfl rfl)

end Verif.Disc
