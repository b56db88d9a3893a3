import Verif.Lsm.Compact
import Verif.Lsm.Spec

/-! # Reads of the levelled database (C117) -/

namespace Verif.Lsm

open Spec

variable {K V : Type} [LinearOrder K]

theorem mapAfter_snoc (w : List (K × Option V)) (p : K × Option V) (k : K) :
    mapAfter (w ++ [p]) k = if k = p.1 then p.2 else mapAfter w k := by
  simp [mapAfter, List.foldl_append]

theorem mapAfter_last (w : List (K × Option V)) (k : K) (s : Nat) :
    (∃ i v, LastWrite w s k i v ∧ mapAfter (w.take s) k = v) ∨
    ((∀ i v, 1 ≤ i → i ≤ s → w[i - 1]? ≠ some (k, v)) ∧ mapAfter (w.take s) k = none) := by
  induction s with
  | zero =>
    right
    exact ⟨fun i v h1 h2 => by omega, by simp [mapAfter]⟩
  | succ s ih =>
    rw [List.take_add_one]
    cases hw : w[s]? with
    | none =>
      simp only [Option.toList_none, List.append_nil]
      rcases ih with ⟨i, v, ⟨h1, h2, h3, h4⟩, h5⟩ | ⟨h1, h2⟩
      · refine .inl ⟨i, v, ⟨h1, by omega, h3, fun j v' hj hjs => ?_⟩, h5⟩
        by_cases hj' : j = s + 1
        · subst hj'
          simp [hw]
        · exact h4 j v' hj (by omega)
      · refine .inr ⟨fun i v hi his => ?_, h2⟩
        by_cases hj' : i = s + 1
        · subst hj'
          simp [hw]
        · exact h1 i v hi (by omega)
    | some p =>
      simp only [Option.toList_some, mapAfter_snoc]
      by_cases hk : k = p.1
      · rw [if_pos hk]
        refine .inl ⟨s + 1, p.2, ⟨by omega, by omega, ?_, fun j v' hj hjs => by omega⟩, rfl⟩
        simp [hw, hk]
      · rw [if_neg hk]
        have hne : ∀ v, w[s + 1 - 1]? ≠ some (k, v) := by
          intro v
          simp only [Nat.add_sub_cancel, hw, ne_eq, Option.some.injEq]
          intro h
          exact hk (by rw [h])
        rcases ih with ⟨i, v, ⟨h1, h2, h3, h4⟩, h5⟩ | ⟨h1, h2⟩
        · refine .inl ⟨i, v, ⟨h1, by omega, h3, fun j v' hj hjs => ?_⟩, h5⟩
          by_cases hj' : j = s + 1
          · subst hj'
            exact hne v'
          · exact h4 j v' hj (by omega)
        · refine .inr ⟨fun i v hi his => ?_, h2⟩
          by_cases hj' : i = s + 1
          · subst hj'
            exact hne v
          · exact h1 i v hi (by omega)

/-- What the right answer to a look means for the map. -/
theorem right_value {d : Db K V} (h : Inv d) {s : Nat} (hs : d.floor ≤ s) {k : K}
    {r : Option (Entry K V)} (hr : Right (Has d) k s r) :
    r.bind (·.val) = mapAfter (d.wrote.take s) k := by
  cases r with
  | some e =>
    obtain ⟨h1, h2, h3, h4⟩ := hr.1 e rfl
    have hreal := h.real e h1
    rcases mapAfter_last d.wrote k s with ⟨i, v, hl, hm⟩ | ⟨h5, _⟩
    · rw [hm]
      have hie : e.seq ≤ i := by
        by_contra hlt
        exact hl.2.2.2 e.seq e.val (by omega) h3 (by rw [hreal.2, h2])
      rcases h.content s hs k i v hl with h6 | ⟨_, h6⟩
      · have := h4 _ h6 rfl hl.2.1
        simp only at this
        have hi : e.seq = i := by omega
        have h7 := hl.2.2.1
        rw [← hi, hreal.2] at h7
        simp only [Option.some.injEq, Prod.mk.injEq] at h7
        exact h7.2
      · have := h6 e h1 h2
        omega
    · exact absurd (by rw [hreal.2, h2]) (h5 e.seq e.val hreal.1 h3)
  | none =>
    have habs := hr.2 rfl
    rcases mapAfter_last d.wrote k s with ⟨i, v, hl, hm⟩ | ⟨_, h5⟩
    · rw [hm]
      rcases h.content s hs k i v hl with h6 | ⟨h6, _⟩
      · have := habs _ h6 rfl
        simp only at this
        have := hl.2.1
        omega
      · simp [h6]
    · simp [h5]

theorem lookMems_right {d : Db K V} (h : Inv d) (k : K) (s : Nat) :
    Right (fun e => e ∈ d.mem ∨ e ∈ frozenL d) k s (lookMems d.mem d.frozen k s) := by
  unfold lookMems
  have h1 := look_right h.mem_sorted k s
  have h2 : Right (· ∈ frozenL d) k s (d.frozen.bind (fun fm => look fm k s)) := by
    cases hf : d.frozen with
    | none =>
      refine ⟨by simp, fun _ x hx => ?_⟩
      simp [frozenL, hf] at hx
    | some es =>
      have := look_right h.fro_sorted k s
      simpa [frozenL, hf] using this
  exact orElse_right h1 h2 (fun e e' he he' _ => h.mem_new e he e' (.inl he'))

theorem get_inv {d : Db K V} (h : Inv d) {s : Nat} (hs : d.floor ≤ s) (k : K) :
    get d k s = mapAfter (d.wrote.take s) k := by
  have h1 := lookMems_right h k s
  have h2 := lookVersion_right h.lev_ok h.depth_ok k s
  have h3 := orElse_right h1 h2 (fun e e' he he' _ => by
    rcases he with he | he
    · exact h.mem_new e he e' (.inr he')
    · exact h.fro_new e he e' he')
  rw [← right_value h hs (right_congr (fun e => by simp only [Has]; tauto) h3)]
  unfold get getSplit
  cases lookMems d.mem d.frozen k s <;> rfl

/-! ### The ghost list of writes is the list of writes -/

theorem step_wrote {d d' : Db K V} (op : Op K V) (hs : step d op = some d') :
    d'.wrote = d.wrote ++ writes [op] ∧
    d'.seq = (match op with | .publish => d.wrote.length | _ => d.seq) := by
  cases op <;> simp only [step] at hs
  case put => simp only [Option.some.injEq] at hs; subst hs; simp [writes]
  case publish => simp only [Option.some.injEq] at hs; subst hs; simp [writes]
  case rotate =>
    split at hs
    · simp only [Option.some.injEq] at hs; subst hs; simp [writes]
    · simp at hs
  case flush =>
    split at hs
    · simp at hs
    · simp only [Option.some.injEq] at hs; subst hs; simp [writes]
  case acquire => simp only [Option.some.injEq] at hs; subst hs; simp [writes]
  case release =>
    split at hs
    · simp only [Option.some.injEq] at hs; subst hs; simp [writes]
    · simp at hs
  case pick =>
    split at hs
    · simp only [Option.some.injEq] at hs; subst hs; simp [writes]
    · simp at hs
  case commit =>
    split at hs
    · simp at hs
    · simp only [Option.some.injEq] at hs; subst hs; simp [writes]
  case abort => simp only [Option.some.injEq] at hs; subst hs; simp [writes]

theorem writes_cons (op : Op K V) (ops : List (Op K V)) :
    writes (op :: ops) = writes [op] ++ writes ops := by
  cases op <;> simp [writes]

theorem run_wrote {d d' : Db K V} (ops : List (Op K V)) (hs : run d ops = some d') :
    d'.wrote = d.wrote ++ writes ops := by
  induction ops generalizing d with
  | nil => simp only [run, Option.some.injEq] at hs; subst hs; simp [writes]
  | cons op ops ih =>
    simp only [run, Option.bind_eq_some_iff] at hs
    obtain ⟨d1, h1, h2⟩ := hs
    rw [ih h2, (step_wrote op h1).1, writes_cons op ops, List.append_assoc]

theorem run_published {d d' : Db K V} (ops : List (Op K V)) (hs : run d ops = some d') :
    (d'.wrote.length, d'.seq) = ops.foldl tally (d.wrote.length, d.seq) := by
  induction ops generalizing d with
  | nil => simp only [run, Option.some.injEq] at hs; subst hs; simp
  | cons op ops ih =>
    simp only [run, Option.bind_eq_some_iff] at hs
    obtain ⟨d1, h1, h2⟩ := hs
    rw [ih h2, List.foldl_cons]
    obtain ⟨h3, h4⟩ := step_wrote op h1
    rw [h3, h4]
    cases op <;> simp [writes, tally]

theorem run_append {d : Db K V} (a b : List (Op K V)) :
    run d (a ++ b) = (run d a).bind (fun d' => run d' b) := by
  induction a generalizing d with
  | nil => simp [run]
  | cons op a ih =>
    simp only [List.cons_append, run]
    cases step d op with
    | none => simp
    | some d1 => simp [ih]

theorem inv_of {ops : List (Op K V)} {d : Db K V} (h : run (Db.init K V) ops = some d) : Inv d :=
  inv_run inv_init ops h

theorem wrote_of {ops : List (Op K V)} {d : Db K V} (h : run (Db.init K V) ops = some d) :
    d.wrote = writes ops := by
  have := run_wrote ops h
  simpa [Db.init] using this

theorem seq_of {ops : List (Op K V)} {d : Db K V} (h : run (Db.init K V) ops = some d) :
    d.seq = published ops := by
  have := run_published ops h
  have := congrArg Prod.snd this
  simpa [published, Db.init] using this

/-! ### The theorems -/

/-- A read gives what the last completed batch left, whatever the memory tables, flushes and
compactions have done meanwhile: it reads the map made of the writes of all completed batches, and
of nothing of a batch that is being written. -/
theorem get_current {ops : List (Op K V)} {d : Db K V} (h : run (Db.init K V) ops = some d)
    (k : K) : get d k d.seq = mapAfter ((writes ops).take (published ops)) k := by
  have hi := inv_of h
  rw [get_inv hi hi.floor_le, wrote_of h, seq_of h]

/-- A read through a snapshot that is held gives the map of the writes up to its number. -/
theorem get_held {ops : List (Op K V)} {d : Db K V} (h : run (Db.init K V) ops = some d)
    (k : K) (s : Nat) (hs : s ∈ d.snaps) : get d k s = mapAfter ((writes ops).take s) k := by
  have hi := inv_of h
  rw [get_inv hi (hi.snap_le s hs).1, wrote_of h]

theorem step_snaps {d d' : Db K V} (op : Op K V) (hs : step d op = some d') (s : Nat)
    (hm : s ∈ d.snaps) (hne : ∀ t, op = .release t → t ≠ s) : s ∈ d'.snaps := by
  cases op <;> simp only [step] at hs
  case put => simp only [Option.some.injEq] at hs; subst hs; exact hm
  case publish => simp only [Option.some.injEq] at hs; subst hs; exact hm
  case rotate =>
    split at hs
    · simp only [Option.some.injEq] at hs; subst hs; exact hm
    · simp at hs
  case flush =>
    split at hs
    · simp at hs
    · simp only [Option.some.injEq] at hs; subst hs; exact hm
  case acquire =>
    simp only [Option.some.injEq] at hs; subst hs; exact List.mem_append_left _ hm
  case release t =>
    split at hs
    · simp only [Option.some.injEq] at hs
      subst hs
      exact (List.mem_erase_of_ne (hne t rfl).symm).2 hm
    · simp at hs
  case pick =>
    split at hs
    · simp only [Option.some.injEq] at hs; subst hs; exact hm
    · simp at hs
  case commit =>
    split at hs
    · simp at hs
    · simp only [Option.some.injEq] at hs; subst hs; exact hm
  case abort => simp only [Option.some.injEq] at hs; subst hs; exact hm

theorem run_snaps {d d' : Db K V} (ops : List (Op K V)) (hs : run d ops = some d') (s : Nat)
    (hm : s ∈ d.snaps) (hne : .release s ∉ ops) : s ∈ d'.snaps := by
  induction ops generalizing d with
  | nil => simp only [run, Option.some.injEq] at hs; exact hs ▸ hm
  | cons op ops ih =>
    simp only [run, Option.bind_eq_some_iff] at hs
    obtain ⟨d1, h1, h2⟩ := hs
    refine ih h2 (step_snaps op h1 s hm ?_) (fun h => hne (by simp [h]))
    rintro t rfl rfl
    exact hne (by simp)

/-- A snapshot keeps showing the state in which it was taken, for as long as it is held: whatever
is written, flushed and compacted in between. -/
theorem snapshot_isolated {ops later : List (Op K V)} {d d' : Db K V}
    (h : run (Db.init K V) ops = some d) (h' : run d (.acquire :: later) = some d')
    (hheld : .release d.seq ∉ later) (k : K) : get d' k d.seq = get d k d.seq := by
  have hall : run (Db.init K V) (ops ++ .acquire :: later) = some d' := by
    rw [run_append, h]
    exact h'
  have hm : d.seq ∈ d'.snaps := by
    simp only [run, step, Option.bind_some] at h'
    exact run_snaps later h' d.seq (by simp) hheld
  have hi := inv_of h
  rw [get_held hall k _ hm, get_inv hi hi.floor_le, ← wrote_of hall, run_wrote _ h',
    List.take_append_of_le_length hi.seq_le]

/-- What goes on in the background changes no read: moving the memory table aside, flushing it,
picking, building, committing and giving up compactions. -/
theorem background_silent {ops later : List (Op K V)} {d d' : Db K V}
    (h : run (Db.init K V) ops = some d) (h' : run d later = some d')
    (hb : ∀ op ∈ later, (∀ k v, op ≠ .put k v) ∧ op ≠ .publish) (k : K) :
    get d' k d'.seq = get d k d.seq := by
  have hall : run (Db.init K V) (ops ++ later) = some d' := by
    rw [run_append, h]
    exact h'
  have hi := inv_of h
  have hi' := inv_of hall
  have hp := run_published later h'
  have hfold : ∀ (l : List (Op K V)) (a : Nat × Nat),
      (∀ op ∈ l, (∀ k v, op ≠ .put k v) ∧ op ≠ .publish) →
      l.foldl tally a = a := by
    intro l
    induction l with
    | nil => intro a _; rfl
    | cons op l ih =>
      intro a hl
      rw [List.foldl_cons]
      have h1 := hl op (by simp)
      have h2 : tally a op = a := by
        cases op with
        | put k v => exact absurd rfl (h1.1 k v)
        | publish => exact absurd rfl h1.2
        | _ => rfl
      rw [h2]
      exact ih a (fun op hop => hl op (by simp [hop]))
  rw [hfold later _ hb] at hp
  simp only [Prod.mk.injEq] at hp
  rw [get_inv hi' hi'.floor_le, get_inv hi hi.floor_le, hp.2, run_wrote later h',
    List.take_append_of_le_length hi.seq_le]

/-- The records of a batch that is being written are not seen. -/
theorem put_unseen {ops : List (Op K V)} {d d' : Db K V} (h : run (Db.init K V) ops = some d)
    (k : K) (v : Option V) (h' : step d (.put k v) = some d') (x : K) :
    get d' x d'.seq = get d x d.seq := by
  have hall : run (Db.init K V) (ops ++ [.put k v]) = some d' := by
    rw [run_append, h]
    simp [run, h']
  have hi := inv_of h
  have hi' := inv_of hall
  obtain ⟨h1, h2⟩ := step_wrote _ h'
  simp only at h2
  rw [get_inv hi' hi'.floor_le, get_inv hi hi.floor_le, h1, h2,
    List.take_append_of_le_length hi.seq_le]

/-- Entries of the memory tables that are as old as an earlier state were in its memory tables. -/
theorem step_mems {d d' : Db K V} (op : Op K V) (hs : step d op = some d') (n : Nat)
    (hn : n ≤ d.wrote.length) (e : Entry K V) (he : e ∈ d'.mem ∨ e ∈ frozenL d') (hq : e.seq ≤ n) :
    e ∈ d.mem ∨ e ∈ frozenL d := by
  cases op <;> simp only [step] at hs
  case put k v =>
    simp only [Option.some.injEq] at hs
    subst hs
    rcases he with he | he
    · rcases (insert_mem _ _ _).1 he with rfl | he
      · simp only at hq
        omega
      · exact .inl he
    · exact .inr he
  case publish => simp only [Option.some.injEq] at hs; subst hs; exact he
  case rotate =>
    split at hs
    · simp only [Option.some.injEq] at hs
      subst hs
      rcases he with he | he
      · simp at he
      · exact .inl he
    · simp at hs
  case flush =>
    split at hs
    · simp at hs
    · simp only [Option.some.injEq] at hs
      subst hs
      rcases he with he | he
      · exact .inl he
      · simp [frozenL] at he
  case acquire => simp only [Option.some.injEq] at hs; subst hs; exact he
  case release =>
    split at hs
    · simp only [Option.some.injEq] at hs; subst hs; exact he
    · simp at hs
  case pick =>
    split at hs
    · simp only [Option.some.injEq] at hs; subst hs; exact he
    · simp at hs
  case commit =>
    split at hs
    · simp at hs
    · simp only [Option.some.injEq] at hs; subst hs; exact he
  case abort => simp only [Option.some.injEq] at hs; subst hs; exact he

theorem run_mems {d d' : Db K V} (ops : List (Op K V)) (hs : run d ops = some d')
    (e : Entry K V) (he : e ∈ d'.mem ∨ e ∈ frozenL d') (hq : e.seq ≤ d.wrote.length) :
    e ∈ d.mem ∨ e ∈ frozenL d := by
  have key : ∀ (ops : List (Op K V)) (d0 : Db K V) (n : Nat), n ≤ d0.wrote.length →
      run d0 ops = some d' → e.seq ≤ n → e ∈ d0.mem ∨ e ∈ frozenL d0 := by
    intro ops
    induction ops with
    | nil =>
      intro d0 n _ hs _
      simp only [run, Option.some.injEq] at hs
      subst hs
      exact he
    | cons op ops ih =>
      intro d0 n hn hs hq
      simp only [run, Option.bind_eq_some_iff] at hs
      obtain ⟨d1, h1, h2⟩ := hs
      have hlen : n ≤ d1.wrote.length := by
        rw [(step_wrote op h1).1]
        simp
        omega
      exact step_mems op h1 n hn e (ih d1 n hlen h2 hq) hq
  exact key ops d d.wrote.length (le_refl _) hs hq

/-- A read need not happen at one instant.  The code takes the memory tables first and the tables
on disk later; whatever happens in between, a read at a number that is held throughout gives the
map of the writes up to it. -/
theorem get_in_two_steps {ops later : List (Op K V)} {d d' : Db K V}
    (h : run (Db.init K V) ops = some d) (h' : run d later = some d') (s : Nat)
    (hs : s ∈ d.snaps) (hheld : .release s ∉ later) (k : K) :
    getSplit d d' k s = mapAfter ((writes ops).take s) k := by
  have hall : run (Db.init K V) (ops ++ later) = some d' := by
    rw [run_append, h]
    exact h'
  have hi := inv_of h
  have hi' := inv_of hall
  have hsle := hi.snap_le s hs
  have hs' := run_snaps later h' s hs hheld
  have hlen : s ≤ d.wrote.length := le_trans hsle.2 hi.seq_le
  have h1 := lookMems_right hi k s
  have h2 := lookVersion_right hi.lev_ok hi.depth_ok k s
  have hfull := orElse_right h1 h2 (fun e e' he he' _ => by
    rcases he with he | he
    · exact hi.mem_new e he e' (.inr he')
    · exact hi.fro_new e he e' he')
  have hval := right_value hi hsle.1 (right_congr (fun e => by simp only [Has]; tauto) hfull)
  rw [← wrote_of h, ← hval]
  unfold getSplit
  cases hm : lookMems d.mem d.frozen k s with
  | some e => rfl
  | none =>
    simp only
    -- nothing in the memory tables then, hence nothing now
    rw [hm] at hval
    simp only at hval
    have habs : Absent (fun e => e ∈ d'.mem ∨ e ∈ frozenL d') k s := by
      intro x hx hk
      by_contra hlt
      have hx' := run_mems later h' x hx (by omega)
      have h3 := h1.2 hm x hx' hk
      omega
    have hv := lookVersion_right hi'.lev_ok hi'.depth_ok k s
    have hr : Right (Has d') k s (lookVersion d'.lev d'.depth k s) := by
      refine ⟨fun e he => ?_, fun hn x hx hk => ?_⟩
      · obtain ⟨a1, a2, a3, a4⟩ := hv.1 e he
        refine ⟨.inr (.inr a1), a2, a3, fun x hx hk hxs => ?_⟩
        rcases hx with hx | hx | hx
        · have := habs x (.inl hx) hk
          omega
        · have := habs x (.inr hx) hk
          omega
        · exact a4 x hx hk hxs
      · rcases hx with hx | hx | hx
        · exact habs x (.inl hx) hk
        · exact habs x (.inr hx) hk
        · exact hv.2 hn x hx hk
    have hval' := right_value hi' (hi'.snap_le s hs').1 hr
    rw [hval, hval', run_wrote later h', List.take_append_of_le_length hlen]

/-- A read at a number above all that was ever written (which is how the chain reads: its own
memory table counts from far above) needs no snapshot, and gives the map of all the writes — those
of a batch that is just being written with them. -/
theorem get_above {ops : List (Op K V)} {d : Db K V} (h : run (Db.init K V) ops = some d)
    (k : K) (s : Nat) (hs : (writes ops).length ≤ s) : get d k s = mapAfter (writes ops) k := by
  have hi := inv_of h
  rw [← wrote_of h] at hs ⊢
  rw [get_inv hi (le_trans hi.floor_le (le_trans hi.seq_le hs)), List.take_of_length_le hs]

/-- In every level but the first the tables lie apart and in order. -/
theorem levels_apart {ops : List (Op K V)} {d : Db K V} (h : run (Db.init K V) ops = some d)
    (i : Nat) (hi1 : 1 ≤ i) :
    (d.lev i).Pairwise (fun f g => ∀ e ∈ f.es, ∀ x ∈ g.es, e.key < x.key) := by
  have hi := inv_of h
  refine List.Pairwise.imp_of_mem (fun {f g} hf hg hlt e he x hx => ?_) (hi.lev_ok.ordered i hi1)
  exact lt_of_le_of_lt ((hi.lev_ok.file_ok i f hf).key_le he)
    (lt_of_lt_of_le hlt ((hi.lev_ok.file_ok i g hg).lo_le x hx))

end Verif.Lsm
