import Verif.Lsm.IterProps

/-! # Runs of the levelled database: the hypotheses are met, and where the promises end -/

namespace Verif.Lsm

open Spec

/-- Writes, a snapshot, overwriting and deleting, two flushes, a compaction from level 0 to 1 that
makes two tables, a compaction from 1 to 2, and more writes; the snapshot at 3 is still held. -/
def busy : List (Op Nat Nat) :=
  [.put 1 (some 10), .put 2 (some 20), .put 3 (some 30), .publish, .acquire,
   .put 2 none, .put 1 (some 11), .publish, .rotate, .flush,
   .put 4 (some 40), .put 3 none, .publish, .rotate, .flush,
   .pick 0 [1, 2] true false (fun n => n == 2), .put 5 (some 50), .commit, .publish,
   .pick 1 [3] true false (fun _ => false), .commit,
   .put 1 none, .publish]

/-- What a run leaves, seen through one function. -/
def after {α : Type} (ops : List (Op Nat Nat)) (f : Db Nat Nat → α) : Option α :=
  (run (Db.init Nat Nat) ops).map f

-- the run goes through, and leaves tables at levels 1 and 2
example : after busy (fun d => (d.seq, d.snaps, d.depth)) = some (9, [3], 3) := by decide +kernel
example : after busy (fun d =>
    (List.range 3).map (fun i => (d.lev i).map (fun f => f.es.map (fun e => (e.key, e.seq))))) =
    some [[], [[(2, 4), (2, 2), (3, 7), (3, 3), (4, 6)]], [[(1, 5), (1, 1)]]] := by
  decide +kernel

-- reads at the present number, and through the snapshot
example : after busy (fun d => [1, 2, 3, 4, 5].map (fun k => get d k d.seq)) =
    some [none, none, none, some 40, some 50] := by decide +kernel
example : after busy (fun d => [1, 2, 3, 4, 5].map (fun k => get d k 3)) =
    some [some 10, some 20, some 30, none, none] := by decide +kernel

-- with no snapshot held a compaction drops what is overwritten and deleted
def quiet : List (Op Nat Nat) :=
  [.put 1 (some 10), .put 2 (some 20), .publish, .rotate, .flush,
   .put 1 (some 11), .put 2 none, .publish, .rotate, .flush,
   .pick 0 [1, 2] true false (fun _ => false), .commit]
example : after quiet (fun d => ((List.range 3).map (fun i => (d.lev i).map
    (fun f => f.es.map (fun e => (e.key, e.seq)))), d.floor)) =
    some ([[], [[(1, 3)]], []], 4) := by decide +kernel

/-- A number that is not held as a snapshot is no snapshot: the value that was there at the number
is gone once a compaction has run.  So a reader must hold a snapshot for as long as it reads, and
`get_held` cannot do without its hypothesis. -/
theorem unheld_read_loses :
    ∃ (ops later : List (Op Nat Nat)) (d d' : Db Nat Nat),
      run (Db.init Nat Nat) ops = some d ∧ run d later = some d' ∧
      get d 1 d.seq = some 10 ∧ get d' 1 d.seq = none ∧
      mapAfter ((writes (ops ++ later)).take d.seq) 1 = some 10 := by
  refine ⟨[.put 1 (some 10), .put 2 (some 20), .publish, .rotate, .flush],
    [.put 1 (some 11), .put 2 none, .publish, .rotate, .flush,
     .pick 0 [1, 2] true false (fun _ => false), .commit], ?_⟩
  exact ⟨_, _, rfl, rfl, by decide +kernel, by decide +kernel, by decide +kernel⟩

/-! ### Iterators -/

-- forward, backward, turning round, seeking, past both ends
example : after busy (fun d => (It.fresh d.entries 3).calls
    [.next, .next, .next, .prev, .next, .next, .prev, .seek 2, .prev, .prev, .prev, .next]) =
    some [some (1, 10), some (2, 20), some (3, 30), some (2, 20), some (3, 30), none, some (3, 30),
      some (2, 20), some (1, 10), none, none, some (1, 10)] := by decide +kernel

example : after busy (fun d => (It.fresh d.entries d.seq).calls
    [.first, .grow ⟨4, 10, none⟩, .next, .grow ⟨3, 11, some 33⟩, .prev, .last, .prev, .prev]) =
    some [some (4, 40), some (4, 40), some (5, 50), some (5, 50), some (4, 40), some (5, 50),
      some (4, 40), none] := by decide +kernel

-- the hypotheses of `iterator_is_cursor` on entries coming in are met by these
example : after busy (fun d => (decide (∀ e ∈ ([⟨4, 10, none⟩, ⟨3, 11, some 33⟩] : List (Entry Nat Nat)),
    d.seq < e.seq ∧ ∀ x ∈ d.entries, x.seq ≠ e.seq))) = some true := by decide +kernel

/-- A database of one entry. -/
def one : Db Nat Nat :=
  { Db.init Nat Nat with
    mem := [⟨1, 1, some 10⟩]
    seq := 1
    wrote := [(1, some 10)] }

/-- An iterator that reads at a number above all that is written — as the iterators of the store of
the chain do (`ledger/chain/db/store.go:109-113`), whose numbers start far above those of the
database — is no cursor over a fixed map: what writers put in meanwhile shows,
and the key the iterator stands on shows a value that is no longer there. -/
theorem high_iterator_moves :
    ∃ (ops : List (Op Nat Nat)) (d : Db Nat Nat) (calls : List (Call Nat Nat)),
      run (Db.init Nat Nat) ops = some d ∧
      (∀ e ∈ grown calls, d.seq < e.seq ∧ ∀ x ∈ d.entries, x.seq ≠ e.seq) ∧
      ((grown calls).map (·.seq)).Nodup ∧
      ¬ ∃ m, Follows m .start calls ((It.fresh d.entries 1000).calls calls) := by
  refine ⟨[.put 1 (some 10), .publish], one, [.first, .grow ⟨2, 2, some 20⟩, .next, .grow ⟨1, 3, none⟩,
    .first], rfl, by decide +kernel, by decide +kernel, ?_⟩
  rintro ⟨m, h⟩
  have hc : (It.fresh (Db.entries one) 1000).calls
      [.first, .grow ⟨2, 2, some 20⟩, .next, .grow ⟨1, 3, none⟩, .first] =
      [some (1, 10), some (1, 10), some (2, 20), some (2, 20), some (2, 20)] := by decide +kernel
  have h' : Follows m .start [.first, .grow ⟨2, 2, some 20⟩, .next, .grow ⟨1, 3, none⟩, .first]
      [some (1, 10), some (1, 10), some (2, 20), some (2, 20), some (2, 20)] := hc ▸ h
  simp only [Follows] at h'
  obtain ⟨_, _, _, e1, a1, _, _, _, e2, a2, _, _, _, e3, a3, _, _, _, e4, a4, _, _, _, e5, a5, _⟩ := h'
  simp only [List.cons.injEq] at e1
  obtain ⟨rfl, rfl⟩ := e1
  simp only [List.cons.injEq] at e2
  obtain ⟨rfl, rfl⟩ := e2
  simp only [List.cons.injEq] at e3
  obtain ⟨rfl, rfl⟩ := e3
  simp only [List.cons.injEq] at e4
  obtain ⟨rfl, rfl⟩ := e4
  simp only [List.cons.injEq] at e5
  obtain ⟨rfl, rfl⟩ := e5
  simp only [Answers, IsFirst] at a1 a5
  have := a5.1.2.2 1 (by rw [a1.1.1]; rfl) trivial
  omega

end Verif.Lsm
