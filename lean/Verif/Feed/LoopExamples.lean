import Verif.Feed.LoopProps

/-! # The event loop and its filters: the deadlock, and that the hypotheses can be met (C104) -/

namespace Verif.Feed.Loop

/-- Every filter is concerned by every event. -/
def all : Nat → Nat → Bool := fun _ _ => true

/-- One filter, in the map. -/
def s1 : LSt := { ids := [1], inst := upd (fun _ => false) 1 true, g := upd (upd (fun _ => .no) 1 .born) 1 .wait, inMap := upd (fun _ => false) 1 true, since := upd (fun _ => 0) 1 0 }

theorem s1_run : Run all {} s1 :=
  .inner _ _ (.outer _ _ .start (.create {} 1 rfl (by simp))) (.enter _ 1 rfl rfl)

/-- Two events are in the queue. -/
def s2 : LSt := { s1 with queue := [10, 11], pushed := [10, 11] }

theorem s2_run : Run all {} s2 :=
  .outer _ _ (.outer _ _ s1_run (.push s1 10 (by simp [s1]))) (.push _ 11 (by simp [s1]))

theorem inst1 (i : Nat) : upd (fun _ => false) 1 true i = true ↔ i = 1 := by
  unfold upd; split <;> simp_all

theorem r1 (s : LSt) (hs : s.inst = upd (fun _ => false) 1 true) (e : Nat) : ∀ i, i ∈ [1] ↔ s.inst i = true ∧ all i e = true := by
  intro i; rw [hs, inst1]; simp [all]

/-- The filter's time is up: the loop that looks for expired filters has the lock, and its request is in the channel. -/
def s3 : LSt := { s2 with uq := [1], tl := .wait 1 [] }

theorem s3_run : Run all {} s3 :=
  .inner _ _ (.inner _ _ (.outer _ _ s2_run (.tick s2 [1] rfl (by simp [s2, s1, upd]) (by simp))) (.expire _ 1 [] rfl)) (.expireAsk _ 1 [] rfl (by simp [s2, s1]))

/-- The event loop has given the first event to the filter's goroutine, which waits for the lock, and has the second in hand for the same filter. -/
def s4 : LSt := { s3 with queue := [], taken := [10, 11], loop := some (11, [1]), g := upd s1.g 1 (.hold 10) }

theorem s4_run : Run all {} s4 :=
  .inner _ _ (.inner _ _ (.inner _ _ (.inner _ _ s3_run
    (.take s3 10 [11] [1] rfl rfl (by simp) (r1 _ rfl 10)))
    (.hand _ 10 1 [] rfl rfl))
    (.next _ 10 rfl))
    (.take _ 11 [] [1] rfl rfl (by simp) (r1 _ rfl 11))

theorem s4_stuck : Stuck s4 :=
  ⟨⟨11, 1, [], rfl, ⟨10, rfl⟩, rfl, 1, [], rfl, rfl⟩⟩

/-- **C104 fails.** One filter that its client no longer asks is enough to stop the node: two blocks that arrive while it is being removed can leave the event loop waiting for the filter, the filter for the lock, and the holder of the lock for the event loop.
From then on no filter is told anything, whatever happens, and the ledger can add at most 100 more batches of blocks before it waits as well. -/
theorem expiry_can_stop_node : ∃ s, Run all {} s ∧ (∀ s', Run all s s' → s'.taken = s.taken) ∧ (∀ s', Run all s s' → s'.pushed.length ≤ s.taken.length + 100) :=
  ⟨s4, s4_run, fun s' h => (stuck_forever all s4 s' s4_stuck h).2, fun s' h => stuck_stops_ledger all s4 s' s4_run s4_stuck h⟩

/-- The hypotheses of `filter_exact`, `filter_complete` and `no_deadlock_partial` are met: a filter that was told an event and whose client got it. -/
def s5 : LSt := { s1 with pushed := [10], taken := [10], polled := upd (fun _ => []) 1 [10], g := upd (upd s1.g 1 (.hold 10)) 1 .wait, buf := upd (upd (fun _ => []) 1 [10]) 1 [] }

theorem s5_run : Run all {} s5 :=
  .outer _ _ (.inner _ _ (.inner _ _ (.inner _ _ (.inner _ _ (.outer _ _ s1_run (.push s1 10 (by simp [s1])))
    (.take _ 10 [] [1] rfl rfl (by simp) (r1 _ rfl 10)))
    (.hand _ 10 1 [] rfl rfl))
    (.next _ 10 rfl))
    (.append _ 1 10 rfl rfl))
    (.poll _ 1 rfl rfl)

theorem s5_alive : s5.alive 1 := ⟨by simp [s5, s1], rfl, rfl, fun _ => ⟨by simp [s5, s1], by simp [s5, s1]⟩⟩

example : s5.polled 1 ++ s5.buf 1 = (s5.pushed.drop (s5.since 1)).filter (all 1) :=
  filter_complete all s5 s5_run 1 s5_alive ⟨rfl, rfl, fun i e => by simp only [s5, s1, upd]; split <;> simp⟩

example : s5.polled 1 = [10] := rfl

end Verif.Feed.Loop
