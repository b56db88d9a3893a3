import Verif.Work.AcquireProps

/-!
Acquisitions: the hypotheses of the theorems are met.
-/

namespace Verif.Work

/-- Two senders with a send each. -/
def F2 : Fronts := fun x => if x = 1 then some ⟨1, 10, 1⟩ else if x = 2 then some ⟨2, 20, 1⟩ else none

theorem F2_lists : Lists [⟨1, 10, 1⟩, ⟨2, 20, 1⟩] F2 := by
  rintro ⟨c, h, n⟩
  unfold F2
  by_cases h1 : c = 1
  · subst h1; simp; constructor
    · rintro (⟨rfl, rfl⟩); exact ⟨rfl, rfl⟩
    · rintro ⟨rfl, rfl⟩; exact ⟨rfl, rfl⟩
  · by_cases h2 : c = 2
    · subst h2; simp; constructor
      · rintro (⟨rfl, rfl⟩); exact ⟨rfl, rfl⟩
      · rintro ⟨rfl, rfl⟩; exact ⟨rfl, rfl⟩
    · simp [h1, h2]

/-- The cache after the first acquisition. -/
def c1 : Cache :=
  { pend := upd ((Cache.new.addAll [⟨1, 10, 1⟩, ⟨2, 20, 1⟩]).pend) 1 (some []), inferior := (Cache.new.addAll [⟨1, 10, 1⟩, ⟨2, 20, 1⟩]).inferior }

/-- The first acquisition. -/
theorem c1_acquire : Acquire none F2 F2 (some ⟨1, 10, 1⟩) c1 :=
  Acquire.fresh F2_lists (by simp) (OnePending.one 1 ⟨1, 10, 1⟩ [] rfl)

theorem c1_reach : CReach (some c1) := CReach.acquire CReach.none c1_acquire

/-- The other sender waits and is served next. -/
example : c1.waits 2 := ⟨⟨2, 20, 1⟩, [], rfl⟩

example : ∃ p, Round 2 c1 [2] p :=
  ⟨_, Round.acquire (Round.refl c1) ⟨⟨2, 20, 1⟩, [], rfl⟩ (F := F2) (F' := F2) (s := ⟨2, 20, 1⟩)
    (by
      intro x t ts hx
      by_cases h1 : x = 1
      · subst h1; simp [c1, upd] at hx
      · by_cases h2 : x = 2
        · subst h2
          have : c1.pend 2 = some [⟨2, 20, 1⟩] := rfl
          rw [this] at hx
          simp at hx
          rw [← hx.1]; rfl
        · have : c1.pend x = none := by simp [c1, upd, Cache.addAll, Cache.add, Cache.new, h1, h2]
          rw [this] at hx; simp at hx)
    (Acquire.hit (OnePending.one 2 ⟨2, 20, 1⟩ [] rfl) rfl)⟩

/-- Both senders restricted: nothing is acquired. -/
example : ∃ p, Acquire (some ((c1.restrict 1 .retry).restrict 2 .out)) F2 F2 none p := by
  have hno : ∀ x l, ((c1.restrict 1 .retry).restrict 2 .out).pend x = some l → l = [] := by
    intro x l hx
    by_cases h1 : x = 1
    · subst h1; simp [Cache.restrict, upd] at hx
    · by_cases h2 : x = 2
      · subst h2; simp [Cache.restrict, upd] at hx
      · have : ((c1.restrict 1 .retry).restrict 2 .out).pend x = none := by
          simp [Cache.restrict, c1, upd, Cache.addAll, Cache.add, Cache.new, h1, h2]
        rw [this] at hx; simp at hx
  refine ⟨((c1.restrict 1 .retry).restrict 2 .out).addFree [⟨1, 10, 1⟩, ⟨2, 20, 1⟩], Acquire.refill (OnePending.none hno) F2_lists ?_⟩
  refine OnePending.none ?_
  intro x l hx
  apply hno x l
  simpa [Cache.addFree, Cache.restrict, upd] using hx

end Verif.Work
