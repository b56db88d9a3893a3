import Verif.RCache.RCacheProps

/-!
# Cases of the round cache

Three rounds are kept, as in the code. Account `[7]` has another balance of the base token in each block; slot `[9]` of the governance contract
holds the height. -/

namespace Verif.RCache.Examples

open Verif.Bytes Verif.Iter Verif.RCache

/-- The headers of a round come highest first, as they do. -/
def real : Cfg := ⟨3, id, [[7]], fun _ => true, true⟩

/-- The headers come lowest first, as the code expects. -/
def meant : Cfg := { real with down := false }

theorem real_fair : real.Fair := fun l => List.Perm.refl l

theorem meant_fair : meant.Fair := fun l => List.Perm.refl l

def blk (height round bal : Nat) : Blk := ⟨100 + bal, height, round, [([7], [⟨[], some bal⟩]), (governance, [⟨[([9], [UInt8.ofNat height])], none⟩])]⟩

def start (c : Chain) : St := ⟨c, false, 0, []⟩

def runOps (g : Cfg) : List Op → St → Option St
  | [], s => some s
  | o :: os, s => (step g s o).bind (runOps g os)

instance (c : Chain) : Decidable (Ok c) :=
  decidable_of_iff ((∀ i ∈ List.range c.length, (c[i]?.map (·.height)).getD (i + 1) = i + 1) ∧ c.Pairwise (fun a b => a.round ≤ b.round) ∧
      (c.map (·.hash)).Nodup ∧ ∀ b ∈ c, (b.log.map (·.1)).Nodup)
    (by
      constructor
      · rintro ⟨h1, h2, h3, h4⟩
        refine ⟨?_, h2, h3, h4⟩
        intro i b hb
        have := h1 i (List.mem_range.mpr (List.getElem?_eq_some_iff.mp hb).1)
        rw [hb] at this
        exact this
      · rintro ⟨h1, h2, h3, h4⟩
        refine ⟨?_, h2, h3, h4⟩
        intro i hi
        have hi' := List.mem_range.mp hi
        have hb : c[i]? = some c[i] := List.getElem?_eq_getElem hi'
        rw [hb]
        exact h1 i _ hb)

instance (g : Cfg) (s : St) : (o : Op) → Decidable (o ≠ .init ∧ Allowed g s o)
  | .init => isFalse (fun h => h.1 rfl)
  | .insert b => if h : Ok (s.chain ++ [b]) then isTrue ⟨by simp, h⟩ else isFalse (fun h' => h h'.2)
  | .delete n => if h : 2 ≤ n ∧ n ≤ s.chain.length then isTrue ⟨by simp, h⟩ else isFalse (fun h' => h h'.2)

/-- All operations after the first are allowed. -/
def allAllowed (g : Cfg) : List Op → St → Bool
  | [], _ => true
  | o :: os, s => decide (o ≠ .init ∧ Allowed g s o) && match step g s o with | none => false | some s' => allAllowed g os s'

theorem reach_all {g : Cfg} {os : List Op} {s s' : St} (h : Reach g s) (ha : allAllowed g os s = true) (hr : runOps g os s = some s') : Reach g s' := by
  induction os generalizing s with
  | nil => cases hr; exact h
  | cons o os ih =>
    simp only [allAllowed, Bool.and_eq_true, decide_eq_true_eq] at ha
    cases hs : step g s o with
    | none => rw [hs] at ha; cases ha.2
    | some t =>
      rw [hs] at ha
      simp only [runOps, hs, Option.bind_some] at hr
      exact ih (h.step ha.1.2 hs) ha.2 hr

/-! ## The theorems' hypotheses are met -/

/-- Blocks of rounds 1 and 2; the cache starts empty and is filled as blocks come. -/
def young : Chain := [blk 1 1 10, blk 2 2 20]

/-- Blocks come, some go and others come. -/
def ops : List Op :=
  [.insert (blk 3 2 30), .insert (blk 4 4 40), .insert (blk 5 4 50), .insert (blk 6 5 60), .insert (blk 7 6 70), .delete 6, .insert (blk 6 5 61),
    .insert (blk 7 7 71), .delete 5, .insert (blk 5 4 51), .insert (blk 6 4 62), .insert (blk 7 7 72),
    .insert (blk 8 8 80), .delete 8, .insert (blk 8 9 81)]

def after : St := (runOps real ops (init real (start young))).getD (start [])

theorem young_calm : Calm real young := .inr (by intro l hl; left; revert hl; simp [young, blk, real]; rintro rfl; decide)

theorem reach_after : Reach real after :=
  reach_all (os := ops) (s := init real (start young))
    (Reach.step (o := .init) (Reach.start (c := young) (by decide +kernel) (by decide)) (.inr young_calm) rfl) (by decide +kernel)
    (by rw [show runOps real ops (init real (start young)) = some after by decide +kernel])

example : after.chain.map (·.hash) = [110, 120, 130, 140, 151, 162, 172, 181] := by decide +kernel

/-- The cache has the data of the ends of rounds 4 and 7 there. -/
example : (current 172 after.slots).isSome = true ∧ (current 162 after.slots).isSome = true ∧ current 151 after.slots = none := by decide +kernel

example : balance after 162 [7] = some 62 ∧ balance after 151 [7] = some 51 ∧ storage after 162 = [([9], [6])] := by decide +kernel

example : balance after 162 [7] = balanceAt after.chain 6 [7] :=
  balance_right real_fair (by decide) reach_after (b := blk 6 4 62) (by decide +kernel) [7]

/-- Rounds that have one block each: the cache starts full. -/
def sparse : Chain := [blk 1 1 10, blk 2 3 20, blk 3 4 30, blk 4 5 40]

theorem sparse_calm : Calm real sparse := .inr (by
  intro l hl
  right
  intro r _
  by_cases h1 : r = 1
  · subst h1; decide
  by_cases h3 : r = 3
  · subst h3; decide
  by_cases h4 : r = 4
  · subst h4; decide
  by_cases h5 : r = 5
  · subst h5; decide
  have : sparse.filter (fun b => decide (b.round = r)) = [] := by
    rw [List.filter_eq_nil_iff]
    intro b hb
    simp only [sparse, List.mem_cons, List.not_mem_nil, or_false] at hb
    rcases hb with rfl | rfl | rfl | rfl
    exacts [by simp [blk, Ne.symm h1], by simp [blk, Ne.symm h3], by simp [blk, Ne.symm h4], by simp [blk, Ne.symm h5]]
  rw [this]
  simp)

example : Reach real (init real (start sparse)) :=
  Reach.step (o := .init) (Reach.start (c := sparse) (by decide +kernel) (by decide)) (.inr sparse_calm) rfl

example : (current 120 (init real (start sparse)).slots).isSome = true ∧ (current 130 (init real (start sparse)).slots).isSome = true := by decide +kernel

/-- A database that has recorded such a chain. -/
example : Recorded (recordOf sparse) sparse ∧ HistWf (recordOf sparse) :=
  recordOf_recorded (by decide +kernel) (by decide +kernel) (by decide)

example : (recordOf sparse).length = 4 := by decide +kernel

/-! ## What the cache answers after a start -/

/-- Rounds with two blocks. -/
def busy : Chain := [blk 1 2 10, blk 2 3 20, blk 3 4 30, blk 4 4 40, blk 5 5 50, blk 6 5 60]

/-- **C79 fails for the code as it is.** After a start, the balance at the last block of round 4 is that of the block before it, and so is the storage:
the headers of a round come highest first, and the older values overwrite the newer. -/
theorem start_wrong : Ok busy ∧ (blk 4 4 40) ∈ busy ∧ balance (init real (start busy)) 140 [7] = some 30 ∧ balanceAt busy 4 [7] = some 40 ∧
    storage (init real (start busy)) 140 = [([9], [3])] ∧ storageAt busy 4 [9] = some [4] := by decide +kernel

/-- If the headers came lowest first the answers would be right, as `balance_right` says for `meant`. -/
example : balance (init meant (start busy)) 140 [7] = some 40 ∧ storage (init meant (start busy)) 140 = [([9], [4])] := by decide +kernel

example : Reach meant (init meant (start busy)) :=
  Reach.step (o := .init) (Reach.start (c := busy) (by decide +kernel) (by decide)) (.inr (.inl rfl)) rfl

/-- **C79 fails for the code as it is.** Rounds 3 and 4 have one block each, so that the start reads them rightly; the round that goes on has two.
The second is deleted and the chain goes on in a new round. The cache then gives for the last block of round 5 the balance that only the deleted
block gave: it is not among the logs' end, so it stays. -/
theorem deleted_stays :
    let s := runOps real [.delete 5, .insert (blk 5 6 70)] (init real (start [blk 1 2 10, blk 2 3 20, blk 3 4 30, ⟨140, 4, 5, []⟩, blk 5 5 50]))
    (s.map (fun s => s.chain.map (·.hash))) = some [110, 120, 130, 140, 170] ∧
      (s.map (fun s => (balance s 140 [7], balanceAt s.chain 4 [7]))) = some (some 50, some 30) := by decide +kernel

end Verif.RCache.Examples
