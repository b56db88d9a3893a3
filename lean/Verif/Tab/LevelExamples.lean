import Verif.Tab.Examples
import Verif.Tab.LevelProps

/-! # Levels of tables that meet the hypotheses, and runs over them -/

namespace Verif.Tab
open Verif.Bytes Verif.Store

/-- The records of the example, spread over the tables of a level. -/
def exParts : List (List (Bytes × Bytes)) := [[exRs[0], exRs[1]].map Rec.entry, [exRs[2]].map Rec.entry, [exRs[3], exRs[4]].map Rec.entry]

/-- A table of these entries, opened. -/
def exTF (es : List (Bytes × Bytes)) : Option TF := do
  let w ← tableOf exO es
  let r ← openT exO w.file
  let a ← es.head?
  let b ← es.getLast?
  some ⟨r, a.1, b.1⟩

theorem exTF_holds {es : List (Bytes × Bytes)} (hne : es ≠ []) (hk : ∀ e ∈ es, e.1 ≠ []) (hs : Grows exO.ord es)
    (hsz : (tableOf exO es).any (fun w => decide (w.file.length < 2 ^ 63) && w.log.all (fun d => decide (d.length < 2 ^ 32))) = true) :
    ∃ r, exTF es = some ⟨r, (es.head hne).1, (es.getLast hne).1⟩ ∧ Holds exO ⟨r, (es.head hne).1, (es.getLast hne).1⟩ es := by
  obtain ⟨w, h1, h2⟩ := written_holds exO_good hne hk hs
  rw [h1] at hsz
  have hsz' : (decide (w.file.length < 2 ^ 63) && w.log.all (fun d => decide (d.length < 2 ^ 32))) = true := hsz
  rw [Bool.and_eq_true, decide_eq_true_eq, List.all_eq_true] at hsz'
  obtain ⟨r, h3, h4⟩ := h2 (fun d hd => by simpa using hsz'.2 d hd) hsz'.1
  refine ⟨r, ?_, h4⟩
  unfold exTF
  rw [h1]
  show (openT exO w.file).bind _ = _
  rw [h3, List.head?_eq_some_head hne, List.getLast?_eq_some_getLast hne]
  rfl

/-- The level: three tables, in order. -/
theorem exLevel : ∃ T, T.map Prod.snd = exParts ∧ exParts.mapM exTF = some (T.map Prod.fst) ∧ LevelOf exO T := by
  obtain ⟨a, a1, a2⟩ := exTF_holds (es := [exRs[0], exRs[1]].map Rec.entry) (by decide) (by decide +kernel) (by unfold Grows exRs exO; decide +kernel) (by decide +kernel)
  obtain ⟨b, b1, b2⟩ := exTF_holds (es := [exRs[2]].map Rec.entry) (by decide) (by decide +kernel) (by unfold Grows exRs exO; decide +kernel) (by decide +kernel)
  obtain ⟨c, c1, c2⟩ := exTF_holds (es := [exRs[3], exRs[4]].map Rec.entry) (by decide) (by decide +kernel) (by unfold Grows exRs exO; decide +kernel) (by decide +kernel)
  refine ⟨[(⟨a, exRs[0].entry.1, exRs[1].entry.1⟩, [exRs[0], exRs[1]].map Rec.entry), (⟨b, exRs[2].entry.1, exRs[2].entry.1⟩, [exRs[2]].map Rec.entry),
    (⟨c, exRs[3].entry.1, exRs[4].entry.1⟩, [exRs[3], exRs[4]].map Rec.entry)], rfl, ?_, ?_, ?_⟩
  · unfold exParts
    rw [List.mapM_cons, a1, List.mapM_cons, b1, List.mapM_cons, c1]
    rfl
  · intro x hx
    simp only [List.mem_cons, List.not_mem_nil, or_false] at hx
    rcases hx with rfl | rfl | rfl
    · exact a2
    · exact b2
    · exact c2
  · refine List.pairwise_cons.2 ⟨?_, List.pairwise_cons.2 ⟨?_, List.pairwise_singleton _ _⟩⟩
    · intro x hx
      simp only [List.mem_cons, List.not_mem_nil, or_false] at hx
      rcases hx with rfl | rfl
      · show exO.ord exRs[1].entry.1 < exO.ord exRs[2].entry.1
        unfold exRs exO; decide +kernel
      · show exO.ord exRs[1].entry.1 < exO.ord exRs[3].entry.1
        unfold exRs exO; decide +kernel
    · intro x hx
      simp only [List.mem_cons, List.not_mem_nil, or_false] at hx
      subst hx
      show exO.ord exRs[2].entry.1 < exO.ord exRs[3].entry.1
      unfold exRs exO; decide +kernel

/-- A run over the level, with bounds in its first and its last table. -/
example : ((exParts.mapM exTF).bind (fun tf => levelCut exO.ord tf (some (makeKey [1] 5 1)) (some (makeKey [8] 0 0)))).map
    (fun C => ((levelEnv exO C (some (makeKey [1] 5 1)) (some (makeKey [8] 0 0)) true).asks LI.new [.next, .next, .next, .next, .prev, .prev, .prev, .prev, .seek (makeKey [2] 0 0)]).map
      (fun x => (x.1, x.2.1, x.2.2.map (fun e => ukey e.1)))) =
    some [(false, true, some [1]), (false, true, some [1, 2]), (false, true, some [7]), (false, false, none), (false, true, some [7]),
      (false, true, some [1, 2]), (false, true, some [1]), (false, false, none), (false, true, some [7])] := by decide +kernel

/-- The bounds the wrong way round. -/
theorem exLevel_inverted : (exParts.mapM exTF).map (fun tf => (levelCut exO.ord tf (some (makeKey [8] 0 0)) (some (makeKey [1, 1] 0 0))).isNone) = some true := by decide +kernel

/-- A run of the raw iterator over a memory table, a table of level zero and a level: the values it shows. -/
def exRaw : Option (List (Bool × Bool × Option Bytes)) := do
  let t ← exTF ([exRs[0]].map Rec.entry)
  let tf ← [[exRs[2]].map Rec.entry, [exRs[3], exRs[4]].map Rec.entry].mapM exTF
  let is ← rawIters exO [[exRs[1]].map Rec.entry] [t] [[], tf] none (some (makeKey [9, 9] 0 0)) true
  some (((⟨exO.ord, srcKind exO.ord, true⟩ : MEnv IOrd (Src IOrd)).asks (MI.new is) [.next, .next, .next, .next, .prev, .prev, .next, .next, .next, .last]).map
    (fun x => (x.1, x.2.1, x.2.2.map Prod.snd)))

example : exRaw =
    some [(false, true, some [5]), (false, true, some []), (false, true, some [6, 6]), (false, true, some [8]),
      (false, true, some [6, 6]), (false, true, some []), (false, true, some [6, 6]), (false, true, some [8]),
      (false, false, none), (false, true, some [8])] := by decide +kernel

end Verif.Tab
