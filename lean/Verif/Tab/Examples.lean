import Verif.Tab.Records
import Verif.Tab.IterProps
import Verif.Tab.MergeProps

/-! # Cases that meet the hypotheses, and a case that is left out -/

namespace Verif.Tab
open Verif.Bytes Verif.Store

/-- A codec that changes the data, in place of snappy. -/
def exCodec : Codec := ⟨fun d => 9 :: d.reverse, fun d => match d with | 9 :: l => some l.reverse | _ => none⟩

/-- Blocks are cut after twenty bytes, a restart point stands at every second entry. -/
def exO : Opts IOrd :=
  dbOpts 2 20 (some exCodec) (fun d => d.length % 2 ^ 32) (some (iFilter (fun d => UInt32.ofNat (d.length * 77777)) 10 [98])) true

def exRs : List Rec :=
  [⟨[1], 9, false, [5]⟩, ⟨[1], 4, true, []⟩, ⟨[1, 2], 5, false, [6, 6]⟩, ⟨[7], 3, false, [8]⟩, ⟨[9, 9, 9], 8, false, [1, 2, 3]⟩]

theorem exRs_sorted : exRs.Pairwise Rec.before := by unfold exRs Rec.before; decide +kernel

theorem exO_good : Good exO ukey :=
  dbOpts_good (by decide) (fun d => Nat.mod_lt _ (by decide))
    (by
      intro c hc d
      have := Option.some.inj hc
      subst this
      exact ⟨by show some d.reverse.reverse = some d; rw [List.reverse_reverse], by simp [exCodec]⟩)
    (Or.inr ⟨_, _, _, rfl⟩)

/-- The sizes asked for in `table_answers` and `table_gives_newest` are met, and there are several blocks. -/
theorem exRs_sizes : (tableOf exO (exRs.map Rec.entry)).any
    (fun w => decide (w.file.length < 2 ^ 63) && w.log.all (fun d => decide (d.length < 2 ^ 32)) && decide (5 < w.log.length)) = true := by decide +kernel

/-- A reader of the table gets what the theorem says: the deletion, nothing for what is too new, a value. -/
example : ((tableOf exO (exRs.map Rec.entry)).bind (fun w => openT exO w.file)).map
    (fun r => [versionIn exO r [1] 8, versionIn exO r [1] 3, versionIn exO r [1, 2] 100, versionIn exO r [8] 100]) =
    some [some (some ⟨[1], 4, true, []⟩), some none, some (some ⟨[1, 2], 5, false, [6, 6]⟩), some none] := by decide +kernel

/-- A run of the iterator over the table, with bounds that cut the first and the last block. -/
example : ((tableOf exO (exRs.map Rec.entry)).bind (fun w => (openT exO w.file).bind (fun r => r.iter exO (some (makeKey [1] 5 1)) (some (makeKey [8] 0 0)) true))).map
    (fun v => (v.asks v.new [.last, .prev, .prev, .prev, .next, .seek (makeKey [1, 1] 0 0), .next, .next, .prev]).map (fun x => (x.1, x.2.1, x.2.2.map (fun e => ukey e.1)))) =
    some [(false, true, some [7]), (false, true, some [1, 2]), (false, true, some [1]), (false, false, none), (false, true, some [1]),
      (false, true, some [1, 2]), (false, true, some [7]), (false, false, none), (false, true, some [7])] := by decide +kernel

/-- The same records, spread over two tables. -/
def exTwo : List (List (Bytes × Bytes)) := [[exRs[0], exRs[3]].map Rec.entry, [exRs[1], exRs[2], exRs[4]].map Rec.entry]

theorem exTwo_meets : (∀ es ∈ exTwo, es ≠ [] ∧ (∀ e ∈ es, e.1 ≠ []) ∧ Grows exO.ord es) ∧ Grows exO.ord (exRs.map Rec.entry) ∧ (exRs.map Rec.entry).Perm exTwo.flatten := by
  unfold Grows exTwo exRs exO
  refine ⟨?_, ?_, ?_⟩ <;> decide +kernel

example : ∀ es ∈ exTwo, (tableOf exO es).any (fun w => decide (w.file.length < 2 ^ 63) && w.log.all (fun d => decide (d.length < 2 ^ 32))) = true := by decide +kernel

/-- A run of a merged iterator over both, with bounds and turns in both directions. -/
example : (exTwo.mapM (tableIter exO (some (makeKey [1] 5 1)) none true)).map
    (fun vs => ((⟨exO.ord, tabKind, true⟩ : MEnv IOrd _).asks (MI.new (vs.map (fun v => (v, v.new)))) [.next, .next, .next, .prev, .prev, .next, .last, .prev, .next, .next, .prev]).map
      (fun x => (x.1, x.2.1, x.2.2.map (fun e => ukey e.1)))) =
    some [(false, true, some [1]), (false, true, some [1, 2]), (false, true, some [7]), (false, true, some [1, 2]), (false, true, some [1]), (false, true, some [1, 2]),
      (false, true, some [9, 9, 9]), (false, true, some [7]), (false, true, some [9, 9, 9]), (false, false, none), (false, true, some [9, 9, 9])] := by decide +kernel

/-- A block of five entries, with restart points, of which a part is looked at. -/
def exEs : List (Bytes × Bytes) := [([1], [5]), ([1, 2], []), ([1, 3], [7, 7]), ([4], [8]), ([4, 4, 4], [9])]

example : exEs.Pairwise (fun x y => bytesOrd x.1 < bytesOrd y.1) ∧ (blockBytes 2 exEs).length < 2 ^ 32 := by
  constructor
  · unfold exEs bytesOrd; decide +kernel
  · decide +kernel

example : cursor bytesOrd (between bytesOrd (some [1, 2]) (some [4, 4]) exEs) .before [.next, .next, .prev, .prev, .next, .seek [2], .next, .last] =
    [(false, true, some ([1, 2], [])), (false, true, some ([1, 3], [7, 7])), (false, true, some ([1, 2], [])), (false, false, none),
     (false, true, some ([1, 2], [])), (false, true, some ([4], [8])), (false, false, none), (false, true, some ([4], [8]))] := by decide +kernel

/-- **An empty block, with both bounds given, is reported as corrupt**: the number of restart points is
read as an offset.  Tables of the database are not empty. -/
theorem empty_block_error :
    (BI.asks bytesOrd (Block.ofBytes (blockBytes 2 [])) (BI.slice bytesOrd (Block.ofBytes (blockBytes 2 [])) (some [1]) (some [4]) false) [.next]).map
      (fun x => x.1) = [true] := by decide +kernel

end Verif.Tab
