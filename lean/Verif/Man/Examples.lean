import Verif.Man.SessionProps

/-! # A history with flushes, a compaction and two starts -/

namespace Verif.Man.Ex
open Verif.Man Verif.Bytes

def name : Bytes := [118]
def ord (b : Bytes) : Nat := (b.headD 0).toNat

/-- A flush: two tables to level zero, and a new journal. -/
def r1 : SRec := { journal := some 3, seq := some 7, adds := [(0, ⟨1, 10, [5], [9]⟩), (0, ⟨2, 11, [1], [6]⟩)] }
/-- A compaction: both go, two come to level one; the pointer of level zero is set. -/
def r2 : SRec := { comps := [(0, [9])], dels := [(0, 1), (0, 2)], adds := [(1, ⟨5, 300, [6], [9]⟩), (1, ⟨4, 20, [1], [5]⟩)] }
/-- Another, after a start. -/
def r3 : SRec := { comps := [(0, [4]), (1, [5])], dels := [(1, 4)], adds := [(2, ⟨4, 20, [1], [5]⟩), (0, ⟨7, 1, [3], [3]⟩)] }

def s1 : Ses := { Ses.fresh.create name with next := 4 }
def s2 : Ses := s1.commit name ord r1
def s3 : Ses := { s2 with next := 6 }
def s4 : Ses := s3.commit name ord r2
def s5 : Ses := ⟨[[], [⟨4, 20, [1], [5]⟩, ⟨5, 300, [6], [9]⟩]], 6, 3, 0, 7, [some [9]], false, s4.disk⟩
def s6 : Ses := { s5 with next := 9 }
def s7 : Ses := s6.commit name ord r3

theorem s4_recovers : recover name ord s4.disk = some s5 := by decide +kernel

/-- The tables of a session and the manifest have smaller numbers. -/
def above (s : Ses) (n : Nat) : Bool := s.ver.all (fun l => l.all (fun t => t.num < n)) && (s.disk.map (fun d => decide (d.1 < n))).getD true

theorem above_ver {s : Ses} {n : Nat} (h : above s n = true) : (∀ i, ∀ t ∈ s.ver.getD i [], t.num < n) ∧ (∀ d, s.disk = some d → d.1 < n) := by
  unfold above at h
  rw [Bool.and_eq_true, List.all_eq_true] at h
  refine ⟨fun i t ht => ?_, fun d hd => ?_⟩
  · rcases Nat.lt_or_ge i s.ver.length with q | q
    · rw [getD_lt _ q] at ht
      have := List.all_eq_true.1 (h.1 _ (List.getElem_mem q)) t ht
      simpa using this
    · rw [getD_ge _ q] at ht; cases ht
  · have := h.2
    rw [hd] at this
    simpa using this

theorem small1 : r1.Small := ⟨by simp [r1], by simp [r1], by simp [r1], by simp [r1], by simp [r1], by simp [r1], by simp [r1, Tb.small]⟩
theorem small2 : r2.Small := ⟨by simp [r2], by simp [r2], by simp [r2], by simp [r2], by simp [r2], by simp [r2], by simp [r2, Tb.small]⟩
theorem small3 : r3.Small := ⟨by simp [r3], by simp [r3], by simp [r3], by simp [r3], by simp [r3], by simp [r3], by simp [r3, Tb.small]⟩

theorem hist : Hist name ord s7 := by
  have h1 : Hist name ord s1 := .number 4 .create (above_ver (by decide +kernel)).1 (above_ver (by decide +kernel)).2 (by decide)
  have h2 : Hist name ord s2 := .commit r1 h1 small1 rfl rfl (by decide) (by decide)
  have h3 : Hist name ord s3 := .number 6 h2 (above_ver (by decide +kernel)).1 (above_ver (by decide +kernel)).2 (by decide)
  have h4 : Hist name ord s4 := .commit r2 h3 small2 rfl rfl (by decide) (by decide)
  have h5 : Hist name ord s5 := .reopen h4 s4_recovers
  have h6 : Hist name ord s6 := .number 9 h5 (above_ver (by decide +kernel)).1 (above_ver (by decide +kernel)).2 (by decide)
  exact .commit r3 h6 small3 rfl rfl (by decide) (by decide)

/-- What is there in the end: a table on each of three levels, in a manifest of its own.  The pointer of level
zero was to become `[4]` and is still `[9]`; that of level one is set. -/
theorem end_state : s7.ver = [[⟨7, 1, [3], [3]⟩], [⟨5, 300, [6], [9]⟩], [⟨4, 20, [1], [5]⟩]] ∧ s7.comps = [some [9], some [5]] ∧ s7.next = 10 ∧ s7.disk.map Prod.fst = some 9 := by
  decide +kernel

/-- It can be opened again. -/
example : ∃ s', recover name ord s7.disk = some s' ∧ s'.ver = [[⟨7, 1, [3], [3]⟩], [⟨5, 300, [6], [9]⟩], [⟨4, 20, [1], [5]⟩]] := by
  obtain ⟨s', d, h, _, e, _⟩ := reopen_restores (by decide) hist
  exact ⟨s', h, e.trans end_state.1⟩

/-- The hypotheses of the two theorems on pointers are met. -/
example : s6.writer = false ∧ s6.comps.getD 0 none = some [9] ∧ s3.writer = true ∧ lastOf r2.comps 0 = some [9] := by decide +kernel

end Verif.Man.Ex
