import Verif.RCache.InvLemmas

/-! # The start of the round cache -/

namespace Verif.RCache

open Verif.Bytes Verif.Iter

/-- The blocks of a round are read lowest first. -/
abbrev InOrder (g : Cfg) (c : Chain) (r : Nat) : Prop := roundBlocks g c r = c.filter (fun b => decide (b.round = r))

theorem queryRedo_cases {g : Cfg} {c : Chain} (hc : Ok c) {r mid : Nat} (ho : InOrder g c r) (hm : ∀ i b, c[i]? = some b → (b.round < r ↔ i < mid)) :
    (queryRedo g c r).2 = false ∨ (queryRedo g c r = (none, true) ∧ ∀ b ∈ c, b.round ≠ r) ∨
      ∃ hi, Seg c r mid hi ∧ queryRedo g c r = (some (redos c mid hi), true) := by
  unfold queryRedo
  rw [ho]
  simp only
  by_cases hn : c.filter (fun b => decide (b.round = r)) = []
  · right; left
    rw [if_pos hn]
    refine ⟨rfl, ?_⟩
    intro b hb
    simpa using List.filter_eq_nil_iff.mp hn b hb
  · rw [if_neg hn]
    split
    · right; right
      obtain ⟨b, hb⟩ := List.exists_mem_of_ne_nil _ hn
      have hb' := List.mem_filter.mp hb
      have hbr : b.round = r := by simpa using hb'.2
      obtain ⟨lo, hi, hs⟩ := seg_exists hc.rounds hb'.1
      rw [hbr] at hs
      have hlt := hs.lt
      have hle := hs.le
      have hx : c[lo]? = some c[lo] := List.getElem?_eq_getElem (by omega)
      have h1 := (hs.mem hx).mpr ⟨Nat.le_refl _, hlt⟩
      have h2 := hm _ _ hx
      have hs' : Seg c r mid hi := ⟨by omega, hle, hm, hs.upto⟩
      refine ⟨hi, hs', ?_⟩
      rw [hs'.blocks]
      rfl
    · left; rfl

theorem initLoop_error {g : Cfg} {c : Chain} {n index : Nat} {prev : Mem} {acc : List Slot} {j : Nat} (h : initLoop g c n index prev acc = .error j) :
    index ≤ j := by
  induction n generalizing index prev acc with
  | zero => cases h
  | succ n ih =>
    unfold initLoop at h
    split at h
    · cases h; omega
    · have := ih h; omega
    · split at h
      · cases h
      · split at h
        · cases h
        · have := ih h; omega

theorem initLoop_slots {g : Cfg} (hg : g.Fair) {c : Chain} (hc : Ok c) {l : Blk} (hl : c.getLast? = some l) {d : Slot} {lo hi : Nat}
    (hs : Seg c d.round lo hi) (hf : Full c d hi) {n index mid : Nat} {prev : Mem} {L : List Slot} (hn : 1 ≤ n) (hix : index + n = l.round + 1)
    (ho : ∀ r, index ≤ r → InOrder g c r) (hL : Fulls c hi L mid) (hm : ∀ i b, c[i]? = some b → (b.round < index ↔ i < mid))
    (ha : Agrees c mid prev) {slots : List Slot} (h : initLoop g c n index prev (d :: L) = .ok slots) : Slots c slots := by
  induction n generalizing index mid prev L with
  | zero => omega
  | succ n ih =>
    unfold initLoop at h
    have hlast := getLast_get hl
    rcases queryRedo_cases hc (ho index (Nat.le_refl _)) hm with h0 | ⟨h0, h1⟩ | ⟨hi2, hs2, h0⟩
    · cases hq : queryRedo g c index with
      | mk a b =>
        rw [hq] at h0 h
        simp only at h0
        subst h0
        simp only at h
        cases h
    · rw [h0] at h
      simp only at h
      refine ih ?_ (by omega) (fun r hr => ho r (by omega)) hL ?_ ha h
      · by_contra hn0
        exact h1 l (List.mem_of_getLast? hl) (by omega)
      · intro i b hb
        have h2 := h1 b (List.mem_of_getElem? hb)
        have h3 := hm i b hb
        omega
    · rw [h0] at h
      simp only at h
      have hlt := hs2.lt
      split at h
      · cases h
        have hhi : hi2 = c.length := by
          have h1 := hs2.upto _ _ hlast
          have h2 := hs2.le
          have : 0 < c.length := by omega
          omega
        subst hhi
        exact Slots.some (l := L) hs hf hL ⟨hs2, rfl, rfl, rfl⟩
      · rw [hs2.lastOfRound hc.rounds] at h
        obtain ⟨b, hb, _⟩ := hs2.last
        rw [hb] at h
        simp only at h
        have ha2 := Agrees.build hg hc.logs (Nat.le_of_lt hlt) ha
        refine ih (L := L ++ [⟨index, some b, some (build g prev (redos c mid hi2)), some (redos c mid hi2)⟩]) (by omega) (by omega)
          (fun r hr => ho r (by omega)) (hL.snoc hs2 ⟨_, b, rfl, rfl, hb, ha2⟩ rfl) ?_ ha2 h
        intro i x hx
        have := hs2.upto i x hx
        omega

theorem initRounds_slots {g : Cfg} (hg : g.Fair) {c : Chain} (hc : Ok c) {l : Blk} (hl : c.getLast? = some l) (fuel start : Nat)
    (ho : ∀ r, start ≤ r → InOrder g c r) : Slots c (initRounds g c fuel start l.round) := by
  induction fuel generalizing start with
  | zero => exact .empty
  | succ fuel ih =>
    unfold initRounds
    by_cases hlt : start ≥ l.round
    · rw [if_pos hlt]; exact .empty
    · rw [if_neg hlt]
      cases hq : queryCurrent g c start with
      | none => exact .empty
      | some p =>
        obtain ⟨m, b⟩ := p
        simp only
        have hlo : ∃ b, lastOfRound c start = some b := by
          unfold queryCurrent at hq
          cases h : lastOfRound c start with
          | none => rw [h] at hq; cases hq
          | some x => exact ⟨x, rfl⟩
        obtain ⟨x, hx⟩ := hlo
        obtain ⟨hx1, hx2⟩ := lastOfRound_some hx
        obtain ⟨lo, hi, hs⟩ := seg_exists hc.rounds hx1
        rw [hx2] at hs
        obtain ⟨m', b', g1, g2, g3⟩ := queryCurrent_agrees (g := g) hc hs
        rw [hq] at g1
        cases g1
        split
        · rename_i slots h
          refine initLoop_slots hg hc hl (d := ⟨start, some b, some m, (queryRedo g c start).1⟩) hs ⟨m, b, rfl, rfl, g2, g3⟩ (by omega) (by omega)
            (fun r hr => ho r (by omega)) (.nil hi) ?_ g3 h
          intro i y hy
          have := hs.upto i y hy
          omega
        · rename_i j h
          have := initLoop_error h
          exact ih j (fun r hr => ho r (by omega))

theorem init_inv {g : Cfg} (hg : g.Fair) {s : St} (hi : Inv s) (hcalm : s.inited = true ∨ Calm g s.chain) :
    Inv (init g s) ∧ (init g s).chain = s.chain := by
  unfold init
  by_cases hin : s.inited = true
  · rw [if_pos hin]; exact ⟨hi, rfl⟩
  rw [if_neg hin]
  cases hl : s.chain.getLast? with
  | none => exact ⟨hi, rfl⟩
  | some l =>
    simp only
    refine ⟨⟨hi.ok, hi.ne, fun _ => ⟨?_, ?_⟩⟩, trivial⟩
    · simp only
      by_cases hc : l.round ≤ g.count
      · rw [if_pos hc]; exact .empty
      · rw [if_neg hc]
        refine initRounds_slots hg hi.ok hl _ _ ?_
        intro r hr
        unfold InOrder roundBlocks
        simp only
        rcases (hcalm.resolve_left hin) with h | h
        · rw [h]; rfl
        · split
          · have := (h l hl).resolve_left hc r hr
            generalize s.chain.filter (fun b => decide (b.round = r)) = x at this
            match x, this with
            | [], _ => rfl
            | [_], _ => rfl
            | _ :: _ :: _, h => simp at h
          · rfl
    · intro x hx
      rw [hl] at hx
      cases hx
      rfl

end Verif.RCache
