import Verif.Ndb.BanModel
import Verif.Tactics

/-! # A peer is banned for as long as was asked for last -/

namespace Verif.Ndb
open Verif.Bytes

/-! ### Specification -/

/-- The call changes whether this peer is banned. -/
def Call.concerns (id : Bytes) : Call → Prop
  | .ban x _ => x = id
  | .unban x => x = id
  | .ask _ => False

/-- The last call that concerns a peer, who has a name, is one that bans it until `till`. -/
def LastBan (h : List (Int × Call)) (id : Bytes) (till : Int) : Prop :=
  id ≠ [] ∧ ∃ before later t x, h = before ++ (t, .ban id x) :: later ∧ till = t + x ∧ ∀ e ∈ later, ¬ e.2.concerns id

/-! ### Proof -/

theorem last_snoc (h : List (Int × Call)) (e : Int × Call) (id : Bytes) (u : Int) :
    LastBan (h ++ [e]) id u ↔ (id ≠ [] ∧ ∃ x, e.2 = .ban id x ∧ u = e.1 + x) ∨ (¬ e.2.concerns id ∧ LastBan h id u) := by
  constructor
  · rintro ⟨hn, before, later, t, x, hh, hu, hl⟩
    rcases List.eq_nil_or_concat later with r | ⟨l', e', r⟩
    · subst r
      have := List.append_inj' hh rfl
      have he : e = (t, Call.ban id x) := by simpa using this.2
      left
      exact ⟨hn, x, by rw [he], by rw [he]; exact hu⟩
    · have r : later = l' ++ [e'] := by rw [r]; simp
      subst r
      rw [← List.cons_append, ← List.append_assoc] at hh
      have := List.append_inj' hh rfl
      have he : e = e' := by simpa using this.2
      right
      refine ⟨?_, hn, before, l', t, x, this.1, hu, fun y hy => hl y (List.mem_append_left _ hy)⟩
      rw [he]; exact hl e' (by simp)
  · rintro (⟨hn, x, he, hu⟩ | ⟨hc, hn, before, later, t, x, hh, hu, hl⟩)
    · refine ⟨hn, h, [], e.1, x, ?_, hu, by simp⟩
      rw [← he]
    · refine ⟨hn, before, later ++ [e], t, x, by rw [hh]; simp, hu, ?_⟩
      intro y hy
      rcases List.mem_append.1 hy with r | r
      · exact hl y r
      · rw [List.mem_singleton.1 r]; exact hc

theorem inv (h : List (Int × Call)) : ∀ id,
    (∀ r, after h id = some r → LastBan h id r.till) ∧
    (∀ u, LastBan h id u → (∃ c, after h id = some ⟨c, u⟩) ∨ ∃ e ∈ h, u ≤ e.1) := by
  induction h using List.reverseRecOn with
  | nil =>
    intro id
    refine ⟨fun r hr => (by cases hr), ?_⟩
    rintro u ⟨-, before, later, t, x, hh, -⟩
    cases before <;> cases hh
  | append_singleton h e ih =>
    intro id
    obtain ⟨i1, i2⟩ := ih id
    have ha : after (h ++ [e]) = (after h).call e := by unfold after; rw [List.foldl_append]; rfl
    rw [ha]
    obtain ⟨t, c⟩ := e
    have hkeep : ¬ c.concerns id → ((after h).call (t, c) id = after h id) →
        (∀ r, (after h).call (t, c) id = some r → LastBan (h ++ [(t, c)]) id r.till) ∧
        (∀ u, LastBan (h ++ [(t, c)]) id u → (∃ n, (after h).call (t, c) id = some ⟨n, u⟩) ∨ ∃ e ∈ h ++ [(t, c)], u ≤ e.1) := by
      intro hc hs
      rw [hs]
      refine ⟨fun r hr => (last_snoc _ _ _ _).2 (Or.inr ⟨hc, i1 r hr⟩), fun u hu => ?_⟩
      rcases (last_snoc _ _ _ _).1 hu with ⟨-, x, he, -⟩ | ⟨-, hl⟩
      · exact absurd (show c.concerns id by rw [show c = .ban id x from he]; rfl) hc
      · rcases i2 u hl with r | ⟨e, he, hle⟩
        · exact Or.inl r
        · exact Or.inr ⟨e, List.mem_append_left _ he, hle⟩
    cases c with
    | ban x d =>
      by_cases hx : x = id
      · subst hx
        show (∀ r, (after h).ban x d t x = some r → _) ∧ ∀ u, _ → (∃ n, (after h).ban x d t x = some ⟨n, u⟩) ∨ _
        by_cases h0 : x.length = 0
        · have hx0 : x = [] := List.length_eq_zero_iff.1 h0
          unfold Bans.ban
          rw [if_pos h0]
          refine ⟨fun r hr => absurd hx0 (i1 r hr).1, fun u hu => absurd hx0 hu.1⟩
        · have hne : x ≠ [] := fun q => h0 (by rw [q]; rfl)
          have hb : ∃ n, (after h).ban x d t x = some ⟨n, t + d⟩ := by
            unfold Bans.ban
            rw [if_neg h0]
            cases after h x with
            | none => exact ⟨1, by simp [Bans.set]⟩
            | some r => exact ⟨r.count + 1, by simp [Bans.set]⟩
          obtain ⟨n, hn⟩ := hb
          rw [hn]
          refine ⟨fun r hr => ?_, fun u hu => ?_⟩
          · rw [← Option.some.inj hr]
            exact (last_snoc _ _ _ _).2 (Or.inl ⟨hne, d, rfl, rfl⟩)
          · rcases (last_snoc _ _ _ _).1 hu with ⟨-, y, he, hu'⟩ | ⟨hc, -⟩
            · have : d = y := by injection he
              exact Or.inl ⟨n, by rw [hu', this]⟩
            · exact absurd rfl hc
      · refine hkeep hx ?_
        show (after h).ban x d t id = _
        unfold Bans.ban
        have hx' : id ≠ x := fun q => hx q.symm
        by_cases h0 : x.length = 0
        · rw [if_pos h0]
        · rw [if_neg h0]
          cases after h x <;> simp [Bans.set, hx']
    | unban x =>
      by_cases hx : x = id
      · subst hx
        show (∀ r, (after h).unban x x = some r → _) ∧ ∀ u, _ → (∃ n, (after h).unban x x = some ⟨n, u⟩) ∨ _
        have : (after h).unban x x = none := by simp [Bans.unban, Bans.set]
        rw [this]
        refine ⟨fun r hr => (by cases hr), fun u hu => ?_⟩
        rcases (last_snoc _ _ _ _).1 hu with ⟨-, y, he, -⟩ | ⟨hc, -⟩
        · cases he
        · exact absurd rfl hc
      · refine hkeep hx ?_
        have hx' : id ≠ x := fun q => hx q.symm
        show (after h).unban x id = _
        simp [Bans.unban, Bans.set, hx']
    | ask x =>
      by_cases hx : x = id ∧ ∃ r, after h x = some r ∧ r.till ≤ t
      · obtain ⟨hx, r, hr, hle⟩ := hx
        subst hx
        have : (after h).call (t, .ask x) x = none := by
          show ((after h).banned x t).2 x = none
          unfold Bans.banned
          rw [hr]
          dsimp only
          rw [if_neg (by omega)]
          simp [Bans.set]
        rw [this]
        refine ⟨fun r hr => (by cases hr), fun u hu => ?_⟩
        rcases (last_snoc _ _ _ _).1 hu with ⟨-, y, he, -⟩ | ⟨-, hl⟩
        · cases he
        · rcases i2 u hl with ⟨n, hn⟩ | ⟨e, he, hle'⟩
          · rw [hr] at hn
            have : r.till = u := by rw [Option.some.inj hn]
            exact Or.inr ⟨(t, .ask x), by simp, by show u ≤ t; omega⟩
          · exact Or.inr ⟨e, List.mem_append_left _ he, hle'⟩
      · refine hkeep (fun q => q) ?_
        show ((after h).banned x t).2 id = _
        unfold Bans.banned
        cases hr : after h x with
        | none => rfl
        | some r =>
          dsimp only
          by_cases hlt : t < r.till
          · rw [if_pos hlt]
          · rw [if_neg hlt]
            have : id ≠ x := fun q => hx ⟨q.symm, r, hr, by omega⟩
            simp [Bans.set, this]

/-- **A peer is banned exactly if the last call about it banned it until later than now**, whatever was asked in between; `now` is not
before any call. -/
theorem banned_iff (h : List (Int × Call)) (id : Bytes) (now : Int) (hnow : ∀ e ∈ h, e.1 ≤ now) :
    ((after h).banned id now).1 = true ↔ ∃ till, LastBan h id till ∧ now < till := by
  obtain ⟨i1, i2⟩ := inv h id
  unfold Bans.banned
  constructor
  · intro hb
    cases hr : after h id with
    | none => rw [hr] at hb; cases hb
    | some r =>
      rw [hr] at hb
      dsimp only at hb
      by_cases hlt : now < r.till
      · exact ⟨r.till, i1 r hr, hlt⟩
      · rw [if_neg hlt] at hb; cases hb
  · rintro ⟨u, hu, hlt⟩
    rcases i2 u hu with ⟨c, hc⟩ | ⟨e, he, hle⟩
    · rw [hc]
      dsimp only
      rw [if_pos hlt]
    · have := hnow e he; omega

/-- There is at most one such time. -/
theorem lastBan_unique (h : List (Int × Call)) (id : Bytes) : ∀ u u', LastBan h id u → LastBan h id u' → u = u' := by
  induction h using List.reverseRecOn with
  | nil =>
    rintro u u' ⟨-, before, later, t, x, hh, -⟩
    cases before <;> cases hh
  | append_singleton h e ih =>
    intro u u' a b
    rcases (last_snoc _ _ _ _).1 a with ⟨-, x, he, hu⟩ | ⟨hc, hl⟩
    · rcases (last_snoc _ _ _ _).1 b with ⟨-, x', he', hu'⟩ | ⟨hc', -⟩
      · rw [he] at he'
        have : x = x' := by injection he'
        rw [hu, hu', this]
      · exact absurd (by rw [he]; rfl) hc'
    · rcases (last_snoc _ _ _ _).1 b with ⟨-, x', he', hu'⟩ | ⟨-, hl'⟩
      · exact absurd (by rw [he']; rfl) hc
      · exact ih u u' hl hl'

/-- **If the clock is set back, a ban may be over early**: asking about it after its end forgets it. -/
theorem clock_back : ((after [(10, .ban [1] 5), (20, .ask [1])]).banned [1] 12).1 = false ∧ ((after [(10, .ban [1] 5)]).banned [1] 12).1 = true := by
  decide +kernel

/-- A shorter ban takes the place of a longer one. -/
theorem ban_shortens : ((after [(10, .ban [1] 500), (11, .ban [1] 1)]).banned [1] 20).1 = false := by decide +kernel

example : ((after [(1, .ban [1] 10), (2, .ban [2] 10), (3, .unban [2]), (4, .ask [1])]).banned [1] 10).1 = true ∧
    ((after [(1, .ban [1] 10), (2, .ban [2] 10), (3, .unban [2])]).banned [2] 5).1 = false ∧ ((after [(1, .ban [1] 10)]).banned [1] 11).1 = false := by
  decide +kernel

example : LastBan [(1, .ban [1] 10), (2, .ban [2] 10), (3, .unban [2])] [1] 11 :=
  ⟨by decide, [], [(2, .ban [2] 10), (3, .unban [2])], 1, 10, rfl, rfl, by simp [Call.concerns]⟩

end Verif.Ndb
