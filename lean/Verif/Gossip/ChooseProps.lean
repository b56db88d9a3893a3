import Verif.Gossip.ChooseModel

/-! # Whom a block is forwarded to (C120) -/

namespace Verif.Gossip

/-- Of a list of slots, how many hold a common peer. -/
def commons (told : List Nat) (l : List (Option Nat)) : Nat :=
  (l.filterMap id).countP (fun p => told.contains p)

/-- A peer that the sender has told of. -/
def isCommon (told : List Nat) (sender : Nat) (p : Nat) : Bool := p != sender && told.contains p

theorem pass1_spec (told : List Nat) (sender max : Nat) (ps : List Nat) : ∀ i common enough,
    let r := pass1 told sender max ps i common enough
    r.2.1 = common + ps.countP (isCommon told sender) ∧
    (r.1.filterMap id).Sublist (ps.filter (fun p => p != sender)) ∧
    (∀ p ∈ ps, p ≠ sender → told.contains p = false → p ∈ r.1.filterMap id) ∧
    commons told r.1 = min (max - common) (ps.countP (isCommon told sender)) ∧
    r.1.length = ps.length ∧
    (commons told r.1 = 0 → r.2.2 = enough) ∧
    (0 < commons told r.1 → i ≤ r.2.2 ∧ commons told (r.1.take (r.2.2 - i)) = commons told r.1 - 1) := by
  induction ps with
  | nil => intro i common enough; simp [pass1, commons]
  | cons p ps ih =>
    intro i common enough
    simp only [pass1]
    by_cases hs : p = sender
    · rw [if_pos hs]
      obtain ⟨h1, h2, h3, h4, h5, h6, h7⟩ := ih (i + 1) common enough
      have hc : isCommon told sender p = false := by simp [isCommon, hs]
      refine ⟨by simp [hc, h1], by simpa [hs] using h2, ?_, ?_, by simp [h5], ?_, ?_⟩
      · intro q hq hne ht
        rcases List.mem_cons.1 hq with rfl | hq
        · exact absurd hs hne
        · simpa using h3 q hq hne ht
      · simpa [commons, hc] using h4
      · simpa [commons] using h6
      · intro hpos
        obtain ⟨h8, h9⟩ := h7 (by simpa [commons] using hpos)
        refine ⟨by dsimp only; omega, ?_⟩
        have : (pass1 told sender max ps (i + 1) common enough).2.2 - i =
            ((pass1 told sender max ps (i + 1) common enough).2.2 - (i + 1)) + 1 := by omega
        rw [this]
        simpa [commons] using h9
    · rw [if_neg hs]
      by_cases ht : told.contains p = true
      · rw [if_pos ht]
        have hc : isCommon told sender p = true := by
          simp only [isCommon, ht, Bool.and_true, bne_iff_ne]
          exact hs
        by_cases hm : max < common + 1
        · rw [if_pos hm]
          obtain ⟨h1, h2, h3, h4, h5, h6, h7⟩ := ih (i + 1) (common + 1) enough
          refine ⟨by simp [hc, h1]; omega, ?_, ?_, ?_, by simp [h5], ?_, ?_⟩
          · have : List.filter (fun p => p != sender) (p :: ps) =
                p :: ps.filter (fun p => p != sender) := by
              rw [List.filter_cons_of_pos]
              simpa using hs
            rw [this]
            exact List.Sublist.cons _ (by simpa using h2)
          · intro q hq hne ht'
            rcases List.mem_cons.1 hq with rfl | hq
            · rw [ht] at ht'; simp at ht'
            · simpa using h3 q hq hne ht'
          · have : commons told (none :: (pass1 told sender max ps (i + 1) (common + 1) enough).1) =
                commons told (pass1 told sender max ps (i + 1) (common + 1) enough).1 := by
              simp [commons]
            rw [this, h4]
            omega
          · simpa [commons] using h6
          · intro hpos
            obtain ⟨h8, h9⟩ := h7 (by simpa [commons] using hpos)
            refine ⟨by dsimp only; omega, ?_⟩
            have : (pass1 told sender max ps (i + 1) (common + 1) enough).2.2 - i =
                ((pass1 told sender max ps (i + 1) (common + 1) enough).2.2 - (i + 1)) + 1 := by omega
            rw [this]
            simpa [commons] using h9
        · rw [if_neg hm]
          obtain ⟨h1, h2, h3, h4, h5, h6, h7⟩ := ih (i + 1) (common + 1) i
          have hcm : ∀ l, commons told (some p :: l) = commons told l + 1 := by
            intro l
            have ht' : p ∈ told := by simpa using ht
            simp [commons, ht']
          refine ⟨by simp [hc, h1]; omega, ?_, ?_, ?_, by simp [h5], ?_, ?_⟩
          · have : List.filter (fun p => p != sender) (p :: ps) =
                p :: ps.filter (fun p => p != sender) := by
              rw [List.filter_cons_of_pos]
              simpa using hs
            rw [this]
            simpa using h2
          · intro q hq hne ht'
            rcases List.mem_cons.1 hq with rfl | hq
            · rw [ht] at ht'; simp at ht'
            · exact List.mem_filterMap.2 ⟨some q, List.mem_cons_of_mem _ (by simpa using h3 q hq hne ht'), rfl⟩
          · simp only
            rw [hcm, h4, List.countP_cons_of_pos hc]
            omega
          · intro h
            simp only at h
            rw [hcm] at h
            omega
          · intro _
            simp only
            rw [hcm]
            by_cases hz : commons told (pass1 told sender max ps (i + 1) (common + 1) i).1 = 0
            · rw [h6 hz, hz]
              simp [commons]
            · obtain ⟨h8, h9⟩ := h7 (by omega)
              refine ⟨by omega, ?_⟩
              have : (pass1 told sender max ps (i + 1) (common + 1) i).2.2 - i =
                  ((pass1 told sender max ps (i + 1) (common + 1) i).2.2 - (i + 1)) + 1 := by omega
              rw [this, List.take_succ_cons, hcm, h9]
              omega
      · rw [if_neg ht]
        have ht' : told.contains p = false := by simpa using ht
        have hc : isCommon told sender p = false := by rw [isCommon, ht', Bool.and_false]
        obtain ⟨h1, h2, h3, h4, h5, h6, h7⟩ := ih (i + 1) common enough
        have hcm : ∀ l, commons told (some p :: l) = commons told l := by
          intro l
          have ht'' : p ∉ told := by simpa using ht
          simp [commons, ht'']
        refine ⟨by rw [List.countP_cons_of_neg (by simp [hc])]; exact h1, ?_, ?_, ?_, by simp [h5], ?_, ?_⟩
        · have : List.filter (fun p => p != sender) (p :: ps) =
              p :: ps.filter (fun p => p != sender) := by
            rw [List.filter_cons_of_pos]
            simpa using hs
          rw [this]
          simpa using h2
        · intro q hq hne ht'
          rcases List.mem_cons.1 hq with rfl | hq
          · simp
          · exact List.mem_filterMap.2 ⟨some q, List.mem_cons_of_mem _ (by simpa using h3 q hq hne ht'), rfl⟩
        · simp only
          rw [hcm, h4, List.countP_cons_of_neg (by simp [hc])]
        · simp only
          rw [hcm]
          exact h6
        · intro hpos
          simp only at hpos
          rw [hcm] at hpos
          obtain ⟨h8, h9⟩ := h7 hpos
          refine ⟨by dsimp only; omega, ?_⟩
          simp only
          have : (pass1 told sender max ps (i + 1) common enough).2.2 - i =
              ((pass1 told sender max ps (i + 1) common enough).2.2 - (i + 1)) + 1 := by omega
          rw [this, List.take_succ_cons, hcm, hcm, h9]

theorem pass2_spec (told : List Nat) (l : List (Option Nat)) : ∀ over,
    ((pass2 told over l).filterMap id).Sublist (l.filterMap id) ∧
    (∀ p ∈ l.filterMap id, told.contains p = false → p ∈ (pass2 told over l).filterMap id) ∧
    commons told (pass2 told over l) = commons told l - over := by
  induction l with
  | nil => intro over; simp [pass2, commons]
  | cons x l ih =>
    intro over
    cases over with
    | zero =>
      simp only [pass2]
      exact ⟨List.Sublist.refl _, fun p hp _ => hp, rfl⟩
    | succ over =>
      cases x with
      | none =>
        obtain ⟨h1, h2, h3⟩ := ih (over + 1)
        simp only [pass2]
        refine ⟨by simpa using h1, by simpa using h2, by simpa [commons] using h3⟩
      | some p =>
        simp only [pass2]
        by_cases ht : told.contains p = true
        · rw [if_pos ht]
          obtain ⟨h1, h2, h3⟩ := ih over
          have ht' : p ∈ told := by simpa using ht
          have hcm : commons told (some p :: l) = commons told l + 1 := by
            simp [commons, ht']
          refine ⟨?_, ?_, ?_⟩
          · simpa using List.Sublist.cons p h1
          · intro q hq hqt
            simp only [List.filterMap_cons_some (f := id) (a := some p) rfl, List.mem_cons] at hq
            rcases hq with rfl | hq
            · rw [ht] at hqt; simp at hqt
            · simpa using h2 q hq hqt
          · rw [hcm]
            have : commons told (none :: pass2 told over l) = commons told (pass2 told over l) := by
              simp [commons]
            rw [this, h3]
            omega
        · rw [if_neg ht]
          obtain ⟨h1, h2, h3⟩ := ih (over + 1)
          have ht' : p ∉ told := by simpa using ht
          have hcm : ∀ l, commons told (some p :: l) = commons told l := by
            intro l
            simp [commons, ht']
          refine ⟨by simpa using h1, ?_, ?_⟩
          · intro q hq hqt
            simp only [List.filterMap_cons_some (f := id) (a := some p) rfl, List.mem_cons] at hq ⊢
            rcases hq with rfl | hq
            · exact .inl rfl
            · exact .inr (h2 q hq hqt)
          · rw [hcm, hcm, h3]

/-- How many of `c` common peers get a block that is forwarded: the given part of them and at least
one, but not more than the given limit and than there are. -/
def share (c max ratio : Nat) : Nat := min (min max c) (if c * ratio / 100 = 0 then 1 else c * ratio / 100)

/-- Forwarding to a part: the sender does not get the block, every peer that the sender has not told
of gets it, and of those that it has told of, exactly the share; nobody gets it who is no peer. -/
theorem cross_spec (ours told : List Nat) (sender max ratio : Nat) (ht : told ≠ []) :
    let out := commonPeers ours told sender max ratio
    out.Sublist ours ∧ sender ∉ out ∧
    (∀ p ∈ ours, p ≠ sender → p ∉ told → p ∈ out) ∧
    out.countP (fun p => told.contains p) =
      share (ours.countP (fun p => p != sender && told.contains p)) max ratio := by
  obtain ⟨h1, h2, h3, h4, h5, h6, h7⟩ := pass1_spec told sender max ours 0 0 0
  have hne : told.isEmpty = false := by simpa using ht
  have hcm : ours.countP (isCommon told sender) =
      ours.countP (fun p => p != sender && told.contains p) := rfl
  simp only [Nat.zero_add, Nat.sub_zero] at h1 h4 h7
  have hsub : ∀ out : List Nat, out.Sublist ((pass1 told sender max ours 0 0 0).1.filterMap id) →
      out.Sublist ours ∧ sender ∉ out := by
    intro out ho
    have h8 := ho.trans h2
    refine ⟨h8.trans List.filter_sublist, fun hmem => ?_⟩
    have := h8.subset hmem
    simp at this
  simp only [commonPeers, hne, Bool.false_eq_true, if_false]
  rw [h1]
  split
  · rename_i hw
    obtain ⟨h8, h9, h10⟩ := pass2_spec told
      ((pass1 told sender max ours 0 0 0).1.take (pass1 told sender max ours 0 0 0).2.2)
      (min max (ours.countP (isCommon told sender)) -
        want (ours.countP (isCommon told sender)) ratio)
    have hsplit : (pass1 told sender max ours 0 0 0).1 =
        (pass1 told sender max ours 0 0 0).1.take (pass1 told sender max ours 0 0 0).2.2 ++
        (pass1 told sender max ours 0 0 0).1.drop (pass1 told sender max ours 0 0 0).2.2 :=
      (List.take_append_drop _ _).symm
    have hadd : ∀ a b : List (Option Nat), commons told (a ++ b) = commons told a + commons told b := by
      intro a b
      simp [commons]
    have hs' := hsub (List.filterMap id (pass2 told (min max (ours.countP (isCommon told sender)) -
        want (ours.countP (isCommon told sender)) ratio)
        ((pass1 told sender max ours 0 0 0).1.take (pass1 told sender max ours 0 0 0).2.2) ++
        (pass1 told sender max ours 0 0 0).1.drop (pass1 told sender max ours 0 0 0).2.2)) (by
      conv => rhs; rw [hsplit]
      rw [List.filterMap_append, List.filterMap_append]
      exact h8.append (List.Sublist.refl _))
    refine ⟨hs'.1, hs'.2, ?_, ?_⟩
    · intro p hp hps hpt
      have hpt' : told.contains p = false := by simpa using hpt
      have hin := h3 p hp hps hpt'
      rw [hsplit, List.filterMap_append, List.mem_append] at hin
      rw [List.filterMap_append, List.mem_append]
      rcases hin with hin | hin
      · exact .inl (h9 p hin hpt')
      · exact .inr hin
    · have hc : ∀ l : List (Option Nat),
          (l.filterMap id).countP (fun p => told.contains p) = commons told l := fun _ => rfl
      rw [hc, hadd, h10]
      have hpos : 0 < commons told (pass1 told sender max ours 0 0 0).1 := by
        rw [h4]
        omega
      obtain ⟨_, h11⟩ := h7 hpos
      have h12 : commons told (pass1 told sender max ours 0 0 0).1 =
          commons told ((pass1 told sender max ours 0 0 0).1.take
            (pass1 told sender max ours 0 0 0).2.2) +
          commons told ((pass1 told sender max ours 0 0 0).1.drop
            (pass1 told sender max ours 0 0 0).2.2) := by
        conv => lhs; rw [hsplit]
        exact hadd _ _
      rw [h11] at h12 ⊢
      rw [← hcm]
      unfold share
      rw [h4] at h12 ⊢
      have hw1 : want (ours.countP (isCommon told sender)) ratio =
          if ours.countP (isCommon told sender) * ratio / 100 = 0 then 1
          else ours.countP (isCommon told sender) * ratio / 100 := rfl
      rw [← hw1]
      have hw2 : 1 ≤ want (ours.countP (isCommon told sender)) ratio := by
        unfold want
        split <;> omega
      omega
  · rename_i hw
    have hs' := hsub _ (List.Sublist.refl _)
    refine ⟨hs'.1, hs'.2, fun p hp hps hpt => h3 p hp hps (by simpa using hpt), ?_⟩
    have hc : ∀ l : List (Option Nat),
        (l.filterMap id).countP (fun p => told.contains p) = commons told l := fun _ => rfl
    rw [hc, h4, ← hcm]
    unfold share
    have hw1 : want (ours.countP (isCommon told sender)) ratio =
        if ours.countP (isCommon told sender) * ratio / 100 = 0 then 1
        else ours.countP (isCommon told sender) * ratio / 100 := rfl
    rw [← hw1]
    omega

/-- Where nothing is known of the sender's peers, and when forwarding to all, everyone gets it but
the sender. -/
theorem full_spec (ours : List Nat) (sender max ratio : Nat) :
    commonPeers ours [] sender max ratio = fullPeers ours sender ∧
    ∀ p, p ∈ fullPeers ours sender ↔ p ∈ ours ∧ p ≠ sender := by
  constructor
  · rfl
  · intro p
    simp [fullPeers]

-- nine peers, six in common with the sender: one of the six, and all the others
example : commonPeers [1, 2, 3, 4, 5, 6, 7, 8, 9] [1, 2, 3, 4, 5, 6, 20] 9 3 10 = [3, 7, 8] := by
  decide +kernel
example : share 6 3 10 = 1 ∧ share 25 3 10 = 2 ∧ share 50 3 10 = 3 ∧ share 0 3 10 = 0 := by decide

/-! ### What is known of the peers of a peer -/

theorem setLoop_add (ids : List Nat) : ∀ last m, (∀ x ∈ ids, x ∉ m) → ids.Nodup →
    setLoop (ids.map (fun i => ⟨some i, true⟩)) last m = m ++ ids := by
  induction ids with
  | nil => intro last m _ _; simp [setLoop]
  | cons i ids ih =>
    intro last m hm hn
    have hi : m.contains i = false := by simpa using hm i (by simp)
    simp only [List.map_cons, setLoop, if_true, hi, Bool.false_eq_true, if_false]
    obtain ⟨h1, h2⟩ := List.nodup_cons.1 hn
    rw [ih i (m ++ [i]) (fun x hx => ?_) h2]
    · simp
    · simp only [List.mem_append, List.mem_singleton, not_or]
      exact ⟨hm x (by simp [hx]), fun h => h1 (h ▸ hx)⟩

/-- As heartbeats are sent — the time of the last full one is never noted, so all of them are full —
the peer knows exactly the peers of the moment, whatever it knew. -/
theorem heartbeat_exact (lastPeers known ids : List Nat) (now : Nat) (hn : ids.Nodup) :
    let r := (Beater.mk none lastPeers).state now ids
    setPeers known r.2.1 r.2.2 = ids ∧ r.1.last = none := by
  have h : ids.filter (fun _ => true) = ids := List.filter_eq_self.2 (by simp)
  simp only [Beater.state, if_true, List.filter_nil, List.map_nil, List.nil_append, setPeers,
    Bool.not_true, Bool.false_eq_true, if_false, and_true, List.contains_nil, Bool.not_false]
  rw [h]
  have := setLoop_add ids 0 [] (by simp) hn
  simpa using this

/-- If the time were noted, the heartbeats in between would go wrong in two ways: the entry of a
peer that left takes another one out, and peers that stay are forgotten by the sender, so that it
never says that they left. -/
theorem patch_wrong :
    (∃ known ids, setPeers known [⟨some 3, false⟩] true ≠ known.filter (fun x => x != 3) ∧
      known = [1, 2, 3] ∧ ids = [1, 2]) ∧
    (∃ (h : Beater) (now : Nat), h = ⟨some now, [1, 2, 3]⟩ ∧
      let a := h.state now [1, 2, 3]
      let b := a.1.state now [1, 2]
      setPeers (setPeers [1, 2, 3] a.2.1 a.2.2) b.2.1 b.2.2 ≠ [1, 2] ∧ b.2.1 =
        [⟨some 1, true⟩, ⟨some 2, true⟩]) := by
  refine ⟨⟨[1, 2, 3], [1, 2], by decide, rfl, rfl⟩, ⟨_, 100, rfl, ?_⟩⟩
  decide

end Verif.Gossip
