import Verif.Sync.FetchModel

/-!
# Asking for blocks: callbacks are called once, peers are not asked too often, and what goes wrong

Property C89. -/

namespace Verif.Sync

/-! ## Callbacks -/

/-- How often the callback of a question was called. -/
def timesCalled (calls : List (Nat × Bool)) (i : Nat) : Nat := calls.countP (fun c => decide (c.1 = i))

theorem timesCalled_append (a b : List (Nat × Bool)) (i : Nat) : timesCalled (a ++ b) i = timesCalled a i + timesCalled b i := List.countP_append

/-- Records and callbacks fit. -/
structure FInv (s : FState) (calls : List (Nat × Bool)) (asked : List Nat) : Prop where
  uniq : s.recs.Pairwise (fun a b => a.id ≠ b.id)
  bound : ∀ r ∈ s.recs, r.id ≤ s.next
  abound : ∀ i ∈ asked, i ≤ s.next
  hbound : ∀ h i, s.byHash h = some i → i ≤ s.next ∧ i ∉ asked
  cbq : ∀ r ∈ s.recs, (r.cb = true ↔ r.id ∈ asked) ∧ (r.cb = true → r.targets = [])
  wait : ∀ i ∈ asked, (∃ r ∈ s.recs, r.id = i ∧ r.st = .pending ∧ timesCalled calls i = 0) ∨ (timesCalled calls i = 1 ∧ ∀ r ∈ s.recs, r.id = i → r.st ≠ .pending)
  other : ∀ i, i ∉ asked → timesCalled calls i = 0

theorem finv_empty : FInv .empty [] [] := ⟨.nil, by simp [FState.empty], by simp, by simp [FState.empty], by simp [FState.empty], by simp, by simp [timesCalled]⟩

theorem mem_updRec {l : List FRec} {id : Nat} {f : FRec → FRec} {x : FRec} (h : x ∈ updRec l id f) : (x ∈ l ∧ x.id ≠ id) ∨ ∃ r ∈ l, r.id = id ∧ x = f r := by
  obtain ⟨r, hr, rfl⟩ := List.mem_map.mp h
  by_cases hi : r.id = id
  · rw [if_pos hi]
    exact Or.inr ⟨r, hr, hi, rfl⟩
  · rw [if_neg hi]
    exact Or.inl ⟨hr, hi⟩

theorem updRec_of_mem {l : List FRec} {id : Nat} {f : FRec → FRec} {r : FRec} (h : r ∈ l) : (r.id ≠ id → r ∈ updRec l id f) ∧ (r.id = id → f r ∈ updRec l id f) := by
  refine ⟨fun hi => List.mem_map.mpr ⟨r, h, by rw [if_neg hi]⟩, fun hi => List.mem_map.mpr ⟨r, h, by rw [if_pos hi]⟩⟩

theorem updRec_uniq {l : List FRec} {id : Nat} {f : FRec → FRec} (hf : ∀ r, r.id = id → (f r).id = id) (h : l.Pairwise (fun a b => a.id ≠ b.id)) : (updRec l id f).Pairwise (fun a b => a.id ≠ b.id) := by
  unfold updRec
  rw [List.pairwise_map]
  refine h.imp ?_
  intro a b hab
  have e : ∀ r : FRec, (if r.id = id then f r else r).id = r.id := by
    intro r
    split
    · rename_i hi
      rw [hf r hi, hi]
    · rfl
  rw [e, e]
  exact hab

theorem uniq_eq {l : List FRec} (h : l.Pairwise (fun a b => a.id ≠ b.id)) {a b : FRec} (ha : a ∈ l) (hb : b ∈ l) (he : a.id = b.id) : a = b := by
  induction l with
  | nil => cases ha
  | cons x l ih =>
    obtain ⟨h1, h2⟩ := List.pairwise_cons.mp h
    rcases List.mem_cons.mp ha with rfl | ha' <;> rcases List.mem_cons.mp hb with rfl | hb'
    · rfl
    · exact absurd he (h1 b hb')
    · exact absurd he.symm (h1 a ha')
    · exact ih h2 ha' hb'

/-- A record without a callback may change in any way. -/
theorem finv_upd {s : FState} {calls : List (Nat × Bool)} {asked : List Nat} (h : FInv s calls asked) {id : Nat} (hid : id ∉ asked) {f : FRec → FRec} (hf : ∀ r, r.id = id → (f r).id = id ∧ (f r).cb = r.cb) :
    FInv { s with recs := updRec s.recs id f } calls asked := by
  refine ⟨updRec_uniq (fun r hr => (hf r hr).1) h.uniq, ?_, h.abound, h.hbound, ?_, ?_, h.other⟩
  · intro x hx
    rcases mem_updRec hx with ⟨hx, -⟩ | ⟨r, hr, hi, rfl⟩
    · exact h.bound x hx
    · rw [(hf r hi).1, ← hi]
      exact h.bound r hr
  · intro x hx
    rcases mem_updRec hx with ⟨hx, -⟩ | ⟨r, hr, hi, rfl⟩
    · exact h.cbq x hx
    · have hcb : r.cb ≠ true := fun hc => hid (hi ▸ (h.cbq r hr).1.mp hc)
      rw [(hf r hi).1, (hf r hi).2]
      exact ⟨⟨fun hc => absurd hc hcb, fun hc => absurd hc hid⟩, fun hc => absurd hc hcb⟩
  · intro i hi
    have hne : i ≠ id := fun he => hid (he ▸ hi)
    rcases h.wait i hi with ⟨r, hr, h1, h2⟩ | ⟨h1, h2⟩
    · exact Or.inl ⟨r, (updRec_of_mem hr).1 (by rw [h1]; exact hne), h1, h2⟩
    · refine Or.inr ⟨h1, fun x hx hxi => ?_⟩
      rcases mem_updRec hx with ⟨hx, -⟩ | ⟨r, hr, hri, rfl⟩
      · exact h2 x hx hxi
      · rw [(hf r hri).1] at hxi
        exact absurd hxi.symm hne

theorem finv_fdone {s : FState} {calls : List (Nat × Bool)} {asked : List Nat} (h : FInv s calls asked) (id peer : Nat) (ok : Bool) (now : Nat) :
    FInv (fdone s id peer ok now).1 (calls ++ (fdone s id peer ok now).2.calls) asked := by
  unfold fdone
  cases hfd : s.recs.find? (fun r => decide (r.id = id)) with
  | none =>
    simp only [FOut.nil, List.append_nil]
    exact h
  | some r =>
    have hr : r ∈ s.recs := List.mem_of_find?_eq_some hfd
    have hi : r.id = id := by simpa using List.find?_some hfd
    have hid1 : (recDone r (some peer) ok now).1.id = id := by
      unfold recDone
      dsimp only
      split
      · exact hi
      · split
        · exact hi
        · split <;> exact hi
    have hcb1 : (recDone r (some peer) ok now).1.cb = r.cb := by
      unfold recDone
      dsimp only
      split
      · rfl
      · split
        · rfl
        · split <;> rfl
    dsimp only
    by_cases hq : id ∈ asked
    · have hcb : r.cb = true := (h.cbq r hr).1.mpr (hi ▸ hq)
      have htg := (h.cbq r hr).2 hcb
      have hx : (recDone r (some peer) ok now).1.targets = [] ∧ ((r.st ≠ .pending ∧ (recDone r (some peer) ok now).1.st = r.st ∧ (recDone r (some peer) ok now).2 = none) ∨
          (r.st = .pending ∧ (recDone r (some peer) ok now).1.st ≠ .pending ∧ ∃ b, (recDone r (some peer) ok now).2 = some b)) := by
        unfold recDone
        dsimp only
        rw [htg]
        by_cases hst : r.st = .pending
        · rw [if_neg (by simpa using hst)]
          cases ok with
          | true => simp [setTarget, hst, hcb]
          | false => simp [setTarget, hst, hcb]
        · rw [if_pos hst]
          exact ⟨rfl, Or.inl ⟨hst, rfl, rfl⟩⟩
      obtain ⟨hx0, hx1⟩ := hx
      refine ⟨updRec_uniq (fun _ _ => hid1) h.uniq, ?_, h.abound, h.hbound, ?_, ?_, ?_⟩
      · intro y hy
        rcases mem_updRec hy with ⟨hy, -⟩ | ⟨z, hz, hzi, rfl⟩
        · exact h.bound y hy
        · rw [hid1]
          exact h.abound id hq
      · intro y hy
        rcases mem_updRec hy with ⟨hy, -⟩ | ⟨z, hz, hzi, rfl⟩
        · exact h.cbq y hy
        · rw [hid1, hcb1, hcb]
          exact ⟨⟨fun _ => hq, fun _ => rfl⟩, fun _ => hx0⟩
      · intro i hia
        rw [timesCalled_append]
        by_cases hii : i = id
        · subst hii
          rcases hx1 with ⟨h1, h2, h3⟩ | ⟨h1, h2, b, h3⟩
          · rw [h3]
            rcases h.wait i hia with ⟨z, hz, hzi, hzp, -⟩ | ⟨k1, k2⟩
            · rw [uniq_eq h.uniq hz hr (hzi.trans hi.symm)] at hzp
              exact absurd hzp h1
            · refine Or.inr ⟨by simpa [callOf, timesCalled] using k1, fun y hy hyi => ?_⟩
              rcases mem_updRec hy with ⟨hy, hne⟩ | ⟨z, hz, hzi, rfl⟩
              · exact absurd hyi hne
              · rw [h2]; exact h1
          · rw [h3]
            rcases h.wait i hia with ⟨z, hz, hzi, hzp, k0⟩ | ⟨k1, k2⟩
            · refine Or.inr ⟨by rw [k0]; simp [callOf, timesCalled], fun y hy hyi => ?_⟩
              rcases mem_updRec hy with ⟨hy, hne⟩ | ⟨z, hz, hzi, rfl⟩
              · exact absurd hyi hne
              · exact h2
            · exact absurd h1 (k2 r hr hi)
        · have hcalls : timesCalled (callOf id (recDone r (some peer) ok now).2) i = 0 := by
            cases (recDone r (some peer) ok now).2 with
            | none => rfl
            | some b => simp [callOf, timesCalled, Ne.symm hii]
          rw [hcalls, Nat.add_zero]
          rcases h.wait i hia with ⟨z, hz, hzi, hzp⟩ | ⟨k1, k2⟩
          · exact Or.inl ⟨z, (updRec_of_mem hz).1 (by rw [hzi]; exact hii), hzi, hzp⟩
          · refine Or.inr ⟨k1, fun y hy hyi => ?_⟩
            rcases mem_updRec hy with ⟨hy, -⟩ | ⟨z, hz, hzi, rfl⟩
            · exact k2 y hy hyi
            · rw [hid1] at hyi
              exact absurd hyi.symm hii
      · intro i hia
        rw [timesCalled_append, h.other i hia, Nat.zero_add]
        have hii : id ≠ i := fun he => hia (he ▸ hq)
        cases (recDone r (some peer) ok now).2 with
        | none => rfl
        | some b => simp [callOf, timesCalled, hii]
    · have hcb : r.cb = false := by
        cases hc : r.cb with
        | false => rfl
        | true => exact absurd (hi ▸ (h.cbq r hr).1.mp hc) hq
      have hnone : (recDone r (some peer) ok now).2 = none := by
        unfold recDone
        dsimp only
        split
        · rfl
        · split
          · simp [hcb]
          · split
            · simp [hcb]
            · rfl
      rw [hnone]
      simp only [callOf, List.append_nil]
      have : updRec s.recs id (fun _ => (recDone r (some peer) ok now).1) = updRec s.recs id (fun z => { (recDone r (some peer) ok now).1 with cb := z.cb }) := by
        unfold updRec
        refine List.map_congr_left (fun z hz => ?_)
        by_cases hzi : z.id = id
        · have := uniq_eq h.uniq hz hr (hzi.trans hi.symm)
          subst this
          rw [if_pos hzi, if_pos hzi]
          have e : ∀ x : FRec, x.cb = z.cb → x = { x with cb := z.cb } := by
            intro x hx
            rw [← hx]
          exact e _ hcb1
        · rw [if_neg hzi, if_neg hzi]
      rw [this]
      exact finv_upd h hq (fun z hz => ⟨hid1, rfl⟩)

theorem finv_fclean {s : FState} {calls : List (Nat × Bool)} {asked : List Nat} (h : FInv s calls asked) (now : Nat) : FInv (fclean s now).1 (calls ++ (fclean s now).2.calls) asked := by
  have hcount : ∀ (l : List FRec), (∀ r ∈ l, r ∈ s.recs) → l.Pairwise (fun a b => a.id ≠ b.id) → ∀ i,
      timesCalled (l.filterMap (fun r => (recDone r none false now).2.map (fun b => (r.id, b)))) i = if ∃ r ∈ l, r.id = i ∧ r.st = .pending ∧ r.cb = true then 1 else 0 := by
    intro l hl hu i
    induction l with
    | nil => simp [timesCalled]
    | cons r l ih =>
      obtain ⟨u1, u2⟩ := List.pairwise_cons.mp hu
      have ih' := ih (fun x hx => hl x (List.mem_cons_of_mem _ hx)) u2
      have hr := hl r List.mem_cons_self
      by_cases hcb : r.cb = true
      · have htg := (h.cbq r hr).2 hcb
        by_cases hst : r.st = .pending
        · have hx : (recDone r none false now).2 = some false := by
            unfold recDone
            simp [hst, htg, hcb]
          rw [List.filterMap_cons, hx]
          simp only [Option.map_some]
          show timesCalled ([(r.id, false)] ++ _) i = _
          rw [timesCalled_append, ih']
          by_cases hri : r.id = i
          · have hno : ¬ ∃ x ∈ l, x.id = i ∧ x.st = .pending ∧ x.cb = true := by
              rintro ⟨x, hx, hxi, -⟩
              exact u1 x hx (hri.trans hxi.symm)
            rw [if_neg hno, if_pos ⟨r, List.mem_cons_self, hri, hst, hcb⟩]
            simp [timesCalled, hri]
          · have hiff : (∃ x ∈ r :: l, x.id = i ∧ x.st = .pending ∧ x.cb = true) ↔ ∃ x ∈ l, x.id = i ∧ x.st = .pending ∧ x.cb = true := by
              simp [hri]
            simp only [hiff]
            simp [timesCalled, hri]
        · have hx : (recDone r none false now).2 = none := by
            unfold recDone
            simp [hst]
          rw [List.filterMap_cons, hx]
          simp only [Option.map_none]
          rw [ih']
          simp [hst]
      · have hx : (recDone r none false now).2 = none := by
          unfold recDone
          simp only [Bool.false_eq_true, if_false, hcb]
          split
          · rfl
          · split <;> rfl
        rw [List.filterMap_cons, hx]
        simp only [Option.map_none]
        rw [ih']
        simp [hcb]
  have hg := hcount (s.recs.filter (fun r => decide (now - r.addAt > 30))) (fun r hr => (List.mem_filter.mp hr).1) (h.uniq.sublist List.filter_sublist)
  unfold fclean
  dsimp only
  refine ⟨h.uniq.sublist List.filter_sublist, fun r hr => h.bound r (List.mem_filter.mp hr).1, h.abound, ?_, fun r hr => h.cbq r (List.mem_filter.mp hr).1, ?_, ?_⟩
  · intro hh i hi
    dsimp only at hi
    split at hi
    · cases hi
    · exact h.hbound hh i hi
  · intro i hia
    rw [timesCalled_append, hg]
    rcases h.wait i hia with ⟨r, hr, hri, hst, h0⟩ | ⟨h1, h2⟩
    · have hcb : r.cb = true := (h.cbq r hr).1.mpr (hri ▸ hia)
      by_cases hgone : now - r.addAt > 30
      · refine Or.inr ⟨?_, fun x hx hxi => ?_⟩
        · rw [h0, if_pos ⟨r, List.mem_filter.mpr ⟨hr, by simpa using hgone⟩, hri, hst, hcb⟩]
        · rw [List.mem_filter] at hx
          have := uniq_eq h.uniq hx.1 hr (hxi.trans hri.symm)
          subst this
          simp only [decide_eq_true_eq] at hx
          exact absurd hgone hx.2
      · refine Or.inl ⟨r, List.mem_filter.mpr ⟨hr, by simpa using hgone⟩, hri, hst, ?_⟩
        rw [h0, if_neg]
        rintro ⟨x, hx, hxi, -⟩
        rw [List.mem_filter] at hx
        have := uniq_eq h.uniq hx.1 hr (hxi.trans hri.symm)
        subst this
        exact hgone (by simpa using hx.2)
    · refine Or.inr ⟨?_, fun x hx hxi => h2 x (List.mem_filter.mp hx).1 hxi⟩
      rw [h1, if_neg]
      rintro ⟨x, hx, hxi, hxs, -⟩
      exact h2 x (List.mem_filter.mp hx).1 hxi hxs
  · intro i hia
    rw [timesCalled_append, hg, h.other i hia, if_neg]
    rintro ⟨x, hx, hxi, -, hxc⟩
    exact hia (hxi ▸ (h.cbq x (List.mem_filter.mp hx).1).1.mp hxc)

theorem finv_fhold {s : FState} {calls : List (Nat × Bool)} {asked : List Nat} (h : FInv s calls asked) (hash now : Nat) :
    FInv (fhold s hash now).1 calls asked ∧ (fhold s hash now).2.1 ∉ asked := by
  unfold fhold
  cases hb : (s.byHash hash).bind (fun i => s.recs.find? (fun r => decide (r.id = i))) with
  | none =>
    dsimp only
    have hnew : s.next + 1 ∉ asked := fun hc => by
      have := h.abound _ hc
      omega
    refine ⟨⟨?_, ?_, ?_, ?_, ?_, ?_, h.other⟩, hnew⟩
    · rw [List.pairwise_append]
      refine ⟨h.uniq, List.pairwise_singleton _ _, fun a ha b hb => ?_⟩
      rw [List.mem_singleton] at hb
      subst hb
      have := h.bound a ha
      show a.id ≠ s.next + 1
      omega
    · intro r hr
      rcases List.mem_append.mp hr with hr | hr
      · have := h.bound r hr
        show r.id ≤ s.next + 1
        omega
      · rw [List.mem_singleton] at hr
        subst hr
        exact Nat.le_refl _
    · intro i hi
      have := h.abound i hi
      show i ≤ s.next + 1
      omega
    · intro hh i hi
      dsimp only at hi ⊢
      split at hi
      · cases hi
        exact ⟨Nat.le_refl _, hnew⟩
      · have := h.hbound hh i hi
        exact ⟨by omega, this.2⟩
    · intro r hr
      rcases List.mem_append.mp hr with hr | hr
      · exact h.cbq r hr
      · rw [List.mem_singleton] at hr
        subst hr
        exact ⟨⟨fun hc => (by cases hc), fun hc => absurd hc hnew⟩, fun hc => (by cases hc)⟩
    · intro i hi
      rcases h.wait i hi with ⟨r, hr, h1⟩ | ⟨h1, h2⟩
      · exact Or.inl ⟨r, List.mem_append_left _ hr, h1⟩
      · refine Or.inr ⟨h1, fun r hr hri => ?_⟩
        rcases List.mem_append.mp hr with hr | hr
        · exact h2 r hr hri
        · rw [List.mem_singleton] at hr
          subst hr
          exact absurd (show s.next + 1 ∈ asked by rw [show s.next + 1 = i from hri]; exact hi) hnew
  | some r =>
    obtain ⟨i, hi, hf⟩ := Option.bind_eq_some_iff.mp hb
    have hri : r.id = i := by simpa using List.find?_some hf
    have hno : r.id ∉ asked := hri ▸ (h.hbound hash i hi).2
    dsimp only
    split
    · exact ⟨finv_upd h hno (fun _ hz => ⟨hz, rfl⟩), hno⟩
    · split
      · exact ⟨finv_upd h hno (fun _ hz => ⟨hz, rfl⟩), hno⟩
      · split
        · exact ⟨finv_upd h hno (fun _ hz => ⟨hz, rfl⟩), hno⟩
        · exact ⟨finv_upd h hno (fun _ hz => ⟨hz, rfl⟩), hno⟩

theorem finv_fsend {asked : List Nat} {id hash now : Nat} (hid : id ∉ asked) (sendOk : Nat → Bool) (ps : List Nat) {s : FState} {calls : List (Nat × Bool)} (h : FInv s calls asked) :
    FInv (fsend s id hash now sendOk ps).1 (calls ++ (fsend s id hash now sendOk ps).2.calls) asked ∧ (fsend s id hash now sendOk ps).2.asked = [] := by
  induction ps generalizing s calls with
  | nil =>
    simp only [fsend, FOut.nil, List.append_nil]
    exact ⟨h, trivial⟩
  | cons p ps ih =>
    rw [fsend]
    dsimp only
    by_cases hs : sendOk p = true
    · rw [if_pos hs]
      have := ih (finv_upd h hid (f := fun r => { r with targets := setTarget r.targets p .pending now }) (fun _ hz => ⟨hz, rfl⟩))
      exact ⟨by simpa [FOut.append, fpending] using this.1, by simpa [FOut.append, fpending] using this.2⟩
    · rw [if_neg hs]
      have h1 := finv_fdone h id p false now
      have := ih h1
      refine ⟨by simpa [FOut.append, List.append_assoc] using this.1, ?_⟩
      have hn : (fdone s id p false now).2.asked = [] := by
        unfold fdone
        split <;> rfl
      simp [FOut.append, hn, this.2]

theorem fdone_asked (s : FState) (id p : Nat) (ok : Bool) (now : Nat) : (fdone s id p ok now).2.asked = [] := by
  unfold fdone
  split <;> rfl

theorem finv_fstep {s : FState} {calls : List (Nat × Bool)} {asked : List Nat} (h : FInv s calls asked) (e : FEv) : FInv (fstep s e).1 (calls ++ (fstep s e).2.calls) (asked ++ (fstep s e).2.asked) := by
  cases e with
  | fetch hash height now peers sendOk =>
    obtain ⟨h1, h2⟩ := finv_fhold h hash now
    simp only [fstep]
    split
    · simpa [FOut.nil] using h1
    · split
      · simpa [FOut.nil] using h1
      · rename_i r hr
        have h3 := finv_upd h1 h2 (f := fun r => { r with targets := addTargets r.targets (pickPeers r.targets peers height now) now }) (fun _ hz => ⟨hz, rfl⟩)
        have hu : updRec (fhold s hash now).1.recs (fhold s hash now).2.1 (fun z => { z with targets := addTargets z.targets (pickPeers r.targets peers height now) now })
            = updRec (fhold s hash now).1.recs (fhold s hash now).2.1 (fun r => { r with targets := addTargets r.targets (pickPeers r.targets peers height now) now }) := by
          unfold updRec
          refine List.map_congr_left (fun z hz => ?_)
          by_cases hzi : z.id = (fhold s hash now).2.1
          · have hri : r.id = (fhold s hash now).2.1 := by simpa using List.find?_some hr
            have := uniq_eq h1.uniq hz (List.mem_of_find?_eq_some hr) (hzi.trans hri.symm)
            subst this
            rfl
          · rw [if_neg hzi, if_neg hzi]
        rw [hu]
        obtain ⟨h4, h5⟩ := finv_fsend (hash := hash) (now := now) h2 sendOk (pickPeers r.targets peers height now) h3
        rw [h5, List.append_nil]
        exact h4
  | query hash peer now stale sendOk =>
    have hnew : s.next + 1 ∉ asked := fun hc => by
      have := h.abound _ hc
      omega
    have h1 : FInv { s with next := s.next + 1, recs := s.recs ++ [⟨s.next + 1, stale, now, 0, 0, .pending, [], true⟩] } calls (asked ++ [s.next + 1]) := by
      refine ⟨?_, ?_, ?_, ?_, ?_, ?_, ?_⟩
      · rw [List.pairwise_append]
        refine ⟨h.uniq, List.pairwise_singleton _ _, fun a ha b hb => ?_⟩
        rw [List.mem_singleton] at hb
        subst hb
        have := h.bound a ha
        show a.id ≠ s.next + 1
        omega
      · intro r hr
        rcases List.mem_append.mp hr with hr | hr
        · have := h.bound r hr
          show r.id ≤ s.next + 1
          omega
        · rw [List.mem_singleton] at hr
          subst hr
          exact Nat.le_refl _
      · intro i hi
        show i ≤ s.next + 1
        rcases List.mem_append.mp hi with hi | hi
        · have := h.abound i hi
          omega
        · rw [List.mem_singleton] at hi
          omega
      · intro hh i hi
        have := h.hbound hh i hi
        refine ⟨by show i ≤ s.next + 1; omega, fun hc => ?_⟩
        rcases List.mem_append.mp hc with hc | hc
        · exact this.2 hc
        · rw [List.mem_singleton] at hc
          omega
      · intro r hr
        rcases List.mem_append.mp hr with hr | hr
        · refine ⟨⟨fun hc => List.mem_append_left _ ((h.cbq r hr).1.mp hc), fun hc => ?_⟩, (h.cbq r hr).2⟩
          rcases List.mem_append.mp hc with hc | hc
          · exact (h.cbq r hr).1.mpr hc
          · rw [List.mem_singleton] at hc
            have := h.bound r hr
            omega
        · rw [List.mem_singleton] at hr
          subst hr
          exact ⟨⟨fun _ => List.mem_append_right _ (List.mem_singleton.mpr rfl), fun _ => rfl⟩, fun _ => rfl⟩
      · intro i hi
        rcases List.mem_append.mp hi with hi | hi
        · rcases h.wait i hi with ⟨r, hr, h1⟩ | ⟨h1, h2⟩
          · exact Or.inl ⟨r, List.mem_append_left _ hr, h1⟩
          · refine Or.inr ⟨h1, fun r hr hri => ?_⟩
            rcases List.mem_append.mp hr with hr | hr
            · exact h2 r hr hri
            · rw [List.mem_singleton] at hr
              subst hr
              exact absurd (show s.next + 1 ∈ asked by rw [show s.next + 1 = i from hri]; exact hi) hnew
        · rw [List.mem_singleton] at hi
          subst hi
          exact Or.inl ⟨_, List.mem_append_right _ (List.mem_singleton.mpr rfl), rfl, rfl, h.other _ hnew⟩
      · intro i hi
        exact h.other i (fun hc => hi (List.mem_append_left _ hc))
    simp only [fstep, FOut.append, List.nil_append]
    by_cases hs : sendOk = true
    · rw [if_pos hs]
      simpa using h1
    · rw [if_neg hs]
      have := finv_fdone h1 (s.next + 1) peer false now
      rw [fdone_asked, List.append_nil]
      exact this
  | answer id peer blocks now =>
    simp only [fstep]
    split
    · simpa [FOut.nil] using h
    · rw [fdone_asked, List.append_nil]
      exact finv_fdone h id peer true now
  | exception id peer now =>
    simp only [fstep]
    rw [fdone_asked, List.append_nil]
    exact finv_fdone h id peer false now
  | clean now =>
    simp only [fstep]
    have : (fclean s now).2.asked = [] := rfl
    rw [this, List.append_nil]
    exact finv_fclean h now

theorem finv_frun (es : List FEv) {s : FState} {calls : List (Nat × Bool)} {asked : List Nat} (h : FInv s calls asked) : FInv (frun s es).1 (calls ++ (frun s es).2.calls) (asked ++ (frun s es).2.asked) := by
  induction es generalizing s calls asked with
  | nil => simpa [frun, FOut.nil] using h
  | cons e es ih =>
    have := ih (finv_fstep h e)
    simpa [frun, FOut.append, List.append_assoc] using this

/-- **C89.** Whatever is asked and answered, and whenever: the callback of a question is called at most once, and exactly once when its record is gone. No other callback is called. -/
theorem callback_once (es : List FEv) :
    (∀ i, timesCalled (frun .empty es).2.calls i ≤ 1) ∧ (∀ i ∈ (frun .empty es).2.asked, (∀ r ∈ (frun .empty es).1.recs, r.id ≠ i) → timesCalled (frun .empty es).2.calls i = 1) ∧
      ∀ i, i ∉ (frun .empty es).2.asked → timesCalled (frun .empty es).2.calls i = 0 := by
  have h := finv_frun es finv_empty
  simp only [List.nil_append] at h
  refine ⟨fun i => ?_, fun i hi hno => ?_, h.other⟩
  · by_cases hi : i ∈ (frun .empty es).2.asked
    · rcases h.wait i hi with ⟨r, hr, h1, h2, h3⟩ | ⟨h1, -⟩ <;> omega
    · have := h.other i hi
      omega
  · rcases h.wait i hi with ⟨r, hr, h1, -⟩ | ⟨h1, -⟩
    · exact absurd h1 (hno r hr)
    · exact h1

/-- **C89.** After a clean-up no record is older than 30 seconds: so by `callback_once` every question older than that has been answered. -/
theorem clean_removes (s : FState) (now : Nat) : ∀ r ∈ (fclean s now).1.recs, now ≤ r.addAt + 30 := by
  intro r hr
  have := (List.mem_filter.mp hr).2
  simp only [decide_eq_true_eq] at this
  omega

/-! ## Who is asked -/

theorem fsend_sent (id hash now : Nat) (sendOk : Nat → Bool) (ps : List Nat) (s : FState) : (fsend s id hash now sendOk ps).2.sent = (ps.filter sendOk).map (fun p => (id, hash, p)) := by
  induction ps generalizing s with
  | nil => rfl
  | cons p ps ih =>
    rw [fsend]
    dsimp only [FOut.append]
    by_cases hs : sendOk p = true
    · rw [if_pos hs, List.filter_cons_of_pos hs, List.map_cons, ih]
      rfl
    · rw [if_neg hs, List.filter_cons_of_neg hs, ih]
      have : (fdone s id p false now).2.sent = [] := by
        unfold fdone
        split <;> rfl
      rw [this, List.nil_append]

/-- A peer that was asked for it and has not answered, or said less than 10 seconds ago that it has nothing. -/
def Busy (targets : List (Nat × St × Nat)) (now p : Nat) : Prop :=
  ∃ x, targets.find? (fun x => decide (x.1 = p)) = some x ∧ (x.2.1 = .waiting ∨ x.2.1 = .pending ∨ (x.2.1 = .error ∧ now < x.2.2 + 10))

theorem mayAsk_iff (targets : List (Nat × St × Nat)) (now p : Nat) : mayAsk targets now p = true ↔ ¬ Busy targets now p := by
  unfold mayAsk Busy
  cases hf : targets.find? (fun x => decide (x.1 = p)) with
  | none => simp
  | some x =>
    obtain ⟨q, st, t⟩ := x
    cases st <;> simp
    omega

theorem updRec_find {l : List FRec} {id : Nat} {f : FRec → FRec} (hf : ∀ r, (f r).id = r.id) : (updRec l id f).find? (fun r => decide (r.id = id)) = (l.find? (fun r => decide (r.id = id))).map f := by
  unfold updRec
  induction l with
  | nil => rfl
  | cons r l ih =>
    rw [List.map_cons]
    by_cases hi : r.id = id
    · rw [if_pos hi, List.find?_cons_of_pos (by simp [hf, hi]), List.find?_cons_of_pos (by simpa using hi)]
      rfl
    · rw [if_neg hi, List.find?_cons_of_neg (by simpa using hi), List.find?_cons_of_neg (by simpa using hi), ih]

/-- The record that a hash has. -/
def recOf (s : FState) (hash : Nat) : Option FRec := (s.byHash hash).bind (fun i => s.recs.find? (fun r => decide (r.id = i)))

/-- It is time to ask again: all peers that were asked have nothing, or there was an answer at least 4 seconds ago and three more calls, or none for at least 8 seconds and six more calls. -/
def TimeToAsk (r : FRec) (now : Nat) : Prop := r.st = .error ∨ (r.st = .done ∧ 3 ≤ r.mark ∧ r.t + 4 ≤ now) ∨ (r.st ≠ .done ∧ 6 ≤ r.mark ∧ r.addAt + 8 ≤ now)

/-- **C89.** When a block is wanted that is not on record, exactly the first three reliable peers that are tall enough are asked. When it is on record and it is time, the first three of those that are
tall enough and not busy with it. Otherwise nobody. (Sending works here; who cannot be sent to is not asked.) -/
theorem fetch_asks (s : FState) (hr : ∀ r ∈ s.recs, r.id ≤ s.next) (hash height now : Nat) (peers : List (Nat × Nat)) (sendOk : Nat → Bool) :
    let tall := (peers.filter (fun p => decide (height - (if height > 10 then 10 else 0) ≤ p.2))).map (·.1)
    let out := (fstep s (.fetch hash height now peers sendOk)).2.sent
    (recOf s hash = none → ∃ i, out = ((tall.take 3).filter sendOk).map (fun p => (i, hash, p))) ∧
    ∀ r, recOf s hash = some r →
      (TimeToAsk r now → ∃ free : List Nat, free.Sublist tall ∧ (∀ p, p ∈ free ↔ p ∈ tall ∧ ¬ Busy r.targets now p) ∧ out = ((free.take 3).filter sendOk).map (fun p => (r.id, hash, p))) ∧ (¬ TimeToAsk r now → out = []) := by
  intro tall out
  have hpick : ∀ targets, pickPeers targets peers height now = ((tall.filter (mayAsk targets now)).take 3) := by
    intro targets
    unfold pickPeers
    dsimp only [tall]
    split <;> rfl
  refine ⟨fun hn => ?_, fun r hrec => ?_⟩
  · have hh : fhold s hash now = (⟨s.next + 1, s.recs ++ [⟨s.next + 1, hash, now, 0, 0, .pending, [], false⟩], fun h => if h = hash then some (s.next + 1) else s.byHash h⟩, s.next + 1, false) := by
      unfold fhold
      unfold recOf at hn
      rw [hn]
    have hfind : (s.recs ++ [(⟨s.next + 1, hash, now, 0, 0, .pending, [], false⟩ : FRec)]).find? (fun r => decide (r.id = s.next + 1)) = some ⟨s.next + 1, hash, now, 0, 0, .pending, [], false⟩ := by
      rw [List.find?_append]
      have : s.recs.find? (fun r => decide (r.id = s.next + 1)) = none := by
        rw [List.find?_eq_none]
        intro r hr'
        have := hr r hr'
        simp only [decide_eq_true_eq]
        omega
      rw [this]
      simp
    refine ⟨s.next + 1, ?_⟩
    show (fstep s (.fetch hash height now peers sendOk)).2.sent = _
    simp only [fstep, hh, Bool.false_eq_true, if_false, hfind, fsend_sent, hpick]
    congr 3
    exact List.filter_eq_self.mpr (fun _ _ => rfl)
  · have hri : s.recs.find? (fun x => decide (x.id = r.id)) = some r := by
      unfold recOf at hrec
      obtain ⟨i, hi, hf⟩ := Option.bind_eq_some_iff.mp hrec
      have : r.id = i := by simpa using List.find?_some hf
      rw [this]
      exact hf
    have hrec' : (s.byHash hash).bind (fun i => s.recs.find? (fun r => decide (r.id = i))) = some r := hrec
    constructor
    · intro ht
      have hh : fhold s hash now = ({ s with recs := updRec s.recs r.id (fun r => refresh r now) }, r.id, false) := by
        unfold fhold
        rw [hrec']
        dsimp only
        by_cases h1 : r.st = .error
        · rw [if_pos h1]
        · rw [if_neg h1]
          by_cases h2 : r.st = .done ∧ r.mark ≥ 3 ∧ now - r.t ≥ 4
          · rw [if_pos h2]
          · rw [if_neg h2, if_pos]
            rcases ht with h | ⟨a, b, c⟩ | ⟨a, b, c⟩
            · exact absurd h h1
            · exact absurd ⟨a, b, by omega⟩ h2
            · exact ⟨a, b, by omega⟩
      have hfind : (updRec s.recs r.id (fun r => refresh r now)).find? (fun x => decide (x.id = r.id)) = some (refresh r now) := by
        rw [updRec_find (f := fun r => refresh r now) (fun _ => rfl), hri]
        rfl
      refine ⟨tall.filter (mayAsk r.targets now), List.filter_sublist, fun p => ?_, ?_⟩
      · rw [List.mem_filter, mayAsk_iff]
      · show (fstep s (.fetch hash height now peers sendOk)).2.sent = _
        simp only [fstep, hh, Bool.false_eq_true, if_false, hfind, fsend_sent, hpick]
        rfl
    · intro ht
      have hh : (fhold s hash now).2.2 = true := by
        unfold fhold
        rw [hrec']
        dsimp only
        rw [if_neg (fun h => ht (Or.inl h)), if_neg, if_neg]
        · rintro ⟨a, b, c⟩
          exact ht (Or.inr (Or.inr ⟨a, b, by omega⟩))
        · rintro ⟨a, b, c⟩
          exact ht (Or.inr (Or.inl ⟨a, b, by omega⟩))
      show (fstep s (.fetch hash height now peers sendOk)).2.sent = _
      simp only [fstep, hh, if_true]
      rfl

/-! ## What goes wrong -/

/-- **C89, fails.** A peer that is asked whether it has a block and answers with another one counts as one that has it. -/
theorem any_block_counts (s : FState) (h : FInv s [] []) (hash other peer now stale : Nat) :
    (frun s [.query hash peer now stale true, .answer (s.next + 1) peer [other] now]).2.calls = [(s.next + 1, true)] := by
  have hfind : (s.recs ++ [(⟨s.next + 1, stale, now, 0, 0, .pending, [], true⟩ : FRec)]).find? (fun r => decide (r.id = s.next + 1)) = some ⟨s.next + 1, stale, now, 0, 0, .pending, [], true⟩ := by
    rw [List.find?_append]
    have : s.recs.find? (fun r => decide (r.id = s.next + 1)) = none := by
      rw [List.find?_eq_none]
      intro r hr'
      have := h.bound r hr'
      simp only [decide_eq_true_eq]
      omega
    rw [this]
    simp
  simp [frun, fstep, FOut.append, FOut.nil, fdone, hfind, recDone, setTarget, callOf]

/-- **C89, fails.** Any other peer can say in place of the peer that was asked that it has nothing. -/
theorem others_deny : (frun .empty [.query 5 1 0 0 true, .exception 1 2 0, .answer 1 1 [5] 0]).2.calls = [(1, false)] := by decide +kernel

/-- **C89, fails.** A block is wanted while no peer is there: when peers are there a second later nobody is asked. -/
theorem no_peers_suppress : (frun .empty [.fetch 5 0 0 [] (fun _ => true), .fetch 5 0 1 [(1, 9), (2, 9)] (fun _ => true)]).2.sent = [] := by decide +kernel

/-- **C89, fails.** The record of a question that comes from the pool has an old hash; when it is cleaned the record of that block is no longer found, and the block is asked for a second time at once. -/
theorem stale_hash_doubles :
    (frun .empty [.fetch 5 0 0 [(1, 9)] (fun _ => true), .clean 31, .query 7 2 31 5 true, .fetch 5 0 60 [(1, 9)] (fun _ => true), .clean 62, .fetch 5 0 62 [(1, 9)] (fun _ => true)]).2.sent =
      [(1, 5, 1), (2, 7, 2), (3, 5, 1), (4, 5, 1)] := by decide +kernel

/-- The block is wanted again and again, at least every three seconds, from the same peers, and records are cleaned in between. -/
def Steady (hash : Nat) (P : List Nat) : Nat → List FEv → Prop
  | _, [] => True
  | last, .fetch h _ now peers _ :: es => h = hash ∧ last ≤ now ∧ now ≤ last + 3 ∧ (∀ p ∈ peers, p.1 ∈ P) ∧ Steady hash P now es
  | last, .clean now :: es => now ≤ last + 3 ∧ Steady hash P last es
  | _, _ :: _ => False

/-- Only this record is there, it waits, and every peer of the list was asked and has not answered. -/
structure Silent (s : FState) (hash : Nat) (P : List Nat) (last : Nat) (r : FRec) : Prop where
  recs : s.recs = [r]
  byHash : s.byHash hash = some r.id
  hash_ : r.hash = hash
  st : r.st = .pending
  all : ∀ p ∈ P, ∃ t, r.targets.find? (fun x => decide (x.1 = p)) = some (p, .pending, t)
  time : last ≤ r.addAt + 3 * min r.mark 6

theorem silent_step {s : FState} {hash : Nat} {P : List Nat} {last : Nat} {r : FRec} (h : Silent s hash P last r) (height now : Nat) (peers : List (Nat × Nat)) (sendOk : Nat → Bool) (h1 : last ≤ now) (h2 : now ≤ last + 3)
    (hP : ∀ p ∈ peers, p.1 ∈ P) : (fstep s (.fetch hash height now peers sendOk)).2 = .nil ∧ ∃ r', Silent (fstep s (.fetch hash height now peers sendOk)).1 hash P now r' := by
  have hb : (s.byHash hash).bind (fun i => s.recs.find? (fun r => decide (r.id = i))) = some r := by
    rw [h.byHash, h.recs]
    simp
  have hst := h.st
  have htime := h.time
  by_cases hc : r.mark ≥ 6 ∧ now - r.addAt ≥ 8
  · have hh : fhold s hash now = ({ s with recs := updRec s.recs r.id (fun r => refresh r now) }, r.id, false) := by
      unfold fhold
      rw [hb]
      dsimp only
      rw [if_neg (by rw [hst]; simp), if_neg (by rw [hst]; simp), if_pos ⟨by rw [hst]; simp, hc⟩]
    have hrecs : updRec s.recs r.id (fun r => refresh r now) = [refresh r now] := by
      rw [h.recs]
      simp [updRec]
    have hpick : pickPeers (refresh r now).targets peers height now = [] := by
      unfold pickPeers
      dsimp only
      rw [List.filter_eq_nil_iff.mpr]
      · rfl
      · intro p hp
        obtain ⟨q, hq, rfl⟩ := List.mem_map.mp hp
        obtain ⟨t, ht⟩ := h.all q.1 (hP q (List.mem_filter.mp hq).1)
        rw [mayAsk_iff, not_not]
        exact ⟨_, ht, Or.inr (Or.inl rfl)⟩
    have hfind : [refresh r now].find? (fun x => decide (x.id = r.id)) = some (refresh r now) := by simp [refresh]
    have hadd : updRec [refresh r now] r.id (fun r => { r with targets := addTargets r.targets [] now }) = [refresh r now] := by
      simp [updRec, refresh, addTargets]
    have hstep : fstep s (.fetch hash height now peers sendOk) = ({ s with recs := [refresh r now] }, .nil) := by
      simp only [fstep, hh, hrecs, Bool.false_eq_true, if_false, hfind, hpick, hadd, fsend]
    rw [hstep]
    exact ⟨rfl, refresh r now, rfl, h.byHash, h.hash_, rfl, h.all, by simp [refresh]⟩
  · have hh : fhold s hash now = ({ s with recs := updRec s.recs r.id (fun r => { r with mark := r.mark + 1 }) }, r.id, true) := by
      unfold fhold
      rw [hb]
      dsimp only
      rw [if_neg (by rw [hst]; simp), if_neg (by rw [hst]; simp), if_neg (fun hx => hc hx.2)]
    have hrecs : updRec s.recs r.id (fun r => { r with mark := r.mark + 1 }) = [{ r with mark := r.mark + 1 }] := by
      rw [h.recs]
      simp [updRec]
    have hstep : fstep s (.fetch hash height now peers sendOk) = ({ s with recs := [{ r with mark := r.mark + 1 }] }, .nil) := by
      simp only [fstep, hh, hrecs, if_true]
    rw [hstep]
    refine ⟨rfl, { r with mark := r.mark + 1 }, rfl, h.byHash, h.hash_, hst, h.all, ?_⟩
    dsimp only
    rw [not_and_or] at hc
    rcases hc with hc | hc <;> omega

theorem silent_clean {s : FState} {hash : Nat} {P : List Nat} {last : Nat} {r : FRec} (h : Silent s hash P last r) (now : Nat) (h2 : now ≤ last + 3) :
    (fstep s (.clean now)).2.sent = [] ∧ Silent (fstep s (.clean now)).1 hash P last r := by
  have htime := h.time
  have hk : ¬ now - r.addAt > 30 := by omega
  refine ⟨rfl, ?_, ?_, h.hash_, h.st, h.all, htime⟩
  · show s.recs.filter _ = [r]
    rw [h.recs, List.filter_cons_of_pos (by simpa using hk)]
    rfl
  · show (if _ then none else s.byHash hash) = some r.id
    rw [if_neg, h.byHash]
    rw [h.recs, List.filter_cons_of_neg (by simpa using hk)]
    simp

/-- **C89, fails.** When the peers that were asked do not answer, nobody is asked for that block again as long as it is wanted at least every three seconds: however long this goes on. -/
theorem silent_forever {hash : Nat} {P : List Nat} (es : List FEv) {s : FState} {last : Nat} {r : FRec} (h : Silent s hash P last r) (hes : Steady hash P last es) : (frun s es).2.sent = [] := by
  induction es generalizing s last r with
  | nil => rfl
  | cons e es ih =>
    cases e with
    | fetch h' height now peers sendOk =>
      obtain ⟨rfl, h1, h2, h3, h4⟩ := hes
      obtain ⟨k1, r', k2⟩ := silent_step h height now peers sendOk h1 h2 h3
      show (fstep s _).2.sent ++ (frun (fstep s _).1 es).2.sent = []
      rw [k1, ih k2 h4]
      rfl
    | clean now =>
      obtain ⟨h1, h2⟩ := hes
      obtain ⟨k1, k2⟩ := silent_clean h now h1
      show (fstep s _).2.sent ++ (frun (fstep s _).1 es).2.sent = []
      rw [k1, ih k2 h2]
      rfl
    | query => exact hes.elim
    | answer => exact hes.elim
    | exception => exact hes.elim

/-- The hypotheses of `silent_forever` hold after the first request. -/
theorem silent_start : ∃ r, Silent (frun .empty [.fetch 5 0 0 [(1, 9), (2, 9), (3, 9)] (fun _ => true)]).1 5 [1, 2, 3] 0 r := by
  refine ⟨⟨1, 5, 0, 0, 0, .pending, [(1, .pending, 0), (2, .pending, 0), (3, .pending, 0)], false⟩, by decide +kernel, by decide +kernel, rfl, rfl, ?_, by decide⟩
  intro p hp
  refine ⟨0, ?_⟩
  simp only [List.mem_cons, List.not_mem_nil, or_false] at hp
  rcases hp with rfl | rfl | rfl <;> decide +kernel

/-! ## Cases -/

example : (frun .empty [.fetch 5 0 0 [(1, 9), (2, 9), (3, 9), (4, 9)] (fun _ => true)]).2.sent = [(1, 5, 1), (1, 5, 2), (1, 5, 3)] := by decide +kernel
/-- All three have nothing: the fourth is asked next. -/
example : (frun .empty [.fetch 5 0 0 [(1, 9), (2, 9), (3, 9), (4, 9)] (fun _ => true), .exception 1 1 1, .exception 1 2 1, .exception 1 3 1, .fetch 5 0 2 [(1, 9), (2, 9), (3, 9), (4, 9)] (fun _ => true)]).2.sent =
    [(1, 5, 1), (1, 5, 2), (1, 5, 3), (1, 5, 4)] := by decide +kernel
example : (frun .empty [.query 5 1 0 0 true, .clean 31]).2.calls = [(1, false)] := by decide +kernel
example : Steady 5 [1, 2] 0 [.fetch 5 0 2 [(1, 9)] (fun _ => true), .clean 4, .fetch 5 0 5 [(2, 9)] (fun _ => true)] := by simp [Steady]

end Verif.Sync
