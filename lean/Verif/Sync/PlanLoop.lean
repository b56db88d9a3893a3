import Verif.Sync.PlanCache

/-!
# The tasks around the chunks that are kept -/

namespace Verif.Sync

theorem exStep_none {l : List Point} {m : List Seg} {e : Ex} {i : Nat} {p : Point} (hi : e.inSeg = false) (h : segAt m p.height = none) : exStep l m e i p = e := by
  unfold exStep
  rw [h, hi]
  obtain ⟨a, b, c, d⟩ := e
  simp only at hi
  subst hi
  simp

theorem exLoop_append (l : List Point) (m : List Seg) (e : Ex) (i : Nat) (a b : List Point) :
    exLoop l m e i (a ++ b) = exLoop l m (exLoop l m e i a) (i + a.length) b := by
  induction a generalizing e i with
  | nil => simp [exLoop]
  | cons p a ih =>
    simp only [List.cons_append, exLoop, List.length_cons]
    rw [ih]
    congr 1
    omega

theorem exLoop_none {l : List Point} {m : List Seg} {e : Ex} {i : Nat} {A : List Point} (hi : e.inSeg = false) (h : ∀ p ∈ A, segAt m p.height = none) : exLoop l m e i A = e := by
  induction A generalizing i with
  | nil => rfl
  | cons p A ih =>
    rw [exLoop, exStep_none hi (h p List.mem_cons_self)]
    exact ih (fun q hq => h q (List.mem_cons_of_mem _ hq))

theorem exLoop_inside {l : List Point} {m : List Seg} {e : Ex} {i : Nat} {A : List Point} (h : ∀ p ∈ A, p.height < e.segEnd) : exLoop l m e i A = e := by
  induction A generalizing i with
  | nil => rfl
  | cons p A ih =>
    have : exStep l m e i p = e := by
      unfold exStep
      rw [if_neg (by have := h p List.mem_cons_self; omega)]
    rw [exLoop, this]
    exact ih (fun q hq => h q (List.mem_cons_of_mem _ hq))

theorem segAt_cons (s : Seg) (m : List Seg) (h : Nat) : segAt (s :: m) h = if s.lo - 1 = h then some s.hi else segAt m h := by
  unfold segAt
  by_cases hc : s.lo - 1 = h
  · simp [hc]
  · simp [hc]

theorem segAt_none {m : List Seg} {h : Nat} (hm : ∀ s ∈ m, s.lo - 1 ≠ h) : segAt m h = none := by
  induction m with
  | nil => rfl
  | cons s m ih =>
    rw [segAt_cons, if_neg (hm s List.mem_cons_self)]
    exact ih (fun t ht => hm t (List.mem_cons_of_mem _ ht))

theorem asc_mem_right {X Z : List Point} {y w : Point} (h : Ascending (X ++ y :: Z)) (hw : w ∈ X ++ y :: Z) (hlt : y.height < w.height) : w ∈ Z := by
  unfold Ascending at h
  rw [List.pairwise_append] at h
  rcases List.mem_append.mp hw with hx | hx
  · have := h.2.2 w hx y List.mem_cons_self
    omega
  · rcases List.mem_cons.mp hx with rfl | hx
    · omega
    · exact hx

/-- What of a plan is kept and what is asked for. -/
def kept (p : List (Bool × Seg)) : List Seg := (p.filter (fun x => x.1)).map (·.2)
def asked (p : List (Bool × Seg)) : List Seg := (p.filter (fun x => !x.1)).map (·.2)

theorem kept_append (p q : List (Bool × Seg)) : kept (p ++ q) = kept p ++ kept q := by simp [kept]
theorem asked_append (p q : List (Bool × Seg)) : asked (p ++ q) = asked p ++ asked q := by simp [asked]
theorem kept_true (g : List Seg) : kept (g.map (fun s => (true, s))) = g := by
  induction g with
  | nil => rfl
  | cons s g ih => simpa [kept] using ih
theorem kept_false (g : List Seg) : kept (g.map (fun s => (false, s))) = [] := by
  induction g with
  | nil => rfl
  | cons s g ih => simp [kept]
theorem asked_false (g : List Seg) : asked (g.map (fun s => (false, s))) = g := by
  induction g with
  | nil => rfl
  | cons s g ih => simpa [asked] using ih
theorem asked_true (g : List Seg) : asked (g.map (fun s => (true, s))) = [] := by
  induction g with
  | nil => rfl
  | cons s g ih => simp [asked]
theorem map_snd (b : Bool) (g : List Seg) : (g.map (fun s => (b, s))).map (·.2) = g := by simp

/-- A run of chunks between two points. -/
def Runs (l : List Point) (g : List Seg) : Prop :=
  ∃ a ∈ l, ∃ b ∈ l, (collapse g).lo = a.height + 1 ∧ (collapse g).hi = b.height ∧ a.height < b.height ∧ Leads a.block g b.block

theorem real_one (p : Point) : real (constructTasks [p]) = [] := by
  simp [constructTasks, real]

theorem getLastD_eq {c d : Point} {T : List Point} {l : List Point} (h : l = c :: T) : l.getLastD d = T.getLastD c := by
  subst h
  cases T <;> rfl

theorem loop_inv {l : List Point} (hl : Ascending l) {J : List Seg} {o : Nat × Nat} (gs : List (List Seg)) (P S R : List Point) (c : Point) (T : List Point) (e : Ex)
    (plan : List (Bool × Seg)) (hlist : l = P ++ S ++ R) (hne : S ++ R = c :: T) (hst : e.start = P.length) (hin : e.inSeg = false)
    (hend : ∀ p ∈ R, e.segEnd ≤ p.height) (hseg : ∀ p ∈ R, segAt J p.height = segAt (gs.map collapse) p.height)
    (hgs : ∀ g ∈ gs, Runs l g) (hstart : ∀ g ∈ gs, ∀ a ∈ l, (collapse g).lo = a.height + 1 → a ∈ R)
    (hgap : (gs.map collapse).Pairwise (fun s t => s.hi + 1 < t.lo))
    (hplan : Leads o (plan.map (·.2)) c.block) (hasked : asked plan = real e.ts) :
    ∃ plan', Leads o (plan'.map (·.2)) (T.getLastD c).block ∧ kept plan' = kept plan ++ gs.flatten ∧
      asked plan' = real ((exLoop l J e (P ++ S).length R).ts ++ constructTasks (l.drop (exLoop l J e (P ++ S).length R).start)) := by
  induction gs generalizing P S R c T e plan with
  | nil =>
    rw [exLoop_none hin (fun p hp => by rw [hseg p hp]; rfl), hst]
    have hd : l.drop P.length = c :: T := by
      rw [hlist, List.append_assoc, List.drop_left, hne]
    have hasc : Ascending (c :: T) := by
      rw [← hd]
      exact List.Pairwise.sublist (List.drop_sublist _ _) hl
    refine ⟨plan ++ (real (constructTasks (c :: T))).map (fun s => (false, s)), ?_, ?_, ?_⟩
    · rw [List.map_append, map_snd]
      exact hplan.append (constructTasks_leads hasc)
    · rw [kept_append, kept_false]; simp
    · rw [asked_append, asked_false, hasked, hd, real_append]
  | cons g gs ih =>
    obtain ⟨a, ha, b, hb, h1, h2, h3, h4⟩ := hgs g List.mem_cons_self
    have haR := hstart g List.mem_cons_self a ha h1
    obtain ⟨A, R2, rfl⟩ := List.append_of_mem haR
    have hl2 : l = (P ++ S ++ A) ++ a :: R2 := by rw [hlist]; simp
    have hbR : b ∈ R2 := asc_mem_right (hl2 ▸ hl) (hl2 ▸ hb) h3
    obtain ⟨B, R3, rfl⟩ := List.append_of_mem hbR
    have hl3 : l = (P ++ S ++ A ++ a :: B) ++ b :: R3 := by rw [hl2]; simp
    rw [List.map_cons, List.pairwise_cons] at hgap
    have hA : ∀ p ∈ A, p.height < a.height := by
      intro p hp
      have := hl2 ▸ hl
      unfold Ascending at this
      rw [List.pairwise_append] at this
      exact this.2.2 p (by simp [hp]) a List.mem_cons_self
    have hB : ∀ p ∈ B, p.height < b.height := by
      intro p hp
      have := hl3 ▸ hl
      unfold Ascending at this
      rw [List.pairwise_append] at this
      exact this.2.2 p (by simp [hp]) b List.mem_cons_self
    have hR3 : ∀ p ∈ R3, b.height < p.height := by
      intro p hp
      have := hl3 ▸ hl
      unfold Ascending at this
      rw [List.pairwise_append] at this
      exact List.rel_of_pairwise_cons this.2.1 hp
    have hlater : ∀ s ∈ gs.map collapse, (collapse g).hi + 1 < s.lo := hgap.1
    -- before the run
    have eA : ∀ i, exLoop l J e i A = e := fun i => exLoop_none hin (fun p hp => by
      rw [hseg p (by simp [hp])]
      apply segAt_none
      intro s hs
      have := hA p hp
      rcases List.mem_cons.mp hs with rfl | hs
      · omega
      · have := hlater s hs
        omega)
    have ea : segAt J a.height = some b.height := by
      rw [hseg a (by simp), List.map_cons, segAt_cons, if_pos (by omega), h2]
    -- at its start
    let i := (P ++ S).length + A.length
    let e1 := exStep l J e i a
    have he1 : e1 = ⟨P.length, b.height, true, if i > 0 then e.ts ++ constructTasks ((l.take (i + 1)).drop P.length) else e.ts⟩ := by
      show exStep l J e i a = _
      unfold exStep
      rw [if_pos (hend a (by simp)), ea, hin, ← hst]
      simp
    have hslice : (l.take (i + 1)).drop P.length = S ++ A ++ [a] := by
      have : l.take (i + 1) = P ++ (S ++ A ++ [a]) := by
        have e0 : l = (P ++ (S ++ A ++ [a])) ++ (B ++ b :: R3) := by rw [hl2]; simp
        rw [e0]
        apply List.take_left'
        simp [i]
        omega
      rw [this, List.drop_left]
    have hts : real e1.ts = real e.ts ++ real (constructTasks (S ++ A ++ [a])) := by
      rw [he1]
      show real (if i > 0 then _ else _) = _
      by_cases hi0 : i > 0
      · rw [if_pos hi0, hslice, real_append]
      · rw [if_neg hi0]
        have hS : S = [] := by
          simp [i] at hi0
          exact hi0.1.2
        have hA0 : A = [] := by
          simp [i] at hi0
          exact hi0.2
        rw [hS, hA0, List.append_nil, List.nil_append, real_one, List.append_nil]
    have hend1 : e1.segEnd = b.height := by rw [he1]
    have hin1 : e1.inSeg = true := by rw [he1]
    have eB : ∀ j, exLoop l J e1 j B = e1 := fun j => exLoop_inside (fun p hp => by rw [hend1]; exact hB p hp)
    let k := i + 1 + B.length
    let e2 := exStep l J e1 k b
    have eb : segAt J b.height = none := by
      rw [hseg b (by simp)]
      apply segAt_none
      intro s hs
      rcases List.mem_cons.mp hs with rfl | hs
      · omega
      · have := hlater s hs
        omega
    have he2 : e2 = { e1 with start := k, inSeg := false } := by
      show exStep l J e1 k b = _
      unfold exStep
      rw [if_pos (Nat.le_of_eq hend1), eb, hin1]
      simp
    have hrun : exLoop l J e (P ++ S).length (A ++ a :: (B ++ b :: R3)) = exLoop l J e2 (k + 1) R3 := by
      rw [exLoop_append, eA, exLoop]
      show exLoop l J e1 (i + 1) (B ++ b :: R3) = _
      rw [exLoop_append, eB, exLoop]
    rw [hrun]
    obtain ⟨T', hT'⟩ : ∃ T', S ++ A ++ [a] = c :: T' := by
      cases hS : S ++ A with
      | nil =>
        obtain ⟨rfl, rfl⟩ := List.append_eq_nil_iff.mp hS
        simp only [List.nil_append, List.cons.injEq] at hne
        exact ⟨[], by simp [hne.1]⟩
      | cons x X =>
        refine ⟨X ++ [a], ?_⟩
        have : (S ++ A) ++ (a :: (B ++ b :: R3)) = c :: T := by rw [← hne]; simp
        rw [hS] at this
        simp only [List.cons_append, List.cons.injEq] at this
        simp [this.1]
    have hlastT' : T'.getLastD c = a := by
      rw [← getLastD_eq (d := a) hT']
      simp
    have hascT : Ascending (c :: T') := by
      rw [← hT', ← hslice]
      exact List.Pairwise.sublist ((List.drop_sublist _ _).trans (List.take_sublist _ _)) hl
    have hcons := constructTasks_leads hascT
    rw [hlastT'] at hcons
    have hlen : k = (P ++ S ++ A ++ a :: B).length := by simp [k, i]; omega
    have hk1 : k + 1 = (P ++ S ++ A ++ a :: B ++ [b]).length := by simp [k, i]; omega
    obtain ⟨plan', q1, q2, q3⟩ := ih (P ++ S ++ A ++ a :: B) [b] R3 b R3 e2
      (plan ++ (real (constructTasks (c :: T'))).map (fun s => (false, s)) ++ g.map (fun s => (true, s)))
      (by rw [hl3]; simp) rfl (by rw [he2]; exact hlen) (by rw [he2])
      (fun p hp => by rw [he2]; show e1.segEnd ≤ _; rw [hend1]; exact Nat.le_of_lt (hR3 p hp))
      (fun p hp => by
        rw [hseg p (by simp [hp]), List.map_cons, segAt_cons, if_neg]
        have := hR3 p hp
        omega)
      (fun x hx => hgs x (List.mem_cons_of_mem _ hx))
      (fun x hx a' ha' he => asc_mem_right (hl3 ▸ hl) (hl3 ▸ ha') (by
        have := hlater _ (List.mem_map_of_mem hx)
        omega))
      hgap.2
      (by
        rw [List.map_append, List.map_append, map_snd, map_snd]
        exact (hplan.append hcons).append h4)
      (by
        rw [asked_append, asked_append, asked_false, asked_true, List.append_nil, hasked, he2]
        show _ = real e1.ts
        rw [hts, hT'])
    rw [← hk1] at q3
    refine ⟨plan', ?_, ?_, q3⟩
    · have e1 : T.getLastD c = R3.getLastD b := by
        rw [← getLastD_eq (d := c) hne.symm.symm, ← getLastD_eq (d := c) (rfl : b :: R3 = b :: R3)]
        have : S ++ (A ++ a :: (B ++ b :: R3)) = (S ++ A ++ a :: B) ++ (b :: R3) := by simp
        rw [this]
        generalize S ++ A ++ a :: B = X
        rw [List.getLastD_eq_getLast?, List.getLastD_eq_getLast?, List.getLast?_append]
        cases h : (b :: R3).getLast? with
        | none => simp at h
        | some x => rfl
      rw [e1]
      exact q1
    · rw [q2, kept_append, kept_append, kept_false, kept_true]
      simp

/-- The tasks, with the chunks that are kept, lead from the first point to the last one. -/
theorem compareCache_tiles {segs : List Seg} {p : Point} {l : List Point} (hl : Ascending (p :: l)) (hs : Stored segs) :
    ∃ plan : List (Bool × Seg), Leads p.block (plan.map (·.2)) (l.getLastD p).block ∧
      asked plan = real (compareCache segs (p :: l)).1 ∧ List.Sublist (kept plan) segs ∧ (∀ s ∈ kept plan, Fits (p :: l) s) ∧
      ∀ s ∈ segs, p.height < s.hi → s.lo ≤ (l.getLastD p).height → s ∈ kept plan ∨ s ∈ (compareCache segs (p :: l)).2 := by
  have hhigh : ((p :: l).getLastD ⟨0, 0, 0⟩) = l.getLastD p := getLastD_eq rfl
  have hall : ∀ s ∈ segs, p.height < s.hi → s.lo ≤ (l.getLastD p).height →
      s ∈ (select p.height (l.getLastD p).height segs (p :: l)).1 ∨ s ∈ (select p.height (l.getLastD p).height segs (p :: l)).2 :=
    fun s hm a b => select_all hs _ hm a b
  obtain ⟨hsub, hfit⟩ := select_keep p.height (l.getLastD p).height segs (p :: l)
  unfold compareCache
  simp only [hhigh, List.headD_cons]
  cases hk : (select p.height (l.getLastD p).height segs (p :: l)).1 with
  | nil =>
    rw [hk] at hall
    refine ⟨(real (constructTasks (p :: l))).map (fun s => (false, s)), ?_, ?_, ?_, ?_, ?_⟩
    · rw [map_snd]; exact constructTasks_leads hl
    · rw [asked_false]
    · rw [kept_false]; exact List.nil_sublist _
    · rw [kept_false]; simp
    · rw [kept_false]; exact hall
  | cons s r =>
    rw [hk] at hall hsub hfit
    simp only
    obtain ⟨gs, g1, g2, g3, g4, -⟩ := join_groups [s] r ⟨by simp, List.isChain_singleton _⟩
    have ecol : collapse [s] = s := rfl
    rw [ecol] at g1
    have hin : ∀ x ∈ [s] ++ r, Fits (p :: l) x ∧ x.lo ≤ x.hi := fun x hx => ⟨hfit x hx, (hs.2 x (hsub.subset hx)).2⟩
    obtain ⟨plan, q1, q2, q3⟩ := loop_inv (l := p :: l) hl (J := joinSegs (s :: r)) (o := p.block) gs [] [] (p :: l) p l ⟨0, 0, false, []⟩ []
      rfl rfl rfl rfl (fun _ _ => Nat.zero_le _) (fun x _ => by rw [g1])
      (fun g hg => group_leads hl (g3 g hg) (fun x hx => hin x (by rw [← g2]; exact List.mem_flatten_of_mem hg hx)))
      (fun _ _ a ha _ => ha)
      (g4 (hs.1.sublist hsub) (fun x hx => (hin x hx).2))
      rfl rfl
    have q2' : kept plan = s :: r := by rw [q2, g2]; rfl
    refine ⟨plan, q1, q3, ?_, ?_, ?_⟩
    · rw [q2']; exact hsub
    · rw [q2']; exact hfit
    · rw [q2']; exact hall

end Verif.Sync
