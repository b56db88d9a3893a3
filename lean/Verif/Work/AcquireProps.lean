import Verif.Work.AcquireModel

/-!
C99: the claims about the choice of sends.
-/

namespace Verif.Work

/-- A caller is restricted. -/
def restricted : Option Cache → Nat → Prop
  | none, _ => False
  | some p, x => p.inferior x ≠ none

/-- What holds of every cache. -/
structure Cache.Ok (p : Cache) : Prop where
  short : ∀ x l, p.pend x = some l → l.length ≤ 1
  caller : ∀ x l s, p.pend x = some l → s ∈ l → s.caller = x
  free : ∀ x l, p.pend x = some l → l ≠ [] → p.inferior x = none

theorem OnePending.ok {p p' : Cache} {r : Option Send} (h : OnePending p r p') (ho : p.Ok) : p'.Ok ∧ p'.inferior = p.inferior := by
  cases h with
  | one x s l hx =>
    refine ⟨⟨?_, ?_, ?_⟩, rfl⟩
    · intro y l' hy
      dsimp only [upd] at hy
      split at hy
      · injection hy with hy
        have := ho.short x _ hx
        simp at this
        subst this
        rw [← hy]; simp
      · exact ho.short y l' hy
    · intro y l' s' hy hs
      dsimp only [upd] at hy
      split at hy
      · rename_i hyx
        injection hy with hy
        subst hy
        rw [hyx]
        exact ho.caller x _ s' hx (List.mem_cons_of_mem _ hs)
      · exact ho.caller y l' s' hy hs
    · intro y l' hy hl
      dsimp only [upd] at hy
      split at hy
      · rename_i hyx
        rw [hyx]
        exact ho.free x _ hx (by simp)
      · exact ho.free y l' hy hl
  | none _ => exact ⟨ho, rfl⟩

/-- Adding to a cache without waiting sends: the sends of the list that are added wait, one for each caller. -/
structure Filled (q : Cache) (blocks : List Send) (inf : Nat → Option Inf) : Prop where
  inferior : q.inferior = inf
  pend : ∀ x l, q.pend x = some l → l = [] ∨ ∃ s ∈ blocks, s.caller = x ∧ inf x = none ∧ l = [s]
  all : ∀ s ∈ blocks, inf s.caller = none → ∃ t, q.pend s.caller = some [t]

theorem add_filled {q : Cache} {blocks : List Send} {inf : Nat → Option Inf} (h : Filled q blocks inf) (s : Send) (hs : inf s.caller = none)
    (hu : ∀ t ∈ blocks, t.caller = s.caller → t = s) : Filled (q.add s) (blocks ++ [s]) inf := by
  have hone : (∀ l, q.pend s.caller = some l → l = []) → Filled { q with pend := upd q.pend s.caller (some [s]) } (blocks ++ [s]) inf := by
    intro hempty
    refine ⟨h.inferior, ?_, ?_⟩
    · intro x l hx
      dsimp only [upd] at hx
      split at hx
      · rename_i hxs
        injection hx with hx
        exact Or.inr ⟨s, by simp, hxs.symm, by rw [hxs]; exact hs, hx.symm⟩
      · rcases h.pend x l hx with hh | ⟨t, ht, hrest⟩
        · exact Or.inl hh
        · exact Or.inr ⟨t, List.mem_append_left _ ht, hrest⟩
    · intro t ht htf
      dsimp only [upd]
      by_cases hts : t.caller = s.caller
      · rw [if_pos hts]; exact ⟨s, rfl⟩
      · rw [if_neg hts]
        rcases List.mem_append.1 ht with ht | ht
        · exact h.all t ht htf
        · simp at ht; subst ht; exact absurd rfl hts
  unfold Cache.add
  rcases hp : q.pend s.caller with _ | l
  · dsimp only
    exact hone (by intro l hl; rw [hp] at hl; simp at hl)
  · dsimp only
    rcases h.pend _ _ hp with hh | ⟨t, ht, htc, htf, hl⟩
    · subst hh
      exact hone (by intro l hl; rw [hp] at hl; injection hl with hl; exact hl.symm)
    · have := hu t ht htc
      subst this
      subst hl
      simp only [List.getLast?_singleton, if_true]
      refine ⟨h.inferior, ?_, ?_⟩
      · intro x l hx
        rcases h.pend x l hx with hh | ⟨t', ht', hrest⟩
        · exact Or.inl hh
        · exact Or.inr ⟨t', List.mem_append_left _ ht', hrest⟩
      · intro t' ht' htf'
        rcases List.mem_append.1 ht' with ht' | ht'
        · exact h.all t' ht' htf'
        · simp at ht'; subst ht'; exact ⟨_, hp⟩

theorem addFree_filled {q : Cache} {done : List Send} {inf : Nat → Option Inf} (h : Filled q done inf) (blocks : List Send)
    (hu : ∀ s ∈ done ++ blocks, ∀ t ∈ done ++ blocks, t.caller = s.caller → t = s) :
    Filled (q.addFree blocks) (done ++ blocks) inf := by
  induction blocks generalizing q done with
  | nil => simpa [Cache.addFree] using h
  | cons s rest ih =>
    have happ : done ++ s :: rest = (done ++ [s]) ++ rest := by simp
    rw [happ] at hu ⊢
    have hstep : Filled (if q.inferior s.caller ≠ none then q else q.add s) (done ++ [s]) inf := by
      rw [h.inferior]
      by_cases hf : inf s.caller = none
      · rw [if_neg (by simp [hf])]
        exact add_filled h s hf (fun t ht htc => hu s (by simp) t (by simp [ht]) htc)
      · rw [if_pos hf]
        refine ⟨h.inferior, ?_, ?_⟩
        · intro x l hx
          rcases h.pend x l hx with hh | ⟨t, ht, hrest⟩
          · exact Or.inl hh
          · exact Or.inr ⟨t, List.mem_append_left _ ht, hrest⟩
        · intro t ht htf
          rcases List.mem_append.1 ht with ht | ht
          · exact h.all t ht htf
          · simp at ht; subst ht; exact absurd htf hf
    exact ih hstep hu

theorem add_inferior (p : Cache) (s : Send) : (p.add s).inferior = p.inferior := by
  unfold Cache.add
  split
  · rfl
  · split
    · rfl
    · split
      · rfl
      · split <;> rfl

theorem addAll_eq (p : Cache) (blocks : List Send) (h : ∀ x, p.inferior x = none) : p.addAll blocks = p.addFree blocks := by
  unfold Cache.addAll Cache.addFree
  induction blocks generalizing p with
  | nil => rfl
  | cons s rest ih =>
    rw [List.foldl_cons, List.foldl_cons, if_neg (by simp [h])]
    exact ih (p.add s) (by intro x; rw [add_inferior]; exact h x)

theorem Filled.ok {q : Cache} {blocks : List Send} {inf : Nat → Option Inf} (h : Filled q blocks inf) : q.Ok := by
  refine ⟨?_, ?_, ?_⟩
  · intro x l hx
    rcases h.pend x l hx with rfl | ⟨s, _, _, _, rfl⟩ <;> simp
  · intro x l s hx hs
    rcases h.pend x l hx with rfl | ⟨t, _, ht, _, rfl⟩
    · simp at hs
    · simp at hs; subst hs; exact ht
  · intro x l hx hl
    rcases h.pend x l hx with rfl | ⟨s, _, _, hf, rfl⟩
    · exact absurd rfl hl
    · rw [h.inferior]; exact hf

/-- What the refilled cache gives. -/
theorem Filled.one {q p' : Cache} {blocks : List Send} {inf : Nat → Option Inf} {F : Fronts} {r : Option Send} (h : Filled q blocks inf)
    (hl : Lists blocks F) (ho : OnePending q r p') :
    (∀ s, r = some s → F s.caller = some s ∧ inf s.caller = none) ∧ (r = none → ∀ x s, F x = some s → s.caller = x → inf x ≠ none) := by
  cases ho with
  | one x s l hx =>
    refine ⟨?_, by intro hh; simp at hh⟩
    intro s' hs'
    injection hs' with hs'
    subst hs'
    rcases h.pend x _ hx with hh | ⟨t, ht, htc, htf, hl'⟩
    · simp at hh
    · simp at hl'
      obtain ⟨rfl, rfl⟩ := hl'
      exact ⟨(hl s).1 ht, by rw [htc]; exact htf⟩
  | none hno =>
    refine ⟨by intro s hs; simp at hs, ?_⟩
    intro _ x s hx hsx hf
    have hs : s ∈ blocks := (hl s).2 (by rw [hsx]; exact hx)
    obtain ⟨t, ht⟩ := h.all s hs (by rw [hsx]; exact hf)
    exact absurd (hno _ _ ht) (by simp)

theorem Lists.unique {blocks : List Send} {F : Fronts} (h : Lists blocks F) : ∀ s ∈ [] ++ blocks, ∀ t ∈ [] ++ blocks, t.caller = s.caller → t = s := by
  intro s hs t ht hts
  have h1 := (h s).1 (by simpa using hs)
  have h2 := (h t).1 (by simpa using ht)
  rw [hts, h1] at h2
  exact (Option.some.inj h2).symm

/-- Each case of the acquisition: the cache was refilled, or gave a send that was found to be first. -/
theorem acquire_cases {c : Option Cache} {F F' : Fronts} {r : Option Send} {p' : Cache} (h : Acquire c F F' r p') :
    (∃ q blocks inf, Filled q blocks inf ∧ Lists blocks F' ∧ OnePending q r p' ∧ (∀ x, inf x ≠ none ↔ restricted c x)) ∨
    (∃ p s, c = some p ∧ r = some s ∧ OnePending p (some s) p' ∧ (F s.caller).map (·.hash) = some s.hash) := by
  have newF : Filled Cache.new [] (fun _ => none) :=
    ⟨rfl, by intro x l hx; simp [Cache.new] at hx, by simp⟩
  cases h with
  | empty hl =>
    left
    exact ⟨Cache.new, [], fun _ => none, newF, hl, OnePending.none (by intro x l hx; simp [Cache.new] at hx), by simp [restricted]⟩
  | fresh hl hne ho =>
    left
    rename_i blocks
    refine ⟨_, blocks, fun _ => none, ?_, hl, ho, by simp [restricted]⟩
    rw [addAll_eq _ _ (by intro x; rfl)]
    simpa using addFree_filled newF blocks hl.unique
  | hit ho hf => exact Or.inr ⟨_, _, rfl, rfl, ho, hf⟩
  | stale ho hf hl ho' =>
    left
    rename_i p p1 s blocks
    have hinf : p1.inferior = p.inferior := by cases ho; rfl
    refine ⟨_, blocks, p.inferior, ?_, hl, ho', by simp [restricted]⟩
    have : Filled p1.clear [] p.inferior := ⟨hinf, by intro x l hx; simp [Cache.clear] at hx, by simp⟩
    simpa using addFree_filled this blocks hl.unique
  | refill ho hl ho' =>
    left
    rename_i p p1 blocks
    cases ho with
    | none hno =>
      refine ⟨_, blocks, p.inferior, ?_, hl, ho', by simp [restricted]⟩
      have : Filled p [] p.inferior := ⟨rfl, fun x l hx => Or.inl (hno x l hx), by simp⟩
      simpa using addFree_filled this blocks hl.unique

theorem CReach.ok {c : Option Cache} (h : CReach c) : ∀ p, c = some p → p.Ok := by
  induction h with
  | none => intro p hp; simp at hp
  | acquire hc ha ih =>
    intro p hp
    injection hp with hp
    subst hp
    rcases acquire_cases ha with ⟨q, blocks, inf, hf, _, ho, _⟩ | ⟨p0, s, hc0, _, ho, _⟩
    · exact (ho.ok hf.ok).1
    · exact (ho.ok (ih p0 hc0)).1
  | restrict x v _ ih =>
    rename_i p0 _
    intro p hp
    injection hp with hp
    subst hp
    have h0 := ih p0 rfl
    refine ⟨?_, ?_, ?_⟩
    · intro y l hy
      dsimp only [Cache.restrict, upd] at hy
      split at hy
      · simp at hy
      · exact h0.short y l hy
    · intro y l s hy hs
      dsimp only [Cache.restrict, upd] at hy
      split at hy
      · simp at hy
      · exact h0.caller y l s hy hs
    · intro y l hy hl
      dsimp only [Cache.restrict, upd] at hy ⊢
      split at hy
      · simp at hy
      · rename_i hne
        rw [if_neg hne]
        exact h0.free y l hy hl
  | release _ ih =>
    rename_i p0 _
    intro p hp
    injection hp with hp
    subst hp
    have h0 := ih p0 rfl
    refine ⟨h0.short, h0.caller, ?_⟩
    intro y l hy hl
    have := h0.free y l hy hl
    dsimp only [Cache.release]
    rw [this]; simp
  | delete _ _ => intro p hp; simp at hp

/-- C99: an acquired send is, at one of the two looks at the chain, the first that waits from its sender (by its hash), and its sender is not
restricted. -/
theorem acquired_is_front {c : Option Cache} {F F' : Fronts} {s : Send} {p' : Cache} (hc : CReach c) (h : Acquire c F F' (some s) p') :
    ((F s.caller).map (·.hash) = some s.hash ∨ F' s.caller = some s) ∧ ¬ restricted c s.caller := by
  rcases acquire_cases h with ⟨q, blocks, inf, hf, hl, ho, hr⟩ | ⟨p, t, rfl, ht, ho, hf⟩
  · have := (hf.one hl ho).1 s rfl
    exact ⟨Or.inr this.1, fun hh => (hr _).2 hh this.2⟩
  · injection ht with ht
    subst ht
    refine ⟨Or.inl hf, ?_⟩
    have h0 := hc.ok p rfl
    cases ho with
    | one x _ l hx =>
      have hx' := h0.caller x _ s hx (by simp)
      unfold restricted
      rw [hx']
      intro hh
      exact hh (h0.free x _ hx (by simp))

/-- C99: no send is acquired only if, when the chain was last looked at, no sender without restriction had a send waiting. -/
theorem none_means_nothing {c : Option Cache} {F F' : Fronts} {p' : Cache} (h : Acquire c F F' none p') {x : Nat} {s : Send}
    (hx : F' x = some s) (hs : s.caller = x) : restricted c x := by
  rcases acquire_cases h with ⟨q, blocks, inf, hf, hl, ho, hr⟩ | ⟨p, t, _, ht, _⟩
  · exact (hr x).1 ((hf.one hl ho).2 rfl x s hx hs)
  · simp at ht

/-- C99: acquiring restricts nobody and releases nobody. -/
theorem acquire_restricts_nobody {c : Option Cache} {F F' : Fronts} {r : Option Send} {p' : Cache} (hc : CReach c) (h : Acquire c F F' r p') (x : Nat) :
    restricted (some p') x ↔ restricted c x := by
  rcases acquire_cases h with ⟨q, blocks, inf, hf, hl, ho, hr⟩ | ⟨p, t, rfl, ht, ho, hf⟩
  · rw [← hr x]
    show p'.inferior x ≠ none ↔ _
    rw [(ho.ok hf.ok).2, hf.inferior]
  · show p'.inferior x ≠ none ↔ p.inferior x ≠ none
    rw [(ho.ok (hc.ok p rfl)).2]

/-! ## Fairness -/

/-- A send of the caller waits in the cache. -/
def Cache.waits (p : Cache) (y : Nat) : Prop := ∃ t ts, p.pend y = some (t :: ts)

/-- What happens while a send of the caller `y` waits in the cache and the sends in the cache remain the first of their senders: sends are
acquired, senders are restricted and released. The list names the senders of the acquired sends, the last first. -/
inductive Round (y : Nat) : Cache → List Nat → Cache → Prop
  | refl (p : Cache) : Round y p [] p
  | acquire {p p' p'' : Cache} {l : List Nat} {F F' : Fronts} {s : Send} : Round y p l p' → p'.waits y →
      (∀ x t ts, p'.pend x = some (t :: ts) → F x = some t) → Acquire (some p') F F' (some s) p'' → Round y p (s.caller :: l) p''
  | restrict {p p' : Cache} {l : List Nat} (x : Nat) (v : Inf) : Round y p l p' → Round y p l (p'.restrict x v)
  | release {p p' : Cache} {l : List Nat} : Round y p l p' → Round y p l p'.release

/-- C99: while a sender waits, no other sender is served twice. -/
theorem round_is_fair {y : Nat} {p p' : Cache} {l : List Nat} (hc : CReach (some p)) (h : Round y p l p') : l.Nodup := by
  have main : CReach (some p') ∧ l.Nodup ∧ ∀ x ∈ l, ¬ p'.waits x := by
    induction h with
    | refl => exact ⟨hc, List.nodup_nil, by simp⟩
    | acquire hr hy hF ha ih =>
      rename_i p1 p2 l1 F F' s
      obtain ⟨h1, h2, h3⟩ := ih
      have hok := h1.ok _ rfl
      have hhit : ∃ l', p1.pend s.caller = some (s :: l') ∧ p2 = { p1 with pend := upd p1.pend s.caller (some l') } := by
        cases ha with
        | hit ho _ =>
          cases ho with
          | one x _ l' hx =>
            have := hok.caller x _ s hx (by simp)
            subst this
            exact ⟨l', hx, rfl⟩
        | stale ho hf _ _ =>
          cases ho with
          | one x _ l' hx =>
            rename_i t blocks hls ho2
            have := hok.caller x _ t hx (by simp)
            subst this
            exact absurd (by rw [hF _ _ _ hx]; rfl) hf
        | refill ho _ _ =>
          cases ho with
          | none hno =>
            obtain ⟨t, ts, ht⟩ := hy
            exact absurd (hno _ _ ht) (by simp)
      obtain ⟨l', hx, rfl⟩ := hhit
      refine ⟨CReach.acquire h1 ha, ?_, ?_⟩
      · refine List.nodup_cons.2 ⟨fun hin => h3 _ hin ⟨s, l', hx⟩, h2⟩
      · intro x hxl
        rintro ⟨t, ts, ht⟩
        dsimp only [upd] at ht
        split at ht
        · have := hok.short _ _ hx
          simp at this
          subst this
          simp at ht
        · rename_i hne
          rcases List.mem_cons.1 hxl with hh | hh
          · exact hne hh
          · exact h3 x hh ⟨t, ts, ht⟩
    | restrict x v _ ih =>
      obtain ⟨h1, h2, h3⟩ := ih
      refine ⟨CReach.restrict x v h1, h2, ?_⟩
      intro z hz
      rintro ⟨t, ts, ht⟩
      dsimp only [Cache.restrict, upd] at ht
      split at ht
      · simp at ht
      · exact h3 z hz ⟨t, ts, ht⟩
    | release _ ih => exact ⟨CReach.release ih.1, ih.2.1, ih.2.2⟩
  exact main.2.1

end Verif.Work
