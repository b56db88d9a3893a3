import Verif.Feed.LoopModel

/-! # The event loop and its filters (C104) -/

namespace Verif.Feed.Loop

/-- What a filter's goroutine has in hand. -/
def hand : G → List Nat
  | .hold e => [e]
  | _ => []

/-- What the loop is about to give a filter. -/
def pend (l : Option (Nat × List Nat)) (i : Nat) : List Nat :=
  match l with
  | none => []
  | some (e, r) => if i ∈ r then [e] else []

/-- A filter that was made and that nobody has begun to uninstall. -/
def LSt.alive (s : LSt) (i : Nat) : Prop :=
  i ∈ s.ids ∧ s.ru i = .no ∧ s.closed i = false ∧ ∀ todo, s.tl ≠ .drain i todo ∧ s.tl ≠ .wait i todo

structure Inv (wants : Nat → Nat → Bool) (s : LSt) : Prop where
  queue : s.taken ++ s.queue = s.pushed
  bound : s.queue.length ≤ 100
  fresh : ∀ i : Nat, i ∉ s.ids → s.g i = .no ∧ s.inst i = false ∧ s.closed i = false ∧ s.ru i = .no ∧ s.polled i = [] ∧ s.buf i = [] ∧ s.inMap i = false
  made : ∀ i : Nat, i ∈ s.ids → s.g i ≠ .no
  loop : ∀ (e : Nat) (r : List Nat), s.loop = some (e, r) → r.Nodup ∧ ∀ i ∈ r, s.inst i = true
  open_ : ∀ i : Nat, s.inst i = true → i ∈ s.ids ∧ s.closed i = false
  inst : ∀ i : Nat, i ∈ s.ids → s.closed i = false → s.inst i = true
  done : ∀ i : Nat, s.g i = .done → s.closed i = true
  born : ∀ i : Nat, s.g i = .born → s.polled i = [] ∧ s.buf i = []
  inMap : ∀ i : Nat, s.alive i → (s.g i = .wait ∨ ∃ e, s.g i = .hold e) → s.inMap i = true
  account : ∀ i : Nat, s.alive i → s.polled i ++ s.buf i ++ hand (s.g i) ++ pend s.loop i = (s.taken.drop (s.since i)).filter (wants i)
  since : ∀ i : Nat, i ∈ s.ids → s.since i ≤ s.taken.length
  req : ∀ i : Nat, i ∈ s.uq → i ∈ s.ids
  inm : ∀ i : Nat, s.inMap i = true → i ∈ s.ids
  tl : ∀ (i : Nat) (todo : List Nat), s.tl = .drain i todo ∨ s.tl = .wait i todo → i ∈ s.ids
  scan : ∀ todo : List Nat, (∀ i, s.tl = .drain i todo ∨ s.tl = .wait i todo → ∀ j ∈ todo, j ∈ s.ids) ∧ (s.tl = .scan todo → ∀ j ∈ todo, j ∈ s.ids)
  ru : ∀ i : Nat, s.ru i ≠ .no → i ∈ s.ids

theorem upd_same {X : Type} (f : Nat → X) (i : Nat) (x : X) : upd f i x i = x := by simp [upd]
theorem upd_other {X : Type} (f : Nat → X) (i j : Nat) (x : X) (h : j ≠ i) : upd f i x j = f j := by simp [upd, h]

theorem inv_start (wants : Nat → Nat → Bool) : Inv wants {} := by
  constructor <;> simp [LSt.alive, pend, hand]

theorem inv_inner (wants : Nat → Nat → Bool) (s s' : LSt) (hi : Inv wants s) (h : Inner wants s s') : Inv wants s' := by
  cases h with
  | take e q r hl hq hn hr =>
    refine { hi with queue := ?_, bound := ?_, loop := ?_, account := ?_, since := ?_ }
    · rw [← hi.queue, hq]; simp
    · have := hi.bound; rw [hq] at this; simp at this ⊢; omega
    · intro e' r' h; simp only [Option.some.injEq, Prod.mk.injEq] at h; obtain ⟨rfl, rfl⟩ := h
      exact ⟨hn, fun i hi' => ((hr i).mp hi').1⟩
    · intro i ha
      have hold := hi.account i ha
      have hs := hi.since i ha.1
      have hinst := hi.inst i ha.1 ha.2.2.1
      simp only [hl, pend, List.append_nil] at hold
      dsimp only [pend]
      rw [List.drop_append_of_le_length hs, List.filter_append, ← hold]
      congr 1
      by_cases hw : wants i e = true
      · simp [hw, (hr i).mpr ⟨hinst, hw⟩]
      · have : i ∉ r := fun h => hw ((hr i).mp h).2
        simp [hw, this]
    · intro i h; have := hi.since i h; simp; omega
  | hand e i r hl hg =>
    have hlp := hi.loop e (i :: r) hl
    have hnr : i ∉ r := (List.nodup_cons.mp hlp.1).1
    refine { hi with fresh := ?_, made := ?_, loop := ?_, done := ?_, born := ?_, inMap := ?_, account := ?_ }
    · intro j hj
      have := hi.fresh j hj
      have hne : j ≠ i := by rintro rfl; rw [hg] at this; exact absurd this.1 (by simp)
      simpa [upd_other _ _ _ _ hne] using this
    · intro j hj
      by_cases hne : j = i
      · subst hne; simp [upd_same]
      · simpa [upd_other _ _ _ _ hne] using hi.made j hj
    · intro e' r' h; simp only [Option.some.injEq, Prod.mk.injEq] at h; obtain ⟨rfl, rfl⟩ := h
      exact ⟨(List.nodup_cons.mp hlp.1).2, fun k hk => hlp.2 k (by simp [hk])⟩
    · intro j hj
      by_cases hne : j = i
      · subst hne; simp [upd_same] at hj
      · exact hi.done j (by simpa [upd_other _ _ _ _ hne] using hj)
    · intro j hj
      by_cases hne : j = i
      · subst hne; simp [upd_same] at hj
      · exact hi.born j (by simpa [upd_other _ _ _ _ hne] using hj)
    · intro j ha hj
      by_cases hne : j = i
      · subst hne; exact hi.inMap j ha (.inl hg)
      · exact hi.inMap j ha (by simpa [upd_other _ _ _ _ hne] using hj)
    · intro j ha
      have hold := hi.account j ha
      by_cases hne : j = i
      · subst hne
        rw [hl, hg] at hold
        simp only [upd_same, hand, pend, hnr, if_false, List.append_nil]
        simpa [hand, pend] using hold
      · rw [hl] at hold
        simpa [upd_other _ _ _ _ hne, pend, hne] using hold
  | drop e i r hl hd =>
    have hlp := hi.loop e (i :: r) hl
    refine { hi with loop := ?_, account := ?_ }
    · intro e' r' h; simp only [Option.some.injEq, Prod.mk.injEq] at h; obtain ⟨rfl, rfl⟩ := h
      exact ⟨(List.nodup_cons.mp hlp.1).2, fun k hk => hlp.2 k (by simp [hk])⟩
    · intro j ha
      have hold := hi.account j ha
      have hne : j ≠ i := by
        rintro rfl
        rcases hd with ⟨todo, h⟩ | h
        · exact (ha.2.2.2 todo).1 h
        · rw [ha.2.1] at h; exact absurd h (by simp)
      rw [hl] at hold
      simpa [pend, hne] using hold
  | next e hl =>
    refine { hi with loop := ?_, account := ?_ }
    · intro e' r' h; simp at h
    · intro j ha
      have hold := hi.account j ha
      rw [hl] at hold
      simpa [pend] using hold
  | uninstall i q hl hq =>
    have him : i ∈ s.ids := hi.req i (by rw [hq]; simp)
    refine { hi with fresh := ?_, loop := ?_, open_ := ?_, inst := ?_, done := ?_, inMap := ?_, account := ?_, req := ?_ }
    · intro j hj
      have := hi.fresh j hj
      have hne : j ≠ i := by rintro rfl; exact hj him
      simpa [upd_other _ _ _ _ hne] using this
    · intro e r h; simp only at h; rw [hl] at h; exact absurd h (by simp)
    · intro j hj
      by_cases hne : j = i
      · subst hne; simp [upd_same] at hj
      · have := hi.open_ j (by simpa [upd_other _ _ _ _ hne] using hj)
        simpa [upd_other _ _ _ _ hne] using this
    · intro j hj hc
      by_cases hne : j = i
      · subst hne; simp [upd_same] at hc
      · simpa [upd_other _ _ _ _ hne] using hi.inst j hj (by simpa [upd_other _ _ _ _ hne] using hc)
    · intro j hj
      by_cases hne : j = i
      · subst hne; simp [upd_same]
      · simpa [upd_other _ _ _ _ hne] using hi.done j hj
    · intro j ha hj
      have hne : j ≠ i := by rintro rfl; have := ha.2.2.1; simp [upd_same] at this
      refine hi.inMap j ⟨ha.1, ha.2.1, ?_, ha.2.2.2⟩ hj
      simpa [upd_other _ _ _ _ hne] using ha.2.2.1
    · intro j ha
      have hne : j ≠ i := by rintro rfl; have := ha.2.2.1; simp [upd_same] at this
      refine hi.account j ⟨ha.1, ha.2.1, ?_, ha.2.2.2⟩
      simpa [upd_other _ _ _ _ hne] using ha.2.2.1
    · intro j hj; exact hi.req j (by rw [hq]; simp [hj])
  | append i e hg hf =>
    refine { hi with fresh := ?_, made := ?_, done := ?_, born := ?_, inMap := ?_, account := ?_ }
    · intro j hj
      have := hi.fresh j hj
      have hne : j ≠ i := by rintro rfl; rw [hg] at this; exact absurd this.1 (by simp)
      simpa [upd_other _ _ _ _ hne] using this
    · intro j hj
      by_cases hne : j = i
      · subst hne; simp [upd_same]
      · simpa [upd_other _ _ _ _ hne] using hi.made j hj
    · intro j hj
      by_cases hne : j = i
      · subst hne; simp [upd_same] at hj
      · exact hi.done j (by simpa [upd_other _ _ _ _ hne] using hj)
    · intro j hj
      by_cases hne : j = i
      · subst hne; simp [upd_same] at hj
      · simpa [upd_other _ _ _ _ hne] using hi.born j (by simpa [upd_other _ _ _ _ hne] using hj)
    · intro j ha hj
      by_cases hne : j = i
      · subst hne; exact hi.inMap j ha (.inr ⟨e, hg⟩)
      · exact hi.inMap j ha (by simpa [upd_other _ _ _ _ hne] using hj)
    · intro j ha
      have hold := hi.account j ha
      by_cases hne : j = i
      · subst hne
        have hm := hi.inMap j ha (.inr ⟨e, hg⟩)
        rw [hg] at hold
        simp only [upd_same, hm, if_true, hand, List.append_nil]
        simpa [hand] using hold
      · simpa [upd_other _ _ _ _ hne] using hold
  | quit i hg hc hf =>
    refine { hi with fresh := ?_, made := ?_, done := ?_, born := ?_, inMap := ?_, account := ?_, inm := ?_ }
    · intro j hj
      have := hi.fresh j hj
      have hne : j ≠ i := by rintro rfl; rw [hg] at this; exact absurd this.1 (by simp)
      simpa [upd_other _ _ _ _ hne] using this
    · intro j hj
      by_cases hne : j = i
      · subst hne; simp [upd_same]
      · simpa [upd_other _ _ _ _ hne] using hi.made j hj
    · intro j hj
      by_cases hne : j = i
      · subst hne; exact hc
      · exact hi.done j (by simpa [upd_other _ _ _ _ hne] using hj)
    · intro j hj
      by_cases hne : j = i
      · subst hne; simp [upd_same] at hj
      · simpa [upd_other _ _ _ _ hne] using hi.born j (by simpa [upd_other _ _ _ _ hne] using hj)
    · intro j ha hj
      have hne : j ≠ i := by rintro rfl; have := ha.2.2.1; simp [hc] at this
      have := hi.inMap j ha (by simpa [upd_other _ _ _ _ hne] using hj)
      simpa [upd_other _ _ _ _ hne] using this
    · intro j ha
      have hne : j ≠ i := by rintro rfl; have := ha.2.2.1; simp [hc] at this
      simpa [upd_other _ _ _ _ hne] using hi.account j ha
    · intro j hj
      by_cases hne : j = i
      · subst hne; simp [upd_same] at hj
      · exact hi.inm j (by simpa [upd_other _ _ _ _ hne] using hj)
  | enter i hg hf =>
    have him : i ∈ s.ids := by
      by_contra hc
      have := (hi.fresh i hc).1
      rw [hg] at this; exact absurd this (by simp)
    refine { hi with fresh := ?_, made := ?_, done := ?_, born := ?_, inMap := ?_, account := ?_, inm := ?_ }
    · intro j hj
      have := hi.fresh j hj
      have hne : j ≠ i := by rintro rfl; exact hj him
      simpa [upd_other _ _ _ _ hne] using this
    · intro j hj
      by_cases hne : j = i
      · subst hne; simp [upd_same]
      · simpa [upd_other _ _ _ _ hne] using hi.made j hj
    · intro j hj
      by_cases hne : j = i
      · subst hne; simp [upd_same] at hj
      · exact hi.done j (by simpa [upd_other _ _ _ _ hne] using hj)
    · intro j hj
      by_cases hne : j = i
      · subst hne; simp [upd_same] at hj
      · simpa [upd_other _ _ _ _ hne] using hi.born j (by simpa [upd_other _ _ _ _ hne] using hj)
    · intro j ha hj
      by_cases hne : j = i
      · subst hne; simp [upd_same]
      · have := hi.inMap j ha (by simpa [upd_other _ _ _ _ hne] using hj)
        simpa [upd_other _ _ _ _ hne] using this
    · intro j ha
      have hold := hi.account j ha
      by_cases hne : j = i
      · subst hne
        rw [hg] at hold
        simpa [upd_same, hand] using hold
      · simpa [upd_other _ _ _ _ hne] using hold
    · intro j hj
      by_cases hne : j = i
      · subst hne; exact him
      · exact hi.inm j (by simpa [upd_other _ _ _ _ hne] using hj)
  | ask i hr hu =>
    have him : i ∈ s.ids := hi.ru i (by rw [hr]; simp)
    have halive : ∀ j, LSt.alive { s with uq := s.uq ++ [i], ru := upd s.ru i .wait } j → s.alive j := by
      intro j ha
      have hne : j ≠ i := by rintro rfl; have := ha.2.1; simp [upd_same] at this
      exact ⟨ha.1, by simpa [upd_other _ _ _ _ hne] using ha.2.1, ha.2.2.1, ha.2.2.2⟩
    refine { hi with fresh := ?_, inMap := ?_, account := ?_, req := ?_, ru := ?_ }
    · intro j hj
      have := hi.fresh j hj
      have hne : j ≠ i := by rintro rfl; exact hj him
      simpa [upd_other _ _ _ _ hne] using this
    · intro j ha hj; exact hi.inMap j (halive j ha) hj
    · intro j ha; exact hi.account j (halive j ha)
    · intro j hj
      rcases List.mem_append.mp hj with h | h
      · exact hi.req j h
      · simp at h; subst h; exact him
    · intro j hj
      by_cases hne : j = i
      · subst hne; exact him
      · exact hi.ru j (by simpa [upd_other _ _ _ _ hne] using hj)
  | asked i hr hc =>
    have him : i ∈ s.ids := hi.ru i (by rw [hr]; simp)
    have halive : ∀ j, LSt.alive { s with ru := upd s.ru i .fin } j → s.alive j := by
      intro j ha
      have hne : j ≠ i := by rintro rfl; have := ha.2.1; simp [upd_same] at this
      exact ⟨ha.1, by simpa [upd_other _ _ _ _ hne] using ha.2.1, ha.2.2.1, ha.2.2.2⟩
    refine { hi with fresh := ?_, inMap := ?_, account := ?_, ru := ?_ }
    · intro j hj
      have := hi.fresh j hj
      have hne : j ≠ i := by rintro rfl; exact hj him
      simpa [upd_other _ _ _ _ hne] using this
    · intro j ha hj; exact hi.inMap j (halive j ha) hj
    · intro j ha; exact hi.account j (halive j ha)
    · intro j hj
      by_cases hne : j = i
      · subst hne; exact him
      · exact hi.ru j (by simpa [upd_other _ _ _ _ hne] using hj)
  | expire i todo ht =>
    have halive : ∀ j, LSt.alive { s with tl := .drain i todo } j → s.alive j := by
      intro j ha
      exact ⟨ha.1, ha.2.1, ha.2.2.1, fun t => by rw [ht]; simp⟩
    have hsc := (hi.scan (i :: todo)).2 ht
    refine { hi with inMap := ?_, account := ?_, tl := ?_, scan := ?_ }
    · intro j ha hj; exact hi.inMap j (halive j ha) hj
    · intro j ha; exact hi.account j (halive j ha)
    · intro j t h
      have : j = i := by rcases h with h | h <;> simp at h; exact h.1.symm
      subst this; exact hsc j (by simp)
    · intro t
      refine ⟨fun j h => ?_, fun h => by simp at h⟩
      have : t = todo := by rcases h with h | h <;> simp at h; exact h.2.symm
      subst this
      exact fun k hk => hsc k (by simp [hk])
  | expireAsk i todo ht hu =>
    have hid := hi.tl i todo (.inl ht)
    have halive : ∀ j, LSt.alive { s with uq := s.uq ++ [i], tl := .wait i todo } j → s.alive j := by
      intro j ha
      refine ⟨ha.1, ha.2.1, ha.2.2.1, fun t => ?_⟩
      rw [ht]
      have := (ha.2.2.2 t).2
      simp at this ⊢
      exact this
    have hsc := (hi.scan todo).1 i (.inl ht)
    refine { hi with inMap := ?_, account := ?_, req := ?_, tl := ?_, scan := ?_ }
    · intro j ha hj; exact hi.inMap j (halive j ha) hj
    · intro j ha; exact hi.account j (halive j ha)
    · intro j hj
      rcases List.mem_append.mp hj with h | h
      · exact hi.req j h
      · simp at h; subst h; exact hid
    · intro j t h
      have : j = i := by rcases h with h | h <;> simp at h; exact h.1.symm
      subst this; exact hid
    · intro t
      refine ⟨fun j h => ?_, fun h => by simp at h⟩
      have : t = todo := by rcases h with h | h <;> simp at h; exact h.2.symm
      subst this
      exact hsc
  | expired i todo ht hc =>
    have halive : ∀ j, LSt.alive { s with inMap := upd s.inMap i false, tl := .scan todo } j → s.alive j ∧ j ≠ i := by
      intro j ha
      have hne : j ≠ i := by rintro rfl; have := ha.2.2.1; simp [hc] at this
      refine ⟨⟨ha.1, ha.2.1, ha.2.2.1, fun t => ?_⟩, hne⟩
      rw [ht]
      simp [Ne.symm hne]
    have hsc := (hi.scan todo).1 i (.inr ht)
    refine { hi with fresh := ?_, inMap := ?_, account := ?_, inm := ?_, tl := ?_, scan := ?_ }
    · intro j hj
      have := hi.fresh j hj
      by_cases hne : j = i
      · subst hne; exact ⟨this.1, this.2.1, this.2.2.1, this.2.2.2.1, this.2.2.2.2.1, this.2.2.2.2.2.1, by simp [upd_same]⟩
      · simpa [upd_other _ _ _ _ hne] using this
    · intro j ha hj
      have h1 := halive j ha
      have := hi.inMap j h1.1 hj
      simpa [upd_other _ _ _ _ h1.2] using this
    · intro j ha; exact hi.account j (halive j ha).1
    · intro j hj
      by_cases hne : j = i
      · subst hne; simp [upd_same] at hj
      · exact hi.inm j (by simpa [upd_other _ _ _ _ hne] using hj)
    · intro j t h; rcases h with h | h <;> simp at h
    · intro t
      refine ⟨fun j h => by rcases h with h | h <;> simp at h, fun h => ?_⟩
      simp at h
      subst h
      exact hsc
  | unlock ht =>
    have halive : ∀ j, LSt.alive { s with tl := .idle } j → s.alive j := by
      intro j ha
      exact ⟨ha.1, ha.2.1, ha.2.2.1, fun t => by rw [ht]; simp⟩
    refine { hi with inMap := ?_, account := ?_, tl := ?_, scan := ?_ }
    · intro j ha hj; exact hi.inMap j (halive j ha) hj
    · intro j ha; exact hi.account j (halive j ha)
    · intro j t h; rcases h with h | h <;> simp at h
    · intro t
      exact ⟨fun j h => by rcases h with h | h <;> simp at h, fun h => by simp at h⟩

theorem inv_outer (wants : Nat → Nat → Bool) (s s' : LSt) (hi : Inv wants s) (h : Outer s s') : Inv wants s' := by
  cases h with
  | push e hq =>
    refine { hi with queue := ?_, bound := ?_ }
    · rw [← hi.queue]; simp
    · simp; omega
  | create i hl hid =>
    have hfr := hi.fresh i hid
    have halive : ∀ j, j ≠ i → LSt.alive { s with ids := s.ids ++ [i], inst := upd s.inst i true, g := upd s.g i .born, since := upd s.since i s.taken.length } j → s.alive j := by
      intro j hne ha
      refine ⟨?_, ha.2⟩
      have := ha.1
      simpa [hne] using this
    refine { hi with fresh := ?_, made := ?_, loop := ?_, open_ := ?_, inst := ?_, done := ?_, born := ?_, inMap := ?_, account := ?_, since := ?_, req := ?_, inm := ?_, tl := ?_, scan := ?_, ru := ?_ }
    · intro j hj
      have hj' : j ∉ s.ids ∧ j ≠ i := by simpa using hj
      simpa [upd_other _ _ _ _ hj'.2] using hi.fresh j hj'.1
    · intro j hj
      by_cases hne : j = i
      · subst hne; simp [upd_same]
      · have : j ∈ s.ids := by simpa [hne] using hj
        simpa [upd_other _ _ _ _ hne] using hi.made j this
    · intro e r h; simp only at h; rw [hl] at h; exact absurd h (by simp)
    · intro j hj
      by_cases hne : j = i
      · subst hne; exact ⟨by simp, hfr.2.2.1⟩
      · have := hi.open_ j (by simpa [upd_other _ _ _ _ hne] using hj)
        exact ⟨by simp [this.1], this.2⟩
    · intro j hj hc
      by_cases hne : j = i
      · subst hne; simp [upd_same]
      · have : j ∈ s.ids := by simpa [hne] using hj
        simpa [upd_other _ _ _ _ hne] using hi.inst j this hc
    · intro j hj
      by_cases hne : j = i
      · subst hne; simp [upd_same] at hj
      · exact hi.done j (by simpa [upd_other _ _ _ _ hne] using hj)
    · intro j hj
      by_cases hne : j = i
      · subst hne; exact ⟨hfr.2.2.2.2.1, hfr.2.2.2.2.2.1⟩
      · exact hi.born j (by simpa [upd_other _ _ _ _ hne] using hj)
    · intro j ha hj
      by_cases hne : j = i
      · subst hne; simp [upd_same] at hj
      · exact hi.inMap j (halive j hne ha) (by simpa [upd_other _ _ _ _ hne] using hj)
    · intro j ha
      by_cases hne : j = i
      · subst hne
        simp [upd_same, hfr.2.2.2.2.1, hfr.2.2.2.2.2.1, hand, hl, pend]
      · simpa [upd_other _ _ _ _ hne] using hi.account j (halive j hne ha)
    · intro j hj
      by_cases hne : j = i
      · subst hne; simp [upd_same]
      · have : j ∈ s.ids := by simpa [hne] using hj
        simpa [upd_other _ _ _ _ hne] using hi.since j this
    · intro j hj; simp [hi.req j hj]
    · intro j hj; simp [hi.inm j hj]
    · intro j t h; simp [hi.tl j t h]
    · intro t
      exact ⟨fun j h k hk => by simp [(hi.scan t).1 j h k hk], fun h k hk => by simp [(hi.scan t).2 h k hk]⟩
    · intro j hj; simp [hi.ru j hj]
  | poll i hf hm =>
    have him := hi.inm i hm
    refine { hi with fresh := ?_, born := ?_, account := ?_ }
    · intro j hj
      have := hi.fresh j hj
      have hne : j ≠ i := by rintro rfl; exact hj him
      simpa [upd_other _ _ _ _ hne] using this
    · intro j hj
      have := hi.born j hj
      by_cases hne : j = i
      · subst hne; simp [upd_same, this]
      · simpa [upd_other _ _ _ _ hne] using this
    · intro j ha
      have hold := hi.account j ha
      by_cases hne : j = i
      · subst hne; simpa [upd_same] using hold
      · simpa [upd_other _ _ _ _ hne] using hold
  | uninstall i hf hm =>
    have him := hi.inm i hm
    have halive : ∀ j, LSt.alive { s with inMap := upd s.inMap i false, ru := upd s.ru i .drain } j → s.alive j ∧ j ≠ i := by
      intro j ha
      have hne : j ≠ i := by rintro rfl; have := ha.2.1; simp [upd_same] at this
      exact ⟨⟨ha.1, by simpa [upd_other _ _ _ _ hne] using ha.2.1, ha.2.2.1, ha.2.2.2⟩, hne⟩
    refine { hi with fresh := ?_, inMap := ?_, account := ?_, inm := ?_, ru := ?_ }
    · intro j hj
      have := hi.fresh j hj
      have hne : j ≠ i := by rintro rfl; exact hj him
      simpa [upd_other _ _ _ _ hne] using this
    · intro j ha hj
      have h1 := halive j ha
      simpa [upd_other _ _ _ _ h1.2] using hi.inMap j h1.1 hj
    · intro j ha; exact hi.account j (halive j ha).1
    · intro j hj
      by_cases hne : j = i
      · subst hne; simp [upd_same] at hj
      · exact hi.inm j (by simpa [upd_other _ _ _ _ hne] using hj)
    · intro j hj
      by_cases hne : j = i
      · subst hne; exact him
      · exact hi.ru j (by simpa [upd_other _ _ _ _ hne] using hj)
  | tick todo hf ht hn =>
    have halive : ∀ j, LSt.alive { s with tl := .scan todo } j → s.alive j := by
      intro j ha
      have hf' : s.tl = .idle := hf
      exact ⟨ha.1, ha.2.1, ha.2.2.1, fun t => by rw [hf']; simp⟩
    refine { hi with inMap := ?_, account := ?_, tl := ?_, scan := ?_ }
    · intro j ha hj; exact hi.inMap j (halive j ha) hj
    · intro j ha; exact hi.account j (halive j ha)
    · intro j t h; rcases h with h | h <;> simp at h
    · intro t
      refine ⟨fun j h => by rcases h with h | h <;> simp at h, fun h => ?_⟩
      simp at h
      subst h
      exact fun j hj => hi.inm j (ht j hj)

theorem inv_run (wants : Nat → Nat → Bool) (s : LSt) (h : Run wants {} s) : Inv wants s := by
  induction h with
  | start => exact inv_start wants
  | inner s s' _ hs ih => exact inv_inner wants s s' ih hs
  | outer s s' _ hs ih => exact inv_outer wants s s' ih hs

/-- **C104 (part).** What the clients of a filter got, what it has collected, what its goroutine has in hand and what the loop is about to give it are, in this order, exactly the events that concern it since it was made — none lost, none twice, none out of order —
until somebody begins to uninstall it. And what the loop has taken and what is in the queue is all that came. -/
theorem filter_exact (wants : Nat → Nat → Bool) (s : LSt) (h : Run wants {} s) (i : Nat) (ha : s.alive i) :
    s.polled i ++ s.buf i ++ hand (s.g i) ++ pend s.loop i = (s.taken.drop (s.since i)).filter (wants i) ∧ s.taken ++ s.queue = s.pushed :=
  ⟨(inv_run wants s h).account i ha, (inv_run wants s h).queue⟩

/-- Nothing is under way. -/
def Quiet (s : LSt) : Prop := s.queue = [] ∧ s.loop = none ∧ ∀ i e, s.g i ≠ .hold e

/-- When nothing is under way, a client who gets the changes of its filter has, with what it got before, all events that concern it. -/
theorem filter_complete (wants : Nat → Nat → Bool) (s : LSt) (h : Run wants {} s) (i : Nat) (ha : s.alive i) (hq : Quiet s) :
    s.polled i ++ s.buf i = (s.pushed.drop (s.since i)).filter (wants i) := by
  have h1 := filter_exact wants s h i ha
  rw [hq.1, List.append_nil] at h1
  rw [← h1.2, ← h1.1, hq.2.1]
  have : hand (s.g i) = [] := by
    cases hg : s.g i with
    | hold e => exact absurd hg (hq.2.2 i e)
    | _ => rfl
  simp [this, pend]

/-- **C104 (part).** While the loop that looks for expired filters is not at work, the event loop and the filters never block each other: the node can always take a step by itself, or nothing is under way. -/
theorem no_deadlock_partial (wants : Nat → Nat → Bool) (s : LSt) (h : Run wants {} s) (hf : s.tl = .idle) : (∃ s', Inner wants s s') ∨ Quiet s := by
  have hi := inv_run wants s h
  by_cases hh : ∃ i e, s.g i = .hold e
  · obtain ⟨i, e, hg⟩ := hh
    exact .inl ⟨_, .append s i e hg hf⟩
  · have hno : ∀ i e, s.g i ≠ .hold e := fun i e hg => hh ⟨i, e, hg⟩
    cases hl : s.loop with
    | none =>
      cases hq : s.queue with
      | nil => exact .inr ⟨hq, hl, hno⟩
      | cons e q =>
        have hnd : ((s.ids.filter fun i => s.inst i && wants i e).dedup).Nodup := List.nodup_dedup _
        refine .inl ⟨_, .take s e q _ hl hq hnd ?_⟩
        intro i
        simp only [List.mem_dedup, List.mem_filter, Bool.and_eq_true]
        exact ⟨fun h => h.2, fun h => ⟨(hi.open_ i h.1).1, h⟩⟩
    | some p =>
      obtain ⟨e, r⟩ := p
      cases r with
      | nil => exact .inl ⟨_, .next s e hl⟩
      | cons i r =>
        have hin := (hi.loop e (i :: r) hl).2 i (by simp)
        have hop := hi.open_ i hin
        cases hg : s.g i with
        | no => exact absurd hg (hi.made i hop.1)
        | born => exact .inl ⟨_, .enter s i hg hf⟩
        | wait => exact .inl ⟨_, .hand s e i r hl hg⟩
        | hold e' => exact absurd hg (hno i e')
        | done => have := hi.done i hg; rw [hop.2] at this; exact absurd this (by simp)

/-- The event loop waits for a filter whose goroutine waits for the lock, and the lock is with the loop that looks for expired filters, which waits for the event loop. -/
structure Stuck (s : LSt) : Prop where
  loop : ∃ e i r, s.loop = some (e, i :: r) ∧ (∃ e', s.g i = .hold e') ∧ s.ru i = .no ∧ ∃ j todo, s.tl = .wait j todo ∧ s.closed j = false

theorem stuck_inner (wants : Nat → Nat → Bool) (s s' : LSt) (hs : Stuck s) (h : Inner wants s s') : Stuck s' ∧ s'.taken = s.taken := by
  obtain ⟨e, i, r, hl, ⟨e', hg⟩, hru, j, todo, ht, hc⟩ := hs.loop
  cases h with
  | take e q r h1 => rw [hl] at h1; exact absurd h1 (by simp)
  | hand e k r' h1 h2 =>
    rw [hl] at h1; simp only [Option.some.injEq, Prod.mk.injEq, List.cons.injEq] at h1
    rw [← h1.2.1, hg] at h2; exact absurd h2 (by simp)
  | drop e k r' h1 h2 =>
    rw [hl] at h1; simp only [Option.some.injEq, Prod.mk.injEq, List.cons.injEq] at h1
    rcases h2 with ⟨t, h2⟩ | h2
    · rw [ht] at h2; exact absurd h2 (by simp)
    · rw [← h1.2.1, hru] at h2; exact absurd h2 (by simp)
  | next e h1 => rw [hl] at h1; exact absurd h1 (by simp)
  | uninstall k q h1 => rw [hl] at h1; exact absurd h1 (by simp)
  | append k e h1 hf => have : s.tl = .idle := hf; rw [ht] at this; exact absurd this (by simp)
  | quit k h1 h2 hf => have : s.tl = .idle := hf; rw [ht] at this; exact absurd this (by simp)
  | enter k h1 hf => have : s.tl = .idle := hf; rw [ht] at this; exact absurd this (by simp)
  | ask k hk hu =>
    have hne : i ≠ k := by rintro rfl; rw [hru] at hk; exact absurd hk (by simp)
    exact ⟨⟨e, i, r, hl, ⟨e', hg⟩, by simpa [upd_other _ _ _ _ hne] using hru, j, todo, ht, hc⟩, rfl⟩
  | asked k hk hu =>
    have hne : i ≠ k := by rintro rfl; rw [hru] at hk; exact absurd hk (by simp)
    exact ⟨⟨e, i, r, hl, ⟨e', hg⟩, by simpa [upd_other _ _ _ _ hne] using hru, j, todo, ht, hc⟩, rfl⟩
  | expire k t h1 => rw [ht] at h1; exact absurd h1 (by simp)
  | expireAsk k t h1 => rw [ht] at h1; exact absurd h1 (by simp)
  | expired k t h1 h2 =>
    rw [ht] at h1; simp only [TL.wait.injEq] at h1
    rw [← h1.1, hc] at h2; exact absurd h2 (by simp)
  | unlock h1 => rw [ht] at h1; exact absurd h1 (by simp)

theorem stuck_outer (s s' : LSt) (hs : Stuck s) (h : Outer s s') : Stuck s' ∧ s'.taken = s.taken := by
  obtain ⟨e, i, r, hl, ⟨e', hg⟩, hru, j, todo, ht, hc⟩ := hs.loop
  cases h with
  | push e hq => exact ⟨⟨_, i, r, hl, ⟨e', hg⟩, hru, j, todo, ht, hc⟩, rfl⟩
  | create k h1 => rw [hl] at h1; exact absurd h1 (by simp)
  | poll k hf => have : s.tl = .idle := hf; rw [ht] at this; exact absurd this (by simp)
  | uninstall k hf => have : s.tl = .idle := hf; rw [ht] at this; exact absurd this (by simp)
  | tick t hf => have : s.tl = .idle := hf; rw [ht] at this; exact absurd this (by simp)

/-- Once stuck, the loop takes no event any more, whatever happens. -/
theorem stuck_forever (wants : Nat → Nat → Bool) (s s' : LSt) (hs : Stuck s) (h : Run wants s s') : Stuck s' ∧ s'.taken = s.taken := by
  induction h with
  | start => exact ⟨hs, rfl⟩
  | inner t t' _ ht ih =>
    have := stuck_inner wants t t' ih.1 ht
    exact ⟨this.1, this.2.trans ih.2⟩
  | outer t t' _ ht ih =>
    have := stuck_outer t t' ih.1 ht
    exact ⟨this.1, this.2.trans ih.2⟩

theorem run_trans (wants : Nat → Nat → Bool) (a b c : LSt) (h1 : Run wants a b) (h2 : Run wants b c) : Run wants a c := by
  induction h2 with
  | start => exact h1
  | inner s s' _ hs ih => exact .inner s s' ih hs
  | outer s s' _ hs ih => exact .outer s s' ih hs

/-- Once stuck, the ledger can put at most 100 events into the queue beyond those that the loop has taken; then it waits for ever, in the middle of an insertion. -/
theorem stuck_stops_ledger (wants : Nat → Nat → Bool) (s s' : LSt) (h0 : Run wants {} s) (hs : Stuck s) (h : Run wants s s') :
    s'.pushed.length ≤ s.taken.length + 100 := by
  have hi := inv_run wants s' (run_trans wants _ _ _ h0 h)
  have := (stuck_forever wants s s' hs h).2
  rw [← hi.queue, List.length_append, this]
  have := hi.bound
  omega

end Verif.Feed.Loop
