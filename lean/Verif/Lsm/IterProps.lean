import Verif.Lsm.IterSpec
import Verif.Lsm.Props

/-! # The iterator is a cursor over a fixed map (C118) -/

namespace Verif.Lsm

open Spec

variable {K V : Type} [LinearOrder K]

/-- The map that a reader at a number sees in a sorted list of entries. -/
def seen (es : List (Entry K V)) (s : Nat) (k : K) : Option V := (look es k s).bind (·.val)

theorem seen_some {es : List (Entry K V)} (hs : Sorted es) {s : Nat} {k : K} {v : V}
    (h : seen es s k = some v) : ∃ e ∈ es, e.key = k ∧ e.seq ≤ s ∧ e.val = some v := by
  unfold seen at h
  cases hl : look es k s with
  | none => simp [hl] at h
  | some e =>
    obtain ⟨h1, h2, h3, _⟩ := (look_right hs k s).1 e hl
    exact ⟨e, h1, h2, h3, by simpa [hl] using h⟩

/-- The newest entry of its key decides. -/
theorem seen_of {es : List (Entry K V)} (hs : Sorted es) {s : Nat} {e : Entry K V} (he : e ∈ es)
    (hq : e.seq ≤ s) (hn : ∀ x ∈ es, x.key = e.key → x.seq ≤ s → x.seq ≤ e.seq) :
    seen es s e.key = e.val := by
  unfold seen
  cases hl : look es e.key s with
  | none =>
    have := (look_right hs e.key s).2 hl e he rfl
    omega
  | some x =>
    obtain ⟨h1, h2, h3, h4⟩ := (look_right hs e.key s).1 x hl
    have h5 := h4 e he rfl hq
    have h6 := hn x h1 h2 h3
    have := sorted_seq_inj hs h1 he h2 (by omega)
    subst this
    rfl

theorem sorted_before {es l r : List (Entry K V)} (hs : Sorted es) (he : es = l ++ r)
    {x y : Entry K V} (hx : x ∈ l) (hy : y ∈ r) : prior x y = true := by
  subst he
  exact (List.pairwise_append.1 hs).2.2 x hx y hy

theorem prior_key_le {x y : Entry K V} (h : prior x y = true) : x.key ≤ y.key := by
  rw [prior_iff] at h
  grind

/-- The outcome of the loop of `next`. -/
def NextRes (es : List (Entry K V)) (s : Nat) (D : K → Prop) :
    Option (List (Entry K V) × Entry K V × List (Entry K V)) → Prop
  | some (l', c', r') => es = l'.reverse ++ c' :: r' ∧ ∃ v, c'.val = some v ∧
      seen es s c'.key = some v ∧ ¬ D c'.key ∧ ∀ y, (seen es s y).isSome → ¬ D y → c'.key ≤ y
  | none => ∀ y, (seen es s y).isSome → D y

/-- The outcome of the loop of `prev`. -/
def PrevRes (es : List (Entry K V)) (s : Nat) (D : K → Prop) : Raw K V × Option (K × V) → Prop
  | (raw, some (k, v)) => seen es s k = some v ∧ ¬ D k ∧
      (∀ y, (seen es s y).isSome → ¬ D y → y ≤ k) ∧
      ((raw = .soi ∧ ∀ x ∈ es, x.seq ≤ s → D x.key ∨ k ≤ x.key) ∨
        ∃ l c r', raw = .cur l c r' ∧ es = l.reverse ++ c :: r' ∧ c.key < k ∧
          ∀ x ∈ r', x.seq ≤ s → D x.key ∨ k ≤ x.key)
  | (raw, none) => raw = .soi ∧ ∀ y, (seen es s y).isSome → D y

/-- The loop of `next`: `D` are the keys dealt with. -/
theorem nextLoop_spec {es : List (Entry K V)} (hs : Sorted es) (s : Nat) (r : List (Entry K V)) :
    ∀ (l : List (Entry K V)) (c : Entry K V) (b : Option K) (D : K → Prop),
      es = l.reverse ++ c :: r →
      (∀ x ∈ l, x.seq ≤ s → D x.key) →
      (∀ x ∈ c :: r, x.seq ≤ s → (D x.key ↔ b = some x.key) ∧ ∀ k, b = some k → k ≤ x.key) →
      NextRes es s D (nextLoop s l c r b) := by
  induction r with
  | nil =>
    intro l c b D he h1 h2
    have hmem : ∀ x ∈ es, x ∈ l ∨ x = c := by
      intro x hx
      rw [he] at hx
      simpa using hx
    have hcs := h2 c (by simp)
    unfold nextLoop
    split
    · rename_i hc
      obtain ⟨hc1, hc2, hc3⟩ := hc
      obtain ⟨v, hv⟩ := Option.isSome_iff_exists.1 hc2
      have hnd : ¬ D c.key := fun hd => by
        have := hc3 c.key ((hcs hc1).1.1 hd)
        exact lt_irrefl _ this
      refine ⟨he, v, hv, ?_, hnd, ?_⟩
      · rw [← hv]
        refine seen_of hs (by rw [he]; simp) hc1 (fun x hx hk hq => ?_)
        rcases hmem x hx with hx | rfl
        · exact absurd (hk ▸ h1 x hx hq) hnd
        · exact le_refl _
      · intro y hy hny
        obtain ⟨w, hw⟩ := Option.isSome_iff_exists.1 hy
        obtain ⟨e, h3, rfl, h4, _⟩ := seen_some hs hw
        rcases hmem e h3 with h5 | rfl
        · exact absurd (h1 e h5 h4) hny
        · exact le_refl _
    · rename_i hc
      intro y hy
      obtain ⟨w, hw⟩ := Option.isSome_iff_exists.1 hy
      obtain ⟨e, h3, rfl, h4, h5⟩ := seen_some hs hw
      rcases hmem e h3 with h6 | rfl
      · exact h1 e h6 h4
      · by_contra hnd
        apply hc
        refine ⟨h4, by simp [h5], fun k hk => ?_⟩
        simp only [Option.mem_def] at hk
        have h7 := (hcs h4).2 k hk
        rcases lt_or_eq_of_le h7 with h8 | h8
        · exact h8
        · exact absurd ((hcs h4).1.2 (by rw [hk, h8])) hnd
  | cons c' r ih =>
    intro l c b D he h1 h2
    have hmem : ∀ x ∈ es, x ∈ l ∨ x = c ∨ x ∈ c' :: r := by
      intro x hx
      rw [he] at hx
      simpa [or_assoc] using hx
    have hcs := h2 c (by simp)
    have hcr : ∀ x ∈ c' :: r, prior c x = true := fun x hx =>
      sorted_before (l := l.reverse ++ [c]) hs (by rw [he]; simp) (by simp) hx
    have he' : es = (c :: l).reverse ++ c' :: r := by rw [he]; simp
    unfold nextLoop
    split
    · rename_i hc
      obtain ⟨hc1, hc2, hc3⟩ := hc
      obtain ⟨v, hv⟩ := Option.isSome_iff_exists.1 hc2
      have hnd : ¬ D c.key := fun hd => by
        have := hc3 c.key ((hcs hc1).1.1 hd)
        exact lt_irrefl _ this
      refine ⟨he, v, hv, ?_, hnd, ?_⟩
      · rw [← hv]
        refine seen_of hs (by rw [he]; simp) hc1 (fun x hx hk hq => ?_)
        rcases hmem x hx with hx | rfl | hx
        · exact absurd (hk ▸ h1 x hx hq) hnd
        · exact le_refl _
        · have := hcr x hx
          rw [prior_iff] at this
          grind
      · intro y hy hny
        obtain ⟨w, hw⟩ := Option.isSome_iff_exists.1 hy
        obtain ⟨e, h3, rfl, h4, _⟩ := seen_some hs hw
        rcases hmem e h3 with h5 | rfl | h5
        · exact absurd (h1 e h5 h4) hny
        · exact le_refl _
        · exact prior_key_le (hcr e h5)
    · rename_i hc
      simp only
      by_cases hdel : c.seq ≤ s ∧ c.val.isNone
      · rw [if_pos hdel]
        have hrec := ih (c :: l) c' (some c.key) (fun y => D y ∨ y = c.key) he'
          (by
            intro x hx hq
            rcases List.mem_cons.1 hx with rfl | hx
            · exact .inr rfl
            · exact .inl (h1 x hx hq))
          (by
            intro x hx hq
            have hcx := prior_key_le (hcr x hx)
            have h3 := h2 x (by simp [List.mem_cons.1 hx]) hq
            refine ⟨⟨fun hd => ?_, fun hb => ?_⟩, fun k hk => ?_⟩
            · rcases hd with hd | hd
              · have h4 := h3.1.1 hd
                have h5 := (hcs hdel.1).2 _ h4
                exact congrArg some (le_antisymm hcx h5)
              · exact congrArg some hd.symm
            · right
              exact (Option.some.inj hb).symm
            · rw [← Option.some.inj hk]
              exact hcx)
        have hnone : ¬ D c.key → seen es s c.key = none := by
          intro hnd
          have : c.val = none := by simpa using hdel.2
          rw [← this]
          refine seen_of hs (by rw [he]; simp) hdel.1 (fun x hx hk hq => ?_)
          rcases hmem x hx with hx | rfl | hx
          · exact absurd (hk ▸ h1 x hx hq) hnd
          · exact le_refl _
          · have := hcr x hx
            rw [prior_iff] at this
            grind
        cases hn : nextLoop s (c :: l) c' r (some c.key) with
        | none =>
          rw [hn] at hrec
          intro y hy
          rcases hrec y hy with h3 | rfl
          · exact h3
          · by_contra hnd
            rw [hnone hnd] at hy
            simp at hy
        | some p =>
          rw [hn] at hrec
          obtain ⟨h3, v, h4, h5, h6, h7⟩ := hrec
          refine ⟨h3, v, h4, h5, fun hd => h6 (.inl hd), fun y hy hny => ?_⟩
          refine h7 y hy (fun hd => ?_)
          rcases hd with hd | rfl
          · exact hny hd
          · rw [hnone hny] at hy
            simp at hy
      · rw [if_neg hdel]
        refine ih (c :: l) c' b D he' ?_ (fun x hx hq => h2 x (by simp [List.mem_cons.1 hx]) hq)
        intro x hx hq
        rcases List.mem_cons.1 hx with rfl | hx
        · by_contra hnd
          apply hc
          have hsome : x.val.isSome := by
            cases hv : x.val with
            | none => exact absurd ⟨hq, by simp [hv]⟩ hdel
            | some w => simp
          refine ⟨hq, hsome, fun k hk => ?_⟩
          simp only [Option.mem_def] at hk
          have h7 := (hcs hq).2 k hk
          rcases lt_or_eq_of_le h7 with h8 | h8
          · exact h8
          · exact absurd ((hcs hq).1.2 (by rw [hk, h8])) hnd
        · exact h1 x hx hq

/-- The loop of `prev`: `D` are the keys at and beyond the place it starts from, `q` the entry seen
last. -/
theorem prevLoop_spec {es : List (Entry K V)} (hs : Sorted es) (s : Nat) (D : K → Prop)
    (m : List (Entry K V)) :
    ∀ (r : List (Entry K V)) (best : Option (K × V)) (q : Option (Entry K V)),
      es = m.reverse ++ r →
      (∀ x ∈ m, ¬ D x.key) →
      (match q with
       | none => best = none ∧ ∀ x ∈ r, x.seq ≤ s → D x.key
       | some e => best = e.val.map (fun v => (e.key, v)) ∧ e ∈ r ∧ e.seq ≤ s ∧ ¬ D e.key ∧
          (∀ x ∈ r, x.key = e.key → x.seq ≤ s → x.seq ≤ e.seq) ∧
          (∀ x ∈ r, x.seq ≤ s → D x.key ∨ e.key ≤ x.key) ∧
          ∀ y, (seen es s y).isSome → ¬ D y → y ≤ e.key) →
      PrevRes es s D (prevLoop s m r best) := by
  induction m with
  | nil =>
    intro r best q he _ hq
    simp only [prevLoop]
    have he : es = r := by simpa using he
    cases q with
    | none =>
      obtain ⟨rfl, h1⟩ := hq
      refine ⟨rfl, fun y hy => ?_⟩
      obtain ⟨w, hw⟩ := Option.isSome_iff_exists.1 hy
      obtain ⟨e, h3, rfl, h4, _⟩ := seen_some hs hw
      exact h1 e (he ▸ h3) h4
    | some e =>
      obtain ⟨h0, h1, h2, h3, h4, h5, h6⟩ := hq
      have hseen : seen es s e.key = e.val :=
        seen_of hs (he ▸ h1) h2 (fun x hx => h4 x (he ▸ hx))
      cases hv : e.val with
      | none =>
        rw [hv] at h0
        subst h0
        refine ⟨rfl, fun y hy => ?_⟩
        obtain ⟨w, hw⟩ := Option.isSome_iff_exists.1 hy
        obtain ⟨x, h7, rfl, h8, _⟩ := seen_some hs hw
        by_contra hnd
        rcases h5 x (he ▸ h7) h8 with h9 | h9
        · exact hnd h9
        · have := le_antisymm (h6 x.key hy hnd) h9
          rw [this, hseen, hv] at hy
          simp at hy
      | some v =>
        rw [hv] at h0
        subst h0
        exact ⟨by rw [hseen, hv], h3, h6, .inl ⟨rfl, fun x hx => h5 x (he ▸ hx)⟩⟩
  | cons c m ih =>
    intro r best q he hm hq
    have he' : es = m.reverse ++ c :: r := by rw [he]; simp
    have hm' : ∀ x ∈ m, ¬ D x.key := fun x hx => hm x (by simp [hx])
    have hcm := hm c (by simp)
    have hcr : ∀ x ∈ r, prior c x = true := fun x hx =>
      sorted_before (l := m.reverse ++ [c]) hs (by rw [he']; simp) (by simp) hx
    have hmc : ∀ x ∈ m, prior x c = true := fun x hx =>
      sorted_before (l := m.reverse) (r := c :: r) hs he' (by simp [hx]) (by simp)
    have hmem : ∀ x ∈ es, x ∈ m ∨ x = c ∨ x ∈ r := by
      intro x hx
      rw [he'] at hx
      simpa using hx
    -- going on with `c` as the entry seen last
    have hgo : c.seq ≤ s → (∀ e, q = some e → c.key < e.key → e.val = none) →
        (match some c with
         | none => (c.val.map (fun v => (c.key, v)) : Option (K × V)) = none ∧
            ∀ x ∈ c :: r, x.seq ≤ s → D x.key
         | some e => c.val.map (fun v => (c.key, v)) = e.val.map (fun v => (e.key, v)) ∧
            e ∈ c :: r ∧ e.seq ≤ s ∧ ¬ D e.key ∧
            (∀ x ∈ c :: r, x.key = e.key → x.seq ≤ s → x.seq ≤ e.seq) ∧
            (∀ x ∈ c :: r, x.seq ≤ s → D x.key ∨ e.key ≤ x.key) ∧
            ∀ y, (seen es s y).isSome → ¬ D y → y ≤ e.key) := by
      intro hcs hdel
      refine ⟨rfl, by simp, hcs, hcm, ?_, ?_, ?_⟩
      · intro x hx hk _
        rcases List.mem_cons.1 hx with rfl | hx
        · exact le_refl _
        · have := hcr x hx
          rw [prior_iff] at this
          grind
      · intro x hx _
        rcases List.mem_cons.1 hx with rfl | hx
        · exact .inr (le_refl _)
        · exact .inr (prior_key_le (hcr x hx))
      · intro y hy hny
        obtain ⟨w, hw⟩ := Option.isSome_iff_exists.1 hy
        obtain ⟨x, h7, rfl, h8, _⟩ := seen_some hs hw
        rcases hmem x h7 with h9 | rfl | h9
        · exact prior_key_le (hmc x h9)
        · exact le_refl _
        · cases q with
          | none => exact absurd (hq.2 x h9 h8) hny
          | some e =>
            obtain ⟨_, h1, h2, h3, h4, h5, h6⟩ := hq
            have hxe : x.key = e.key := by
              rcases h5 x h9 h8 with h10 | h10
              · exact absurd h10 hny
              · exact le_antisymm (h6 x.key hy hny) h10
            have hce := prior_key_le (hcr e h1)
            rcases lt_or_eq_of_le hce with hlt | heq
            · exfalso
              have hnone := hdel e rfl hlt
              have hseen : seen es s e.key = e.val := by
                refine seen_of hs (by rw [he']; simp [h1]) h2 (fun z hz hk hzq => ?_)
                rcases hmem z hz with h11 | rfl | h11
                · have := prior_key_le (hmc z h11)
                  rw [hk] at this
                  exact absurd (lt_of_le_of_lt this hlt) (lt_irrefl _)
                · exact absurd hk hlt.ne
                · exact h4 z h11 hk hzq
              rw [hxe, hseen, hnone] at hy
              simp at hy
            · rw [hxe, heq]
    simp only [prevLoop]
    split
    · rename_i hcs
      cases best with
      | none =>
        simp only
        refine ih (c :: r) _ (some c) he' hm' (hgo hcs ?_)
        intro e hqe _
        subst hqe
        have h0 := hq.1
        cases hv : e.val with
        | none => rfl
        | some v => simp [hv] at h0
      | some kv =>
        obtain ⟨k, v⟩ := kv
        cases q with
        | none => simp at hq
        | some e =>
          have hq' := hq
          obtain ⟨h0, h1, h2, h3, h4, h5, h6⟩ := hq'
          have hv : e.val = some v ∧ e.key = k := by
            cases hv : e.val with
            | none => simp [hv] at h0
            | some w =>
              simp only [hv, Option.map_some, Option.some.injEq, Prod.mk.injEq] at h0
              exact ⟨by rw [h0.2], h0.1.symm⟩
          obtain ⟨hv, rfl⟩ := hv
          simp only
          split
          · rename_i hlt
            refine ⟨?_, h3, h6, .inr ⟨m, c, r, rfl, he', hlt, h5⟩⟩
            rw [← hv]
            refine seen_of hs (by rw [he']; simp [h1]) h2 (fun z hz hk hzq => ?_)
            rcases hmem z hz with h11 | rfl | h11
            · have := prior_key_le (hmc z h11)
              rw [hk] at this
              exact absurd (lt_of_le_of_lt this hlt) (lt_irrefl _)
            · exact absurd hk hlt.ne
            · exact h4 z h11 hk hzq
          · rename_i hlt
            refine ih (c :: r) _ (some c) he' hm' (hgo hcs ?_)
            intro e' hqe hlt'
            cases hqe
            exact absurd hlt' hlt
    · rename_i hcs
      refine ih (c :: r) best q he' hm' ?_
      cases q with
      | none =>
        refine ⟨hq.1, fun x hx hxq => ?_⟩
        rcases List.mem_cons.1 hx with rfl | hx
        · exact absurd hxq hcs
        · exact hq.2 x hx hxq
      | some e =>
        obtain ⟨h0, h1, h2, h3, h4, h5, h6⟩ := hq
        refine ⟨h0, by simp [h1], h2, h3, ?_, ?_, h6⟩
        · intro x hx hk hxq
          rcases List.mem_cons.1 hx with rfl | hx
          · exact absurd hxq hcs
          · exact h4 x hx hk hxq
        · intro x hx hxq
          rcases List.mem_cons.1 hx with rfl | hx
          · exact absurd hxq hcs
          · exact h5 x hx hxq

/-- The state of an iterator agrees with the place of a cursor. -/
def ItOk (i : It K V) : Pos K → Prop
  | .start => i.dir = .soi ∧ i.raw = .soi
  | .done => i.dir = .eoi
  | .on k => i.key = some k ∧ (∃ v, i.value = some v ∧ seen i.es i.seq k = some v) ∧
      ((i.dir = .fwd ∧ ∃ l c r, i.raw = .cur l c r ∧ i.es = l.reverse ++ c :: r ∧ c.key = k) ∨
       (i.dir = .bwd ∧ ((i.raw = .soi ∧ ∀ x ∈ i.es, x.seq ≤ i.seq → k ≤ x.key) ∨
          ∃ l c r, i.raw = .cur l c r ∧ i.es = l.reverse ++ c :: r ∧ c.key < k ∧
            ∀ x ∈ r, x.seq ≤ i.seq → k ≤ x.key)))

/-- The outcome of a call that goes forward. -/
theorem toNext_ok {i : It K V} (hs : Sorted i.es) {l : List (Entry K V)} {c : Entry K V}
    {r : List (Entry K V)} {b : Option K} {D : K → Prop} (he : i.es = l.reverse ++ c :: r)
    (h1 : ∀ x ∈ l, x.seq ≤ i.seq → D x.key)
    (h2 : ∀ x ∈ c :: r, x.seq ≤ i.seq →
      (D x.key ↔ b = some x.key) ∧ ∀ k, b = some k → k ≤ x.key) :
    IsFirst (seen i.es i.seq) (fun y => ¬ D y) (i.nextFrom (.cur l c r) b).at ∧
    ItOk (i.nextFrom (.cur l c r) b) (.ahead (i.nextFrom (.cur l c r) b).at) ∧
    (i.nextFrom (.cur l c r) b).es = i.es ∧ (i.nextFrom (.cur l c r) b).seq = i.seq := by
  have h := nextLoop_spec hs i.seq r l c b D he h1 h2
  simp only [It.nextFrom]
  cases hn : nextLoop i.seq l c r b with
  | none =>
    rw [hn] at h
    simp only [It.toNext, It.at, IsFirst, Pos.ahead, ItOk, and_true]
    intro y hy hd
    exact hd (h y hy)
  | some p =>
    obtain ⟨l', c', r'⟩ := p
    rw [hn] at h
    obtain ⟨h3, v, h4, h5, h6, h7⟩ := h
    simp only [It.toNext, It.at, h4, Option.map_some, Option.bind_some, IsFirst, Pos.ahead, ItOk,
      and_true]
    exact ⟨⟨h5, h6, h7⟩, trivial, ⟨v, rfl, h5⟩, .inl ⟨trivial, l', c', r', rfl, h3, rfl⟩⟩

/-- The outcome of a call that goes forward off the end. -/
theorem atEnd_ok {i : It K V} {D : K → Prop}
    (h : ∀ y, (seen i.es i.seq y).isSome → D y) :
    IsFirst (seen i.es i.seq) (fun y => ¬ D y) (i.nextFrom .eoi none).at ∧
    ItOk (i.nextFrom .eoi none) (.ahead (i.nextFrom .eoi none).at) ∧
    (i.nextFrom .eoi none).es = i.es ∧ (i.nextFrom .eoi none).seq = i.seq := by
  simp only [It.nextFrom, It.at, IsFirst, Pos.ahead, ItOk, and_true]
  intro y hy hd
  exact hd (h y hy)

/-- The outcome of a call that goes backward. -/
theorem prevFrom_ok {i : It K V} (hs : Sorted i.es) {m r : List (Entry K V)} {D : K → Prop}
    (he : i.es = m.reverse ++ r) (h1 : ∀ x ∈ m, ¬ D x.key)
    (h2 : ∀ x ∈ r, x.seq ≤ i.seq → D x.key) (hup : ∀ x y, D x → ¬ D y → y ≤ x) :
    IsLast (seen i.es i.seq) (fun y => ¬ D y) (i.prevFrom m r).at ∧
    ItOk (i.prevFrom m r) (.back (i.prevFrom m r).at) ∧
    (i.prevFrom m r).es = i.es ∧ (i.prevFrom m r).seq = i.seq := by
  have h := prevLoop_spec hs i.seq D m r none none he h1 ⟨rfl, h2⟩
  unfold It.prevFrom
  cases hp : prevLoop i.seq m r none with
  | mk raw best =>
    rw [hp] at h
    cases best with
    | none =>
      simp only [It.at, IsLast, Pos.back, ItOk, and_true, true_and]
      exact ⟨fun y hy hd => hd (h.2 y hy), h.1⟩
    | some kv =>
      obtain ⟨k, v⟩ := kv
      obtain ⟨h3, h4, h5, h6⟩ := h
      simp only [It.at, Option.map_some, Option.bind_some, IsLast, Pos.back, ItOk, and_true]
      refine ⟨⟨h3, h4, h5⟩, trivial, ⟨v, rfl, h3⟩, .inr ⟨trivial, ?_⟩⟩
      rcases h6 with ⟨h6, h7⟩ | ⟨l, c, r', h6, h7, h8, h9⟩
      · refine .inl ⟨h6, fun x hx hq => ?_⟩
        rcases h7 x hx hq with h10 | h10
        · exact hup _ _ h10 h4
        · exact h10
      · refine .inr ⟨l, c, r', h6, h7, h8, fun x hx hq => ?_⟩
        rcases h9 x hx hq with h10 | h10
        · exact hup _ _ h10 h4
        · exact h10

theorem isFirst_congr {m : K → Option V} {P Q : K → Prop} (h : ∀ y, P y ↔ Q y)
    {r : Option (K × V)} (hr : IsFirst m P r) : IsFirst m Q r := by
  have : P = Q := funext fun y => propext (h y)
  exact this ▸ hr

theorem isLast_congr {m : K → Option V} {P Q : K → Prop} (h : ∀ y, P y ↔ Q y)
    {r : Option (K × V)} (hr : IsLast m P r) : IsLast m Q r := by
  have : P = Q := funext fun y => propext (h y)
  exact this ▸ hr

theorem first_ok {i : It K V} (hs : Sorted i.es) :
    IsFirst (seen i.es i.seq) (fun _ => True) i.first.at ∧
    ItOk i.first (.ahead i.first.at) ∧ i.first.es = i.es ∧ i.first.seq = i.seq := by
  unfold It.first
  cases he : i.es with
  | nil =>
    have h := atEnd_ok (i := i) (D := fun _ => False) (by
      intro y hy
      obtain ⟨w, hw⟩ := Option.isSome_iff_exists.1 hy
      obtain ⟨x, h7, _⟩ := seen_some hs hw
      rw [he] at h7
      simp at h7)
    rw [he] at h
    simp only [Raw.next]
    exact ⟨isFirst_congr (fun y => by simp) h.1, h.2⟩
  | cons c r =>
    have h := toNext_ok (i := i) hs (l := []) (c := c) (r := r) (b := none) (D := fun _ => False)
      (by simp [he]) (by simp) (by simp)
    rw [he] at h
    simp only [Raw.next]
    exact ⟨isFirst_congr (fun y => by simp) h.1, h.2⟩

theorem last_ok {i : It K V} (hs : Sorted i.es) :
    IsLast (seen i.es i.seq) (fun _ => True) i.last.at ∧
    ItOk i.last (.back i.last.at) ∧ i.last.es = i.es ∧ i.last.seq = i.seq := by
  unfold It.last
  have h := prevFrom_ok (i := i) hs (m := i.es.reverse) (r := []) (D := fun _ => False)
    (by simp) (by simp) (by simp) (by simp)
  exact ⟨isLast_congr (fun y => by simp) h.1, h.2⟩

theorem seek_ok {i : It K V} (hs : Sorted i.es) (k : K) :
    IsFirst (seen i.es i.seq) (fun y => k ≤ y) (i.seek k).at ∧
    ItOk (i.seek k) (.ahead (i.seek k).at) ∧ (i.seek k).es = i.es ∧ (i.seek k).seq = i.seq := by
  unfold It.seek
  have hsplit := (List.takeWhile_append_dropWhile
    (p := fun e => !reached k i.seq e) (l := i.es)).symm
  have hleft : ∀ x ∈ i.es.takeWhile (fun e => !reached k i.seq e), x.seq ≤ i.seq → x.key < k := by
    intro x hx hq
    have := List.all_eq_true.1 List.all_takeWhile x hx
    simp only [Bool.not_eq_true', Bool.eq_false_iff, ne_eq, reached_iff] at this
    grind
  cases hd : i.es.dropWhile (fun e => !reached k i.seq e) with
  | nil =>
    rw [hd, List.append_nil] at hsplit
    have h := atEnd_ok (i := i) (D := fun y => y < k) (by
      intro y hy
      obtain ⟨w, hw⟩ := Option.isSome_iff_exists.1 hy
      obtain ⟨x, h7, rfl, h8, _⟩ := seen_some hs hw
      rw [hsplit] at h7
      exact hleft x h7 h8)
    exact ⟨isFirst_congr (fun y => by simp) h.1, h.2⟩
  | cons c r =>
    rw [hd] at hsplit
    have hc : reached k i.seq c = true := by
      have := List.head?_dropWhile_not (fun e => !reached k i.seq e) i.es
      rw [hd] at this
      simpa using this
    have hge : ∀ x ∈ c :: r, k ≤ x.key := by
      intro x hx
      rw [reached_iff] at hc
      have hck : k ≤ c.key := by
        rcases hc with hc | hc
        · exact hc.le
        · exact hc.1.le
      rcases List.mem_cons.1 hx with rfl | hx
      · exact hck
      · have := sorted_before
          (l := i.es.takeWhile (fun e => !reached k i.seq e) ++ [c]) (r := r) hs
          (by rw [List.append_assoc]; exact hsplit) (x := c) (by simp) hx
        exact le_trans hck (prior_key_le this)
    have h := toNext_ok (i := i) hs
      (l := (i.es.takeWhile (fun e => !reached k i.seq e)).reverse) (c := c) (r := r) (b := none)
      (D := fun y => y < k) (by rw [List.reverse_reverse]; exact hsplit)
      (by
        intro x hx
        exact hleft x (by simpa using hx))
      (by
        intro x hx _
        have := hge x hx
        simp [this])
    exact ⟨isFirst_congr (fun y => by simp) h.1, h.2⟩

theorem next_ok {i : It K V} (hs : Sorted i.es) {p : Pos K} (h : ItOk i p) :
    ∃ p', Answers (seen i.es i.seq) p .next i.next.at p' ∧
    ItOk i.next p' ∧ i.next.es = i.es ∧ i.next.seq = i.seq := by
  cases p with
  | start =>
    obtain ⟨h1, h2⟩ := h
    have h3 := first_ok hs
    have h4 : i.next = i.first := by
      unfold It.next It.first
      rw [h1, h2]
    rw [h4]
    exact ⟨_, ⟨h3.1, rfl⟩, h3.2⟩
  | done =>
    have h1 : i.dir = .eoi := h
    have h4 : i.next = i := by
      unfold It.next
      rw [h1]
    rw [h4]
    refine ⟨.done, ⟨?_, rfl⟩, h, rfl, rfl⟩
    simp [It.at, h1]
  | on k =>
    obtain ⟨hk, ⟨v, hv, hseen⟩, hpos⟩ := h
    obtain ⟨e0, he0, hek, heq, _⟩ := seen_some hs hseen
    simp only [Answers]
    -- all that is left to go through: entries `R` after `L`
    have key : ∀ (L R : List (Entry K V)), i.es = L ++ R →
        (∀ x ∈ L, x.seq ≤ i.seq → x.key ≤ k) → (∀ x ∈ R, x.seq ≤ i.seq → k ≤ x.key) →
        ∀ j : It K V, j = i.nextFrom (match R with | [] => .eoi | c :: r => .cur L.reverse c r)
          i.key →
        ∃ p', (IsFirst (seen i.es i.seq) (fun y => k < y) j.at ∧ p' = .ahead j.at) ∧
        ItOk j p' ∧ j.es = i.es ∧ j.seq = i.seq := by
      intro L R hLR hL hR j hj
      cases R with
      | nil =>
        have h3 := atEnd_ok (i := i) (D := fun y => y ≤ k) (by
          intro y hy
          obtain ⟨w, hw⟩ := Option.isSome_iff_exists.1 hy
          obtain ⟨x, h7, rfl, h8, _⟩ := seen_some hs hw
          rw [hLR, List.append_nil] at h7
          exact hL x h7 h8)
        have : j = i.nextFrom .eoi none := by
          rw [hj]
          rfl
        rw [this]
        exact ⟨_, ⟨isFirst_congr (fun y => by simp) h3.1, rfl⟩, h3.2⟩
      | cons c r =>
        have h3 := toNext_ok (i := i) hs (l := L.reverse) (c := c) (r := r) (b := i.key)
          (D := fun y => y ≤ k) (by rw [List.reverse_reverse]; exact hLR)
          (by
            intro x hx
            exact hL x (by simpa using hx))
          (by
            intro x hx hq
            have := hR x hx hq
            rw [hk]
            refine ⟨⟨fun h => congrArg some (le_antisymm this h), fun h => ?_⟩, fun k' h => ?_⟩
            · rw [Option.some.inj h]
            · rw [← Option.some.inj h]
              exact this)
        subst hj
        exact ⟨_, ⟨isFirst_congr (fun y => by simp) h3.1, rfl⟩, h3.2⟩
    rcases hpos with ⟨hdir, l, c, r, hraw, hes, hck⟩ | ⟨hdir, ⟨hraw, hall⟩ | ⟨l, c, r, hraw, hes, hck, hall⟩⟩
    · refine key (l.reverse ++ [c]) r (by rw [hes]; simp) ?_ ?_ _ ?_
      · intro x hx _
        rcases List.mem_append.1 hx with hx | hx
        · exact hck ▸ prior_key_le (sorted_before (r := c :: r) hs hes hx (by simp))
        · simp only [List.mem_singleton] at hx
          rw [hx, hck]
      · intro x hx _
        exact hck ▸ prior_key_le (sorted_before (l := l.reverse ++ [c]) (r := r) hs
          (by rw [hes]; simp) (by simp) hx)
      · unfold It.next
        rw [hdir, hraw]
        simp only [Raw.next]
        cases r <;> simp
    · -- before the first entry
      cases hes : i.es with
      | nil => rw [hes] at he0; simp at he0
      | cons c r =>
        rw [← hes]
        refine key [c] r (by rw [hes]; simp) ?_ ?_ _ ?_
        · intro x hx _
          simp only [List.mem_singleton] at hx
          subst hx
          rw [hes] at he0
          rcases List.mem_cons.1 he0 with rfl | he0
          · exact hek.le
          · exact hek ▸ prior_key_le (sorted_before (l := [x]) (r := r) hs (by rw [hes]; simp)
              (by simp) he0)
        · intro x hx hq
          exact hall x (by rw [hes]; simp [hx]) hq
        · unfold It.next
          rw [hdir, hraw, hes]
          simp only [Raw.next]
          cases r <;> simp
    · have hr0 : e0 ∈ r := by
        rw [hes] at he0
        rcases List.mem_append.1 he0 with h3 | h3
        · have := prior_key_le (sorted_before (y := c) (r := c :: r) hs hes h3 (by simp))
          rw [hek] at this
          exact absurd (lt_of_le_of_lt this hck) (lt_irrefl _)
        · rcases List.mem_cons.1 h3 with rfl | h3
          · exact absurd hek hck.ne
          · exact h3
      cases r with
      | nil => simp at hr0
      | cons c' r' =>
        refine key (l.reverse ++ [c, c']) r' (by rw [hes]; simp) ?_ ?_ _ ?_
        · intro x hx _
          rcases List.mem_append.1 hx with hx | hx
          · exact le_trans (prior_key_le (sorted_before (r := c :: c' :: r') hs hes hx (by simp)))
              hck.le
          · simp only [List.mem_cons, List.not_mem_nil, or_false] at hx
            rcases hx with rfl | rfl
            · exact hck.le
            · rcases List.mem_cons.1 hr0 with rfl | hr0
              · exact hek.le
              · exact hek ▸ prior_key_le (sorted_before (l := l.reverse ++ [c, x]) (r := r') hs
                  (by rw [hes]; simp) (by simp) hr0)
        · intro x hx hq
          exact hall x (by simp [hx]) hq
        · unfold It.next
          rw [hdir, hraw]
          simp only [Raw.next]
          cases r' <;> simp

theorem backTo_spec (k : K) (l : List (Entry K V)) :
    ∀ r, (backTo k l r).1.reverse ++ (backTo k l r).2 = l.reverse ++ r ∧
      (∀ x ∈ (backTo k l r).2, x ∈ r ∨ k ≤ x.key) ∧
      (∀ c t, (backTo k l r).1 = c :: t → c.key < k) := by
  induction l with
  | nil => intro r; exact ⟨rfl, fun x hx => .inl hx, by simp [backTo]⟩
  | cons c l ih =>
    intro r
    simp only [backTo]
    split
    · rename_i hlt
      refine ⟨rfl, fun x hx => .inl hx, fun c' t h => ?_⟩
      cases h
      exact hlt
    · rename_i hge
      obtain ⟨h1, h2, h3⟩ := ih (c :: r)
      refine ⟨by rw [h1]; simp, fun x hx => ?_, h3⟩
      rcases h2 x hx with h4 | h4
      · rcases List.mem_cons.1 h4 with rfl | h4
        · exact .inr (le_of_not_gt hge)
        · exact .inl h4
      · exact .inr h4

theorem prev_ok {i : It K V} (hs : Sorted i.es) {p : Pos K} (h : ItOk i p) :
    ∃ p', Answers (seen i.es i.seq) p .prev i.prev.at p' ∧
    ItOk i.prev p' ∧ i.prev.es = i.es ∧ i.prev.seq = i.seq := by
  cases p with
  | start =>
    have h4 : i.prev = i := by
      unfold It.prev
      rw [h.1]
    rw [h4]
    refine ⟨.start, ⟨?_, rfl⟩, h, rfl, rfl⟩
    simp [It.at, h.1]
  | done =>
    have h1 : i.dir = .eoi := h
    have h4 : i.prev = i.last := by
      unfold It.prev
      rw [h1]
    have h3 := last_ok hs
    rw [h4]
    exact ⟨_, ⟨h3.1, rfl⟩, h3.2⟩
  | on k =>
    obtain ⟨hk, _, hpos⟩ := h
    simp only [Answers]
    have key : ∀ (m r : List (Entry K V)), i.es = m.reverse ++ r → (∀ x ∈ m, x.key < k) →
        (∀ x ∈ r, x.seq ≤ i.seq → k ≤ x.key) → ∀ j : It K V, j = i.prevFrom m r →
        ∃ p', (IsLast (seen i.es i.seq) (fun y => y < k) j.at ∧ p' = .back j.at) ∧
        ItOk j p' ∧ j.es = i.es ∧ j.seq = i.seq := by
      intro m r he hm hr j hj
      subst hj
      have h3 := prevFrom_ok (i := i) hs (D := fun y => k ≤ y) he
        (fun x hx => not_le_of_gt (hm x hx)) hr
        (fun x y hx hy => (lt_of_lt_of_le (lt_of_not_ge hy) hx).le)
      exact ⟨_, ⟨isLast_congr (fun y => by simp) h3.1, rfl⟩, h3.2⟩
    rcases hpos with ⟨hdir, l, c, r, hraw, hes, hck⟩ | ⟨hdir, ⟨hraw, hall⟩ | ⟨l, c, r, hraw, hes, hck, hall⟩⟩
    · obtain ⟨h1, h2, h3⟩ := backTo_spec k l (c :: r)
      refine key (backTo k l (c :: r)).1 (backTo k l (c :: r)).2 (by rw [h1, hes]) ?_ ?_ _ ?_
      · intro x hx
        cases hb : (backTo k l (c :: r)).1 with
        | nil => rw [hb] at hx; simp at hx
        | cons c' t =>
          have h4 := h3 c' t hb
          rw [hb] at hx
          rcases List.mem_cons.1 hx with rfl | hx
          · exact h4
          · have := prior_key_le (sorted_before (l := t.reverse)
              (r := c' :: (backTo k l (c :: r)).2) hs (by
                rw [hes, ← h1, hb]
                simp) (x := x) (y := c') (by simpa using hx) (by simp))
            exact lt_of_le_of_lt this h4
      · intro x hx _
        rcases h2 x hx with h4 | h4
        · rcases List.mem_cons.1 h4 with rfl | h4
          · exact hck.ge
          · exact hck ▸ prior_key_le (sorted_before (l := l.reverse ++ [c]) (r := r) hs
              (by rw [hes]; simp) (by simp) h4)
        · exact h4
      · unfold It.prev
        rw [hdir, hraw, hk]
    · refine key [] i.es (by simp) (by simp) hall _ ?_
      unfold It.prev
      rw [hdir, hraw]
    · refine key (c :: l) r (by rw [hes]; simp) ?_ hall _ ?_
      · intro x hx
        rcases List.mem_cons.1 hx with rfl | hx
        · exact hck
        · exact lt_of_le_of_lt
            (prior_key_le (sorted_before (r := c :: r) hs hes (by simpa using hx) (by simp))) hck
      · unfold It.prev
        rw [hdir, hraw]

/-! ### Entries that come in -/

theorem insert_split {e c : Entry K V} {l r : List (Entry K V)} (hs : Sorted (l ++ c :: r))
    (hne : ∀ x ∈ l ++ c :: r, x.seq ≠ e.seq) :
    insert e (l ++ c :: r) = if prior e c then insert e l ++ c :: r else l ++ c :: insert e r := by
  induction l with
  | nil =>
    simp only [List.nil_append, insert]
    have hc := hne c (by simp)
    by_cases hp : prior e c = true
    · have : ¬ prior c e = true := by
        rw [prior_iff] at hp ⊢
        grind
      simp [hp, this]
    · have : prior c e = true := by
        rw [prior_iff] at hp ⊢
        rcases lt_trichotomy e.key c.key with h | h | h <;> grind
      simp [hp, this]
  | cons x l ih =>
    have hs' := List.pairwise_cons.1 hs
    have ih := ih hs'.2 (fun y hy => hne y (List.mem_cons_of_mem _ hy))
    have hxc : prior x c = true := hs'.1 c (by simp)
    simp only [List.cons_append, insert]
    by_cases hxe : prior x e = true
    · rw [if_pos hxe, if_pos hxe, ih]
      split <;> simp
    · rw [if_neg hxe, if_neg hxe]
      have hx := hne x (by simp)
      have hex : prior e x = true := by
        rw [prior_iff] at hxe ⊢
        rcases lt_trichotomy e.key x.key with h | h | h <;> grind
      have : prior e c = true := prior_trans hex hxc
      simp [this]

theorem seen_insert {es : List (Entry K V)} (hs : Sorted es) {e : Entry K V} {s : Nat}
    (hne : ∀ x ∈ es, x.seq ≠ e.seq) (hq : s < e.seq) (k : K) :
    seen (insert e es) s k = seen es s k := by
  have hs' := insert_sorted hs hne
  unfold seen
  have h1 := look_right hs' k s
  have h2 := look_right hs k s
  cases ha : look (insert e es) k s with
  | none =>
    cases hb : look es k s with
    | none => rfl
    | some x =>
      obtain ⟨a1, a2, a3, _⟩ := h2.1 x hb
      have := h1.2 ha x ((insert_mem _ _ _).2 (.inr a1)) a2
      omega
  | some y =>
    obtain ⟨b1, b2, b3, b4⟩ := h1.1 y ha
    have hy : y ∈ es := by
      rcases (insert_mem _ _ _).1 b1 with rfl | h
      · omega
      · exact h
    cases hb : look es k s with
    | none =>
      have := h2.2 hb y hy b2
      omega
    | some x =>
      obtain ⟨a1, a2, a3, a4⟩ := h2.1 x hb
      have h3 := a4 y hy b2 b3
      have h4 := b4 x ((insert_mem _ _ _).2 (.inr a1)) a2 a3
      rw [sorted_seq_inj hs hy a1 (b2.trans a2.symm) (by omega)]

theorem grow_ok {i : It K V} (hs : Sorted i.es) {p : Pos K} (h : ItOk i p) {e : Entry K V}
    (hne : ∀ x ∈ i.es, x.seq ≠ e.seq) (hq : i.seq < e.seq) :
    Answers (seen i.es i.seq) p (.grow e) (i.grow e).at p ∧ ItOk (i.grow e) p := by
  cases p with
  | start =>
    refine ⟨⟨by simp [It.at, It.grow, h.1], rfl⟩, ?_⟩
    exact ⟨h.1, by simp [It.grow, h.2]⟩
  | done =>
    have h1 : i.dir = .eoi := h
    exact ⟨⟨by simp [It.at, It.grow, h1], rfl⟩, h1⟩
  | on k =>
    obtain ⟨hk, ⟨v, hv, hseen⟩, hpos⟩ := h
    have hat : (i.grow e).at = some (k, v) := by
      rcases hpos with ⟨hd, _⟩ | ⟨hd, _⟩ <;> simp [It.at, It.grow, hd, hk, hv]
    refine ⟨⟨⟨v, hat, hseen⟩, rfl⟩, hk, ⟨v, hv, ?_⟩, ?_⟩
    · exact (seen_insert hs hne hq k).trans hseen
    · have hcur : ∀ l c r, i.raw = .cur l c r → i.es = l.reverse ++ c :: r →
          ∃ l' r', (i.grow e).raw = .cur l' c r' ∧ (i.grow e).es = l'.reverse ++ c :: r' ∧
            ∀ x ∈ r', x = e ∨ x ∈ r := by
        intro l c r hraw hes
        have hsp := insert_split (e := e) (l := l.reverse) (c := c) (r := r) (hes ▸ hs) (hes ▸ hne)
        simp only [It.grow, hraw]
        rw [hes, hsp]
        by_cases hp : prior e c = true
        · simp only [hp, if_true]
          exact ⟨_, _, rfl, by simp, fun x hx => .inr hx⟩
        · simp only [hp]
          exact ⟨l, insert e r, rfl, rfl, fun x hx => (insert_mem _ _ _).1 hx⟩
      rcases hpos with ⟨hdir, l, c, r, hraw, hes, hck⟩ | ⟨hdir, ⟨hraw, hall⟩ | ⟨l, c, r, hraw, hes, hck, hall⟩⟩
      · obtain ⟨l', r', h1, h2, _⟩ := hcur l c r hraw hes
        exact .inl ⟨hdir, l', c, r', h1, h2, hck⟩
      · refine .inr ⟨hdir, .inl ⟨by simp [It.grow, hraw], fun x hx hxq => ?_⟩⟩
        rcases (insert_mem _ _ _).1 hx with rfl | hx
        · have : (i.grow x).seq = i.seq := rfl
          omega
        · exact hall x hx hxq
      · obtain ⟨l', r', h1, h2, h3⟩ := hcur l c r hraw hes
        refine .inr ⟨hdir, .inr ⟨l', c, r', h1, h2, hck, fun x hx hxq => ?_⟩⟩
        have hxq' : x.seq ≤ i.seq := hxq
        rcases h3 x hx with rfl | hx
        · omega
        · exact hall x hx hxq'

/-- The entries that come in under an iterator: each with a number of its own, and above the one
the iterator reads at. -/
def Incoming (s : Nat) : List (Entry K V) → List (Call K V) → Prop
  | _, [] => True
  | es, .grow e :: cs => (∀ x ∈ es, x.seq ≠ e.seq) ∧ s < e.seq ∧ Incoming s (insert e es) cs
  | es, _ :: cs => Incoming s es cs

theorem incoming_of {s : Nat} (cs : List (Call K V)) : ∀ es : List (Entry K V),
    (∀ e ∈ grown cs, s < e.seq ∧ ∀ x ∈ es, x.seq ≠ e.seq) → ((grown cs).map (·.seq)).Nodup →
    Incoming s es cs := by
  induction cs with
  | nil => intro es _ _; trivial
  | cons c cs ih =>
    intro es h hn
    cases c with
    | grow e =>
      simp only [grown, List.map_cons, List.nodup_cons] at hn
      have he := h e (by simp [grown])
      refine ⟨he.2, he.1, ih _ (fun e' he' => ?_) hn.2⟩
      have h' := h e' (by simp [grown, he'])
      refine ⟨h'.1, fun x hx hq => ?_⟩
      rcases (insert_mem _ _ _).1 hx with rfl | hx
      · exact hn.1 (List.mem_map.2 ⟨e', he', hq.symm⟩)
      · exact h'.2 x hx hq
    | _ => exact ih es h hn

theorem calls_follow (cs : List (Call K V)) : ∀ (i : It K V) (p : Pos K) (m : K → Option V),
    Sorted i.es → ItOk i p → (∀ k, seen i.es i.seq k = m k) → Incoming i.seq i.es cs →
    Follows m p cs (i.calls cs) := by
  induction cs with
  | nil => intro i p m _ _ _ _; simp [Follows, It.calls]
  | cons c cs ih =>
    intro i p m hs hok hm hin
    have hm' : seen i.es i.seq = m := funext hm
    simp only [It.calls, Follows]
    cases c with
    | first =>
      have h := first_ok hs
      refine ⟨_, _, .ahead i.first.at, rfl, ?_, ?_⟩
      · rw [hm'] at h
        exact ⟨h.1, rfl⟩
      · exact ih i.first _ m (h.2.2.1 ▸ hs) h.2.1 (by rw [h.2.2.1, h.2.2.2]; exact hm)
          (by rw [h.2.2.1, h.2.2.2]; exact hin)
    | last =>
      have h := last_ok hs
      refine ⟨_, _, .back i.last.at, rfl, ?_, ?_⟩
      · rw [hm'] at h
        exact ⟨h.1, rfl⟩
      · exact ih i.last _ m (h.2.2.1 ▸ hs) h.2.1 (by rw [h.2.2.1, h.2.2.2]; exact hm)
          (by rw [h.2.2.1, h.2.2.2]; exact hin)
    | seek k =>
      have h := seek_ok hs k
      refine ⟨_, _, .ahead (i.seek k).at, rfl, ?_, ?_⟩
      · rw [hm'] at h
        exact ⟨h.1, rfl⟩
      · exact ih (i.seek k) _ m (h.2.2.1 ▸ hs) h.2.1 (by rw [h.2.2.1, h.2.2.2]; exact hm)
          (by rw [h.2.2.1, h.2.2.2]; exact hin)
    | next =>
      obtain ⟨p', h1, h2, h3, h4⟩ := next_ok hs hok
      rw [hm'] at h1
      exact ⟨_, _, p', rfl, h1, ih i.next _ m (h3 ▸ hs) h2 (by rw [h3, h4]; exact hm)
        (by rw [h3, h4]; exact hin)⟩
    | prev =>
      obtain ⟨p', h1, h2, h3, h4⟩ := prev_ok hs hok
      rw [hm'] at h1
      exact ⟨_, _, p', rfl, h1, ih i.prev _ m (h3 ▸ hs) h2 (by rw [h3, h4]; exact hm)
        (by rw [h3, h4]; exact hin)⟩
    | grow e =>
      obtain ⟨hne, hq, hin'⟩ := hin
      obtain ⟨h1, h2⟩ := grow_ok hs hok hne hq
      rw [hm'] at h1
      refine ⟨_, _, p, rfl, h1, ih (i.grow e) p m (insert_sorted hs hne) h2 ?_ hin'⟩
      intro k
      exact (seen_insert hs hne hq k).trans (hm k)

/-! ### Iterators of a database -/

theorem entries_mem {d : Db K V} (h : Inv d) (e : Entry K V) : e ∈ d.entries ↔ Has d e := by
  simp only [Db.entries, mem_sortBy, List.mem_append, List.mem_flatMap, List.mem_range,
    Has, frozenL, InLev]
  constructor
  · rintro ((h1 | h1) | ⟨f, ⟨i, _, hf⟩, he⟩)
    · exact .inl h1
    · exact .inr (.inl h1)
    · exact .inr (.inr ⟨i, f, hf, he⟩)
  · rintro (h1 | h1 | ⟨i, f, hf, he⟩)
    · exact .inl (.inl h1)
    · exact .inl (.inr h1)
    · refine .inr ⟨f, ⟨i, ?_, hf⟩, he⟩
      by_contra hd
      rw [h.depth_ok i (by omega)] at hf
      simp at hf

theorem sorted_seq_ne {d : Db K V} (h : Inv d) {es : List (Entry K V)} (hs : Sorted es)
    (hh : ∀ e ∈ es, Has d e) : es.Pairwise (fun a b => a.seq ≠ b.seq) := by
  refine List.Pairwise.imp_of_mem (fun {x y} hx hy hp he => ?_) hs
  have := h.real_eq (hh x hx) (hh y hy) he
  subst this
  rw [prior_iff] at hp
  grind

theorem entries_sorted {d : Db K V} (h : Inv d) : Sorted d.entries := by
  have hlev : ∀ i, (d.lev i).Pairwise (fun f g => ∀ e ∈ f.es, ∀ x ∈ g.es, e.seq ≠ x.seq) := by
    intro i
    by_cases hi : i = 0
    · subst hi; exact h.uniq0
    · refine List.Pairwise.imp_of_mem (fun {x y} hx hy hlt e he e' he' hq => ?_)
        (h.lev_ok.ordered i (by omega))
      have := h.real_eq (.inr (.inr ⟨i, x, hx, he⟩)) (.inr (.inr ⟨i, y, hy, he'⟩)) hq
      subst this
      have h2 := (h.lev_ok.file_ok i x hx).key_le he
      have h3 := (h.lev_ok.file_ok i y hy).lo_le e he'
      exact absurd (lt_of_le_of_lt h2 hlt) (not_lt_of_ge h3)
  have hu : (d.mem ++ d.frozen.getD [] ++ ((List.range d.depth).flatMap d.lev).flatMap
      (·.es)).Pairwise (fun a b => a.seq ≠ b.seq) := by
    refine List.pairwise_append.2 ⟨List.pairwise_append.2 ⟨?_, ?_, ?_⟩, ?_, ?_⟩
    · exact sorted_seq_ne h h.mem_sorted (fun e he => .inl he)
    · exact sorted_seq_ne h h.fro_sorted (fun e he => .inr (.inl he))
    · intro a ha b hb
      have := h.mem_new a ha b (.inl hb)
      omega
    · refine List.pairwise_flatMap.2 ⟨fun f hf => ?_, List.pairwise_flatMap.2 ⟨fun i _ => hlev i, ?_⟩⟩
      · obtain ⟨i, _, hf⟩ := List.mem_flatMap.1 hf
        exact sorted_seq_ne h (h.lev_ok.file_ok i f hf).sorted
          (fun e he => .inr (.inr ⟨i, f, hf, he⟩))
      · refine List.Pairwise.imp (fun {i j} hij f hf g hg e he x hx hq => ?_) List.pairwise_lt_range
        have := h.real_eq (.inr (.inr ⟨i, f, hf, he⟩)) (.inr (.inr ⟨j, g, hg, hx⟩)) hq
        subst this
        have := h.lev_ok.newer i j hij f hf g hg e he e hx rfl
        omega
    · intro a ha b hb
      obtain ⟨f, hf, hb⟩ := List.mem_flatMap.1 hb
      obtain ⟨i, _, hf⟩ := List.mem_flatMap.1 hf
      rcases List.mem_append.1 ha with ha | ha
      · have := h.mem_new a ha b (.inr ⟨i, f, hf, hb⟩)
        omega
      · have := h.fro_new a ha b ⟨i, f, hf, hb⟩
        omega
  unfold Db.entries Sorted
  have h1 := pairwise_sortBy (le := fun a b : Entry K V =>
    prior a b || decide (a.key = b.key ∧ a.seq = b.seq)) merge_le_trans merge_le_total
    (d.mem ++ d.frozen.getD [] ++ ((List.range d.depth).flatMap d.lev).flatMap (·.es))
  have h2 := ((sortBy_perm (d.mem ++ d.frozen.getD [] ++
    ((List.range d.depth).flatMap d.lev).flatMap (·.es)) (fun a b : Entry K V =>
    prior a b || decide (a.key = b.key ∧ a.seq = b.seq))).pairwise_iff
      (R := fun a b : Entry K V => a.seq ≠ b.seq) (fun h => h.symm)).2 hu
  refine List.Pairwise.imp₂ (fun a b ha hb => ?_) h1 h2
  simp only [Bool.or_eq_true, decide_eq_true_eq] at ha
  rcases ha with ha | ha
  · exact ha
  · exact absurd ha.2 hb

theorem seen_entries {d : Db K V} (h : Inv d) {s : Nat} (hs : d.floor ≤ s) (k : K) :
    seen d.entries s k = mapAfter (d.wrote.take s) k := by
  have hr := look_right (entries_sorted h) k s
  exact right_value h hs (right_congr (fun e => entries_mem h e) hr)

/-- An iterator made at a snapshot that is held, or at the present number, is a cursor over the
map of the writes up to that number: First, Last, Seek, Next and Prev, in any order, forward and
backward, give its keys in order, each once, none left out, with their values — and entries that
writers put into the memory table meanwhile change none of it. -/
theorem iterator_is_cursor {ops : List (Op K V)} {d : Db K V}
    (h : run (Db.init K V) ops = some d) (s : Nat) (hs : s ∈ d.snaps ∨ s = d.seq)
    (calls : List (Call K V)) (hnew : ∀ e ∈ grown calls, s < e.seq ∧ ∀ x ∈ d.entries, x.seq ≠ e.seq)
    (hown : ((grown calls).map (·.seq)).Nodup) :
    Follows (mapAfter ((writes ops).take s)) .start calls ((It.fresh d.entries s).calls calls) := by
  have hi := inv_of h
  have hf : d.floor ≤ s := by
    rcases hs with hs | rfl
    · exact (hi.snap_le s hs).1
    · exact hi.floor_le
  refine calls_follow calls (It.fresh d.entries s) .start _ (entries_sorted hi) ⟨rfl, rfl⟩ ?_
    (incoming_of calls _ hnew hown)
  intro k
  rw [← wrote_of h]
  exact seen_entries hi hf k

end Verif.Lsm
