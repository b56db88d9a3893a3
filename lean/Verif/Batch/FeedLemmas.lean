import Verif.Batch.BatchProps
import Verif.Batch.TopoProps
import Verif.Batch.FeedModel

/-!
# When a block is taken -/

namespace Verif.Batch

/-- The last item of an owner. -/
def lastOf (A : List Item) (o : Option Nat) : Option Item := (A.filter fun y => decide (y.owner = o)).getLast?

theorem lastOf_snoc_self (A : List Item) (x : Item) : lastOf (A ++ [x]) x.owner = some x := by simp [lastOf]

theorem lastOf_snoc_other {A : List Item} {x : Item} {o : Option Nat} (h : o ≠ x.owner) : lastOf (A ++ [x]) o = lastOf A o := by
  unfold lastOf
  rw [List.filter_append, List.filter_cons_of_neg (by simpa using fun e => h e.symm)]
  simp

theorem lastOf_mem {A : List Item} {o : Option Nat} {z : Item} (h : lastOf A o = some z) : z ∈ A ∧ z.owner = o := by
  have := List.mem_of_getLast? h
  simpa using List.mem_filter.1 this

/-- The buckets of an owner: where its last item is, and that there is nothing of it above. -/
def Tail (B : List (List (Option Nat × List Item))) (f : Nat → Option (Option Nat × Nat)) (A : List Item) : Prop :=
  ∀ o : Option Nat, (lastOf A o = none → ∀ (i : Nat) (bs : List (Option Nat × List Item)), B[i]? = some bs → ∀ b, (o, b) ∈ bs → b = []) ∧
    ∀ z, lastOf A o = some z → ∃ (j : Nat) (bs : List (Option Nat × List Item)) (b : List Item), B[j]? = some bs ∧ (o, b) ∈ bs ∧ b.getLast? = some z ∧ f z.hash = some (o, j) ∧
      ∀ (i : Nat) (bs' : List (Option Nat × List Item)), j < i → B[i]? = some bs' → ∀ b', (o, b') ∈ bs' → b' = []

theorem newLevel_empty {snap : Bool} {o : Option Nat} {b : List Item} (h : (o, b) ∈ (newLevel snap).bs) : b = [] := by
  cases snap <;> simp [newLevel] at h
  exact h.2

theorem tail_grow {B : List (List (Option Nat × List Item))} {f : Nat → Option (Option Nat × Nat)} {A : List Item} (h : Tail B f A) (snap : Bool) :
    Tail (B ++ [(newLevel snap).bs]) f A := by
  intro o
  obtain ⟨h1, h2⟩ := h o
  refine ⟨fun hn i bs hi b hb => ?_, fun z hz => ?_⟩
  · rcases getElem?_append_cases hi with hi | ⟨-, rfl⟩
    · exact h1 hn i bs hi b hb
    · exact newLevel_empty hb
  · obtain ⟨j, bs, b, g1, g2, g3, g4, g5⟩ := h2 z hz
    refine ⟨j, bs, b, by rw [List.getElem?_append_left (getElem?_lt' g1)]; exact g1, g2, g3, g4, ?_⟩
    intro i bs' hij hi b' hb'
    rcases getElem?_append_cases hi with hi | ⟨-, rfl⟩
    · exact g5 i bs' hij hi b' hb'
    · exact newLevel_empty hb'

theorem tail_set {B : List (List (Option Nat × List Item))} {f f' : Nat → Option (Option Nat × Nat)} {A : List Item} {x : Item} {i : Nat}
    {bs bs' : List (Option Nat × List Item)} (h : Tail B f A) (hi : B[i]? = some bs) (hn : (bs.map (·.1)).Nodup) (hadd : bucketsAdd bs x = some bs')
    (hup : ∀ z, lastOf A x.owner = some z → ∀ j, f z.hash = some (x.owner, j) → j ≤ i)
    (hf : ∀ y ∈ A, f' y.hash = f y.hash) (hx : f' x.hash = some (x.owner, i)) : Tail (B.set i bs') f' (A ++ [x]) := by
  have hlt := getElem?_lt' hi
  intro o
  obtain ⟨h1, h2⟩ := h o
  by_cases ho : o = x.owner
  · subst ho
    rw [lastOf_snoc_self]
    refine ⟨by simp, fun z hz => ?_⟩
    simp only [Option.some.injEq] at hz
    subst hz
    have hab : ∀ (k : Nat) (c : List (Option Nat × List Item)), i < k → B[k]? = some c → ∀ b', (x.owner, b') ∈ c → b' = [] := by
      intro k c hik hk b' hb'
      cases hlast : lastOf A x.owner with
      | none => exact h1 hlast k c hk b' hb'
      | some z =>
        obtain ⟨j, cs, b, g1, g2, g3, g4, g5⟩ := h2 z hlast
        exact g5 k c (by have := hup z hlast j g4; omega) hk b' hb'
    have hbk : ∃ b, (x.owner, b) ∈ bs' ∧ b.getLast? = some x := by
      rcases bucketsAdd_form hadd with ⟨p, c, q, rfl, rfl, -, -⟩ | ⟨-, rfl⟩
      · exact ⟨c ++ [x], by simp, by simp⟩
      · exact ⟨[x], by simp, by simp⟩
    obtain ⟨b, hb1, hb2⟩ := hbk
    refine ⟨i, bs', b, List.getElem?_set_self hlt, hb1, hb2, hx, ?_⟩
    intro k c hik hk b' hb'
    rw [List.getElem?_set_ne (by omega)] at hk
    exact hab k c hik hk b' hb'
  · rw [lastOf_snoc_other ho]
    have hback : ∀ (k : Nat) (c : List (Option Nat × List Item)), (B.set i bs')[k]? = some c → ∀ b, (o, b) ∈ c → ∃ c', B[k]? = some c' ∧ (o, b) ∈ c' := by
      intro k c hk b hb
      rcases set_get hk with ⟨rfl, rfl⟩ | ⟨-, hk⟩
      · rcases bucketsAdd_mem hadd hn hb with ⟨-, h⟩ | ⟨h, -⟩
        · exact ⟨bs, hi, h⟩
        · exact absurd h ho
      · exact ⟨c, hk, hb⟩
    have hfwd : ∀ (k : Nat) (c : List (Option Nat × List Item)), B[k]? = some c → ∀ b, (o, b) ∈ c → ∃ c', (B.set i bs')[k]? = some c' ∧ (o, b) ∈ c' := by
      intro k c hk b hb
      by_cases hik : i = k
      · subst hik
        rw [hi] at hk
        simp only [Option.some.injEq] at hk
        subst hk
        refine ⟨bs', List.getElem?_set_self hlt, ?_⟩
        rcases bucketsAdd_form hadd with ⟨p, c, q, rfl, rfl, -, -⟩ | ⟨-, rfl⟩
        · simp only [List.mem_append, List.mem_cons, Prod.mk.injEq] at hb ⊢
          rcases hb with h | ⟨h, -⟩ | h
          · exact Or.inl h
          · exact absurd h ho
          · exact Or.inr (Or.inr h)
        · exact List.mem_append_left _ hb
      · exact ⟨c, by rw [List.getElem?_set_ne hik]; exact hk, hb⟩
    refine ⟨fun hnone k c hk b hb => ?_, fun z hz => ?_⟩
    · obtain ⟨c', hk', hb'⟩ := hback k c hk b hb
      exact h1 hnone k c' hk' b hb'
    · obtain ⟨j, cs, b, g1, g2, g3, g4, g5⟩ := h2 z hz
      obtain ⟨c', hj', hb'⟩ := hfwd j cs g1 b g2
      refine ⟨j, c', b, hj', hb', g3, by rw [hf z (lastOf_mem hz).1]; exact g4, ?_⟩
      intro k c hjk hk b' hb'
      obtain ⟨c', hk', hb'⟩ := hback k c hk b' hb'
      exact g5 k c' hjk hk' b' hb'

theorem bucketsAdd_none {bs : List (Option Nat × List Item)} {x : Item} (h : bucketsAdd bs x = none) : ∃ b y, (x.owner, b) ∈ bs ∧ b.getLast? = some y ∧ y.hash ≠ x.prev := by
  induction bs with
  | nil => simp [bucketsAdd, bucketAdd] at h
  | cons e bs ih =>
    obtain ⟨o, b⟩ := e
    unfold bucketsAdd at h
    split at h
    · rename_i ho
      subst ho
      rw [Option.map_eq_none_iff] at h
      unfold bucketAdd at h
      split at h
      · rename_i y hy
        split at h
        · simp at h
        · rename_i hne
          exact ⟨b, y, by simp, hy, hne⟩
      · simp at h
    · rw [Option.map_eq_none_iff] at h
      obtain ⟨c, y, h1, h2, h3⟩ := ih h
      exact ⟨c, y, List.mem_cons_of_mem _ h1, h2, h3⟩

/-- Where an item goes, or would have gone. -/
structure Goes (L : Ledger) (s s' : St) (x : Item) (out : Out) (pre : List Level) (i : Nat) (l : Level) : Prop where
  base : pre = s.ls ∨ ∃ sn, pre = s.ls ++ [newLevel sn]
  at' : pre[i]? = some l
  top : x.owner = none → i + 1 = pre.length
  up : x.owner ≠ none → s.last ≤ i ∧ ∀ r ∈ x.refs, L.acc r = true ∨ ∃ o' j l, s.find r = some (o', j) ∧ s.ls[j]? = some l ∧ (l.closed = true ∨ (o' = x.owner ∧ j ≤ i) ∨ j + 1 ≤ i)
  bad : out = .badLink → bucketsAdd l.bs x = none
  good : out = .ok → ∃ bs, bucketsAdd l.bs x = some bs ∧ s'.ls.map (·.bs) = (pre.map (·.bs)).set i bs ∧ s'.all = x.keys.map (fun k => (k, (x.owner, i))) ++ s.all

theorem put_goes {s t s' : St} {x : Item} {i : Nat} {out : Out} (h : s.put i x = (s', out)) (hout : out = .ok ∨ out = .badLink) (ht : t.all = s.all) :
    ∃ l, s.ls[i]? = some l ∧ (out = .badLink → bucketsAdd l.bs x = none) ∧
      (out = .ok → ∃ bs, bucketsAdd l.bs x = some bs ∧ s'.ls.map (·.bs) = (s.ls.map (·.bs)).set i bs ∧ s'.all = x.keys.map (fun k => (k, (x.owner, i))) ++ t.all) := by
  unfold St.put at h
  split at h
  · simp only [Prod.mk.injEq] at h
    rw [← h.2] at hout; simp at hout
  · rename_i l hl
    refine ⟨l, hl, ?_⟩
    split at h
    · simp only [Prod.mk.injEq] at h
      rw [← h.2] at hout; simp at hout
    · split at h
      · rename_i hb
        simp only [Prod.mk.injEq] at h
        exact ⟨fun _ => hb, fun ho => by rw [← h.2] at ho; simp at ho⟩
      · rename_i bs hb
        simp only [Prod.mk.injEq] at h
        refine ⟨fun ho => (by rw [← h.2] at ho; simp at ho), fun _ => ⟨bs, hb, ?_, ?_⟩⟩
        · rw [← h.1]; simp
        · rw [← h.1, ht]

theorem closeUp_goes {r : St × Out} {s' : St} {i : Nat} {out : Out} (h : closeUp r i = (s', out)) (hout : out = .ok ∨ out = .badLink) :
    r.2 = out ∧ s'.ls.map (·.bs) = r.1.ls.map (·.bs) ∧ s'.all = r.1.all := by
  unfold closeUp at h
  split at h
  · rename_i hp
    subst h
    dsimp only at hp
    rw [hp] at hout; simp at hout
  · split at h
    · simp only [Prod.mk.injEq] at h
      rw [← h.2] at hout; simp at hout
    · rename_i ls hls
      simp only [Prod.mk.injEq] at h
      refine ⟨h.2, ?_, by rw [← h.1]⟩
      rw [← h.1, closeFrom_spec hls]
      dsimp only
      apply List.ext_getElem?
      intro k
      simp only [List.getElem?_map, List.getElem?_mapIdx, Option.map_map]
      rfl

theorem addS_goes {L : Ledger} {s s' : St} {x : Item} {out : Out} (ho : x.owner = none) (h : s.addS L x = (s', out)) (hout : out = .ok ∨ out = .badLink) :
    ∃ pre i l, Goes L s s' x out pre i l := by
  have key : ∀ (t : St) (i : Nat), t.all = s.all → (t.ls = s.ls ∨ ∃ sn, t.ls = s.ls ++ [newLevel sn]) → i + 1 = t.ls.length → closeUp (t.put i x) i = (s', out) →
      ∃ pre i l, Goes L s s' x out pre i l := by
    intro t i ht hls hi hc
    obtain ⟨h1, h2, h3⟩ := closeUp_goes hc hout
    obtain ⟨l, g1, g2, g3⟩ := put_goes (s := t) (t := s) (s' := (t.put i x).1) (x := x) (i := i) (out := out) (by rw [← h1]) hout ht.symm
    refine ⟨t.ls, i, l, hls, g1, fun _ => hi, fun hne => absurd ho hne, g2, fun hok => ?_⟩
    obtain ⟨bs, k1, k2, k3⟩ := g3 hok
    exact ⟨bs, k1, by rw [h2, k2], by rw [h3, k3]⟩
  have no : ∀ {o : Out}, (s, o) = (s', out) → o = .noRef ∨ o = .panic ∨ o = .full → False := by
    intro o he ho'
    simp only [Prod.mk.injEq] at he
    rw [← he.2] at hout
    rcases ho' with rfl | rfl | rfl <;> simp at hout
  unfold St.addS at h
  split at h
  · exact absurd (no h (Or.inl rfl)) (by simp)
  · split at h
    · exact absurd (no h (Or.inl rfl)) (by simp)
    · split at h
      · rename_i hl
        split at h
        · exact absurd (no h (Or.inr (Or.inl rfl))) (by simp)
        · exact key { s with ls := s.ls ++ [newLevel true] } 0 rfl (Or.inr ⟨true, rfl⟩) (by rw [List.getLast?_eq_none_iff] at hl; simp [hl]) h
      · rename_i l hl
        have hpos : 0 < s.ls.length := by
          rcases Nat.eq_zero_or_pos s.ls.length with h0 | h0
          · rw [List.length_eq_zero_iff] at h0; rw [h0] at hl; simp at hl
          · exact h0
        split at h
        · exact key s (s.ls.length - 1) rfl (Or.inl rfl) (by omega) h
        · split at h
          · exact absurd (no h (Or.inr (Or.inr rfl))) (by simp)
          · exact key { s with ls := s.ls ++ [newLevel true] } s.ls.length rfl (Or.inr ⟨true, rfl⟩) (by simp) h

theorem addA_goes {L : Ledger} {s s' : St} {A : List Item} {x : Item} {out : Out} (hc : Core L s A) (hs : Shape s) (ho : x.owner ≠ none)
    (h : s.addA L x = (s', out)) (hout : out = .ok ∨ out = .badLink) : ∃ pre i l, Goes L s s' x out pre i l := by
  obtain ⟨k1, -, -, k4⟩ := lowest_spec (o := x.owner) hc hs x.refs 0 (by omega) (Or.inl rfl)
  unfold St.addA at h
  rcases hlow : s.lowest L x.owner x.refs 0 with ⟨m, o⟩
  rw [hlow] at h
  cases o with
  | panic => simp only [Prod.mk.injEq] at h; rw [← h.2] at hout; simp at hout
  | noRef => simp only [Prod.mk.injEq] at h; rw [← h.2] at hout; simp at hout
  | full => simp only [Prod.mk.injEq] at h; rw [← h.2] at hout; simp at hout
  | hole => exact absurd hlow (k4 m).1
  | badLink => exact absurd hlow (k4 m).2
  | ok =>
    dsimp only at h
    obtain ⟨-, g2, g3, g4⟩ := k1 m hlow
    unfold St.place at h
    have hlast := hs.last
    generalize hm : (if m = 0 then s.last + 1 else m) = m₀ at h
    have hm0 : s.last < m₀ ∧ m₀ ≤ s.ls.length + 1 ∧ m ≤ m₀ := by
      subst hm
      split <;> omega
    dsimp only at h
    have hav : ∀ i, m₀ - 1 ≤ i → s.last ≤ i ∧ ∀ r ∈ x.refs, L.acc r = true ∨ ∃ o' j l, s.find r = some (o', j) ∧ s.ls[j]? = some l ∧ (l.closed = true ∨ (o' = x.owner ∧ j ≤ i) ∨ j + 1 ≤ i) := by
      intro i hi
      refine ⟨by omega, fun r hr => ?_⟩
      rcases g4 r hr with h | ⟨o', j, l, h1, h2, h3⟩
      · exact Or.inl h
      · refine Or.inr ⟨o', j, l, h1, h2, ?_⟩
        rcases h3 with h3 | ⟨h3, h4⟩ | h3
        · exact Or.inl h3
        · exact Or.inr (Or.inl ⟨h3, by omega⟩)
        · exact Or.inr (Or.inr (by omega))
    have key : ∀ (t : St) (i : Nat), m₀ - 1 ≤ i → t.all = s.all → (t.ls = s.ls ∨ ∃ sn, t.ls = s.ls ++ [newLevel sn]) → t.put i x = (s', out) → ∃ pre i l, Goes L s s' x out pre i l := by
      intro t i hi ht hls hp
      obtain ⟨l, g1, g2, g3⟩ := put_goes (t := s) hp hout ht.symm
      exact ⟨t.ls, i, l, hls, g1, fun hn => absurd hn ho, fun _ => hav i hi, g2, g3⟩
    have keyN : ∀ i, m₀ - 1 ≤ i → s.putNew i x = (s', out) → ∃ pre i l, Goes L s s' x out pre i l := by
      intro i hi hp
      unfold St.putNew at hp
      split at hp
      · exact key { s with ls := s.ls ++ [newLevel false] } i hi rfl (Or.inr ⟨false, rfl⟩) hp
      · simp only [Prod.mk.injEq] at hp; rw [← hp.2] at hout; simp at hout
    split at h
    · simp only [Prod.mk.injEq] at h; rw [← h.2] at hout; simp at hout
    · split at h
      · exact keyN _ (Nat.le_refl _) h
      · rename_i hle
        split at h
        · rename_i hl
          rw [List.getLast?_eq_none_iff] at hl
          rw [hl] at hle; simp only [List.length_nil] at hle; omega
        · split at h
          · split at h
            · simp only [Prod.mk.injEq] at h; rw [← h.2] at hout; simp at hout
            · exact keyN _ (by omega) h
          · exact key s _ (Nat.le_refl _) rfl (Or.inl rfl) h

/-- All that is known about a batch while items are added. -/
structure Good (L : Ledger) (s : St) (A : List Item) : Prop where
  cap : 0 < s.cap
  core : Core L s A
  shape : Shape s
  tail : Tail (s.ls.map (·.bs)) s.find A
  found : ∀ y ∈ A, ∀ k ∈ y.keys, ∃ e, (k, e) ∈ s.all

theorem good_new (L : Ledger) {cap : Nat} (h : 0 < cap) : Good L (newBatch cap) [] :=
  ⟨h, core_new L cap, shape_new cap, fun o => ⟨fun _ i bs hi => (by simp [newBatch] at hi), fun z hz => (by simp [lastOf] at hz)⟩, by simp⟩

/-- An item may come after others, as far as it is not for missing blocks: it does not take a snapshot block for an account block, and it follows the last one of its owner, to which it
refers. -/
structure Near (L : Ledger) (A : List Item) (x : Item) : Prop where
  kind : x.owner ≠ none → ∀ r ∈ x.refs, ∀ y ∈ A, y.owner = none → r ∉ y.keys
  link : ∀ z, lastOf A x.owner = some z → z.hash = x.prev ∧ (x.owner ≠ none → z.hash ∈ x.refs ∧ L.acc z.hash = false)
  own : x.hash ∈ x.keys
  fresh : ∀ y ∈ A, y.hash ∉ x.keys

/-- Such an item is taken, or there is no level left, or a block is missing. -/
theorem near_add {L : Ledger} {s : St} {A : List Item} (hg : Good L s A) {x : Item} (hx : Near L A x) :
    (∃ s', s.add L x = (s', .ok) ∧ Good L s' (A ++ [x])) ∨ s.add L x = (s, .full) ∨ (s.add L x = (s, .noRef) ∧ ¬ Avail L A x) := by
  rcases hadd : s.add L x with ⟨s', out⟩
  have hcap' : s'.cap = s.cap := by have := add_cap L s x; rw [hadd] at this; exact this
  have hgoes : out = .ok ∨ out = .badLink → ∃ pre i l, Goes L s s' x out pre i l := by
    intro hout
    unfold St.add at hadd
    cases ho : x.owner with
    | none => rw [ho] at hadd; exact addS_goes ho hadd hout
    | some a => rw [ho] at hadd; exact addA_goes hg.core hg.shape (by rw [ho]; simp) hadd hout
  have hpre : ∀ {pre i l}, Goes L s s' x out pre i l → Tail (pre.map (·.bs)) s.find A ∧ (l.bs.map (·.1)).Nodup ∧
      ∀ z, lastOf A x.owner = some z → ∀ j, s.find z.hash = some (x.owner, j) → j ≤ i := by
    intro pre i l g
    refine ⟨?_, ?_, ?_⟩
    · rcases g.base with h | ⟨sn, h⟩
      · rw [h]; exact hg.tail
      · rw [h, List.map_append]; exact tail_grow hg.tail sn
    · have := g.at'
      rcases g.base with h | ⟨sn, h⟩
      · rw [h] at this; exact hg.core.nodup i l this
      · rw [h] at this
        rcases getElem?_append_cases this with h' | ⟨-, rfl⟩
        · exact hg.core.nodup i l h'
        · cases sn <;> simp [newLevel]
    · intro z hz j hj
      by_cases ho : x.owner = none
      · obtain ⟨l', hl', -⟩ := hg.core.all _ _ _ (find_mem hj)
        have h1 := getElem?_lt' hl'
        have h2 := g.top ho
        rcases g.base with h | ⟨sn, h⟩ <;> rw [h] at h2
        · omega
        · simp only [List.length_append, List.length_singleton] at h2; omega
      · obtain ⟨h1, h2⟩ := g.up ho
        obtain ⟨-, h3⟩ := hx.link z hz
        obtain ⟨h4, h5⟩ := h3 ho
        rcases h2 z.hash h4 with h | ⟨o', j', l', g1, g2, g3⟩
        · rw [h5] at h; simp at h
        · rw [hj] at g1
          simp only [Option.some.injEq, Prod.mk.injEq] at g1
          obtain ⟨rfl, rfl⟩ := g1
          rcases g3 with g3 | ⟨-, g3⟩ | g3
          · by_contra hc
            have := (hg.shape.above j l' (by omega) g2).2
            rw [g3] at this; simp at this
          · exact g3
          · omega
  rcases add_spec hg.cap hg.core hg.shape hadd with ⟨rfl, h1, h2⟩ | ⟨rfl, ⟨rfl, hne, r, hr, y, hy, hyn, hk⟩ | ⟨rfl, hno⟩ | rfl | rfl⟩
  · refine Or.inl ⟨s', rfl, (by rw [hcap']; exact hg.cap), h1, h2, ?_, ?_⟩
    · obtain ⟨pre, i, l, g⟩ := hgoes (Or.inl rfl)
      obtain ⟨ht, hn, hup⟩ := hpre g
      obtain ⟨bs, g1, g2, g3⟩ := g.good rfl
      rw [g2]
      have hat : (pre.map (·.bs))[i]? = some l.bs := by rw [List.getElem?_map, g.at']; rfl
      refine tail_set ht hat hn g1 hup ?_ ?_
      · intro y hy
        unfold St.find
        rw [g3, List.find?_append]
        rw [List.find?_eq_none.2 (by
          intro e he
          obtain ⟨k, hk, rfl⟩ := List.mem_map.1 he
          simp only [decide_eq_true_eq]
          rintro rfl
          exact hx.fresh y hy hk)]
        rfl
      · unfold St.find
        rw [g3, List.find?_append]
        have : ∀ ks : List Nat, x.hash ∈ ks → (ks.map fun k => (k, (x.owner, i))).find? (fun e => decide (e.1 = x.hash)) = some (x.hash, (x.owner, i)) := by
          intro ks
          induction ks with
          | nil => intro h; cases h
          | cons k ks ih =>
            intro h
            by_cases hk : k = x.hash
            · subst hk; simp
            · rw [List.map_cons, List.find?_cons_of_neg (by simpa using hk)]
              exact ih (by rcases List.mem_cons.1 h with h | h; exact absurd h.symm hk; exact h)
        rw [this _ hx.own]
        rfl
    · obtain ⟨i, hall⟩ := add_all hadd
      intro y hy k hk
      rw [hall]
      rcases List.mem_append.1 hy with hy | hy
      · obtain ⟨e, he⟩ := hg.found y hy k hk
        exact ⟨e, List.mem_append_right _ he⟩
      · rw [List.mem_singleton] at hy
        subst hy
        exact ⟨_, List.mem_append_left _ (List.mem_map.2 ⟨k, hk, rfl⟩)⟩
  · exact absurd hk (hx.kind hne r hr y hy hyn)
  · refine Or.inr (Or.inr ⟨rfl, fun hav => ?_⟩)
    rcases hno with ⟨r, hr, h1, h2⟩ | ⟨r, ho, hr, h1, h2⟩
    · rcases hav.1 r hr with h | ⟨y, hy, hk⟩
      · rw [h1] at h; simp at h
      · obtain ⟨e, he⟩ := hg.found y hy r hk
        exact find_none.1 h2 e he
    · rcases hav.2 ho r hr with h | ⟨y, hy, hk⟩
      · rw [h1] at h; simp at h
      · obtain ⟨e, he⟩ := hg.found y hy r hk
        exact find_none.1 h2 e he
  · exact Or.inr (Or.inl rfl)
  · exfalso
    obtain ⟨pre, i, l, g⟩ := hgoes (Or.inr rfl)
    obtain ⟨ht, hn, hup⟩ := hpre g
    obtain ⟨b, y, hb, hy, hne⟩ := bucketsAdd_none (g.bad rfl)
    have hat : (pre.map (·.bs))[i]? = some l.bs := by rw [List.getElem?_map, g.at']; rfl
    obtain ⟨t1, t2⟩ := ht x.owner
    cases hlast : lastOf A x.owner with
    | none =>
      rw [t1 hlast i l.bs hat b hb] at hy
      simp at hy
    | some z =>
      obtain ⟨j, bs, c, e1, e2, e3, e4, e5⟩ := t2 z hlast
      have hle := hup z hlast j e4
      by_cases hji : j = i
      · subst hji
        rw [hat] at e1
        simp only [Option.some.injEq] at e1
        subst e1
        have := bucket_unique hn e2 hb
        subst this
        rw [e3] at hy
        simp only [Option.some.injEq] at hy
        subst hy
        exact hne (hx.link z hlast).1
      · rw [e5 i l.bs (by omega) hat b hb] at hy
        simp at hy

/-- An item whose blocks are there, too, is taken, or there is no level left. -/
theorem fit_taken {L : Ledger} {s : St} {A : List Item} (hg : Good L s A) {x : Item} (hx : Near L A x) (hav : Avail L A x) :
    (∃ s', s.add L x = (s', .ok) ∧ Good L s' (A ++ [x])) ∨ s.add L x = (s, .full) := by
  rcases near_add hg hx with h | h | ⟨-, h⟩
  · exact Or.inl h
  · exact Or.inr h
  · exact absurd hav h

/-- A new batch has room. -/
theorem new_room {L : Ledger} {cap : Nat} (hcap : 0 < cap) {x : Item} (hav : Avail L [] x) : (newBatch cap).add L x ≠ (newBatch cap, .full) := by
  unfold St.add
  split
  · unfold St.addS
    split
    · simp
    · split
      · simp
      · rw [show (newBatch cap).ls.getLast? = none from rfl]
        dsimp only
        rw [if_neg (by simp [newBatch]; omega)]
        simp only [newBatch, St.put, newLevel, bucketsAdd, List.nil_append, List.getElem?_cons_zero, if_true]
        rename_i ho _ _
        simp [bucketAdd, closeUp, closeFrom, ho]
  · have hlow : ∀ rs : List Nat, (∀ r ∈ rs, L.acc r = true) → ∀ o m, (newBatch cap).lowest L o rs m = (m, .ok) := by
      intro rs
      induction rs with
      | nil => intro _ o m; rfl
      | cons r rs ih =>
        intro h o m
        unfold St.lowest
        rw [show (newBatch cap).find r = none from rfl]
        dsimp only
        rw [if_pos (h r (by simp))]
        exact ih (fun r hr => h r (by simp [hr])) o m
    unfold St.addA
    rw [hlow x.refs (fun r hr => (hav.1 r hr).resolve_right (by simp))]
    dsimp only
    unfold St.place
    simp only [if_true]
    rw [if_neg (by simp [newBatch]; omega), if_pos (by simp [newBatch])]
    simp [St.putNew, newBatch, St.put, newLevel, bucketsAdd, bucketAdd]

end Verif.Batch
