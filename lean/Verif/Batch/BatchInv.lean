import Verif.Batch.BatchLemmas

/-!
# What every batch satisfies -/

namespace Verif.Batch

/-- What an item refers to is in the ledger or among these items. An account block refers to account blocks only. -/
def Avail (L : Ledger) (S : List Item) (x : Item) : Prop :=
  (∀ r ∈ x.refs, L.acc r = true ∨ ∃ y ∈ S, r ∈ y.keys) ∧ (x.owner = none → ∀ r, x.sref = some r → L.snap r = true ∨ ∃ y ∈ S, r ∈ y.keys)

theorem Avail.mono {L : Ledger} {S T : List Item} {x : Item} (h : Avail L S x) (hs : ∀ y ∈ S, y ∈ T) : Avail L T x :=
  ⟨fun r hr => (h.1 r hr).imp_right fun ⟨y, hy, hk⟩ => ⟨y, hs y hy, hk⟩, fun ho r hr => (h.2 ho r hr).imp_right fun ⟨y, hy, hk⟩ => ⟨y, hs y hy, hk⟩⟩

/-- What holds of the levels, whichever are closed. -/
structure Core (L : Ledger) (s : St) (A : List Item) : Prop where
  len : s.ls.length ≤ s.cap
  form : ∀ (i : Nat) (l : Level), s.ls[i]? = some l → l.snap = true → ∃ b, l.bs = [(none, b)]
  acc : ∀ (i : Nat) (l : Level), s.ls[i]? = some l → l.snap = false → ∀ e ∈ l.bs, e.1 ≠ none
  nodup : ∀ (i : Nat) (l : Level), s.ls[i]? = some l → (l.bs.map (·.1)).Nodup
  owner : ∀ (i : Nat) (l : Level), s.ls[i]? = some l → ∀ (o : Option Nat) (b : List Item), (o, b) ∈ l.bs → ∀ x ∈ b, x.owner = o
  all : ∀ (k : Nat) (o : Option Nat) (i : Nat), (k, (o, i)) ∈ s.all → ∃ l : Level, s.ls[i]? = some l ∧ (l.snap = true ↔ o = none) ∧ ∃ b, (o, b) ∈ l.bs ∧ ∃ y ∈ b, k ∈ y.keys
  order : ∀ (i : Nat) (l : Level), s.ls[i]? = some l → ∀ (o : Option Nat) (b : List Item), (o, b) ∈ l.bs → ∀ (b₁ : List Item) (z : Item) (b₂ : List Item), b = b₁ ++ z :: b₂ → Avail L (flat (s.ls.take i) ++ b₁) z
  perm : (flat s.ls).Perm A
  snaps : ∀ (A₁ : List Item) (z : Item) (A₂ : List Item), A = A₁ ++ z :: A₂ → z.owner = none → ∃ (i : Nat) (l : Level) (b₁ b₂ : List Item), s.ls[i]? = some l ∧ l.snap = true ∧ l.bs = [(none, b₁ ++ z :: b₂)] ∧
    (flat (s.ls.take i) ++ b₁).Perm A₁ ∧ (b₂ ++ flat (s.ls.drop (i + 1))).Perm A₂

/-- Which levels are closed, and where the last snapshot level is. -/
structure Shape (s : St) : Prop where
  last : s.last ≤ s.ls.length
  above : ∀ (i : Nat) (l : Level), s.last ≤ i → s.ls[i]? = some l → l.snap = false ∧ l.closed = false
  at' : 0 < s.last → ∃ l : Level, s.ls[s.last - 1]? = some l ∧ l.snap = true
  below : ∀ (i : Nat) (l : Level), i < s.last → s.ls[i]? = some l → l.snap = false → l.closed = true
  «open» : ∀ (i : Nat) (l : Level), s.ls[i]? = some l → l.snap = true → l.closed = false

theorem core_new (L : Ledger) (cap : Nat) : Core L (newBatch cap) [] := by
  refine ⟨by simp [newBatch], ?_, ?_, ?_, ?_, ?_, ?_, by simp [newBatch, flat], ?_⟩ <;> simp [newBatch]

theorem shape_new (cap : Nat) : Shape (newBatch cap) := by
  refine ⟨by simp [newBatch], ?_, ?_, ?_, ?_⟩ <;> simp [newBatch]

theorem getElem?_append_cases {α : Type} {ls : List α} {a l : α} {i : Nat} (h : (ls ++ [a])[i]? = some l) : ls[i]? = some l ∨ (i = ls.length ∧ l = a) := by
  rw [List.getElem?_append] at h
  split at h
  · exact Or.inl h
  · rename_i hi
    have : i - ls.length = 0 := by
      by_contra hc
      rw [List.getElem?_eq_none (by simp; omega)] at h
      simp at h
    rw [this] at h
    simp only [List.getElem?_cons_zero, Option.some.injEq] at h
    exact Or.inr ⟨by omega, h.symm⟩

theorem getElem?_lt' {α : Type} {ls : List α} {l : α} {i : Nat} (h : ls[i]? = some l) : i < ls.length := by
  by_contra hc
  rw [List.getElem?_eq_none (by omega)] at h
  simp at h

theorem newLevel_items (snap : Bool) : (newLevel snap).items = [] := by cases snap <;> simp [newLevel, Level.items]

/-- An empty level at the end changes nothing. -/
theorem core_grow {L : Ledger} {s : St} {A : List Item} (h : Core L s A) (snap : Bool) (hc : s.ls.length < s.cap) :
    Core L { s with ls := s.ls ++ [newLevel snap] } A := by
  have hflat : flat (s.ls ++ [newLevel snap]) = flat s.ls := by simp [flat, newLevel_items]
  refine ⟨by rw [List.length_append]; exact hc, ?_, ?_, ?_, ?_, ?_, ?_, by simpa [hflat] using h.perm, ?_⟩
  · intro i l hl hs
    rcases getElem?_append_cases hl with hl | ⟨-, rfl⟩
    · exact h.form i l hl hs
    · cases snap <;> simp [newLevel] at hs ⊢
  · intro i l hl hs
    rcases getElem?_append_cases hl with hl | ⟨-, rfl⟩
    · exact h.acc i l hl hs
    · cases snap <;> simp [newLevel] at hs ⊢
  · intro i l hl
    rcases getElem?_append_cases hl with hl | ⟨-, rfl⟩
    · exact h.nodup i l hl
    · cases snap <;> simp [newLevel]
  · intro i l hl o b hb
    rcases getElem?_append_cases hl with hl | ⟨-, rfl⟩
    · exact h.owner i l hl o b hb
    · cases snap <;> simp [newLevel] at hb
      obtain ⟨rfl, rfl⟩ := hb
      simp
  · intro k o i hk
    obtain ⟨l, hl, h2⟩ := h.all k o i hk
    exact ⟨l, by rw [List.getElem?_append_left (getElem?_lt' hl)]; exact hl, h2⟩
  · intro i l hl o b hb b₁ z b₂ hz
    rcases getElem?_append_cases hl with hl | ⟨-, rfl⟩
    · have := h.order i l hl o b hb b₁ z b₂ hz
      have hi := getElem?_lt' hl
      dsimp only
      rw [List.take_append_of_le_length (by omega)]
      exact this
    · cases snap <;> simp [newLevel] at hb
      obtain ⟨rfl, rfl⟩ := hb
      simp at hz
  · intro A₁ z A₂ hA hz
    obtain ⟨i, l, b₁, b₂, hl, h1, h2, h3, h4⟩ := h.snaps A₁ z A₂ hA hz
    have hi := getElem?_lt' hl
    refine ⟨i, l, b₁, b₂, by rw [List.getElem?_append_left hi]; exact hl, h1, h2, ?_, ?_⟩
    · dsimp only
      rw [List.take_append_of_le_length (by omega)]; exact h3
    · dsimp only
      rw [List.drop_append_of_le_length (by omega), flat_append]
      simpa [flat, newLevel_items] using h4

theorem mem_flat {ls : List Level} {y : Item} : y ∈ flat ls ↔ ∃ l ∈ ls, ∃ e ∈ l.bs, y ∈ e.2 := by
  simp [flat, Level.items, List.mem_flatMap]

theorem set_get {α : Type} {ls : List α} {a l : α} {i j : Nat} (h : (ls.set i a)[j]? = some l) : (j = i ∧ l = a) ∨ (j ≠ i ∧ ls[j]? = some l) := by
  by_cases hij : i = j
  · subst hij
    have hi := getElem?_lt' h
    rw [List.length_set] at hi
    rw [List.getElem?_set_self hi] at h
    exact Or.inl ⟨rfl, (Option.some.inj h).symm⟩
  · rw [List.getElem?_set_ne hij] at h
    exact Or.inr ⟨fun e => hij e.symm, h⟩

/-- Items in the lower levels stay there. -/
theorem flat_take_set {ls : List Level} {i : Nat} {l l' : Level} (hl : ls[i]? = some l) (hk : ∀ y ∈ l.items, y ∈ l'.items) (j : Nat) {y : Item} (hy : y ∈ flat (ls.take j)) :
    y ∈ flat ((ls.set i l').take j) := by
  induction ls generalizing i j with
  | nil => simp at hl
  | cons a ls ih =>
    cases j with
    | zero => simp [flat] at hy
    | succ j =>
      simp only [List.take_succ_cons, flat, List.flatMap_cons, List.mem_append] at hy
      cases i with
      | zero =>
        simp only [List.getElem?_cons_zero, Option.some.injEq] at hl
        subst hl
        simp only [List.set_cons_zero, List.take_succ_cons, flat, List.flatMap_cons, List.mem_append]
        exact hy.imp_left (hk y)
      | succ i =>
        simp only [List.getElem?_cons_succ] at hl
        simp only [List.set_cons_succ, List.take_succ_cons, flat, List.flatMap_cons, List.mem_append]
        exact hy.imp_right fun hy => ih hl j hy

theorem flat_split {ls : List Level} {i : Nat} {l : Level} (hl : ls[i]? = some l) : flat ls = flat (ls.take i) ++ (l.items ++ flat (ls.drop (i + 1))) := by
  have hi := getElem?_lt' hl
  have hg : ls[i] = l := by rw [List.getElem?_eq_getElem hi] at hl; exact Option.some.inj hl
  conv_lhs => rw [← List.take_append_drop i ls, List.drop_eq_getElem_cons hi, flat_append, hg]
  rfl

/-- An item is put where what it refers to lies below it. -/
theorem core_put {L : Ledger} {s s' : St} {A : List Item} {i : Nat} {x : Item} {l : Level} (h : Core L s A) (hl : s.ls[i]? = some l)
    (hput : s.put i x = (s', .ok)) (ho : l.snap = true ↔ x.owner = none) (hup : ∀ j m, s.ls[j]? = some m → m.snap = true → j ≤ i)
    (hlast : x.owner = none → i + 1 = s.ls.length)
    (hav : ∀ b, ((x.owner, b) ∈ l.bs ∨ (b = [] ∧ ∀ e ∈ l.bs, e.1 ≠ x.owner)) → Avail L (flat (s.ls.take i) ++ b) x) :
    Core L s' (A ++ [x]) ∧ s'.last = s.last ∧ s'.cap = s.cap ∧ (∃ bs, s'.ls = s.ls.set i { l with bs := bs }) := by
  unfold St.put at hput
  rw [hl] at hput
  dsimp only at hput
  split at hput
  · simp at hput
  · split at hput
    · simp at hput
    · rename_i bs hbs
      simp only [Prod.mk.injEq, and_true] at hput
      subst hput
      have hi := getElem?_lt' hl
      have hnd := h.nodup i l hl
      have hperm : ({ l with bs := bs } : Level).items.Perm (l.items ++ [x]) := bucketsAdd_perm hbs
      have hk : ∀ y ∈ l.items, y ∈ ({ l with bs := bs } : Level).items := fun y hy => hperm.mem_iff.2 (List.mem_append_left _ hy)
      refine ⟨⟨by simpa using h.len, ?_, ?_, ?_, ?_, ?_, ?_, ?_, ?_⟩, rfl, rfl, bs, rfl⟩
      · intro j m hm hs
        rcases set_get hm with ⟨rfl, rfl⟩ | ⟨-, hm⟩
        · obtain ⟨b, hb⟩ := h.form j l hl hs
          have hx : x.owner = none := ho.1 hs
          rw [hb] at hbs
          rcases bucketsAdd_form hbs with ⟨p, c, q, h1, h2, -, -⟩ | ⟨h1, -⟩
          · have : p = [] ∧ q = [] := by
              cases p with
              | nil => exact ⟨rfl, by simpa using (List.cons.inj h1).2.symm⟩
              | cons a p => have := congrArg List.length h1; simp at this
            obtain ⟨rfl, rfl⟩ := this
            exact ⟨c ++ [x], by simp [h2, hx]⟩
          · exact absurd hx.symm (h1 (none, b) (by simp))
        · exact h.form j m hm hs
      · intro j m hm hs
        rcases set_get hm with ⟨rfl, rfl⟩ | ⟨-, hm⟩
        · rintro ⟨o, b⟩ he
          rcases bucketsAdd_mem hbs hnd he with ⟨-, he⟩ | ⟨rfl, -⟩
          · exact h.acc j l hl hs _ he
          · intro hx
            rw [ho.2 hx] at hs; simp at hs
        · exact h.acc j m hm hs
      · intro j m hm
        rcases set_get hm with ⟨rfl, rfl⟩ | ⟨-, hm⟩
        · exact bucketsAdd_nodup hbs hnd
        · exact h.nodup j m hm
      · intro j m hm o b hb z hz
        rcases set_get hm with ⟨rfl, rfl⟩ | ⟨-, hm⟩
        · rcases bucketsAdd_mem hbs hnd hb with ⟨-, he⟩ | ⟨rfl, b₀, rfl, hb₀⟩
          · exact h.owner j l hl o b he z hz
          · rcases List.mem_append.1 hz with hz | hz
            · rcases hb₀ with hb₀ | ⟨rfl, -⟩
              · exact h.owner j l hl _ b₀ hb₀ z hz
              · cases hz
            · simp only [List.mem_singleton] at hz; rw [hz]
        · exact h.owner j m hm o b hb z hz
      · intro k o j hkj
        dsimp only at hkj ⊢
        rcases List.mem_append.1 hkj with hkj | hkj
        · obtain ⟨k', hk', he⟩ := List.mem_map.1 hkj
          simp only [Prod.mk.injEq] at he
          obtain ⟨rfl, rfl, rfl⟩ := he
          obtain ⟨b, hb, hx⟩ := bucketsAdd_new hbs
          exact ⟨_, List.getElem?_set_self hi, ho, b, hb, x, hx, hk'⟩
        · obtain ⟨m, hm, h1, b, hb, y, hy, hyk⟩ := h.all k o j hkj
          by_cases hij : i = j
          · subst hij
            rw [hl] at hm
            obtain rfl := Option.some.inj hm
            obtain ⟨b', hb', hpre⟩ := bucketsAdd_keeps hbs hb
            exact ⟨_, List.getElem?_set_self hi, h1, b', hb', y, hpre.subset hy, hyk⟩
          · exact ⟨m, by rw [List.getElem?_set_ne hij]; exact hm, h1, b, hb, y, hy, hyk⟩
      · intro j m hm o b hb b₁ z b₂ hz
        dsimp only at hm ⊢
        have hmono : ∀ y ∈ flat (s.ls.take j) ++ b₁, y ∈ flat ((s.ls.set i { l with bs := bs }).take j) ++ b₁ := by
          intro y hy
          rcases List.mem_append.1 hy with hy | hy
          · exact List.mem_append_left _ (flat_take_set hl hk j hy)
          · exact List.mem_append_right _ hy
        refine Avail.mono ?_ hmono
        rcases set_get hm with ⟨rfl, rfl⟩ | ⟨-, hm⟩
        · rcases bucketsAdd_mem hbs hnd hb with ⟨-, he⟩ | ⟨rfl, b₀, rfl, hb₀⟩
          · exact h.order j l hl o b he b₁ z b₂ hz
          · rcases List.eq_nil_or_concat b₂ with rfl | ⟨c, w, rfl⟩
            · obtain ⟨rfl, hzx⟩ := List.append_inj' (hz : b₀ ++ [x] = b₁ ++ [z]) rfl
              simp only [List.cons.injEq, and_true] at hzx
              subst hzx
              exact hav b₀ hb₀
            · have : b₀ ++ [x] = (b₁ ++ z :: c) ++ [w] := by rw [hz]; simp
              have hb0 := (List.append_inj' this rfl).1
              rcases hb₀ with hb₀ | ⟨rfl, -⟩
              · exact h.order j l hl _ b₀ hb₀ b₁ z c hb0
              · simp at hb0
        · exact h.order j m hm o b hb b₁ z b₂ hz
      · exact (flat_set hl x hperm).trans (h.perm.append_right _)
      · intro A₁ z A₂ hA hz
        dsimp only
        rcases List.eq_nil_or_concat A₂ with rfl | ⟨A₂', w, rfl⟩
        · obtain ⟨rfl, hzx⟩ := List.append_inj' (hA : A ++ [x] = A₁ ++ [z]) rfl
          simp only [List.cons.injEq, and_true] at hzx
          subst hzx
          have hsn := ho.2 hz
          obtain ⟨b, hb⟩ := h.form i l hl hsn
          have hbs' : bs = [(none, b ++ [x])] := by
            rw [hb] at hbs
            simp only [bucketsAdd, hz, if_true, Option.map_eq_some_iff] at hbs
            obtain ⟨b', hb', rfl⟩ := hbs
            unfold bucketAdd at hb'
            split at hb'
            · split at hb'
              · simp only [Option.some.injEq] at hb'; subst hb'; rfl
              · simp at hb'
            · simp only [Option.some.injEq] at hb'; subst hb'; rfl
          have hdrop : s.ls.drop (i + 1) = [] := List.drop_eq_nil_of_le (by have := hlast hz; omega)
          refine ⟨i, _, b, [], List.getElem?_set_self hi, hsn, by simp [hbs'], ?_, ?_⟩
          · rw [List.take_set_of_le (le_refl _)]
            have := flat_split hl
            rw [hdrop] at this
            rw [show l.items = b by simp [Level.items, hb]] at this
            simp only [flat, List.flatMap_nil, List.append_nil] at this
            have hp := h.perm
            unfold flat at hp ⊢
            rw [this] at hp
            exact hp
          · rw [List.drop_eq_nil_of_le (by rw [List.length_set]; have := hlast hz; omega)]
            simp [flat]
        · have : A ++ [x] = (A₁ ++ z :: A₂') ++ [w] := by rw [hA]; simp
          obtain ⟨hA', hxw⟩ := List.append_inj' this rfl
          simp only [List.cons.injEq, and_true] at hxw
          subst hxw
          obtain ⟨j, m, b₁, b₂, hm, h1, h2, h3, h4⟩ := h.snaps A₁ z A₂' hA' hz
          have hji := hup j m hm h1
          by_cases hij : j = i
          · subst hij
            rw [hl] at hm
            obtain rfl := Option.some.inj hm
            have hx : x.owner = none := ho.1 h1
            have hbs' : bs = [(none, b₁ ++ z :: (b₂ ++ [x]))] := by
              rw [h2] at hbs
              simp only [bucketsAdd, hx, if_true, Option.map_eq_some_iff] at hbs
              obtain ⟨b', hb', rfl⟩ := hbs
              unfold bucketAdd at hb'
              split at hb'
              · split at hb'
                · simp only [Option.some.injEq] at hb'; subst hb'; simp
                · simp at hb'
              · simp only [Option.some.injEq] at hb'; subst hb'; simp
            have hdrop : s.ls.drop (j + 1) = [] := List.drop_eq_nil_of_le (by have := hlast hx; omega)
            refine ⟨j, _, b₁, b₂ ++ [x], List.getElem?_set_self hi, h1, hbs', ?_, ?_⟩
            · rw [List.take_set_of_le (le_refl _)]; exact h3
            · rw [List.drop_eq_nil_of_le (by rw [List.length_set]; have := hlast hx; omega)]
              rw [hdrop] at h4
              simp only [flat, List.flatMap_nil, List.append_nil, List.concat_eq_append] at h4 ⊢
              exact h4.append_right _
          · refine ⟨j, m, b₁, b₂, by rw [List.getElem?_set_ne (fun e => hij e.symm)]; exact hm, h1, h2, ?_, ?_⟩
            · rw [List.take_set_of_le (by omega)]; exact h3
            · rw [List.drop_set, if_neg (by omega)]
              have hl' : (s.ls.drop (j + 1))[i - (j + 1)]? = some l := by
                rw [List.getElem?_drop]; rw [show j + 1 + (i - (j + 1)) = i by omega]; exact hl
              refine ((flat_set hl' x hperm).append_left b₂).trans ?_
              rw [← List.append_assoc, List.concat_eq_append]
              exact h4.append_right _

/-- Closing levels changes nothing of this. -/
theorem core_close {L : Ledger} {s : St} {A : List Item} (h : Core L s A) (f : Nat → Level → Bool) (n : Nat) :
    Core L { s with ls := s.ls.mapIdx fun i l => { l with closed := f i l }, last := n } A := by
  have hget : ∀ (i : Nat) (l' : Level), (s.ls.mapIdx fun i l => { l with closed := f i l })[i]? = some l' → ∃ l : Level, s.ls[i]? = some l ∧ l'.snap = l.snap ∧ l'.bs = l.bs := by
    intro i l' hl'
    rw [List.getElem?_mapIdx, Option.map_eq_some_iff] at hl'
    obtain ⟨l, hl, rfl⟩ := hl'
    exact ⟨l, hl, rfl, rfl⟩
  have hput : ∀ (i : Nat) (l : Level), s.ls[i]? = some l → ∃ l' : Level, (s.ls.mapIdx fun i l => { l with closed := f i l })[i]? = some l' ∧ l'.snap = l.snap ∧ l'.bs = l.bs := by
    intro i l hl
    exact ⟨{ l with closed := f i l }, by rw [List.getElem?_mapIdx, hl]; rfl, rfl, rfl⟩
  have htake : ∀ i, flat ((s.ls.mapIdx fun i l => { l with closed := f i l }).take i) = flat (s.ls.take i) := by
    intro i; rw [take_mapIdx]; exact flat_mapIdx f _
  refine ⟨by simpa using h.len, ?_, ?_, ?_, ?_, ?_, ?_, ?_, ?_⟩
  · intro i l' hl' hs
    obtain ⟨l, hl, h1, h2⟩ := hget i l' hl'
    rw [h2]; exact h.form i l hl (h1 ▸ hs)
  · intro i l' hl' hs
    obtain ⟨l, hl, h1, h2⟩ := hget i l' hl'
    rw [h2]; exact h.acc i l hl (h1 ▸ hs)
  · intro i l' hl'
    obtain ⟨l, hl, h1, h2⟩ := hget i l' hl'
    rw [h2]; exact h.nodup i l hl
  · intro i l' hl'
    obtain ⟨l, hl, h1, h2⟩ := hget i l' hl'
    rw [h2]; exact h.owner i l hl
  · intro k o i hk
    obtain ⟨l, hl, h1, h2⟩ := h.all k o i hk
    obtain ⟨l', hl', h3, h4⟩ := hput i l hl
    exact ⟨l', hl', by rw [h3]; exact h1, by rw [h4]; exact h2⟩
  · intro i l' hl'
    obtain ⟨l, hl, h1, h2⟩ := hget i l' hl'
    dsimp only
    rw [h2, htake]; exact h.order i l hl
  · dsimp only; rw [flat_mapIdx]; exact h.perm
  · intro A₁ z A₂ hA hz
    obtain ⟨i, l, b₁, b₂, hl, h1, h2, h3, h4⟩ := h.snaps A₁ z A₂ hA hz
    obtain ⟨l', hl', h5, h6⟩ := hput i l hl
    refine ⟨i, l', b₁, b₂, hl', by rw [h5]; exact h1, by rw [h6]; exact h2, ?_, ?_⟩
    · dsimp only; rw [htake]; exact h3
    · dsimp only; rw [drop_flat_mapIdx]; exact h4

theorem find_mem {s : St} {r : Nat} {e : Option Nat × Nat} (h : s.find r = some e) : (r, e) ∈ s.all := by
  unfold St.find at h
  rw [Option.map_eq_some_iff] at h
  obtain ⟨⟨k, e'⟩, h1, rfl⟩ := h
  have h2 := List.find?_some h1
  simp only [decide_eq_true_eq] at h2
  subst h2
  exact List.mem_of_find?_eq_some h1

/-- What the loop over the references gives. -/
theorem lowest_spec {L : Ledger} {s : St} {A : List Item} {o : Option Nat} (hc : Core L s A) (hs : Shape s) :
    ∀ (rs : List Nat) (m : Nat), m ≤ s.ls.length + 1 → (m = 0 ∨ s.last < m) →
      (∀ m', s.lowest L o rs m = (m', .ok) → m ≤ m' ∧ m' ≤ s.ls.length + 1 ∧ (m' = 0 ∨ s.last < m') ∧
        ∀ r ∈ rs, L.acc r = true ∨ ∃ o' j l, s.find r = some (o', j) ∧ s.ls[j]? = some l ∧ (l.closed = true ∨ (o' = o ∧ j + 1 ≤ m') ∨ j + 2 ≤ m')) ∧
      (∀ m', s.lowest L o rs m = (m', .panic) → ∃ r ∈ rs, ∃ y ∈ A, y.owner = none ∧ r ∈ y.keys) ∧
      (∀ m', s.lowest L o rs m = (m', .noRef) → ∃ r ∈ rs, L.acc r = false ∧ s.find r = none) ∧
      (∀ m', s.lowest L o rs m ≠ (m', .hole) ∧ s.lowest L o rs m ≠ (m', .badLink)) := by
  intro rs
  induction rs with
  | nil =>
    intro m hm hm'
    refine ⟨fun m' h => ?_, fun m' h => by simp [St.lowest] at h, fun m' h => by simp [St.lowest] at h, fun m' => by simp [St.lowest]⟩
    simp only [St.lowest, Prod.mk.injEq, and_true] at h
    subst h
    exact ⟨le_refl _, hm, hm', fun r hr => by cases hr⟩
  | cons r rs ih =>
    intro m hm hm'
    unfold St.lowest
    cases hf : s.find r with
    | none =>
      dsimp only
      by_cases ha : L.acc r = true
      · rw [if_pos ha]
        obtain ⟨h1, h2, h3, h4⟩ := ih m hm hm'
        refine ⟨fun m' h => ?_, fun m' h => ?_, fun m' h => ?_, h4⟩
        · obtain ⟨g1, g2, g3, g4⟩ := h1 m' h
          refine ⟨g1, g2, g3, fun r' hr' => ?_⟩
          rcases List.mem_cons.1 hr' with rfl | hr'
          · exact Or.inl ha
          · exact g4 r' hr'
        · obtain ⟨r', hr', h⟩ := h2 m' h
          exact ⟨r', List.mem_cons_of_mem _ hr', h⟩
        · obtain ⟨r', hr', h⟩ := h3 m' h
          exact ⟨r', List.mem_cons_of_mem _ hr', h⟩
      · rw [if_neg ha]
        refine ⟨fun m' h => by simp at h, fun m' h => by simp at h, fun m' h => ⟨r, List.mem_cons_self, by simpa using ha, hf⟩, fun m' => by simp⟩
    | some e =>
      obtain ⟨o', i⟩ := e
      dsimp only
      obtain ⟨l, hl, hsn, b, hb, y, hy, hyk⟩ := hc.all r o' i (find_mem hf)
      rw [hl]
      dsimp only
      have hil := getElem?_lt' hl
      have step : ∀ m₁, m ≤ m₁ → m₁ ≤ s.ls.length + 1 → (m₁ = 0 ∨ s.last < m₁) → (l.closed = true ∨ (o' = o ∧ i + 1 ≤ m₁) ∨ i + 2 ≤ m₁) →
          (∀ m', s.lowest L o rs m₁ = (m', .ok) → m ≤ m' ∧ m' ≤ s.ls.length + 1 ∧ (m' = 0 ∨ s.last < m') ∧
            ∀ r' ∈ r :: rs, L.acc r' = true ∨ ∃ o' j l, s.find r' = some (o', j) ∧ s.ls[j]? = some l ∧ (l.closed = true ∨ (o' = o ∧ j + 1 ≤ m') ∨ j + 2 ≤ m')) ∧
          (∀ m', s.lowest L o rs m₁ = (m', .panic) → ∃ r' ∈ r :: rs, ∃ y ∈ A, y.owner = none ∧ r' ∈ y.keys) ∧
          (∀ m', s.lowest L o rs m₁ = (m', .noRef) → ∃ r' ∈ r :: rs, L.acc r' = false ∧ s.find r' = none) ∧
          (∀ m', s.lowest L o rs m₁ ≠ (m', .hole) ∧ s.lowest L o rs m₁ ≠ (m', .badLink)) := by
        intro m₁ hmm hml hml' hcase
        obtain ⟨h1, h2, h3, h4⟩ := ih m₁ hml hml'
        refine ⟨fun m' h => ?_, fun m' h => ?_, fun m' h => ?_, h4⟩
        · obtain ⟨g1, g2, g3, g4⟩ := h1 m' h
          refine ⟨by omega, g2, g3, fun r' hr' => ?_⟩
          rcases List.mem_cons.1 hr' with rfl | hr'
          · refine Or.inr ⟨o', i, l, hf, hl, ?_⟩
            rcases hcase with h | ⟨h, h'⟩ | h
            · exact Or.inl h
            · exact Or.inr (Or.inl ⟨h, by omega⟩)
            · exact Or.inr (Or.inr (by omega))
          · exact g4 r' hr'
        · obtain ⟨r', hr', h⟩ := h2 m' h
          exact ⟨r', List.mem_cons_of_mem _ hr', h⟩
        · obtain ⟨r', hr', h⟩ := h3 m' h
          exact ⟨r', List.mem_cons_of_mem _ hr', h⟩
      by_cases hcl : l.closed = true
      · rw [if_pos hcl]
        exact step m (le_refl _) hm hm' (Or.inl hcl)
      · rw [if_neg hcl]
        by_cases hge : i + 1 ≥ m
        · rw [if_pos hge]
          cases o' with
          | none =>
            dsimp only
            refine ⟨fun m' h => by simp at h, fun m' _ => ⟨r, List.mem_cons_self, y, ?_, hc.owner i l hl none b hb y hy, hyk⟩, fun m' h => by simp at h, fun m' => by simp⟩
            exact hc.perm.mem_iff.1 (mem_flat.2 ⟨l, List.mem_of_getElem? hl, _, hb, hy⟩)
          | some a =>
            dsimp only
            have hsn' : l.snap = false := by
              cases hq : l.snap with
              | false => rfl
              | true => have := hsn.1 hq; simp at this
            have hlast : s.last ≤ i := by
              by_contra hlt
              exact hcl (hs.below i l (by omega) hl hsn')
            by_cases ho : some a = o
            · rw [if_pos ho]
              split
              · refine ⟨fun m' h => by simp at h, fun m' h => by simp at h, fun m' h => by simp at h, fun m' => by simp⟩
              · exact step (i + 1) hge (by omega) (Or.inr (by omega)) (Or.inr (Or.inl ⟨ho, le_refl _⟩))
            · rw [if_neg ho]
              split
              · refine ⟨fun m' h => by simp at h, fun m' h => by simp at h, fun m' h => by simp at h, fun m' => by simp⟩
              · exact step (i + 2) (by omega) (by omega) (Or.inr (by omega)) (Or.inr (Or.inr (le_refl _)))
        · rw [if_neg hge]
          split
          · refine ⟨fun m' h => by simp at h, fun m' h => by simp at h, fun m' h => by simp at h, fun m' => by simp⟩
          · exact step m (le_refl _) hm hm' (Or.inr (Or.inr (by omega)))

end Verif.Batch
