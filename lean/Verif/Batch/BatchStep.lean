import Verif.Batch.BatchInv

/-!
# Adding an item keeps what every batch satisfies -/

namespace Verif.Batch

theorem bucket_unique {bs : List (Option Nat × List Item)} (hn : (bs.map (·.1)).Nodup) {o : Option Nat} {b b' : List Item} (h : (o, b) ∈ bs) (h' : (o, b') ∈ bs) : b = b' := by
  induction bs with
  | nil => cases h
  | cons e bs ih =>
    simp only [List.map_cons, List.nodup_cons] at hn
    rcases List.mem_cons.1 h with h | h <;> rcases List.mem_cons.1 h' with h' | h'
    · rw [← h'] at h; exact (Prod.mk.inj h).2
    · exact absurd (List.mem_map.2 ⟨_, h', by rw [← h]⟩) hn.1
    · exact absurd (List.mem_map.2 ⟨_, h, by rw [← h']⟩) hn.1
    · exact ih hn.2 h h'

theorem shape_grow {s : St} (h : Shape s) : Shape { s with ls := s.ls ++ [newLevel false] } := by
  refine ⟨by have := h.last; simp only [List.length_append, List.length_singleton]; omega, ?_, ?_, ?_, ?_⟩
  · intro i l hi hl
    rcases getElem?_append_cases hl with hl | ⟨-, rfl⟩
    · exact h.above i l hi hl
    · exact ⟨rfl, rfl⟩
  · intro h0
    obtain ⟨l, hl, hs⟩ := h.at' h0
    exact ⟨l, by dsimp only; rw [List.getElem?_append_left (getElem?_lt' hl)]; exact hl, hs⟩
  · intro i l hi hl hs
    rcases getElem?_append_cases hl with hl | ⟨hi', rfl⟩
    · exact h.below i l hi hl hs
    · have := h.last; dsimp only at hi; omega
  · intro i l hl hs
    rcases getElem?_append_cases hl with hl | ⟨hi', rfl⟩
    · exact h.open i l hl hs
    · simp [newLevel] at hs

theorem shape_set {s s' : St} (h : Shape s) {i : Nat} {l : Level} {bs : List (Option Nat × List Item)} (hl : s.ls[i]? = some l)
    (hls : s'.ls = s.ls.set i { l with bs := bs }) (hlast : s'.last = s.last) : Shape s' := by
  have hget : ∀ (j : Nat) (m : Level), s'.ls[j]? = some m → ∃ m' : Level, s.ls[j]? = some m' ∧ m.snap = m'.snap ∧ m.closed = m'.closed := by
    intro j m hm
    rw [hls] at hm
    rcases set_get hm with ⟨rfl, rfl⟩ | ⟨-, hm⟩
    · exact ⟨l, hl, rfl, rfl⟩
    · exact ⟨m, hm, rfl, rfl⟩
  refine ⟨by rw [hls, hlast, List.length_set]; exact h.last, ?_, ?_, ?_, ?_⟩
  · intro j m hj hm
    obtain ⟨m', hm', h1, h2⟩ := hget j m hm
    rw [h1, h2]; exact h.above j m' (by omega) hm'
  · intro h0
    rw [hlast] at h0 ⊢
    obtain ⟨m, hm, hs⟩ := h.at' h0
    rw [hls]
    by_cases hij : i = s.last - 1
    · rw [← hij] at hm ⊢
      rw [hl] at hm
      obtain rfl := Option.some.inj hm
      exact ⟨_, List.getElem?_set_self (getElem?_lt' hl), hs⟩
    · exact ⟨m, by rw [List.getElem?_set_ne hij]; exact hm, hs⟩
  · intro j m hj hm hs
    obtain ⟨m', hm', h1, h2⟩ := hget j m hm
    rw [h2]; exact h.below j m' (by omega) hm' (h1 ▸ hs)
  · intro j m hm hs
    obtain ⟨m', hm', h1, h2⟩ := hget j m hm
    rw [h2]; exact h.open j m' hm' (h1 ▸ hs)

theorem take_flat_mem {ls : List Level} {i j : Nat} {l : Level} (hl : ls[j]? = some l) (hji : j < i) {e : Option Nat × List Item} (he : e ∈ l.bs) {y : Item} (hy : y ∈ e.2) :
    y ∈ flat (ls.take i) := by
  refine mem_flat.2 ⟨l, ?_, e, he, hy⟩
  refine List.mem_of_getElem? (i := j) ?_
  rw [List.getElem?_take, if_pos hji]; exact hl

/-- An account block that is put above the last snapshot level and above what it refers to. -/
theorem put_acc {L : Ledger} {s s' : St} {A : List Item} {x : Item} {i : Nat} {out : Out} (hc : Core L s A) (hs : Shape s) (ho : x.owner ≠ none)
    (hi : s.last ≤ i) (hil : i < s.ls.length)
    (hav : ∀ r ∈ x.refs, L.acc r = true ∨ ∃ o' j l, s.find r = some (o', j) ∧ s.ls[j]? = some l ∧ (l.closed = true ∨ (o' = x.owner ∧ j ≤ i) ∨ j + 1 ≤ i))
    (hput : s.put i x = (s', out)) : (out = .ok ∧ Core L s' (A ++ [x]) ∧ Shape s') ∨ (out = .badLink ∧ s' = s) := by
  have hl : s.ls[i]? = some s.ls[i] := List.getElem?_eq_getElem hil
  obtain ⟨hsn, hcl⟩ := hs.above i _ hi hl
  cases hbs : bucketsAdd s.ls[i].bs x with
  | none =>
    unfold St.put at hput
    rw [hl] at hput
    dsimp only at hput
    rw [if_neg (by simp [hcl]), hbs] at hput
    simp only [Prod.mk.injEq] at hput
    exact Or.inr ⟨hput.2.symm, hput.1.symm⟩
  | some bs =>
    have hout : out = .ok := by
      unfold St.put at hput
      rw [hl] at hput
      dsimp only at hput
      rw [if_neg (by simp [hcl]), hbs] at hput
      simp only [Prod.mk.injEq] at hput
      exact hput.2.symm
    subst hout
    have key := core_put hc hl hput (by rw [hsn]; simp [ho]) ?_ (fun h => absurd h ho) ?_
    · obtain ⟨h1, h2, h3, bs', h4⟩ := key
      exact Or.inl ⟨rfl, h1, shape_set hs hl h4 h2⟩
    · intro j m hm hsm
      by_contra hlt
      have := (hs.above j m (by omega) hm).1
      rw [hsm] at this; simp at this
    · intro b hb
      refine ⟨fun r hr => ?_, fun h => absurd h ho⟩
      rcases hav r hr with h | ⟨o', j, l, hf, hlj, hcase⟩
      · exact Or.inl h
      · obtain ⟨l', hl', -, c, hcm, y, hy, hyk⟩ := hc.all r o' j (find_mem hf)
        rw [hlj] at hl'
        obtain rfl := Option.some.inj hl'
        have low : j < i → L.acc r = true ∨ ∃ y ∈ flat (s.ls.take i) ++ b, r ∈ y.keys := fun hji =>
          Or.inr ⟨y, List.mem_append_left _ (take_flat_mem hlj hji hcm hy), hyk⟩
        rcases hcase with hcl' | ⟨rfl, hji⟩ | hji
        · refine low ?_
          by_contra hlt
          have := (hs.above j l (by omega) hlj).2
          rw [hcl'] at this; simp at this
        · rcases Nat.lt_or_ge j i with h | h
          · exact low h
          · have : j = i := by omega
            subst this
            rw [hl] at hlj
            obtain rfl := Option.some.inj hlj
            rcases hb with hb | ⟨-, hb⟩
            · have := bucket_unique (hc.nodup j _ hl) hb hcm
              subst this
              exact Or.inr ⟨y, List.mem_append_right _ hy, hyk⟩
            · exact absurd rfl (hb _ hcm)
        · exact low (by omega)

/-- What adding an account block does. -/
theorem addA_spec {L : Ledger} {s s' : St} {A : List Item} {x : Item} {out : Out} (hc : Core L s A) (hs : Shape s) (ho : x.owner ≠ none)
    (h : s.addA L x = (s', out)) :
    (out = .ok ∧ Core L s' (A ++ [x]) ∧ Shape s') ∨ (s' = s ∧ ((out = .panic ∧ ∃ r ∈ x.refs, ∃ y ∈ A, y.owner = none ∧ r ∈ y.keys) ∨
      (out = .noRef ∧ ∃ r ∈ x.refs, L.acc r = false ∧ s.find r = none) ∨ out = .full ∨ out = .badLink)) := by
  obtain ⟨k1, k2, k3, k4⟩ := lowest_spec (o := x.owner) hc hs x.refs 0 (by omega) (Or.inl rfl)
  unfold St.addA at h
  rcases hlow : s.lowest L x.owner x.refs 0 with ⟨m, o⟩
  rw [hlow] at h
  cases o with
  | panic => simp only [Prod.mk.injEq] at h; exact Or.inr ⟨h.1.symm, Or.inl ⟨h.2.symm, k2 m hlow⟩⟩
  | noRef => simp only [Prod.mk.injEq] at h; exact Or.inr ⟨h.1.symm, Or.inr (Or.inl ⟨h.2.symm, k3 m hlow⟩)⟩
  | full => simp only [Prod.mk.injEq] at h; exact Or.inr ⟨h.1.symm, Or.inr (Or.inr (Or.inl h.2.symm))⟩
  | hole => exact absurd hlow (k4 m).1
  | badLink => exact absurd hlow (k4 m).2
  | ok =>
    dsimp only at h
    obtain ⟨-, g2, g3, g4⟩ := k1 m hlow
    unfold St.place at h
    have hlast := hs.last
    generalize hm : (if m = 0 then s.last + 1 else m) = m₀ at h
    have hm0 : s.last < m₀ ∧ m₀ ≤ s.ls.length + 1 ∧ m ≤ m₀ := by
      subst hm
      split <;> omega
    dsimp only at h
    have hav : ∀ r ∈ x.refs, L.acc r = true ∨ ∃ o' j l, s.find r = some (o', j) ∧ s.ls[j]? = some l ∧ (l.closed = true ∨ (o' = x.owner ∧ j ≤ m₀ - 1) ∨ j + 1 ≤ m₀ - 1) := by
      intro r hr
      rcases g4 r hr with h | ⟨o', j, l, h1, h2, h3⟩
      · exact Or.inl h
      · refine Or.inr ⟨o', j, l, h1, h2, ?_⟩
        rcases h3 with h3 | ⟨h3, h4⟩ | h3
        · exact Or.inl h3
        · exact Or.inr (Or.inl ⟨h3, by omega⟩)
        · exact Or.inr (Or.inr (by omega))
    split at h
    · simp only [Prod.mk.injEq] at h
      exact Or.inr ⟨h.1.symm, Or.inr (Or.inr (Or.inl h.2.symm))⟩
    · rename_i hcap
      split at h
      · rename_i hgt
        unfold St.putNew at h
        rw [if_pos (by omega)] at h
        have hav' : ∀ r ∈ x.refs, L.acc r = true ∨ ∃ o' j l, St.find { s with ls := s.ls ++ [newLevel false] } r = some (o', j) ∧ (s.ls ++ [newLevel false])[j]? = some l ∧
            (l.closed = true ∨ (o' = x.owner ∧ j ≤ m₀ - 1) ∨ j + 1 ≤ m₀ - 1) := by
          intro r hr
          rcases hav r hr with h | ⟨o', j, l, h1, h2, h3⟩
          · exact Or.inl h
          · exact Or.inr ⟨o', j, l, h1, by rw [List.getElem?_append_left (getElem?_lt' h2)]; exact h2, h3⟩
        rcases put_acc (core_grow hc false (by omega)) (shape_grow hs) ho (by dsimp only; omega) (by simp; omega) hav' h with h' | ⟨h', hs'⟩
        · exact Or.inl h'
        · exfalso
          have hadd := bucketsAdd_newLevel x false
          unfold St.put at h
          have hidx : m₀ - 1 = s.ls.length := by omega
          dsimp only at h
          rw [hidx, List.getElem?_concat_length] at h
          dsimp only at h
          rw [if_neg (by simp [newLevel])] at h
          obtain ⟨bs, hbs⟩ := Option.isSome_iff_exists.1 hadd
          rw [hbs] at h
          simp only [Prod.mk.injEq] at h
          rw [h'] at h
          simp at h
      · rename_i hle
        have hpos : 0 < s.ls.length := by omega
        have hlastl : s.ls.getLast? = some (s.ls[s.ls.length - 1]'(by omega)) := by
          rw [List.getLast?_eq_getElem?, List.getElem?_eq_getElem (by omega)]
        rw [hlastl] at h
        dsimp only at h
        have hsn := (hs.above (s.ls.length - 1) _ (by omega) (List.getElem?_eq_getElem (by omega))).1
        rw [if_neg (by simp [hsn])] at h
        rcases put_acc hc hs ho (by omega) (by omega) hav h with h' | ⟨h', hs'⟩
        · exact Or.inl h'
        · exact Or.inr ⟨hs', Or.inr (Or.inr (Or.inr h'))⟩

/-- Putting a snapshot block into the last level, which is a snapshot level, and closing the levels below. -/
theorem put_snap {L : Ledger} {s s' : St} {A : List Item} {x : Item} {i : Nat} {out : Out} {b : List Item} {l : Level} (hc : Core L s A) (ho : x.owner = none)
    (hlen : s.ls.length = i + 1) (hl : s.ls[i]? = some l) (hsn : l.snap = true) (hbs : l.bs = [(none, b)])
    (hlast : s.last ≤ i + 1)
    (hab : ∀ (j : Nat) (m : Level), s.last ≤ j → j < i → s.ls[j]? = some m → m.snap = false ∧ m.closed = false)
    (hbe : ∀ (j : Nat) (m : Level), j < s.last → s.ls[j]? = some m → m.snap = false → m.closed = true)
    (hop : ∀ (j : Nat) (m : Level), s.ls[j]? = some m → m.snap = true → m.closed = false)
    (hav : Avail L (flat s.ls) x)
    (hput : closeUp (s.put i x) i = (s', out)) :
    (out = .ok ∧ Core L s' (A ++ [x]) ∧ Shape s') ∨ (out = .badLink ∧ b ≠ [] ∧ (s.last = i + 1 → s' = s)) := by
  have hcl : l.closed = false := hop i l hl hsn
  have hshape : ∀ s₂ : St, (∀ (j : Nat) (m : Level), s₂.ls[j]? = some m → ∃ m' : Level, s.ls[j]? = some m' ∧ m.snap = m'.snap ∧ m.closed = m'.closed) → s₂.ls.length = i + 1 →
      (∃ m, s₂.ls[i]? = some m ∧ m.snap = true) →
      Shape { s₂ with ls := s₂.ls.mapIdx fun j m => { m with closed := m.closed || decide (s.last ≤ j ∧ j < i) }, last := i + 1 } := by
    intro s₂ hget hlen2 hi2
    refine ⟨by simp [hlen2], ?_, ?_, ?_, ?_⟩
    · intro j m hj hm
      have := getElem?_lt' hm
      rw [List.length_mapIdx] at this
      dsimp only at hj; omega
    · intro _
      obtain ⟨m, hm, hms⟩ := hi2
      refine ⟨{ m with closed := m.closed || decide (s.last ≤ i ∧ i < i) }, ?_, hms⟩
      dsimp only
      rw [Nat.add_sub_cancel, List.getElem?_mapIdx, hm]; rfl
    · intro j m hj hm hms
      dsimp only at hm hj
      rw [List.getElem?_mapIdx, Option.map_eq_some_iff] at hm
      obtain ⟨m₂, hm₂, rfl⟩ := hm
      dsimp only at hms ⊢
      obtain ⟨m', hm', h1, h2⟩ := hget j m₂ hm₂
      rcases Nat.lt_or_ge j s.last with hlt | hge
      · rw [h2, hbe j m' hlt hm' (h1 ▸ hms)]; rfl
      · have : j < i := by
          rcases Nat.lt_or_ge j i with h | h
          · exact h
          · have : j = i := by omega
            subst this
            rw [hl] at hm'
            obtain rfl := Option.some.inj hm'
            rw [h1, hsn] at hms; simp at hms
        rw [decide_eq_true (And.intro hge this), Bool.or_true]
    · intro j m hm hms
      dsimp only at hm
      rw [List.getElem?_mapIdx, Option.map_eq_some_iff] at hm
      obtain ⟨m₂, hm₂, rfl⟩ := hm
      dsimp only at hms ⊢
      obtain ⟨m', hm', h1, h2⟩ := hget j m₂ hm₂
      rw [h2, hop j m' hm' (h1 ▸ hms), Bool.false_or, decide_eq_false_iff_not]
      rintro ⟨h3, h4⟩
      have := (hab j m' h3 h4 hm').1
      rw [← h1, hms] at this; simp at this
  have hflat : flat (s.ls.take i) ++ b = flat s.ls := by
    rw [flat_split hl, List.drop_eq_nil_of_le (by omega)]
    simp [flat, Level.items, hbs]
  cases hadd : bucketsAdd l.bs x with
  | none =>
    have hp : s.put i x = (s, .badLink) := by
      unfold St.put
      rw [hl]; dsimp only
      rw [if_neg (by simp [hcl]), hadd]
    rw [hp] at hput
    unfold closeUp at hput
    rw [if_neg (by simp)] at hput
    dsimp only at hput
    obtain ⟨ls', hls'⟩ := closeFrom_isSome (n := s.last) (m := i) (ls := s.ls) (fun j m h1 h2 hm => (hab j m h1 h2 hm).2)
    rw [hls'] at hput
    simp only [Prod.mk.injEq] at hput
    refine Or.inr ⟨hput.2.symm, ?_, ?_⟩
    · intro hb
      rw [hbs, hb] at hadd
      simp [bucketsAdd, bucketAdd, ho] at hadd
    · intro hlast'
      rw [← hput.1, closeFrom_spec hls']
      obtain ⟨cap, ls, last, all⟩ := s
      dsimp only at hlast' ⊢
      subst hlast'
      congr 1
      refine List.mapIdx_eq_iff.2 fun j => ?_
      rw [show decide (i + 1 ≤ j ∧ j < i) = false from decide_eq_false (by omega)]
      simp
  | some bs =>
    have hp : s.put i x = ({ s with ls := s.ls.set i { l with bs := bs }, all := x.keys.map (fun k => (k, (x.owner, i))) ++ s.all }, .ok) := by
      unfold St.put
      rw [hl]; dsimp only
      rw [if_neg (by simp [hcl]), hadd]
    have key := core_put hc hl hp (by rw [hsn]; simp [ho]) ?_ (fun _ => hlen.symm) ?_
    · obtain ⟨h1, h2, h3, -⟩ := key
      rw [hp] at hput
      unfold closeUp at hput
      rw [if_neg (by simp)] at hput
      dsimp only at hput
      have hget : ∀ (j : Nat) (m : Level), (s.ls.set i { l with bs := bs })[j]? = some m → ∃ m' : Level, s.ls[j]? = some m' ∧ m.snap = m'.snap ∧ m.closed = m'.closed := by
        intro j m hm
        rcases set_get hm with ⟨rfl, rfl⟩ | ⟨-, hm⟩
        · exact ⟨l, hl, rfl, rfl⟩
        · exact ⟨m, hm, rfl, rfl⟩
      obtain ⟨ls', hls'⟩ := closeFrom_isSome (n := s.last) (m := i) (ls := s.ls.set i { l with bs := bs }) (fun j m h1 h2 hm => by
        obtain ⟨m', hm', -, h4⟩ := hget j m hm
        rw [h4]; exact (hab j m' h1 h2 hm').2)
      rw [hls'] at hput
      simp only [Prod.mk.injEq] at hput
      refine Or.inl ⟨hput.2.symm, ?_, ?_⟩
      · rw [← hput.1, closeFrom_spec hls']
        exact core_close h1 (fun j m => m.closed || decide (s.last ≤ j ∧ j < i)) (i + 1)
      · rw [← hput.1, closeFrom_spec hls']
        exact hshape { s with ls := s.ls.set i { l with bs := bs }, all := x.keys.map (fun k => (k, (x.owner, i))) ++ s.all } hget (by simpa using hlen)
          ⟨_, List.getElem?_set_self (getElem?_lt' hl), hsn⟩
    · intro j m hm _
      have := getElem?_lt' hm; omega
    · intro c hcm
      have : c = b := by
        rcases hcm with hcm | ⟨-, hcm⟩
        · rw [hbs, ho] at hcm; simpa using hcm
        · exact absurd ho.symm (hcm (none, b) (by rw [hbs]; simp))
      rw [this, hflat]; exact hav

/-- What adding a snapshot block does. -/
theorem addS_spec {L : Ledger} {s s' : St} {A : List Item} {x : Item} {out : Out} (hcap : 0 < s.cap) (hc : Core L s A) (hs : Shape s) (ho : x.owner = none)
    (h : s.addS L x = (s', out)) :
    (out = .ok ∧ Core L s' (A ++ [x]) ∧ Shape s') ∨ (s' = s ∧ ((out = .noRef ∧ ((∃ r ∈ x.refs, L.acc r = false ∧ s.find r = none) ∨
      ∃ r, x.sref = some r ∧ L.snap r = false ∧ s.find r = none)) ∨ out = .full ∨ out = .badLink)) := by
  have hin : ∀ r e, s.find r = some e → ∃ y ∈ flat s.ls, r ∈ y.keys := by
    rintro r ⟨o, i⟩ hr
    obtain ⟨l, hl, -, b, hb, y, hy, hyk⟩ := hc.all r o i (find_mem hr)
    exact ⟨y, mem_flat.2 ⟨l, List.mem_of_getElem? hl, _, hb, hy⟩, hyk⟩
  unfold St.addS at h
  split at h
  · rename_i hk
    simp only [Prod.mk.injEq] at h
    refine Or.inr ⟨h.1.symm, Or.inl ⟨h.2.symm, Or.inl ?_⟩⟩
    simp only [St.known, Bool.not_eq_true', List.all_eq_false, Bool.or_eq_true, not_or, Bool.not_eq_true, Option.isSome_eq_false_iff, Option.isNone_iff_eq_none] at hk
    obtain ⟨r, hr, h1, h2⟩ := hk
    exact ⟨r, hr, h2, h1⟩
  · rename_i hk
    split at h
    · rename_i hk2
      simp only [Prod.mk.injEq] at h
      refine Or.inr ⟨h.1.symm, Or.inl ⟨h.2.symm, Or.inr ?_⟩⟩
      unfold St.knownS at hk2
      split at hk2
      · simp at hk2
      · rename_i r hr
        simp only [Bool.not_eq_true', Bool.or_eq_false_iff, Option.isSome_eq_false_iff, Option.isNone_iff_eq_none] at hk2
        exact ⟨r, hr, hk2.2, hk2.1⟩
    · rename_i hk2
      have hav : Avail L (flat s.ls) x := by
        refine ⟨fun r hr => ?_, fun _ r hr => ?_⟩
        · simp only [St.known, Bool.not_eq_true', Bool.not_eq_false, List.all_eq_true] at hk
          have := hk r hr
          rw [Bool.or_eq_true] at this
          rcases this with h | h
          · obtain ⟨e, he⟩ := Option.isSome_iff_exists.1 h
            exact Or.inr (hin r e he)
          · exact Or.inl h
        · rw [hr] at hk2
          simp only [St.knownS, Bool.not_eq_true', Bool.not_eq_false, Bool.or_eq_true] at hk2
          rcases hk2 with h | h
          · obtain ⟨e, he⟩ := Option.isSome_iff_exists.1 h
            exact Or.inr (hin r e he)
          · exact Or.inl h
      have grown : ∀ (hlt : s.ls.length < s.cap), closeUp (St.put { s with ls := s.ls ++ [newLevel true] } s.ls.length x) s.ls.length = (s', out) →
          out = .ok ∧ Core L s' (A ++ [x]) ∧ Shape s' := by
        intro hlt h
        have hg : ∀ (j : Nat) (m : Level), (s.ls ++ [newLevel true])[j]? = some m → s.ls[j]? = some m ∨ (j = s.ls.length ∧ m = newLevel true) := fun j m hm => getElem?_append_cases hm
        have g1 : ∀ (j : Nat) (m : Level), s.last ≤ j → j < s.ls.length → (s.ls ++ [newLevel true])[j]? = some m → m.snap = false ∧ m.closed = false := by
          intro j m h1 h2 hm
          rcases hg j m hm with hm | ⟨h3, -⟩
          · exact hs.above j m h1 hm
          · omega
        have g2 : ∀ (j : Nat) (m : Level), j < s.last → (s.ls ++ [newLevel true])[j]? = some m → m.snap = false → m.closed = true := by
          intro j m h1 hm hms
          rcases hg j m hm with hm | ⟨h3, rfl⟩
          · exact hs.below j m h1 hm hms
          · simp [newLevel] at hms
        have g3 : ∀ (j : Nat) (m : Level), (s.ls ++ [newLevel true])[j]? = some m → m.snap = true → m.closed = false := by
          intro j m hm hms
          rcases hg j m hm with hm | ⟨h3, rfl⟩
          · exact hs.open j m hm hms
          · rfl
        have g4 : Avail L (flat (s.ls ++ [newLevel true])) x := by
          rw [show flat (s.ls ++ [newLevel true]) = flat s.ls by simp [flat, newLevel_items]]
          exact hav
        have hlast := hs.last
        have := put_snap (core_grow hc true hlt) ho (by simp) (by simp) (l := newLevel true) (b := []) rfl rfl (by dsimp only; omega) g1 g2 g3 g4 h
        rcases this with h' | ⟨-, h', -⟩
        · exact h'
        · exact absurd rfl h'
      split at h
      · rename_i hnone
        have hnil : s.ls = [] := by simpa using hnone
        rw [if_neg (by omega)] at h
        have h0 : s.ls.length = 0 := by rw [hnil]; rfl
        exact Or.inl (grown (by omega) (by rw [h0]; exact h))
      · rename_i l hlastl
        have hpos : 0 < s.ls.length := by
          cases hls : s.ls with
          | nil => rw [hls] at hlastl; simp at hlastl
          | cons a as => simp
        have hl : s.ls[s.ls.length - 1]? = some l := by rw [← List.getLast?_eq_getElem?]; exact hlastl
        split at h
        · rename_i hsn
          have hlast : s.last = s.ls.length := by
            by_contra hne
            have := hs.last
            have := (hs.above (s.ls.length - 1) l (by omega) hl).1
            rw [hsn] at this; simp at this
          obtain ⟨b, hb⟩ := hc.form _ l hl hsn
          rcases put_snap hc ho (by omega) hl hsn hb (by omega) (fun j m h1 h2 hm => (by have := getElem?_lt' hm; omega)) hs.below hs.open hav h with h' | ⟨h1, -, h2⟩
          · exact Or.inl h'
          · exact Or.inr ⟨h2 (by omega), Or.inr (Or.inr h1)⟩
        · split at h
          · simp only [Prod.mk.injEq] at h
            exact Or.inr ⟨h.1.symm, Or.inr (Or.inl h.2.symm)⟩
          · exact Or.inl (grown (by omega) h)

end Verif.Batch
