import Verif.Road.RoadCut

/-!
Events keep the pool exact.
-/

namespace Verif.Road

open Verif.Lattice

variable {U : Blk → Prop} {g : Cfg} {c : Chain}

theorem get_filter_ne {K V : Type} [DecidableEq K] (k k' : K) (t : Table K V) :
    Table.get k (t.filter (fun x => x.1 ≠ k')) = if k = k' then none else Table.get k t := by
  induction t with
  | nil => simp [Table.get]
  | cons x xs ih =>
    by_cases hx : x.1 = k'
    · rw [List.filter_cons_of_neg (by simpa using hx), ih]
      split
      · rfl
      · rename_i hk
        rw [Table.get, if_neg (by rw [hx]; exact fun e => hk e.symm)]
    · rw [List.filter_cons_of_pos (by simpa using hx)]
      simp only [Table.get]
      by_cases h2 : x.1 = k
      · rw [if_pos h2, if_pos h2, if_neg (by rw [← h2]; exact hx)]
      · rw [if_neg h2, if_neg h2, ih]

theorem Pool.rm_known {p : Pool} {k : RKey} (h : k.dest ∈ p.known) :
    ∃ p', p.rm k = some p' ∧ p'.txs = p.txs.filter (fun t => t.1 ≠ k) ∧ p'.known = p.known := by
  unfold Pool.rm
  rw [if_pos h]
  refine ⟨_, rfl, ?_⟩
  split <;> exact ⟨rfl, rfl⟩

/-- What events of different keys do. -/
theorem play_ok : ∀ (es : List Ev) (p : Pool), (es.map Ev.key).Nodup → Table.Proper p.txs → (∀ k, Ev.rm k ∈ es → k.dest ∈ p.known) →
    ∃ p', p.play es = some p' ∧ Table.Proper p'.txs ∧ (∀ k i, Ev.add k i ∈ es → Table.get k p'.txs = some i) ∧
      (∀ k, Ev.rm k ∈ es → Table.get k p'.txs = none) ∧ (∀ k, k ∉ es.map Ev.key → Table.get k p'.txs = Table.get k p.txs) ∧
      (∀ a ∈ p.known, a ∈ p'.known) ∧ (∀ k i, Ev.add k i ∈ es → k.dest ∈ p'.known) := by
  intro es
  induction es with
  | nil => intro p _ hp _; exact ⟨p, rfl, hp, by simp, by simp, by simp, by simp, by simp⟩
  | cons e es ih =>
    intro p hn hp hk
    simp only [List.map_cons, List.nodup_cons] at hn
    have hmem : ∀ e' ∈ es, e'.key ∈ es.map Ev.key := fun e' he' => List.mem_map_of_mem he'
    cases e with
    | add k i =>
      have hkn : ∀ a ∈ p.known, a ∈ (p.add k i).known := by
        intro a ha; unfold Pool.add; dsimp only; split <;> simp [ha]
      have hkd : k.dest ∈ (p.add k i).known := by
        unfold Pool.add; dsimp only; split
        · assumption
        · simp
      obtain ⟨p', e1, e2, e3, e4, e5, e6, e7⟩ := ih (p.add k i) hn.2 (Table.proper_put _ _ hp)
        (fun k' h => hkn _ (hk k' (List.mem_cons_of_mem _ h)))
      refine ⟨p', by simp [Pool.play, Pool.play1, e1], e2, ?_, ?_, ?_, fun a ha => e6 a (hkn a ha), ?_⟩
      · intro k' i' h
        rcases List.mem_cons.mp h with h | h
        · injection h with h1 h2
          subst h1; subst h2
          rw [e5 k' hn.1]
          exact Table.get_put_self _ _ _
        · exact e3 k' i' h
      · intro k' h
        rcases List.mem_cons.mp h with h | h
        · cases h
        · exact e4 k' h
      · intro k' h
        simp only [List.map_cons, List.mem_cons, not_or] at h
        rw [e5 _ h.2]
        exact Table.get_put_ne h.1 _ _
      · intro k' i' h
        rcases List.mem_cons.mp h with h | h
        · injection h with h1 h2
          subst h1
          exact e6 _ hkd
        · exact e7 k' i' h
    | rm k =>
      obtain ⟨p1, q1, q2, q3⟩ := Pool.rm_known (hk k List.mem_cons_self)
      obtain ⟨p', e1, e2, e3, e4, e5, e6, e7⟩ := ih p1 hn.2 (by
        rw [q2]
        exact hp.sublist (List.filter_sublist.map _)) (by
        rw [q3]; exact fun k' h => hk k' (List.mem_cons_of_mem _ h))
      refine ⟨p', by simp [Pool.play, Pool.play1, q1, e1], e2, ?_, ?_, ?_, fun a ha => e6 a (by rw [q3]; exact ha), ?_⟩
      · intro k' i' h
        rcases List.mem_cons.mp h with h | h
        · cases h
        · exact e3 k' i' h
      · intro k' h
        rcases List.mem_cons.mp h with h | h
        · injection h with h1
          subst h1
          rw [e5 k' hn.1, q2, get_filter_ne, if_pos rfl]
        · exact e4 k' h
      · intro k' h
        simp only [List.map_cons, List.mem_cons, not_or] at h
        rw [e5 _ h.2, q2, get_filter_ne, if_neg (show ¬ k' = k from h.1)]
      · intro k' i' h
        rcases List.mem_cons.mp h with h | h
        · cases h
        · exact e7 k' i' h

/-! ### Sends by key -/

theorem sent_of {L : List Blk} {d : Blk} (hd : d ∈ L) {i : Nat} {s : Snd} (h : d.outs[i]? = some s) :
    Sent L (keyOf d s).dest (keyOf d s).caller (keyOf d s).height i (keyOf d s).hash := ⟨d, hd, rfl, rfl, h⟩

theorem key_inj (S : Sound U) {L : List Blk} (w : Ledger U L) {d d' : Blk} (hd : d ∈ L) (hd' : d' ∈ L) {s s' : Snd} (hs : s ∈ d.outs) (hs' : s' ∈ d'.outs)
    (e : s.hash = s'.hash) : d = d' ∧ s = s' := by
  have h1 := w.ids S hd hd' (outs_ids hs) (e ▸ outs_ids hs')
  subst h1
  exact ⟨rfl, outs_inj S (w.known d hd) hs hs' e⟩

theorem index_inj (S : Sound U) {d : Blk} (hU : U d) {i j : Nat} {s s' : Snd} (hi : d.outs[i]? = some s) (hj : d.outs[j]? = some s')
    (e : s.hash = s'.hash) : i = j := by
  have hn : (d.outs.map (·.hash)).Nodup := by
    cases hs : d.isSend with
    | true => rw [outs_send S hU hs]; simp
    | false => rw [outs_recv (by simp [Blk.isRecv, hs])]; exact sends_nodup S hU
  have hi' : (d.outs.map (·.hash))[i]? = some s.hash := by rw [List.getElem?_map, hi]; rfl
  have hj' : (d.outs.map (·.hash))[j]? = some s.hash := by rw [List.getElem?_map, hj, e]; rfl
  have hlt : i < (d.outs.map (·.hash)).length := (List.getElem?_eq_some_iff.mp hi').1
  exact (List.nodup_iff_getElem?_ne_getElem?.mp hn |> fun H => by
    by_contra hne
    rcases Nat.lt_or_gt_of_ne hne with h | h
    · exact H i j h (List.getElem?_eq_some_iff.mp hj').1 (hi'.trans hj'.symm)
    · exact H j i h hlt (hj'.trans hi'.symm))

/-- The parts of a send are determined by its hash. -/
theorem sent_unique (S : Sound U) {L : List Blk} (w : Ledger U L) {a x n i a' x' n' i' h : Nat} (h1 : Sent L a x n i h) (h2 : Sent L a' x' n' i' h) :
    a = a' ∧ x = x' ∧ n = n' ∧ i = i' := by
  obtain ⟨d, hd, e1, e2, e3⟩ := h1
  obtain ⟨d', hd', e1', e2', e3'⟩ := h2
  obtain ⟨q1, q2⟩ := key_inj S w hd hd' (List.mem_of_getElem? e3) (List.mem_of_getElem? e3') rfl
  subst q1
  injection q2 with _ q3
  exact ⟨q3, e1.symm.trans e1', e2.symm.trans e2', index_inj S (w.known d hd) e3 e3' rfl⟩

/-! ### Insertion and deletion -/

theorem PoolOk.insert (S : Sound U) {c : Chain} {L : List Blk} {b : Blk} {p : Pool} (I : Inv U c) (e : c.all = L ++ [b])
    (P : PoolOk g L p) {es : List Ev} (E : EvOk g c.all [b] true es) {es' : List Ev} (hp : es'.Perm es) :
    ∃ p', p.play es' = some p' ∧ PoolOk g c.all p' := by
  have w := I.ledger
  have hL : ∀ d, d ∈ c.all ↔ d ∈ L ∨ d = b := by intro d; rw [e]; simp
  have hbL : b ∉ L := by
    have := w.nodup
    rw [e, List.nodup_append] at this
    exact fun h => this.2.2 b h b (by simp) rfl
  have hba : b ∈ c.all := (hL b).mpr (.inr rfl)
  have hord : ∀ r ∈ L, ∀ s ∈ b.outs, r.takes s.hash = false := by
    intro r hr s hs'
    have o := w.order
    rw [e, List.pairwise_append] at o
    cases q : r.takes s.hash with
    | false => rfl
    | true => exact absurd (.inr ⟨s, hs', q⟩) (o.2.2 r hr b (by simp))
  have hm : ∀ x, x ∈ es' ↔ x ∈ es := fun x => hp.mem_iff
  -- a send taken was waiting
  have hrm : ∀ k, Ev.rm k ∈ es → ∃ d ∈ L, ∃ (i : Nat) (s : Snd), d.outs[i]? = some s ∧ g.contract s.dest = true ∧ k = keyOf d s ∧ b.takes s.hash = true ∧
      Waiting L k.dest k.caller k.height i k.hash := by
    intro k hk
    obtain ⟨d, hd, i, s, hi, hc, ⟨hf, he⟩ | ⟨⟨hn, r, hr, ht⟩, he⟩⟩ := E.only _ hk
    · simp at he
    · simp only [if_true] at he
      injection he with he
      simp only [List.mem_singleton] at hn hr
      subst hr
      have hdL : d ∈ L := ((hL d).mp hd).resolve_right hn
      refine ⟨d, hdL, i, s, hi, hc, he, ht, ?_⟩
      rw [he]
      refine ⟨sent_of hdL hi, ?_⟩
      intro x hx
      cases q : x.takes s.hash with
      | false => exact q
      | true =>
        have := w.once x ((hL x).mpr (.inl hx)) r hba _ q ht
        exact absurd (this ▸ hx) hbL
  have hadd : ∀ k v, Ev.add k v ∈ es → ∃ (i : Nat) (s : Snd), b.outs[i]? = some s ∧ g.contract s.dest = true ∧ k = keyOf b s ∧ v = some i := by
    intro k v hk
    obtain ⟨d, hd, i, s, hi, hc, ⟨hf, he⟩ | ⟨ht, he⟩⟩ := E.only _ hk
    · simp only [if_true] at he
      injection he with h1 h2
      have := hf.1
      simp only [List.mem_singleton] at this
      subst this
      exact ⟨i, s, hi, hc, h1, h2⟩
    · simp at he
  obtain ⟨p', e1, e2, e3, e4, e5, e6, e7⟩ := play_ok es' p ((hp.map _).nodup_iff.mpr E.nodup) P.proper (by
    intro k hk
    obtain ⟨d, _, i, s, _, hc, e, _, hw⟩ := hrm k ((hm _).mp hk)
    obtain ⟨v, hv⟩ := P.full k.dest k.caller k.height i k.hash (by rw [e]; exact hc) hw
    exact P.known _ v hv)
  refine ⟨p', e1, e2, ?_, ?_, ?_⟩
  · intro k v hv
    by_cases hk : k ∈ es'.map Ev.key
    · obtain ⟨ev, hev, rfl⟩ := List.mem_map.mp hk
      cases ev with
      | rm k => rw [show (Ev.rm k).key = k from rfl, e4 k hev] at hv; cases hv
      | add k i0 =>
        rw [show (Ev.add k i0).key = k from rfl, e3 k i0 hev] at hv
        injection hv with hv
        obtain ⟨i, s, hi, hc, ek, ei⟩ := hadd k i0 ((hm _).mp hev)
        show g.contract k.dest = true ∧ _
        refine ⟨by rw [ek]; exact hc, i, ?_, .inl (hv.symm.trans ei)⟩
        show Waiting _ k.dest k.caller k.height i k.hash
        rw [ek]
        refine ⟨sent_of hba hi, ?_⟩
        intro r hr
        rcases (hL r).mp hr with hr | hr
        · exact hord r hr s (List.mem_of_getElem? hi)
        · subst hr; exact w.own r hba s (List.mem_of_getElem? hi)
    · rw [e5 k hk] at hv
      obtain ⟨hc, i, ⟨hsent, hnot⟩, hi⟩ := P.right k v hv
      refine ⟨hc, i, ⟨?_, ?_⟩, hi⟩
      · obtain ⟨d, hd, r⟩ := hsent
        exact ⟨d, (hL d).mpr (.inl hd), r⟩
      · intro r hr
        rcases (hL r).mp hr with hr | hr
        · exact hnot r hr
        · subst hr
          cases q : r.takes k.hash with
          | false => rfl
          | true =>
            obtain ⟨d, hd, r1, r2, r3⟩ := hsent
            have hda := (hL d).mpr (.inl hd)
            have := E.taken d hda i ⟨k.hash, k.dest⟩ r3 hc ⟨by simp only [List.mem_singleton]; rintro rfl; exact hbL hd, r, by simp, q⟩
            simp only [if_true] at this
            have hk' : keyOf d ⟨k.hash, k.dest⟩ = k := by unfold keyOf; rw [r1, r2]
            rw [hk'] at this
            exact absurd (List.mem_map_of_mem (f := Ev.key) ((hm _).mpr this)) hk
  · intro a x n i h hc hw
    obtain ⟨⟨d, hd, r1, r2, r3⟩, hnot⟩ := hw
    rcases (hL d).mp hd with hdL | hdb
    · have hwL : Waiting L a x n i h := ⟨⟨d, hdL, r1, r2, r3⟩, fun r hr => hnot r ((hL r).mpr (.inl hr))⟩
      obtain ⟨v, hv⟩ := P.full a x n i h hc hwL
      refine ⟨v, ?_⟩
      rw [e5 _ ?_]
      · exact hv
      · intro hk
        obtain ⟨ev, hev, ek⟩ := List.mem_map.mp hk
        cases ev with
        | rm k =>
          obtain ⟨d', hd', i', s', hi', _, e', ht, _⟩ := hrm k ((hm _).mp hev)
          have : k = ⟨a, x, n, h⟩ := ek
          have hh : s'.hash = h := by
            have := congrArg RKey.hash (e'.symm.trans this); exact this
          rw [hh] at ht
          rw [hnot b hba] at ht; cases ht
        | add k i0 =>
          obtain ⟨i', s', hi', _, e', _⟩ := hadd k i0 ((hm _).mp hev)
          have : k = ⟨a, x, n, h⟩ := ek
          have hh : s'.hash = h := by
            have := congrArg RKey.hash (e'.symm.trans this); exact this
          have := (key_inj S w hd hba (List.mem_of_getElem? r3) (List.mem_of_getElem? hi') hh.symm).1
          exact hbL (this ▸ hdL)
    · subst hdb
      have := E.fresh d hd i ⟨h, a⟩ r3 hc ⟨by simp, by
        intro r hr; simp only [List.mem_singleton] at hr; subst hr; exact hnot r hd⟩
      simp only [if_true] at this
      have hk' : keyOf d ⟨h, a⟩ = ⟨a, x, n, h⟩ := by unfold keyOf; rw [r1, r2]
      rw [hk'] at this
      exact ⟨_, e3 _ _ ((hm _).mpr this)⟩
  · intro k v hv
    by_cases hk : k ∈ es'.map Ev.key
    · obtain ⟨ev, hev, rfl⟩ := List.mem_map.mp hk
      cases ev with
      | rm k => rw [show (Ev.rm k).key = k from rfl, e4 k hev] at hv; cases hv
      | add k i0 => exact e7 k i0 hev
    · rw [e5 k hk] at hv
      exact e6 _ (P.known k v hv)

theorem PoolOk.delete (S : Sound U) {c : Chain} {L' bs : List Blk} {p : Pool} (I : Inv U c) (w' : Ledger U L') (hL : ∀ x, x ∈ L' ↔ x ∈ c.all ∧ x ∉ bs)
    (P : PoolOk g c.all p) {es : List Ev} (E : EvOk g c.all bs false es) (hb : ∀ b ∈ bs, b ∈ c.all) {es' : List Ev} (hp : es'.Perm es) :
    ∃ p', p.play es' = some p' ∧ PoolOk g L' p' := by
  have w := I.ledger
  have hm : ∀ x, x ∈ es' ↔ x ∈ es := fun x => hp.mem_iff
  -- what is received by a block left is a send of a block left
  have hback : ∀ r ∈ L', ∀ d ∈ c.all, ∀ s ∈ d.outs, r.takes s.hash = true → d ∈ L' := by
    intro r hr d hd s hs ht
    obtain ⟨d', hd', s', hs', e1, _⟩ := w'.backed r hr _ ht
    rw [← (key_inj S w ((hL d').mp hd').1 hd hs' hs e1).1]
    exact hd'
  have hrm : ∀ k, Ev.rm k ∈ es → ∃ d ∈ c.all, ∃ (i : Nat) (s : Snd), d.outs[i]? = some s ∧ g.contract s.dest = true ∧ k = keyOf d s ∧ d ∈ bs ∧
      Waiting c.all k.dest k.caller k.height i k.hash := by
    intro k hk
    obtain ⟨d, hd, i, s, hi, hc, ⟨hf, he⟩ | ⟨ht, he⟩⟩ := E.only _ hk
    · simp only [Bool.false_eq_true, if_false] at he
      injection he with he
      refine ⟨d, hd, i, s, hi, hc, he, hf.1, ?_⟩
      rw [he]
      refine ⟨sent_of hd hi, ?_⟩
      intro r hr
      cases q : r.takes s.hash with
      | false => exact q
      | true =>
        by_cases hrb : r ∈ bs
        · rw [hf.2 r hrb] at q; cases q
        · have := hback r ((hL r).mpr ⟨hr, hrb⟩) d hd s (List.mem_of_getElem? hi) q
          exact absurd hf.1 ((hL d).mp this).2
    · simp at he
  have hadd : ∀ k v, Ev.add k v ∈ es → ∃ d ∈ L', ∃ (i : Nat) (s : Snd), d.outs[i]? = some s ∧ g.contract s.dest = true ∧ k = keyOf d s ∧ v = some i ∧
      ∃ r ∈ bs, r.takes s.hash = true := by
    intro k v hk
    obtain ⟨d, hd, i, s, hi, hc, ⟨hf, he⟩ | ⟨ht, he⟩⟩ := E.only _ hk
    · simp at he
    · simp only [Bool.false_eq_true, if_false] at he
      injection he with h1 h2
      exact ⟨d, (hL d).mpr ⟨hd, ht.1⟩, i, s, hi, hc, h1, h2, ht.2⟩
  obtain ⟨p', e1, e2, e3, e4, e5, e6, e7⟩ := play_ok es' p ((hp.map _).nodup_iff.mpr E.nodup) P.proper (by
    intro k hk
    obtain ⟨d, _, i, s, _, hc, e, _, hw⟩ := hrm k ((hm _).mp hk)
    obtain ⟨v, hv⟩ := P.full k.dest k.caller k.height i k.hash (by rw [e]; exact hc) hw
    exact P.known _ v hv)
  refine ⟨p', e1, e2, ?_, ?_, ?_⟩
  · intro k v hv
    by_cases hk : k ∈ es'.map Ev.key
    · obtain ⟨ev, hev, rfl⟩ := List.mem_map.mp hk
      cases ev with
      | rm k => rw [show (Ev.rm k).key = k from rfl, e4 k hev] at hv; cases hv
      | add k i0 =>
        rw [show (Ev.add k i0).key = k from rfl, e3 k i0 hev] at hv
        injection hv with hv
        obtain ⟨d, hd, i, s, hi, hc, ek, ei, r, hr, ht⟩ := hadd k i0 ((hm _).mp hev)
        show g.contract k.dest = true ∧ _
        refine ⟨by rw [ek]; exact hc, i, ?_, .inl (hv.symm.trans ei)⟩
        show Waiting _ k.dest k.caller k.height i k.hash
        rw [ek]
        refine ⟨sent_of hd hi, ?_⟩
        intro x hx
        cases q : x.takes s.hash with
        | false => exact q
        | true =>
          have := w.once x ((hL x).mp hx).1 r (hb r hr) _ q ht
          exact absurd hr (this ▸ ((hL x).mp hx).2)
    · rw [e5 k hk] at hv
      obtain ⟨hc, i, ⟨hsent, hnot⟩, hi⟩ := P.right k v hv
      refine ⟨hc, i, ⟨?_, fun r hr => hnot r ((hL r).mp hr).1⟩, hi⟩
      obtain ⟨d, hd, r1, r2, r3⟩ := hsent
      refine ⟨d, (hL d).mpr ⟨hd, ?_⟩, r1, r2, r3⟩
      intro hdb
      have := E.fresh d hd i ⟨k.hash, k.dest⟩ r3 hc ⟨hdb, fun r hr => hnot r (hb r hr)⟩
      simp only [Bool.false_eq_true, if_false] at this
      have hk' : keyOf d ⟨k.hash, k.dest⟩ = k := by unfold keyOf; rw [r1, r2]
      rw [hk'] at this
      exact absurd (List.mem_map_of_mem (f := Ev.key) ((hm _).mpr this)) hk
  · intro a x n i h hc hw
    obtain ⟨⟨d, hd, r1, r2, r3⟩, hnot⟩ := hw
    obtain ⟨hda, hdb⟩ := (hL d).mp hd
    have hk' : keyOf d ⟨h, a⟩ = ⟨a, x, n, h⟩ := by unfold keyOf; rw [r1, r2]
    by_cases ht : ∃ r ∈ bs, r.takes h = true
    · have := E.taken d hda i ⟨h, a⟩ r3 hc ⟨hdb, ht⟩
      simp only [Bool.false_eq_true, if_false] at this
      rw [hk'] at this
      exact ⟨_, e3 _ _ ((hm _).mpr this)⟩
    · have hwL : Waiting c.all a x n i h := by
        refine ⟨⟨d, hda, r1, r2, r3⟩, fun r hr => ?_⟩
        by_cases hrb : r ∈ bs
        · cases q : r.takes h with
          | false => rfl
          | true => exact absurd ⟨r, hrb, q⟩ ht
        · exact hnot r ((hL r).mpr ⟨hr, hrb⟩)
      obtain ⟨v, hv⟩ := P.full a x n i h hc hwL
      refine ⟨v, ?_⟩
      rw [e5 _ ?_]
      · exact hv
      · intro hk
        obtain ⟨ev, hev, ek⟩ := List.mem_map.mp hk
        cases ev with
        | rm k =>
          obtain ⟨d', hd', i', s', hi', _, e', hdb', _⟩ := hrm k ((hm _).mp hev)
          have : k = ⟨a, x, n, h⟩ := ek
          have hh : s'.hash = h := by
            have := congrArg RKey.hash (e'.symm.trans this); exact this
          have := (key_inj S w hda hd' (List.mem_of_getElem? r3) (List.mem_of_getElem? hi') hh.symm).1
          exact hdb (this ▸ hdb')
        | add k i0 =>
          obtain ⟨d', hd', i', s', hi', _, e', _, hr⟩ := hadd k i0 ((hm _).mp hev)
          have : k = ⟨a, x, n, h⟩ := ek
          have hh : s'.hash = h := by
            have := congrArg RKey.hash (e'.symm.trans this); exact this
          rw [hh] at hr
          exact ht hr
  · intro k v hv
    by_cases hk : k ∈ es'.map Ev.key
    · obtain ⟨ev, hev, rfl⟩ := List.mem_map.mp hk
      cases ev with
      | rm k => rw [show (Ev.rm k).key = k from rfl, e4 k hev] at hv; cases hv
      | add k i0 => exact e7 k i0 hev
    · rw [e5 k hk] at hv
      exact e6 _ (P.known k v hv)

end Verif.Road
