import Verif.Feed.EventSpec
import Verif.Feed.QueryLemmas

/-! # Lemmas on what subscribers are told -/

namespace Verif.Feed

open Spec (sendsOf sends recvs OnRoad Good)

/-- The blocks of the account events of one sort. -/
def evsOf (r : Bool) (got : List Event) : List Ev :=
  got.flatMap fun
    | .acc r' evs => if r' = r then evs else []
    | .snap _ _ => []

/-- The blocks of the snapshot events of one sort. -/
def sbsOf (r : Bool) (got : List Event) : List (Nat × Nat) :=
  got.flatMap fun
    | .acc _ _ => []
    | .snap r' sbs => if r' = r then sbs else []

theorem evsOf_append (r : Bool) (a b : List Event) : evsOf r (a ++ b) = evsOf r a ++ evsOf r b := by simp [evsOf]
theorem sbsOf_append (r : Bool) (a b : List Event) : sbsOf r (a ++ b) = sbsOf r a ++ sbsOf r b := by simp [sbsOf]

/-- Nothing is lost on the way: what was there and came is, up to logs, what went, is on its way or is there. -/
structure Flow (kept : Nat → Bool) (s0 s : FSt) : Prop where
  pre : s.pre = []
  acc : ((s0.ledger ++ (evsOf false s.got ++ s.ac.flatten)).map (delEv kept)).Perm ((evsOf true s.got ++ s.acDel.flatten) ++ s.ledger.map (delEv kept))
  snap : (s0.snaps ++ (sbsOf false s.got ++ s.sb.flatten)).Perm ((sbsOf true s.got ++ s.sbDel.flatten) ++ s.snaps)

theorem perm_shift {α : Type} (R P A bs rest L : List α) (h : A.Perm (R ++ P ++ L)) (hL : L.Perm (bs ++ rest)) : A.Perm ((R ++ (P ++ bs)) ++ rest) := by
  refine h.trans ?_
  refine ((hL.append_left (R ++ P))).trans ?_
  simp

theorem flow_step (kept : Nat → Bool) (s0 s s' : FSt) (hf : Flow kept s0 s) (h : Spec.Step kept s s') : Flow kept s0 s' := by
  cases h with
  | insertAcc bs _ =>
    refine ⟨hf.pre, ?_, hf.snap⟩
    have := hf.acc
    simp only [FSt.insertAcc, List.flatten_append, List.flatten_cons, List.flatten_nil, List.append_nil, List.map_append] at this ⊢
    have h2 := this.append_right (bs.map (delEv kept))
    simpa [List.append_assoc] using h2
  | insertSnap sbs =>
    refine ⟨hf.pre, hf.acc, ?_⟩
    have := hf.snap
    simp only [FSt.insertSnap, List.flatten_append, List.flatten_cons, List.flatten_nil, List.append_nil] at this ⊢
    have h2 := this.append_right sbs
    simpa [List.append_assoc] using h2
  | dropAcc bs rest hp _ =>
    refine ⟨rfl, ?_, hf.snap⟩
    have := hf.acc
    simp only [FSt.dropAcc, FSt.deleteAcc, FSt.prepareAcc, hf.pre, List.nil_append, List.flatten_append, List.flatten_cons, List.flatten_nil, List.append_nil]
    have hp' := hp.map (delEv kept)
    rw [List.map_append] at hp'
    exact perm_shift _ _ _ _ _ _ this hp'
  | dropSnap cs rest restS hp _ hs =>
    have hacc := hf.acc
    have hsnap := hf.snap
    have hp' := hp.map (delEv kept)
    rw [List.map_append] at hp'
    unfold FSt.dropSnap FSt.deleteSnap FSt.prepareSnap
    simp only [hf.pre, List.nil_append]
    split
    · refine ⟨rfl, ?_, ?_⟩
      · simp only [FSt.deleteAcc, List.flatten_append, List.flatten_cons, List.flatten_nil, List.append_nil]
        exact perm_shift _ _ _ _ _ _ hacc hp'
      · simp only [FSt.deleteAcc, List.flatten_append, List.flatten_cons, List.flatten_nil, List.append_nil]
        exact perm_shift _ _ _ _ _ _ hsnap hs
    · rename_i hl
      have hnil : (cs.flatMap (·.blocks)).map (delEv kept) = [] := List.length_eq_zero_iff.mp (by omega)
      refine ⟨hnil, ?_, ?_⟩
      · rw [hnil, List.nil_append] at hp'
        exact hacc.trans (hp'.append_left _)
      · simp only [List.flatten_append, List.flatten_cons, List.flatten_nil, List.append_nil]
        exact perm_shift _ _ _ _ _ _ hsnap hs
  | take _ i ht =>
    unfold FSt.take at ht
    split at ht <;> split at ht <;> first | cases ht | skip
    all_goals
      rename_i e r hq
      refine ⟨hf.pre, ?_, ?_⟩
      · have := hf.acc
        simpa [hq, evsOf_append, evsOf] using this
      · have := hf.snap
        simpa [hq, sbsOf_append, sbsOf] using this

/-- A node that has just begun to listen. -/
def Fresh (s : FSt) : Prop := s.pre = [] ∧ s.ac = [] ∧ s.acDel = [] ∧ s.sb = [] ∧ s.sbDel = [] ∧ s.got = [] ∧ s.pushed = []

theorem flow_reach (kept : Nat → Bool) (s0 s : FSt) (h0 : Fresh s0) (h : Spec.Reach kept s0 s) : Flow kept s0 s := by
  induction h with
  | start =>
    obtain ⟨h1, h2, h3, h4, h5, h6, _⟩ := h0
    refine ⟨h1, ?_, ?_⟩
    · simp [h2, h3, h6, evsOf]
    · simp [h4, h5, h6, sbsOf]
  | step s s' _ hs ih => exact flow_step kept s0 s s' ih hs

theorem count_pair {X : Type} [BEq X] [LawfulBEq X] (l : List X) (r r' : Bool) (x : X) :
    (l.map fun y => (y, r')).count (x, r) = if r' = r then l.count x else 0 := by
  induction l with
  | nil => simp
  | cons y l ih =>
    rw [List.map_cons, List.count_cons, List.count_cons, ih]
    by_cases hr : r' = r <;> by_cases hy : y = x <;> simp [hr, hy]

/-- Messages by block, counted. -/
theorem told_eq {X : Type} [BEq X] [LawfulBEq X] (F : Bool → List Ev → List (X × Bool)) (f : Ev → List X)
    (hF : ∀ r evs, F r evs = (evs.flatMap f).map fun y => (y, r)) (r : Bool) (x : X) : ∀ got : List Event,
    Spec.told (accMsgs F got) r x = ((evsOf r got).flatMap f).count x
  | [] => rfl
  | e :: got => by
    have ih := told_eq F f hF r x got
    unfold Spec.told accMsgs evsOf at ih ⊢
    rw [List.flatMap_cons, List.flatMap_cons, List.count_append, List.flatMap_append, List.count_append, ih]
    congr 1
    cases e with
    | snap r' sbs => simp
    | acc r' evs =>
      simp only
      by_cases hl : evs.length = 0
      · have : evs = [] := List.length_eq_zero_iff.mp hl
        simp [this]
      · rw [if_neg hl, hF, count_pair]
        split <;> simp

theorem told_snap_eq (r : Bool) (x : Nat × Nat) : ∀ got : List Event,
    Spec.told (sbMsgs got) r x = (sbsOf r got).count x
  | [] => rfl
  | e :: got => by
    have ih := told_snap_eq r x got
    unfold Spec.told sbMsgs sbsOf at ih ⊢
    rw [List.flatMap_cons, List.flatMap_cons, List.count_append, List.count_append, ih]
    congr 1
    cases e with
    | acc r' evs => simp
    | snap r' sbs =>
      dsimp only
      by_cases hl : sbs.length = 0
      · have : sbs = [] := List.length_eq_zero_iff.mp hl
        simp [this]
      · rw [if_neg hl, snapMsgs]
        have := count_pair sbs r r' x
        rw [this]
        split <;> simp

/-- The account of messages by block. -/
theorem balance {X : Type} [BEq X] [LawfulBEq X] (kept : Nat → Bool) (F : Bool → List Ev → List (X × Bool)) (f : Ev → List X)
    (hF : ∀ r evs, F r evs = (evs.flatMap f).map fun y => (y, r)) (hk : ∀ e, f (delEv kept e) = f e)
    (s0 s : FSt) (h0 : Fresh s0) (h : Spec.Reach kept s0 s) (hd : Spec.Drained s) (x : X) :
    (s0.ledger.flatMap f).count x + Spec.told (accMsgs F s.got) false x = Spec.told (accMsgs F s.got) true x + (s.ledger.flatMap f).count x := by
  have hp := (flow_reach kept s0 s h0 h).acc
  rw [hd.1, hd.2.1] at hp
  simp only [List.flatten_nil, List.append_nil] at hp
  have hc := (hp.flatMap_right f).count_eq x
  have hmap : ∀ l : List Ev, (l.map (delEv kept)).flatMap f = l.flatMap f := by
    intro l
    rw [List.flatMap_map]
    congr 1
    funext e
    exact hk e
  rw [hmap, List.flatMap_append, List.flatMap_append, hmap, List.count_append, List.count_append] at hc
  rw [told_eq F f hF, told_eq F f hF]
  exact hc

/-! ## What waits -/

theorem mem_sends_append (A B : List Ev) (x : Nat × Nat) : x ∈ sends (A ++ B) ↔ x ∈ sends A ∨ x ∈ sends B := by simp [sends]
theorem mem_recvs_append (A B : List Ev) (x : Nat × Nat) : x ∈ recvs (A ++ B) ↔ x ∈ recvs A ∨ x ∈ recvs B := by simp [recvs]

/-- What a client knows after messages. -/
def view (v : Nat → Prop) (ms : List OnMsg) : Nat → Prop := ms.foldl Spec.apply v

theorem view_append (v : Nat → Prop) (a b : List OnMsg) : view v (a ++ b) = view (view v a) b := by simp [view]

theorem view_none (h : Nat) : ∀ (ms : List OnMsg) (v : Nat → Prop), (∀ m ∈ ms, m.hash ≠ h) → (view v ms h ↔ v h)
  | [], v, _ => Iff.rfl
  | m :: ms, v, hm => by
    have := view_none h ms (Spec.apply v m) (fun x hx => hm x (by simp [hx]))
    show view (Spec.apply v m) ms h ↔ v h
    rw [this]
    unfold Spec.apply
    rw [if_neg (fun e => hm m (by simp) e.symm)]

theorem view_some (h : Nat) (P : Prop) : ∀ (ms : List OnMsg) (v : Nat → Prop), (∀ m ∈ ms, m.hash = h → ((m.closed = false ∧ m.removed = false) ↔ P)) →
    (∃ m ∈ ms, m.hash = h) → (view v ms h ↔ P)
  | [], v, _, he => by simp at he
  | m :: ms, v, hm, he => by
    show view (Spec.apply v m) ms h ↔ P
    by_cases hx : ∃ m' ∈ ms, m'.hash = h
    · exact view_some h P ms _ (fun x hx' => hm x (by simp [hx'])) hx
    · rw [view_none h ms _ (fun x hx' e => hx ⟨x, hx', e⟩)]
      obtain ⟨m', hm', e⟩ := he
      have hmm : m' = m := by
        rcases List.mem_cons.mp hm' with h1 | h1
        · exact h1
        · exact absurd ⟨m', h1, e⟩ hx
      subst hmm
      unfold Spec.apply
      rw [if_pos e.symm]
      exact hm m' (by simp) e

theorem isSend_not_recv (k : Nat) (h : isSend k = true) : isRecv k = false := by
  unfold isSend at h
  unfold isRecv
  simp only [Bool.or_eq_true, beq_iff_eq] at h
  rcases h with ((h | h) | h) | h <;> subst h <;> rfl

/-- Hashes of sends tell their receivers. -/
theorem send_unique (L : List Ev) (hn : ((sends L).map (·.1)).Nodup) (h a b : Nat) (h1 : (h, a) ∈ sends L) (h2 : (h, b) ∈ sends L) : a = b := by
  have := List.inj_on_of_nodup_map hn h1 h2 rfl
  simpa using this

/-- The messages of one new block. -/
def newMsgs (e : Ev) : List (Nat × OnMsg) :=
  if isSend e.kind then [(e.dst, ⟨e.hash, false, false⟩)]
  else (e.addr, ⟨e.src, true, false⟩) :: e.sends.map fun s => (s.2, ⟨s.1, false, false⟩)

theorem foldl_evStep_new (evs : List Ev) : ∀ (m : List (Nat × OnMsg)) (d : Del),
    evs.foldl (evStep false) (m, d) = (m ++ evs.flatMap newMsgs, d) := by
  induction evs with
  | nil => intro m d; simp
  | cons e evs ih =>
    intro m d
    rw [List.foldl_cons]
    have : evStep false (m, d) e = (m ++ newMsgs e, d) := by
      unfold evStep newMsgs
      by_cases hs : isSend e.kind = true
      · simp [hs]
      · simp [hs]
    rw [this, ih, List.flatMap_cons, List.append_assoc]

theorem onroadAll_new (order : Del → Del) (ho : ∀ d, (order d).Perm d) (evs : List Ev) : onroadAll order false evs = evs.flatMap newMsgs := by
  unfold onroadAll
  have : order [] = [] := List.Perm.eq_nil (ho [])
  simp [foldl_evStep_new, this]

theorem view_newMsgs (L : List Ev) (e : Ev) (a : Nat) (hL : Good L) (hg : Good (L ++ [e])) (v : Nat → Prop) (hv : ∀ h, v h ↔ OnRoad L a h) (h : Nat) :
    view v (((newMsgs e).filter fun m => decide (m.1 = a)).map (·.2)) h ↔ OnRoad (L ++ [e]) a h := by
  have hse : ∀ x, x ∈ sends (L ++ [e]) ↔ x ∈ sends L ∨ x ∈ sendsOf e := by intro x; rw [mem_sends_append]; simp [sends]
  have hdis : ∀ x ∈ sends L, ∀ y ∈ sendsOf e, x.1 ≠ y.1 := by
    have hn := hg.sends
    have : sends (L ++ [e]) = sends L ++ sendsOf e := by simp [sends]
    rw [this, List.map_append, List.nodup_append] at hn
    intro x hx y hy heq
    exact hn.2.2 x.1 (List.mem_map_of_mem hx) y.1 (List.mem_map_of_mem hy) heq
  have hcl : ∀ r ∈ recvs L, r ∈ sends L := hL.sound
  by_cases hs : isSend e.kind = true
  · have hre : recvs (L ++ [e]) = recvs L := by simp [recvs, isSend_not_recv _ hs]
    have hso : sendsOf e = [(e.hash, e.dst)] := by simp [sendsOf, hs]
    have hmsg : newMsgs e = [(e.dst, ⟨e.hash, false, false⟩)] := by simp [newMsgs, hs]
    rw [hmsg]
    unfold OnRoad
    rw [hre, hse, hso]
    by_cases ha : e.dst = a
    · rw [List.filter_cons_of_pos (by simpa using ha)]
      by_cases hh : h = e.hash
      · subst hh
        rw [view_some e.hash True _ _ (by simp) ⟨⟨e.hash, false, false⟩, by simp, rfl⟩]
        simp only [true_iff]
        refine ⟨.inr (by simp [ha]), ?_⟩
        intro hc
        obtain ⟨r, hr, he⟩ := List.mem_map.mp hc
        exact hdis r (hcl r hr) (e.hash, e.dst) (by simp [hso]) he
      · rw [view_none h _ _ (by simp; exact fun e' => hh e'.symm), hv h]
        unfold OnRoad
        simp [hh]
    · rw [List.filter_cons_of_neg (by simpa using ha)]
      show v h ↔ _
      rw [hv h]
      unfold OnRoad
      have : (h, a) ≠ (e.hash, e.dst) := fun e' => ha (by simp at e'; exact e'.2.symm)
      simp [this]
  · have hr : isRecv e.kind = true := by
      rcases hg.kinds e (by simp) with h1 | h1
      · exact absurd h1 hs
      · exact h1
    have hre : recvs (L ++ [e]) = recvs L ++ [(e.src, e.addr)] := by simp [recvs, hr]
    have hso : sendsOf e = e.sends := by simp [sendsOf, hs]
    have hmsg : newMsgs e = (e.addr, ⟨e.src, true, false⟩) :: e.sends.map fun s => (s.2, ⟨s.1, false, false⟩) := by simp [newMsgs, hs]
    have hsrcall : (e.src, e.addr) ∈ sends L ∨ (e.src, e.addr) ∈ e.sends := by
      have := hg.sound (e.src, e.addr) (by rw [hre]; simp)
      rw [hse, hso] at this
      exact this
    have hself : e.src ∉ e.sends.map (·.1) := hg.other e (by simp)
    have hsrc : (e.src, e.addr) ∈ sends L := by
      rcases hsrcall with h1 | h1
      · exact h1
      · exact absurd (List.mem_map_of_mem (f := (·.1)) h1) hself
    have hmem : ∀ m, m ∈ ((newMsgs e).filter fun m => decide (m.1 = a)).map (·.2) ↔
        ((e.addr = a ∧ m = ⟨e.src, true, false⟩) ∨ ∃ k, (k, a) ∈ e.sends ∧ m = ⟨k, false, false⟩) := by
      intro m
      rw [hmsg]
      simp only [List.mem_map, List.mem_filter, List.mem_cons, decide_eq_true_eq]
      constructor
      · rintro ⟨x, ⟨hx, hxa⟩, rfl⟩
        rcases hx with rfl | ⟨s, hs', rfl⟩
        · exact .inl ⟨hxa, rfl⟩
        · refine .inr ⟨s.1, ?_, rfl⟩
          simp only at hxa
          rw [← hxa]
          exact hs'
      · rintro (⟨h1, rfl⟩ | ⟨k, hk, rfl⟩)
        · exact ⟨(e.addr, ⟨e.src, true, false⟩), ⟨.inl rfl, h1⟩, rfl⟩
        · exact ⟨(a, ⟨k, false, false⟩), ⟨.inr ⟨(k, a), hk, rfl⟩, rfl⟩, rfl⟩
    have htarget : OnRoad (L ++ [e]) a h ↔ ((h, a) ∈ sends L ∨ (h, a) ∈ e.sends) ∧ h ∉ (recvs L).map (·.1) ∧ h ≠ e.src := by
      unfold OnRoad
      rw [hre, hse, hso]
      simp only [List.map_append, List.map_cons, List.map_nil, List.mem_append, List.mem_singleton, not_or]
    rw [htarget]
    by_cases hin : (h, a) ∈ e.sends
    · have hne : h ≠ e.src := fun e' => hself (by rw [← e']; exact List.mem_map_of_mem (f := (·.1)) hin)
      rw [view_some h True]
      · simp only [true_iff]
        refine ⟨.inr hin, ?_, hne⟩
        intro hc
        obtain ⟨r, hr', he⟩ := List.mem_map.mp hc
        exact hdis r (hcl r hr') (h, a) (by rw [hso]; exact hin) he
      · intro m hm hmh
        rcases (hmem m).mp hm with ⟨_, rfl⟩ | ⟨k, _, rfl⟩
        · exact absurd hmh.symm hne
        · simp
      · exact ⟨⟨h, false, false⟩, (hmem _).mpr (.inr ⟨h, hin, rfl⟩), rfl⟩
    · by_cases hc : e.addr = a ∧ h = e.src
      · rw [view_some h False]
        · simp [hc.2]
        · intro m hm hmh
          rcases (hmem m).mp hm with ⟨_, rfl⟩ | ⟨k, hk, rfl⟩
          · simp
          · simp only at hmh
            rw [hmh] at hk
            exact absurd hk hin
        · exact ⟨⟨e.src, true, false⟩, (hmem _).mpr (.inl ⟨hc.1, rfl⟩), hc.2.symm⟩
      · rw [view_none]
        · rw [hv h]
          unfold OnRoad
          constructor
          · rintro ⟨h1, h2⟩
            refine ⟨.inl h1, h2, ?_⟩
            intro he
            rw [he] at h1
            exact hc ⟨send_unique L hL.sends _ _ _ hsrc h1, he⟩
          · rintro ⟨h1, h2, _⟩
            exact ⟨h1.resolve_right hin, h2⟩
        · intro m hm hmh
          rcases (hmem m).mp hm with ⟨h1, rfl⟩ | ⟨k, hk, rfl⟩
          · exact hc ⟨h1, hmh.symm⟩
          · simp only at hmh
            rw [hmh] at hk
            exact hin hk

/-- New blocks, announced. -/
theorem view_insert (order : Del → Del) (ho : ∀ d, (order d).Perm d) (L B : List Ev) (a : Nat) (hA : Spec.Appends L B) (v : Nat → Prop)
    (hv : ∀ h, v h ↔ OnRoad L a h) : ∀ h, view v (onroadMsgs order a false B) h ↔ OnRoad (L ++ B) a h := by
  unfold onroadMsgs
  rw [onroadAll_new order ho]
  induction B generalizing L v with
  | nil => intro h; simp [view, hv h]
  | cons e B ih =>
    have hL : Good L := by simpa using hA 0
    have hg : Good (L ++ [e]) := by simpa using hA 1
    have h1 := view_newMsgs L e a hL hg v hv
    have hA' : Spec.Appends (L ++ [e]) B := by
      intro n
      have := hA (n + 1)
      simpa using this
    have := ih (L ++ [e]) hA' _ h1
    intro h
    rw [List.flatMap_cons, List.filter_append, List.map_append, view_append, this h]
    simp

/-! ## Deleted blocks -/

theorem put_fresh (d : Del) (x : Nat × Nat) (h : x.1 ∉ d.map (·.1)) : d.put x = d ++ [x] := by
  unfold Del.put
  rw [List.filter_eq_self.mpr]
  intro e he
  simp only [ne_eq, decide_eq_true_eq]
  exact fun e' => h (by rw [← e']; exact List.mem_map_of_mem (f := (·.1)) he)

theorem puts_fresh : ∀ (xs : List (Nat × Nat)) (d : Del), ((d ++ xs).map (·.1)).Nodup → xs.foldl Del.put d = d ++ xs
  | [], d, _ => by simp
  | x :: xs, d, hn => by
    rw [List.foldl_cons, put_fresh d x]
    · rw [puts_fresh xs (d ++ [x]) (by simpa using hn)]
      simp
    · rw [List.map_append, List.nodup_append] at hn
      intro hc
      exact hn.2.2 _ hc x.1 (by simp) rfl

theorem foldl_evStep_del : ∀ (D : List Ev) (m : List (Nat × OnMsg)) (d : Del), ((d ++ sends D).map (·.1)).Nodup →
    D.foldl (evStep true) (m, d) = (m, d ++ sends D)
  | [], m, d, _ => by simp [sends]
  | e :: D, m, d, hn => by
    have hcons : sends (e :: D) = sendsOf e ++ sends D := by simp [sends]
    rw [hcons] at hn ⊢
    rw [List.foldl_cons]
    have hstep : evStep true (m, d) e = (m, d ++ sendsOf e) := by
      unfold evStep sendsOf
      have hn' : ((d ++ sendsOf e).map (·.1)).Nodup := by
        rw [← List.append_assoc, List.map_append] at hn
        exact (List.nodup_append.mp hn).1
      unfold sendsOf at hn'
      by_cases hs : isSend e.kind = true
      · simp only [hs, if_true] at hn' ⊢
        rw [put_fresh]
        rw [List.map_append, List.nodup_append] at hn'
        intro hc
        exact hn'.2.2 _ hc e.hash (by simp) rfl
      · simp only [hs, if_true, Bool.false_eq_true, if_false] at hn' ⊢
        rw [puts_fresh _ _ hn']
    rw [hstep, foldl_evStep_del D m _ (by simpa using hn)]
    simp

theorem has_iff (d : Del) (h : Nat) : d.has h = true ↔ h ∈ d.map (·.1) := by
  unfold Del.has
  simp

theorem foldl_delStep : ∀ (D : List Ev) (m : List (Nat × OnMsg)) (d : Del), ((recvs D).map (·.1)).Nodup →
    D.foldl delStep (m, d) = (m ++ ((recvs D).filter fun r => !d.has r.1).map (fun r => (r.2, ⟨r.1, false, false⟩)),
      d.filter fun x => decide (x.1 ∉ (recvs D).map (·.1)))
  | [], m, d, _ => by simp [recvs]
  | e :: D, m, d, hn => by
    rw [List.foldl_cons]
    by_cases hr : isRecv e.kind = true
    · have hcons : recvs (e :: D) = (e.src, e.addr) :: recvs D := by simp [recvs, hr]
      rw [hcons, List.map_cons, List.nodup_cons] at hn
      rw [hcons]
      by_cases hh : d.has e.src = true
      · have hstep : delStep (m, d) e = (m, d.erase e.src) := by simp [delStep, hr, hh]
        rw [hstep, foldl_delStep D _ _ hn.2, List.filter_cons_of_neg (by simp [hh])]
        refine Prod.ext ?_ ?_
        · dsimp only
          congr 2
          apply List.filter_congr
          intro r hr'
          have hne : r.1 ≠ e.src := fun e' => hn.1 (by dsimp only; rw [← e']; exact List.mem_map_of_mem (f := (·.1)) hr')
          congr 1
          rw [Bool.eq_iff_iff, has_iff, has_iff]
          simp only [Del.erase, List.mem_map, List.mem_filter, decide_eq_true_eq]
          constructor
          · rintro ⟨x, ⟨h1, _⟩, h3⟩; exact ⟨x, h1, h3⟩
          · rintro ⟨x, h1, h3⟩; exact ⟨x, ⟨h1, by rw [h3]; exact hne⟩, h3⟩
        · dsimp only
          unfold Del.erase
          rw [List.filter_filter]
          apply List.filter_congr
          intro x _
          simp only [List.map_cons, List.mem_cons, not_or]
          rw [Bool.eq_iff_iff]
          simp [and_comm]
      · have hstep : delStep (m, d) e = (m ++ [(e.addr, ⟨e.src, false, false⟩)], d) := by simp [delStep, hr, hh]
        rw [hstep, foldl_delStep D _ _ hn.2, List.filter_cons_of_pos (by simp [hh])]
        refine Prod.ext ?_ ?_
        · simp
        · dsimp only
          apply List.filter_congr
          intro x hx
          have hne : x.1 ≠ e.src := fun e' => hh ((has_iff d e.src).mpr (by rw [← e']; exact List.mem_map_of_mem (f := (·.1)) hx))
          rw [Bool.eq_iff_iff]
          simp [hne]
    · have hcons : recvs (e :: D) = recvs D := by simp [recvs, hr]
      have hstep : delStep (m, d) e = (m, d) := by simp [delStep, hr]
      rw [hcons] at hn ⊢
      rw [hstep, foldl_delStep D _ _ hn]

theorem sends_perm {A B : List Ev} (h : A.Perm B) : (sends A).Perm (sends B) := h.flatMap_right _
theorem recvs_perm {A B : List Ev} (h : A.Perm B) : (recvs A).Perm (recvs B) := (h.filter _).map _

theorem good_perm {A B : List Ev} (h : A.Perm B) (hA : Good A) : Good B :=
  ⟨fun e he => hA.kinds e (h.mem_iff.mpr he), ((sends_perm h).map _).nodup_iff.mp hA.sends, ((recvs_perm h).map _).nodup_iff.mp hA.once,
    fun r hr => (sends_perm h).mem_iff.mp (hA.sound r ((recvs_perm h).mem_iff.mpr hr)), fun e he => hA.other e (h.mem_iff.mpr he)⟩

theorem onRoad_perm {A B : List Ev} (h : A.Perm B) (a k : Nat) : OnRoad A a k ↔ OnRoad B a k := by
  unfold OnRoad
  rw [(sends_perm h).mem_iff, ((recvs_perm h).map _).mem_iff]

/-- Deleted blocks, announced. -/
theorem view_delete (order : Del → Del) (ho : ∀ d, (order d).Perm d) (L D R : List Ev) (a : Nat) (hL : Good L) (hp : L.Perm (D ++ R)) (hR : Good R)
    (v : Nat → Prop) (hv : ∀ h, v h ↔ OnRoad L a h) (h : Nat) : view v (onroadMsgs order a true D) h ↔ OnRoad R a h := by
  have hDR := good_perm hp hL
  have hv' : ∀ h, v h ↔ OnRoad (D ++ R) a h := fun h => (hv h).trans (onRoad_perm hp a h)
  have hsn := hDR.sends
  have hrn := hDR.once
  have hsa : sends (D ++ R) = sends D ++ sends R := by simp [sends]
  have hra : recvs (D ++ R) = recvs D ++ recvs R := by simp [recvs]
  rw [hsa, List.map_append, List.nodup_append] at hsn
  rw [hra, List.map_append, List.nodup_append] at hrn
  have hall : onroadAll order true D =
      ((recvs D).filter fun r => !Del.has (sends D) r.1).map (fun r => (r.2, (⟨r.1, false, false⟩ : OnMsg))) ++
        (order ((sends D).filter fun x => decide (x.1 ∉ (recvs D).map (·.1)))).map fun d => (d.2, ⟨d.1, false, true⟩) := by
    unfold onroadAll
    rw [foldl_evStep_del D [] [] (by simpa using hsn.1)]
    simp only [if_true, List.nil_append]
    rw [foldl_delStep D [] (sends D) hrn.1]
    simp
  have hmem : ∀ m, m ∈ onroadMsgs order a true D ↔
      ((∃ k, (k, a) ∈ recvs D ∧ k ∉ (sends D).map (·.1) ∧ m = ⟨k, false, false⟩) ∨
        (∃ k, (k, a) ∈ sends D ∧ k ∉ (recvs D).map (·.1) ∧ m = ⟨k, false, true⟩)) := by
    intro m
    unfold onroadMsgs
    rw [hall]
    simp only [List.mem_map, List.mem_filter, List.mem_append, decide_eq_true_eq, (ho _).mem_iff, Bool.not_eq_true', ← Bool.not_eq_true, has_iff]
    constructor
    · rintro ⟨x, ⟨hx | hx, hxa⟩, rfl⟩
      · obtain ⟨r, ⟨hr, hk⟩, rfl⟩ := hx
        refine .inl ⟨r.1, ?_, by simpa using hk, rfl⟩
        simp only at hxa
        rw [← hxa]; exact hr
      · obtain ⟨d, ⟨hd, hk⟩, rfl⟩ := hx
        refine .inr ⟨d.1, ?_, by simpa using hk, rfl⟩
        simp only at hxa
        rw [← hxa]; exact hd
    · rintro (⟨k, h1, h2, rfl⟩ | ⟨k, h1, h2, rfl⟩)
      · exact ⟨(a, ⟨k, false, false⟩), ⟨.inl ⟨(k, a), ⟨h1, by simpa using h2⟩, rfl⟩, rfl⟩, rfl⟩
      · exact ⟨(a, ⟨k, false, true⟩), ⟨.inr ⟨(k, a), ⟨h1, by simpa using h2⟩, rfl⟩, rfl⟩, rfl⟩
  have hvh : v h ↔ ((h, a) ∈ sends D ∨ (h, a) ∈ sends R) ∧ h ∉ (recvs D).map (·.1) ∧ h ∉ (recvs R).map (·.1) := by
    rw [hv' h]
    unfold OnRoad
    rw [mem_sends_append, hra, List.map_append, List.mem_append, not_or]
  by_cases hs : h ∈ (sends D).map (·.1)
  · -- the send is gone
    have hno : ¬ OnRoad R a h := by
      rintro ⟨h1, _⟩
      exact hsn.2.2 h hs h (List.mem_map_of_mem (f := (·.1)) h1) rfl
    by_cases hx : (h, a) ∈ sends D ∧ h ∉ (recvs D).map (·.1)
    · rw [view_some h False]
      · simp [hno]
      · intro m hm hmh
        rcases (hmem m).mp hm with ⟨k, h1, h2, rfl⟩ | ⟨k, h1, h2, rfl⟩
        · simp only at hmh; rw [hmh] at h2; exact absurd hs h2
        · simp
      · exact ⟨⟨h, false, true⟩, (hmem _).mpr (.inr ⟨h, hx.1, hx.2, rfl⟩), rfl⟩
    · rw [view_none]
      · rw [hvh]
        constructor
        · rintro ⟨h1 | h1, h2, _⟩
          · exact absurd ⟨h1, h2⟩ hx
          · exact absurd rfl (hsn.2.2 h hs h (List.mem_map_of_mem (f := (·.1)) h1))
        · exact fun h' => absurd h' hno
      · intro m hm hmh
        rcases (hmem m).mp hm with ⟨k, h1, h2, rfl⟩ | ⟨k, h1, h2, rfl⟩
        · simp only at hmh; rw [hmh] at h2; exact h2 hs
        · simp only at hmh; rw [hmh] at h1 h2; exact hx ⟨h1, h2⟩
  · by_cases hr : h ∈ (recvs D).map (·.1)
    · -- the receive is gone, the send stays
      obtain ⟨r, hrm, hrh⟩ := List.mem_map.mp hr
      have hrs : r ∈ sends R := by
        have := hDR.sound r (by rw [hra]; simp [hrm])
        rw [mem_sends_append] at this
        rcases this with h1 | h1
        · exact absurd (by rw [← hrh]; exact List.mem_map_of_mem (f := (·.1)) h1) hs
        · exact h1
      have hnr : h ∉ (recvs R).map (·.1) := fun hc => hrn.2.2 h hr h hc rfl
      by_cases ha : r.2 = a
      · have hra' : (h, a) = r := by rw [← hrh, ← ha]
        rw [view_some h True]
        · simp only [true_iff]
          exact ⟨by rw [hra']; exact hrs, hnr⟩
        · intro m hm hmh
          rcases (hmem m).mp hm with ⟨k, h1, h2, rfl⟩ | ⟨k, h1, h2, rfl⟩
          · simp
          · simp only at hmh; rw [hmh] at h2; exact absurd hr h2
        · exact ⟨⟨h, false, false⟩, (hmem _).mpr (.inl ⟨h, by rw [hra']; exact hrm, hs, rfl⟩), rfl⟩
      · have hno : ¬ OnRoad R a h := by
          rintro ⟨h1, _⟩
          have h2 : (h, r.2) ∈ sends R := by rw [← hrh]; exact hrs
          exact ha (send_unique R hR.sends _ _ _ h2 h1)
        rw [view_none]
        · rw [hvh]
          constructor
          · rintro ⟨_, h2, _⟩; exact absurd hr h2
          · exact fun h' => absurd h' hno
        · intro m hm hmh
          rcases (hmem m).mp hm with ⟨k, h1, h2, rfl⟩ | ⟨k, h1, h2, rfl⟩
          · simp only at hmh
            rw [hmh] at h1
            have := List.inj_on_of_nodup_map hrn.1 h1 hrm hrh.symm
            exact ha (by rw [← this])
          · simp only at hmh; rw [hmh] at h2; exact h2 hr
    · -- nothing about it
      rw [view_none]
      · rw [hvh]
        unfold OnRoad
        constructor
        · rintro ⟨h1 | h1, _, h3⟩
          · exact absurd (List.mem_map_of_mem (f := (·.1)) h1) hs
          · exact ⟨h1, h3⟩
        · rintro ⟨h1, h3⟩
          exact ⟨.inr h1, hr, h3⟩
      · intro m hm hmh
        rcases (hmem m).mp hm with ⟨k, h1, h2, rfl⟩ | ⟨k, h1, h2, rfl⟩
        · simp only at hmh; rw [hmh] at h1; exact hr (List.mem_map_of_mem (f := (·.1)) h1)
        · simp only at hmh; rw [hmh] at h1; exact hs (List.mem_map_of_mem (f := (·.1)) h1)

end Verif.Feed
