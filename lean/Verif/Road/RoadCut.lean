import Verif.Tactics
import Verif.Lattice.LatticeReach
import Verif.Road.RoadSpec

/-!
From lists of blocks to events of the pool.
-/

namespace Verif.Road

open Verif.Lattice

variable {U : Blk → Prop} {g : Cfg} {c : Chain}

/-- A send as the handlers see it. -/
def asBlk (d : Blk) (s : Snd) : Blk := if d.isSend then d else inner d s

theorem inner_send (d : Blk) (s : Snd) : (inner d s).isSend = true := by simp [inner, Blk.isSend]

theorem asBlk_send (d : Blk) (s : Snd) : (asBlk d s).isSend = true := by
  unfold asBlk
  split
  · assumption
  · exact inner_send d s

theorem outs_send (S : Sound U) {d : Blk} (hU : U d) (hs : d.isSend = true) : d.outs = [⟨d.hash, d.dest⟩] := by
  simp [Blk.outs, hs, S.plain d hU hs]

theorem asBlk_hash (S : Sound U) {d : Blk} (hU : U d) {s : Snd} (hs : s ∈ d.outs) :
    (asBlk d s).hash = s.hash ∧ (asBlk d s).dest = s.dest ∧ (asBlk d s).addr = d.addr := by
  unfold asBlk
  split
  · rename_i h
    rw [outs_send S hU h, List.mem_singleton] at hs
    subst hs; exact ⟨rfl, rfl, rfl⟩
  · exact ⟨rfl, rfl, rfl⟩

/-! ### Pairing off -/

/-- What is left after pairing off the blocks `P`. -/
structure CutOk (P : List Blk) (t : Table Nat Blk) : Prop where
  proper : Table.Proper t
  iff : ∀ h v, Table.get h t = some v ↔
    (∃ d ∈ P, ∃ s ∈ d.outs, s.hash = h ∧ v = asBlk d s ∧ ∀ r ∈ P, r.takes h = false) ∨
    (v ∈ P ∧ v.takes h = true ∧ ∀ d ∈ P, ∀ s ∈ d.outs, s.hash ≠ h)

theorem meet_none {t : Table Nat Blk} {v : Blk} (h : Table.get v.hash t = none) : meet t v = Table.put v.hash v t := by
  unfold meet; rw [h]

theorem meets {b : Blk} : ∀ (l : List Snd) (t : Table Nat Blk), Table.Proper t → (l.map (·.hash)).Nodup → (∀ s ∈ l, Table.get s.hash t = none) →
    let t' := l.foldl (fun t s => meet t (inner b s)) t
    Table.Proper t' ∧ (∀ s ∈ l, Table.get s.hash t' = some (inner b s)) ∧ (∀ h, (∀ s ∈ l, s.hash ≠ h) → Table.get h t' = Table.get h t) := by
  intro l
  induction l with
  | nil => intro t hp _ _; exact ⟨hp, by simp, fun h _ => rfl⟩
  | cons s l ih =>
    intro t hp hn h0
    simp only [List.map_cons, List.nodup_cons, List.mem_map, not_exists, not_and] at hn
    have e : meet t (inner b s) = Table.put s.hash (inner b s) t := meet_none (v := inner b s) (h0 s List.mem_cons_self)
    simp only [List.foldl_cons, e]
    obtain ⟨i1, i2, i3⟩ := ih (Table.put s.hash (inner b s) t) (Table.proper_put _ _ hp) hn.2 (by
      intro s' hs'
      rw [Table.get_put_ne (hn.1 s' hs')]
      exact h0 s' (List.mem_cons_of_mem _ hs'))
    refine ⟨i1, ?_, ?_⟩
    · intro s' hs'
      rcases List.mem_cons.mp hs' with rfl | hs'
      · rw [i3 _ (fun s2 h2 => hn.1 s2 h2), Table.get_put_self]
      · exact i2 s' hs'
    · intro h hh
      rw [i3 h (fun s2 h2 => hh s2 (List.mem_cons_of_mem _ h2)), Table.get_put_ne (fun e => hh s List.mem_cons_self e.symm)]

theorem CutOk.step (S : Sound U) {L P : List Blk} {b : Blk} (w : Ledger U L) (sh : Shaped g L) (hs : (P ++ [b]).Sublist L)
    {t : Table Nat Blk} (K : CutOk P t) : CutOk (P ++ [b]) (cutStep g t b) := by
  have hbL : b ∈ L := hs.subset (by simp)
  have hPL : ∀ d ∈ P, d ∈ L := fun d hd => hs.subset (by simp [hd])
  have hU := w.known b hbL
  have hn := w.nodup.sublist hs
  have hbP : b ∉ P := by
    intro h
    rw [List.nodup_append] at hn
    exact hn.2.2 b h b (by simp) rfl
  have hord : ∀ r ∈ P, ∀ s ∈ b.outs, r.takes s.hash = false := by
    intro r hr s hs'
    have o := w.order.sublist hs
    rw [List.pairwise_append] at o
    cases q : r.takes s.hash with
    | false => rfl
    | true => exact absurd (.inr ⟨s, hs', q⟩) (o.2.2 r hr b (by simp))
  have hself : ∀ s ∈ b.outs, b.takes s.hash = false := w.own b hbL
  have hids : ∀ d ∈ P, ∀ s ∈ d.outs, ∀ s' ∈ b.outs, s.hash ≠ s'.hash := by
    intro d hd s hs1 s' hs2 e
    have := w.ids S (hPL d hd) hbL (outs_ids hs1) (e ▸ outs_ids hs2)
    exact hbP (this ▸ hd)
  have hnone : ∀ s ∈ b.outs, Table.get s.hash t = none := by
    intro s hs'
    cases q : Table.get s.hash t with
    | none => rfl
    | some v =>
      exfalso
      rcases (K.iff _ _).mp q with ⟨d, hd, s2, hs2, e, _⟩ | ⟨hv, ht, _⟩
      · exact hids d hd s2 hs2 s hs' e
      · rw [hord v hv s hs'] at ht; cases ht
  -- the three kinds of block
  by_cases hsend : b.isSend = true
  · have ho := outs_send S hU hsend
    have hno : ∀ h, b.takes h = false := by intro h; simp [Blk.takes, Blk.isRecv, hsend]
    have e : cutStep g t b = Table.put b.hash b t := by
      unfold cutStep
      rw [if_pos hsend, meet_none]
      exact hnone ⟨b.hash, b.dest⟩ (by rw [ho]; simp)
    rw [e]
    refine ⟨Table.proper_put _ _ K.proper, ?_⟩
    intro h v
    rw [Table.get_put]
    split
    · rename_i he
      subst he
      constructor
      · intro e'
        injection e' with e'
        subst e'
        refine .inl ⟨b, by simp, ⟨b.hash, b.dest⟩, by rw [ho]; simp, rfl, by simp [asBlk, hsend], ?_⟩
        intro r hr
        rcases List.mem_append.mp hr with hr | hr
        · exact hord r hr ⟨b.hash, b.dest⟩ (by rw [ho]; simp)
        · rw [List.mem_singleton] at hr; subst hr; exact hno _
      · rintro (⟨d, hd, s, hs', e1, e2, _⟩ | ⟨hv, ht, hx⟩)
        · rcases List.mem_append.mp hd with hd | hd
          · exact absurd e1 (hids d hd s hs' ⟨b.hash, b.dest⟩ (by rw [ho]; simp))
          · rw [List.mem_singleton] at hd; subst hd
            rw [e2]; simp [asBlk, hsend]
        · exact absurd rfl (hx b (by simp) ⟨b.hash, b.dest⟩ (by rw [ho]; simp))
    · rename_i he
      rw [K.iff]
      constructor
      · rintro (⟨d, hd, s, hs', e1, e2, e3⟩ | ⟨hv, ht, hx⟩)
        · refine .inl ⟨d, by simp [hd], s, hs', e1, e2, ?_⟩
          intro r hr
          rcases List.mem_append.mp hr with hr | hr
          · exact e3 r hr
          · rw [List.mem_singleton] at hr; subst hr; exact hno _
        · refine .inr ⟨by simp [hv], ht, ?_⟩
          intro d hd s hs'
          rcases List.mem_append.mp hd with hd | hd
          · exact hx d hd s hs'
          · rw [List.mem_singleton] at hd; subst hd
            rw [ho, List.mem_singleton] at hs'; subst hs'
            exact fun e => he e.symm
      · rintro (⟨d, hd, s, hs', e1, e2, e3⟩ | ⟨hv, ht, hx⟩)
        · rcases List.mem_append.mp hd with hd | hd
          · exact .inl ⟨d, hd, s, hs', e1, e2, fun r hr => e3 r (by simp [hr])⟩
          · rw [List.mem_singleton] at hd; subst hd
            rw [ho, List.mem_singleton] at hs'; subst hs'
            exact absurd e1.symm he
        · rcases List.mem_append.mp hv with hv | hv
          · exact .inr ⟨hv, ht, fun d hd => hx d (by simp [hd])⟩
          · rw [List.mem_singleton] at hv; subst hv
            rw [hno] at ht; cases ht
  · have hr : b.isRecv = true := by simpa [Blk.isRecv] using hsend
    have ho := outs_recv hr
    by_cases hg : b.kind = .genesis
    · have hno : ∀ h, b.takes h = false := by intro h; simp [Blk.takes, hg]
      have hse : b.outs = [] := by rw [ho]; exact (sh b hbL).2.2 hg
      have e : cutStep g t b = t := by unfold cutStep; rw [if_neg hsend, if_pos hg]
      rw [e]
      refine ⟨K.proper, ?_⟩
      intro h v
      rw [K.iff]
      constructor
      · rintro (⟨d, hd, s, hs', e1, e2, e3⟩ | ⟨hv, ht, hx⟩)
        · refine .inl ⟨d, by simp [hd], s, hs', e1, e2, ?_⟩
          intro r hr
          rcases List.mem_append.mp hr with hr | hr
          · exact e3 r hr
          · rw [List.mem_singleton] at hr; subst hr; exact hno _
        · refine .inr ⟨by simp [hv], ht, ?_⟩
          intro d hd s hs'
          rcases List.mem_append.mp hd with hd | hd
          · exact hx d hd s hs'
          · rw [List.mem_singleton] at hd; subst hd
            rw [hse] at hs'; cases hs'
      · rintro (⟨d, hd, s, hs', e1, e2, e3⟩ | ⟨hv, ht, hx⟩)
        · rcases List.mem_append.mp hd with hd | hd
          · exact .inl ⟨d, hd, s, hs', e1, e2, fun r hr => e3 r (by simp [hr])⟩
          · rw [List.mem_singleton] at hd; subst hd
            rw [hse] at hs'; cases hs'
        · rcases List.mem_append.mp hv with hv | hv
          · exact .inr ⟨hv, ht, fun d hd => hx d (by simp [hd])⟩
          · rw [List.mem_singleton] at hv; subst hv
            rw [hno] at ht; cases ht
    · have ht := takes_iff hr hg
      have hownsrc : ∀ s ∈ b.outs, s.hash ≠ b.src := by
        intro s hs' e
        have := hself s hs'
        rw [(ht s.hash).mpr e.symm] at this; cases this
      have honce : ∀ r ∈ P, r.takes b.src = false := by
        intro r hr'
        cases q : r.takes b.src with
        | false => rfl
        | true => exact absurd (w.once r (hPL r hr') b hbL b.src q ((ht _).mpr rfl) ▸ hr') hbP
      -- the receive itself
      have m1 : Table.Proper (meetRecv t b) ∧ (∀ h, h ≠ b.src → Table.get h (meetRecv t b) = Table.get h t) ∧
          (∀ v, Table.get b.src (meetRecv t b) = some v ↔ v = b ∧ ∀ d ∈ P, ∀ s ∈ d.outs, s.hash ≠ b.src) := by
        unfold meetRecv
        cases q : Table.get b.src t with
        | none =>
          refine ⟨Table.proper_put _ _ K.proper, fun h hh => Table.get_put_ne hh _ _, ?_⟩
          intro v
          simp only [Table.get_put_self, Option.some.injEq]
          constructor
          · rintro rfl
            refine ⟨rfl, fun d hd s hs' e => ?_⟩
            have := (K.iff b.src (asBlk d s)).mpr (.inl ⟨d, hd, s, hs', e, rfl, honce⟩)
            rw [q] at this; cases this
          · rintro ⟨rfl, _⟩; rfl
        | some x =>
          rcases (K.iff _ _).mp q with ⟨d, hd, s, hs', e1, e2, _⟩ | ⟨hv, ht', _⟩
          · have hx : x.isSend = true := by rw [e2]; exact asBlk_send d s
            simp only [hx, if_true]
            refine ⟨Table.proper_del _ K.proper, fun h hh => Table.get_del_ne hh _, ?_⟩
            intro v
            rw [Table.get_del_self _ K.proper]
            constructor
            · intro h; cases h
            · rintro ⟨_, h⟩; exact absurd e1 (h d hd s hs')
          · rw [honce x hv] at ht'; cases ht'
      obtain ⟨p1, p2, p3⟩ := m1
      have hnd : (b.sends.map (·.hash)).Nodup := by
        have := S.distinct b hU
        simp only [Blk.ids, List.nodup_cons] at this
        exact this.2
      have hn1 : ∀ s ∈ b.sends, Table.get s.hash (meetRecv t b) = none := by
        intro s hs'
        rw [← ho] at hs'
        rw [p2 _ (hownsrc s hs')]
        exact hnone s hs'
      obtain ⟨q1, q2, q3⟩ := meets (b := b) b.sends (meetRecv t b) p1 hnd hn1
      have e : cutStep g t b = b.sends.foldl (fun t s => meet t (inner b s)) (meetRecv t b) := by
        unfold cutStep
        rw [if_neg hsend, if_neg hg]
        split
        · rfl
        · rename_i hc
          have : b.sends = [] := by
            by_contra hne
            exact hc ((sh b hbL).2.1 hr hne)
          rw [this]; rfl
      rw [e]
      refine ⟨q1, ?_⟩
      have hab : ∀ s, asBlk b s = inner b s := by intro s; unfold asBlk; rw [if_neg hsend]
      intro h v
      by_cases hh : ∃ s ∈ b.sends, s.hash = h
      · obtain ⟨s, hs1, rfl⟩ := hh
        rw [q2 s hs1]
        have hs2 : s ∈ b.outs := by rw [ho]; exact hs1
        constructor
        · intro e'
          injection e' with e'
          refine .inl ⟨b, by simp, s, hs2, rfl, by rw [hab]; exact e'.symm, ?_⟩
          intro r hr'
          rcases List.mem_append.mp hr' with hr' | hr'
          · exact hord r hr' s hs2
          · rw [List.mem_singleton] at hr'; subst hr'; exact hself s hs2
        · rintro (⟨d, hd, s', hs', e1, e2, _⟩ | ⟨hv, ht', hx⟩)
          · rcases List.mem_append.mp hd with hd | hd
            · exact absurd e1 (hids d hd s' hs' s hs2)
            · rw [List.mem_singleton] at hd; subst hd
              rw [e2, hab, outs_inj S hU hs' hs2 e1]
          · exact absurd rfl (hx b (by simp) s hs2)
      · have hh' : ∀ s ∈ b.sends, s.hash ≠ h := fun s hs' e => hh ⟨s, hs', e⟩
        rw [q3 h hh']
        by_cases hsrc : h = b.src
        · subst hsrc
          rw [p3]
          constructor
          · rintro ⟨rfl, h2⟩
            refine .inr ⟨by simp, (ht _).mpr rfl, ?_⟩
            intro d hd s hs'
            rcases List.mem_append.mp hd with hd | hd
            · exact h2 d hd s hs'
            · rw [List.mem_singleton] at hd; subst hd; exact hownsrc s hs'
          · rintro (⟨d, hd, s', hs', e1, e2, e3⟩ | ⟨hv, ht', hx⟩)
            · have := e3 b (by simp)
              rw [(ht _).mpr rfl] at this; cases this
            · rcases List.mem_append.mp hv with hv | hv
              · rw [honce v hv] at ht'; cases ht'
              · rw [List.mem_singleton] at hv
                exact ⟨hv, fun d hd => hx d (by simp [hd])⟩
        · rw [p2 h hsrc, K.iff]
          have hbt : b.takes h = false := by
            cases q : b.takes h with
            | false => rfl
            | true => exact absurd ((ht h).mp q).symm hsrc
          constructor
          · rintro (⟨d, hd, s, hs', e1, e2, e3⟩ | ⟨hv, ht', hx⟩)
            · refine .inl ⟨d, by simp [hd], s, hs', e1, e2, ?_⟩
              intro r hr'
              rcases List.mem_append.mp hr' with hr' | hr'
              · exact e3 r hr'
              · rw [List.mem_singleton] at hr'; subst hr'; exact hbt
            · refine .inr ⟨by simp [hv], ht', ?_⟩
              intro d hd s hs'
              rcases List.mem_append.mp hd with hd | hd
              · exact hx d hd s hs'
              · rw [List.mem_singleton] at hd; subst hd
                rw [ho] at hs'; exact hh' s hs'
          · rintro (⟨d, hd, s, hs', e1, e2, e3⟩ | ⟨hv, ht', hx⟩)
            · rcases List.mem_append.mp hd with hd | hd
              · exact .inl ⟨d, hd, s, hs', e1, e2, fun r hr' => e3 r (by simp [hr'])⟩
              · rw [List.mem_singleton] at hd; subst hd
                rw [ho] at hs'; exact absurd e1 (hh' s hs')
            · rcases List.mem_append.mp hv with hv | hv
              · exact .inr ⟨hv, ht', fun d hd => hx d (by simp [hd])⟩
              · rw [List.mem_singleton] at hv; subst hv
                rw [hbt] at ht'; cases ht'

/-- Pairing off, for every list of blocks of a ledger in its order. -/
theorem cut_ok (S : Sound U) {L : List Blk} (w : Ledger U L) (sh : Shaped g L) : ∀ {bs : List Blk}, bs.Sublist L → CutOk bs (cut g bs) := by
  intro bs
  induction bs using List.reverseRecOn with
  | nil =>
    intro _
    refine ⟨by simp [cut, Table.Proper], ?_⟩
    intro h v
    simp [cut, Table.get]
  | append_singleton P b ih =>
    intro hs
    have : cut g (P ++ [b]) = cutStep g (cut g P) b := by simp [cut]
    rw [this]
    exact (ih ((List.sublist_append_left P [b]).trans hs)).step S w sh hs

/-! ### From blocks to keys -/

/-- The key of a send. -/
def keyOf (d : Blk) (s : Snd) : RKey := ⟨s.dest, d.addr, d.height, s.hash⟩

theorem findIdx_nodup {l : List Snd} (hn : (l.map (·.hash)).Nodup) {i : Nat} {s : Snd} (h : l[i]? = some s) :
    l.findIdx? (fun e => e.hash = s.hash) = some i := by
  induction l generalizing i with
  | nil => simp at h
  | cons x l ih =>
    simp only [List.map_cons, List.nodup_cons, List.mem_map, not_exists, not_and] at hn
    cases i with
    | zero =>
      simp only [List.getElem?_cons_zero, Option.some.injEq] at h
      subst h
      simp [List.findIdx?_cons]
    | succ i =>
      simp only [List.getElem?_cons_succ] at h
      have hx : x.hash ≠ s.hash := fun e => hn.1 s (List.mem_of_getElem? h) e.symm
      rw [List.findIdx?_cons]
      simp only [hx, decide_false, Bool.false_eq_true, if_false]
      rw [ih hn.2 h]; rfl

theorem sends_nodup (S : Sound U) {d : Blk} (hU : U d) : (d.sends.map (·.hash)).Nodup := by
  have := S.distinct d hU
  simp only [Blk.ids, List.nodup_cons] at this
  exact this.2

theorem locate_of (S : Sound U) (I : Inv U c) (sh : Shaped g c.all) {d : Blk} (hd : d ∈ c.all) {i : Nat} {s : Snd} (hs : d.outs[i]? = some s)
    {v : Blk} (hv : (if v.isSend then some v else c.byHash v.src) = some (asBlk d s)) : locate g c v = some (keyOf d s, some i) := by
  have hU := I.ledger.known d hd
  have hsm : s ∈ d.outs := List.mem_of_getElem? hs
  obtain ⟨e1, e2, e3⟩ := asBlk_hash S hU hsm
  unfold locate
  rw [hv]
  simp only [e1, e2, e3]
  by_cases hsend : d.isSend = true
  · rw [(sh d hd).1 hsend]
    have ho := outs_send S hU hsend
    rw [ho] at hs hsm
    have hi : i = 0 := by
      have := (List.getElem?_eq_some_iff.mp hs).1
      simp at this; exact this
    subst hi
    simp only [Bool.false_eq_true, if_false, asBlk, hsend, if_true, keyOf]
  · have hr : d.isRecv = true := by simpa [Blk.isRecv] using hsend
    have ho := outs_recv hr
    rw [ho] at hs hsm
    have hc := (sh d hd).2.1 hr (List.ne_nil_of_mem hsm)
    rw [hc, (I.complete S).mpr ⟨hd, outs_ids (by rw [ho]; exact hsm)⟩]
    simp only [if_true, findIdx_nodup (sends_nodup S hU) hs, Option.some_or, keyOf]

theorem byHash_send (S : Sound U) (I : Inv U c) {d : Blk} (hd : d ∈ c.all) {s : Snd} (hs : s ∈ d.outs) : c.byHash s.hash = some (asBlk d s) := by
  rw [I.byHash S]
  unfold asBlk
  split
  · rename_i h
    rw [outs_send S (I.ledger.known d hd) h, List.mem_singleton] at hs
    subst hs
    exact .inl ⟨hd, rfl⟩
  · rename_i h
    have hr : d.isRecv = true := by simpa [Blk.isRecv] using h
    rw [outs_recv hr] at hs
    exact .inr ⟨d, hd, s, hs, rfl, rfl⟩

/-! ### The events -/

def Ev.key : Ev → RKey
  | .add k _ => k
  | .rm k => k

/-- The send is among the blocks, and not received by one of them. -/
def FreshIn (bs : List Blk) (d : Blk) (s : Snd) : Prop := d ∈ bs ∧ ∀ r ∈ bs, r.takes s.hash = false

/-- The send is not among the blocks, and received by one of them. -/
def TakenIn (bs : List Blk) (d : Blk) (s : Snd) : Prop := d ∉ bs ∧ ∃ r ∈ bs, r.takes s.hash = true

/-- What the events of a list of blocks are. -/
structure EvOk (g : Cfg) (M bs : List Blk) (write : Bool) (es : List Ev) : Prop where
  only : ∀ e ∈ es, ∃ d ∈ M, ∃ (i : Nat) (s : Snd), d.outs[i]? = some s ∧ g.contract s.dest = true ∧
    ((FreshIn bs d s ∧ e = if write then .add (keyOf d s) (some i) else .rm (keyOf d s)) ∨
     (TakenIn bs d s ∧ e = if write then .rm (keyOf d s) else .add (keyOf d s) (some i)))
  fresh : ∀ d ∈ M, ∀ (i : Nat) (s : Snd), d.outs[i]? = some s → g.contract s.dest = true → FreshIn bs d s →
    (if write then Ev.add (keyOf d s) (some i) else .rm (keyOf d s)) ∈ es
  taken : ∀ d ∈ M, ∀ (i : Nat) (s : Snd), d.outs[i]? = some s → g.contract s.dest = true → TakenIn bs d s →
    (if write then Ev.rm (keyOf d s) else .add (keyOf d s) (some i)) ∈ es
  nodup : (es.map Ev.key).Nodup

theorem filterMap_keys {T : List (Nat × Blk)} {f : Blk → Option Ev} (h : ∀ x ∈ T, ∀ e, f x.2 = some e → e.key.hash = x.1) :
    (((T.map (·.2)).filterMap f).map (fun e => e.key.hash)).Sublist (T.map (·.1)) := by
  induction T with
  | nil => exact List.Sublist.slnil
  | cons x T ih =>
    have ih' := ih (fun y hy => h y (List.mem_cons_of_mem _ hy))
    simp only [List.map_cons, List.filterMap_cons]
    cases q : f x.2 with
    | none => exact ih'.cons _
    | some e =>
      simp only [List.map_cons, h x List.mem_cons_self e q]
      exact ih'.cons₂ _

theorem events_ok (S : Sound U) (I : Inv U c) (sh : Shaped g c.all) {bs : List Blk} (hs : bs.Sublist c.all) (write : Bool) :
    ∃ es, events g c write bs = some es ∧ EvOk g c.all bs write es := by
  have K := cut_ok S I.ledger sh hs
  have w := I.ledger
  -- a block left over comes from a send
  have hsrc : ∀ h v, (h, v) ∈ cut g bs → ∃ d ∈ c.all, ∃ (i : Nat) (s : Snd), d.outs[i]? = some s ∧ s.hash = h ∧ target v = s.dest ∧
      locate g c v = some (keyOf d s, some i) ∧
      ((FreshIn bs d s ∧ v.isSend = true) ∨ (TakenIn bs d s ∧ v.isSend = false)) := by
    intro h v hm
    rcases (K.iff h v).mp (Table.mem_get K.proper hm) with ⟨d, hd, s, hsd, e1, e2, e3⟩ | ⟨hv, ht, hx⟩
    · have hda := hs.subset hd
      obtain ⟨i, hi⟩ := List.getElem?_of_mem hsd
      have hvs : v.isSend = true := by rw [e2]; exact asBlk_send d s
      refine ⟨d, hda, i, s, hi, e1, ?_, locate_of S I sh hda hi ?_, .inl ⟨⟨hd, fun r hr => by rw [e1]; exact e3 r hr⟩, hvs⟩⟩
      · unfold target; rw [if_pos hvs, e2]
        exact (asBlk_hash S (w.known d hda) hsd).2.1
      · rw [if_pos hvs, e2]
    · have hva := hs.subset hv
      obtain ⟨d, hda, s, hsd, e1, e2⟩ := w.backed v hva h ht
      obtain ⟨i, hi⟩ := List.getElem?_of_mem hsd
      have hvr := takes_recv ht
      have hvs : v.isSend = false := by simpa [Blk.isRecv] using hvr
      refine ⟨d, hda, i, s, hi, e1, ?_, locate_of S I sh hda hi ?_, .inr ⟨⟨?_, v, hv, e1 ▸ ht⟩, hvs⟩⟩
      · unfold target; rw [hvs]; simp [e2]
      · rw [hvs]
        simp only [Bool.false_eq_true, if_false]
        rw [takes_src ht, ← e1]
        exact byHash_send S I hda hsd
      · intro hdb; exact hx d hdb s hsd e1
  -- and every such send leaves a block
  have hfresh : ∀ d ∈ c.all, ∀ (i : Nat) (s : Snd), d.outs[i]? = some s → FreshIn bs d s → (s.hash, asBlk d s) ∈ cut g bs := by
    intro d _ i s hi hf
    exact Table.get_mem ((K.iff _ _).mpr (.inl ⟨d, hf.1, s, List.mem_of_getElem? hi, rfl, rfl, hf.2⟩))
  have htaken : ∀ d ∈ c.all, ∀ (i : Nat) (s : Snd), d.outs[i]? = some s → TakenIn bs d s → ∃ r ∈ bs, r.takes s.hash = true ∧ (s.hash, r) ∈ cut g bs := by
    intro d hd i s hi ⟨hn, r, hr, ht⟩
    refine ⟨r, hr, ht, Table.get_mem ((K.iff _ _).mpr (.inr ⟨hr, ht, ?_⟩))⟩
    intro d' hd' s' hs' e
    have := w.ids S (hs.subset hd') hd (outs_ids hs') (e ▸ outs_ids (List.mem_of_getElem? hi))
    exact hn (this ▸ hd')
  set l := ((cut g bs).filter (fun e => g.contract (target e.2))).map (·.2) with hl
  have hlm : ∀ v, v ∈ l ↔ ∃ h, (h, v) ∈ cut g bs ∧ g.contract (target v) = true := by
    intro v
    simp [hl, List.mem_filter]
  have hev : ∀ h v, (h, v) ∈ cut g bs → ∃ e, eventOf g c write v = some e ∧ e.key.hash = h := by
    intro h v hm
    obtain ⟨d, hd, i, s, hi, e1, e2, e3, _⟩ := hsrc h v hm
    unfold eventOf
    rw [e3]
    refine ⟨_, rfl, ?_⟩
    dsimp only
    split
    · exact e1
    · exact e1
  have hall : l.all (fun v => (eventOf g c write v).isSome) = true := by
    rw [List.all_eq_true]
    intro v hv
    obtain ⟨h, hm, _⟩ := (hlm v).mp hv
    obtain ⟨e, he, _⟩ := hev h v hm
    rw [he]; rfl
  refine ⟨l.filterMap (eventOf g c write), ?_, ?_⟩
  · unfold events
    rw [← hl]
    exact if_pos hall
  · constructor
    · intro e he
      obtain ⟨v, hv, hve⟩ := List.mem_filterMap.mp he
      obtain ⟨h, hm, hc⟩ := (hlm v).mp hv
      obtain ⟨d, hd, i, s, hi, e1, e2, e3, e4⟩ := hsrc h v hm
      refine ⟨d, hd, i, s, hi, by rw [← e2]; exact hc, ?_⟩
      unfold eventOf at hve
      rw [e3] at hve
      simp only [Option.map_some, Option.some.injEq] at hve
      rcases e4 with ⟨hf, hvs⟩ | ⟨ht, hvs⟩
      · refine .inl ⟨hf, ?_⟩
        rw [← hve, hvs]
        cases write <;> rfl
      · refine .inr ⟨ht, ?_⟩
        rw [← hve, hvs]
        cases write <;> rfl
    · intro d hd i s hi hc hf
      have hm := hfresh d hd i s hi hf
      have hsm := List.mem_of_getElem? hi
      have hvs := asBlk_send d s
      refine List.mem_filterMap.mpr ⟨asBlk d s, (hlm _).mpr ⟨_, hm, ?_⟩, ?_⟩
      · unfold target; rw [if_pos hvs, (asBlk_hash S (w.known d hd) hsm).2.1]; exact hc
      · unfold eventOf
        rw [locate_of S I sh hd hi (by rw [if_pos hvs])]
        simp only [Option.map_some, Option.some.injEq, hvs]
        cases write <;> rfl
    · intro d hd i s hi hc ht
      obtain ⟨r, hr, htk, hm⟩ := htaken d hd i s hi ht
      have hsm := List.mem_of_getElem? hi
      have hvs : r.isSend = false := by simpa [Blk.isRecv] using takes_recv htk
      refine List.mem_filterMap.mpr ⟨r, (hlm _).mpr ⟨_, hm, ?_⟩, ?_⟩
      · unfold target; rw [hvs]
        obtain ⟨d', hd', s', hs', e1, e2⟩ := w.backed r (hs.subset hr) _ htk
        have : d' = d := w.ids S hd' hd (outs_ids hs') (e1 ▸ outs_ids hsm)
        subst this
        rw [outs_inj S (w.known d' hd') hs' hsm e1] at e2
        simp only [Bool.false_eq_true, if_false, ← e2]
        exact hc
      · unfold eventOf
        rw [locate_of S I sh hd hi (by
          rw [hvs]
          simp only [Bool.false_eq_true, if_false]
          rw [takes_src htk]
          exact byHash_send S I hd hsm)]
        simp only [Option.map_some, Option.some.injEq, hvs]
        cases write <;> rfl
    · have h1 : ((l.filterMap (eventOf g c write)).map (fun e => e.key.hash)).Nodup := by
        have hsub := filterMap_keys (T := (cut g bs).filter (fun e => g.contract (target e.2))) (f := eventOf g c write) (by
          rintro ⟨h, v⟩ hx e he
          obtain ⟨e', he', hk⟩ := hev h v (List.mem_filter.mp hx).1
          rw [he'] at he
          injection he with he
          subst he; exact hk)
        have hp : (((cut g bs).filter (fun e => g.contract (target e.2))).map (·.1)).Nodup := K.proper.sublist (List.filter_sublist.map _)
        exact hp.sublist hsub
      have : ((l.filterMap (eventOf g c write)).map (fun e => e.key.hash)) = ((l.filterMap (eventOf g c write)).map Ev.key).map (·.hash) := by
        rw [List.map_map]; rfl
      rw [this] at h1
      exact List.Nodup.of_map _ h1

end Verif.Road
