import Verif.State.DbRedo
import Verif.State.DbDeep

/-! The parts of the invariant: ledger, redo logs, caches. -/

namespace Verif.State
open Verif.Bytes

/-! ### The ledger -/

/-- The blocks of each account have heights 1, 2, 3, … -/
def Numbered (bs : List Blk) : Prop :=
  ∀ a, (bs.filter (fun b => decide (b.addr = a))).map (·.height) = List.range' 1 (bs.filter (fun b => decide (b.addr = a))).length

/-- Hashes and what is written once do not repeat. -/
structure Distinct (bs : List Blk) : Prop where
  hash : (bs.map (·.hash)).Nodup
  once : (bs.flatMap (fun b => b.once.map (·.1))).Nodup

theorem Distinct.sublist {bs cs : List Blk} (h : Distinct bs) (hs : cs.Sublist bs) : Distinct cs :=
  ⟨h.hash.sublist (hs.map _), h.once.sublist (by
    rw [List.flatMap_def, List.flatMap_def]
    exact (hs.map _).flatten)⟩

theorem Distinct.perm {bs cs : List Blk} (h : Distinct bs) (hp : bs.Perm cs) : Distinct cs :=
  ⟨(hp.map _).nodup_iff.mp h.hash, (hp.flatMap_right _).nodup_iff.mp h.once⟩

theorem Distinct.nodup {bs : List Blk} (h : Distinct bs) : bs.Nodup := List.Nodup.of_map _ h.hash

theorem Distinct.eq {bs : List Blk} (h : Distinct bs) {b c : Blk} (hb : b ∈ bs) (hc : c ∈ bs) (e : b.hash = c.hash) : b = c :=
  List.inj_on_of_nodup_map h.hash hb hc e

theorem range'_split {s n : Nat} {l₁ l₂ : List Nat} (h : l₁ ++ l₂ = List.range' s n) :
    l₁ = List.range' s l₁.length ∧ l₂ = List.range' (s + l₁.length) l₂.length := by
  have hlen : l₁.length + l₂.length = n := by
    have := congrArg List.length h; simpa using this
  constructor
  · have := congrArg (List.take l₁.length) h
    have hn : n = l₁.length + l₂.length := hlen.symm
    rw [List.take_left, hn, ← List.range'_append_1, List.take_left' (List.length_range' ..)] at this
    exact this
  · have := congrArg (List.drop l₁.length) h
    rw [List.drop_left, List.drop_range'] at this
    rw [this, List.length_range']
    congr 1 <;> omega

theorem Numbered.prefix {bs cs : List Blk} (h : Numbered bs)
    (hp : ∀ a, ∃ r, bs.filter (fun b => decide (b.addr = a)) = cs.filter (fun b => decide (b.addr = a)) ++ r) : Numbered cs := by
  intro a
  obtain ⟨r, hr⟩ := hp a
  have := h a
  rw [hr, List.map_append] at this
  have h1 := (range'_split this).1
  rw [List.length_map] at h1
  exact h1

theorem Numbered.rising {bs : List Blk} (h : Numbered bs) : Rising bs := by
  intro a
  rw [h a]
  exact List.pairwise_lt_range'

theorem Rising.suffix {bs cs : List Blk} (h : Rising (bs ++ cs)) : Rising cs := by
  intro a
  have := h a
  rw [List.filter_append, List.map_append, List.pairwise_append] at this
  exact this.2.1

/-- A list whose second part is marked is split by the marks. -/
theorem split_marked {A : Type} {p : A → Bool} {l : List A} (h : l.Pairwise (fun x y => p x = true → p y = true)) :
    l = l.filter (fun x => !p x) ++ l.filter p := by
  induction l with
  | nil => rfl
  | cons x l ih =>
    rw [List.pairwise_cons] at h
    by_cases hx : p x = true
    · have hall : ∀ y ∈ l, p y = true := fun y hy => h.1 y hy hx
      have h1 : (x :: l).filter (fun x => !p x) = [] := by
        rw [List.filter_eq_nil_iff]
        intro y hy
        rcases List.mem_cons.mp hy with rfl | hy
        · simp [hx]
        · simp [hall y hy]
      have h2 : (x :: l).filter p = x :: l := by
        rw [List.filter_eq_self]
        intro y hy
        rcases List.mem_cons.mp hy with rfl | hy
        · exact hx
        · exact hall y hy
      rw [h1, h2]; rfl
    · rw [List.filter_cons_of_pos (by simp [hx]), List.filter_cons_of_neg hx, List.cons_append, ← ih h.2]

theorem sublist_filter {bs l : List Blk} (hs : bs.Sublist l) (hn : l.Nodup) : bs = l.filter (fun b => decide (b ∈ bs)) := by
  induction hs with
  | slnil => rfl
  | @cons bs l x hs ih =>
    rw [List.nodup_cons] at hn
    rw [List.filter_cons_of_neg]
    · exact ih hn.2
    · simp only [decide_eq_true_eq]
      exact fun q => hn.1 (hs.subset q)
  | @cons_cons bs l x hs ih =>
    rw [List.nodup_cons] at hn
    rw [List.filter_cons_of_pos (by simp)]
    congr 1
    have := ih hn.2
    conv_lhs => rw [this]
    apply List.filter_congr
    intro y hy
    have : y ≠ x := fun q => hn.1 (q ▸ hy)
    simp [this]

theorem filter_comm_addr (l : List Blk) (p : Blk → Bool) (a : Addr) :
    (l.filter p).filter (fun b => decide (b.addr = a)) = (l.filter (fun b => decide (b.addr = a))).filter p := by
  rw [List.filter_filter, List.filter_filter]
  apply List.filter_congr
  intro x _
  exact Bool.and_comm _ _

theorem rising_pairwise {l : List Blk} (h : Rising l) (a : Addr) :
    (l.filter (fun b => decide (b.addr = a))).Pairwise (fun x y => x.height < y.height) := by
  have := h a
  rw [List.pairwise_map] at this
  exact this

/-- Deleting: the blocks that stay come first, for each account. -/
theorem delete_split {l ds : List Blk} (h : Rising l) (hn : l.Nodup) (hs : ds.Sublist l)
    (hc : ∀ b ∈ ds, ∀ c ∈ l, c.addr = b.addr → b.height ≤ c.height → c ∈ ds) (a : Addr) :
    l.filter (fun b => decide (b.addr = a)) =
      (without l ds).filter (fun b => decide (b.addr = a)) ++ ds.filter (fun b => decide (b.addr = a)) := by
  have h1 := split_marked (p := fun b => decide (b ∈ ds)) (l := l.filter (fun b => decide (b.addr = a))) (by
    refine (rising_pairwise h a).imp_of_mem ?_
    intro x y hx hy hlt hxd
    simp only [decide_eq_true_eq] at hxd ⊢
    have hx' := mem_filter_addr.mp hx
    have hy' := mem_filter_addr.mp hy
    exact hc x hxd y hy'.1 (by rw [hx'.2, hy'.2]) (by omega))
  conv_rhs => rw [sublist_filter hs hn]
  rw [filter_comm_addr]
  unfold without
  rw [filter_comm_addr]
  rw [← sublist_filter hs hn]
  conv_lhs => rw [h1]
  congr 1
  apply List.filter_congr
  intro x _
  simp

theorem without_perm {l ds : List Blk} (hn : l.Nodup) (hs : ds.Sublist l) : l.Perm (without l ds ++ ds) := by
  have h1 : l.Perm (l.filter (fun b => decide (b ∈ ds)) ++ l.filter (fun b => !decide (b ∈ ds))) := (List.filter_append_perm _ _).symm
  rw [← sublist_filter hs hn] at h1
  refine h1.trans (List.perm_append_comm.trans ?_)
  have : l.filter (fun b => !decide (b ∈ ds)) = without l ds := by
    unfold without
    apply List.filter_congr
    intro x _
    simp
  rw [this]

/-! #### Confirming -/

/-- The blocks a snapshot with this content confirms. -/
def confirmed (sc : Table Addr Nat) (b : Blk) : Bool :=
  match sc.get b.addr with
  | some h => decide (b.height ≤ h)
  | none => false

theorem toConfirm_eq {sc : Table Addr Nat} (left : Nat) (pre bs : List Blk) (hr : Rising (pre ++ bs)) (unmet : List (Addr × Nat))
    (hnd : unmet.Nodup) (hlen : unmet.length = left)
    (hmet : ∀ a h, sc.get a = some h → (a, h) ∈ unmet ∨ ∃ c ∈ pre, c.addr = a ∧ c.height = h)
    (hun : ∀ e ∈ unmet, sc.get e.1 = some e.2 ∧ ∀ c ∈ pre, ¬ (c.addr = e.1 ∧ c.height = e.2))
    {cs : List Blk} (h : toConfirm sc left bs = some cs) : cs = bs.filter (confirmed sc) := by
  induction bs generalizing left pre unmet cs with
  | nil =>
    cases left with
    | zero => unfold toConfirm at h; simp only [Option.some.injEq] at h; subst h; rfl
    | succ left => unfold toConfirm at h; simp at h
  | cons b bs ih =>
    have hr' : Rising ((pre ++ [b]) ++ bs) := by simpa using hr
    cases left with
    | zero =>
      unfold toConfirm at h
      simp only [Option.some.injEq] at h
      subst h
      have hun0 : unmet = [] := List.length_eq_zero_iff.mp hlen
      symm
      rw [List.filter_eq_nil_iff]
      intro c hc
      unfold confirmed
      cases hg : sc.get c.addr with
      | none => simp
      | some h =>
        simp only [decide_eq_true_eq, not_le]
        rcases hmet c.addr h hg with q | ⟨d, hd, hda, hdh⟩
        · rw [hun0] at q; simp at q
        · rw [← hdh]
          refine Rising.lt hr (a := c.addr) (cs := pre) (ds := b :: bs) (List.filter_append ..) hd hda hc rfl
    | succ left =>
      unfold toConfirm at h
      cases hg : sc.get b.addr with
      | none =>
        rw [hg] at h
        simp only at h
        have := ih (left + 1) (pre ++ [b]) hr' unmet hnd hlen
          (fun a h hs => (hmet a h hs).imp id (fun ⟨c, hc, e⟩ => ⟨c, List.mem_append.mpr (Or.inl hc), e⟩))
          (fun e he => ⟨(hun e he).1, by
            intro c hc
            rcases List.mem_append.mp hc with hc | hc
            · exact (hun e he).2 c hc
            · simp only [List.mem_singleton] at hc
              subst hc
              rintro ⟨e1, _⟩
              have := (hun e he).1
              rw [← e1, hg] at this; simp at this⟩) h
        rw [this, List.filter_cons_of_neg]
        simp [confirmed, hg]
      | some hh =>
        rw [hg] at h
        simp only at h
        by_cases h1 : b.height < hh
        · rw [if_pos h1] at h
          cases ht : toConfirm sc (left + 1) bs with
          | none => rw [ht] at h; simp at h
          | some ds =>
            rw [ht] at h
            simp only [Option.map_some, Option.some.injEq] at h
            subst h
            have := ih (left + 1) (pre ++ [b]) hr' unmet hnd hlen
              (fun a h hs => (hmet a h hs).imp id (fun ⟨c, hc, e⟩ => ⟨c, List.mem_append.mpr (Or.inl hc), e⟩))
              (fun e he => ⟨(hun e he).1, by
                intro c hc
                rcases List.mem_append.mp hc with hc | hc
                · exact (hun e he).2 c hc
                · simp only [List.mem_singleton] at hc
                  subst hc
                  rintro ⟨e1, e2⟩
                  have := (hun e he).1
                  rw [← e1, hg] at this
                  simp only [Option.some.injEq] at this
                  omega⟩) ht
            rw [this, List.filter_cons_of_pos]
            simp [confirmed, hg]; omega
        · rw [if_neg h1] at h
          by_cases h2 : b.height = hh
          · rw [if_pos h2] at h
            cases ht : toConfirm sc left bs with
            | none => rw [ht] at h; simp at h
            | some ds =>
              rw [ht] at h
              simp only [Option.map_some, Option.some.injEq] at h
              subst h
              have hin : (b.addr, hh) ∈ unmet := by
                rcases hmet b.addr hh hg with q | ⟨d, hd, hda, hdh⟩
                · exact q
                · have := Rising.lt hr (a := b.addr) (cs := pre) (ds := b :: bs) (List.filter_append ..) hd hda List.mem_cons_self rfl
                  omega
              have := ih left (pre ++ [b]) hr' (unmet.erase (b.addr, hh)) (hnd.erase _)
                (by rw [List.length_erase_of_mem hin]; omega)
                (by
                  intro a h hs
                  by_cases hab : (a, h) = (b.addr, hh)
                  · simp only [Prod.mk.injEq] at hab
                    right
                    exact ⟨b, by simp, hab.1.symm, by rw [hab.2]; exact h2⟩
                  · rcases hmet a h hs with q | ⟨c, hc, e⟩
                    · left; exact (List.mem_erase_of_ne hab).mpr q
                    · right; exact ⟨c, List.mem_append.mpr (Or.inl hc), e⟩)
                (by
                  intro e he
                  have he' := (List.Nodup.mem_erase_iff hnd).mp he
                  refine ⟨(hun e he'.2).1, ?_⟩
                  intro c hc
                  rcases List.mem_append.mp hc with hc | hc
                  · exact (hun e he'.2).2 c hc
                  · simp only [List.mem_singleton] at hc
                    subst hc
                    rintro ⟨e1, e2⟩
                    apply he'.1
                    have := (hun e he'.2).1
                    rw [← e1, hg] at this
                    simp only [Option.some.injEq] at this
                    rw [← this] at e2
                    ext1
                    · exact e1.symm
                    · exact this.symm) ht
              rw [this, List.filter_cons_of_pos]
              simp [confirmed, hg]; omega
          · rw [if_neg h2] at h
            have := ih (left + 1) (pre ++ [b]) hr' unmet hnd hlen
              (fun a h hs => (hmet a h hs).imp id (fun ⟨c, hc, e⟩ => ⟨c, List.mem_append.mpr (Or.inl hc), e⟩))
              (fun e he => ⟨(hun e he).1, by
                intro c hc
                rcases List.mem_append.mp hc with hc | hc
                · exact (hun e he).2 c hc
                · simp only [List.mem_singleton] at hc
                  subst hc
                  rintro ⟨e1, e2⟩
                  have := (hun e he).1
                  rw [← e1, hg] at this
                  simp only [Option.some.injEq] at this
                  omega⟩) h
            rw [this, List.filter_cons_of_neg]
            simp [confirmed, hg]; omega

theorem toConfirm_spec {sc : Table Addr Nat} (hsc : sc.Proper) {bs cs : List Blk} (hr : Rising bs) (h : toConfirm sc sc.length bs = some cs) :
    cs = bs.filter (confirmed sc) :=
  toConfirm_eq sc.length [] bs hr sc (List.Nodup.of_map _ hsc) rfl
    (fun a h hs => Or.inl (Table.get_mem hs)) (fun e he => ⟨Table.mem_get hsc he, by simp⟩) h

/-- Confirming: the confirmed blocks come first, for each account. -/
theorem confirm_split {l : List Blk} (sc : Table Addr Nat) (h : Rising l) (a : Addr) :
    l.filter (fun b => decide (b.addr = a)) =
      (l.filter (confirmed sc)).filter (fun b => decide (b.addr = a)) ++ (without l (l.filter (confirmed sc))).filter (fun b => decide (b.addr = a)) := by
  have hw : without l (l.filter (confirmed sc)) = l.filter (fun b => !confirmed sc b) := by
    unfold without
    apply List.filter_congr
    intro x hx
    by_cases hc : confirmed sc x = true <;> simp [hx, hc]
  rw [hw, filter_comm_addr, filter_comm_addr]
  have h1 := split_marked (p := fun b => !confirmed sc b) (l := l.filter (fun b => decide (b.addr = a))) (by
    refine (rising_pairwise h a).imp_of_mem ?_
    intro x y hx hy hlt
    have hx' := mem_filter_addr.mp hx
    have hy' := mem_filter_addr.mp hy
    unfold confirmed
    rw [hx'.2, hy'.2]
    cases sc.get a with
    | none => simp
    | some h =>
      simp only [Bool.not_eq_true', decide_eq_false_iff_not, not_le]
      omega)
  conv_lhs => rw [h1]
  congr 1
  apply List.filter_congr
  intro x _
  simp

theorem confirm_perm {l : List Blk} (sc : Table Addr Nat) (hn : l.Nodup) :
    l.Perm (l.filter (confirmed sc) ++ without l (l.filter (confirmed sc))) :=
  (without_perm hn List.filter_sublist).trans List.perm_append_comm

/-! ### Unconfirmed batches -/

def Blk.entry (b : Blk) : Nat × Batch := (b.hash, b.batch)

theorem rm_entries {us : List Blk} (hd : (us.map (·.hash)).Nodup) {b : Blk} (hb : b ∈ us) :
    rm b.hash (us.map Blk.entry) = (us.filter (fun c => decide (c ≠ b))).map Blk.entry := by
  unfold rm
  rw [List.filter_map]
  congr 1
  apply List.filter_congr
  intro c hc
  change decide (c.hash ≠ b.hash) = decide (c ≠ b)
  rw [decide_eq_decide]
  constructor
  · intro h e; exact h (by rw [e])
  · intro h e; exact h (List.inj_on_of_nodup_map hd hc hb e)

theorem get_entries {us : List Blk} (hd : (us.map (·.hash)).Nodup) {b : Blk} (hb : b ∈ us) :
    Table.get b.hash (us.map Blk.entry) = some b.batch := by
  apply Table.mem_get
  · unfold Table.Proper
    rw [List.map_map]
    exact hd
  · exact List.mem_map.mpr ⟨b, hb, rfl⟩

theorem takeOut_spec {us cs : List Blk} (hd : (us.map (·.hash)).Nodup) (hs : ∀ c ∈ cs, c ∈ us) (hn : cs.Nodup) :
    takeOut cs (us.map Blk.entry) = some (cs.flatMap Blk.batch, (without us cs).map Blk.entry) := by
  induction cs generalizing us with
  | nil =>
    unfold takeOut without
    simp
  | cons c cs ih =>
    rw [List.nodup_cons] at hn
    unfold takeOut
    rw [get_entries hd (hs c List.mem_cons_self), rm_entries hd (hs c List.mem_cons_self)]
    simp only
    rw [ih (hd.sublist (List.Sublist.map _ List.filter_sublist))]
    · simp only [List.flatMap_cons]
      congr 3
      unfold without
      rw [List.filter_filter]
      apply List.filter_congr
      intro x _
      by_cases h1 : x = c <;> by_cases h2 : x ∈ cs <;> simp [h1, h2]
    · intro x hx
      rw [List.mem_filter]
      refine ⟨hs x (List.mem_cons_of_mem _ hx), ?_⟩
      simp only [decide_eq_true_eq]
      rintro rfl; exact hn.1 hx
    · exact hn.2

theorem removeAll_spec {us cs : List Blk} (hd : (us.map (·.hash)).Nodup) (hs : ∀ c ∈ cs, c ∈ us) (hn : cs.Nodup) :
    removeAll cs (us.map Blk.entry) = (without us cs).map Blk.entry := by
  induction cs generalizing us with
  | nil =>
    unfold removeAll without
    simp
  | cons c cs ih =>
    rw [List.nodup_cons] at hn
    have : removeAll (c :: cs) (us.map Blk.entry) = removeAll cs (rm c.hash (us.map Blk.entry)) := rfl
    rw [this, rm_entries hd (hs c List.mem_cons_self)]
    rw [ih (hd.sublist (List.Sublist.map _ List.filter_sublist))]
    · congr 1
      unfold without
      rw [List.filter_filter]
      apply List.filter_congr
      intro x _
      by_cases h1 : x = c <;> by_cases h2 : x ∈ cs <;> simp [h1, h2]
    · intro x hx
      rw [List.mem_filter]
      refine ⟨hs x (List.mem_cons_of_mem _ hx), ?_⟩
      simp only [decide_eq_true_eq]
      rintro rfl; exact hn.1 hx
    · exact hn.2

/-! ### Caches -/

/-- Cached balances are those of the store. -/
def BalOk (c : Addr → Bytes → Option Bytes) (m : KMap) : Prop := ∀ a t v, c a t = some v → m (.latest a (.bal t)) = some v

theorem BalOk.upd {c : Addr → Bytes → Option Bytes} {m : KMap} (h : BalOk c m) (b : Batch) : BalOk (balUpd b c) (b.apply m) := by
  induction b generalizing c m with
  | nil => exact h
  | cons r b ih =>
    have h1 : balUpd (r :: b) c = balUpd b (fun a t => if r.key = .latest a (.bal t) then r.val else c a t) := rfl
    rw [h1, Batch.apply_cons]
    apply ih
    intro a t v hv
    simp only at hv
    change (if Key.latest a (.bal t) = r.key then r.val else m (.latest a (.bal t))) = some v
    by_cases hk : r.key = .latest a (.bal t)
    · rw [if_pos hk] at hv
      rw [if_pos hk.symm]; exact hv
    · rw [if_neg hk] at hv
      rw [if_neg (fun q => hk q.symm)]
      exact h a t v hv

theorem snapUpd_cons (cached : Addr → Bool) (r : Rec) (b : Batch) (c : Addr → Bytes → Option Bytes) :
    snapUpd cached (r :: b) c = snapUpd cached b (fun a k => if cached a && isHist a k r.key then r.val else c a k) := rfl

theorem snapUpd_not {cached : Addr → Bool} {b : Batch} {c : Addr → Bytes → Option Bytes} {a : Addr} {k : Bytes}
    (h : ∀ r ∈ b, isHist a k r.key = false) : snapUpd cached b c a k = c a k := by
  induction b generalizing c with
  | nil => rfl
  | cons r b ih =>
    rw [snapUpd_cons, ih (fun s hs => h s (List.mem_cons_of_mem _ hs)), h r List.mem_cons_self]
    simp

theorem snapUpd_none {cached : Addr → Bool} {b : Batch} {c : Addr → Bytes → Option Bytes} {a : Addr} {k : Bytes} (ha : cached a = true)
    (h : ∃ r ∈ b, isHist a k r.key = true) (hv : ∀ r ∈ b, isHist a k r.key = true → r.val = none) : snapUpd cached b c a k = none := by
  induction b generalizing c with
  | nil => obtain ⟨r, hr, _⟩ := h; simp at hr
  | cons r b ih =>
    rw [snapUpd_cons]
    by_cases hb : ∃ s ∈ b, isHist a k s.key = true
    · exact ih hb (fun s hs => hv s (List.mem_cons_of_mem _ hs))
    · push Not at hb
      rw [snapUpd_not (fun s hs => by simpa using hb s hs)]
      obtain ⟨s, hs, he⟩ := h
      rcases List.mem_cons.mp hs with rfl | hs
      · simp [ha, he, hv _ List.mem_cons_self he]
      · exact absurd he (hb s hs)

/-- If all history records are of one height, the cache changes as the entry of that height would. -/
theorem snapUpd_height {cached : Addr → Bool} {b : Batch} {c : Addr → Bytes → Option Bytes} {a : Addr} {k : Bytes} (ha : cached a = true)
    (h : Nat) (hh : ∀ r ∈ b, isHist a k r.key = true → r.key = .hist a (.stor k) h) :
    snapUpd cached b c a k = b.apply (fun _ => c a k) (.hist a (.stor k) h) := by
  induction b generalizing c with
  | nil => rfl
  | cons r b ih =>
    rw [snapUpd_cons, ih (fun s hs => hh s (List.mem_cons_of_mem _ hs)), Batch.apply_cons]
    apply Batch.apply_congr
    change (if (cached a && isHist a k r.key) = true then r.val else c a k) =
      (if Key.hist a (.stor k) h = r.key then r.val else c a k)
    by_cases hr : isHist a k r.key = true
    · rw [if_pos (hh r List.mem_cons_self hr).symm]
      simp [ha, hr]
    · have hne : ¬ Key.hist a (.stor k) h = r.key := fun q => by rw [← q] at hr; simp [isHist] at hr
      rw [if_neg hne]
      simp [hr]

/-- Cached values are those of the latest snapshot. -/
def SnapOk (cached : Addr → Bool) (c : Addr → Bytes → Option Bytes) (bs : List Blk) : Prop :=
  ∀ a, cached a = true → ∀ k, (c a k).getD [] = (slotAfter bs a (.stor k)).getD []

theorem isHist_iff {a : Addr} {k : Bytes} {x : Key} : isHist a k x = true ↔ ∃ h, x = .hist a (.stor k) h := by
  cases x with
  | latest a f => simp [isHist]
  | once i => simp [isHist]
  | hist a' f h =>
    cases f with
    | stor k' =>
      simp only [isHist, decide_eq_true_eq, Key.hist.injEq, Field.stor.injEq]
      constructor
      · rintro ⟨rfl, rfl⟩; exact ⟨h, rfl, rfl, rfl⟩
      · rintro ⟨_, rfl, rfl, _⟩; exact ⟨rfl, rfl⟩
    | bal t => simp [isHist]

theorem latest_getD (bs : List Blk) (a : Addr) (k : Bytes) :
    ((slotAfter bs a (.stor k)).bind (latestVal (.stor k))).getD [] = (slotAfter bs a (.stor k)).getD [] := by
  cases slotAfter bs a (.stor k) with
  | none => rfl
  | some v =>
    simp only [Option.bind_some, latestVal, Option.getD_some]
    split
    · rename_i h; rw [h]; rfl
    · rfl

/-- After a rollback. -/
theorem SnapOk.rollback {cached : Addr → Bool} {c : Addr → Bytes → Option Bytes} {snaps : List (List Blk)} (hs : SnapOk cached c snaps.flatten)
    {h : Nat} {b : Batch} (hv : ∀ a k, ∀ r ∈ b, isHist a k r.key = true → r.val = none)
    (hw : ∀ a k, slotAfter (snaps.drop h).flatten a (.stor k) ≠ none → ∃ r ∈ b, isHist a k r.key = true) :
    SnapOk cached (fun a k => if cached a then
      (match target (snaps.take h) [] (.latest a (.stor k)) with | some v => some v | none => snapUpd cached b c a k) else snapUpd cached b c a k)
      (snaps.take h).flatten := by
  intro a ha k
  simp only [ha, if_true]
  have ht : target (snaps.take h) [] (.latest a (.stor k)) = (slotAfter (snaps.take h).flatten a (.stor k)).bind (latestVal (.stor k)) := by
    simp only [target, List.append_nil]
  have hg := latest_getD (snaps.take h).flatten a k
  rw [← ht] at hg
  cases hx : target (snaps.take h) [] (.latest a (.stor k)) with
  | some v => rw [hx] at hg; exact hg
  | none =>
    rw [hx] at hg
    simp only
    by_cases hr : ∃ r ∈ b, isHist a k r.key = true
    · rw [snapUpd_none ha hr (hv a k)]; exact hg
    · have hno : slotAfter (snaps.drop h).flatten a (.stor k) = none := by
        by_contra hc; exact hr (hw a k hc)
      push Not at hr
      rw [snapUpd_not (fun r q => by simpa using hr r q), hs a ha k]
      congr 1
      have : snaps.flatten = (snaps.take h).flatten ++ (snaps.drop h).flatten := by
        rw [← List.flatten_append, List.take_append_drop]
      rw [this, slotAfter_append, hno]
      rfl

end Verif.State
