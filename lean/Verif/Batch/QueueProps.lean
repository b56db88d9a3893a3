import Verif.Batch.FeedProps

/-!
# Properties of queueing a snapshot block -/

namespace Verif.Batch

theorem fits_prefix {L : Ledger} {a b : List Item} (h : Fits L (a ++ b)) : Fits L a := by
  refine ⟨?_, ?_, ?_, ?_, ?_, ?_⟩
  · intro pre x post hs; exact h.refs pre x (post ++ b) (by rw [hs]; simp)
  · intro pre x post hs; exact h.sref pre x (post ++ b) (by rw [hs]; simp)
  · intro o
    have := h.link o
    rw [List.filter_append] at this
    exact (List.isChain_append.1 this).1
  · exact fun x hx => h.own x (List.mem_append_left _ hx)
  · have := h.uniq
    rw [List.flatMap_append, List.nodup_append] at this
    exact this.1
  · exact fun x hx => h.new x (List.mem_append_left _ hx)

/-- A batch whose blocks fit. -/
theorem good_addAll {L : Ledger} (xs : List Item) : ∀ (s : St) (A : List Item), Good L s A → Fits L (A ++ (addAll L s xs).2.1) →
    Good L (addAll L s xs).1 (A ++ (addAll L s xs).2.1) := by
  induction xs with
  | nil => intro s A hg hf; simpa [addAll] using hg
  | cons x xs ih =>
    intro s A hg hf
    rcases hadd : s.add L x with ⟨s', out⟩
    unfold addAll at hf ⊢
    rw [hadd] at hf ⊢
    rcases add_spec hg.cap hg.core hg.shape hadd with ⟨rfl, h1, h2⟩ | ⟨rfl, h1⟩
    · dsimp only at hf ⊢
      obtain ⟨hnear, hav⟩ := fits_next (D := []) (A := A) (x := x) (R := (addAll L s' xs).2.1) (by simpa using hf) (grown_refl L)
      have hg' : Good L s' (A ++ [x]) := by
        rcases fit_taken hg hnear hav with ⟨s'', h, hg'⟩ | h
        · rw [hadd] at h
          simp only [Prod.mk.injEq, and_true] at h
          rw [h]; exact hg'
        · rw [hadd] at h; simp at h
      have hre : A ++ x :: (addAll L s' xs).2.1 = (A ++ [x]) ++ (addAll L s' xs).2.1 := by simp
      rw [hre] at hf ⊢
      exact ih s' (A ++ [x]) hg' hf
    · rcases h1 with ⟨rfl, -⟩ | ⟨rfl, -⟩ | rfl | rfl
      · simpa using hg
      · exact ih s' A hg hf
      · exact ih s' A hg hf
      · exact ih s' A hg hf

/-- The blocks of an account. -/
def ofAcc (o : List Item) (a : Nat) : List Item := o.filter fun y => decide (y.owner = some a)

/-- The next block of an account may come next. -/
theorem left_near {L : Ledger} {T o : List Item} (hf : Fits L (T ++ o)) {acc : List Item} (hsub : ∀ x ∈ acc, x ∈ o) {a : Nat} {x : Item} {st : List Item}
    (h : ofAcc acc a ++ x :: st = ofAcc o a) : Near L (T ++ acc) x ∧ x.owner = some a ∧ x ∈ o := by
  have hxo : x ∈ ofAcc o a := by rw [← h]; simp
  obtain ⟨hx, hxa⟩ := List.mem_filter.1 hxo
  simp only [decide_eq_true_eq] at hxa
  have hxm : x ∈ T ++ o := List.mem_append_right _ hx
  have hAm : ∀ y ∈ T ++ acc, y ∈ T ++ o := fun y hy => by
    rcases List.mem_append.1 hy with hy | hy
    · exact List.mem_append_left _ hy
    · exact List.mem_append_right _ (hsub y hy)
  refine ⟨⟨?_, ?_, hf.own x hxm, ?_⟩, hxa, hx⟩
  · intro _ r hr y hy hyn hk
    obtain ⟨p, q, hpq⟩ := List.append_of_mem hxm
    rcases hf.refs p x q hpq r hr with h | ⟨y', hy', h1, h2⟩
    · rw [(hf.new y (hAm y hy) r hk).1] at h; simp at h
    · have := uniq_eq hf.uniq (hAm y hy) (by rw [hpq]; exact List.mem_append_left _ hy') hk h2
      subst this
      exact h1 hyn
  · intro z hz
    have hzA := lastOf_mem hz
    have hch := hf.link x.owner
    have he : (o.filter fun y => decide (y.owner = x.owner)) = (acc.filter fun y => decide (y.owner = x.owner)) ++ x :: st := by
      rw [hxa]; exact h.symm
    rw [List.filter_append, he, ← List.append_assoc] at hch
    have hR := (List.isChain_append.1 hch).2.2 z (by unfold lastOf at hz; rw [List.filter_append] at hz; rw [hz]; rfl) x (by simp)
    exact ⟨hR.1, fun ho => ⟨hR.2 ho, (hf.new z (hAm z hzA.1) z.hash (hf.own z (hAm z hzA.1))).1⟩⟩
  · intro y hy hk
    have hyx : y = x := uniq_eq hf.uniq (hAm y hy) hxm (hf.own y (hAm y hy)) hk
    subst hyx
    rcases List.mem_append.1 hy with hy | hy
    · exact uniq_apart hf.uniq hy hx hk hk
    · have hnd := uniq_nodup hf.uniq hf.own
      have hnd2 : (ofAcc o a).Nodup := ((List.nodup_append.1 hnd).2.1).sublist List.filter_sublist
      rw [← h] at hnd2
      exact (List.nodup_append.1 hnd2).2.2 y (List.mem_filter.2 ⟨hy, by simpa using hxa⟩) y (by simp) rfl

theorem ofAcc_snoc {acc : List Item} {x : Item} {a : Nat} (hx : x.owner = some a) (b : Nat) : ofAcc (acc ++ [x]) b = if b = a then ofAcc acc b ++ [x] else ofAcc acc b := by
  unfold ofAcc
  rw [List.filter_append]
  by_cases h : b = a
  · subst h; simp [hx]
  · rw [if_neg h, List.filter_cons_of_neg (by rw [hx]; simpa using fun e => h e.symm)]
    simp

/-- Taking blocks of one account. -/
theorem drain_spec {L : Ledger} {T o : List Item} (hf : Fits L (T ++ o)) {a : Nat} : ∀ (st : List Item) (s : St) (acc : List Item), Good L s (T ++ acc) → (∀ x ∈ acc, x ∈ o) →
    ofAcc acc a ++ st = ofAcc o a →
    ∃ s' d st' out, drain L s st = (s', st', out) ∧ st = d ++ st' ∧ Good L s' (T ++ (acc ++ d)) ∧ (∀ x ∈ d, x.owner = some a ∧ x ∈ o) ∧
      (d = [] → s' = s) ∧ (out = .full ∨ (out = .ok ∧ st' = []) ∨ (out = .noRef ∧ ∃ x r, st' = x :: r ∧ ¬ Avail L (T ++ (acc ++ d)) x)) := by
  intro st
  induction st with
  | nil => intro s acc hg _ _; exact ⟨s, [], [], .ok, rfl, rfl, by simpa using hg, by simp, fun _ => rfl, Or.inr (Or.inl ⟨rfl, rfl⟩)⟩
  | cons x st ih =>
    intro s acc hg hsub h
    obtain ⟨hnear, hxa, hxo⟩ := left_near hf hsub h
    unfold drain
    rcases near_add hg hnear with ⟨s', hadd, hg'⟩ | hadd | ⟨hadd, hno⟩
    · rw [hadd]
      dsimp only
      rw [List.append_assoc] at hg'
      obtain ⟨s'', d, st', out, h1, h2, h3, h4, h5, h6⟩ := ih s' (acc ++ [x]) hg' (by
        intro y hy
        rcases List.mem_append.1 hy with hy | hy
        · exact hsub y hy
        · rw [List.mem_singleton] at hy; rw [hy]; exact hxo) (by rw [ofAcc_snoc hxa, if_pos rfl, ← h]; simp)
      refine ⟨s'', x :: d, st', out, h1, by rw [h2]; rfl, by simpa using h3, ?_, by simp, by simpa using h6⟩
      intro y hy
      rcases List.mem_cons.1 hy with rfl | hy
      · exact ⟨hxa, hxo⟩
      · exact h4 y hy
    · rw [hadd]
      exact ⟨s, [], x :: st, .full, rfl, rfl, by simpa using hg, by simp, fun _ => rfl, Or.inl rfl⟩
    · rw [hadd]
      exact ⟨s, [], x :: st, .noRef, rfl, rfl, by simpa using hg, by simp, fun _ => rfl, Or.inr (Or.inr ⟨rfl, x, st, rfl, by simpa using hno⟩)⟩

/-- The blocks of an account that were not taken yet. -/
def Rest (o acc : List Item) (a : Nat) (st : List Item) : Prop := ofAcc acc a ++ st = ofAcc o a

theorem ofAcc_append (u v : List Item) (a : Nat) : ofAcc (u ++ v) a = ofAcc u a ++ ofAcc v a := List.filter_append ..

theorem ofAcc_other {d : List Item} {a b : Nat} (h : ∀ x ∈ d, x.owner = some a) (hne : b ≠ a) : ofAcc d b = [] := by
  unfold ofAcc
  rw [List.filter_eq_nil_iff]
  intro x hx
  rw [h x hx]
  simpa using fun e => hne e.symm

theorem ofAcc_all {d : List Item} {a : Nat} (h : ∀ x ∈ d, x.owner = some a) : ofAcc d a = d := by
  unfold ofAcc
  rw [List.filter_eq_self]
  intro x hx
  simp [h x hx]

theorem forall2_imp {R S : Nat → List Item → Prop} {as : List Nat} {sts : List (List Item)} (h : List.Forall₂ R as sts) (hi : ∀ a ∈ as, ∀ st, R a st → S a st) : List.Forall₂ S as sts := by
  induction h with
  | nil => exact List.Forall₂.nil
  | cons h1 _ ih => exact List.Forall₂.cons (hi _ (by simp) _ h1) (ih fun a ha => hi a (List.mem_cons_of_mem _ ha))

theorem forall2_right {R : Nat → List Item → Prop} {as : List Nat} {sts : List (List Item)} (h : List.Forall₂ R as sts) {st : List Item} (hm : st ∈ sts) : ∃ a ∈ as, R a st := by
  induction h with
  | nil => cases hm
  | @cons a st' as sts h1 _ ih =>
    rcases List.mem_cons.1 hm with rfl | hm
    · exact ⟨a, by simp, h1⟩
    · obtain ⟨b, hb, hr⟩ := ih hm
      exact ⟨b, List.mem_cons_of_mem _ hb, hr⟩

theorem forall2_left {R : Nat → List Item → Prop} {as : List Nat} {sts : List (List Item)} (h : List.Forall₂ R as sts) {a : Nat} (hm : a ∈ as) : ∃ st ∈ sts, R a st := by
  induction h with
  | nil => cases hm
  | @cons b st' as sts h1 _ ih =>
    rcases List.mem_cons.1 hm with rfl | hm
    · exact ⟨st', by simp, h1⟩
    · obtain ⟨st, hb, hr⟩ := ih hm
      exact ⟨st, List.mem_cons_of_mem _ hb, hr⟩

/-- One pass. -/
theorem sweep_spec {L : Ledger} {T o : List Item} (hf : Fits L (T ++ o)) : ∀ (as : List Nat) (sts : List (List Item)) (s : St) (acc : List Item), as.Nodup → Good L s (T ++ acc) → (∀ x ∈ acc, x ∈ o) →
    List.Forall₂ (Rest o acc) as sts →
    ∃ s' d sts' out, sweep L s sts = (s', sts', out) ∧ Good L s' (T ++ (acc ++ d)) ∧ (∀ x ∈ d, x ∈ o ∧ ∃ a ∈ as, x.owner = some a) ∧ List.Forall₂ (Rest o (acc ++ d)) as sts' ∧
      d.length + sts'.flatten.length = sts.flatten.length ∧
      (out = .full ∨ (out = .ok ∧ (d = [] → s' = s ∧ ∀ st ∈ sts', st = [] ∨ ∃ x r, st = x :: r ∧ ¬ Avail L (T ++ acc) x))) := by
  intro as
  induction as with
  | nil =>
    intro sts s acc _ hg _ h
    cases h
    exact ⟨s, [], [], .ok, rfl, by simpa using hg, by simp, List.Forall₂.nil, rfl, Or.inr ⟨rfl, by simp⟩⟩
  | cons a as ih =>
    intro sts s acc hnd hg hsub h
    cases h with
    | @cons _ st _ sts h1 h2 =>
      rw [List.nodup_cons] at hnd
      obtain ⟨s₁, d₁, st', out₁, g1, g2, g3, g4, g5, g6⟩ := drain_spec hf st s acc hg hsub h1
      have hd1 : ∀ x ∈ d₁, x.owner = some a := fun x hx => (g4 x hx).1
      have hrest : List.Forall₂ (Rest o (acc ++ d₁)) as sts := by
        refine forall2_imp h2 ?_
        intro b hb st hr
        unfold Rest at hr ⊢
        rw [ofAcc_append, ofAcc_other hd1 (fun e => hnd.1 (e ▸ hb)), List.append_nil]
        exact hr
      have hself : Rest o (acc ++ d₁) a st' := by
        unfold Rest at h1 ⊢
        rw [ofAcc_append, ofAcc_all hd1, List.append_assoc, ← g2]
        exact h1
      have hsub1 : ∀ x ∈ acc ++ d₁, x ∈ o := fun x hx => by
        rcases List.mem_append.1 hx with hx | hx
        · exact hsub x hx
        · exact (g4 x hx).2
      unfold sweep
      rw [g1]
      rcases g6 with rfl | hcase
      · dsimp only
        refine ⟨s₁, d₁, st' :: sts, .full, rfl, g3, fun x hx => ⟨(g4 x hx).2, a, by simp, hd1 x hx⟩, List.Forall₂.cons hself hrest, ?_, Or.inl rfl⟩
        rw [g2]; simp
      · obtain ⟨s₂, d₂, sts', out₂, k1, k2, k3, k4, k5, k6⟩ := ih sts s₁ (acc ++ d₁) hnd.2 g3 hsub1 hrest
        have hd2 : ofAcc d₂ a = [] := by
          unfold ofAcc
          rw [List.filter_eq_nil_iff]
          intro x hx
          obtain ⟨-, b, hb, hxb⟩ := k3 x hx
          rw [hxb]
          simp only [Option.some.injEq, decide_eq_true_eq]
          rintro rfl
          exact hnd.1 hb
        have hval : (match (s₁, st', out₁) with
            | (s', r, Out.full) => (s', r :: sts, Out.full)
            | (s', r, Out.panic) => (s', r :: sts, Out.panic)
            | (s', r, _) => ((sweep L s' sts).1, r :: (sweep L s' sts).2.1, (sweep L s' sts).2.2)) = (s₂, st' :: sts', out₂) := by
          rcases hcase with ⟨rfl, -⟩ | ⟨rfl, -⟩ <;> simp [k1]
        refine ⟨s₂, d₁ ++ d₂, st' :: sts', out₂, hval, by simpa using k2, ?_, ?_, ?_, ?_⟩
        · intro x hx
          rcases List.mem_append.1 hx with hx | hx
          · exact ⟨(g4 x hx).2, a, by simp, hd1 x hx⟩
          · obtain ⟨e1, b, hb, e2⟩ := k3 x hx
            exact ⟨e1, b, by simp [hb], e2⟩
        · refine List.Forall₂.cons ?_ (by simpa using k4)
          unfold Rest at hself ⊢
          rw [← List.append_assoc, ofAcc_append, hd2, List.append_nil]
          exact hself
        · rw [g2]
          simp only [List.flatten_cons, List.length_append]
          omega
        · rcases k6 with h | ⟨h, k6⟩
          · exact Or.inl h
          · refine Or.inr ⟨h, fun hd => ?_⟩
            obtain ⟨hd1', hd2'⟩ := List.append_eq_nil_iff.1 hd
            subst hd1' hd2'
            obtain ⟨e1, e2⟩ := k6 rfl
            refine ⟨by rw [e1, g5 rfl], ?_⟩
            intro st'' hst
            rcases List.mem_cons.1 hst with rfl | hst
            · rcases hcase with ⟨-, h⟩ | ⟨-, x, r, h, hno⟩
              · exact Or.inl h
              · exact Or.inr ⟨x, r, h, by simpa using hno⟩
            · simpa using e2 st'' hst

/-- When nothing more can be taken although all blocks fit, nothing is left. -/
theorem stuck_empty {L : Ledger} {T o : List Item} (hf : Fits L (T ++ o)) {as : List Nat} (has : ∀ x ∈ o, ∃ a ∈ as, x.owner = some a) {acc : List Item} {sts : List (List Item)}
    (hsub : ∀ x ∈ acc, x ∈ o) (h : List.Forall₂ (Rest o acc) as sts) (hst : ∀ st ∈ sts, st = [] ∨ ∃ x r, st = x :: r ∧ ¬ Avail L (T ++ acc) x) : ∀ st ∈ sts, st = [] := by
  have hnd := (List.nodup_append.1 (uniq_nodup hf.uniq hf.own)).2.1
  have hnot : ∀ a ∈ as, ∀ st, Rest o acc a st → ∀ y ∈ st, y ∉ acc := by
    intro a _ st hr y hy hya
    have hyo : y ∈ ofAcc o a := by rw [← hr]; exact List.mem_append_right _ hy
    have hnd2 : (ofAcc o a).Nodup := hnd.sublist List.filter_sublist
    rw [← hr] at hnd2
    exact (List.nodup_append.1 hnd2).2.2 y (List.mem_filter.2 ⟨hya, (List.mem_filter.1 hyo).2⟩) y hy rfl
  by_contra hc
  have hex : ∃ x ∈ o, x ∉ acc := by
    by_contra hall
    apply hc
    intro st hm
    obtain ⟨a, ha, hr⟩ := forall2_right h hm
    cases st with
    | nil => rfl
    | cons y st =>
      have hy := hnot a ha _ hr y (by simp)
      exact absurd ⟨y, (List.mem_filter.1 (show y ∈ ofAcc o a by rw [← hr]; simp)).1, hy⟩ hall
  obtain ⟨x, hx⟩ : ∃ x, o.find? (fun x => decide (x ∉ acc)) = some x := by
    rw [← Option.isSome_iff_exists, List.find?_isSome]
    obtain ⟨x, h1, h2⟩ := hex
    exact ⟨x, h1, by simpa using h2⟩
  obtain ⟨hxn, o₁, o₂, ho, ho1⟩ := List.find?_eq_some_iff_append.1 hx
  simp only [decide_eq_true_eq] at hxn
  have ho1 : ∀ z ∈ o₁, z ∈ acc := fun z hz => by simpa using ho1 z hz
  obtain ⟨a, ha, hxa⟩ := has x (by rw [ho]; simp)
  obtain ⟨st, hstm, hr⟩ := forall2_left h ha
  have hoa : ofAcc o a = ofAcc o₁ a ++ x :: ofAcc o₂ a := by
    rw [ho, ofAcc_append]
    congr 1
    unfold ofAcc
    rw [List.filter_cons_of_pos (by simpa using hxa)]
  have hxst : x ∈ st := by
    have : x ∈ ofAcc acc a ++ st := by rw [show ofAcc acc a ++ st = ofAcc o a from hr, hoa]; simp
    rcases List.mem_append.1 this with h' | h'
    · exact absurd (List.mem_filter.1 h').1 hxn
    · exact h'
  rcases hst st hstm with rfl | ⟨y, r, rfl, hno⟩
  · cases hxst
  · have hyn := hnot a ha _ hr y (by simp)
    have hxy : y = x := by
      have he : ofAcc acc a ++ y :: r = ofAcc o₁ a ++ x :: ofAcc o₂ a := by rw [← hoa]; exact hr
      rcases List.append_eq_append_iff.1 he with ⟨c, hc1, hc2⟩ | ⟨c, hc1, hc2⟩
      · cases c with
        | nil => simp at hc2; exact hc2.1
        | cons w c =>
          simp only [List.cons_append, List.cons.injEq] at hc2
          exact absurd (ho1 y (List.mem_filter.1 (show y ∈ ofAcc o₁ a by rw [hc1, hc2.1]; simp)).1) hyn
      · cases c with
        | nil => simp at hc2; exact hc2.1.symm
        | cons w c =>
          simp only [List.cons_append, List.cons.injEq] at hc2
          exact absurd (List.mem_filter.1 (show x ∈ ofAcc acc a by rw [hc1, hc2.1]; simp)).1 hxn
    subst hxy
    apply hno
    refine ⟨fun k hk => ?_, fun hn => by rw [hxa] at hn; simp at hn⟩
    rcases hf.refs (T ++ o₁) y o₂ (by rw [ho]; simp) k hk with h' | ⟨z, hz, -, hkz⟩
    · exact Or.inl h'
    · refine Or.inr ⟨z, ?_, hkz⟩
      rcases List.mem_append.1 hz with hz | hz
      · exact List.mem_append_left _ hz
      · exact List.mem_append_right _ (ho1 z hz)

/-- All passes. -/
theorem sweeps_spec {L : Ledger} {T o : List Item} (hf : Fits L (T ++ o)) {order : Nat → List (List Item) → List (List Item)} (hord : ∀ n l, (order n l).Perm l) :
    ∀ (f : Nat) (as : List Nat) (sts : List (List Item)) (s : St) (acc : List Item), sts.flatten.length < f → as.Nodup → (∀ x ∈ o, ∃ a ∈ as, x.owner = some a) → Good L s (T ++ acc) →
      (∀ x ∈ acc, x ∈ o) → List.Forall₂ (Rest o acc) as sts →
      ∃ s' acc' sts' out, sweeps L order f s sts = (s', sts', out) ∧ Good L s' (T ++ acc') ∧ (∀ x ∈ acc', x ∈ o) ∧
        (out = .full ∨ (out = .ok ∧ (∀ st ∈ sts', st = []) ∧ ∃ as' : List Nat, as'.Perm as ∧ List.Forall₂ (Rest o acc') as' sts')) := by
  intro f
  induction f with
  | zero => intro as sts s acc h; omega
  | succ f ih =>
    intro as sts s acc hlen hnd has hg hsub h
    obtain ⟨as', h', hp'⟩ : ∃ as', List.Forall₂ (Rest o acc) as' (order f sts) ∧ as'.Perm as := by
      have := List.perm_comp_forall₂ (r := flip (Rest o acc)) (hord f sts) h.flip
      obtain ⟨w, h1, h2⟩ := this
      exact ⟨w, h1.flip, h2⟩
    have hflat : (order f sts).flatten.length = sts.flatten.length := (hord f sts).flatten.length_eq
    obtain ⟨s', d, sts', out, g1, g2, g3, g4, g5, g6⟩ := sweep_spec hf as' (order f sts) s acc (hp'.nodup_iff.2 hnd) hg hsub h'
    have hsub' : ∀ x ∈ acc ++ d, x ∈ o := fun x hx => by
      rcases List.mem_append.1 hx with hx | hx
      · exact hsub x hx
      · exact (g3 x hx).1
    have has' : ∀ x ∈ o, ∃ a ∈ as', x.owner = some a := fun x hx => by
      obtain ⟨a, ha, e⟩ := has x hx
      exact ⟨a, hp'.symm.subset ha, e⟩
    unfold sweeps
    rw [g1]
    rcases g6 with rfl | ⟨rfl, g6⟩
    · exact ⟨s', acc ++ d, sts', .full, rfl, g2, hsub', Or.inl rfl⟩
    · dsimp only
      split
      · rename_i he
        have hd : d = [] := List.eq_nil_of_length_eq_zero (by omega)
        subst hd
        obtain ⟨-, hst⟩ := g6 rfl
        rw [List.append_nil] at g2 g4 hsub'
        exact ⟨s', acc, sts', .ok, rfl, g2, hsub', Or.inr ⟨rfl, stuck_empty hf has' hsub' g4 hst, as', hp', g4⟩⟩
      · rename_i hne
        obtain ⟨s'', acc', sts'', out, k1, k2, k3, k4⟩ := ih as' sts' s' (acc ++ d) (by omega) (hp'.nodup_iff.2 hnd) has' g2 hsub' g4
        refine ⟨s'', acc', sts'', out, k1, k2, k3, ?_⟩
        rcases k4 with k4 | ⟨k4, k5, as'', k6, k7⟩
        · exact Or.inl k4
        · exact Or.inr ⟨k4, k5, as'', k6.trans hp', k7⟩

/-- **C93.** A snapshot block whose account blocks can be inserted in some order after what the batch holds, is queued with all of them, whatever the order in which the accounts are gone
through in every pass, unless the levels of the batch run out. -/
theorem snapshot_queued (L : Ledger) {cap : Nat} (hcap : 0 < cap) (xs : List Item) {order : Nat → List (List Item) → List (List Item)} (hord : ∀ n l, (order n l).Perm l)
    {o : List Item} {z : Item} {as : List Nat} (hnd : as.Nodup) (has : ∀ x ∈ o, ∃ a ∈ as, x.owner = some a) (hz : z.owner = none) (hf : Fits L (takenOf L cap xs ++ o ++ [z])) :
    (queueSnapshot L order (batchOf L cap xs) (as.map (ofAcc o)) z).2 = .full ∨
      ((queueSnapshot L order (batchOf L cap xs) (as.map (ofAcc o)) z).2 = .ok ∧
        (queueSnapshot L order (batchOf L cap xs) (as.map (ofAcc o)) z).1.items.Perm (takenOf L cap xs ++ o ++ [z])) := by
  have hf1 := fits_prefix hf
  have hg : Good L (batchOf L cap xs) (takenOf L cap xs) := by
    have := good_addAll xs (newBatch cap) [] (good_new L hcap) (by simpa [takenOf] using fits_prefix hf1)
    simpa [batchOf, takenOf] using this
  have hinit : List.Forall₂ (Rest o []) as (as.map (ofAcc o)) := by
    rw [List.forall₂_map_right_iff]
    exact List.forall₂_same.2 fun a _ => by simp [Rest, ofAcc]
  obtain ⟨s', acc, sts', out, h1, h2, h3, h4⟩ := sweeps_spec hf1 hord ((as.map (ofAcc o)).flatten.length + 1) as (as.map (ofAcc o)) (batchOf L cap xs) [] (by omega) hnd has
    (by simpa using hg) (by simp) hinit
  unfold queueSnapshot
  rw [h1]
  rcases h4 with rfl | ⟨rfl, h5, as', h6, h7⟩
  · exact Or.inl rfl
  · dsimp only
    rw [if_pos (by rw [List.all_eq_true]; intro st hst; rw [h5 st hst]; rfl)]
    have hperm : acc.Perm o := by
      rw [List.perm_iff_count]
      intro x
      by_cases hx : x ∈ o
      · obtain ⟨a, ha, hxa⟩ := has x hx
        obtain ⟨st, hst, hr⟩ := forall2_left h7 (h6.symm.subset ha)
        unfold Rest at hr
        rw [h5 st hst, List.append_nil] at hr
        have e1 : (ofAcc acc a).count x = acc.count x := List.count_filter (by simpa using hxa)
        have e2 : (ofAcc o a).count x = o.count x := List.count_filter (by simpa using hxa)
        rw [← e1, ← e2, hr]
      · rw [List.count_eq_zero_of_not_mem hx, List.count_eq_zero_of_not_mem fun h => hx (h3 x h)]
    obtain ⟨n1, n2⟩ := fits_next (D := []) (A := takenOf L cap xs ++ o) (x := z) (R := []) (by simpa using hf) (grown_refl L)
    have hmem : ∀ y, y ∈ takenOf L cap xs ++ acc ↔ y ∈ takenOf L cap xs ++ o := fun y => (hperm.append_left _).mem_iff
    have hlast : lastOf (takenOf L cap xs ++ acc) z.owner = lastOf (takenOf L cap xs ++ o) z.owner := by
      unfold lastOf
      rw [List.filter_append, List.filter_append]
      have e : ∀ u : List Item, (∀ x ∈ u, x ∈ o) → (u.filter fun y => decide (y.owner = z.owner)) = [] := by
        intro u hu
        rw [List.filter_eq_nil_iff]
        intro x hx
        obtain ⟨a, -, e⟩ := has x (hu x hx)
        simp [hz, e]
      rw [e acc h3, e o fun _ h => h]
    have hnear : Near L (takenOf L cap xs ++ acc) z :=
      ⟨fun hn => absurd hz hn, fun y hy => n1.link y (by rw [← hlast]; exact hy), n1.own, fun y hy => n1.fresh y ((hmem y).1 hy)⟩
    have hav : Avail L (takenOf L cap xs ++ acc) z := n2.mono fun y hy => (hmem y).2 hy
    rcases fit_taken h2 hnear hav with ⟨s'', hadd, hg''⟩ | hadd
    · rw [hadd]
      refine Or.inr ⟨rfl, ?_⟩
      exact hg''.core.perm.trans ((hperm.append_left _).append_right _)
    · rw [hadd]
      exact Or.inl rfl

end Verif.Batch
