import Verif.Builtin.StakeSpec
import Verif.Vm.ContractProps

/-! C14, C15: staked money is backed and goes back to whoever put it in. -/

namespace Verif.Builtin.Stake
open Verif.Vm Verif.Vm.Spec Spec

/-! ### Records in key order -/

abbrev Sorted (l : List Rec) : Prop := l.Pairwise (fun x y => keyLt x.key y.key)

theorem keyLt_ne {a b : Nat × Nat} (h : keyLt a b) : a ≠ b := by
  rintro rfl
  rcases h with h | h <;> omega

theorem keyLt_trans {a b c : Nat × Nat} (h : keyLt a b) (h' : keyLt b c) : keyLt a c := by
  unfold keyLt at *
  omega

theorem keyLt_total {a b : Nat × Nat} (h : a ≠ b) (h' : ¬ keyLt a b) : keyLt b a := by
  unfold keyLt at *
  have : ¬ (a.1 = b.1 ∧ a.2 = b.2) := fun q => h (Prod.ext q.1 q.2)
  omega

theorem mem_put {r x : Rec} : ∀ {l : List Rec}, x ∈ putRec r l → x = r ∨ x ∈ l
  | [], h => by simpa [putRec] using h
  | y :: ys, h => by
    unfold putRec at h
    split at h
    · rcases List.mem_cons.mp h with h | h
      · exact .inl h
      · exact .inr (List.mem_cons_of_mem _ h)
    · split at h
      · rcases List.mem_cons.mp h with h | h
        · exact .inl h
        · exact .inr h
      · rcases List.mem_cons.mp h with h | h
        · exact .inr (h ▸ List.mem_cons_self)
        · rcases mem_put h with h | h
          · exact .inl h
          · exact .inr (List.mem_cons_of_mem _ h)

theorem put_mem (r : Rec) : ∀ (l : List Rec), r ∈ putRec r l
  | [] => by simp [putRec]
  | y :: ys => by
    unfold putRec
    split
    · exact List.mem_cons_self
    · split
      · exact List.mem_cons_self
      · exact List.mem_cons_of_mem _ (put_mem r ys)

theorem put_keeps {r x : Rec} : ∀ {l : List Rec}, x ∈ l → x.key ≠ r.key → x ∈ putRec r l
  | y :: ys, h, hk => by
    unfold putRec
    by_cases h1 : y.key = r.key
    · simp only [h1, if_true]
      rcases List.mem_cons.mp h with h | h
      · exact absurd (h ▸ h1) hk
      · exact List.mem_cons_of_mem _ h
    · simp only [h1, if_false]
      by_cases h2 : keyLt r.key y.key
      · simp only [h2, if_true]
        exact List.mem_cons_of_mem _ h
      · simp only [h2, if_false]
        rcases List.mem_cons.mp h with h | h
        · exact h ▸ List.mem_cons_self
        · exact List.mem_cons_of_mem _ (put_keeps h hk)

theorem mem_del {k : Nat × Nat} {x : Rec} : ∀ {l : List Rec}, x ∈ delRec k l → x ∈ l
  | y :: ys, h => by
    unfold delRec at h
    split at h
    · exact List.mem_cons_of_mem _ h
    · rcases List.mem_cons.mp h with h | h
      · exact h ▸ List.mem_cons_self
      · exact List.mem_cons_of_mem _ (mem_del h)

theorem del_keeps {k : Nat × Nat} {x : Rec} : ∀ {l : List Rec}, x ∈ l → x.key ≠ k → x ∈ delRec k l
  | y :: ys, h, hk => by
    unfold delRec
    by_cases h1 : y.key = k
    · simp only [h1, if_true]
      rcases List.mem_cons.mp h with h | h
      · exact absurd (h ▸ h1) hk
      · exact h
    · simp only [h1, if_false]
      rcases List.mem_cons.mp h with h | h
      · exact h ▸ List.mem_cons_self
      · exact List.mem_cons_of_mem _ (del_keeps h hk)

theorem sorted_put (r : Rec) : ∀ {l : List Rec}, Sorted l → Sorted (putRec r l)
  | [], _ => by simp [putRec]
  | y :: ys, h => by
    obtain ⟨h1, h2⟩ := List.pairwise_cons.mp h
    unfold putRec
    by_cases hk : y.key = r.key
    · simp only [hk, if_true]
      exact List.pairwise_cons.mpr ⟨fun z hz => hk ▸ h1 z hz, h2⟩
    · simp only [hk, if_false]
      by_cases hl : keyLt r.key y.key
      · simp only [hl, if_true]
        refine List.pairwise_cons.mpr ⟨fun z hz => ?_, h⟩
        rcases List.mem_cons.mp hz with rfl | hz
        · exact hl
        · exact keyLt_trans hl (h1 z hz)
      · simp only [hl, if_false]
        refine List.pairwise_cons.mpr ⟨fun z hz => ?_, sorted_put r h2⟩
        rcases mem_put hz with rfl | hz
        · exact keyLt_total (Ne.symm hk) hl
        · exact h1 z hz

theorem del_sublist (k : Nat × Nat) : ∀ (l : List Rec), (delRec k l).Sublist l
  | [] => by simp [delRec]
  | y :: ys => by
    unfold delRec
    split
    · exact List.sublist_cons_self _ _
    · exact (del_sublist k ys).cons_cons _

theorem sorted_del (k : Nat × Nat) {l : List Rec} (h : Sorted l) : Sorted (delRec k l) := h.sublist (del_sublist k l)

theorem sorted_inj {x y : Rec} : ∀ {l : List Rec}, Sorted l → x ∈ l → y ∈ l → x.key = y.key → x = y
  | z :: zs, h, hx, hy, hk => by
    obtain ⟨h1, h2⟩ := List.pairwise_cons.mp h
    rcases List.mem_cons.mp hx with ex | hx' <;> rcases List.mem_cons.mp hy with ey | hy'
    · rw [ex, ey]
    · exact absurd (ex ▸ hk) (keyLt_ne (h1 y hy'))
    · exact absurd (ey ▸ hk).symm (keyLt_ne (h1 x hx'))
    · exact sorted_inj h2 hx' hy' hk

theorem del_gone {k : Nat × Nat} {x : Rec} : ∀ {l : List Rec}, Sorted l → x ∈ delRec k l → x.key ≠ k
  | y :: ys, h, hx => by
    obtain ⟨h1, h2⟩ := List.pairwise_cons.mp h
    unfold delRec at hx
    by_cases hk : y.key = k
    · simp only [hk, if_true] at hx
      intro q
      exact keyLt_ne (h1 x hx) (hk.trans q.symm)
    · simp only [hk, if_false] at hx
      rcases List.mem_cons.mp hx with rfl | hx
      · exact hk
      · exact del_gone h2 hx

theorem get_some {k : Nat × Nat} {r : Rec} : ∀ {l : List Rec}, getRec k l = some r → r ∈ l ∧ r.key = k
  | y :: ys, h => by
    unfold getRec at h
    by_cases hk : y.key = k
    · simp only [hk, if_true, Option.some.injEq] at h
      exact ⟨h ▸ List.mem_cons_self, h ▸ hk⟩
    · simp only [hk, if_false] at h
      exact ⟨List.mem_cons_of_mem _ (get_some h).1, (get_some h).2⟩

theorem get_of_mem {r : Rec} : ∀ {l : List Rec}, Sorted l → r ∈ l → getRec r.key l = some r
  | y :: ys, h, hr => by
    unfold getRec
    by_cases hk : y.key = r.key
    · simp only [hk, if_true, Option.some.injEq]
      exact sorted_inj h List.mem_cons_self hr hk
    · simp only [hk, if_false]
      rcases List.mem_cons.mp hr with rfl | hr
      · exact absurd rfl hk
      · exact get_of_mem (List.pairwise_cons.mp h).2 hr

theorem get_none {k : Nat × Nat} : ∀ {l : List Rec}, (∀ r ∈ l, r.key ≠ k) → getRec k l = none
  | [], _ => rfl
  | y :: ys, h => by
    unfold getRec
    simp only [h y List.mem_cons_self, if_false]
    exact get_none (fun r hr => h r (List.mem_cons_of_mem _ hr))

theorem sum_put (f : Rec → Nat) (r : Rec) : ∀ {l : List Rec}, Sorted l →
    sumOf f (putRec r l) + ((getRec r.key l).elim 0 f) = sumOf f l + f r
  | [], _ => by simp [sumOf, putRec, getRec]
  | y :: ys, h => by
    obtain ⟨h1, h2⟩ := List.pairwise_cons.mp h
    unfold putRec getRec
    by_cases hk : y.key = r.key
    · simp [hk, sumOf]; omega
    · simp only [hk, if_false]
      by_cases hl : keyLt r.key y.key
      · simp only [hl, if_true]
        rw [get_none (fun z hz => (keyLt_ne (keyLt_trans hl (h1 z hz))).symm)]
        simp [sumOf]; omega
      · simp only [hl, if_false]
        have := sum_put f r h2
        simp [sumOf] at this ⊢; omega

theorem sum_del (f : Rec → Nat) (k : Nat × Nat) : ∀ (l : List Rec),
    sumOf f (delRec k l) + ((getRec k l).elim 0 f) = sumOf f l
  | [] => by simp [sumOf, delRec, getRec]
  | y :: ys => by
    unfold delRec getRec
    by_cases hk : y.key = k
    · simp [hk, sumOf]; omega
    · simp only [hk, if_false]
      have := sum_del f k ys
      simp [sumOf] at this ⊢; omega

theorem find_some {o b d bid : _} {l : List Rec} {r : Rec} (h : findRec o b d bid l = some r) :
    r ∈ l ∧ r.owner = o ∧ r.beneficiary = b ∧ r.delegate = d ∧ r.bid = bid := by
  unfold findRec at h
  have := List.find?_some h
  exact ⟨List.mem_of_find?_eq_some h, by simpa using this⟩

theorem maxIndex_le {o n : Nat} : ∀ (l : List Rec) (m : Nat), m ≤ n → (∀ r ∈ l, r.index ≤ n) →
    l.foldl (fun m r => if r.owner = o then max m r.index else m) m ≤ n
  | [], m, hm, _ => hm
  | y :: ys, m, hm, h => by
    simp only [List.foldl_cons]
    refine maxIndex_le ys _ ?_ (fun r hr => h r (List.mem_cons_of_mem _ hr))
    have := h y List.mem_cons_self
    split <;> omega

/-- In an orderly storage a new record gets the height of the current block as its index. -/
theorem next_eq {st : State} (h : Ok st) {c : Ctx} (hc : st.seen < c.height) (o : Nat) :
    nextIndex o c.height st.recs = c.height := by
  have := maxIndex_le (o := o) st.recs 0 (Nat.zero_le _) h.indexes
  have h2 : maxIndex o st.recs < c.height := lt_of_le_of_lt this hc
  unfold nextIndex
  simp [h2]

/-! ### What a run does to the records -/

/-- The two ways records change: one is written, whose key is new or held a record of the same payer and beneficiary, or
one is deleted. -/
inductive Change (c : Ctx) (st : State) (sender : Nat) (res : Result) : Nat → Nat → Prop
  /-- Money put in. -/
  | add (r : Rec) (n : Nat) (hr : res.st.recs = putRec r st.recs) (hb : res.st.beneficial = addBeneficial st r.beneficiary n)
      (hp : payer r = sender) (hs : res.st.seen = c.height)
      (hold : (r.index = c.height ∧ r.amount = n) ∨
        ∃ old ∈ st.recs, old.key = r.key ∧ old.delegate = r.delegate ∧ old.beneficiary = r.beneficiary ∧
          r.amount = old.amount + n)
      (hid : (r.id = none ∧ res.st.ids = st.ids) ∨
        (r.id = some c.hash ∧ r.delegate = none ∧ res.st.ids = upd st.ids c.hash (some r.key) ∧ r.index = c.height))
      (hsend : res.sends = [] ∨ ∃ fee, res.sends = [⟨.call, sender, vite, 0, fee⟩]) : Change c st sender res n 0
  /-- Money taken out. -/
  | take (r : Rec) (n : Nat) (fee : Option Nat) (hm : r ∈ st.recs) (hp : payer r = sender) (hd : r.expiry ≤ c.now)
      (hn : n ≤ r.amount) (hb : res.st.beneficial = upd st.beneficial r.beneficiary (st.beneficial r.beneficiary - n))
      (hle : n ≤ st.beneficial r.beneficiary) (hs : res.st.seen = c.height)
      (hr : (res.st.recs = delRec r.key st.recs ∧ n = r.amount ∧
          ((r.id = none ∧ res.st.ids = st.ids) ∨ ∃ id, st.ids id = some r.key ∧ res.st.ids = upd st.ids id none)) ∨
        (res.st.recs = putRec { r with amount := r.amount - n } st.recs ∧ res.st.ids = st.ids))
      (hsend : res.sends = [⟨.call, sender, vite, n, fee⟩]) : Change c st sender res 0 n

theorem take_change {c : Ctx} {st : State} {sender n : Nat} {r : Rec} {fee : Option Nat} {res : Result} (hm : r ∈ st.recs)
    (hp : payer r = sender) (h : takeOut c st sender r n fee = some res) : Change c st sender res 0 n := by
  unfold takeOut at h
  by_cases h1 : r.expiry > c.now ∨ r.amount < n ∨ r.id ≠ none
  · simp [h1] at h
  · simp only [h1, if_false] at h
    by_cases h2 : r.amount - n ≠ 0 ∧ r.amount - n < stakeAmountMin
    · simp [h2] at h
    · simp only [h2, if_false] at h
      by_cases h3 : st.beneficial r.beneficiary < n
      · simp [h3] at h
      · simp only [h3, if_false, Option.some.injEq] at h
        subst h
        push Not at h1
        refine .take r n fee hm hp h1.1 h1.2.1 rfl (by omega) rfl ?_ rfl
        by_cases hz : r.amount - n = 0
        · left
          exact ⟨by simp only [hz, if_true], by omega, .inl ⟨h1.2.2, rfl⟩⟩
        · right
          exact ⟨by simp only [hz, if_false], rfl⟩

theorem receive_change {c : Ctx} {st : State} (hok : Ok st) (hc : st.seen < c.height) {sender amount : Nat}
    {fee : Option Nat} {m : Method} {res : Result} (hd : ∃ lock token, doSend lock token amount m = true)
    (h : doReceive c st sender amount fee m = some res) :
    ∃ paid, Change c st sender res amount paid := by
  obtain ⟨lock, token, hd⟩ := hd
  cases m with
  | stake b =>
    simp only [doReceive, Option.some.injEq] at h
    subst h
    refine ⟨0, .add ⟨sender, _, _, _, b, none, 0, none⟩ amount rfl rfl rfl rfl ?_ (.inl ⟨rfl, rfl⟩) (.inl rfl)⟩
    cases hf : findRec sender b none 0 st.recs with
    | none => exact .inl ⟨next_eq hok hc sender, Nat.zero_add _⟩
    | some r =>
      obtain ⟨q1, q2, q3, q4, q5⟩ := find_some hf
      exact .inr ⟨r, q1, by simp [Rec.key, q2], q4, q3, rfl⟩
  | cancelStake b n =>
    have ha : amount = 0 := by simp [doSend] at hd; exact hd.1
    obtain ⟨r, h1, h2⟩ := Option.bind_eq_some_iff.mp h
    obtain ⟨q1, q2, q3, q4, q5⟩ := find_some h1
    exact ⟨n, ha ▸ take_change q1 (by simp [payer, q4, q2]) h2⟩
  | delegateStake a b bid hh =>
    simp only [doReceive, Option.some.injEq] at h
    subst h
    refine ⟨0, .add ⟨a, _, _, _, b, some sender, bid, none⟩ amount rfl rfl rfl rfl ?_ (.inl ⟨rfl, rfl⟩) (.inr ⟨fee, rfl⟩)⟩
    cases hf : findRec a b (some sender) bid st.recs with
    | none => exact .inl ⟨next_eq hok hc a, Nat.zero_add _⟩
    | some r =>
      obtain ⟨q1, q2, q3, q4, q5⟩ := find_some hf
      exact .inr ⟨r, q1, by simp [Rec.key, q2], q4, q3, rfl⟩
  | cancelDelegateStake a b n bid =>
    have ha : amount = 0 := by simp [doSend] at hd; exact hd.1
    obtain ⟨r, h1, h2⟩ := Option.bind_eq_some_iff.mp h
    obtain ⟨q1, q2, q3, q4, q5⟩ := find_some h1
    exact ⟨n, ha ▸ take_change q1 (by simp [payer, q4]) h2⟩
  | stakeV3 b hh =>
    simp only [doReceive, Option.some.injEq] at h
    subst h
    refine ⟨0, .add ⟨sender, _, amount, _, b, none, 0, some c.hash⟩ amount rfl rfl rfl rfl
      (.inl ⟨next_eq hok hc sender, rfl⟩) (.inr ⟨rfl, rfl, rfl, next_eq hok hc sender⟩) ?_⟩
    cases hh with
    | none => exact .inl rfl
    | some _ => exact .inr ⟨fee, rfl⟩
  | cancelStakeV3 id =>
    have ha : amount = 0 := by simpa [doSend] using hd
    simp only [doReceive, cancelStakeV3] at h
    cases h1 : st.ids id with
    | none => simp [h1] at h
    | some k =>
      simp only [h1] at h
      cases h2 : getRec k st.recs with
      | none => simp [h2] at h
      | some r =>
        simp only [h2] at h
        by_cases h3 : k.1 ≠ sender ∨ r.expiry > c.now
        · simp [h3] at h
        · simp only [h3, if_false] at h
          by_cases h4 : st.beneficial r.beneficiary < r.amount
          · simp [h4] at h
          · simp only [h4, if_false, Option.some.injEq] at h
            subst h
            push Not at h3
            obtain ⟨q1, q2⟩ := get_some h2
            have hdel := hok.own id k r h1 q1 q2
            have ho : r.owner = sender := by rw [← h3.1, ← q2]; rfl
            refine ⟨r.amount, ha ▸ .take r r.amount fee q1 (by simp [payer, hdel, ho]) h3.2 (le_refl _) rfl (by omega) rfl ?_ rfl⟩
            exact .inl ⟨by rw [q2], rfl, .inr ⟨id, by rw [q2]; exact h1, rfl⟩⟩

/-- The old record under the key of an added one. -/
theorem add_old {c : Ctx} {st : State} (hok : Ok st) (hc : st.seen < c.height) {r : Rec} {n : Nat}
    (hold : (r.index = c.height ∧ r.amount = n) ∨
        ∃ old ∈ st.recs, old.key = r.key ∧ old.delegate = r.delegate ∧ old.beneficiary = r.beneficiary ∧
          r.amount = old.amount + n) :
    (getRec r.key st.recs = none ∧ (∀ x ∈ st.recs, x.key ≠ r.key) ∧ r.index = c.height ∧ r.amount = n) ∨
    ∃ old ∈ st.recs, getRec r.key st.recs = some old ∧ old.key = r.key ∧ old.delegate = r.delegate ∧
      old.beneficiary = r.beneficiary ∧ r.amount = old.amount + n := by
  rcases hold with ⟨h1, h2⟩ | ⟨old, h1, h2, h3, h4, h5⟩
  · have : ∀ x ∈ st.recs, x.key ≠ r.key := by
      intro x hx q
      have := hok.indexes x hx
      have q2 : x.index = r.index := congrArg Prod.snd q
      omega
    exact .inl ⟨get_none this, this, h1, h2⟩
  · exact .inr ⟨old, h1, h2 ▸ get_of_mem hok.sorted h1, h2, h3, h4, h5⟩

theorem payer_eq {x y : Rec} (h : x.key = y.key) (hd : x.delegate = y.delegate) : payer x = payer y := by
  unfold payer
  rw [hd, show x.owner = y.owner from congrArg Prod.fst h]

/-- Any sum over records that depends on payer and beneficiary only. -/
theorem change_sum {c : Ctx} {st : State} (hok : Ok st) (hc : st.seen < c.height) {sender : Nat} {res : Result} {got paid : Nat}
    (h : Change c st sender res got paid) : ∃ r : Rec, payer r = sender ∧
      res.st.beneficial = upd st.beneficial r.beneficiary (st.beneficial r.beneficiary + got - paid) ∧
      paid ≤ st.beneficial r.beneficiary + got ∧
      ∀ g : Nat → Nat → Bool,
        sumOf (fun x => if g (payer x) x.beneficiary then x.amount else 0) res.st.recs + (if g sender r.beneficiary then paid else 0) =
        sumOf (fun x => if g (payer x) x.beneficiary then x.amount else 0) st.recs + (if g sender r.beneficiary then got else 0) := by
  cases h with
  | add r n hr hb hp hs hold hid hsend =>
    refine ⟨r, hp, by rw [hb]; rfl, by omega, fun g => ?_⟩
    rw [hr]
    have := sum_put (fun x => if g (payer x) x.beneficiary then x.amount else 0) r hok.sorted
    rcases add_old hok hc hold with ⟨h1, _, _, h2⟩ | ⟨old, h0, h1, h2, h3, h4, h5⟩
    · rw [h1] at this
      simp only [Option.elim_none, hp, h2] at this
      simp only [ite_self]
      omega
    · rw [h1] at this
      simp only [Option.elim_some, hp, payer_eq h2 h3, h4, h5] at this
      simp only [ite_self]
      by_cases hg : g sender r.beneficiary = true <;> simp only [hg, if_true] at this ⊢ <;> simp_all <;> omega
  | take r n fee hm hp hd hn hb hle hs hr hsend =>
    refine ⟨r, hp, by rw [hb]; rfl, by omega, fun g => ?_⟩
    have hget := get_of_mem hok.sorted hm
    rcases hr with ⟨hr, h1, _⟩ | ⟨hr, _⟩
    · rw [hr]
      have := sum_del (fun x => if g (payer x) x.beneficiary then x.amount else 0) r.key st.recs
      rw [hget] at this
      simp only [Option.elim_some, hp, ← h1] at this
      simp only [ite_self]
      omega
    · rw [hr]
      have := sum_put (fun x => if g (payer x) x.beneficiary then x.amount else 0) { r with amount := r.amount - paid } hok.sorted
      have hk : ({ r with amount := r.amount - paid } : Rec).key = r.key := rfl
      have hpay : payer { r with amount := r.amount - paid } = sender := hp
      rw [hk, hget] at this
      simp only [Option.elim_some, hp, hpay] at this
      simp only [ite_self]
      by_cases hg : g sender r.beneficiary = true <;> simp only [hg, if_true] at this ⊢ <;> simp_all <;> omega

theorem sums_preserved {c : Ctx} {st : State} (hok : Ok st) (hc : st.seen < c.height) {sender : Nat} {res : Result} {got paid : Nat}
    (h : Change c st sender res got paid) (b : Nat) : res.st.beneficial b = stakedFor b res.st.recs := by
  obtain ⟨r, _, h1, h2, h3⟩ := change_sum hok hc h
  have := h3 (fun _ x => decide (x = b))
  simp only [decide_eq_true_eq] at this
  have hs := hok.sums b
  unfold stakedFor at hs ⊢
  rw [h1]
  simp only [upd]
  by_cases hb : r.beneficiary = b
  · simp only [hb, if_true] at this h2 ⊢
    rw [hs] at h2 ⊢
    omega
  · have hb' : ¬ b = r.beneficiary := fun q => hb q.symm
    simp only [hb, hb', if_false] at this ⊢
    omega

/-- An orderly storage stays orderly. -/
theorem ok_change {c : Ctx} {st : State} (hok : Ok st) (hc : st.seen < c.height) (hh : st.ids c.hash = none) {sender : Nat}
    {res : Result} {got paid : Nat} (h : Change c st sender res got paid) : Ok res.st := by
  have hsums := sums_preserved hok hc h
  cases h with
  | add r n hr hb hp hs hold hid hsend =>
    have hidx : ∀ x ∈ res.st.recs, x.index ≤ c.height := by
      intro x hx
      rw [hr] at hx
      rcases mem_put hx with rfl | hx
      · rcases add_old hok hc hold with ⟨_, _, h1, _⟩ | ⟨old, h0, _, h2, _⟩
        · omega
        · have := hok.indexes old h0
          have q2 : old.index = x.index := congrArg Prod.snd h2
          omega
      · have := hok.indexes x hx; omega
    refine ⟨hr ▸ sorted_put r hok.sorted, by rw [hs]; exact hidx, ?_, ?_, ?_, hsums⟩
    · intro id k hk
      rw [hs]
      rcases hid with ⟨_, h1⟩ | ⟨_, _, h1, h2⟩
      · rw [h1] at hk; have := hok.keys id k hk; omega
      · rw [h1] at hk
        simp only [upd] at hk
        by_cases hi : id = c.hash
        · simp only [hi, if_true, Option.some.injEq] at hk
          subst hk
          exact le_of_eq h2
        · simp only [hi, if_false] at hk
          have := hok.keys id k hk; omega
    · intro id k x hk hx hxk
      rw [hr] at hx
      rcases hid with ⟨_, h1⟩ | ⟨_, h0, h1, h2⟩
      · rw [h1] at hk
        rcases mem_put hx with hxr | hx
        · subst hxr
          rcases add_old hok hc hold with ⟨_, _, q, _⟩ | ⟨old, q0, _, q2, q3, _⟩
          · have := hok.keys id k hk
            have q2 : x.index = k.2 := congrArg Prod.snd hxk
            omega
          · rw [← q3]; exact hok.own id k old hk q0 (q2.trans hxk)
        · exact hok.own id k x hk hx hxk
      · rcases mem_put hx with hxr | hx
        · exact hxr ▸ h0
        · rw [h1] at hk
          simp only [upd] at hk
          by_cases hi : id = c.hash
          · simp only [hi, if_true, Option.some.injEq] at hk
            have := hok.indexes x hx
            have q2 : x.index = r.index := congrArg Prod.snd (hxk.trans hk.symm)
            omega
          · simp only [hi, if_false] at hk
            exact hok.own id k x hk hx hxk
    · intro x hx y hy
      rw [hr] at hx
      rcases hid with ⟨h0, h1⟩ | ⟨h0, _, h1, h2⟩
      · rw [h1]
        rcases mem_put hx with hxr | hx
        · rw [hxr, h0] at hy; cases hy
        · exact hok.mapped x hx y hy
      · rw [h1]
        simp only [upd]
        rcases mem_put hx with hxr | hx
        · rw [hxr, h0] at hy
          cases hy
          simp [hxr]
        · have := hok.mapped x hx y hy
          by_cases hi : y = c.hash
          · rw [hi, hh] at this; cases this
          · simp only [hi, if_false]; exact this
  | take r n fee hm hp hd hn hb hle hs hr hsend =>
    rcases hr with ⟨hr, h1, hi⟩ | ⟨hr, hi⟩
    · have hids : ∀ id k, res.st.ids id = some k → st.ids id = some k := by
        intro id k hk
        rcases hi with ⟨_, hi⟩ | ⟨id', _, hi⟩
        · rw [← hi]; exact hk
        · rw [hi] at hk
          simp only [upd] at hk
          by_cases q : id = id'
          · simp [q] at hk
          · simpa [q] using hk
      refine ⟨hr ▸ sorted_del _ hok.sorted, ?_, ?_, ?_, ?_, hsums⟩
      · intro x hx
        rw [hr] at hx
        have := hok.indexes x (mem_del hx)
        rw [hs]; omega
      · intro id k hk
        have := hok.keys id k (hids id k hk)
        rw [hs]; omega
      · intro id k x hk hx hxk
        rw [hr] at hx
        exact hok.own id k x (hids id k hk) (mem_del hx) hxk
      · intro x hx y hy
        rw [hr] at hx
        have hne := del_gone hok.sorted hx
        have h2 := hok.mapped x (mem_del hx) y hy
        rcases hi with ⟨_, hi⟩ | ⟨id', h3, hi⟩
        · rw [hi]; exact h2
        · rw [hi]
          simp only [upd]
          by_cases q : y = id'
          · rw [q, h3, Option.some.injEq] at h2
            exact absurd h2.symm hne
          · simp only [q, if_false]; exact h2
    · refine ⟨hr ▸ sorted_put _ hok.sorted, ?_, ?_, ?_, ?_, hsums⟩
      · intro x hx
        rw [hr] at hx
        rw [hs]
        rcases mem_put hx with rfl | hx
        · have := hok.indexes r hm; simp only; omega
        · have := hok.indexes x hx; omega
      · intro id k hk
        rw [hi] at hk
        have := hok.keys id k hk
        rw [hs]; omega
      · intro id k x hk hx hxk
        rw [hr] at hx
        rw [hi] at hk
        rcases mem_put hx with hxr | hx
        · rw [hxr]; rw [hxr] at hxk
          exact hok.own id k r hk hm hxk
        · exact hok.own id k x hk hx hxk
      · intro x hx y hy
        rw [hr] at hx
        rw [hi]
        rcases mem_put hx with hxr | hx
        · rw [hxr] at hy ⊢
          exact hok.mapped r hm y hy
        · exact hok.mapped x hx y hy

/-! ### C15: who gets staked money back, how much and when -/

theorem change_sends {c : Ctx} {st : State} {sender : Nat} {res : Result} {got paid : Nat}
    (h : Change c st sender res got paid) : ∃ fee, (res.sends = [] ∧ paid = 0) ∨ res.sends = [⟨.call, sender, vite, paid, fee⟩] := by
  cases h with
  | add r n hr hb hp hs hold hid hsend =>
    rcases hsend with h | ⟨fee, h⟩
    · exact ⟨none, .inl ⟨h, rfl⟩⟩
    · exact ⟨fee, .inr h⟩
  | take r n fee hm hp hd hn hb hle hs hr hsend => exact ⟨fee, .inr hsend⟩

/-- **C15**: whatever is called, by whomever, with whatever arguments: nobody's staked money moves except the caller's,
and the caller's changes by what came with the call less what is paid out, to the caller, in VITE. -/
theorem only_payer_gets_stake_back {c : Ctx} {st : State} (hok : Ok st) (hc : st.seen < c.height) {sender amount lock token : Nat}
    {fee : Option Nat} {m : Method} {res : Result} (hd : doSend lock token amount m = true)
    (h : doReceive c st sender amount fee m = some res) :
    (∀ p, p ≠ sender → stakedBy p res.st.recs = stakedBy p st.recs) ∧
    stakedBy sender res.st.recs + paidTo sender res.sends = stakedBy sender st.recs + amount ∧
    (∀ r ∈ res.sends, r.dest = sender ∧ r.token = vite ∧ r.kind = .call) := by
  obtain ⟨paid, hch⟩ := receive_change hok hc ⟨lock, token, hd⟩ h
  obtain ⟨r, hr, _, _, h3⟩ := change_sum hok hc hch
  have hpay : paidTo sender res.sends = paid ∧ ∀ r ∈ res.sends, r.dest = sender ∧ r.token = vite ∧ r.kind = .call := by
    obtain ⟨fee, h | h⟩ := change_sends hch
    · rw [h.1]; simp [paidTo, h.2]
    · rw [h]; simp [paidTo]
  refine ⟨fun p hp => ?_, ?_, hpay.2⟩
  · have := h3 (fun x _ => decide (x = p))
    simp only [decide_eq_true_eq] at this
    have hp' : ¬ sender = p := fun q => hp q.symm
    simp only [hp', if_false] at this
    exact this
  · have := h3 (fun x _ => decide (x = sender))
    simp only [decide_eq_true_eq, if_true] at this
    rw [hpay.1]
    exact this

/-- **C15**: a record loses money only when it is due and only to a call of the one who paid for it. -/
theorem only_due_stake_is_paid_out {c : Ctx} {st : State} (hok : Ok st) (hc : st.seen < c.height) {sender amount lock token : Nat}
    {fee : Option Nat} {m : Method} {res : Result} (hd : doSend lock token amount m = true)
    (h : doReceive c st sender amount fee m = some res) (r : Rec) (hr : r ∈ st.recs) :
    (∃ r' ∈ res.st.recs, r'.key = r.key ∧ payer r' = payer r ∧ r'.beneficiary = r.beneficiary ∧ r.amount ≤ r'.amount) ∨
    (payer r = sender ∧ r.expiry ≤ c.now ∧ paidTo sender res.sends ≤ r.amount ∧
      ∀ x ∈ st.recs, x ≠ r → x ∈ res.st.recs) := by
  obtain ⟨paid, hch⟩ := receive_change hok hc ⟨lock, token, hd⟩ h
  cases hch with
  | add x n hx hb hp hs hold hid hsend =>
    left
    by_cases hk : r.key = x.key
    · rcases add_old hok hc hold with ⟨_, h1, _⟩ | ⟨old, h0, _, h2, h3, h4, h5⟩
      · exact absurd hk (h1 r hr)
      · have he : old = r := sorted_inj hok.sorted h0 hr (h2.trans hk.symm)
        subst he
        exact ⟨x, hx ▸ put_mem x _, h2.symm, (payer_eq h2 h3).symm, h4.symm, by omega⟩
    · exact ⟨r, hx ▸ put_keeps hr hk, rfl, rfl, rfl, le_refl _⟩
  | take x n fee hm hp hdue hn hb hle hs hch hsend =>
    by_cases hk : r.key = x.key
    · right
      have he : r = x := sorted_inj hok.sorted hr hm hk
      subst he
      refine ⟨hp, hdue, by rw [hsend]; simpa [paidTo] using hn, fun y hy hne => ?_⟩
      have hyk : y.key ≠ r.key := fun q => hne (sorted_inj hok.sorted hy hr q)
      rcases hch with ⟨h1, _⟩ | ⟨h1, _⟩
      · rw [h1]; exact del_keeps hy hyk
      · rw [h1]; exact put_keeps hy hyk
    · left
      refine ⟨r, ?_, rfl, rfl, rfl, le_refl _⟩
      rcases hch with ⟨h1, _⟩ | ⟨h1, _⟩
      · rw [h1]; exact del_keeps hr hk
      · rw [h1]; exact put_keeps hr hk

/-- **C15**: the owner of a due stake gets the whole of it back by its id. -/
theorem due_stake_can_be_cancelled {c : Ctx} {st : State} (hok : Ok st) {r : Rec} {id : Nat} (hr : r ∈ st.recs)
    (hid : r.id = some id) (hdue : r.expiry ≤ c.now) (fee : Option Nat) :
    ∃ res, doReceive c st r.owner 0 fee (.cancelStakeV3 id) = some res ∧ res.sends = [⟨.call, r.owner, vite, r.amount, fee⟩] ∧
      r ∉ res.st.recs := by
  have h1 := hok.mapped r hr id hid
  have h2 := get_of_mem hok.sorted hr
  have h3 : ¬ (r.key.1 ≠ r.owner ∨ r.expiry > c.now) := by
    simp only [Rec.key, ne_eq, not_true_eq_false, false_or]; omega
  have h4 : ¬ st.beneficial r.beneficiary < r.amount := by
    rw [hok.sums]
    have := sum_del (fun x => if x.beneficiary = r.beneficiary then x.amount else 0) r.key st.recs
    rw [h2] at this
    simp only [Option.elim_some, if_true] at this
    unfold stakedFor
    omega
  refine ⟨_, by simp only [doReceive, cancelStakeV3, h1, h2, h3, h4, if_false]; rfl, rfl, ?_⟩
  intro q
  exact del_gone hok.sorted q rfl

/-- **C15**: the owner of a due plain stake without id (the old form), for the amount asked, if what is left is nothing or
at least the minimum. -/
theorem due_old_stake_can_be_cancelled {c : Ctx} {st : State} (hok : Ok st) {r : Rec} {sender b n : Nat}
    (hf : findRec sender b none 0 st.recs = some r) (hid : r.id = none) (hdue : r.expiry ≤ c.now) (hn : n ≤ r.amount)
    (hmin : r.amount - n = 0 ∨ stakeAmountMin ≤ r.amount - n) (fee : Option Nat) :
    ∃ res, doReceive c st sender 0 fee (.cancelStake b n) = some res ∧ res.sends = [⟨.call, sender, vite, n, fee⟩] := by
  obtain ⟨hr, q2, q3, q4, q5⟩ := find_some hf
  have h1 : ¬ (r.expiry > c.now ∨ r.amount < n ∨ r.id ≠ none) := by
    push Not
    exact ⟨hdue, hn, hid⟩
  have h2 : ¬ (r.amount - n ≠ 0 ∧ r.amount - n < stakeAmountMin) := by omega
  have h3 : ¬ st.beneficial r.beneficiary < n := by
    rw [hok.sums]
    have := sum_del (fun x => if x.beneficiary = r.beneficiary then x.amount else 0) r.key st.recs
    rw [get_of_mem hok.sorted hr] at this
    simp only [Option.elim_some, if_true] at this
    unfold stakedFor
    omega
  exact ⟨_, by simp only [doReceive, cancelStake, hf, Option.bind_some, takeOut, h1, h2, h3, if_false]; rfl, rfl⟩

/-! ### C15: how long staked money stays -/

theorem put_changed {r x : Rec} {l : List Rec} (hx : x ∈ putRec r l) (hn : x ∉ l) : x = r := by
  rcases mem_put hx with h | h
  · exact h
  · exact absurd h hn

/-- **C15**: a call that brings money leaves it in a record that is not due for the lock time of the network. -/
theorem new_stake_is_locked {c : Ctx} {st : State} {sender amount token : Nat} {fee : Option Nat} {m : Method} {res : Result}
    (hd : doSend c.lock token amount m = true) (ham : 0 < amount) (h : doReceive c st sender amount fee m = some res) :
    ∃ r ∈ res.st.recs, payer r = sender ∧ amount ≤ r.amount ∧ c.now + c.lock ≤ r.expiry ∧
      ∀ x ∈ res.st.recs, x ∉ st.recs → x = r := by
  cases m with
  | stake b =>
    simp only [doReceive, Option.some.injEq] at h
    subst h
    exact ⟨_, put_mem _ _, rfl, Nat.le_add_left _ _, le_refl _, fun x hx hn => put_changed hx hn⟩
  | delegateStake a b bid hh =>
    simp only [doReceive, Option.some.injEq] at h
    subst h
    simp [doSend] at hd
    exact ⟨_, put_mem _ _, rfl, Nat.le_add_left _ _, le_trans (by omega) (le_max_right _ _), fun x hx hn => put_changed hx hn⟩
  | stakeV3 b hh =>
    simp only [doReceive, Option.some.injEq] at h
    subst h
    refine ⟨_, put_mem _ _, rfl, le_refl _, ?_, fun x hx hn => put_changed hx hn⟩
    cases hh with
    | none => exact le_refl _
    | some hh => simp [doSend] at hd; simp; omega
  | cancelStake b n => simp [doSend] at hd; omega
  | cancelDelegateStake a b n bid => simp [doSend] at hd; omega
  | cancelStakeV3 id => simp [doSend] at hd; omega

/-- **C15**: no call other than the old stake call brings a record's due height forward. (The old one can: see
`restake_shortens_lock` in the examples.) -/
theorem lock_not_shortened {c : Ctx} {st : State} (hok : Ok st) (hc : st.seen < c.height) {sender amount : Nat} {fee : Option Nat}
    {m : Method} {res : Result} (hm : ∀ b, m ≠ .stake b) (h : doReceive c st sender amount fee m = some res)
    (r r' : Rec) (hr : r ∈ st.recs) (hr' : r' ∈ res.st.recs) (hk : r'.key = r.key) : r.expiry ≤ r'.expiry := by
  have same : ∀ {l : List Rec}, (∀ x ∈ l, x ∈ st.recs) → r' ∈ l → r.expiry ≤ r'.expiry := by
    intro l hl hm'
    rw [sorted_inj hok.sorted (hl r' hm') hr hk]
  have take : ∀ {x : Rec} {n : Nat} {fee : Option Nat}, x ∈ st.recs → takeOut c st sender x n fee = some res →
      r.expiry ≤ r'.expiry := by
    intro x n fee hx ht
    unfold takeOut at ht
    by_cases h1 : x.expiry > c.now ∨ x.amount < n ∨ x.id ≠ none
    · simp [h1] at ht
    · simp only [h1, if_false] at ht
      by_cases h2 : x.amount - n ≠ 0 ∧ x.amount - n < stakeAmountMin
      · simp [h2] at ht
      · simp only [h2, if_false] at ht
        by_cases h3 : st.beneficial x.beneficiary < n
        · simp [h3] at ht
        · simp only [h3, if_false, Option.some.injEq] at ht
          subst ht
          simp only at hr'
          by_cases hz : x.amount - n = 0
          · simp only [hz, if_true] at hr'
            exact same (fun y hy => mem_del hy) hr'
          · simp only [hz, if_false] at hr'
            rcases mem_put hr' with q | q
            · have : x = r := sorted_inj hok.sorted hx hr (by rw [← hk, q]; rfl)
              rw [q, this]
            · exact same (fun y hy => hy) q
  cases m with
  | stake b => exact absurd rfl (hm b)
  | cancelStake b n =>
    obtain ⟨x, h1, h2⟩ := Option.bind_eq_some_iff.mp h
    exact take (find_some h1).1 h2
  | cancelDelegateStake a b n bid =>
    obtain ⟨x, h1, h2⟩ := Option.bind_eq_some_iff.mp h
    exact take (find_some h1).1 h2
  | delegateStake a b bid hh =>
    simp only [doReceive, Option.some.injEq] at h
    subst h
    simp only [delegateStake] at hr'
    rcases mem_put hr' with q | q
    · cases hf : findRec a b (some sender) bid st.recs with
      | none =>
        rw [hf] at q
        have h1 : r'.index = c.height := by rw [q]; exact next_eq hok hc a
        have h2 := hok.indexes r hr
        have h3 : r'.index = r.index := congrArg Prod.snd hk
        omega
      | some x =>
        rw [hf] at q
        obtain ⟨q1, q2, _⟩ := find_some hf
        have : x = r := sorted_inj hok.sorted q1 hr (by rw [← hk, q]; simp [Rec.key, q2])
        rw [q, ← this]
        exact le_max_left _ _
    · exact same (fun y hy => hy) q
  | stakeV3 b hh =>
    simp only [doReceive, Option.some.injEq] at h
    subst h
    simp only [stakeV3] at hr'
    rcases mem_put hr' with q | q
    · have h1 : r'.index = c.height := by rw [q]; exact next_eq hok hc sender
      have h2 := hok.indexes r hr
      have h3 : r'.index = r.index := congrArg Prod.snd hk
      omega
    · exact same (fun y hy => hy) q
  | cancelStakeV3 id =>
    simp only [doReceive, cancelStakeV3] at h
    cases h1 : st.ids id with
    | none => simp [h1] at h
    | some k =>
      simp only [h1] at h
      cases h2 : getRec k st.recs with
      | none => simp [h2] at h
      | some x =>
        simp only [h2] at h
        by_cases h3 : k.1 ≠ sender ∨ x.expiry > c.now
        · simp [h3] at h
        · simp only [h3, if_false] at h
          by_cases h4 : st.beneficial x.beneficiary < x.amount
          · simp [h4] at h
          · simp only [h4, if_false, Option.some.injEq] at h
            subst h
            exact same (fun y hy => mem_del hy) hr'

/-! ### C14: the contract can pay every stake back -/

variable {E : Type}

/-- A history of the ledger in which the quota contract runs its code. -/
def GenuineRun (lock : Nat) (e : Env) : Ledger (State × E) → List (Step (State × E)) → Prop
  | _, [] => True
  | L, x :: xs => (Genuine lock L x ∧ Closed quotaAddr L x) ∧ GenuineRun lock e (step e L x) xs

/-- One block: the storage stays in order, and the funds stay ahead of the stakes. -/
theorem backed_step (lock : Nat) (e : Env) (L : Ledger (State × E)) (x : Step (State × E)) (hg : Genuine lock L x)
    (hcl : Closed quotaAddr L x) (hok : Ok (storage L)) :
    Ok (storage (step e L x)) ∧
      funds L - staked (storage L).recs ≤ funds (step e L x) - staked (storage (step e L x)).recs := by
  rcases contract_step e quotaAddr L x hcl with ⟨h1, h2⟩ | ⟨i, s, data, burn, sends, fee, cb, b, ss, hx, hi, hd, hr, hL⟩
  · unfold storage funds
    rw [h1]
    refine ⟨hok, ?_⟩
    have := h2 vite
    omega
  · subst hx
    obtain ⟨c, m, fa, res, g1, g2, g3, g4, g5, g6, g7⟩ := hg s hi hd data burn sends fee cb rfl
    obtain ⟨paid, hch⟩ := receive_change hok g3 ⟨lock, s.token, g1⟩ g5
    have hst : storage (step e L (.recv i (.done data burn sends fee cb))) = res.st := by
      rw [hL]; simp [storage, g6]
    have hfu := runBody_balance (by decide) hr ((hcl s hi hd).2.2 data burn sends fee cb rfl) vite
    have hfu' : funds (step e L (.recv i (.done data burn sends fee cb))) = getBal quotaAddr vite b := by
      rw [hL]; rfl
    rw [hst, hfu', hfu]
    refine ⟨ok_change hok g3 g4 hch, ?_⟩
    have hask : asked vite sends = (paid : Int) := by
      rw [g7]
      obtain ⟨fee, h | h⟩ := change_sends hch
      · rw [h.1, h.2]; rfl
      · rw [h]; simp [asked]
    have hsum : staked res.st.recs + paid = staked (storage L).recs + s.amount := by
      obtain ⟨r, _, _, _, h3⟩ := change_sum hok g3 hch
      simpa [staked, sumOf, storage] using h3 (fun _ _ => true)
    have hin : (s.amount : Int) ≤ (if s.token = vite then (s.amount : Int) else 0) := by
      by_cases ht : s.token = vite
      · simp [ht]
      · have : s.amount = 0 := by
          cases m <;> simp [doSend, ht] at g1 <;> omega
        simp [this]
    rw [hask]
    unfold funds
    omega

/-- **C14**: over every history, the contract's storage agrees with itself and its VITE covers all stakes. -/
theorem stakes_backed (lock : Nat) (e : Env) : ∀ (xs : List (Step (State × E))) (L : Ledger (State × E)),
    GenuineRun lock e L xs → Ok (storage L) → (staked (storage L).recs : Int) ≤ funds L →
    Ok (storage (run e L xs)) ∧ (staked (storage (run e L xs)).recs : Int) ≤ funds (run e L xs)
  | [], L, _, h1, h2 => ⟨h1, h2⟩
  | x :: xs, L, ⟨⟨g1, g2⟩, g3⟩, h1, h2 => by
    obtain ⟨q1, q2⟩ := backed_step lock e L x g1 g2 h1
    exact stakes_backed lock e xs (step e L x) g3 q1 (by omega)

/-- **C14**: the amount recorded for a beneficiary, on which its quota rests, is what is staked for it, over every history. -/
theorem beneficial_is_staked (lock : Nat) (e : Env) (xs : List (Step (State × E))) (L : Ledger (State × E))
    (hg : GenuineRun lock e L xs) (h1 : Ok (storage L)) (h2 : (staked (storage L).recs : Int) ≤ funds L) (b : Nat) :
    (storage (run e L xs)).beneficial b = stakedFor b (storage (run e L xs)).recs :=
  (stakes_backed lock e xs L hg h1 h2).1.sums b

theorem staked_ge {l : List Rec} (h : Sorted l) {r : Rec} (hr : r ∈ l) : r.amount ≤ staked l := by
  have := sum_del (·.amount) r.key l
  rw [get_of_mem h hr] at this
  simp only [Option.elim_some] at this
  unfold staked
  omega

/-- **C14**, **C15**: a due stake is paid out in fact: the block that receives the owner's cancel call of an account that
is not a contract takes the stake off the contract and sends it to the owner. -/
theorem cancelled_stake_is_sent (lock : Nat) (e : Env) (L : Ledger (State × E)) (hok : Ok (storage L))
    (hback : (staked (storage L).recs : Int) ≤ funds L) (hq : e.builtin quotaAddr = true) {r : Rec} {id : Nat}
    (hr : r ∈ (storage L).recs) (hid : r.id = some id) (hown : e.builtin r.owner = false) (i : Nat) (s : Send)
    (hi : L.flight[i]? = some s) (hs : s.kind = .call ∧ s.from_ = r.owner ∧ s.dest = quotaAddr ∧ s.amount = 0)
    (c : Ctx) (hdue : r.expiry ≤ c.now) :
    ∃ res, doReceive c (storage L) r.owner 0 none (.cancelStakeV3 id) = some res ∧
      ∀ (d : E), (⟨quotaAddr, r.owner, .call, vite, r.amount, 0⟩ : Send) ∈
        (step e L (.recv i (.done (res.st, d) false res.sends none false))).flight ∧
      storage (step e L (.recv i (.done (res.st, d) false res.sends none false))) = res.st := by
  obtain ⟨res, h1, h2, h3⟩ := due_stake_can_be_cancelled (c := c) hok hr hid hdue none
  refine ⟨res, h1, fun d => ?_⟩
  have hamt := staked_ge hok.sorted hr
  have hbal : getBal quotaAddr vite (addBalance L.bal quotaAddr s.token 0) = getBal quotaAddr vite L.bal := by
    rw [getBal_add]; split <;> simp
  have hcov : (r.amount : Int) ≤ getBal quotaAddr vite L.bal := by
    unfold funds at hback; omega
  have hct : canTransfer (addBalance L.bal quotaAddr s.token 0) quotaAddr vite r.amount 0 = true := by
    simp [canTransfer, hbal, hcov]
  have hsub : ∃ b, subBalance (addBalance L.bal quotaAddr s.token 0) quotaAddr vite r.amount = some b := by
    simp [subBalance, hbal, hcov]
  obtain ⟨b, hb⟩ := hsub
  have hrun : runBody e L.bal quotaAddr s false res.sends = some (b, [⟨quotaAddr, r.owner, .call, vite, r.amount, 0⟩]) := by
    simp [runBody, h2, sendList, sendOne, sendCall, hown, hs.2.2.2, hct, hb]
  have hk : s.kind = .call := hs.1
  simp only [step, hi, receive, hk, receiveCall, hs.2.2.1, hq, true_or, if_true, receiveContract, hrun]
  simp [storage]

end Verif.Builtin.Stake
