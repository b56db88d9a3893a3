import Verif.Dex.ExJobs

/-!
# C28, C29, C30, C47, C48: dividends, releases, stakes and solvency of the exchange over all histories
-/

namespace Verif.Dex
open Spec

/-! ### Solvency -/

/-- C47. What blocks brought in is what they took out and what the exchange still has to answer for, in every token. -/
theorem exchange_solvent {f : Forks} (hf : f.dexFee = true) {mk : Nat → Option MarketInfo} (hmk : MarketsOk mk) {n : Nat} (hn : 1 ≤ n)
    (ops : List ExOp) (ha : ∀ op ∈ ops, Allowed f op) (t : Nat) :
    (Ex.run f mk n ops).received t = (Ex.run f mk n ops).sent t + liabilities (Ex.run f mk n ops) t := by
  have I := exRun_inv hf hmk hn ops ha
  have h1 := I.books.books t
  have h2 := I.books.core.total t
  have h3 := I.books.pool t
  have h4 := I.books.op t
  unfold liabilities
  unfold Ex.makerSum at h1
  omega

/-! ### Who held what at the end of a period -/

/-- Time and the history fields. -/
def Ex.chron (s : Ex) : Nat × (Nat → Nat → Nat) × (Nat → Nat → Nat) × List (Nat × Nat × Nat) × List (Nat × Nat × Nat) :=
  (s.now, s.pastVx, s.pastStk, s.unlockLog, s.cancelLog)

theorem getD_chron {s : Ex} {o : Option Ex} {d : Ex} (h : ∀ x, o = some x → x.chron = s.chron) (hd : d.chron = s.chron) : (o.getD d).chron = s.chron := by
  cases o with
  | none => exact hd
  | some x => exact h x rfl

theorem addFee_chron {s s' : Ex} {t n : Nat} (h : s.addFee t n = some s') : s'.chron = s.chron := by
  unfold Ex.addFee at h
  obtain ⟨r, -, rfl⟩ := Option.map_eq_some_iff.mp h
  rfl

theorem settleVx_chron {s s' : Ex} {a : Nat} {c : Int} (h : s.settleVx a c = some s') : s'.chron = s.chron := by
  unfold Ex.settleVx at h
  obtain ⟨r, -, rfl⟩ := Option.map_eq_some_iff.mp h
  rfl

theorem settleStk_chron {s s' : Ex} {a : Nat} {c : Int} {n : Nat} (h : s.settleStk a c n = some s') : s'.chron = s.chron := by
  unfold Ex.settleStk at h
  obtain ⟨r, -, rfl⟩ := Option.map_eq_some_iff.mp h
  rfl

theorem onVxMined_chron {s s' : Ex} {a n : Nat} (h : s.onVxMined a n = some s') : s'.chron = s.chron := by
  unfold Ex.onVxMined at h
  split at h
  · exact (settleVx_chron h).trans rfl
  · rw [← Option.some.inj h]; rfl

theorem mineTo_chron : ∀ (l : List (Nat × Nat)) {s s' : Ex}, s.mineTo l = some s' → s'.chron = s.chron
  | [], s, s', h => by rw [← Option.some.inj h]
  | x :: xs, s, s', h => by
    unfold Ex.mineTo at h
    split at h
    · exact mineTo_chron xs h
    · obtain ⟨s1, h1, h2⟩ := Option.bind_eq_some_iff.mp h
      exact (mineTo_chron xs h2).trans (onVxMined_chron h1)

theorem payMakers_chron : ∀ (l : List (Nat × Nat)) {s : Ex} {pool : Nat} {r : Ex × Nat}, s.payMakers pool l = some r → r.1.chron = s.chron
  | [], s, pool, r, h => by rw [← Option.some.inj h]
  | x :: xs, s, pool, r, h => by
    unfold Ex.payMakers at h
    obtain ⟨s1, h1, h2⟩ := Option.bind_eq_some_iff.mp h
    split at h2
    · rw [← Option.some.inj h2]; exact onVxMined_chron h1
    · exact (payMakers_chron xs h2).trans (onVxMined_chron h1)

theorem coreStep_chron (f : Forks) (mk : Nat → Option MarketInfo) (s : Ex) (owner : Nat) (op : Op) :
    (s.coreStep f mk owner op).chron = s.chron := by
  cases op <;> simp only [Ex.coreStep] <;> try rfl
  · split <;> rfl
  · split
    · rfl
    · exact getD_chron (fun x hx => (addFee_chron hx).trans rfl) rfl
  · split
    · rfl
    · split
      · rfl
      · exact getD_chron (fun x hx => (addFee_chron hx).trans rfl) rfl

theorem work_chron {s s' : Ex} {P : Nat} {j : Job} (h : s.work P j = some s') : s'.chron = s.chron := by
  cases j with
  | dividend =>
    rw [← Option.some.inj h]
    unfold Ex.dividend
    split
    · rfl
    · split <;> rfl
  | operator => rw [← Option.some.inj h]; rfl
  | mineFee want total r0 rates users =>
    simp only [Ex.work, Ex.mineFee] at h
    split at h
    · simp at h
    · split at h
      · rw [← Option.some.inj h]
      · exact (mineTo_chron _ h).trans rfl
  | mineStaking want =>
    simp only [Ex.work, Ex.mineStaking] at h
    split at h
    · simp at h
    · split at h
      · rw [← Option.some.inj h]
      · exact (mineTo_chron _ h).trans rfl
  | mineMaker want total r0 r1 m =>
    simp only [Ex.work, Ex.mineMaker] at h
    split at h
    · simp at h
    · exact (mineTo_chron _ h).trans rfl
  | finishUnlock =>
    simp only [Ex.work, Ex.finishUnlock] at h
    obtain ⟨r, -, rfl⟩ := Option.map_eq_some_iff.mp h
    rfl
  | finishCancel =>
    simp only [Ex.work, Ex.finishCancels] at h
    obtain ⟨r, -, rfl⟩ := Option.map_eq_some_iff.mp h
    rfl

theorem job_chron (s : Ex) (j : Job) (P : Nat) : (s.job j P).chron = s.chron := by
  unfold Ex.job
  split
  · refine getD_chron (fun x hx => ?_) rfl
    obtain ⟨s', h, rfl⟩ := Option.map_eq_some_iff.mp hx
    exact (show (s'.jobDone j.biz P).chron = s'.chron from rfl).trans (work_chron h)
  · rfl

/-- The operations that touch time and history. -/
theorem step_chron (f : Forks) (mk : Nat → Option MarketInfo) (s : Ex) (op : ExOp) (h1 : ∀ n, op ≠ .tick n) (h2 : ∀ a n, op ≠ .unlockVx a n)
    (h3 : ∀ id, op ≠ .cancelOk id) : (s.step f mk op).chron = s.chron := by
  cases op with
  | core owner op => exact coreStep_chron f mk s owner op
  | tick n => exact absurd rfl (h1 n)
  | lockVx a n =>
    simp only [Ex.step, Ex.lockVx]
    split
    · rfl
    · split
      · rfl
      · exact getD_chron (fun x hx => (settleVx_chron hx).trans rfl) rfl
  | unlockVx a n => exact absurd rfl (h2 a n)
  | setAuto a b => rfl
  | stake id a k n =>
    simp only [Ex.step, Ex.stake]
    split
    · rfl
    · split
      · rfl
      · split <;> rfl
  | stakeOk id =>
    simp only [Ex.step, Ex.stakeOk]
    split
    · rfl
    · split
      · rfl
      · split
        · exact getD_chron (fun x hx => (settleStk_chron hx).trans rfl) rfl
        · rfl
  | stakeFail id v =>
    simp only [Ex.step, Ex.stakeFail]
    split
    · rfl
    · split <;> rfl
  | cancelOk id => exact absurd rfl (h3 id)
  | endorse n => rfl
  | settleMaker P page acts =>
    simp only [Ex.step, Ex.settleMaker]
    split
    · rfl
    · split
      · rfl
      · split
        · rfl
        · rename_i r hr
          have := payMakers_chron _ hr
          split <;> exact this
  | job j P => exact job_chron s j P

theorem unlockVx_chron (s : Ex) (a n : Nat) : (s.unlockVx a n).chron = s.chron ∨
    (s.unlockVx a n).chron = (s.now, s.pastVx, s.pastStk, s.unlockLog ++ [(a, s.now, n)], s.cancelLog) := by
  unfold Ex.unlockVx
  split
  · exact .inl rfl
  · split
    · exact .inl rfl
    · right
      simp only
      cases h : Ex.settleVx _ a (-(n : Int)) with
      | none => rfl
      | some x => exact settleVx_chron h

theorem cancelOk_chron (s : Ex) (id : Nat) : (s.cancelOk id).chron = s.chron ∨
    ∃ l, (s.cancelOk id).chron = (s.now, s.pastVx, s.pastStk, s.unlockLog, l) := by
  unfold Ex.cancelOk
  split
  · exact .inl rfl
  · split
    · exact .inl rfl
    · split
      · exact .inl rfl
      · simp only
        split
        · split
          · exact .inl rfl
          · rename_i d _ _ _ vips _ _ _
            cases h : Ex.settleStk _ d.owner (-(d.amount : Int)) (s.staked d.owner - d.amount) with
            | none => exact .inl rfl
            | some x => exact .inr ⟨s.cancelLog ++ [(d.owner, s.now, d.amount)], settleStk_chron h⟩
        · exact .inr ⟨s.cancelLog, rfl⟩

/-- Time passes only with a notice, which fixes what was held in the periods that ended. -/
theorem step_past (f : Forks) (mk : Nat → Option MarketInfo) (s : Ex) (op : ExOp) :
    ((s.step f mk op).now = s.now ∧ (s.step f mk op).pastVx = s.pastVx ∧ (s.step f mk op).pastStk = s.pastStk) ∨
    (s.now < (s.step f mk op).now ∧ ∀ p a, (s.step f mk op).pastVx p a = (if s.now ≤ p then s.vxOf a else s.pastVx p a) ∧
      (s.step f mk op).pastStk p a = (if s.now ≤ p then s.staked a else s.pastStk p a)) := by
  by_cases h1 : ∃ n, op = .tick n
  · obtain ⟨n, rfl⟩ := h1
    simp only [Ex.step, Ex.tick]
    split
    · exact .inl ⟨rfl, rfl, rfl⟩
    · rename_i hn
      cases rollPeriod s.fees s.lastRoll n with
      | none => exact .inl ⟨rfl, rfl, rfl⟩
      | some r => exact .inr ⟨by simpa using hn, fun p a => ⟨rfl, rfl⟩⟩
  · left
    have key : ∀ {l l' : List (Nat × Nat × Nat)} {x : Ex}, x.chron = (s.now, s.pastVx, s.pastStk, l, l') →
        x.now = s.now ∧ x.pastVx = s.pastVx ∧ x.pastStk = s.pastStk := by
      intro l l' x h
      simp only [Ex.chron, Prod.mk.injEq] at h
      exact ⟨h.1, h.2.1, h.2.2.1⟩
    by_cases h2 : ∃ a n, op = .unlockVx a n
    · obtain ⟨a, n, rfl⟩ := h2
      rcases unlockVx_chron s a n with h | h <;> exact key h
    · by_cases h3 : ∃ id, op = .cancelOk id
      · obtain ⟨id, rfl⟩ := h3
        rcases cancelOk_chron s id with h | ⟨l, h⟩ <;> exact key h
      · exact key (step_chron f mk s op (fun n e => h1 ⟨n, e⟩) (fun a n e => h2 ⟨a, n, e⟩) (fun id e => h3 ⟨id, e⟩))

/-- The history fields are what they say: if the period passed from `P` or before to after `P` in a step, then what is recorded
for `P` ever after is what was held before the step. -/
theorem past_is_history (f : Forks) (mk : Nat → Option MarketInfo) (n : Nat) (pre post : List ExOp) (op : ExOp) (P a : Nat)
    (h1 : (Ex.run f mk n pre).now ≤ P) (h2 : P < (Ex.run f mk n (pre ++ [op])).now) :
    (Ex.run f mk n (pre ++ op :: post)).pastVx P a = (Ex.run f mk n pre).vxOf a ∧
    (Ex.run f mk n (pre ++ op :: post)).pastStk P a = (Ex.run f mk n pre).staked a := by
  have e1 : Ex.run f mk n (pre ++ [op]) = (Ex.run f mk n pre).step f mk op := by unfold Ex.run; rw [List.foldl_append]; rfl
  have e2 : Ex.run f mk n (pre ++ op :: post) = post.foldl (Ex.step f mk) ((Ex.run f mk n pre).step f mk op) := by
    unfold Ex.run; rw [List.foldl_append]; rfl
  rw [e2]
  rw [e1] at h2
  generalize Ex.run f mk n pre = s at *
  have h3 : (s.step f mk op).pastVx P a = s.vxOf a ∧ (s.step f mk op).pastStk P a = s.staked a := by
    rcases step_past f mk s op with h | ⟨_, h⟩
    · omega
    · have := h P a
      rw [if_pos h1, if_pos h1] at this; exact this
  suffices h : ∀ (post : List ExOp) (s : Ex), P < s.now →
      (post.foldl (Ex.step f mk) s).pastVx P a = s.pastVx P a ∧ (post.foldl (Ex.step f mk) s).pastStk P a = s.pastStk P a by
    have := h post _ h2
    exact ⟨this.1.trans h3.1, this.2.trans h3.2⟩
  intro post
  induction post with
  | nil => intro s _; exact ⟨rfl, rfl⟩
  | cons o post ih =>
    intro s hs
    rcases step_past f mk s o with h | ⟨h, h'⟩
    · have := ih (s.step f mk o) (by omega)
      rw [h.2.1, h.2.2] at this; exact this
    · have := ih (s.step f mk o) (by omega)
      have h5 := h' P a
      rw [if_neg (by omega), if_neg (by omega)] at h5
      rw [h5.1, h5.2] at this; exact this

/-! ### Dividing among holders -/

theorem holders_mem {thr p : Nat} {t : Table Nat Hist} (hp : Table.Proper t) (a : Nat) :
    a ∈ (holders thr p t).map (·.1) ↔ worth thr (recorded (histOf a t) p) ≠ 0 := by
  unfold holders
  constructor
  · intro h
    obtain ⟨x, hx, rfl⟩ := List.mem_map.mp h
    obtain ⟨h1, h2⟩ := List.mem_filter.mp hx
    obtain ⟨y, hy, rfl⟩ := List.mem_map.mp h1
    simp only [decide_eq_true_eq] at h2 ⊢
    unfold histOf
    rw [Table.mem_get hp (v := y.2) hy]; exact h2
  · intro h
    have hne : histOf a t ≠ [] := by
      intro e; rw [e] at h; exact h (worth_nil thr p)
    refine List.mem_map.mpr ⟨(a, worth thr (recorded (histOf a t) p)), List.mem_filter.mpr ⟨?_, by simpa using h⟩, rfl⟩
    exact List.mem_map.mpr ⟨(a, histOf a t), histOf_mem hne, rfl⟩

theorem holders_nodup {thr p : Nat} {t : Table Nat Hist} (hp : Table.Proper t) : ((holders thr p t).map (·.1)).Nodup := by
  have h1 : ((t.map (fun x => (x.1, worth thr (recorded x.2 p)))).map (·.1)) = t.map (·.1) := by rw [List.map_map]; rfl
  have h2 : ((holders thr p t).map (·.1)).Sublist (t.map (·.1)) := by
    rw [← h1]; exact List.Sublist.map _ List.filter_sublist
  exact h2.nodup hp

theorem holders_sum (thr p : Nat) : ∀ t : Table Nat Hist, ((holders thr p t).map (·.2)).sum = allWorth thr p t
  | [] => rfl
  | (a, h) :: r => by
    rw [holders_cons, allWorth_cons, List.map_append, List.sum_append, holders_sum thr p r]
    split
    · simp
    · rename_i h0
      have : worth thr (recorded h p) = 0 := by simpa using h0
      simp [this]

theorem worth_pos {thr x : Nat} (ht : 0 < thr) : worth thr x ≠ 0 ↔ thr ≤ x := by
  unfold worth; split <;> constructor <;> intros <;> omega

/-- The holders of a period, and their total. -/
theorem holders_spec {thr n lo P : Nat} (ht : 0 < thr) {t : Table Nat Hist} {sum : Hist} {amt : Nat → Nat} {past : Nat → Nat → Nat}
    (I : ShareInv thr n lo t sum amt past) (hlo : lo ≤ P) (hP : P < n) :
    IsHolders thr (past P) ((holders thr P t).map (·.1)) ∧ sumOver (past P) ((holders thr P t).map (·.1)) = recorded sum P := by
  have hb := fun a => I.before P a hlo hP
  refine ⟨⟨holders_nodup I.proper, fun a => ?_⟩, ?_⟩
  · rw [holders_mem I.proper, hb, worth_pos ht]
  · rw [I.sum P hlo, ← holders_sum]
    unfold sumOver
    rw [List.map_map]
    congr 1
    apply List.map_congr_left
    intro x hx
    obtain ⟨h1, h2⟩ := List.mem_filter.mp hx
    obtain ⟨y, hy, rfl⟩ := List.mem_map.mp h1
    have h3 := hb y.1
    unfold histOf at h3
    rw [Table.mem_get I.proper (v := y.2) hy] at h3
    simp only [decide_eq_true_eq] at h2
    simp only [Function.comp, Option.getD_some] at h3 ⊢
    rw [h3] at h2 ⊢
    have := (worth_pos ht).mp h2
    unfold worth; rw [if_pos this]

/-- Only holders are paid. -/
theorem divide_payees (thr p total n : Nat) (ht : 0 < thr) (t : Table Nat Hist) (g : ∀ x ∈ t, Good n x.2) (pots : List Pot) :
    ∀ x ∈ (divide thr p total t pots).2.2, x.1 ∈ (holders thr p t).map (·.1) := by
  induction t generalizing pots with
  | nil => simp [divide]
  | cons e rest ih =>
    obtain ⟨a, h⟩ := e
    have g0 : Good n h := g (a, h) (by simp)
    have gr : ∀ x ∈ rest, Good n x.2 := fun x hx => g x (List.mem_cons_of_mem _ hx)
    have mem : ∀ {x : Nat × Nat × Nat}, x.1 ∈ (holders thr p rest).map (·.1) → x.1 ∈ (holders thr p ((a, h) :: rest)).map (·.1) := by
      intro x hx
      rw [holders_cons, List.map_append]; exact List.mem_append_right _ hx
    rcases divide_cases thr p total a h rest pots with ⟨_, e⟩ | ⟨_, _, e⟩ | ⟨_, x, h', _, _, e⟩ | ⟨_, x, h', hm, hx, e⟩
    · rw [e]; simp
    · rw [e]; intro y hy; exact mem (ih gr _ y hy)
    · rw [e]; intro y hy; exact mem (ih gr _ y hy)
    · rw [e]
      intro y hy
      rcases List.mem_append.mp hy with hy | hy
      · have hya : y.1 = a := by
          unfold payPots at hy
          obtain ⟨q, -, rfl⟩ := List.mem_map.mp hy
          rfl
        have hw := (match_worth (thr := thr) (p := p) g0).2 x h' hm
        rw [if_pos hx] at hw
        rw [holders_cons, if_pos (by rw [hw]; omega), hya]
        simp
      · exact mem (ih gr _ y hy)

theorem paidTo_sum {hs : List Nat} (hn : hs.Nodup) (tok : Nat) : ∀ l : List (Nat × Nat × Nat), (∀ x ∈ l, x.1 ∈ hs) →
    (hs.map (fun a => paidTo a tok l)).sum = paidOf tok l
  | [], _ => by simp [paidTo, paidOf]
  | x :: l, h => by
    have ih := paidTo_sum hn tok l (fun y hy => h y (List.mem_cons_of_mem _ hy))
    have e : ∀ a, paidTo a tok (x :: l) = (if x.1 = a then (if x.2.1 = tok then x.2.2 else 0) else 0) + paidTo a tok l := by
      intro a
      simp only [paidTo, List.map_cons, List.sum_cons]
      by_cases h1 : x.1 = a <;> by_cases h2 : x.2.1 = tok <;> simp [h1, h2]
    have e' : paidOf tok (x :: l) = (if x.2.1 = tok then x.2.2 else 0) + paidOf tok l := by simp [paidOf]
    simp only [e]
    rw [List.sum_map_add, ih, e']
    congr 1
    have hx := h x (List.mem_cons_self ..)
    clear ih e e' h
    induction hs with
    | nil => simp at hx
    | cons b hs ihs =>
      obtain ⟨h1, h2⟩ := List.nodup_cons.mp hn
      rw [List.map_cons, List.sum_cons]
      rcases List.mem_cons.mp hx with hb | hb
      · rw [if_pos hb]
        have : (hs.map (fun a => if x.1 = a then (if x.2.1 = tok then x.2.2 else 0) else 0)).sum = 0 := by
          apply List.sum_eq_zero
          intro y hy
          obtain ⟨c, hc, rfl⟩ := List.mem_map.mp hy
          rw [if_neg]; intro e; apply h1; rw [← hb, e]; exact hc
        omega
      · rw [if_neg (by intro e; apply h1; rw [← e]; exact hb), ihs h2 hb]; omega

theorem paidTo_none {hs : List Nat} {a tok : Nat} (ha : a ∉ hs) {l : List (Nat × Nat × Nat)} (h : ∀ x ∈ l, x.1 ∈ hs) : paidTo a tok l = 0 := by
  unfold paidTo
  apply List.sum_eq_zero
  intro y hy
  obtain ⟨x, hx, rfl⟩ := List.mem_map.mp hy
  rw [if_neg]; rintro ⟨rfl, -⟩; exact ha (h x hx)

/-- A new pot is divided fairly and used up. -/
theorem divide_new {thr n lo P : Nat} (ht : 0 < thr) {t : Table Nat Hist} {sum sum' : Hist} {amt : Nat → Nat} {past : Nat → Nat → Nat}
    (I : ShareInv thr n lo t sum amt past) (hlo : lo ≤ P) (hP : P < n) {total : Nat} (hm : matchByPeriod sum P = some (total, sum'))
    (pots : List Pot) (hn : (pots.map (·.token)).Nodup) (hnew : ∀ q ∈ pots, q.done = false ∧ q.divided = 0 ∧ q.left = q.pool)
    (q : Pot) (hq : q ∈ pots) (hs : q.pool < 2 ^ 100) (a : Nat) :
    |(paidTo a q.token (divide thr P total t pots).2.2 : ℚ) - exactShare total (worth thr (past P a)) q.pool| ≤ (holders thr P t).length := by
  obtain ⟨e1, e2, -⟩ := matchByPeriod_some I.goodSum hm
  have e3 := I.sum P hlo
  obtain ⟨h1, h2, h3⟩ := hnew q hq
  have := divide_fair thr P total q.pool n ht e2 hs t I.proper (goods I) pots hn q hq 0
    ⟨rfl, .inr ⟨h1, by omega, by
      have : allWorth thr P t = total := by omega
      rw [this, h3]
      unfold exactShare
      have ht' : (total : ℚ) ≠ 0 := by exact_mod_cast (by omega : total ≠ 0)
      rw [mul_div_assoc, div_self ht']; simp⟩⟩ a
  rw [I.before P a hlo hP] at this
  simpa using this

/-! ### Dividends -/

theorem pot_eq {now : Nat} {newer older : List Nat} {fees : Table Nat FeeRec} (I : FeeInv now newer older fees) (P t : Nat) :
    recParts t (notDivided fees P) = pot P t fees := by
  unfold recParts pot
  apply List.Perm.sum_eq
  apply List.Perm.map
  apply (List.perm_ext_iff_of_nodup (List.Nodup.of_map _ (notDivided_nodup I P)) ((List.Nodup.of_map _ I.proper).filter _)).mpr
  intro x
  rw [show x = (x.1, x.2) from rfl, notDivided_spec I P, List.mem_filter]
  simp only [Bool.and_eq_true, decide_eq_true_eq, Bool.not_eq_true']
  constructor
  · rintro ⟨h1, h2, h3⟩; exact ⟨Table.get_mem h2, h1, h3⟩
  · rintro ⟨h1, h2, h3⟩; exact ⟨h2, Table.mem_get I.proper h1, h3⟩

/-- One percent of a pool, up to one unit. -/
theorem percent_err (amount : Nat) (h : amount < 2 ^ 100) : |(calculateAmountForRate amount perPeriodDividendRate : ℚ) - amount / 100| ≤ 1 := by
  have h1 : Within 2 (rnd (amount : ℚ)) (amount : ℚ) := (Within.refl (by positivity)).rnd (by norm_num)
  have h2 : Within 2 (rnd (((1000 : ℕ) : ℚ) / 100000)) (((1000 : ℕ) : ℚ) / 100000) := (Within.refl (by positivity)).rnd (by norm_num)
  have h5 := (h1.mul h2 (by norm_num)).rnd (by norm_num)
  have hE1 : (amount : ℚ) ≤ 2 ^ 100 := by exact_mod_cast h.le
  have hE0 : (0 : ℚ) ≤ amount := by positivity
  unfold calculateAmountForRate perPeriodDividendRate
  rw [if_pos (by norm_num)]
  have u := roundAmount_le h5.nonneg (b := amount / 100 * (1 + 7 / 2 ^ 120) + 1 / 2) (by
    have := h5.hi; norm_num at this ⊢; linarith)
  have l := roundAmount_ge h5.nonneg (b := amount / 100 * (1 - 7 / 2 ^ 120) + 1 / 2) (by
    have := h5.lo; norm_num at this ⊢; linarith)
  generalize (roundAmount (rnd (rnd (amount : ℚ) * rnd (((1000 : ℕ) : ℚ) / 100000))) : ℚ) = x at *
  clear h h1 h2 h5
  generalize (amount : ℚ) = y at *
  rw [abs_le]
  constructor <;> norm_num at * <;> linarith

theorem job_dividend (f : Forks) (mk : Nat → Option MarketInfo) {s : Ex} {P : Nat} (hok : s.jobOk .dividend P = true) :
    s.step f mk (.job .dividend P) = (s.dividend P).jobDone .dividend P := by
  show s.job .dividend P = _
  unfold Ex.job
  rw [show Job.dividend.biz = Biz.dividend from rfl, if_pos hok]
  rfl

theorem dividend_none {s : Ex} {P : Nat} (h : notDivided s.fees P = [] ∨ matchByPeriod s.vxSum P = none) : s.dividend P = s := by
  unfold Ex.dividend
  split
  · rfl
  · rcases h with h | h
    · contradiction
    · rw [h]

/-- C28. A dividend job for period `P`, at the end of any history: the holders are those who had the least amount of VX locked at
the end of the period. If there are any, then of every token but VITE they get together exactly the pot, nobody else gets
anything, everyone gets the share of the VX held, up to one unit per holder; the pot of VITE is burnt; and the pots are no
longer held for dividends. Nobody's VITE changes. -/
theorem dividend_shares {f : Forks} (hf : f.dexFee = true) {mk : Nat → Option MarketInfo} (hmk : MarketsOk mk) {n : Nat} (hn : 1 ≤ n)
    (ops : List ExOp) (ha : ∀ op ∈ ops, Allowed f op) {s s' : Ex} (hs : s = Ex.run f mk n ops) (P : Nat) (hok : s.jobOk .dividend P = true)
    (hs' : s' = s.step f mk (.job .dividend P)) :
    ∃ hs : List Nat, IsHolders vxDividendThreshold (s.pastVx P) hs ∧ s'.jobs .dividend = P ∧
      (hs = [] → ∀ a t, free s' a t = free s a t ∧ feesHeld s'.now t s'.fees = feesHeld s.now t s.fees) ∧
      (hs ≠ [] →
        (∀ t, feesHeld s'.now t s'.fees + pot P t s.fees = feesHeld s.now t s.fees) ∧
        s'.sent = bump s.sent viteToken (pot P viteToken s.fees) ∧ (∀ a, free s' a viteToken = free s a viteToken) ∧
        ∀ t, t ≠ viteToken → ∃ paid : Nat → Nat, (∀ a, free s' a t = free s a t + paid a) ∧ (∀ a, a ∉ hs → paid a = 0) ∧
          sumOver paid hs = pot P t s.fees ∧
          (pot P t s.fees < 2 ^ 100 → ∀ a ∈ hs, |(paid a : ℚ) - exactShare (sumOver (s.pastVx P) hs) (s.pastVx P a) (pot P t s.fees)| ≤ hs.length)) := by
  have I := exRun_inv hf hmk hn ops ha
  rw [← hs] at I
  rw [job_dividend f mk hok] at hs'
  obtain ⟨hP, hb⟩ := jobOk_iff.mp hok
  obtain ⟨lo, hv, hlo⟩ := I.vx
  have hlo' := lo_le hlo hb
  have ht0 : 0 < vxDividendThreshold := by decide
  obtain ⟨hH, hT⟩ := holders_spec ht0 hv hlo' hP
  obtain ⟨nw, ol, hfee⟩ := I.books.fee
  have hpot := pot_eq hfee P
  obtain ⟨-, f2, -⟩ := hfee.divided hP
  refine ⟨(holders vxDividendThreshold P s.vx).map (·.1), hH, by rw [hs', jobDone_jobs, if_pos rfl], ?_, ?_⟩
  · intro h0
    have : matchByPeriod s.vxSum P = none := by
      rcases hm : matchByPeriod s.vxSum P with _ | ⟨x, y⟩
      · rfl
      · obtain ⟨e1, e2, -⟩ := matchByPeriod_some hv.goodSum hm
        rw [h0] at hT
        simp [sumOver] at hT
        omega
    rw [hs', dividend_none (.inr this)]
    exact fun a t => ⟨rfl, rfl⟩
  · intro hne
    rcases hm : matchByPeriod s.vxSum P with _ | ⟨total, sum'⟩
    · exfalso
      have := matchByPeriod_none hv.goodSum.sorted hm
      rw [this] at hT
      obtain ⟨a, l, e⟩ : ∃ a l, (holders vxDividendThreshold P s.vx).map (·.1) = a :: l := by
        cases h : (holders vxDividendThreshold P s.vx).map (·.1) with
        | nil => exact absurd h hne
        | cons a l => exact ⟨a, l, rfl⟩
      have := (hH.2 a).mp (by rw [e]; simp)
      rw [e] at hT
      simp [sumOver] at hT
      omega
    · obtain ⟨e1, e2, -⟩ := matchByPeriod_some hv.goodSum hm
      by_cases hnd : notDivided s.fees P = []
      · have hz : ∀ t, pot P t s.fees = 0 := by intro t; rw [← hpot, hnd]; rfl
        rw [hs', dividend_none (.inl hnd)]
        refine ⟨fun t => by rw [hz]; rfl, ?_, fun a => rfl, ?_⟩
        · rw [hz]; funext t; rw [bump_apply]; simp [Ex.jobDone]
        · intro t _
          refine ⟨fun _ => 0, fun _ => rfl, fun _ _ => rfl, ?_, ?_⟩
          · rw [hz]
            apply List.sum_eq_zero
            intro y hy
            obtain ⟨_, -, rfl⟩ := List.mem_map.mp hy
            rfl
          · intro _ a _; rw [hz]; simp [exactShare]
      · rw [dividend_eq hnd hm] at hs'
        have hb : burnt (s.potsOf P) = pot P viteToken s.fees := by rw [← hpot, ← potOf_eq]; rfl
        have hpay := divide_payees vxDividendThreshold P total s.now ht0 s.vx (goods hv) (freshPots (s.potsOf P))
        have hfree : ∀ a t, free s' a t = free s a t + paidTo a t (divide vxDividendThreshold P total s.vx (freshPots (s.potsOf P))).2.2 := by
          intro a t; rw [hs']; exact payAll_available _ _ a t
        have hvite : ∀ a, paidTo a viteToken (divide vxDividendThreshold P total s.vx (freshPots (s.potsOf P))).2.2 = 0 := by
          intro a
          have h1 := dividend_paid I hok hm viteToken
          rw [if_pos rfl, ← paidTo_sum hH.1 viteToken _ hpay] at h1
          by_cases hin : a ∈ (holders vxDividendThreshold P s.vx).map (·.1)
          · exact List.sum_eq_zero_iff.mp h1 _ (List.mem_map.mpr ⟨a, hin, rfl⟩)
          · exact paidTo_none hin hpay
        refine ⟨?_, ?_, ?_, ?_⟩
        · intro t
          rw [← hpot, hs']; exact f2 t
        · rw [← hb, hs']; rfl
        · intro a; rw [hfree, hvite]; rfl
        · intro t ht
          refine ⟨fun a => paidTo a t _, fun a => hfree a t, fun a h => paidTo_none h hpay, ?_, ?_⟩
          · have h1 := dividend_paid I hok hm t
            rw [if_neg ht, ← paidTo_sum hH.1 t _ hpay, potOf_eq, hpot] at h1
            exact h1
          · intro hlt a hin
            have hga := (hH.2 a).mp hin
            have htot : sumOver (s.pastVx P) ((holders vxDividendThreshold P s.vx).map (·.1)) = total := by omega
            have hwa : worth vxDividendThreshold (s.pastVx P a) = s.pastVx P a := by unfold worth; rw [if_pos hga]
            rw [htot, List.length_map]
            by_cases hin : t ∈ (freshPots (s.potsOf P)).map (·.token)
            · obtain ⟨q, hq, rfl⟩ := List.mem_map.mp hin
              have hqp : q.pool = pot P q.token s.fees := by
                rw [← hpot, ← potOf_eq]
                have h4 := (fresh_new s P q hq).2.2
                unfold freshPots at hq
                obtain ⟨x, hx, rfl⟩ := List.mem_map.mp hq
                have hx' : x ∈ s.potsOf P := by
                  split at hx
                  · exact hx
                  · exact table_mem_del hx
                show x.2 = potOf s P x.1
                unfold potOf
                rw [Table.mem_get (potsOf_proper s P) (v := x.2) hx']; rfl
              have := divide_new ht0 hv hlo' hP hm (freshPots (s.potsOf P)) (fresh_nodup s P) (fresh_new s P) q hq (by rw [hqp]; exact hlt) a
              rw [hwa, hqp] at this
              exact this
            · have h0 : pot P t s.fees = 0 := by
                have h1 := leftOf_fresh s P t
                rw [if_neg ht, potOf_eq, hpot] at h1
                rw [← h1]
                unfold leftOf
                apply List.sum_eq_zero
                intro y hy
                obtain ⟨q, hq, rfl⟩ := List.mem_map.mp hy
                rw [if_neg]; intro e; exact hin (List.mem_map.mpr ⟨q, hq, e⟩)
              have h1 : paidTo a t (divide vxDividendThreshold P total s.vx (freshPots (s.potsOf P))).2.2 = 0 := by
                have h1 := dividend_paid I hok hm t
                rw [if_neg ht, ← paidTo_sum hH.1 t _ hpay, potOf_eq, hpot, h0] at h1
                exact List.sum_eq_zero_iff.mp h1 _ (List.mem_map.mpr ⟨a, by assumption, rfl⟩)
              rw [h0]
              show |((paidTo a t _ : ℕ) : ℚ) - _| ≤ _
              rw [h1]; simp [exactShare]

/-! ### Releases -/

theorem notDue_split {P Q : Nat} (h : P ≤ Q) (a : Nat) : ∀ log : List (Nat × Nat × Nat),
    dueBetween P Q a log + notDue Q a log = notDue P a log
  | [] => rfl
  | x :: log => by
    have ih := notDue_split h a log
    simp only [dueBetween, notDue, List.map_cons, List.sum_cons] at ih ⊢
    by_cases h1 : x.1 = a
    · by_cases h2 : P < x.2.1 + 7
      · by_cases h3 : Q < x.2.1 + 7
        · rw [if_neg (by omega), if_pos ⟨h1, h3⟩, if_pos ⟨h1, h2⟩]; omega
        · rw [if_pos ⟨h1, h2, by omega⟩, if_neg (fun h => h3 h.2), if_pos ⟨h1, h2⟩]; omega
      · rw [if_neg (fun h => h2 h.2.1), if_neg (fun h => h2 (by omega)), if_neg (fun h => h2 h.2)]; omega
    · rw [if_neg (fun h => h1 h.1), if_neg (fun h => h1 h.1), if_neg (fun h => h1 h.1)]; omega

theorem SchedInv.promised {now last : Nat} {t : Table Nat Hist} {log : List (Nat × Nat × Nat)} {amt : Nat → Nat}
    (I : SchedInv now last t log amt) (a : Nat) : amt a = notDue last a log := by
  rw [I.col a, ← I.log a last (le_refl _), later_eq_entries]
  intro e he
  by_cases h : histOf a t = []
  · rw [h] at he; simp at he
  · exact I.fresh _ (histOf_mem h) e he

theorem SchedInv.due_eq {now last P : Nat} {t : Table Nat Hist} {log : List (Nat × Nat × Nat)} {amt : Nat → Nat}
    (I : SchedInv now last t log amt) (h : last ≤ P) (a : Nat) : dueSum P (histOf a t) = dueBetween last P a log := by
  have asc : Asc (histOf a t) := by
    by_cases h : histOf a t = []
    · rw [h]; exact List.Pairwise.nil
    · exact I.asc _ (histOf_mem h)
  have h1 := (due_sum asc P).1
  have h2 := I.log a P h
  have h3 := notDue_split h a log
  have h4 := I.promised a
  have h5 := I.col a
  omega

/-- C29. What is being unlocked for an address, at the end of any history, is what it asked for less than seven periods before
the last finish job. -/
theorem unlocking_promised {f : Forks} (hf : f.dexFee = true) {mk : Nat → Option MarketInfo} (hmk : MarketsOk mk) {n : Nat} (hn : 1 ≤ n)
    (ops : List ExOp) (ha : ∀ op ∈ ops, Allowed f op) (a : Nat) :
    (getAcct a vxToken (Ex.run f mk n ops).core.funds).vxUnlocking =
      notDue ((Ex.run f mk n ops).jobs .finishUnlock) a (Ex.run f mk n ops).unlockLog :=
  (exRun_inv hf hmk hn ops ha).unlocks.promised a

/-- C29. A finish job is never refused when its turn has come, and it gives every address exactly what became due since the last
one: requests of seven and more periods ago. -/
theorem unlock_released {f : Forks} (hf : f.dexFee = true) {mk : Nat → Option MarketInfo} (hmk : MarketsOk mk) {n : Nat} (hn : 1 ≤ n)
    (ops : List ExOp) (ha : ∀ op ∈ ops, Allowed f op) {s s' : Ex} (hs : s = Ex.run f mk n ops) (P : Nat) (hP : P < s.now)
    (hb : s.jobs .finishUnlock = 0 ∨ P = s.jobs .finishUnlock + 1) (hs' : s' = s.step f mk (.job .finishUnlock P)) :
    s'.jobs .finishUnlock = P ∧ s'.unlockLog = s.unlockLog ∧
    ∀ a, free s' a vxToken = free s a vxToken + dueBetween (s.jobs .finishUnlock) P a s.unlockLog ∧
      ∀ t, t ≠ vxToken → getAcct a t s'.core.funds = getAcct a t s.core.funds := by
  have I := exRun_inv hf hmk hn ops ha
  rw [← hs] at I
  have hok : s.jobOk .finishUnlock P = true := jobOk_iff.mpr ⟨hP, hb⟩
  obtain ⟨x, e, -, ex, h⟩ := finishUnlock_spec I hok
  have : s' = x.jobDone .finishUnlock P := by
    rw [hs']
    show s.job .finishUnlock P = _
    unfold Ex.job
    rw [show Job.finishUnlock.biz = Biz.finishUnlock from rfl, if_pos hok]
    simp only [Ex.work, e]; rfl
  subst this
  refine ⟨by rw [jobDone_jobs, if_pos rfl], by show x.unlockLog = _; rw [ex], ?_⟩
  intro a
  constructor
  · show (getAcct a vxToken x.core.funds).available = (getAcct a vxToken s.core.funds).available + _
    rw [h, if_pos rfl, I.unlocks.due_eq (by omega)]; rfl
  · intro t ht
    show getAcct a t x.core.funds = _
    rw [h, if_neg ht]

/-- C29. An unlock request is refused, or it takes the amount out of the locked VX and is noted with its period. -/
theorem unlock_noted (f : Forks) (mk : Nat → Option MarketInfo) {s s' : Ex} (a m : Nat)
    (hs' : s' = s.step f mk (.unlockVx a m)) :
    (10 ^ 18 ≤ m ∧ m ≤ s.vxOf a ∧ s'.vxOf a + m = s.vxOf a ∧ s'.unlockLog = s.unlockLog ++ [(a, s.now, m)] ∧
      free s' a vxToken = free s a vxToken) ∨
    ((m < 10 ^ 18 ∨ s.vxOf a < m ∨ (s.vxOf a ≠ m ∧ s.vxOf a - m < vxDividendThreshold)) ∧ s' = s) := by
  have hr : s' = s.unlockVx a m := hs'
  unfold Ex.unlockVx at hr
  split at hr
  · rename_i h; exact .inr ⟨.inl (by simpa [vxLockThreshold] using h), hr⟩
  · rename_i h0
    have h0 : 10 ^ 18 ≤ m := by simpa [vxLockThreshold] using h0
    split at hr
    · rename_i h
      refine .inr ⟨.inr ?_, hr⟩
      unfold scheduleVxUnlock at h
      simp only at h
      unfold Ex.vxOf
      split at h
      · exact .inl (by assumption)
      · split at h
        · rename_i h1 h2; right; omega
        · simp at h
    · rename_i fs h
      left
      unfold scheduleVxUnlock at h
      simp only at h
      split at h
      · simp at h
      · rename_i hlt
        rw [if_neg (by intro hc; rw [if_pos hc] at h; simp at h)] at h
        have k := getAcct_key a vxToken s.core.funds
        have hg := getAcct_own (Option.some.inj h) k.1 k.2
        have hle : m ≤ s.vxOf a := by unfold Ex.vxOf; omega
        simp only at hr
        have key : ∀ x : Ex, x.core = { s.core with funds := fs } → x.unlockLog = s.unlockLog ++ [(a, s.now, m)] →
            x.vxOf a + m = s.vxOf a ∧ x.unlockLog = s.unlockLog ++ [(a, s.now, m)] ∧ free x a vxToken = free s a vxToken := by
          intro x h1 h2
          refine ⟨?_, h2, ?_⟩
          · unfold Ex.vxOf at hle ⊢
            rw [h1]; simp only
            rw [hg, if_pos ⟨rfl, rfl⟩]
            simp only; omega
          · unfold free
            rw [h1]; simp only
            rw [hg, if_pos ⟨rfl, rfl⟩]
        refine ⟨h0, hle, ?_⟩
        rw [hr]
        cases hq : Ex.settleVx _ a (-(m : Int)) with
        | none => exact key _ rfl rfl
        | some x =>
          unfold Ex.settleVx at hq
          obtain ⟨r, -, rfl⟩ := Option.map_eq_some_iff.mp hq
          exact key _ rfl rfl

/-- Nothing else notes an unlock request. -/
theorem unlock_log_only (f : Forks) (mk : Nat → Option MarketInfo) (s : Ex) (op : ExOp) (h : ∀ a m, op ≠ .unlockVx a m) :
    (s.step f mk op).unlockLog = s.unlockLog := by
  by_cases h1 : ∃ n, op = .tick n
  · obtain ⟨n, rfl⟩ := h1
    simp only [Ex.step, Ex.tick]
    split
    · rfl
    · cases rollPeriod s.fees s.lastRoll n <;> rfl
  · by_cases h3 : ∃ id, op = .cancelOk id
    · obtain ⟨id, rfl⟩ := h3
      rcases cancelOk_chron s id with e | ⟨l, e⟩ <;>
      · simp only [Ex.chron, Prod.mk.injEq] at e; exact e.2.2.2.1
    · have e := step_chron f mk s op (fun n e => h1 ⟨n, e⟩) h (fun id e => h3 ⟨id, e⟩)
      simp only [Ex.chron, Prod.mk.injEq] at e; exact e.2.2.2.1

/-! ### Stakes that come back -/

/-- C48. When the quota contract gives a stake back, the exchange accepts it: a stake for a VIP record is free at once, a stake for
mining is noted with its period as being cancelled. -/
theorem stake_return_accepted {f : Forks} (hf : f.dexFee = true) {mk : Nat → Option MarketInfo} (hmk : MarketsOk mk) {n : Nat} (hn : 1 ≤ n)
    (ops : List ExOp) (ha : ∀ op ∈ ops, Allowed f op) {s s' : Ex} (hs : s = Ex.run f mk n ops) (id : Nat) (d : Deleg)
    (hd : Table.get id s.stakes = some d) (hc : d.confirmed = true) (hs' : s' = s.step f mk (.cancelOk id)) :
    s'.received viteToken = s.received viteToken + d.amount ∧ Table.get id s'.stakes = none ∧
    (d.kind = .mining → s'.cancelLog = s.cancelLog ++ [(d.owner, s.now, d.amount)] ∧ free s' d.owner viteToken = free s d.owner viteToken) ∧
    (d.kind ≠ .mining → free s' d.owner viteToken = free s d.owner viteToken + d.amount) := by
  have I := exRun_inv hf hmk hn ops ha
  rw [← hs] at I
  obtain ⟨-, h1, h2, h3, h4⟩ := cancelOk_spec I hd hc
  have hs' : s' = s.cancelOk id := hs'
  subst hs'
  refine ⟨by rw [h1, bump_apply, if_pos rfl], h2, ?_, ?_⟩
  · intro hk
    obtain ⟨h5, h6⟩ := h3 hk
    refine ⟨h5, ?_⟩
    unfold free
    have ho := get_mem_owner I hd
    have kk := getAcct_key d.owner viteToken s.core.funds
    rw [h6, getAcct_own (scheduleCancel_eq ho d.amount) kk.1 kk.2, if_pos ⟨rfl, rfl⟩]
  · intro hk
    unfold free
    rw [h4 hk, available_deposit, if_pos ⟨rfl, rfl⟩]

/-- C48. Stakes being cancelled become free seven periods later, like unlocked VX; the job is never refused. -/
theorem cancelled_stake_released {f : Forks} (hf : f.dexFee = true) {mk : Nat → Option MarketInfo} (hmk : MarketsOk mk) {n : Nat} (hn : 1 ≤ n)
    (ops : List ExOp) (ha : ∀ op ∈ ops, Allowed f op) {s s' : Ex} (hs : s = Ex.run f mk n ops) (P : Nat) (hP : P < s.now)
    (hb : s.jobs .finishCancel = 0 ∨ P = s.jobs .finishCancel + 1) (hs' : s' = s.step f mk (.job .finishCancel P)) :
    s'.jobs .finishCancel = P ∧ s'.cancelLog = s.cancelLog ∧
    ∀ a, free s' a viteToken = free s a viteToken + dueBetween (s.jobs .finishCancel) P a s.cancelLog ∧
      ∀ t, t ≠ viteToken → getAcct a t s'.core.funds = getAcct a t s.core.funds := by
  have I := exRun_inv hf hmk hn ops ha
  rw [← hs] at I
  have hok : s.jobOk .finishCancel P = true := jobOk_iff.mpr ⟨hP, hb⟩
  obtain ⟨x, e, -, ex, h⟩ := finishCancels_spec I hok
  have : s' = x.jobDone .finishCancel P := by
    rw [hs']
    show s.job .finishCancel P = _
    unfold Ex.job
    rw [show Job.finishCancel.biz = Biz.finishCancel from rfl, if_pos hok]
    simp only [Ex.work, e]; rfl
  subst this
  refine ⟨by rw [jobDone_jobs, if_pos rfl], by show x.cancelLog = _; rw [ex], ?_⟩
  intro a
  constructor
  · show (getAcct a viteToken x.core.funds).available = (getAcct a viteToken s.core.funds).available + _
    rw [h, if_pos rfl, I.cancels.due_eq (by omega)]; rfl
  · intro t ht
    show getAcct a t x.core.funds = _
    rw [h, if_neg ht]

/-- C48. What is being cancelled for an address is what came back less than seven periods before the last finish job. -/
theorem cancelling_promised {f : Forks} (hf : f.dexFee = true) {mk : Nat → Option MarketInfo} (hmk : MarketsOk mk) {n : Nat} (hn : 1 ≤ n)
    (ops : List ExOp) (ha : ∀ op ∈ ops, Allowed f op) (a : Nat) :
    (getAcct a viteToken (Ex.run f mk n ops).core.funds).cancellingStake =
      notDue ((Ex.run f mk n ops).jobs .finishCancel) a (Ex.run f mk n ops).cancelLog :=
  (exRun_inv hf hmk hn ops ha).cancels.promised a

/-! ### Stakes that fail -/

/-- C30, for VIP stakes. Missing: stakes for mining, for which it is false (`failed_mining_stake_lost`). -/
theorem failed_stake_refunded_partial {f : Forks} (hf : f.dexFee = true) {mk : Nat → Option MarketInfo} (hmk : MarketsOk mk) {n : Nat}
    (hn : 1 ≤ n) (ops : List ExOp) (ha : ∀ op ∈ ops, Allowed f op) {s s' : Ex} (hs : s = Ex.run f mk n ops) (id : Nat) (d : Deleg)
    (hd : Table.get id s.stakes = some d) (hc : d.confirmed = false) (hk : d.kind ≠ .mining)
    (hs' : s' = s.step f mk (.stakeFail id d.amount)) :
    free s' d.owner viteToken = free s d.owner viteToken + d.amount ∧ s'.received viteToken = s.received viteToken + d.amount ∧
      Table.get id s'.stakes = none := by
  have I := exRun_inv hf hmk hn ops ha
  rw [← hs] at I
  have hok := (I.stakes.owners _ (Table.get_mem hd)).2
  have hrf : d.refused d.amount = false := by
    unfold Deleg.refused
    simp only at hok
    unfold Kind.amountOk at hok
    cases h : d.kind <;> simp_all
  have : s' = { s with
      core := { s.core with funds := depositAccount s.core.funds d.owner viteToken d.amount, deposited := bump s.core.deposited viteToken d.amount }
      received := bump s.received viteToken d.amount
      stakes := Table.del id s.stakes } := by
    rw [hs']
    show s.stakeFail id d.amount = _
    unfold Ex.stakeFail
    simp only [hd, hc, hrf, Bool.false_eq_true, or_self, if_false]
  subst this
  refine ⟨?_, by simp only [bump_apply, if_true], Table.get_del_self _ I.stakes.proper⟩
  unfold free
  simp only
  rw [available_deposit, if_pos ⟨rfl, rfl⟩]

/-- C30 is false for mining: the exchange refuses the answer that returns exactly what was staked, and nothing changes. -/
theorem failed_mining_stake_lost (f : Forks) (mk : Nat → Option MarketInfo) (s : Ex) (id : Nat) (d : Deleg)
    (hd : Table.get id s.stakes = some d) (hk : d.kind = .mining) : s.step f mk (.stakeFail id d.amount) = s := by
  show s.stakeFail id d.amount = s
  unfold Ex.stakeFail
  simp only [hd]
  rw [if_pos]
  right
  unfold Deleg.refused
  rw [hk]; simp

/-- C49. What the exchange holds as a stake, at the end of any history: for mining at least the least amount, for a VIP the
fixed amount. -/
theorem stake_amounts {f : Forks} (hf : f.dexFee = true) {mk : Nat → Option MarketInfo} (hmk : MarketsOk mk) {n : Nat}
    (hn : 1 ≤ n) (ops : List ExOp) (ha : ∀ op ∈ ops, Allowed f op) (id : Nat) (d : Deleg)
    (hd : Table.get id (Ex.run f mk n ops).stakes = some d) :
    (d.kind = .mining → miningThreshold ≤ d.amount) ∧ (d.kind = .vip → d.amount = vipAmount) ∧
      (d.kind = .superVip ∨ (∃ p, d.kind = .principal p) → d.amount = superVipAmount) := by
  have I := exRun_inv hf hmk hn ops ha
  have hok := (I.stakes.owners _ (Table.get_mem hd)).2
  simp only at hok
  unfold Kind.amountOk at hok
  refine ⟨fun h => ?_, fun h => ?_, ?_⟩
  · rw [h] at hok; simpa using hok
  · rw [h] at hok; simpa using hok
  · rintro (h | ⟨p, h⟩)
    · rw [h] at hok; simpa using hok
    · rw [h] at hok; simpa using hok

/-! ### Mining for stakes -/

theorem divide_tokens (thr p total : Nat) (t : Table Nat Hist) (pots : List Pot) :
    ∀ x ∈ (divide thr p total t pots).2.2, x.2.1 ∈ pots.map (·.token) := by
  induction t generalizing pots with
  | nil => simp [divide]
  | cons e rest ih =>
    obtain ⟨a, h⟩ := e
    rcases divide_cases thr p total a h rest pots with ⟨_, e⟩ | ⟨_, _, e⟩ | ⟨_, x, h', _, _, e⟩ | ⟨_, x, h', hm, hx, e⟩
    · rw [e]; simp
    · rw [e]; exact ih _
    · rw [e]; exact ih _
    · rw [e]
      intro y hy
      rcases List.mem_append.mp hy with hy | hy
      · unfold payPots at hy
        obtain ⟨q, hq, rfl⟩ := List.mem_map.mp hy
        exact List.mem_map.mpr ⟨q, (List.mem_filter.mp hq).1, rfl⟩
      · have := ih _ y hy
        rwa [pay_tokens] at this

theorem gets_paidTo {a tok : Nat} : ∀ {l : List (Nat × Nat × Nat)}, (∀ x ∈ l, x.2.1 = tok) → gets a (l.map (fun x => (x.1, x.2.2))) = paidTo a tok l
  | [], _ => rfl
  | x :: l, h => by
    have ih := gets_paidTo (a := a) (l := l) (fun y hy => h y (List.mem_cons_of_mem _ hy))
    have hx := h x (List.mem_cons_self ..)
    simp only [gets, paidTo, List.map_cons, List.sum_cons] at ih ⊢
    rw [ih]
    simp [hx]

/-- The amount to be mined: as planned, or all that is left when no more than the dust would remain. -/
def planned (want pool : Nat) : Nat := if want + vxMineDust < pool then want else pool

theorem amountToMine_planned (want pool : Nat) : (amountToMine want pool).1 = planned want pool := by
  unfold amountToMine planned
  split <;> split <;> simp only <;> omega

/-- C49. Mining for stakes in period `P`, at the end of any history: those who had staked the least amount or more at the end of
the period get together exactly the amount to be mined, free or locked as they chose, in proportion to their stakes up to one unit
per staker; nobody else gets VX, and the pool shrinks by what is paid. The job is refused only when the pool is empty. -/
theorem staking_mining_shares {f : Forks} (hf : f.dexFee = true) {mk : Nat → Option MarketInfo} (hmk : MarketsOk mk) {n : Nat} (hn : 1 ≤ n)
    (ops : List ExOp) (ha : ∀ op ∈ ops, Allowed f op) {s s' : Ex} (hs : s = Ex.run f mk n ops) (P want : Nat) (hP : P < s.now)
    (hb : s.jobs .mineStaking = 0 ∨ P = s.jobs .mineStaking + 1) (hpool : s.vxPool ≠ 0)
    (hs' : s' = s.step f mk (.job (.mineStaking want) P)) :
    ∃ hs : List Nat, IsHolders miningThreshold (s.pastStk P) hs ∧ s'.jobs .mineStaking = P ∧
      (hs = [] → s'.vxPool = s.vxPool ∧ ∀ a, ownVx s' a = ownVx s a) ∧
      (hs ≠ [] → ∃ paid : Nat → Nat, (∀ a, ownVx s' a = ownVx s a + paid a) ∧ (∀ a, a ∉ hs → paid a = 0) ∧
        sumOver paid hs = planned want s.vxPool ∧ s'.vxPool + planned want s.vxPool = s.vxPool ∧
        (planned want s.vxPool < 2 ^ 100 → ∀ a ∈ hs,
          |(paid a : ℚ) - exactShare (sumOver (s.pastStk P) hs) (s.pastStk P a) (planned want s.vxPool)| ≤ hs.length)) := by
  rw [← amountToMine_planned]
  have I := exRun_inv hf hmk hn ops ha
  rw [← hs] at I
  have hok : s.jobOk .mineStaking P = true := jobOk_iff.mpr ⟨hP, hb⟩
  obtain ⟨lo, hv, hlo⟩ := I.stk
  have hlo' := lo_le hlo hb
  have ht0 : 0 < miningThreshold := by unfold miningThreshold; norm_num
  obtain ⟨hH, hT⟩ := holders_spec ht0 hv hlo' hP
  have hwork : ∀ x, s.mineStaking P want = some x → s' = x.jobDone .mineStaking P := by
    intro x hx
    rw [hs']
    show s.job (.mineStaking want) P = _
    unfold Ex.job
    rw [show (Job.mineStaking want).biz = Biz.mineStaking from rfl, if_pos hok]
    simp only [Ex.work, hx]; rfl
  rcases hm : matchByPeriod s.stkSum P with _ | ⟨total, sum'⟩
  · have h1 : s.mineStaking P want = some s := by
      unfold Ex.mineStaking; rw [if_neg hpool]; simp only [hm]
    have h2 := hwork s h1
    have h3 := matchByPeriod_none hv.goodSum.sorted hm
    refine ⟨_, hH, by rw [h2, jobDone_jobs, if_pos rfl], fun _ => ?_, fun hne => ?_⟩
    · rw [h2]; exact ⟨rfl, fun _ => rfl⟩
    · exfalso
      rw [h3] at hT
      obtain ⟨a, l, e⟩ : ∃ a l, (holders miningThreshold P s.stk).map (·.1) = a :: l := by
        cases h : (holders miningThreshold P s.stk).map (·.1) with
        | nil => exact absurd h hne
        | cons a l => exact ⟨a, l, rfl⟩
      have := (hH.2 a).mp (by rw [e]; simp)
      rw [e] at hT
      simp [sumOver] at hT
      omega
  · obtain ⟨e1, e2, -⟩ := matchByPeriod_some hv.goodSum hm
    obtain ⟨s1, em, -, hvp, hget⟩ := mineStaking_run I hok hpool hm (want := want)
    have h2 := hwork _ em
    have htot : sumOver (s.pastStk P) ((holders miningThreshold P s.stk).map (·.1)) = total := by omega
    have hne : (holders miningThreshold P s.stk).map (·.1) ≠ [] := by
      intro e; rw [e] at htot; simp [sumOver] at htot; omega
    refine ⟨_, hH, by rw [h2, jobDone_jobs, if_pos rfl], fun h => absurd h hne, fun _ => ?_⟩
    have hpay := divide_payees miningThreshold P total s.now ht0 s.stk (goods hv) [Pot.new vxToken (amountToMine want s.vxPool).1]
    have htok := divide_tokens miningThreshold P total s.stk [Pot.new vxToken (amountToMine want s.vxPool).1]
    have hcov : ∀ q ∈ (divide miningThreshold P total s.stk [Pot.new vxToken (amountToMine want s.vxPool).1]).2.1, q.done = true ∧ q.left = 0 := by
      refine divide_exhausts miningThreshold P total s.now s.stk (goods hv) _ ?_
      intro q hq
      have := hv.sum P hlo'
      rw [List.mem_singleton.mp hq]
      exact .inr ⟨rfl, by simp [Pot.new]; omega, by simp [Pot.new]; omega⟩
    have hleft : potsLeft (divide miningThreshold P total s.stk [Pot.new vxToken (amountToMine want s.vxPool).1]).2.1 = 0 := by
      unfold potsLeft
      apply List.sum_eq_zero
      intro y hy
      obtain ⟨q, hq, rfl⟩ := List.mem_map.mp hy
      exact (hcov q hq).2
    have hdt := divide_total miningThreshold P total s.stk [Pot.new vxToken (amountToMine want s.vxPool).1]
    have ham := amountToMine_sum want s.vxPool
    have hfair := divide_new ht0 hv hlo' hP hm [Pot.new vxToken (amountToMine want s.vxPool).1] (by simp)
      (by intro q hq; rw [List.mem_singleton.mp hq]; exact ⟨rfl, rfl, rfl⟩) _ (List.mem_singleton.mpr rfl)
    have hl : potsLeft [Pot.new vxToken (amountToMine want s.vxPool).1] = (amountToMine want s.vxPool).1 := by
      simp [potsLeft, Pot.new]
    generalize divide miningThreshold P total s.stk [Pot.new vxToken (amountToMine want s.vxPool).1] = r at *
    have htok' : ∀ x ∈ r.2.2, x.2.1 = vxToken := by
      intro x hx; simpa [Pot.new] using htok x hx
    refine ⟨fun a => paidTo a vxToken r.2.2, ?_, fun a h => paidTo_none h hpay, ?_, ?_, ?_⟩
    · intro a
      have h4 := hget a
      rw [gets_paidTo htok'] at h4
      rw [h2]
      show (getAcct a vxToken s1.core.funds).available + (getAcct a vxToken s1.core.funds).vxLocked = _
      simp only [Ex.vxOf, free] at h4
      simp only [ownVx]
      omega
    · have : paidOf vxToken r.2.2 = (r.2.2.map (·.2.2)).sum := by
        unfold paidOf
        congr 1
        apply List.map_congr_left
        intro x hx; rw [if_pos (htok' x hx)]
      unfold sumOver
      rw [paidTo_sum hH.1 vxToken _ hpay, this]; omega
    · rw [h2]
      show s1.vxPool + _ = _
      rw [hvp]; omega
    · intro hlt a hin
      have hga := (hH.2 a).mp hin
      have hwa : worth miningThreshold (s.pastStk P a) = s.pastStk P a := by unfold worth; rw [if_pos hga]
      have := hfair hlt a
      rw [hwa] at this
      rw [htot, List.length_map]
      exact this

end Verif.Dex
