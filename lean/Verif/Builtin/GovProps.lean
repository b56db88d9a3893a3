import Verif.Builtin.GovSpec
import Verif.Builtin.RewardProps
import Verif.Vm.ContractProps

/-! C18, C19, C41: registrations belong to their owners, and so do the stakes. -/

namespace Verif.Builtin.Gov
open Verif.Vm Verif.Builtin.Reward Verif.Builtin.NameList Spec

/-! ### What a successful call does -/

/-- All the ways a call can succeed. -/
inductive Change (x : Call) (st : State) (res : Result) : Prop
  | register (gid : Nat) (name : Name) (producing withdraw : Nat) (o : List Nat × Option Nat)
      (h : (Nat → Nat → Option Name) × List Nat) (lock : Nat)
      (hm : x.method = .register gid name producing ∧ withdraw = x.sender ∨
        x.method = .registerV3 name producing withdraw ∧ gid = snapshotGid)
      (hp : checkParam gid name = true) (ht : x.token = vite) (ha : x.amount = x.ctx.price)
      (ho : takeOver x.ctx name x.sender (reg st gid name) = some o) (hc : claim st gid name producing o.1 = some h)
      (hl : x.ctx.group gid = some lock)
      (hr : res = ⟨{ st with
            regs := Table.put (gid, name) ⟨producing, withdraw, x.sender, x.amount, x.ctx.height + lock,
              if gid = snapshotGid then x.ctx.now else 0, 0, h.2⟩ st.regs
            hisName := h.1
            lists := saveWithdraw st.lists o.2 withdraw x.sender name }, [], []⟩)
  | revoke (gid : Nat) (name : Name) (old : Reg) (hm : x.method = .revoke gid name) (ha : x.amount = 0)
      (ho : reg st gid name = some old) (hact : old.active = true) (how : old.owner = x.sender)
      (hex : old.expiry ≤ x.ctx.height)
      (hr : res = ⟨{ st with regs := Table.put (gid, name) { old with
            amount := 0, expiry := 0, rewardTime := if drained x.ctx name old then -1 else old.rewardTime,
            revokeTime := x.ctx.now } st.regs },
          if old.amount > 0 then [⟨.call, x.sender, vite, old.amount, x.fee⟩] else [], []⟩)
  | reward (name : Name) (receive : Nat) (old : Reg) (hm : x.method = .withdrawReward snapshotGid name receive)
      (ha : x.amount = 0) (ho : reg st snapshotGid name = some old) (ht : old.rewardTime ≠ -1)
      (how : x.sender = old.owner ∨ x.sender = old.withdraw)
      (hne : newRewardTime (calcReward x.ctx.panics x.ctx.src name old.times x.ctx.now) ≠ old.rewardTime)
      (hr : res = ⟨{ st with regs := Table.put (snapshotGid, name) { old with
            rewardTime := newRewardTime (calcReward x.ctx.panics x.ctx.src name old.times x.ctx.now) } st.regs },
          if (calcReward x.ctx.panics x.ctx.src name old.times x.ctx.now).reward.getD 0 > 0 then
            [⟨.call, assetAddr, vite, 0, x.fee⟩] else [],
          if (calcReward x.ctx.panics x.ctx.src name old.times x.ctx.now).reward.getD 0 > 0 then
            [(receive, (calcReward x.ctx.panics x.ctx.src name old.times x.ctx.now).reward.getD 0)] else []⟩)
  | noReward (name : Name) (receive : Nat) (hm : x.method = .withdrawReward snapshotGid name receive)
      (ha : x.amount = 0) (hr : res = ⟨st, [], []⟩)
  | producing (gid : Nat) (name : Name) (addr : Nat) (old : Reg) (h : (Nat → Nat → Option Name) × List Nat)
      (hm : x.method = .updateProducing gid name addr) (hp : checkParam gid name = true) (ha : x.amount = 0)
      (ho : reg st gid name = some old) (hact : old.active = true) (how : old.owner = x.sender)
      (hc : claim st gid name addr old.his = some h)
      (hr : res = ⟨{ st with
            regs := Table.put (gid, name) { old with producing := addr, his := h.2 } st.regs
            hisName := h.1 }, [], []⟩)
  | withdraw (name : Name) (addr : Nat) (old : Reg) (hm : x.method = .updateWithdraw name addr)
      (hp : checkParam snapshotGid name = true) (ha : x.amount = 0)
      (ho : reg st snapshotGid name = some old) (hact : old.active = true) (how : old.owner = x.sender)
      (hne : old.withdraw ≠ addr)
      (hr : res = ⟨{ st with
            regs := Table.put (snapshotGid, name) { old with withdraw := addr } st.regs
            lists := saveWithdraw st.lists (some old.withdraw) addr old.owner name }, [], []⟩)
  | vote (gid : Nat) (v : Option Name) (hm : (∃ name, x.method = .vote gid name ∧ v = some name) ∨ x.method = .cancelVote gid ∧ v = none)
      (ha : x.amount = 0) (hact : ∀ name, v = some name → isActive st gid name = true)
      (hr : res = ⟨{ st with votes := upd2 st.votes x.sender gid v }, [], []⟩)

theorem register_some {c : Ctx} {st : State} {sender token amount gid : Nat} {name : Name} {p w : Nat} {res : Result}
    (h : register c st sender token amount gid name p w = some res) :
    amount = c.price ∧ token = vite ∧ ∃ o h lock, takeOver c name sender (reg st gid name) = some o ∧
      claim st gid name p o.1 = some h ∧ c.group gid = some lock ∧
      res = ⟨{ st with
            regs := Table.put (gid, name) ⟨p, w, sender, amount, c.height + lock,
              if gid = snapshotGid then c.now else 0, 0, h.2⟩ st.regs
            hisName := h.1
            lists := saveWithdraw st.lists o.2 w sender name }, [], []⟩ := by
  unfold register at h
  by_cases hc : amount ≠ c.price ∨ token ≠ vite
  · simp only [hc, if_true] at h; cases h
  · simp only [hc, if_false] at h
    push Not at hc
    obtain ⟨o, ho, h⟩ := Option.bind_eq_some_iff.mp h
    obtain ⟨q, hq, h⟩ := Option.bind_eq_some_iff.mp h
    obtain ⟨lock, hl, h⟩ := Option.map_eq_some_iff.mp h
    exact ⟨hc.1, hc.2, o, q, lock, ho, hq, hl, h.symm⟩

theorem result_change {x : Call} {st : State} {res : Result} (h : x.result st = some res) : Change x st res := by
  unfold Call.result at h
  by_cases hs : doSend x.amount x.method = true
  · simp only [hs, if_true] at h
    cases hm : x.method with
    | register g n p =>
      simp only [hm, doReceive, doSend] at h hs
      obtain ⟨h1, h2, o, q, lock, h3, h4, h5, h6⟩ := register_some h
      exact .register g n p x.sender o q lock (.inl ⟨hm, rfl⟩) hs h2 h1 h3 h4 h5 h6
    | registerV3 n p w =>
      simp only [hm, doReceive, doSend] at h hs
      obtain ⟨h1, h2, o, q, lock, h3, h4, h5, h6⟩ := register_some h
      exact .register snapshotGid n p w o q lock (.inr ⟨hm, rfl⟩) hs h2 h1 h3 h4 h5 h6
    | revoke g n =>
      simp only [hm, doReceive, doSend, Bool.and_eq_true, decide_eq_true_eq] at h hs
      unfold revoke at h
      cases ho : Table.get (g, n) st.regs with
      | none => simp [ho] at h
      | some old =>
        simp only [ho] at h
        by_cases hc : old.active = false ∨ old.owner ≠ x.sender ∨ old.expiry > x.ctx.height
        · simp only [hc, if_true] at h; cases h
        · simp only [hc, if_false, Option.some.injEq] at h
          push Not at hc
          exact .revoke g n old hm hs.1 ho (by simpa using hc.1) hc.2.1 hc.2.2 h.symm
    | withdrawReward g n r =>
      simp only [hm, doReceive, doSend, Bool.and_eq_true, decide_eq_true_eq] at h hs
      obtain ⟨ha, rfl⟩ := hs
      unfold withdrawReward at h
      cases ho : Table.get (snapshotGid, n) st.regs with
      | none => simp [ho] at h
      | some old =>
        simp only [ho] at h
        by_cases hc : old.rewardTime = -1 ∨ (x.sender ≠ old.owner ∧ x.sender ≠ old.withdraw)
        · simp only [hc, if_true] at h; cases h
        · simp only [hc, if_false] at h
          by_cases hne : newRewardTime (calcReward x.ctx.panics x.ctx.src n old.times x.ctx.now) ≠ old.rewardTime
          · simp only [hne, ne_eq, not_false_eq_true, if_true, Option.some.injEq] at h
            push Not at hc
            exact .reward n r old hm ha ho hc.1 (by by_cases q : x.sender = old.owner; exact .inl q; exact .inr (hc.2 q)) hne h.symm
          · simp only [hne, if_false, Option.some.injEq] at h
            exact .noReward n r hm ha h.symm
    | updateProducing g n p =>
      simp only [hm, doReceive, doSend, Bool.and_eq_true, decide_eq_true_eq] at h hs
      unfold updateProducing at h
      cases ho : Table.get (g, n) st.regs with
      | none => simp [ho] at h
      | some old =>
        simp only [ho] at h
        by_cases hc : old.active = false ∨ old.owner ≠ x.sender ∨ old.producing = p
        · simp only [hc, if_true] at h; cases h
        · simp only [hc, if_false] at h
          push Not at hc
          obtain ⟨q, hq, h⟩ := Option.map_eq_some_iff.mp h
          exact .producing g n p old q hm hs.2 hs.1 ho (by simpa using hc.1) hc.2.1 hq h.symm
    | updateWithdraw n w =>
      simp only [hm, doReceive, doSend, Bool.and_eq_true, decide_eq_true_eq] at h hs
      unfold updateWithdraw at h
      cases ho : Table.get (snapshotGid, n) st.regs with
      | none => simp [ho] at h
      | some old =>
        simp only [ho] at h
        by_cases hc : old.active = false ∨ old.owner ≠ x.sender ∨ old.withdraw = w
        · simp only [hc, if_true] at h; cases h
        · simp only [hc, if_false, Option.some.injEq] at h
          push Not at hc
          exact .withdraw n w old hm hs.2 hs.1 ho (by simpa using hc.1) hc.2.1 hc.2.2 h.symm
    | vote g n =>
      simp only [hm, doReceive, doSend, Bool.and_eq_true, decide_eq_true_eq] at h hs
      unfold vote at h
      by_cases h1 : x.ctx.group g = none
      · simp [h1] at h
      · by_cases h2 : isActive st g n = false
        · simp [h1, h2] at h
        · rw [if_neg h1, if_neg h2, Option.some.injEq] at h
          exact .vote g (some n) (.inl ⟨n, hm, rfl⟩) hs.1 (fun m q => by cases q; simpa using h2) h.symm
    | cancelVote g =>
      simp only [hm, doReceive, doSend, Bool.and_eq_true, decide_eq_true_eq, cancelVote, Option.some.injEq] at h hs
      exact .vote g none (.inr ⟨hm, rfl⟩) hs.1 (fun m q => by cases q) h.symm
  · rw [if_neg hs] at h
    cases h

theorem apply_some {st : State} {x : Call} {res : Result} (h : x.result st = some res) : apply st x = res.st := by
  simp [apply, h]

theorem apply_none {st : State} {x : Call} (h : x.result st = none) : apply st x = st := by
  simp [apply, h]

/-- An invariant of successful calls is one of histories. -/
theorem invariant {P : State → Prop} (hP : ∀ (st : State) (x : Call) (res : Result), P st → x.result st = some res → P res.st) :
    ∀ (xs : List Call) (st : State), P st → P (runAll st xs)
  | [], _, h => h
  | x :: xs, st, h => by
    have : P (apply st x) := by
      cases hr : x.result st with
      | none => rw [apply_none hr]; exact h
      | some res => rw [apply_some hr]; exact hP st x res h hr
    exact invariant hP xs (apply st x) this

/-! ### C18: producing addresses -/

theorem takeOver_his {c : Ctx} {name : Name} {sender : Nat} {old : Option Reg} {o : List Nat × Option Nat}
    (h : takeOver c name sender old = some o) :
    (old = none ∧ o = ([], none)) ∨
      ∃ r, old = some r ∧ r.active = false ∧ r.owner = sender ∧ drained c name r = true ∧ o = (r.his, some r.withdraw) := by
  cases old with
  | none => simp only [takeOver, Option.some.injEq] at h; exact .inl ⟨rfl, h.symm⟩
  | some r =>
    simp only [takeOver] at h
    by_cases h1 : r.active = true ∨ r.owner ≠ sender
    · simp only [h1, if_true] at h; cases h
    · by_cases h2 : drained c name r = false
      · simp only [h1, h2, if_true, if_false] at h; cases h
      · rw [if_neg h1, if_neg h2, Option.some.injEq] at h
        push Not at h1
        exact .inr ⟨r, rfl, by simpa using h1.1, h1.2, by simpa using h2, h.symm⟩

theorem reg_put (st : State) (g : Nat) (n : Name) (r : Reg) (t : Table (Nat × Name) Reg) (ht : st.regs = Table.put (g, n) r t)
    (g' : Nat) (n' : Name) : reg st g' n' = if g' = g ∧ n' = n then some r else Table.get (g', n') t := by
  unfold reg
  rw [ht, Table.get_put]
  by_cases h : g' = g ∧ n' = n
  · simp [h]
  · have : ¬ (g', n') = (g, n) := by simpa [Prod.ext_iff] using h
    simp only [this, h, if_false]

/-- Writing a registration whose list is that of the old one, with the claimed address added if it is new. -/
theorem bound_claim {st st' : State} (hb : Bound st) {g : Nat} {n : Name} {a : Nat} {his : List Nat}
    {h : (Nat → Nat → Option Name) × List Nat} {r : Reg} (hc : claim st g n a his = some h)
    (hhis : his = (reg st g n).elim [] (·.his)) (h1 : st'.regs = Table.put (g, n) r st.regs) (h2 : st'.hisName = h.1)
    (h3 : r.his = h.2) (h4 : r.producing = a) : Bound st' := by
  unfold claim at hc
  have hmem : ∀ b, b ∈ his ↔ st.hisName b g = some n := by
    intro b
    rw [hb.table]
    subst hhis
    cases hr : reg st g n with
    | none => simp
    | some r0 => simp
  cases ha : st.hisName a g with
  | none =>
    simp only [ha, Option.some.injEq] at hc
    subst hc
    refine ⟨fun b g' n' => ?_, fun g' n' r' hr' => ?_⟩
    · rw [h2]
      simp only [upd2]
      by_cases hb1 : b = a ∧ g' = g
      · obtain ⟨rfl, rfl⟩ := hb1
        simp only [and_self, if_true, Option.some.injEq]
        constructor
        · rintro rfl
          refine ⟨r, ?_, ?_⟩
          · rw [reg_put st' _ _ r _ h1]; simp
          · rw [h3]; simp
        · rintro ⟨r', hr', hm⟩
          rw [reg_put st' _ _ r _ h1] at hr'
          by_cases hn : n' = n
          · exact hn.symm
          · simp only [hn, and_false, if_false] at hr'
            have := (hb.table b g' n').mpr ⟨r', hr', hm⟩
            rw [ha] at this; cases this
      · simp only [hb1, if_false]
        rw [hb.table]
        constructor
        · rintro ⟨r', hr', hm⟩
          by_cases hn : g' = g ∧ n' = n
          · obtain ⟨rfl, rfl⟩ := hn
            refine ⟨r, by rw [reg_put st' _ _ r _ h1]; simp, ?_⟩
            rw [h3]
            have : b ∈ his := (hmem b).mpr ((hb.table b g' n').mpr ⟨r', hr', hm⟩)
            simp [this]
          · exact ⟨r', by rw [reg_put st' _ _ r _ h1]; simp only [hn, if_false]; exact hr', hm⟩
        · rintro ⟨r', hr', hm⟩
          rw [reg_put st' _ _ r _ h1] at hr'
          by_cases hn : g' = g ∧ n' = n
          · obtain ⟨rfl, rfl⟩ := hn
            simp only [and_self, if_true, Option.some.injEq] at hr'
            subst hr'
            rw [h3, List.mem_append, List.mem_singleton] at hm
            rcases hm with hm | hm
            · exact (hb.table b g' n').mp ((hmem b).mp hm)
            · exact absurd ⟨hm, rfl⟩ hb1
          · simp only [hn, if_false] at hr'
            exact ⟨r', hr', hm⟩
    · rw [reg_put st' _ _ r _ h1] at hr'
      by_cases hn : g' = g ∧ n' = n
      · simp only [hn, and_self, if_true, Option.some.injEq] at hr'
        subst hr'
        rw [h3, h4]; simp
      · simp only [hn, if_false] at hr'
        exact hb.present g' n' r' hr'
  | some n0 =>
    simp only [ha] at hc
    by_cases hn0 : n0 = n
    · subst hn0
      simp only [if_true, Option.some.injEq] at hc
      subst hc
      have hain : a ∈ his := (hmem a).mpr ha
      refine ⟨fun b g' n' => ?_, fun g' n' r' hr' => ?_⟩
      · rw [h2, hb.table]
        by_cases hn : g' = g ∧ n' = n0
        · obtain ⟨rfl, rfl⟩ := hn
          constructor
          · rintro ⟨r', hr', hm⟩
            refine ⟨r, by rw [reg_put st' _ _ r _ h1]; simp, ?_⟩
            rw [h3]
            exact (hmem b).mpr ((hb.table b g' n').mpr ⟨r', hr', hm⟩)
          · rintro ⟨r', hr', hm⟩
            rw [reg_put st' _ _ r _ h1] at hr'
            simp only [and_self, if_true, Option.some.injEq] at hr'
            subst hr'
            rw [h3] at hm
            exact (hb.table b g' n').mp ((hmem b).mp hm)
        · constructor
          · rintro ⟨r', hr', hm⟩
            exact ⟨r', by rw [reg_put st' _ _ r _ h1]; simp only [hn, if_false]; exact hr', hm⟩
          · rintro ⟨r', hr', hm⟩
            rw [reg_put st' _ _ r _ h1] at hr'
            simp only [hn, if_false] at hr'
            exact ⟨r', hr', hm⟩
      · rw [reg_put st' _ _ r _ h1] at hr'
        by_cases hn : g' = g ∧ n' = n0
        · simp only [hn, and_self, if_true, Option.some.injEq] at hr'
          subst hr'
          rw [h3, h4]; exact hain
        · simp only [hn, if_false] at hr'
          exact hb.present g' n' r' hr'
    · simp only [hn0, if_false] at hc
      cases hc

/-- Rewriting a registration with the same addresses. -/
theorem bound_same {st st' : State} (hb : Bound st) {g : Nat} {n : Name} {old r : Reg} (ho : reg st g n = some old)
    (h1 : st'.regs = Table.put (g, n) r st.regs) (h2 : st'.hisName = st.hisName) (h3 : r.his = old.his)
    (h4 : r.producing = old.producing) : Bound st' := by
  refine bound_claim (h := (st.hisName, old.his)) (a := old.producing) (his := old.his) hb ?_ (by rw [ho]; rfl) h1 h2 h3 h4
  unfold claim
  rw [(hb.table old.producing g n).mpr ⟨old, ho, hb.present g n old ho⟩]
  simp

theorem bound_result (st : State) (x : Call) (res : Result) (hb : Bound st) (h : x.result st = some res) : Bound res.st := by
  cases result_change h with
  | register gid name producing withdraw o q lock hm hp ht ha ho hc hl hr =>
    subst hr
    refine bound_claim (st' := _) hb hc ?_ rfl rfl rfl rfl
    rcases takeOver_his ho with ⟨h1, h2⟩ | ⟨r, h1, _, _, _, h2⟩
    · rw [h1, h2]; rfl
    · rw [h1, h2]; rfl
  | revoke gid name old hm ha ho hact how hex hr => subst hr; exact bound_same hb ho rfl rfl rfl rfl
  | reward name receive old hm ha ho ht how hne hr => subst hr; exact bound_same hb ho rfl rfl rfl rfl
  | noReward name receive hm ha hr => subst hr; exact hb
  | producing gid name addr old q hm hp ha ho hact how hc hr =>
    subst hr
    exact bound_claim hb hc (by rw [ho]; rfl) rfl rfl rfl rfl
  | withdraw name addr old hm hp ha ho hact how hne hr => subst hr; exact bound_same hb ho rfl rfl rfl rfl
  | vote gid v hm ha hact hr => subst hr; exact ⟨hb.table, hb.present⟩

/-- **C18**: over every history of calls, an address that is, or ever was, the producing address of two names of a group
is that of one name. -/
theorem producing_address_has_one_name (xs : List Call) (st : State) (hb : Bound st) (g : Nat) (n m : Name) (r r' : Reg)
    (a : Nat) (h1 : reg (runAll st xs) g n = some r) (h2 : reg (runAll st xs) g m = some r')
    (ha : a = r.producing ∨ a ∈ r.his) (ha' : a = r'.producing ∨ a ∈ r'.his) : n = m := by
  have hb' := invariant bound_result xs st hb
  have hin : a ∈ r.his := ha.elim (fun q => q ▸ hb'.present g n r h1) id
  have hin' : a ∈ r'.his := ha'.elim (fun q => q ▸ hb'.present g m r' h2) id
  have e1 := (hb'.table a g n).mpr ⟨r, h1, hin⟩
  have e2 := (hb'.table a g m).mpr ⟨r', h2, hin'⟩
  rw [e1] at e2
  exact Option.some.inj e2

/-! ### C19, C41: owners and stakes -/

theorem reg_same {st st' : State} (h : st'.regs = st.regs) (g : Nat) (n : Name) : reg st' g n = reg st g n := by
  unfold reg; rw [h]

/-- Every successful call leaves the registrations alone or writes one of them, and says how. -/
theorem result_regs {x : Call} {st : State} {res : Result} (h : x.result st = some res) :
    (res.st.regs = st.regs ∧ res.sends = [] ∧ x.amount = 0 ∧ res.mints = [] ∧
      (∀ g n, isRegister g n x.method = false ∧ isRevoke g n x.method = false)) ∨
    ∃ g n r, res.st.regs = Table.put (g, n) r st.regs ∧
      ((isRegister g n x.method = true ∧ (∀ g' n', isRegister g' n' x.method = true → g' = g ∧ n' = n) ∧
        (∀ g' n', isRevoke g' n' x.method = false) ∧ res.sends = [] ∧ res.mints = [] ∧ x.token = vite ∧
        r.amount = x.amount ∧ r.owner = x.sender ∧ r.active = true ∧
        (∃ lock, x.ctx.group g = some lock ∧ r.expiry = x.ctx.height + lock) ∧ x.amount = x.ctx.price ∧
        ∀ old, reg st g n = some old → old.active = false ∧ old.owner = x.sender) ∨
      (∃ old, isRevoke g n x.method = true ∧ (∀ g' n', isRevoke g' n' x.method = true → g' = g ∧ n' = n) ∧
        (∀ g' n', isRegister g' n' x.method = false) ∧ x.amount = 0 ∧ res.mints = [] ∧
        reg st g n = some old ∧ old.active = true ∧ old.owner = x.sender ∧ old.expiry ≤ x.ctx.height ∧
        r.amount = 0 ∧ r.owner = old.owner ∧ r.revokeTime = x.ctx.now ∧
        res.sends = (if old.amount > 0 then [⟨.call, x.sender, vite, old.amount, x.fee⟩] else [])) ∨
      (∃ old, (∀ g' n', isRegister g' n' x.method = false ∧ isRevoke g' n' x.method = false) ∧ x.amount = 0 ∧
        reg st g n = some old ∧ sent res.sends = 0 ∧ asked vite res.sends = 0 ∧
        r.amount = old.amount ∧ r.owner = old.owner ∧ r.expiry = old.expiry ∧ r.revokeTime = old.revokeTime ∧
        (x.sender = old.owner ∨ x.sender = old.withdraw ∧ r = { old with rewardTime := r.rewardTime }))) := by
  cases result_change h with
  | register gid name producing withdraw o q lock hm hp ht ha ho hc hl hr =>
    subst hr
    refine .inr ⟨gid, name, _, rfl, .inl ⟨?_, ?_, ?_, rfl, rfl, ht, rfl, rfl, rfl, ⟨lock, hl, rfl⟩, ha, ?_⟩⟩
    · rcases hm with ⟨hm, _⟩ | ⟨hm, rfl⟩ <;> simp [hm, isRegister]
    · rcases hm with ⟨hm, _⟩ | ⟨hm, rfl⟩ <;> (simp only [hm, isRegister, Bool.and_eq_true, decide_eq_true_eq]; intro g' n' q; exact ⟨q.1.symm, q.2.symm⟩)
    · rcases hm with ⟨hm, _⟩ | ⟨hm, rfl⟩ <;> simp [hm, isRevoke]
    · intro old hold
      rcases takeOver_his ho with ⟨h1, _⟩ | ⟨r, h1, h2, h3, _⟩
      · rw [hold] at h1; cases h1
      · rw [hold] at h1; cases h1; exact ⟨h2, h3⟩
  | revoke gid name old hm ha ho hact how hex hr =>
    subst hr
    refine .inr ⟨gid, name, _, rfl, .inr (.inl ⟨old, by simp [hm, isRevoke], ?_, by simp [hm, isRegister], ha, rfl, ho, hact, how, hex,
      rfl, rfl, rfl, rfl⟩)⟩
    simp only [hm, isRevoke, Bool.and_eq_true, decide_eq_true_eq]; intro g' n' q; exact ⟨q.1.symm, q.2.symm⟩
  | reward name receive old hm ha ho ht how hne hr =>
    subst hr
    refine .inr ⟨snapshotGid, name, _, rfl, .inr (.inr ⟨old, by simp [hm, isRegister, isRevoke], ha, ho, ?_, ?_, rfl, rfl, rfl, rfl, ?_⟩)⟩
    · simp only; split <;> simp [sent]
    · simp only; split <;> simp [asked]
    · exact how.imp id (fun q => ⟨q, rfl⟩)
  | noReward name receive hm ha hr =>
    subst hr
    exact .inl ⟨rfl, rfl, ha, rfl, by simp [hm, isRegister, isRevoke]⟩
  | producing gid name addr old q hm hp ha ho hact how hc hr =>
    subst hr
    exact .inr ⟨gid, name, _, rfl, .inr (.inr ⟨old, by simp [hm, isRegister, isRevoke], ha, ho, rfl, rfl, rfl, rfl, rfl, rfl, .inl how.symm⟩)⟩
  | withdraw name addr old hm hp ha ho hact how hne hr =>
    subst hr
    exact .inr ⟨snapshotGid, name, _, rfl, .inr (.inr ⟨old, by simp [hm, isRegister, isRevoke], ha, ho, rfl, rfl, rfl, rfl, rfl, rfl, .inl how.symm⟩)⟩
  | vote gid v hm ha hact hr =>
    subst hr
    refine .inl ⟨rfl, rfl, ha, rfl, ?_⟩
    rcases hm with ⟨name, hm, _⟩ | ⟨hm, _⟩ <;> simp [hm, isRegister, isRevoke]

theorem sound_result (st : State) (x : Call) (res : Result) (hs : Sound st) (h : x.result st = some res) : Sound res.st := by
  rcases result_regs h with ⟨h1, _⟩ | ⟨g, n, r, h1, h2⟩
  · exact ⟨h1 ▸ hs.proper, fun g n r hr => hs.idle g n r (by rw [← reg_same h1]; exact hr)⟩
  · refine ⟨h1 ▸ Table.proper_put _ _ hs.proper, fun g' n' r' hr' hact => ?_⟩
    rw [reg_put res.st _ _ r _ h1] at hr'
    by_cases hn : g' = g ∧ n' = n
    · simp only [hn, and_self, if_true, Option.some.injEq] at hr'
      subst hr'
      rcases h2 with ⟨_, _, _, _, _, _, _, _, q, _⟩ | ⟨old, _, _, _, _, _, _, _, _, _, q, _⟩ | ⟨old, _, _, q1, _, _, q2, _, _, q3, _⟩
      · rw [q] at hact; cases hact
      · exact q
      · rw [q2]
        refine hs.idle g n old q1 ?_
        unfold Reg.active at hact ⊢
        rw [← q3]; exact hact
    · simp only [hn, if_false] at hr'
      exact hs.idle g' n' r' hr' hact

theorem locked_put {st st' : State} {g : Nat} {n : Name} {r : Reg} (h1 : st'.regs = Table.put (g, n) r st.regs) (g' : Nat) (n' : Name) :
    locked g' n' st' = if g' = g ∧ n' = n then r.amount else locked g' n' st := by
  unfold locked
  rw [reg_put st' _ _ r _ h1]
  by_cases hn : g' = g ∧ n' = n
  · simp only [hn, and_self, if_true, Option.elim_some]
  · simp only [hn, if_false]; rfl

/-- One successful call moves the stake of a name by what it pays in or gets back. -/
theorem locked_result {x : Call} {st : State} {res : Result} (hs : Sound st) (h : x.result st = some res) (g : Nat) (n : Name) :
    locked g n st + (if isRegister g n x.method then x.amount else 0) =
      locked g n res.st + (if isRevoke g n x.method then sent res.sends else 0) := by
  rcases result_regs h with ⟨h1, _, _, _, h2⟩ | ⟨g', n', r, h1, h2⟩
  · simp only [(h2 g n).1, (h2 g n).2]
    unfold locked; rw [reg_same h1]; simp
  · rw [locked_put h1]
    by_cases hn : g = g' ∧ n = n'
    · obtain ⟨rfl, rfl⟩ := hn
      simp only [and_self, if_true]
      rcases h2 with ⟨q1, _, q3, _, _, _, q4, _, _, _, _, q5⟩ | ⟨old, q1, _, q2, _, _, q3, _, _, _, q4, _, _, q5⟩ | ⟨old, q1, _, q2, _, _, q3, _⟩
      · rw [q1, q3 g n, q4]
        have : locked g n st = 0 := by
          unfold locked
          cases hr : reg st g n with
          | none => rfl
          | some old => exact hs.idle g n old hr (q5 old hr).1
        simp [this]
      · rw [q1, q2 g n, q4, q5]
        unfold locked
        rw [q3]
        by_cases ha : old.amount > 0
        · simp [ha, sent]
        · simp [ha, sent]; omega
      · rw [(q1 g n).1, (q1 g n).2, q3]
        unfold locked; rw [q2]; simp
    · simp only [hn, if_false]
      rcases h2 with ⟨_, q2, q3, _⟩ | ⟨old, _, q2, q3, _⟩ | ⟨old, q1, _⟩
      · have : isRegister g n x.method = false := by
          cases hb : isRegister g n x.method with
          | false => rfl
          | true => exact absurd (q2 g n hb) hn
        rw [this, q3 g n]; simp
      · have : isRevoke g n x.method = false := by
          cases hb : isRevoke g n x.method with
          | false => rfl
          | true => exact absurd (q2 g n hb) hn
        rw [this, q3 g n]; simp
      · rw [(q1 g n).1, (q1 g n).2]; simp

/-- **C19**: over every history, what was paid for a name is what was sent back for it and what it still holds: no stake
is returned twice, and none is lost. -/
theorem stakes_returned_once (g : Nat) (n : Name) : ∀ (xs : List Call) (st : State), Sound st →
    locked g n st + paidIn g n st xs = locked g n (runAll st xs) + paidBack g n st xs
  | [], st, _ => by simp [paidIn, paidBack, sumCalls, runAll]
  | x :: xs, st, hs => by
    have key : Sound (apply st x) ∧ locked g n st + (x.result st).elim 0 (fun _ => if isRegister g n x.method then x.amount else 0) =
        locked g n (apply st x) + (x.result st).elim 0 (fun res => if isRevoke g n x.method then sent res.sends else 0) := by
      cases hr : x.result st with
      | none => rw [apply_none hr]; exact ⟨hs, rfl⟩
      | some res =>
        rw [apply_some hr]
        exact ⟨sound_result st x res hs hr, locked_result hs hr g n⟩
    have ih := stakes_returned_once g n xs (apply st x) key.1
    have e : runAll st (x :: xs) = runAll (apply st x) xs := rfl
    unfold paidIn paidBack at ih ⊢
    simp only [sumCalls, e]
    have := key.2
    omega

/-- **C19**: a revoke succeeds only on an active registration, for its owner, after its lock, and sends the owner the
stake and nothing to anybody else. -/
theorem revoke_needs {x : Call} {st : State} {res : Result} {g : Nat} {n : Name} (h : x.result st = some res)
    (hm : isRevoke g n x.method = true) :
    ∃ old, reg st g n = some old ∧ old.active = true ∧ old.owner = x.sender ∧ old.expiry ≤ x.ctx.height ∧
      sentTo old.owner res.sends = old.amount ∧ sent res.sends = old.amount ∧ locked g n res.st = 0 := by
  rcases result_regs h with ⟨_, _, _, _, h2⟩ | ⟨g', n', r, h1, h2⟩
  · rw [(h2 g n).2] at hm; cases hm
  · rcases h2 with ⟨_, _, q, _⟩ | ⟨old, _, q2, _, _, _, q3, q4, q5, q6, q7, _, _, q8⟩ | ⟨old, q, _⟩
    · rw [q g n] at hm; cases hm
    · obtain ⟨rfl, rfl⟩ := q2 g n hm
      refine ⟨old, q3, q4, q5, q6, ?_, ?_, ?_⟩
      · rw [q8, q5]
        by_cases ha : old.amount > 0
        · simp [ha, sentTo]
        · simp [ha, sentTo]; omega
      · rw [q8]
        by_cases ha : old.amount > 0
        · simp [ha, sent]
        · simp [ha, sent]; omega
      · rw [locked_put h1]; simp [q7]
    · rw [(q g n).2] at hm; cases hm

/-- **C19**: only a revoke sends VITE out: no other call of the contract pays anybody. -/
theorem only_revoke_pays {x : Call} {st : State} {res : Result} (h : x.result st = some res)
    (hm : ∀ g n, isRevoke g n x.method = false) : sent res.sends = 0 := by
  rcases result_regs h with ⟨_, q, _⟩ | ⟨g', n', r, h1, h2⟩
  · rw [q]; rfl
  · rcases h2 with ⟨_, _, _, q, _⟩ | ⟨old, q, _⟩ | ⟨old, _, _, _, q, _⟩
    · rw [q]; rfl
    · rw [hm g' n'] at q; cases q
    · exact q

/-- **C19**: the owner of an active registration whose lock is over gets the stake back by asking. -/
theorem expired_stake_can_be_revoked {st : State} {g : Nat} {n : Name} {old : Reg} (c : Ctx) (fee : Option Nat) (token : Nat)
    (hr : reg st g n = some old) (hact : old.active = true) (hex : old.expiry ≤ c.height) (hp : checkParam g n = true) :
    ∃ res, (Call.mk c old.owner token 0 fee (.revoke g n)).result st = some res ∧ sentTo old.owner res.sends = old.amount := by
  have hr' : Table.get (g, n) st.regs = some old := hr
  have hc : ¬ (old.active = false ∨ old.owner ≠ old.owner ∨ old.expiry > c.height) := by
    rw [hact]; simp; omega
  refine ⟨_, by simp only [Call.result, doSend, hp, decide_true, Bool.and_self, if_true, doReceive, revoke, hr', hc, if_false]; rfl, ?_⟩
  by_cases ha : old.amount > 0
  · simp [ha, sentTo]
  · simp [ha, sentTo]; omega

/-- **C19**: after a revoke at a time other than zero, further revokes fail. -/
theorem second_revoke_fails {x y : Call} {st : State} {res : Result} {g : Nat} {n : Name} (h : x.result st = some res)
    (hm : isRevoke g n x.method = true) (hm' : isRevoke g n y.method = true) (ht : x.ctx.now ≠ 0) : y.result res.st = none := by
  cases hy : y.result res.st with
  | none => rfl
  | some res' =>
    obtain ⟨old, h1, h2, _⟩ := revoke_needs hy hm'
    rcases result_regs h with ⟨_, _, _, _, q⟩ | ⟨g', n', r, q1, q2⟩
    · rw [(q g n).2] at hm; cases hm
    · rcases q2 with ⟨_, _, q, _⟩ | ⟨old', _, p2, _, _, _, _, _, _, _, _, _, p3, _⟩ | ⟨old', q, _⟩
      · rw [q g n] at hm; cases hm
      · obtain ⟨rfl, rfl⟩ := p2 g n hm
        rw [reg_put res.st _ _ r _ q1] at h1
        simp only [and_self, if_true, Option.some.injEq] at h1
        subst h1
        unfold Reg.active at h2
        rw [p3] at h2
        simp only [beq_iff_eq] at h2
        exact absurd h2 ht
      · rw [(q g n).2] at hm; cases hm

/-- **C19**: a registration lasts until the lock of its group is over: the lock is set by the registration and not moved
by any other call but the revoke. -/
theorem lock_is_set {x : Call} {st : State} {res : Result} {g : Nat} {n : Name} (h : x.result st = some res)
    (hm : isRegister g n x.method = true) :
    ∃ r lock, x.ctx.group g = some lock ∧ reg res.st g n = some r ∧ r.expiry = x.ctx.height + lock ∧ r.active = true ∧
      r.owner = x.sender ∧ r.amount = x.ctx.price := by
  rcases result_regs h with ⟨_, _, _, _, h2⟩ | ⟨g', n', r, h1, h2⟩
  · rw [(h2 g n).1] at hm; cases hm
  · rcases h2 with ⟨_, q2, _, _, _, _, q3, q4, q5, ⟨lock, q6, q7⟩, q8, _⟩ | ⟨old, _, _, q, _⟩ | ⟨old, q, _⟩
    · obtain ⟨rfl, rfl⟩ := q2 g n hm
      refine ⟨r, lock, q6, ?_, q7, q5, q4, q3.trans q8⟩
      rw [reg_put res.st _ _ r _ h1]; simp
    · rw [q g n] at hm; cases hm
    · rw [(q g n).1] at hm; cases hm

theorem lock_is_kept {x : Call} {st : State} {res : Result} {g : Nat} {n : Name} {r : Reg} (h : x.result st = some res)
    (hr : reg st g n = some r) (hm : isRevoke g n x.method = false) (hact : r.active = true) :
    ∃ r', reg res.st g n = some r' ∧ r'.expiry = r.expiry ∧ r'.active = true ∧ r'.amount = r.amount := by
  rcases result_regs h with ⟨h1, _⟩ | ⟨g', n', r', h1, h2⟩
  · exact ⟨r, by rw [reg_same h1]; exact hr, rfl, hact, rfl⟩
  · rw [reg_put res.st _ _ r' _ h1]
    by_cases hn : g = g' ∧ n = n'
    · obtain ⟨rfl, rfl⟩ := hn
      simp only [and_self, if_true, Option.some.injEq, exists_eq_left']
      rcases h2 with ⟨_, _, _, _, _, _, _, _, _, _, _, q⟩ | ⟨old, q, _⟩ | ⟨old, _, _, q2, _, _, q3, _, q4, q5, _⟩
      · rw [(q r hr).1] at hact; cases hact
      · rw [hm] at q; cases q
      · rw [hr] at q2; cases q2
        refine ⟨q4, ?_, q3⟩
        unfold Reg.active at hact ⊢; rw [q5]; exact hact
    · simp only [hn, if_false]
      exact ⟨r, hr, rfl, hact, rfl⟩

/-- **C41**: the owner of a name is whoever registered it first, forever. -/
theorem owner_is_forever : ∀ (xs : List Call) (st : State) (g : Nat) (n : Name) (r : Reg), reg st g n = some r →
    ∃ r', reg (runAll st xs) g n = some r' ∧ r'.owner = r.owner
  | [], st, g, n, r, h => ⟨r, h, rfl⟩
  | x :: xs, st, g, n, r, h => by
    have key : ∃ r', reg (apply st x) g n = some r' ∧ r'.owner = r.owner := by
      cases hr : x.result st with
      | none => rw [apply_none hr]; exact ⟨r, h, rfl⟩
      | some res =>
        rw [apply_some hr]
        rcases result_regs hr with ⟨h1, _⟩ | ⟨g', n', r', h1, h2⟩
        · exact ⟨r, by rw [reg_same h1]; exact h, rfl⟩
        · rw [reg_put res.st _ _ r' _ h1]
          by_cases hn : g = g' ∧ n = n'
          · obtain ⟨rfl, rfl⟩ := hn
            simp only [and_self, if_true, Option.some.injEq, exists_eq_left']
            rcases h2 with ⟨_, _, _, _, _, _, _, q1, _, _, _, q⟩ | ⟨old, _, _, _, _, _, q1, _, _, _, _, q2, _⟩ | ⟨old, _, _, q1, _, _, _, q2, _⟩
            · rw [q1, (q r h).2]
            · rw [h] at q1; cases q1; exact q2
            · rw [h] at q1; cases q1; exact q2
          · simp only [hn, if_false]
            exact ⟨r, h, rfl⟩
    obtain ⟨r', h1, h2⟩ := key
    obtain ⟨r'', h3, h4⟩ := owner_is_forever xs (apply st x) g n r' h1
    exact ⟨r'', h3, h4.trans h2⟩

/-- **C41**: a call of anybody but the owner and the withdraw address leaves a registration as it is; a call of the
withdraw address changes at most the time up to which the reward is paid. -/
theorem only_owner_manages (x : Call) (st : State) (g : Nat) (n : Name) (r : Reg) (h : reg st g n = some r)
    (ho : x.sender ≠ r.owner) :
    ∃ t, reg (apply st x) g n = some { r with rewardTime := t } ∧ (x.sender ≠ r.withdraw → t = r.rewardTime) := by
  cases hr : x.result st with
  | none => rw [apply_none hr]; exact ⟨r.rewardTime, h, fun _ => rfl⟩
  | some res =>
    rw [apply_some hr]
    rcases result_regs hr with ⟨h1, _⟩ | ⟨g', n', r', h1, h2⟩
    · exact ⟨r.rewardTime, by rw [reg_same h1]; exact h, fun _ => rfl⟩
    · rw [reg_put res.st _ _ r' _ h1]
      by_cases hn : g = g' ∧ n = n'
      · obtain ⟨rfl, rfl⟩ := hn
        simp only [and_self, if_true, Option.some.injEq]
        rcases h2 with ⟨_, _, _, _, _, _, _, _, _, _, _, q⟩ | ⟨old, _, _, _, _, _, q1, _, q2, _⟩ | ⟨old, _, _, q1, _, _, _, _, _, _, q3⟩
        · exact absurd (q r h).2.symm ho
        · rw [h] at q1; cases q1; exact absurd q2.symm ho
        · rw [h] at q1; cases q1
          rcases q3 with q | ⟨q, q'⟩
          · exact absurd q ho
          · exact ⟨r'.rewardTime, q', fun w => absurd q w⟩
      · simp only [hn, if_false]
        exact ⟨r.rewardTime, h, fun _ => rfl⟩

/-- **C41**: nobody changes the vote of another. -/
theorem only_voter_votes (x : Call) (st : State) (a g : Nat) (ho : x.sender ≠ a) : (apply st x).votes a g = st.votes a g := by
  cases hr : x.result st with
  | none => rw [apply_none hr]
  | some res =>
    rw [apply_some hr]
    cases result_change hr with
    | vote gid v hm ha hact hr =>
      subst hr
      have : ¬ (a = x.sender ∧ g = gid) := fun q => ho q.1.symm
      simp only [upd2, this, if_false]
    | register gid name producing withdraw o q lock hm hp ht ha ho hc hl hr => subst hr; rfl
    | revoke gid name old hm ha ho hact how hex hr => subst hr; rfl
    | reward name receive old hm ha ho ht how hne hr => subst hr; rfl
    | noReward name receive hm ha hr => subst hr; rfl
    | producing gid name addr old q hm hp ha ho hact how hc hr => subst hr; rfl
    | withdraw name addr old hm hp ha ho hact how hne hr => subst hr; rfl

/-- **C41**: a vote that succeeds is for an active name, and is what the voter asked for. -/
theorem vote_counts {x : Call} {st : State} {res : Result} {g : Nat} {n : Name} (h : x.result st = some res)
    (hm : x.method = .vote g n) : res.st.votes x.sender g = some n ∧ ∃ r, reg st g n = some r ∧ r.active = true := by
  cases result_change h with
  | vote gid v hm' ha hact hr =>
    subst hr
    rcases hm' with ⟨name, h1, rfl⟩ | ⟨h1, _⟩
    · rw [hm] at h1; cases h1
      refine ⟨by simp [upd2], ?_⟩
      have := hact n rfl
      unfold isActive at this
      cases hr : Table.get (g, n) st.regs with
      | none => simp [hr] at this
      | some r => rw [hr] at this; exact ⟨r, hr, this⟩
    · rw [hm] at h1; cases h1
  | register gid name producing withdraw o q lock hm' hp ht ha ho hc hl hr => rcases hm' with ⟨q, _⟩ | ⟨q, _⟩ <;> simp [hm] at q
  | revoke gid name old hm' ha ho hact how hex hr => simp [hm] at hm'
  | reward name receive old hm' ha ho ht how hne hr => simp [hm] at hm'
  | noReward name receive hm' ha hr => simp [hm] at hm'
  | producing gid name addr old q hm' hp ha ho hact how hc hr => simp [hm] at hm'
  | withdraw name addr old hm' hp ha ho hact how hne hr => simp [hm] at hm'

theorem vote_cancelled {x : Call} {st : State} {res : Result} {g : Nat} (h : x.result st = some res)
    (hm : x.method = .cancelVote g) : res.st.votes x.sender g = none := by
  cases result_change h with
  | vote gid v hm' ha hact hr =>
    subst hr
    rcases hm' with ⟨name, h1, rfl⟩ | ⟨h1, rfl⟩
    · rw [hm] at h1; cases h1
    · rw [hm] at h1; cases h1; simp [upd2]
  | register gid name producing withdraw o q lock hm' hp ht ha ho hc hl hr => rcases hm' with ⟨q, _⟩ | ⟨q, _⟩ <;> simp [hm] at q
  | revoke gid name old hm' ha ho hact how hex hr => simp [hm] at hm'
  | reward name receive old hm' ha ho ht how hne hr => simp [hm] at hm'
  | noReward name receive hm' ha hr => simp [hm] at hm'
  | producing gid name addr old q hm' hp ha ho hact how hc hr => simp [hm] at hm'
  | withdraw name addr old hm' hp ha ho hact how hne hr => simp [hm] at hm'

/-! ### The contract inside the ledger -/

variable {E : Type}

/-- Every step is genuine and nobody else touches the contract's account. -/
def GenuineRun (e : Env) : Ledger (State × E) → List (Step (State × E)) → Prop
  | _, [] => True
  | L, x :: xs => (Genuine L x ∧ Closed governanceAddr L x) ∧ GenuineRun e (step e L x) xs

/-- One block: the contract's funds stay ahead of the stakes. -/
theorem backed_step (e : Env) (L : Ledger (State × E)) (x : Step (State × E)) (hg : Genuine L x)
    (hcl : Closed governanceAddr L x) (hs : Sound (storage L)) :
    (∃ xs, storage (step e L x) = runAll (storage L) xs) ∧
      funds L - allLocked (storage L) ≤ funds (step e L x) - allLocked (storage (step e L x)) := by
  rcases contract_step e governanceAddr L x hcl with ⟨h1, h2⟩ | ⟨i, s, data, burn, sends, fee, cb, b, ss, hx, hi, hd, hr, hL⟩
  · unfold storage funds
    rw [h1]
    refine ⟨⟨[], rfl⟩, ?_⟩
    have := h2 vite
    omega
  · subst hx
    obtain ⟨x, res, g1, g2, g3, g4, g5, g6⟩ := hg s hi hd data burn sends fee cb rfl
    have hst : storage (step e L (.recv i (.done data burn sends fee cb))) = res.st := by
      rw [hL]; simp [storage, g5]
    have hfu := runBody_balance (by decide) hr ((hcl s hi hd).2.2 data burn sends fee cb rfl) vite
    have hfu' : funds (step e L (.recv i (.done data burn sends fee cb))) = getBal governanceAddr vite b := by
      rw [hL]; rfl
    rw [hst, hfu', hfu]
    refine ⟨⟨[x], (apply_some g4).symm⟩, ?_⟩
    have g4' : x.result (storage L) = some res := g4
    have hsum : (allLocked res.st : Int) + asked vite sends = allLocked (storage L) + x.amount := by
      rw [g6]
      unfold allLocked
      rcases result_regs g4' with ⟨q1, q2, q3, _⟩ | ⟨g, n, r, q1, q2⟩
      · rw [q1, q2, q3]; simp [asked]
      · have ht := Table.total_put (fun _ (r : Reg) => r.amount) (g, n) r (storage L).regs
        rw [q1]
        rcases q2 with ⟨_, _, _, p1, _, _, p2, _, _, _, _, p3⟩ | ⟨old, _, _, _, p1, _, p2, _, _, _, p3, _, _, p4⟩ | ⟨old, _, p1, p2, _, p3, p4, _⟩
        · have : (Table.get (g, n) (storage L).regs).elim 0 (fun r => r.amount) = 0 := by
            cases hr : Table.get (g, n) (storage L).regs with
            | none => rfl
            | some old => exact hs.idle g n old hr (p3 old hr).1
          rw [this] at ht
          rw [p1]
          simp only [asked, List.map_nil, List.sum_nil]
          omega
        · have p2' : Table.get (g, n) (storage L).regs = some old := p2
          rw [p2'] at ht
          simp only [Option.elim_some] at ht
          have : asked vite res.sends = (old.amount : Int) := by
            rw [p4]
            by_cases ha : old.amount > 0
            · simp [ha, asked]
            · simp [ha, asked]; omega
          rw [this]
          omega
        · have p2' : Table.get (g, n) (storage L).regs = some old := p2
          rw [p2'] at ht
          simp only [Option.elim_some] at ht
          rw [p3]
          omega
    have hin : (x.amount : Int) = (if s.token = vite then (s.amount : Int) else 0) := by
      rw [← g3, ← g2]
      by_cases ht : x.token = vite
      · simp [ht]
      · have : x.amount = 0 := by
          rcases result_regs g4' with ⟨_, _, q3, _⟩ | ⟨g, n, r, q1, q2⟩
          · exact q3
          · rcases q2 with ⟨_, _, _, _, _, p, _⟩ | ⟨old, _, _, _, p1, _⟩ | ⟨old, _, p1, _⟩
            · exact absurd p ht
            · exact p1
            · exact p1
        simp [this]
    unfold funds
    omega

/-- **C19**: over every history of the ledger, the contract's storage is that of a history of calls, and its VITE covers
all registration stakes. -/
theorem registration_stakes_backed (e : Env) : ∀ (ys : List (Step (State × E))) (L : Ledger (State × E)),
    GenuineRun e L ys → Sound (storage L) → (allLocked (storage L) : Int) ≤ funds L →
    (∃ xs, storage (run e L ys) = runAll (storage L) xs) ∧ (allLocked (storage (run e L ys)) : Int) ≤ funds (run e L ys)
  | [], L, _, _, h2 => ⟨⟨[], rfl⟩, h2⟩
  | y :: ys, L, ⟨⟨g1, g2⟩, g3⟩, h1, h2 => by
    obtain ⟨⟨xs, q1⟩, q2⟩ := backed_step e L y g1 g2 h1
    obtain ⟨⟨xs', q3⟩, q4⟩ := registration_stakes_backed e ys (step e L y) g3
      (q1 ▸ invariant sound_result xs _ h1) (by omega)
    refine ⟨⟨xs ++ xs', ?_⟩, q4⟩
    have : run e L (y :: ys) = run e (step e L y) ys := rfl
    rw [this, q3, q1]
    simp [runAll, List.foldl_append]

/-- **C18** in the ledger: no two names share a producing address, in any reachable state. -/
theorem ledger_producing_address_has_one_name (e : Env) (ys : List (Step (State × E))) (L : Ledger (State × E))
    (hg : GenuineRun e L ys) (hs : Sound (storage L)) (hf : (allLocked (storage L) : Int) ≤ funds L) (hb : Bound (storage L))
    (g : Nat) (n m : Name) (r r' : Reg) (h1 : reg (storage (run e L ys)) g n = some r)
    (h2 : reg (storage (run e L ys)) g m = some r') (ha : r.producing = r'.producing) : n = m := by
  obtain ⟨⟨xs, h⟩, _⟩ := registration_stakes_backed e ys L hg hs hf
  rw [h] at h1 h2
  exact producing_address_has_one_name xs _ hb g n m r r' r.producing h1 h2 (.inl rfl) (.inl ha)

end Verif.Builtin.Gov
