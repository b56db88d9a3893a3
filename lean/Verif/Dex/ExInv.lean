import Verif.Dex.ExLemmas
import Verif.Dex.FundProps

/-! The invariant of the exchange with periods. -/

namespace Verif.Dex
open Spec

/-- VX being unlocked for an address. -/
def Ex.unlocking (s : Ex) (a : Nat) : Nat := (getAcct a vxToken s.core.funds).vxUnlocking

/-- Stakes of an address being cancelled. -/
def Ex.cancelling (s : Ex) (a : Nat) : Nat := (getAcct a viteToken s.core.funds).cancellingStake

/-- The makers' pools. -/
def Ex.makerSum (s : Ex) : Nat := Table.total (fun _ n => n) s.maker

/-- Locked VX agrees with its records, from the period after the last dividend on. -/
def VxOk (s : Ex) : Prop :=
  ∃ lo, ShareInv vxDividendThreshold s.now lo s.vx s.vxSum s.vxOf s.pastVx ∧ lo ≤ s.jobs .dividend + 1 ∧ (s.jobs .dividend = 0 → lo = 0)

/-- The same for stakes. -/
def StkOk (s : Ex) : Prop :=
  ∃ lo, ShareInv miningThreshold s.now lo s.stk s.stkSum s.staked s.pastStk ∧ lo ≤ s.jobs .mineStaking + 1 ∧
    (s.jobs .mineStaking = 0 → lo = 0)

/-- The money, without the parts that only some steps touch. -/
structure Books (mk : Nat → Option MarketInfo) (s : Ex) : Prop where
  core : Inv mk s.core
  fee : ∃ newer older, FeeInv s.now newer older s.fees
  roll : s.lastRoll = s.now
  pool : ∀ t, feesHeld s.now t s.fees = s.core.dividendPool t
  op : ∀ t, opSum t s.opFees = s.core.operatorPool t
  books : ∀ t, s.received t + s.core.withdrawn t =
    s.sent t + s.core.deposited t + if t = vxToken then s.vxPool + s.makerSum else 0

/-- The makers' pools: one per job. -/
structure MakerOk (s : Ex) : Prop where
  proper : Table.Proper s.maker
  upto : ∀ x ∈ s.maker, x.1 ≤ s.jobs .mineMaker
  empty : s.jobs .mineMaker = 0 → s.maker = []

/-- The stakes by id. -/
structure StakesOk (s : Ex) : Prop where
  proper : Table.Proper s.stakes
  staked : ∀ a, s.staked a = stakesOf a s.stakes
  owners : ∀ x ∈ s.stakes, hasAcct x.2.owner viteToken s.core.funds = true ∧ x.2.kind.amountOk x.2.amount = true

/-- The VIP records list the confirmed stakes behind them. -/
structure VipsOk (stakes : Table Nat Deleg) (vips : Table (Bool × Nat) (List Nat)) : Prop where
  proper : Table.Proper vips
  lists : ∀ key ids, Table.get key vips = some ids → ids ≠ [] ∧ ids.Nodup
  ids : ∀ key id, id ∈ (Table.get key vips).getD [] ↔ ∃ d, Table.get id stakes = some d ∧ d.confirmed = true ∧ d.vipKey = some key

structure ExInv (mk : Nat → Option MarketInfo) (s : Ex) : Prop where
  books : Books mk s
  vx : VxOk s
  stk : StkOk s
  unlocks : SchedInv s.now (s.jobs .finishUnlock) s.unlocks s.unlockLog s.unlocking
  cancels : SchedInv s.now (s.jobs .finishCancel) s.cancels s.cancelLog s.cancelling
  stakes : StakesOk s
  maker : MakerOk s
  jobs : ∀ b, s.jobs b < s.now
  vips : VipsOk s.stakes s.vips

/-- Blocks the theorems speak of. Before upgrade V11 an expired order listed twice is paid back twice; and a makers' job for
period 0 can be run again and again (`period_zero_maker_job_repeats`). -/
def Allowed (f : Forks) : ExOp → Prop
  | .core _ op => f.v11 = true ∨ NoRepeats op
  | .job (.mineMaker ..) P => 1 ≤ P
  | _ => True

theorem ExInv.init (mk : Nat → Option MarketInfo) {n : Nat} (hn : 1 ≤ n) : ExInv mk (Ex.init n) where
  books := by
    refine ⟨Inv.init mk, ⟨[n], [], ?_⟩, rfl, ?_, fun _ => rfl, ?_⟩
    · refine ⟨by simp [Ex.init, Table.Proper], ?_, by simp, by simp; omega, rfl, ?_, ?_⟩
      · intro p r h
        simp only [Ex.init, Table.get] at h
        split at h
        · rename_i e; simp [e]
        · simp at h
      · simp [Linked, Ex.init, Table.get]
      · exact ⟨by simp [Ex.init, Table.get], by simp⟩
    · intro t
      simp [Ex.init, feesHeld, Table.total, recHolds, poolSum, Sys.init]
    · intro t; simp [Ex.init, Ex.makerSum, Table.total, Sys.init]
  vx := ⟨0, ShareInv.init _ n hn, by omega, fun _ => rfl⟩
  stk := ⟨0, ShareInv.init _ n hn, by omega, fun _ => rfl⟩
  unlocks := SchedInv.init _ _
  cancels := SchedInv.init _ _
  stakes := ⟨by simp [Ex.init, Table.Proper], fun _ => rfl, by simp [Ex.init]⟩
  maker := ⟨by simp [Ex.init, Table.Proper], by simp [Ex.init], fun _ => rfl⟩
  jobs := fun _ => hn
  vips := ⟨by simp [Ex.init, Table.Proper], by simp [Ex.init, Table.get], by simp [Ex.init, Table.get]⟩

/-! ### Steps that leave VX, stakes and schedules alone -/

theorem ExInv.same {mk : Nat → Option MarketInfo} {s : Ex} (I : ExInv mk s) {c : Sys} {fees : Table Nat FeeRec} {lr : Nat}
    {ops : List OpFee} {rc se : Nat → Nat} {vp : Nat} (S : Same s.core.funds c.funds)
    (B : Books mk { s with core := c, fees := fees, lastRoll := lr, opFees := ops, received := rc, sent := se, vxPool := vp }) :
    ExInv mk { s with core := c, fees := fees, lastRoll := lr, opFees := ops, received := rc, sent := se, vxPool := vp } where
  books := B
  vx := by
    obtain ⟨lo, h, h'⟩ := I.vx
    have : s.vxOf = fun a => (getAcct a vxToken c.funds).vxLocked := funext fun a => (S.vx a vxToken).symm
    refine ⟨lo, ?_, h'⟩
    show ShareInv _ _ _ _ _ (fun a => (getAcct a vxToken c.funds).vxLocked) _
    rw [← this]; exact h
  stk := I.stk
  unlocks := I.unlocks.amt (fun a => S.un a vxToken)
  cancels := I.cancels.amt (fun a => S.ca a viteToken)
  stakes := ⟨I.stakes.proper, I.stakes.staked, fun x hx => ⟨S.has _ _ (I.stakes.owners x hx).1, (I.stakes.owners x hx).2⟩⟩
  maker := ⟨I.maker.proper, I.maker.upto, I.maker.empty⟩
  jobs := I.jobs
  vips := I.vips

/-- The counters of the core are left alone by most operations. -/
def quiet : Op → Bool
  | .transfer _ _ _ _ => true
  | .place _ => true
  | .receiveOrder _ _ => true
  | .placeFailed _ => true
  | .cancel _ _ => true
  | .clearExpired _ _ => true
  | _ => false

theorem quiet_counters (f : Forks) (mk : Nat → Option MarketInfo) (s : Sys) (op : Op) (h : quiet op = true) :
    (step f mk s op).dividendPool = s.dividendPool ∧ (step f mk s op).operatorPool = s.operatorPool ∧
      (step f mk s op).deposited = s.deposited ∧ (step f mk s op).withdrawn = s.withdrawn := by
  cases op <;> simp [quiet] at h
  all_goals
    unfold step
    simp only
    repeat' split
    all_goals exact ⟨rfl, rfl, rfl, rfl⟩

theorem opSum_append (t : Nat) (l l' : List OpFee) : opSum t (l ++ l') = opSum t l + opSum t l' := by simp [opSum]

theorem ExInv.addFee {mk : Nat → Option MarketInfo} {s : Ex} (I : ExInv mk s) {c : Sys} {ops : List OpFee} (S : Same s.core.funds c.funds)
    (hc : Inv mk c) (t n : Nat) (hd : c.dividendPool = bump s.core.dividendPool t n) (ho : ∀ u, opSum u ops = c.operatorPool u)
    (hde : c.deposited = s.core.deposited) (hwi : c.withdrawn = s.core.withdrawn) :
    ExInv mk ((Ex.addFee { s with core := c, opFees := ops } t n).getD s) := by
  obtain ⟨nw, ol, hfee⟩ := I.books.fee
  obtain ⟨fees', e, h1, h2⟩ := hfee.addFee s.lastRoll t n
  unfold Ex.addFee
  simp only [e, Option.map_some, Option.getD_some]
  refine I.same (rc := s.received) (se := s.sent) (vp := s.vxPool) S ?_
  refine ⟨hc, ⟨nw, ol, h1⟩, I.books.roll, ?_, ho, ?_⟩
  · intro u
    simp only
    rw [h2, I.books.pool, hd, bump_apply]
  · intro u
    have := I.books.books u
    simp only [hde, hwi]
    exact this

theorem coreStep_inv {f : Forks} (hf : f.dexFee = true) {mk : Nat → Option MarketInfo} (hmk : MarketsOk mk) {s : Ex} (I : ExInv mk s)
    (owner : Nat) (op : Op) (hop : f.v11 = true ∨ NoRepeats op) : ExInv mk (s.coreStep f mk owner op) := by
  have hq : quiet op = true → ExInv mk { s with core := step f mk s.core op } := by
    intro h
    have hp : plain op = true := by cases op <;> first | rfl | simp [quiet] at h
    obtain ⟨q1, q2, q3, q4⟩ := quiet_counters f mk s.core op h
    refine I.same (fees := s.fees) (lr := s.lastRoll) (ops := s.opFees) (rc := s.received) (se := s.sent) (vp := s.vxPool)
      (core_same f mk s.core op hp) ?_
    refine ⟨step_inv hf hmk I.books.core op hop, I.books.fee, I.books.roll, ?_, ?_, ?_⟩
    · intro t; simp only [q1]; exact I.books.pool t
    · intro t; simp only [q2]; exact I.books.op t
    · intro t; simp only [q3, q4]; exact I.books.books t
  cases op with
  | lockVx => exact I
  | unlockVx => exact I
  | finishUnlock => exact I
  | transfer => exact hq rfl
  | place => exact hq rfl
  | receiveOrder => exact hq rfl
  | placeFailed => exact hq rfl
  | cancel => exact hq rfl
  | clearExpired => exact hq rfl
  | deposit a t n =>
    refine I.same (fees := s.fees) (lr := s.lastRoll) (ops := s.opFees) (se := s.sent) (vp := s.vxPool)
      (core_same f mk s.core (.deposit a t n) rfl) ?_
    refine ⟨step_inv hf hmk I.books.core _ hop, I.books.fee, I.books.roll, I.books.pool, I.books.op, ?_⟩
    intro u
    have := I.books.books u
    simp only [step, bump_apply] at this ⊢
    simp only [Ex.makerSum] at this ⊢
    omega
  | withdraw a t n =>
    unfold Ex.coreStep
    simp only
    split
    · exact I
    · rename_i fs' hr
      refine I.same (fees := s.fees) (lr := s.lastRoll) (ops := s.opFees) (rc := s.received) (vp := s.vxPool)
        (core_same f mk s.core (.withdraw a t n) rfl) ?_
      have hs : step f mk s.core (.withdraw a t n) = { s.core with funds := fs', withdrawn := bump s.core.withdrawn t n } := by
        simp [step, hr]
      refine ⟨step_inv hf hmk I.books.core _ hop, I.books.fee, I.books.roll, ?_, ?_, ?_⟩
      · intro u; simp only [hs]; exact I.books.pool u
      · intro u; simp only [hs]; exact I.books.op u
      · intro u
        have := I.books.books u
        simp only [hs, bump_apply, Ex.makerSum] at this ⊢
        omega
  | payFee a n =>
    unfold Ex.coreStep
    simp only
    split
    · exact I
    · rename_i fs' hr
      have hs : step f mk s.core (.payFee a n) = { s.core with funds := fs', dividendPool := bump s.core.dividendPool viteToken n } := by
        simp [step, hr]
      refine I.addFee (ops := s.opFees) (core_same f mk s.core (.payFee a n) rfl) (step_inv hf hmk I.books.core _ hop) viteToken n ?_ ?_ ?_ ?_
      · rw [hs]
      · intro u; rw [hs]; exact I.books.op u
      · rw [hs]
      · rw [hs]
  | settle i =>
    unfold Ex.coreStep
    simp only
    split
    · exact I
    · rename_i m hm
      have hs : step f mk s.core (.settle i) = settleMsg s.core (s.core.msgs.eraseIdx i) m := by simp [step, hm]
      split
      · rename_i hfe
        refine I.same (fees := s.fees) (lr := s.lastRoll) (ops := s.opFees) (rc := s.received) (se := s.sent) (vp := s.vxPool)
          (core_same f mk s.core (.settle i) rfl) ?_
        refine ⟨step_inv hf hmk I.books.core _ hop, I.books.fee, I.books.roll, ?_, ?_, ?_⟩
        · intro u; simp only [hs, settleMsg, hfe, bump_apply]; simp [baseFees]; exact I.books.pool u
        · intro u; simp only [hs, settleMsg, hfe, bump_apply]; simp [operatorFees]; exact I.books.op u
        · intro u; simp only [hs, settleMsg]; exact I.books.books u
      · refine I.addFee (core_same f mk s.core (.settle i) rfl) (step_inv hf hmk I.books.core _ hop) _ _ ?_ ?_ ?_ ?_
        · rw [hs]; rfl
        · intro u
          rw [hs, opSum_append, I.books.op]
          simp only [settleMsg, bump_apply]
          simp only [opSum, List.map_cons, List.map_nil, List.sum_cons, List.sum_nil]
          split
          · rename_i e; subst e; simp
          · rename_i e; rw [if_neg (fun h => e h.symm)]; rfl
        · rw [hs]; rfl
        · rw [hs]; rfl

/-! ### Time -/

theorem Books.changeShares {mk : Nat → Option MarketInfo} {s : Ex} (B : Books mk s) {x : Table Nat Hist} {y : Hist} {z : Nat → Nat → Nat} :
    Books mk { s with vx := x, vxSum := y, pastVx := z } := ⟨B.core, B.fee, B.roll, B.pool, B.op, B.books⟩

theorem tick_inv {mk : Nat → Option MarketInfo} {s : Ex} (I : ExInv mk s) (n : Nat) : ExInv mk (s.tick n) := by
  unfold Ex.tick
  split
  · exact I
  · rename_i hn
    have hle : s.now ≤ n := by omega
    obtain ⟨nw, ol, hfee⟩ := I.books.fee
    obtain ⟨fees', e, h1, h2⟩ := hfee.roll (new := n) (by omega)
    rw [I.books.roll, e]
    simp only [Option.map_some, Option.getD_some]
    refine ⟨⟨I.books.core, ⟨_, _, h1⟩, rfl, ?_, I.books.op, I.books.books⟩, ?_, ?_, I.unlocks.advance hle, I.cancels.advance hle,
      ⟨I.stakes.proper, I.stakes.staked, I.stakes.owners⟩, ⟨I.maker.proper, I.maker.upto, I.maker.empty⟩, ?_, I.vips⟩
    · intro t; rw [← I.books.pool t]; exact h2 t
    · obtain ⟨lo, h, h'⟩ := I.vx
      exact ⟨lo, h.advance hle, h'⟩
    · obtain ⟨lo, h, h'⟩ := I.stk
      exact ⟨lo, h.advance hle, h'⟩
    · intro b; have := I.jobs b; show s.jobs b < n; omega

/-! ### Locking and unlocking of VX -/

/-- A change of the VX locked by an address is always recorded. -/
theorem ExInv.settleVx {mk : Nat → Option MarketInfo} {s : Ex} (I : ExInv mk s) {fs : List Acct} {de : Nat → Nat} {vp : Nat} (a new : Nat)
    (hv : ∀ b, (getAcct b vxToken fs).vxLocked = if b = a then new else s.vxOf b) (hca : ∀ b t, (getAcct b t fs).cancellingStake = (getAcct b t s.core.funds).cancellingStake)
    (hhas : ∀ b t, hasAcct b t s.core.funds = true → hasAcct b t fs = true)
    {un : Table Nat Hist} {log : List (Nat × Nat × Nat)}
    (hun : SchedInv s.now (s.jobs .finishUnlock) un log (fun b => (getAcct b vxToken fs).vxUnlocking))
    (B : Books mk { s with core := { s.core with funds := fs, deposited := de }, unlocks := un, unlockLog := log, vxPool := vp })
    (chg : Int) (hchg : chg = (new : Int) - s.vxOf a) :
    ∃ s', Ex.settleVx { s with core := { s.core with funds := fs, deposited := de }, unlocks := un, unlockLog := log, vxPool := vp } a chg = some s' ∧
      s' = { s with core := { s.core with funds := fs, deposited := de }, unlocks := un, unlockLog := log, vxPool := vp,
                    vx := s'.vx, vxSum := s'.vxSum } ∧ ExInv mk s' := by
  obtain ⟨lo, h, h'⟩ := I.vx
  obtain ⟨t', sum', e, hs⟩ := h.settle (by unfold vxDividendThreshold; norm_num) a new
  have hnew : Ex.vxOf { s with core := { s.core with funds := fs, deposited := de }, unlocks := un, unlockLog := log, vxPool := vp } a = new := by
    show (getAcct a vxToken fs).vxLocked = new
    rw [hv, if_pos rfl]
  unfold Ex.settleVx
  rw [hnew, hchg]
  simp only [e, Option.map_some]
  refine ⟨_, rfl, rfl, ?_⟩
  refine ⟨⟨B.core, B.fee, B.roll, B.pool, B.op, B.books⟩, ⟨lo, ?_, h'⟩, I.stk, hun, I.cancels.amt (fun b => hca b viteToken),
    ⟨I.stakes.proper, I.stakes.staked, fun x hx => ⟨hhas _ _ (I.stakes.owners x hx).1, (I.stakes.owners x hx).2⟩⟩, ⟨I.maker.proper, I.maker.upto, I.maker.empty⟩, I.jobs, I.vips⟩
  have : (fun b => if b = a then new else s.vxOf b) = fun b => (getAcct b vxToken fs).vxLocked := funext fun b => (hv b).symm
  show ShareInv _ _ _ _ _ (fun b => (getAcct b vxToken fs).vxLocked) _
  rw [← this]; exact hs

theorem Books.funds {mk : Nat → Option MarketInfo} {s : Ex} (B : Books mk s) {fs : List Acct} (M : Moves s.core.funds fs (fun _ => 0) (fun _ => 0))
    {un : Table Nat Hist} {log : List (Nat × Nat × Nat)} :
    Books mk { s with core := { s.core with funds := fs }, unlocks := un, unlockLog := log } where
  core := by
    refine B.core.moves (dp := s.core.dividendPool) (op := s.core.operatorPool) (de := s.core.deposited) (wi := s.core.withdrawn) M ?_
    intro t; omega
  fee := B.fee
  roll := B.roll
  pool := B.pool
  op := B.op
  books := B.books

theorem getAcct_own {a t : Nat} {fs fs' : List Acct} {v : Acct} (e : setAcct v fs = fs') (ha : v.address = a) (ht : v.token = t) (b u : Nat) :
    getAcct b u fs' = if b = a ∧ u = t then v else getAcct b u fs := by
  rw [← e, getAcct_setAcct, ha, ht]
  by_cases h : a = b ∧ t = u
  · rw [if_pos h, if_pos ⟨h.1.symm, h.2.symm⟩]
  · rw [if_neg h, if_neg (fun e => h ⟨e.1.symm, e.2.symm⟩)]

theorem lockVx_inv {mk : Nat → Option MarketInfo} {s : Ex} (I : ExInv mk s) (a n : Nat) : ExInv mk (s.lockVx a n) := by
  unfold Ex.lockVx
  split
  · exact I
  · split
    · exact I
    · rename_i fs hl
      have M := lockVx_moves hl
      unfold lockVxForDividend at hl
      simp only at hl
      split at hl
      · simp at hl
      · obtain hl := Option.some.inj hl
        have k := getAcct_key a vxToken s.core.funds
        have hg := getAcct_own hl k.1 k.2
        obtain ⟨s', e, -, J⟩ := I.settleVx (fs := fs) (de := s.core.deposited) (vp := s.vxPool) (un := s.unlocks) (log := s.unlockLog)
          a (s.vxOf a + n) (by
            intro b; rw [hg]
            by_cases hb : b = a
            · subst hb; simp [Ex.vxOf]
            · simp [hb, Ex.vxOf])
          (by
            intro b t; rw [hg]
            split
            · rename_i h; rw [h.1, h.2]
            · rfl)
          (by intro b t h; rw [← hl]; exact (hasAcct_set _ _ _ _).mpr (.inr h))
          (I.unlocks.amt (by
            intro b; rw [hg]
            split
            · rename_i h; rw [h.1]; rfl
            · rfl))
          (I.books.funds M) n (by push_cast; ring)
        simp only
        have e' : Ex.settleVx { s with core := { s.core with funds := fs } } a n = some s' := e
        rw [e']
        exact J

theorem unlockVx_inv {mk : Nat → Option MarketInfo} {s : Ex} (I : ExInv mk s) (a n : Nat) : ExInv mk (s.unlockVx a n) := by
  unfold Ex.unlockVx
  split
  · exact I
  · split
    · exact I
    · rename_i fs hl
      have M := scheduleVx_moves hl
      unfold scheduleVxUnlock at hl
      simp only at hl
      split at hl
      · simp at hl
      · split at hl
        · simp at hl
        · rename_i hlt _
          obtain hl := Option.some.inj hl
          have k := getAcct_key a vxToken s.core.funds
          have hg := getAcct_own hl k.1 k.2
          obtain ⟨s', e, -, J⟩ := I.settleVx (fs := fs) (de := s.core.deposited) (vp := s.vxPool) (un := schedule s.now a n s.unlocks)
            (log := s.unlockLog ++ [(a, s.now, n)]) a (s.vxOf a - n) (by
              intro b; rw [hg]
              by_cases hb : b = a
              · subst hb; simp [Ex.vxOf]
              · simp [hb, Ex.vxOf])
            (by
              intro b t; rw [hg]
              split
              · rename_i h; rw [h.1, h.2]
              · rfl)
            (by intro b t h; rw [← hl]; exact (hasAcct_set _ _ _ _).mpr (.inr h))
            (I.unlocks.add (by have := I.jobs .finishUnlock; omega) a n (by
              intro b; rw [hg]
              by_cases hb : b = a
              · subst hb; simp [Ex.unlocking]
              · simp [hb, Ex.unlocking]))
            (I.books.funds M) (-(n : Int)) (by
              have : n ≤ s.vxOf a := by unfold Ex.vxOf; omega
              omega)
          simp only
          have e' : Ex.settleVx { s with core := { s.core with funds := fs }, unlocks := schedule s.now a n s.unlocks
                                         unlockLog := s.unlockLog ++ [(a, s.now, n)] } a (-(n : Int)) = some s' := e
          rw [e']
          exact J

/-! ### Stakes -/

/-- What counts of one stake. -/
def counts (a : Nat) (d : Deleg) : Nat := if d.kind = .mining ∧ d.confirmed = true ∧ d.owner = a then d.amount else 0

theorem stakesOf_eq (a : Nat) (t : Table Nat Deleg) : stakesOf a t = Table.total (fun _ d => counts a d) t := rfl

theorem stakesOf_put (a id : Nat) (d : Deleg) (t : Table Nat Deleg) :
    stakesOf a (Table.put id d t) + (Table.get id t).elim 0 (counts a) = stakesOf a t + counts a d := by
  have := Table.total_put (fun _ d => counts a d) id d t
  simpa [stakesOf_eq] using this

theorem stakesOf_del (a id : Nat) (t : Table Nat Deleg) :
    stakesOf a (Table.del id t) + (Table.get id t).elim 0 (counts a) = stakesOf a t := by
  have := Table.total_del (fun _ d => counts a d) id t
  simpa [stakesOf_eq] using this

theorem table_mem_del {K V : Type} [DecidableEq K] {k : K} {t : Table K V} {x : K × V} (h : x ∈ Table.del k t) : x ∈ t := by
  induction t with
  | nil => simp [Table.del] at h
  | cons y ys ih =>
    unfold Table.del at h
    split at h
    · exact List.mem_cons_of_mem _ h
    · rcases List.mem_cons.mp h with h | h
      · exact h ▸ List.mem_cons_self ..
      · exact List.mem_cons_of_mem _ (ih h)

theorem stake_inv {mk : Nat → Option MarketInfo} {s : Ex} (I : ExInv mk s) (id a : Nat) (k : Kind) (n : Nat) : ExInv mk (s.stake id a k n) := by
  unfold Ex.stake
  simp only
  split
  · exact I
  · rename_i h1
    push Not at h1
    have hnone : Table.get id s.stakes = none := by
      have := h1.2; simpa using this
    split
    · exact I
    · split
      · exact I
      · rename_i fs hr
        have S := same_reduce hr
        have M := reduce_moves hr
        have J : ExInv mk { s with core := { s.core with funds := fs, withdrawn := bump s.core.withdrawn viteToken n }, sent := bump s.sent viteToken n } := by
          refine I.same (fees := s.fees) (lr := s.lastRoll) (ops := s.opFees) (rc := s.received) (vp := s.vxPool)
            (c := { s.core with funds := fs, withdrawn := bump s.core.withdrawn viteToken n }) S ?_
          refine ⟨?_, I.books.fee, I.books.roll, I.books.pool, I.books.op, ?_⟩
          · refine I.books.core.moves (dp := s.core.dividendPool) (op := s.core.operatorPool) (de := s.core.deposited) M ?_
            intro t; rw [bump_apply]; omega
          · intro t
            have := I.books.books t
            simp only [bump_apply, Ex.makerSum] at this ⊢
            omega
        have hown : hasAcct a viteToken fs = true := by
          unfold reduceAccount at hr
          simp only at hr
          split at hr
          · simp at hr
          · have kk := getAcct_key a viteToken s.core.funds
            rw [← Option.some.inj hr]
            exact (hasAcct_set _ _ _ _).mpr (.inl ⟨kk.1, kk.2⟩)
        refine ⟨⟨J.books.core, J.books.fee, J.books.roll, J.books.pool, J.books.op, J.books.books⟩, J.vx, J.stk, J.unlocks, J.cancels, ?_,
          ⟨J.maker.proper, J.maker.upto, J.maker.empty⟩, J.jobs, ?_⟩
        · refine ⟨Table.proper_put _ _ I.stakes.proper, ?_, ?_⟩
          · intro b
            have := stakesOf_put b id ⟨k, a, n, false⟩ s.stakes
            rw [hnone] at this
            simp only [Option.elim_none, counts] at this
            rw [if_neg (by simp)] at this
            show s.staked b = stakesOf b (Table.put id ⟨k, a, n, false⟩ s.stakes)
            rw [I.stakes.staked b]; omega
          · intro x hx
            rcases table_mem_put hx with rfl | hx
            · exact ⟨hown, by simpa using h1.1⟩
            · exact J.stakes.owners x hx
        · refine ⟨I.vips.proper, I.vips.lists, ?_⟩
          intro key i
          rw [I.vips.ids]
          constructor
          · rintro ⟨d, hd, h⟩
            refine ⟨d, ?_, h⟩
            rw [Table.get_put, if_neg (by rintro rfl; rw [hnone] at hd; simp at hd)]; exact hd
          · rintro ⟨d, hd, h⟩
            rw [Table.get_put] at hd
            split at hd
            · obtain rfl := Option.some.inj hd; simp at h
            · exact ⟨d, hd, h⟩

/-- A change of what an address has staked is always recorded. -/
theorem ExInv.settleStk {mk : Nat → Option MarketInfo} {s : Ex} (I : ExInv mk s) {c : Sys} {stakes : Table Nat Deleg}
    {vips : Table (Bool × Nat) (List Nat)} {cancels : Table Nat Hist} {log : List (Nat × Nat × Nat)} {rc : Nat → Nat} (a new : Nat)
    (hv : ∀ b, (getAcct b vxToken c.funds).vxLocked = s.vxOf b)
    (hu : ∀ b, (getAcct b vxToken c.funds).vxUnlocking = s.unlocking b)
    (hca : SchedInv s.now (s.jobs .finishCancel) cancels log (fun b => (getAcct b viteToken c.funds).cancellingStake))
    (hhas : ∀ b t, hasAcct b t s.core.funds = true → hasAcct b t c.funds = true)
    (hp : Table.Proper stakes) (hst : ∀ b, stakesOf b stakes = if b = a then new else s.staked b)
    (hown : ∀ x ∈ stakes, hasAcct x.2.owner viteToken s.core.funds = true ∧ x.2.kind.amountOk x.2.amount = true) (hvips : VipsOk stakes vips)
    (B : Books mk { s with core := c, stakes := stakes, vips := vips, cancels := cancels, cancelLog := log, received := rc })
    (chg : Int) (hchg : chg = (new : Int) - s.staked a) :
    ∃ s', Ex.settleStk { s with core := c, stakes := stakes, vips := vips, cancels := cancels, cancelLog := log, received := rc } a chg new = some s' ∧
      s' = { s with core := c, stakes := stakes, vips := vips, cancels := cancels, cancelLog := log, received := rc,
                    stk := s'.stk, stkSum := s'.stkSum, staked := fun b => if b = a then new else s.staked b } ∧ ExInv mk s' := by
  obtain ⟨lo, h, h'⟩ := I.stk
  obtain ⟨t', sum', e, hs⟩ := h.settle (by unfold miningThreshold; norm_num) a new
  unfold Ex.settleStk
  rw [hchg]
  simp only [e, Option.map_some]
  refine ⟨_, rfl, rfl, ?_⟩
  refine ⟨⟨B.core, B.fee, B.roll, B.pool, B.op, B.books⟩, ?_, ⟨lo, hs, h'⟩, I.unlocks.amt hu, hca,
    ⟨hp, fun b => (hst b).symm, fun x hx => ⟨hhas _ _ (hown x hx).1, (hown x hx).2⟩⟩, ⟨I.maker.proper, I.maker.upto, I.maker.empty⟩, I.jobs, hvips⟩
  obtain ⟨lo, h, h'⟩ := I.vx
  refine ⟨lo, ?_, h'⟩
  have : s.vxOf = fun a => (getAcct a vxToken c.funds).vxLocked := funext fun a => (hv a).symm
  show ShareInv _ _ _ _ _ (fun a => (getAcct a vxToken c.funds).vxLocked) _
  rw [← this]; exact h

theorem VipsOk.add {stakes : Table Nat Deleg} {vips : Table (Bool × Nat) (List Nat)} (V : VipsOk stakes vips) {id : Nat} {d : Deleg}
    (hd : Table.get id stakes = some d) (hc : d.confirmed = false) :
    VipsOk (Table.put id { d with confirmed := true } stakes) (addVip id d vips) := by
  have hk : Deleg.vipKey { d with confirmed := true } = d.vipKey := rfl
  have hself : ∀ key, id ∉ (Table.get key vips).getD [] := by
    intro key h
    obtain ⟨d', e, h1, -⟩ := (V.ids key id).mp h
    rw [hd] at e; obtain rfl := Option.some.inj e
    rw [hc] at h1; simp at h1
  have hput : ∀ key i, (∃ d', Table.get i (Table.put id { d with confirmed := true } stakes) = some d' ∧ d'.confirmed = true ∧ d'.vipKey = some key) ↔
      (i = id ∧ d.vipKey = some key) ∨ i ∈ (Table.get key vips).getD [] := by
    intro key i
    rw [V.ids, Table.get_put]
    by_cases hi : i = id
    · subst hi
      simp only [if_true, true_and]
      constructor
      · rintro ⟨d', e, -, h⟩
        obtain rfl := Option.some.inj e
        exact .inl (hk ▸ h)
      · rintro (h | ⟨d', e, h1, h⟩)
        · exact ⟨_, rfl, rfl, hk ▸ h⟩
        · rw [hd] at e; obtain rfl := Option.some.inj e
          rw [hc] at h1; simp at h1
    · simp only [hi, if_false, false_and, false_or]
  unfold addVip
  cases hkey : d.vipKey with
  | none =>
    refine ⟨V.proper, V.lists, fun key i => ?_⟩
    rw [hput, hkey]; simp
  | some k0 =>
    simp only
    refine ⟨Table.proper_put _ _ V.proper, ?_, ?_⟩
    · intro key ids h
      rw [Table.get_put] at h
      split at h
      · rename_i e; subst e
        obtain rfl := Option.some.inj h
        refine ⟨by simp, ?_⟩
        rw [List.nodup_append']
        refine ⟨?_, by simp, ?_⟩
        · cases hg : Table.get key vips with
          | none => simp
          | some ids => exact (V.lists key ids hg).2
        · intro i h1 h2
          simp only [List.mem_singleton] at h2; subst h2
          exact hself key h1
      · exact V.lists key ids h
    · intro key i
      rw [hput, hkey, Table.get_put]
      by_cases e : key = k0
      · subst e; simp; tauto
      · have e' : k0 ≠ key := fun h => e h.symm
        simp [e, e']

theorem VipsOk.drop {stakes : Table Nat Deleg} {vips : Table (Bool × Nat) (List Nat)} (V : VipsOk stakes vips) (hp : Table.Proper stakes) {id : Nat} {d : Deleg}
    (hd : Table.get id stakes = some d) (hc : d.confirmed = true) :
    ∃ vips', dropVip id d vips = some vips' ∧ VipsOk (Table.del id stakes) vips' := by
  have hdel : ∀ key i, (∃ d', Table.get i (Table.del id stakes) = some d' ∧ d'.confirmed = true ∧ d'.vipKey = some key) ↔
      i ≠ id ∧ i ∈ (Table.get key vips).getD [] := by
    intro key i
    rw [V.ids]
    by_cases hi : i = id
    · subst hi; rw [Table.get_del_self _ hp]; simp
    · rw [Table.get_del_ne hi]; simp [hi]
  unfold dropVip
  cases hkey : d.vipKey with
  | none =>
    refine ⟨vips, rfl, V.proper, V.lists, fun key i => ?_⟩
    rw [hdel]
    constructor
    · intro h
      refine ⟨?_, h⟩
      rintro rfl
      obtain ⟨d', e, -, h2⟩ := (V.ids key i).mp h
      rw [hd] at e; obtain rfl := Option.some.inj e
      rw [hkey] at h2; simp at h2
    · exact fun h => h.2
  | some k0 =>
    have hmem : id ∈ (Table.get k0 vips).getD [] := (V.ids k0 id).mpr ⟨d, hd, hc, hkey⟩
    have honly : ∀ key, id ∈ (Table.get key vips).getD [] → key = k0 := by
      intro key h
      obtain ⟨d', e, -, h2⟩ := (V.ids key id).mp h
      rw [hd] at e; obtain rfl := Option.some.inj e
      rw [hkey] at h2; exact (Option.some.inj h2).symm
    simp only
    cases hg : Table.get k0 vips with
    | none => rw [hg] at hmem; simp at hmem
    | some ids =>
      rw [hg] at hmem
      simp only [Option.getD_some] at hmem
      obtain ⟨hne, hnd⟩ := V.lists k0 ids hg
      simp only
      split
      · rename_i hl
        have hids : ids = [id] := by
          match ids, hl, hmem with
          | [x], _, h => simp at h; rw [h]
        refine ⟨_, rfl, Table.proper_del _ V.proper, ?_, ?_⟩
        · intro key ids' h
          by_cases e : key = k0
          · subst e; rw [Table.get_del_self _ V.proper] at h; simp at h
          · rw [Table.get_del_ne e] at h; exact V.lists key ids' h
        · intro key i
          rw [hdel]
          by_cases e : key = k0
          · subst e; rw [Table.get_del_self _ V.proper, hg, hids]; simp
          · rw [Table.get_del_ne e]
            constructor
            · intro h; exact ⟨by rintro rfl; exact e (honly key h), h⟩
            · exact fun h => h.2
      · rename_i hl
        refine ⟨_, rfl, Table.proper_put _ _ V.proper, ?_, ?_⟩
        · intro key ids' h
          rw [Table.get_put] at h
          split at h
          · obtain rfl := Option.some.inj h
            refine ⟨?_, hnd.erase _⟩
            intro h0
            have := List.length_erase_of_mem hmem
            rw [h0] at this; simp at this; omega
          · exact V.lists key ids' h
        · intro key i
          rw [hdel, Table.get_put]
          by_cases e : key = k0
          · subst e
            rw [if_pos rfl, hg]
            simp only [Option.getD_some]
            rw [hnd.mem_erase_iff]
          · rw [if_neg e]
            constructor
            · intro h; exact ⟨by rintro rfl; exact e (honly key h), h⟩
            · exact fun h => h.2

theorem get_mem_owner {mk : Nat → Option MarketInfo} {s : Ex} (I : ExInv mk s) {id : Nat} {d : Deleg} (hd : Table.get id s.stakes = some d) :
    hasAcct d.owner viteToken s.core.funds = true := (I.stakes.owners _ (Table.get_mem hd)).1

theorem stakeOk_inv {mk : Nat → Option MarketInfo} {s : Ex} (I : ExInv mk s) (id : Nat) : ExInv mk (s.stakeOk id) := by
  unfold Ex.stakeOk
  split
  · exact I
  · rename_i d hd
    split
    · exact I
    · rename_i hc
      have hc : d.confirmed = false := by simpa using hc
      have V := I.vips.add hd hc
      have hp : Table.Proper (Table.put id { d with confirmed := true } s.stakes) := Table.proper_put _ _ I.stakes.proper
      have hown : ∀ x ∈ Table.put id { d with confirmed := true } s.stakes, hasAcct x.2.owner viteToken s.core.funds = true ∧
          x.2.kind.amountOk x.2.amount = true := by
        intro x hx
        rcases table_mem_put hx with rfl | hx
        · exact (I.stakes.owners _ (Table.get_mem hd) : hasAcct d.owner viteToken s.core.funds = true ∧ d.kind.amountOk d.amount = true)
        · exact I.stakes.owners x hx
      have hst : ∀ b, stakesOf b (Table.put id { d with confirmed := true } s.stakes) =
          s.staked b + if d.kind = .mining ∧ d.owner = b then d.amount else 0 := by
        intro b
        have := stakesOf_put b id { d with confirmed := true } s.stakes
        rw [hd] at this
        simp only [Option.elim_some, counts, hc, Bool.false_eq_true, false_and, and_false, if_false, true_and] at this
        rw [I.stakes.staked b]; omega
      simp only
      split
      · rename_i hk
        obtain ⟨s', e, -, J⟩ := I.settleStk (c := s.core) (cancels := s.cancels) (log := s.cancelLog) (rc := s.received) d.owner (s.staked d.owner + d.amount)
          (fun _ => rfl) (fun _ => rfl) I.cancels (fun _ _ h => h) hp (by
            intro b
            rw [hst b]
            by_cases hb : b = d.owner
            · subst hb; simp [hk]
            · rw [if_neg hb, if_neg (fun h => hb h.2.symm)]; rfl)
          hown V ⟨I.books.core, I.books.fee, I.books.roll, I.books.pool, I.books.op, I.books.books⟩ d.amount (by push_cast; ring)
        have e' : Ex.settleStk { s with stakes := Table.put id { d with confirmed := true } s.stakes, vips := addVip id d s.vips }
          d.owner d.amount (s.staked d.owner + d.amount) = some s' := e
        rw [e']; exact J
      · rename_i hk
        refine ⟨⟨I.books.core, I.books.fee, I.books.roll, I.books.pool, I.books.op, I.books.books⟩, I.vx, I.stk, I.unlocks, I.cancels,
          ⟨hp, ?_, hown⟩, ⟨I.maker.proper, I.maker.upto, I.maker.empty⟩, I.jobs, V⟩
        intro b
        show s.staked b = stakesOf b (Table.put id { d with confirmed := true } s.stakes)
        rw [hst b, if_neg (fun h => hk h.1)]; rfl

theorem stakeFail_inv {mk : Nat → Option MarketInfo} {s : Ex} (I : ExInv mk s) (id value : Nat) : ExInv mk (s.stakeFail id value) := by
  unfold Ex.stakeFail
  split
  · exact I
  · rename_i d hd
    split
    · exact I
    · rename_i hc
      push Not at hc
      have hc : d.confirmed = false := by simpa using hc.1
      have J : ExInv mk { s with
          core := { s.core with funds := depositAccount s.core.funds d.owner viteToken value, deposited := bump s.core.deposited viteToken value }
          received := bump s.received viteToken value } := by
        refine I.same (fees := s.fees) (lr := s.lastRoll) (ops := s.opFees) (se := s.sent) (vp := s.vxPool)
          (c := { s.core with funds := depositAccount s.core.funds d.owner viteToken value, deposited := bump s.core.deposited viteToken value })
          (same_deposit _ _ _ _) ?_
        refine ⟨?_, I.books.fee, I.books.roll, I.books.pool, I.books.op, ?_⟩
        · refine I.books.core.moves (dp := s.core.dividendPool) (op := s.core.operatorPool) (wi := s.core.withdrawn)
            (deposit_moves s.core.funds d.owner viteToken value) ?_
          intro t; rw [bump_apply]; omega
        · intro t
          have := I.books.books t
          simp only [bump_apply, Ex.makerSum] at this ⊢
          omega
      refine ⟨⟨J.books.core, J.books.fee, J.books.roll, J.books.pool, J.books.op, J.books.books⟩, J.vx, J.stk, J.unlocks, J.cancels,
        ⟨Table.proper_del _ I.stakes.proper, ?_, fun x hx => J.stakes.owners x (table_mem_del hx)⟩,
        ⟨J.maker.proper, J.maker.upto, J.maker.empty⟩, J.jobs, I.vips.proper, I.vips.lists, ?_⟩
      · intro b
        have := stakesOf_del b id s.stakes
        rw [hd] at this
        simp only [Option.elim_some, counts, hc, Bool.false_eq_true, false_and, and_false, if_false] at this
        show s.staked b = stakesOf b (Table.del id s.stakes)
        rw [I.stakes.staked b]; omega
      · intro key i
        rw [I.vips.ids]
        by_cases hi : i = id
        · subst hi
          simp only [Table.get_del_self _ I.stakes.proper]
          constructor
          · rintro ⟨d', e, h1, -⟩
            rw [hd] at e; obtain rfl := Option.some.inj e
            rw [hc] at h1; simp at h1
          · rintro ⟨d', e, -⟩; simp at e
        · simp only [Table.get_del_ne hi]

theorem scheduleCancel_eq {fs : List Acct} {a : Nat} (h : hasAcct a viteToken fs = true) (n : Nat) :
    setAcct { getAcct a viteToken fs with cancellingStake := (getAcct a viteToken fs).cancellingStake + n } fs = scheduleCancel fs a n := by
  unfold scheduleCancel; rw [if_pos h]

theorem scheduleCancel_moves {fs : List Acct} {a : Nat} (h : hasAcct a viteToken fs = true) (n : Nat) :
    Moves fs (scheduleCancel fs a n) (fun x => if x = viteToken then n else 0) (fun _ => 0) := by
  rw [← scheduleCancel_eq h]
  have k := getAcct_key a viteToken fs
  have := moves_set a viteToken fs { getAcct a viteToken fs with cancellingStake := (getAcct a viteToken fs).cancellingStake + n }
    k.1 k.2 rfl n 0 (by simp only [owes]; omega)
  exact this.cast (fun _ => rfl) (fun t => by split <;> rfl)

/-- When a confirmed stake comes back, the exchange always accepts. -/
theorem cancelOk_spec {mk : Nat → Option MarketInfo} {s : Ex} (I : ExInv mk s) {id : Nat} {d : Deleg} (hd : Table.get id s.stakes = some d)
    (hc : d.confirmed = true) : ExInv mk (s.cancelOk id) ∧
      (s.cancelOk id).received = bump s.received viteToken d.amount ∧ Table.get id (s.cancelOk id).stakes = none ∧
      (d.kind = .mining → (s.cancelOk id).cancelLog = s.cancelLog ++ [(d.owner, s.now, d.amount)] ∧
        (s.cancelOk id).core.funds = scheduleCancel s.core.funds d.owner d.amount) ∧
      (d.kind ≠ .mining → (s.cancelOk id).core.funds = depositAccount s.core.funds d.owner viteToken d.amount) := by
  obtain ⟨vips', e, V⟩ := I.vips.drop I.stakes.proper hd hc
  have hp : Table.Proper (Table.del id s.stakes) := Table.proper_del _ I.stakes.proper
  have hown : ∀ x ∈ Table.del id s.stakes, hasAcct x.2.owner viteToken s.core.funds = true ∧
          x.2.kind.amountOk x.2.amount = true :=
    fun x hx => I.stakes.owners x (table_mem_del hx)
  have hst : ∀ b, stakesOf b (Table.del id s.stakes) + (if d.kind = .mining ∧ d.owner = b then d.amount else 0) = s.staked b := by
    intro b
    have := stakesOf_del b id s.stakes
    rw [hd] at this
    simp only [Option.elim_some, counts, hc, true_and] at this
    rw [I.stakes.staked b]; omega
  unfold Ex.cancelOk
  simp only [hd, hc, e, Bool.true_eq_false, if_false]
  by_cases hk : d.kind = .mining
  · have hge : ¬ s.staked d.owner < d.amount := by
      have := hst d.owner; rw [if_pos ⟨hk, rfl⟩] at this; omega
    have ho := get_mem_owner I hd
    have kk := getAcct_key d.owner viteToken s.core.funds
    have hg := getAcct_own (scheduleCancel_eq ho d.amount) kk.1 kk.2
    obtain ⟨s', e', es, J⟩ := I.settleStk
      (c := { s.core with funds := scheduleCancel s.core.funds d.owner d.amount, deposited := bump s.core.deposited viteToken d.amount })
      (cancels := schedule s.now d.owner d.amount s.cancels) (log := s.cancelLog ++ [(d.owner, s.now, d.amount)])
      (rc := bump s.received viteToken d.amount) d.owner (s.staked d.owner - d.amount)
      (by
        intro b
        show (getAcct b vxToken (scheduleCancel s.core.funds d.owner d.amount)).vxLocked = s.vxOf b
        rw [hg]
        split
        · rename_i h; rw [← h.1, ← h.2]; rfl
        · rfl)
      (by
        intro b
        show (getAcct b vxToken (scheduleCancel s.core.funds d.owner d.amount)).vxUnlocking = s.unlocking b
        rw [hg]
        split
        · rename_i h; rw [← h.1, ← h.2]; rfl
        · rfl)
      (I.cancels.add (by have := I.jobs .finishCancel; omega) d.owner d.amount (by
        intro b
        show (getAcct b viteToken (scheduleCancel s.core.funds d.owner d.amount)).cancellingStake = _
        rw [hg]
        by_cases hb : b = d.owner
        · rw [if_pos ⟨hb, rfl⟩, if_pos hb]; rfl
        · rw [if_neg (fun h => hb h.1), if_neg hb]; rfl))
      (by
        intro b t h
        show hasAcct b t (scheduleCancel s.core.funds d.owner d.amount) = true
        rw [← scheduleCancel_eq ho]; exact (hasAcct_set _ _ _ _).mpr (.inr h))
      hp (by
        intro b
        have := hst b
        by_cases hb : b = d.owner
        · subst hb; rw [if_pos ⟨hk, rfl⟩] at this; rw [if_pos rfl]; omega
        · rw [if_neg (fun h => hb h.2.symm)] at this; rw [if_neg hb]; omega)
      hown V (by
        refine ⟨?_, I.books.fee, I.books.roll, I.books.pool, I.books.op, ?_⟩
        · refine I.books.core.moves (dp := s.core.dividendPool) (op := s.core.operatorPool) (wi := s.core.withdrawn)
            (scheduleCancel_moves ho d.amount) ?_
          intro t; rw [bump_apply]; omega
        · intro t
          have := I.books.books t
          simp only [bump_apply, Ex.makerSum] at this ⊢
          omega)
      (-(d.amount : Int)) (by omega)
    simp only [hk, if_true, hge, if_false, ne_eq, not_true_eq_false, false_imp_iff, true_imp_iff, and_true]
    have e2 : Ex.settleStk { s with
        vips := vips', stakes := Table.del id s.stakes, received := bump s.received viteToken d.amount
        core := { s.core with deposited := bump s.core.deposited viteToken d.amount, funds := scheduleCancel s.core.funds d.owner d.amount }
        cancels := schedule s.now d.owner d.amount s.cancels
        cancelLog := s.cancelLog ++ [(d.owner, s.now, d.amount)] } d.owner (-(d.amount : Int)) (s.staked d.owner - d.amount) = some s' := e'
    rw [e2]
    simp only [Option.getD_some]
    refine ⟨J, ?_, ?_, ?_, ?_⟩
    · rw [es]
    · rw [es]; exact Table.get_del_self _ I.stakes.proper
    · rw [es]
    · rw [es]
  · simp only [hk, if_false, ne_eq, not_false_iff, false_imp_iff, true_imp_iff, true_and]
    have J : ExInv mk { s with
        core := { s.core with funds := depositAccount s.core.funds d.owner viteToken d.amount, deposited := bump s.core.deposited viteToken d.amount }
        received := bump s.received viteToken d.amount } := by
      refine I.same (fees := s.fees) (lr := s.lastRoll) (ops := s.opFees) (se := s.sent) (vp := s.vxPool)
        (c := { s.core with funds := depositAccount s.core.funds d.owner viteToken d.amount, deposited := bump s.core.deposited viteToken d.amount })
        (same_deposit _ _ _ _) ?_
      refine ⟨?_, I.books.fee, I.books.roll, I.books.pool, I.books.op, ?_⟩
      · refine I.books.core.moves (dp := s.core.dividendPool) (op := s.core.operatorPool) (wi := s.core.withdrawn)
          (deposit_moves s.core.funds d.owner viteToken d.amount) ?_
        intro t; rw [bump_apply]; omega
      · intro t
        have := I.books.books t
        simp only [bump_apply, Ex.makerSum] at this ⊢
        omega
    refine ⟨?_, Table.get_del_self _ I.stakes.proper, trivial⟩
    refine ⟨⟨J.books.core, J.books.fee, J.books.roll, J.books.pool, J.books.op, J.books.books⟩, J.vx, J.stk, J.unlocks, J.cancels,
      ⟨hp, ?_, fun x hx => J.stakes.owners x (table_mem_del hx)⟩,
      ⟨J.maker.proper, J.maker.upto, J.maker.empty⟩, J.jobs, V⟩
    intro b
    have := hst b
    rw [if_neg (fun h => hk h.1)] at this
    show s.staked b = stakesOf b (Table.del id s.stakes)
    omega

theorem cancelOk_inv {mk : Nat → Option MarketInfo} {s : Ex} (I : ExInv mk s) (id : Nat) : ExInv mk (s.cancelOk id) := by
  cases hd : Table.get id s.stakes with
  | none => unfold Ex.cancelOk; rw [hd]; exact I
  | some d =>
    by_cases hc : d.confirmed = true
    · exact (cancelOk_spec I hd hc).1
    · unfold Ex.cancelOk; simp only [hd]
      rw [if_pos (by simpa using hc)]; exact I

theorem endorse_inv {mk : Nat → Option MarketInfo} {s : Ex} (I : ExInv mk s) (n : Nat) : ExInv mk (s.endorse n) := by
  refine I.same (c := s.core) (fees := s.fees) (lr := s.lastRoll) (ops := s.opFees) (se := s.sent) (Same.refl _) ?_
  refine ⟨I.books.core, I.books.fee, I.books.roll, I.books.pool, I.books.op, ?_⟩
  intro t
  have := I.books.books t
  simp only [bump_apply, Ex.makerSum] at this ⊢
  split at this <;> simp_all <;> omega

/-! ### Mining -/

/-- A state in which `n` VX are spoken for by nobody: the pool has been lowered before the payments are made. -/
structure Owing (mk : Nat → Option MarketInfo) (n : Nat) (s : Ex) : Prop where
  inv : ExInv mk { s with vxPool := s.vxPool + n }

theorem Owing.zero {mk : Nat → Option MarketInfo} {s : Ex} (h : Owing mk 0 s) : ExInv mk s := h.inv

theorem lockMined_moves (fs : List Acct) (a n : Nat) : Moves fs (lockMinedVx fs a n) (fun x => if x = vxToken then n else 0) (fun _ => 0) := by
  have k := getAcct_key a vxToken fs
  have := moves_set a vxToken fs { getAcct a vxToken fs with vxLocked := (getAcct a vxToken fs).vxLocked + n }
    k.1 k.2 rfl n 0 (by simp only [owes]; omega)
  exact this.cast (fun _ => rfl) (fun t => by split <;> rfl)

/-- What a payment of mined VX changes. -/
structure PaysVx (s s' : Ex) (a n : Nat) : Prop where
  rest : s' = { s with core := { s.core with funds := s'.core.funds, deposited := s'.core.deposited }, vx := s'.vx, vxSum := s'.vxSum }
  get : ∀ b, s'.vxOf b + free s' b vxToken = s.vxOf b + free s b vxToken + if b = a then n else 0

theorem onVxMined_spec {mk : Nat → Option MarketInfo} {s : Ex} {m n : Nat} (O : Owing mk (n + m) s) (a : Nat) :
    ∃ s', s.onVxMined a n = some s' ∧ Owing mk m s' ∧ PaysVx s s' a n := by
  have I := O.inv
  unfold Ex.onVxMined
  by_cases ha : s.auto a = true
  · rw [if_pos ha]
    have k := getAcct_key a vxToken s.core.funds
    have hg := getAcct_own (fs' := lockMinedVx s.core.funds a n) rfl k.1 k.2
    obtain ⟨s', e, es, J⟩ := I.settleVx (fs := lockMinedVx s.core.funds a n) (de := bump s.core.deposited vxToken n) (vp := s.vxPool + m)
      (un := s.unlocks) (log := s.unlockLog) a (s.vxOf a + n) (by
        intro b
        rw [hg]
        by_cases hb : b = a
        · subst hb; simp [Ex.vxOf]
        · simp [hb, Ex.vxOf])
      (by
        intro b t; rw [hg]
        split
        · rename_i h; rw [h.1, h.2]
        · rfl)
      (by intro b t h; exact (hasAcct_set _ _ _ _).mpr (.inr h))
      (I.unlocks.amt (by
        intro b; rw [hg]
        split
        · rename_i h; rw [h.1]; rfl
        · rfl))
      (by
        refine ⟨?_, I.books.fee, I.books.roll, I.books.pool, I.books.op, ?_⟩
        · refine I.books.core.moves (dp := s.core.dividendPool) (op := s.core.operatorPool) (wi := s.core.withdrawn)
            (lockMined_moves s.core.funds a n) ?_
          intro t; rw [bump_apply]; simp only; omega
        · intro t
          have := I.books.books t
          simp only [bump_apply, Ex.makerSum] at this ⊢
          split at this <;> simp_all <;> omega)
      n (by show (n : Int) = ((s.vxOf a + n : Nat) : Int) - s.vxOf a; push_cast; ring)
    have hsv : Ex.settleVx { s with core := { s.core with funds := lockMinedVx s.core.funds a n, deposited := bump s.core.deposited vxToken n } } a n =
        some { s' with vxPool := s.vxPool } := by
      unfold Ex.settleVx at e ⊢
      obtain ⟨r, hr, h2⟩ := Option.map_eq_some_iff.mp e
      refine Option.map_eq_some_iff.mpr ⟨r, hr, ?_⟩
      rw [← h2]
    refine ⟨_, hsv, ⟨?_⟩, ?_⟩
    · have : ({ ({ s' with vxPool := s.vxPool } : Ex) with vxPool := s.vxPool + m } : Ex) = s' := by rw [es]
      show ExInv mk { ({ s' with vxPool := s.vxPool } : Ex) with vxPool := s.vxPool + m }
      rw [this]; exact J
    · refine ⟨?_, ?_⟩
      · rw [es]
      · intro b
        have hf : s'.core.funds = lockMinedVx s.core.funds a n := by rw [es]
        simp only [Ex.vxOf, free, hf]
        rw [hg]
        by_cases hb : b = a
        · subst hb; simp; omega
        · simp [hb]
  · rw [if_neg ha]
    refine ⟨_, rfl, ⟨?_⟩, rfl, ?_⟩
    · refine I.same (c := { s.core with funds := depositAccount s.core.funds a vxToken n, deposited := bump s.core.deposited vxToken n })
        (fees := s.fees) (lr := s.lastRoll) (ops := s.opFees) (rc := s.received) (se := s.sent) (vp := s.vxPool + m) (same_deposit _ _ _ _) ?_
      refine ⟨?_, I.books.fee, I.books.roll, I.books.pool, I.books.op, ?_⟩
      · refine I.books.core.moves (dp := s.core.dividendPool) (op := s.core.operatorPool) (wi := s.core.withdrawn)
          (deposit_moves s.core.funds a vxToken n) ?_
        intro t; rw [bump_apply]; simp only; omega
      · intro t
        have := I.books.books t
        simp only [bump_apply, Ex.makerSum] at this ⊢
        split at this <;> simp_all <;> omega
    · intro b
      have h1 := (same_deposit s.core.funds a vxToken n).vx b vxToken
      have h2 := available_deposit s.core.funds a vxToken n b vxToken
      simp only [Ex.vxOf, free]
      rw [h1, h2]
      by_cases hb : b = a
      · subst hb; simp; omega
      · rw [if_neg (fun h => hb h.1.symm), if_neg hb]; omega

/-- The state with other makers' pools and job counters: payments do not read them. -/
def Ex.over (s : Ex) (M : Table Nat Nat) (J : Biz → Nat) : Ex := { s with maker := M, jobs := J }

theorem onVxMined_over (s : Ex) (M : Table Nat Nat) (J : Biz → Nat) (a n : Nat) :
    (s.over M J).onVxMined a n = (s.onVxMined a n).map (fun s' => s'.over M J) := by
  unfold Ex.onVxMined
  have : (s.over M J).auto a = s.auto a := rfl
  rw [this]
  split
  · unfold Ex.settleVx
    rw [Option.map_map]
    rfl
  · rfl

theorem over_self (s : Ex) : s.over s.maker s.jobs = s := rfl

/-- What an address gets from a list of payments. -/
def gets (b : Nat) (l : List (Nat × Nat)) : Nat := (l.map (fun x => if x.1 = b then x.2 else 0)).sum

/-- What a list of payments of mined VX changes. -/
structure PaysAll (s s' : Ex) (g : Nat → Nat) : Prop where
  rest : s' = { s with core := { s.core with funds := s'.core.funds, deposited := s'.core.deposited }, vx := s'.vx, vxSum := s'.vxSum }
  get : ∀ b, s'.vxOf b + free s' b vxToken = s.vxOf b + free s b vxToken + g b

theorem PaysAll.refl (s : Ex) : PaysAll s s (fun _ => 0) := ⟨rfl, fun _ => rfl⟩

theorem PaysAll.cons {s s' s'' : Ex} {a n : Nat} {g : Nat → Nat} (h : PaysVx s s' a n) (h' : PaysAll s' s'' g) :
    PaysAll s s'' (fun b => (if b = a then n else 0) + g b) := by
  refine ⟨?_, ?_⟩
  · have e1 := h.rest
    have e2 := h'.rest
    rw [e1] at e2
    exact e2
  · intro b
    have e1 := h.get b
    have e2 := h'.get b
    omega

theorem PaysVx.over {s s' : Ex} {M : Table Nat Nat} {J : Biz → Nat} {a n : Nat} {x : Ex} (h : PaysVx (s.over M J) x a n) (e : x = s'.over M J)
    (hm : s'.maker = s.maker) (hj : s'.jobs = s.jobs) : PaysVx s s' a n := by
  subst e
  refine ⟨?_, fun b => h.get b⟩
  have := h.rest
  have e1 : s' = (s'.over M J).over s.maker s.jobs := by
    unfold Ex.over; simp only; rw [← hm, ← hj]
  rw [e1, this]
  rfl

theorem onVxMined_keeps {s s' : Ex} {a n : Nat} (h : s.onVxMined a n = some s') : s'.maker = s.maker ∧ s'.jobs = s.jobs := by
  unfold Ex.onVxMined at h
  split at h
  · unfold Ex.settleVx at h
    obtain ⟨r, -, h2⟩ := Option.map_eq_some_iff.mp h
    rw [← h2]; exact ⟨rfl, rfl⟩
  · rw [← Option.some.inj h]; exact ⟨rfl, rfl⟩

theorem onVxMined_over_spec {mk : Nat → Option MarketInfo} {s : Ex} {M : Table Nat Nat} {J : Biz → Nat} {m n : Nat}
    (O : Owing mk (n + m) (s.over M J)) (a : Nat) : ∃ s', s.onVxMined a n = some s' ∧ Owing mk m (s'.over M J) ∧ PaysVx s s' a n := by
  obtain ⟨x, e, O', P⟩ := onVxMined_spec O a
  rw [onVxMined_over] at e
  obtain ⟨s', e1, e2⟩ := Option.map_eq_some_iff.mp e
  obtain ⟨k1, k2⟩ := onVxMined_keeps e1
  refine ⟨s', e1, ?_, P.over e2.symm k1 k2⟩
  rw [e2]; exact O'

theorem mineTo_spec {mk : Nat → Option MarketInfo} {M : Table Nat Nat} {J : Biz → Nat} {m : Nat} : ∀ (l : List (Nat × Nat)) {s : Ex},
    Owing mk (paidSum l + m) (s.over M J) → ∃ s', s.mineTo l = some s' ∧ Owing mk m (s'.over M J) ∧ PaysAll s s' (fun b => gets b l)
  | [], s, O => ⟨s, rfl, by simpa [paidSum] using O, PaysAll.refl s⟩
  | x :: xs, s, O => by
    unfold Ex.mineTo
    by_cases hx : x.2 = 0
    · rw [if_pos hx]
      obtain ⟨s', e, O', P⟩ := mineTo_spec (m := m) xs (s := s) (by simpa [paidSum, hx] using O)
      refine ⟨s', e, O', P.rest, fun b => ?_⟩
      have := P.get b
      simp only [gets, List.map_cons, List.sum_cons, hx] at this ⊢
      simpa using this
    · rw [if_neg hx]
      have hs : paidSum (x :: xs) + m = x.2 + (paidSum xs + m) := by simp [paidSum]; omega
      rw [hs] at O
      obtain ⟨s1, e1, O1, P1⟩ := onVxMined_over_spec O x.1
      obtain ⟨s2, e2, O2, P2⟩ := mineTo_spec xs O1
      rw [e1, Option.bind_some]
      refine ⟨s2, e2, O2, ?_⟩
      have := PaysAll.cons P1 P2
      refine ⟨this.rest, fun b => ?_⟩
      have h := this.get b
      simp only [gets, List.map_cons, List.sum_cons] at h ⊢
      by_cases hb : b = x.1
      · subst hb; simpa using h
      · rw [if_neg hb] at h; rw [if_neg (fun e => hb e.symm)]; exact h

/-- What makers get, one after the other, until the pool is empty. -/
def makerGets (b : Nat) : Nat → List (Nat × Nat) → Nat
  | _, [] => 0
  | pool, x :: xs => (if b = x.1 then min x.2 pool else 0) + makerGets b (pool - min x.2 pool) xs

theorem makerGets_zero (b : Nat) : ∀ l : List (Nat × Nat), makerGets b 0 l = 0
  | [] => rfl
  | x :: xs => by simp [makerGets, makerGets_zero b xs]

theorem payMakers_spec {mk : Nat → Option MarketInfo} {M : Table Nat Nat} {J : Biz → Nat} : ∀ (l : List (Nat × Nat)) {s : Ex} {pool m : Nat},
    Owing mk (pool + m) (s.over M J) → ∃ s' p', s.payMakers pool l = some (s', p') ∧ p' ≤ pool ∧ Owing mk (p' + m) (s'.over M J) ∧
      PaysAll s s' (fun b => makerGets b pool l)
  | [], s, pool, m, O => ⟨s, pool, rfl, le_refl _, O, PaysAll.refl s⟩
  | x :: xs, s, pool, m, O => by
    unfold Ex.payMakers
    have hs : pool + m = min x.2 pool + ((pool - min x.2 pool) + m) := by omega
    rw [hs] at O
    obtain ⟨s1, e1, O1, P1⟩ := onVxMined_over_spec O x.1
    rw [e1, Option.bind_some]
    by_cases h0 : pool - min x.2 pool = 0
    · rw [if_pos h0]
      rw [h0] at O1
      refine ⟨s1, 0, rfl, by omega, O1, P1.rest, fun b => ?_⟩
      have := P1.get b
      simp only [makerGets]
      rw [h0, makerGets_zero, this]; omega
    · rw [if_neg h0]
      obtain ⟨s2, p2, e2, hle, O2, P2⟩ := payMakers_spec xs O1
      exact ⟨s2, p2, e2, by omega, O2, PaysAll.cons P1 P2⟩

/-- The books with other makers' pools. -/
theorem Books.makers {mk : Nat → Option MarketInfo} {s : Ex} (B : Books mk s) {M : Table Nat Nat} {vp : Nat} {J : Biz → Nat}
    (h : vp + Table.total (fun _ n => n) M = s.vxPool + s.makerSum) : Books mk { s with vxPool := vp, maker := M, jobs := J } :=
  ⟨B.core, B.fee, B.roll, B.pool, B.op, by
    intro t
    have := B.books t
    simp only [Ex.makerSum] at this h ⊢
    rw [h]; exact this⟩

theorem settleMaker_inv {mk : Nat → Option MarketInfo} {s : Ex} (I : ExInv mk s) (P page : Nat) (acts : List (Nat × Nat)) :
    ExInv mk (s.settleMaker P page acts) := by
  unfold Ex.settleMaker
  split
  · exact I
  · simp only
    split
    · exact I
    · rename_i hp0
      generalize hpool : (Table.get P s.maker).getD 0 = pool at *
      have hg : Table.get P s.maker = some pool := by
        cases h : Table.get P s.maker with
        | none => rw [h] at hpool; simp at hpool; omega
        | some v => rw [h] at hpool; simp at hpool; rw [hpool]
      have hdel := Table.total_del (fun _ n : Nat => n) P s.maker
      rw [hg] at hdel; simp only [Option.elim_some] at hdel
      have mdel : MakerOk { s with maker := Table.del P s.maker } :=
        ⟨Table.proper_del _ I.maker.proper, fun x hx => I.maker.upto x (table_mem_del hx), fun h => by
          have := I.maker.empty h
          show Table.del P s.maker = []
          rw [this]; rfl⟩
      have O : Owing mk (pool + 0) (s.over (Table.del P s.maker) s.jobs) := by
        refine ⟨?_⟩
        have B : Books mk { s with vxPool := s.vxPool + (pool + 0), maker := Table.del P s.maker, jobs := s.jobs } :=
          I.books.makers (by unfold Ex.makerSum; omega)
        exact ⟨⟨B.core, B.fee, B.roll, B.pool, B.op, B.books⟩, I.vx, I.stk, I.unlocks, I.cancels,
          ⟨I.stakes.proper, I.stakes.staked, I.stakes.owners⟩, ⟨mdel.proper, mdel.upto, mdel.empty⟩, I.jobs, I.vips⟩
      obtain ⟨s', p', e, hle, O', PA⟩ := payMakers_spec acts O
      rw [e]
      simp only
      have hmk : s'.maker = s.maker := by rw [PA.rest]
      have hjb : s'.jobs = s.jobs := by rw [PA.rest]
      have K := O'.inv
      split
      · rename_i h0
        rw [h0] at K
        exact ⟨⟨K.books.core, K.books.fee, K.books.roll, K.books.pool, K.books.op, K.books.books⟩, hjb ▸ K.vx, hjb ▸ K.stk, hjb ▸ K.unlocks, hjb ▸ K.cancels,
          ⟨K.stakes.proper, K.stakes.staked, K.stakes.owners⟩, ⟨mdel.proper, hjb ▸ mdel.upto, hjb ▸ mdel.empty⟩, hjb ▸ K.jobs, K.vips⟩
      · have hput := Table.total_put (fun _ n : Nat => n) P p' s.maker
        rw [hg] at hput; simp only [Option.elim_some] at hput
        have B : Books mk { s' with vxPool := s'.vxPool, maker := Table.put P p' s.maker, jobs := s'.jobs } := by
          have := K.books.makers (M := Table.put P p' s.maker) (vp := s'.vxPool) (J := s'.jobs) (by
            show s'.vxPool + Table.total (fun _ n => n) (Table.put P p' s.maker) = (s'.vxPool + (p' + 0)) + Table.total (fun _ n => n) (Table.del P s.maker)
            omega)
          exact this
        refine ⟨⟨B.core, B.fee, B.roll, B.pool, B.op, B.books⟩, hjb ▸ K.vx, hjb ▸ K.stk, hjb ▸ K.unlocks, hjb ▸ K.cancels,
          ⟨K.stakes.proper, K.stakes.staked, K.stakes.owners⟩, ⟨Table.proper_put _ _ I.maker.proper, ?_, ?_⟩, hjb ▸ K.jobs, K.vips⟩
        · intro x hx
          show x.1 ≤ s'.jobs .mineMaker
          rw [hjb]
          rcases table_mem_put hx with rfl | hx
          · exact (I.maker.upto _ (Table.get_mem hg) : P ≤ s.jobs .mineMaker)
          · exact I.maker.upto x hx
        · intro h
          have : s.jobs .mineMaker = 0 := hjb ▸ h
          have := I.maker.empty this
          rw [this] at hg; simp [Table.get] at hg

end Verif.Dex
