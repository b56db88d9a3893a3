import Verif.Lattice.LatticeProps

/-!
Histories that meet the hypotheses, and histories that show why they are asked for.
-/

namespace Verif.Lattice

/-! ### A history -/

/-- Accounts 1 and 2 and the contract 3. -/
def exG : Cfg := ⟨fun a => a = 3, fun _ => true⟩

def exG1 : Blk := ⟨11, 1, 1, 0, .genesis, 0, 0, []⟩
def exG2 : Blk := ⟨12, 2, 1, 0, .genesis, 0, 0, []⟩
def exG3 : Blk := ⟨13, 3, 1, 0, .genesis, 0, 0, []⟩
/-- 1 sends to the contract, the contract receives and sends to 2, 2 receives; 1 sends to 2. -/
def exS : Blk := ⟨21, 1, 2, 11, .send, 3, 0, []⟩
def exC : Blk := ⟨22, 3, 2, 13, .recv, 0, 21, [⟨23, 2⟩]⟩
def exR : Blk := ⟨24, 2, 2, 12, .recv, 0, 23, []⟩
def exT : Blk := ⟨25, 1, 3, 21, .send, 2, 0, []⟩

def exU (b : Blk) : Prop := b ∈ [exG1, exG2, exG3, exS, exC, exR, exT]

theorem exU_sound : Sound exU := by
  have h1 : ∀ b ∈ [exG1, exG2, exG3, exS, exC, exR, exT], b.isSend = true → b.sends = [] := by decide +kernel
  have h2 : ∀ b ∈ [exG1, exG2, exG3, exS, exC, exR, exT], b.ids.Nodup := by decide +kernel
  have h3 : ∀ b ∈ [exG1, exG2, exG3, exS, exC, exR, exT], ∀ d ∈ [exG1, exG2, exG3, exS, exC, exR, exT], ∀ h ∈ b.ids, h ∈ d.ids →
      b.addr = d.addr ∧ b.height = d.height := by decide +kernel
  have h4 : ∀ b ∈ [exG1, exG2, exG3, exS, exC, exR, exT], b.addr ≠ 0 := by decide +kernel
  exact ⟨h1, h2, fun b d h hb hd h1 h2 => h3 b hb d hd h h1 h2, h4⟩

theorem exStart : Start exU [exG1, exG2, exG3] := by
  refine ⟨?_, ?_, ?_⟩
  · intro b hb
    simp only [List.mem_cons, List.not_mem_nil, or_false] at hb
    rcases hb with rfl | rfl | rfl <;> simp [exU]
  · decide +kernel
  · decide +kernel

/-- Four blocks are inserted. -/
def exFour : Chain := (((((genesis [exG1, exG2, exG3]).insert exG exS).insert exG exC).insert exG exR).insert exG exT)

theorem exFour_reach : Reach exG exU exFour :=
  .step (o := .insert exT) (.step (o := .insert exR) (.step (o := .insert exC) (.step (o := .insert exS) (.start exStart)
    (by simp [Allowed, exU]) rfl) (by simp [Allowed, exU]) rfl) (by simp [Allowed, exU]) rfl) (by simp [Allowed, exU]) rfl

example : exFour.unconf = [exS, exC, exR, exT] := by decide +kernel
example : exFour.onRoad 2 = [25] := by decide +kernel
example : exFour.byHash 23 = some (inner exC ⟨23, 2⟩) := by decide +kernel
example : exFour.receiver 23 = some exR := by decide +kernel
example : exFour.needSnapshot = [(3, 2, 22), (2, 2, 24), (1, 3, 25)] := by decide +kernel

/-- Deleting the first send takes the whole cascade away: the contract's receive, what 2 received of it, and the later send. -/
example : (exFour.deleteHash 21).map (·.all) = some [exG1, exG2, exG3] := by decide +kernel
/-- Deleting the last send takes only it away. -/
example : (exFour.deleteHash 25).map (·.unconf) = some [exS, exC, exR] := by decide +kernel
/-- A confirmed block is not deleted. -/
example : exFour.deleteHash 11 = none := by decide +kernel

/-- The node's own snapshot, then a rollback of it with and without the redo log. -/
def exSnap : Option Chain := exFour.snapshot ⟨2, exFour.needSnapshot⟩ false (fun _ => false)

example : exSnap.map (·.unconf) = some [] := by decide +kernel
example : exSnap.map (fun c => (c.confirmHeight 23, c.confirmedTimes 23, c.confirmHeight 11, c.confirmedTimes 11)) = some (2, 1, 1, 2) := by decide +kernel
example : (exSnap.bind (fun c => c.rollback (fun _ => true) 2)).map (·.unconf) = some [exS, exC, exR, exT] := by decide +kernel
example : (exSnap.bind (fun c => c.rollback (fun _ => false) 2)).map (·.all) = some [exG1, exG2, exG3] := by decide +kernel

theorem exSnap_reach {c : Chain} (h : exSnap = some c) : Reach exG exU c :=
  .step (o := .snapshot ⟨2, exFour.needSnapshot⟩ false (fun _ => false)) exFour_reach (need_closed exU_sound exFour_reach) h

/-- A snapshot of a part: only the first send and the contract's receive. The rest stays. -/
example : (exFour.snapshot ⟨2, [(1, 2, 21), (3, 2, 22)]⟩ false (fun _ => false)).map (·.unconf) = some [exR, exT] := by decide +kernel

/-- A clean-up: the contract's producer is not right any more; what rests on its block goes with it, the sends of 1 stay. -/
example : (exFour.snapshot ⟨2, []⟩ false (fun b => b.addr = 3)).map (·.unconf) = some [exS, exT] := by decide +kernel

/-! ### Findings -/

/-- A send to 2 with a send list: nothing forbids it. -/
def exA : Blk := ⟨31, 1, 2, 11, .send, 2, 0, [⟨32, 2⟩]⟩
def exA1 : Blk := ⟨33, 2, 2, 12, .recv, 0, 31, []⟩
def exA2 : Blk := ⟨34, 2, 3, 33, .recv, 0, 32, []⟩

def exTwice : Chain := (((genesis [exG1, exG2, exG3]).insert exG exA).insert exG exA1).insert exG exA2

/-- **C61** is false for sends that carry a send list: `verifySendBlockIntegrity` does not look at it
(ledger/verifier/account_verifier.go:201-252), the index takes its hashes in as sends
(ledger/chain/index/insert.go:89-105), and a look-up by such a hash gives the carrying block
(ledger/chain/account_block.go:119-131). So the addressee receives the amount of the one send twice. -/
theorem attached_send_received_twice :
    exA ∈ exTwice.all ∧ exA1 ∈ exTwice.all ∧ exA2 ∈ exTwice.all ∧ exA1.isRecv = true ∧ exA2.isRecv = true ∧ exA1 ≠ exA2 ∧
    exTwice.byHash exA1.src = some exA ∧ exTwice.byHash exA2.src = some exA := by decide +kernel

/-- With three hashes attached there are four sends on the road, all of them the same block. -/
def carrier (n : Nat) : Blk := ⟨31, 1, 2, 11, .send, 2, 0, (List.range n).map (fun i => ⟨1000 + 2 * i, 2⟩)⟩

example : (carrier 3).outs.map (·.hash) = [31, 1000, 1002, 1004] := by decide +kernel

def exP : Blk := ⟨41, 1, 2, 11, .send, 2, 0, []⟩
def exP1 : Blk := ⟨42, 2, 2, 12, .recv, 0, 41, []⟩
def exP2 : Blk := ⟨43, 2, 3, 42, .recv, 0, 41, []⟩

/-- A snapshot confirms the receive, not the send: it is accepted (ledger/verifier/snapshot_verifier.go:107-128,
ledger/chain/insert.go:76-101). -/
def exOpen : Option Chain :=
  (((genesis [exG1, exG2, exG3]).insert exG exP).insert exG exP1).snapshot ⟨2, [(2, 2, 42)]⟩ false (fun _ => false)

/-- After a restart (or the deletion of the send) the receive is confirmed and its send is not in the ledger. -/
theorem open_snapshot_orphan :
    ∃ c, exOpen = some c ∧ exP1 ∈ c.restart.all ∧ c.restart.byHash exP1.src = none ∧
      (c.deleteHash 41).map (fun d => (decide (exP1 ∈ d.all), d.byHash exP1.src)) = some (true, none) := by
  cases h : exOpen with
  | none => exact absurd h (by decide +kernel)
  | some c =>
    refine ⟨c, rfl, ?_⟩
    have : exOpen.map (fun c => (decide (exP1 ∈ c.restart.all), c.restart.byHash exP1.src,
        (c.deleteHash 41).map (fun d => (decide (exP1 ∈ d.all), d.byHash exP1.src)))) = some (true, none, some (true, none)) := by decide +kernel
    rw [h] at this
    simp only [Option.map_some, Option.some.injEq, Prod.mk.injEq, decide_eq_true_eq] at this
    exact this

/-- **C61** And then the send, inserted again, is received a second time. -/
theorem open_snapshot_received_twice :
    ∃ c, exOpen = some c ∧ ((c.restart.insert exG exP).insert exG exP2).all = [exG1, exG2, exG3, exP1, exP, exP2] ∧
      exP1.takes exP.hash = true ∧ exP2.takes exP.hash = true := by
  cases h : exOpen with
  | none => exact absurd h (by decide +kernel)
  | some c =>
    refine ⟨c, rfl, ?_⟩
    have : exOpen.map (fun c => ((c.restart.insert exG exP).insert exG exP2).all) = some [exG1, exG2, exG3, exP1, exP, exP2] := by decide +kernel
    rw [h] at this
    simp only [Option.map_some, Option.some.injEq] at this
    exact ⟨this, by decide +kernel, by decide +kernel⟩

/-- A rollback does not take away the index entries of a carried send: they stay on the road after their block is gone. -/
theorem attached_send_stays :
    (((genesis [exG1, exG2, exG3]).insert exG exA).deleteHash 31).map (fun c => (c.all, c.onRoad 2)) = some ([exG1, exG2, exG3], [32]) := by
  decide +kernel

end Verif.Lattice
