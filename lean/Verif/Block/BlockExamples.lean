import Verif.Block.BlockProps
import Verif.Block.MsgProps

/-! Concrete blocks: the hypotheses are met, and the findings at work. -/

namespace Verif.Block
open Verif.Bytes Spec

/-- A hash function for examples -/
def exH (x : Bytes) : Hash := be 32 (x.foldl (fun a b => (a * 65599 + b.toNat + 1) % (2 ^ 255 - 19)) 7)

theorem exH_sized : Sized exH := fun _ => be_length ..

def exSig (_ : Bytes) (h : Hash) (s : Bytes) : Bool := decide (s = h.take 4)
def exAlice : Addr := List.replicate 20 5 ++ [0]
def exBob : Addr := List.replicate 20 6 ++ [0]
def exCon : Addr := List.replicate 20 9 ++ [1]
def exToken : Bytes := List.replicate 10 3
def exAddrOf (_ : Bytes) : Addr := exAlice
def exPow (_ : Int) (_ : Bytes) (_ : Addr) (_ : Hash) : Bool := true

/-- With its hash and signed -/
def AccountBlock.seal (b : AccountBlock) : AccountBlock := { b with hash := b.computeHash exH, publicKey := [1], signature := (b.computeHash exH).take 4 }

/-- Alice sends Bob 300 with a note. -/
def exSend : AccountBlock :=
  AccountBlock.seal { AccountBlock.blank with blockType := 2, prevHash := List.replicate 32 7, height := 5, account := exAlice, toAddr := exBob, amount := some 300, token := exToken,
                                              fee := some 0, data := [1, 2, 3] }

example : sendAccepted exH exSig exAddrOf exPow 0 exSend = true := by decide +kernel
example : sendAccepted exH exSig exAddrOf exPow 0 { exSend with amount := some 301 } = false := by decide +kernel
example : sendAccepted exH exSig exAddrOf exPow 5 exSend = false := by decide +kernel

theorem exSend_fits : Fits exSend :=
  ⟨by decide +kernel, by decide +kernel, by decide +kernel, by decide +kernel, by decide +kernel, by decide +kernel, by decide +kernel, (by intro x h; cases h),
    by decide +kernel, by decide +kernel, by decide +kernel, (by intro s h; cases h)⟩

example : Plain exSend := ⟨rfl, rfl⟩

/-- The same transfer with another quota: nothing clashes. -/
example : NoClash exH [exSend.source exH [], AccountBlock.source exH { exSend with quotaUsed := 9 } [], exSend.data, exSend.data] := by
  unfold NoClash; decide +kernel

/-- Nothing clashes between a transfer of 300 and one of 301 either, and the hashes differ. -/
example : NoClash exH [exSend.source exH [], AccountBlock.source exH { exSend with amount := some 301 } [], exSend.data, exSend.data] := by
  unfold NoClash; decide +kernel
example : exSend.computeHash exH ≠ AccountBlock.computeHash exH { exSend with amount := some 301 } := by decide +kernel

/-! ### Two accepted sends with one hash -/

def exX : Bytes := List.replicate 24 8

/-- Alice's send with logs it cannot have -/
def exLogged : AccountBlock := AccountBlock.seal { exSend with data := [], logHash := some (List.replicate 8 0 ++ exX) }

/-- and the block that anyone can make of it: no logs, an attached send -/
def exListed : AccountBlock := { exLogged with logHash := none, sends := [{ exSend with hash := exX ++ List.replicate 8 0 }] }

theorem two_accepted :
    sendAccepted exH exSig exAddrOf exPow 0 exLogged = true ∧ sendAccepted exH exSig exAddrOf exPow 0 exListed = true ∧ exLogged.hash = exListed.hash ∧
      exLogged.logHash ≠ exListed.logHash ∧ exLogged.sends.length ≠ exListed.sends.length := by decide +kernel

/-! ### A receive of a user -/

def exUser : AccountBlock :=
  AccountBlock.seal { AccountBlock.blank with blockType := 4, prevHash := List.replicate 32 4, height := 9, account := exBob, fromHash := exSend.hash, fee := some 0 }

example : receiveIntegrity exUser = true ∧ isContract exUser.account = false ∧ verifyHash exH exUser = true := by decide +kernel

theorem exUser_fits : Fits exUser :=
  ⟨by decide +kernel, by decide +kernel, by decide +kernel, by decide +kernel, by decide +kernel, by decide +kernel, by decide +kernel, (by intro x h; cases h),
    by decide +kernel, by decide +kernel, by decide +kernel, (by intro s h; cases h)⟩

/-! ### A receive of a contract -/

def exOut (to' : Addr) (n : Int) : AccountBlock :=
  { AccountBlock.blank with blockType := 2, account := exCon, toAddr := to', amount := some n, token := exToken, fee := some 0 }

def exHost : AccountBlock :=
  { AccountBlock.blank with blockType := 4, prevHash := List.replicate 32 4, height := 9, account := exCon, fromHash := exSend.hash, data := List.replicate 33 2, fee := some 0,
                            logHash := some (List.replicate 32 1) }

/-- The contract pays Alice and Bob. -/
def exRecv : AccountBlock :=
  AccountBlock.seal { exHost with
    sends := [{ exOut exAlice 100 with hash := (exOut exAlice 100).computeSendHash exH exHost 0 },
              { exOut exBob 200 with hash := (exOut exBob 200).computeSendHash exH exHost 1 }] }

example : verifyHash exH exRecv = true ∧ receiveIntegrity exRecv = true ∧ verifyNonce exPow exRecv = true ∧ isContract exRecv.account = true := by decide +kernel

theorem exRecv_fits : Fits exRecv :=
  ⟨by decide +kernel, by decide +kernel, by decide +kernel, by decide +kernel, by decide +kernel, by decide +kernel, by decide +kernel,
    (by intro x h; cases h; decide +kernel), by decide +kernel, by decide +kernel, by decide +kernel, by
      intro s h
      have : ∀ s ∈ exRecv.sends, s.hash.length = 32 := by
        intro s hs
        simp only [exRecv, AccountBlock.seal, List.mem_cons, List.not_mem_nil, or_false] at hs
        rcases hs with rfl | rfl <;> decide +kernel
      exact this s h⟩

theorem exRecv_contract : ContractReceive exH exRecv :=
  ⟨by decide +kernel, by decide +kernel, by decide +kernel, by intro _; decide +kernel, (by intro x h; cases h; decide +kernel)⟩

/-- Swapping the two sends, with their hashes, is noticed. -/
example : verifyHash exH (AccountBlock.seal { exRecv with sends := exRecv.sends.reverse }) = false := by decide +kernel

/-! ### Messages -/

theorem exRecv_typed : Typed 2 exRecv := by
  refine ⟨by decide +kernel, by decide +kernel, by decide +kernel, by decide +kernel, by decide +kernel, by decide +kernel, (by intro x h; cases h; decide +kernel), ?_⟩
  intro s hs
  simp only [exRecv, AccountBlock.seal, List.mem_cons, List.not_mem_nil, or_false] at hs
  rcases hs with rfl | rfl
  · exact ⟨by decide +kernel, by decide +kernel, by decide +kernel, by decide +kernel, by decide +kernel, by decide +kernel, (by intro x h; cases h), (by intro x h; cases h)⟩
  · exact ⟨by decide +kernel, by decide +kernel, by decide +kernel, by decide +kernel, by decide +kernel, by decide +kernel, (by intro x h; cases h), (by intro x h; cases h)⟩

theorem exRecv_regular : Regular 2 exRecv := by
  refine ⟨by decide +kernel, by decide +kernel, by decide +kernel, ?_, ⟨0, rfl, le_refl _⟩, (by intro x h; cases h), ?_⟩
  · rw [if_neg (by decide +kernel)]; exact ⟨rfl, rfl⟩
  · intro s hs
    simp only [exRecv, AccountBlock.seal, List.mem_cons, List.not_mem_nil, or_false] at hs
    rcases hs with rfl | rfl
    · refine ⟨by decide +kernel, by decide +kernel, by decide +kernel, ?_, ⟨0, rfl, le_refl _⟩, (by intro x h; cases h), (by intro x h; cases h)⟩
      rw [if_pos (by decide +kernel)]; exact ⟨100, rfl, by decide⟩
    · refine ⟨by decide +kernel, by decide +kernel, by decide +kernel, ?_, ⟨0, rfl, le_refl _⟩, (by intro x h; cases h), (by intro x h; cases h)⟩
      rw [if_pos (by decide +kernel)]; exact ⟨200, rfl, by decide⟩

example : deProto 2 exRecv.proto = .ok exRecv := round_trip exRecv_typed exRecv_regular

/-- A first block with a previous hash does not arrive as it was sent, and what arrives has another hash. -/
def exFirst : AccountBlock := { AccountBlock.blank with blockType := 4, prevHash := List.replicate 32 7, height := 1, account := exAlice, fee := some 0 }

theorem first_changed : ∃ c, deProto 1 exFirst.proto = .ok c ∧ c.prevHash = zeroHash ∧ c.computeHash exH ≠ exFirst.computeHash exH := by
  have ht : Typed 1 exFirst :=
    ⟨by decide +kernel, by decide +kernel, by decide +kernel, by decide +kernel, by decide +kernel, by decide +kernel, (by intro x h; cases h), (by intro x h; cases h)⟩
  refine ⟨{ exFirst with prevHash := zeroHash }, ?_, rfl, by decide +kernel⟩
  rw [show exFirst.proto = _ from AccountBlock.proto.eq_1 ..]
  rfl

/-- A message with a fault in the list of sends: reading it reports no error and gives a block without a signature. -/
def exFaulty : PbAccount :=
  { exSend.proto with sends := [{ (AccountBlock.blank.proto) with account := [] }], signature := [1, 2, 3] }

/-- **C75**, finding: `Deserialize` hides the error of `DeProto`. -/
theorem fault_hidden : (∃ b, deProto 2 exFaulty = .error b) ∧ (deserialize 2 exFaulty).hash = exSend.hash ∧ (deserialize 2 exFaulty).signature = [] := by
  have h : exFaulty = { (AccountBlock.proto exSend) with sends := [{ (AccountBlock.blank.proto) with account := [] }], signature := [1, 2, 3] } := rfl
  rw [show AccountBlock.proto exSend = _ from AccountBlock.proto.eq_1 .., show AccountBlock.proto AccountBlock.blank = _ from AccountBlock.proto.eq_1 ..] at h
  rw [h]
  exact ⟨⟨_, rfl⟩, rfl, rfl⟩

/-! ### Snapshot blocks -/

def exPoints : Points := ⟨fun h => if h < 100 then none else some [83, 101, 101, 100], fun h => decide (200 ≤ h)⟩

def exItems : List Item := [⟨exBob, List.replicate 32 2, 4⟩, ⟨exAlice, List.replicate 32 1, 3⟩, ⟨exCon, List.replicate 32 3, 70⟩]

def exSnap : SnapshotBlock :=
  { hash := List.replicate 32 1, prevHash := List.replicate 32 2, height := 150, publicKey := [1], signature := [2], time := 1600000000123456789, seed := 77, seedHash := none,
    content := exItems, version := 10 }

theorem exSnap_fits : FitsSnapshot exSnap :=
  ⟨by decide +kernel, by decide +kernel, by decide +kernel, by decide +kernel, by decide +kernel, (by intro x h; cases h), by decide +kernel, by decide +kernel, by decide +kernel⟩

example : exSnap.computeHash exH exPoints = SnapshotBlock.computeHash exH exPoints { exSnap with content := exItems.reverse, time := 1600000000000000000, version := 3, signature := [] } := by
  decide +kernel
example : exSnap.computeHash exH exPoints ≠ SnapshotBlock.computeHash exH exPoints { exSnap with content := exItems.tail } := by decide +kernel
example : NoClash exH [exSnap.source exPoints, SnapshotBlock.source exPoints { exSnap with content := exItems.reverse }] := by unfold NoClash; decide +kernel
example : (deProtoSnapshot exSnap.proto).map (·.content) = some [⟨exCon, List.replicate 32 3, 70⟩, ⟨exBob, List.replicate 32 2, 4⟩, ⟨exAlice, List.replicate 32 1, 3⟩] := by decide +kernel

/-- A message with two entries for one address is read without complaint, and the last one counts. -/
example : (deProtoSnapshot { exSnap.proto with content := (Item.mk exBob (List.replicate 32 2) 4).bytes ++ (Item.mk exBob (List.replicate 32 5) 6).bytes }).map (·.content) =
    some [⟨exBob, List.replicate 32 5, 6⟩] := by decide +kernel

/-! ### Logs -/

example : logListHash exH [⟨[List.replicate 32 1], [5]⟩, ⟨[], [6, 7]⟩] true exCon (List.replicate 32 4) = logListHash exH [⟨[], List.replicate 32 1 ++ [5, 6, 7]⟩] true exCon (List.replicate 32 4) := by
  decide +kernel
example : SameLogShape [⟨[List.replicate 32 1], [5]⟩, ⟨[], [6, 7]⟩] [⟨[List.replicate 32 9], [5]⟩, ⟨[], [8, 8]⟩] := by unfold SameLogShape; decide +kernel

end Verif.Block
