import Verif.Vm.LedgerModel

/-!
# Model of the asset contract

Source: `/repo/vm/contracts/contracts_asset.go`, `/repo/vm/contracts/abi/abi_asset.go`.

The contract's storage holds three kinds of records told apart by the length of the key: token records (10 bytes), id
lists per owner (21 bytes) and the next index per symbol (32 bytes, a hash). They are three tables here. Symbols, owners
and token ids are opaque numbers; the character checks on names (`checkToken`) and the id hash (`newTokenID`) are left
out: the id of an issued token is a step argument and may be any number, colliding ones included.
-/

namespace Verif.Builtin.Asset
open Verif.Vm

/-- `types.TokenInfo`, without name and decimals. -/
structure Info where
  symbol : Nat
  totalSupply : Int
  owner : Nat
  isReIssuable : Bool
  maxSupply : Int
  ownerBurnOnly : Bool
  index : Nat
  deriving DecidableEq, Repr

/-- The storage of the contract: token records, id lists (abi_asset.go:97-129) and next indexes. -/
structure State where
  info : Nat → Option Info
  owned : Nat → List Nat
  nextIndex : Nat → Nat

/-- `tokenNameIndexMax`: params.go:24. -/
def tokenNameIndexMax : Nat := 1000

/-- `helper.Tt256m1`. -/
def maxWord : Int := 2 ^ 256 - 1

/-- Calls of the contract. Amounts are what `UnpackMethod` yields for `uint256`: not negative. -/
inductive Method
  | issue (tokenId symbol : Nat) (totalSupply : Nat) (isReIssuable : Bool) (maxSupply : Nat) (ownerBurnOnly : Bool)
  | reIssue (tokenId amount receiver : Nat)
  | burn
  | transferOwnership (tokenId newOwner : Nat)
  | disableReIssue (tokenId : Nat)
  | getTokenInfo (tokenId : Nat)
  deriving DecidableEq, Repr

/-- `checkToken` without the character checks, after the Earth upgrade: contracts_asset.go:59-91. -/
def checkToken (totalSupply : Nat) (isReIssuable : Bool) (maxSupply : Nat) (ownerBurnOnly : Bool) : Bool :=
  if (totalSupply : Int) > maxWord then false
  else if !isReIssuable ∧ totalSupply = 0 then false
  else if isReIssuable then !(decide (maxSupply < totalSupply) || decide ((maxSupply : Int) > maxWord))
  else !(decide (maxSupply > 0) || ownerBurnOnly)

/-- `DoSend`: what is refused before the block is sent: contracts_asset.go:35-56, 169-181, 232-238, 311-327, 374-385. -/
def doSend (sender amount : Nat) : Method → Bool
  | .issue _ _ total re max ob => decide (amount = 0) && checkToken total re max ob
  | .reIssue _ n _ => decide (n > 0) && decide (amount = 0)
  | .burn => decide (amount > 0)
  | .transferOwnership _ newOwner => decide (amount = 0) && decide (newOwner ≠ sender)
  | .disableReIssue _ => decide (amount = 0)
  | .getTokenInfo _ => decide (amount = 0)

/-- Writing a table entry. -/
def upd {β : Type} (f : Nat → β) (k : Nat) (v : β) : Nat → β := fun x => if x = k then v else f x

/-- `DeleteTokenID`: abi_asset.go:105-116: the first occurrence goes. -/
def deleteTokenID (l : List Nat) (id : Nat) : List Nat := l.erase id

/-- Result of a call: the new storage, whether the received amount is destroyed, and the sends. -/
structure Result where
  st : State
  burn : Bool
  sends : List Request

/-- `MethodIssue.DoReceive`: contracts_asset.go:92-147. -/
def issue (st : State) (sender id symbol total : Nat) (re : Bool) (max : Nat) (ob : Bool) : Option Result :=
  if (st.info id).isSome then none
  else if st.nextIndex symbol = tokenNameIndexMax then none
  else some
    { st := { info := upd st.info id (some ⟨symbol, total, sender, re, max, ob, st.nextIndex symbol⟩)
              owned := upd st.owned sender (st.owned sender ++ [id])
              nextIndex := upd st.nextIndex symbol (st.nextIndex symbol + 1) }
      burn := false
      sends := [⟨.reward, sender, id, total, none⟩] }

/-- `MethodReIssue.DoReceive`: contracts_asset.go:183-213. -/
def reIssue (st : State) (sender id amount receiver : Nat) : Option Result :=
  match st.info id with
  | none => none
  | some x =>
    if !x.isReIssuable ∨ x.owner ≠ sender ∨ x.maxSupply - x.totalSupply < amount then none
    else some
      { st := { st with info := upd st.info id (some { x with totalSupply := x.totalSupply + amount }) }
        burn := false
        sends := [⟨.reward, receiver, id, amount, none⟩] }

/-- `MethodBurn.DoReceive` after the Earth upgrade: contracts_asset.go:239-264. The token is the one received. -/
def burn (st : State) (sender token amount : Nat) : Option Result :=
  match st.info token with
  | none => none
  | some x =>
    if x.ownerBurnOnly ∧ x.owner ≠ sender then none
    else some
      { st := { st with info := upd st.info token (some { x with totalSupply := x.totalSupply - amount }) }
        burn := true
        sends := [] }

/-- `MethodTransferOwnership.DoReceive`: contracts_asset.go:328-357. -/
def transferOwnership (st : State) (sender id newOwner : Nat) : Option Result :=
  match st.info id with
  | none => none
  | some x =>
    if !x.isReIssuable ∨ x.owner ≠ sender then none
    else
      let owned := upd st.owned sender (deleteTokenID (st.owned sender) id)
      some
        { st := { st with
            info := upd st.info id (some { x with owner := newOwner })
            owned := upd owned newOwner (owned newOwner ++ [id]) }
          burn := false
          sends := [] }

/-- `MethodDisableReIssue.DoReceive`: contracts_asset.go:386-409. -/
def disableReIssue (st : State) (sender id : Nat) : Option Result :=
  match st.info id with
  | none => none
  | some x =>
    if !x.isReIssuable ∨ x.owner ≠ sender then none
    else some
      { st := { st with info := upd st.info id (some { x with isReIssuable := false, maxSupply := 0, ownerBurnOnly := false }) }
        burn := false
        sends := [] }

/-- `DoReceive` of a method on a received send: `none` is the error return. `fee` is the caller's answer to the callback
of `GetTokenInfo` if the caller is a built-in contract: contracts_asset.go:452-482. -/
def doReceive (st : State) (sender token amount : Nat) (fee : Option Nat) : Method → Option Result
  | .issue id symbol total re max ob => issue st sender id symbol total re max ob
  | .reIssue id n receiver => reIssue st sender id n receiver
  | .burn => burn st sender token amount
  | .transferOwnership id newOwner => transferOwnership st sender id newOwner
  | .disableReIssue id => disableReIssue st sender id
  | .getTokenInfo _ => some ⟨st, false, [⟨.call, sender, vite, 0, fee⟩]⟩

/-! ### The contract inside the ledger

The data of an account is `State × E`: the first part is the asset contract's storage, the second whatever other
contracts keep. -/

variable {E : Type}

/-- A step in which the asset contract runs its code: a finished run at its address is the run of one of its methods, on
a request that passed `DoSend`. The governance contract emits no reward sends itself (contracts_governance.go has none);
no contract is created at the address of the asset contract. What everybody else does is left open. -/
def Genuine (L : Ledger (State × E)) : Step (State × E) → Prop
  | .send _ _ => True
  | .recv i o => ∀ s, L.flight[i]? = some s → ∀ data burn sends fee callback, o = .done data burn sends fee callback →
      (s.dest = assetAddr → ∃ m feeAnswer res, doSend s.from_ s.amount m = true ∧
        doReceive (L.data assetAddr).1 s.from_ s.token s.amount feeAnswer m = some res ∧
        data.1 = res.st ∧ burn = res.burn ∧ sends = res.sends) ∧
      (s.dest = governanceAddr → ∀ r ∈ sends, r.kind ≠ .reward) ∧
      (s.kind = .create → s.dest ≠ assetAddr)

/-- A history of such steps. -/
def GenuineRun (e : Env) : Ledger (State × E) → List (Step (State × E)) → Prop
  | _, [] => True
  | L, x :: xs => Genuine L x ∧ GenuineRun e (step e L x) xs

end Verif.Builtin.Asset
