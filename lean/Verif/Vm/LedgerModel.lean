/-!
# Model of block execution: how send and receive blocks move value

Source: `/repo/vm/vm.go`, `/repo/vm/util/db_helper.go`.

Every account has its own chain. A send block takes value off the sender; the receiver's chain later takes it up with a
receive block, and a contract's receive block carries the list of sends the contract made. A state holds all balances,
all contract data and the sends not yet received; a step is one block.

What the executed programs decide is left open: the outcome of a contract run (`Outcome`) and the answer of a built-in
method to a send request (`fee`) are part of the step, so a statement about all steps covers all contracts.

Simplifications.
* Amounts of user blocks are non-negative: the verifier rejects others (account_verifier.go:219-224). Amounts in contract
  sends are 256-bit words.
* Quota only decides whether a block is produced at all; "not produced" is the step not being taken (C05, C10-C12 are
  about quota). Logs, hashes and block types other than the ones below are left out.
* Which send a receive block takes up is a step argument; a send is taken up at most once (the verifier refuses a second
  receive, account_verifier.go).
-/

namespace Verif.Vm

/-- Balances: `db.GetBalance` / `db.SetBalance`, one record per address and token. -/
abbrev Bal := List ((Nat × Nat) × Int)

/-- `db.GetBalance`: a missing record is zero. -/
def getBal (a t : Nat) : Bal → Int
  | [] => 0
  | (k, v) :: rest => if k = (a, t) then v else getBal a t rest

/-- `db.SetBalance`. -/
def setBal (a t : Nat) (v : Int) : Bal → Bal
  | [] => [((a, t), v)]
  | (k, w) :: rest => if k = (a, t) then (k, v) :: rest else (k, w) :: setBal a t v rest

/-- `util.AddBalance`: db_helper.go:26-31. -/
def addBalance (b : Bal) (a t n : Nat) : Bal := setBal a t (getBal a t b + n) b

/-- `util.SubBalance`: db_helper.go:37-47; `none` is `false`. -/
def subBalance (b : Bal) (a t n : Nat) : Option Bal :=
  if getBal a t b ≥ n then some (setBal a t (getBal a t b - n) b) else none

/-- `ledger.ViteTokenId`. -/
def vite : Nat := 0

/-- Addresses of the governance and asset contracts: `types.AddressGovernance`, `types.AddressAsset`. -/
def governanceAddr : Nat := 1
def assetAddr : Nat := 2

/-- `createContractFee`: 10 VITE, vm/params.go:29. -/
def createContractFee : Nat := 10 * 10 ^ 18

/-- Types of send blocks. -/
inductive Kind
  | create | call | reward | refund
  deriving DecidableEq, Repr

/-- A send block as recorded in the chain. -/
structure Send where
  from_ : Nat
  dest : Nat
  kind : Kind
  token : Nat
  amount : Nat
  fee : Nat
  deriving DecidableEq, Repr

/-- A send request, by a user or by a contract. `fee` is the answer of the destination's built-in method, if the
destination is a built-in contract: `GetFee`, or `none` when the method does not exist or `GetFee` or `DoSend` refuse. -/
structure Request where
  kind : Kind
  dest : Nat
  token : Nat
  amount : Nat
  fee : Option Nat
  deriving DecidableEq, Repr

/-- What kind of account an address is. -/
structure Env where
  /-- The address belongs to a built-in contract (`GetBuiltinContractMethod`, contracts.go:253-285). -/
  builtin : Nat → Bool
  /-- The address is a contract with stored meta data. -/
  contract : Nat → Bool
  /-- `upgrade.IsSeedUpgrade`. -/
  seed : Bool

/-- `canTransfer`: vm.go:82-99. -/
def canTransfer (b : Bal) (a t amount fee : Nat) : Bool :=
  if fee = 0 then decide ((amount : Int) ≤ getBal a t b)
  else if t = vite then decide ((amount + fee : Int) ≤ getBal a t b)
  else decide ((amount : Int) ≤ getBal a t b) && decide ((fee : Int) ≤ getBal a vite b)

/-- Taking amount and fee off the sender: vm.go:349-358, 478-484. -/
def pay (b : Bal) (a t amount fee : Nat) : Option Bal :=
  if canTransfer b a t amount fee then
    (subBalance b a t amount).bind (fun b => subBalance b a vite fee)
  else none

/-- `sendCreate`: vm.go:273-365; the checks on the data are part of whether the step is taken. -/
def sendCreate (b : Bal) (a : Nat) (r : Request) : Option (Bal × Send) :=
  (pay b a r.token r.amount createContractFee).map
    (fun b => (b, ⟨a, r.dest, .create, r.token, r.amount, createContractFee⟩))

/-- `sendCall`: vm.go:449-503. -/
def sendCall (e : Env) (b : Bal) (a : Nat) (r : Request) : Option (Bal × Send) :=
  if e.builtin r.dest then
    r.fee.bind (fun fee => (pay b a r.token r.amount fee).map (fun b => (b, ⟨a, r.dest, .call, r.token, r.amount, fee⟩)))
  else
    if canTransfer b a r.token r.amount 0 then
      (subBalance b a r.token r.amount).map (fun b => (b, ⟨a, r.dest, .call, r.token, r.amount, 0⟩))
    else none

/-- `sendReward`: vm.go:717-736. Nothing is taken off the sender. -/
def sendReward (b : Bal) (a : Nat) (r : Request) : Option (Bal × Send) :=
  if a ≠ governanceAddr ∧ a ≠ assetAddr then none else some (b, ⟨a, r.dest, .reward, r.token, r.amount, 0⟩)

/-- `sendRefund`: vm.go:738-758. -/
def sendRefund (b : Bal) (a : Nat) (r : Request) : Option (Bal × Send) :=
  if canTransfer b a r.token r.amount 0 then
    (subBalance b a r.token r.amount).map (fun b => (b, ⟨a, r.dest, .refund, r.token, r.amount, 0⟩))
  else none

/-- One entry of `doSendBlockList`: vm.go:846-862. A contract has no way to send a create block
(the switch leaves `sendBlock` nil and the next line dereferences it). -/
def sendOne (e : Env) (b : Bal) (a : Nat) (r : Request) : Option (Bal × Send) :=
  match r.kind with
  | .call => sendCall e b a r
  | .reward => sendReward b a r
  | .refund => sendRefund b a r
  | .create => none

/-- `doSendBlockList`: vm.go:840-867. -/
def sendList (e : Env) (a : Nat) : Bal → List Request → Option (Bal × List Send)
  | b, [] => some (b, [])
  | b, r :: rs =>
    match sendOne e b a r with
    | none => none
    | some (b, s) => (sendList e a b rs).map (fun q => (q.1, s :: q.2))

/-- The state: balances, contract data, sends on their way, and counters (not in the code) of what was minted and
burned per token. -/
structure Ledger (D : Type) where
  bal : Bal
  data : Nat → D
  flight : List Send
  minted : Nat → Nat
  burned : Nat → Nat

/-- How a contract run ends. -/
inductive Outcome (D : Type)
  /-- No receive block is produced now: out of quota with a retry, no reliable status, address collision. -/
  | later
  /-- The call depth is exhausted (`checkDepth`). -/
  | tooDeep
  /-- The code finished: new data, whether the asset contract destroyed the received amount (`Burn`,
  contracts_asset.go:257), and the sends it wants to make. `fee` and `callback` as below, used if a send fails. -/
  | done (data : D) (burn : Bool) (sends : List Request) (fee : Option Nat) (callback : Bool)
  /-- The code failed. `fee` is what the caller answers to the refund call of a built-in contract if the caller is a
  built-in contract; `callback` is `needRefund` of `GetRefundData`. -/
  | failed (fee : Option Nat) (callback : Bool)

/-- Counting per token. -/
def bump (f : Nat → Nat) (t n : Nat) : Nat → Nat := fun x => if x = t then f x + n else f x

/-- Minted by a list of sends: the reward sends. -/
def mint (f : Nat → Nat) (ss : List Send) : Nat → Nat :=
  ss.foldl (fun f s => if s.kind = .reward then bump f s.token s.amount else f) f

/-- The requests `doRefund` appends: vm.go:663-715. -/
def refundRequests (s : Send) (kind : Kind) (fee : Option Nat) (callback : Bool) : List Request :=
  if s.amount > 0 ∧ s.fee > 0 ∧ s.token = vite then [⟨kind, s.from_, vite, s.amount + s.fee, fee⟩]
  else
    let l := (if s.amount > 0 then [⟨kind, s.from_, s.token, s.amount, fee⟩] else []) ++
      (if s.fee > 0 then [⟨kind, s.from_, vite, s.fee, fee⟩] else [])
    if l = [] ∧ callback then [⟨.call, s.from_, vite, 0, fee⟩] else l

/-- The additions `doRefund` makes to the contract's balance so that it can pay: vm.go:675, 687, 699. -/
def refundCredit (b : Bal) (a : Nat) (s : Send) : Bal :=
  if s.amount > 0 ∧ s.fee > 0 ∧ s.token = vite then addBalance b a vite (s.amount + s.fee)
  else
    let b := if s.amount > 0 then addBalance b a s.token s.amount else b
    if s.fee > 0 then addBalance b a vite s.fee else b

/-- The failure branches of `receiveCall`: vm.go:559-573, 628-660; `none` is the logged "impossible receive error". -/
def refundAll (e : Env) (b : Bal) (a : Nat) (s : Send) (kind : Kind) (fee : Option Nat) (callback : Bool) :
    Option (Bal × List Send) :=
  sendList e a (refundCredit b a s) (refundRequests s kind fee callback)

/-- Running a contract on a received send: credit, run, send; `none` means it has to be undone: vm.go:548-557, 594-617. -/
def runBody (e : Env) (b : Bal) (a : Nat) (s : Send) (burn : Bool) (sends : List Request) : Option (Bal × List Send) :=
  let b := addBalance b a s.token s.amount
  (if burn ∧ a = assetAddr then subBalance b a s.token s.amount else some b).bind (fun b => sendList e a b sends)

/-- What the burn of a successful run destroys. -/
def burnOf (a : Nat) (s : Send) (burn : Bool) : Nat := if burn ∧ a = assetAddr then s.amount else 0

variable {D : Type}

/-- A receive that only credits the receiver: vm.go:524-529, 596-600, 784, 809. The fee of the send is gone. -/
def credit (L : Ledger D) (rest : List Send) (s : Send) : Ledger D :=
  { L with bal := addBalance L.bal s.dest s.token s.amount, flight := rest, burned := bump L.burned vite s.fee }

/-- The undo-and-refund branch: everything the run did is dropped (`revert`, vm.go:869-872). -/
def giveBack (e : Env) (L : Ledger D) (rest : List Send) (s : Send) (kind : Kind) (fee : Option Nat) (callback : Bool) :
    Ledger D :=
  match refundAll e L.bal s.dest s kind fee callback with
  | none => L
  | some (b, ss) => { L with bal := b, flight := rest ++ ss, minted := mint L.minted ss }

/-- A contract run in `receiveCall`, built-in (vm.go:531-574) or not (vm.go:595-660). -/
def receiveContract (e : Env) (L : Ledger D) (rest : List Send) (s : Send) (o : Outcome D) : Ledger D :=
  let kind := if e.builtin s.dest then Kind.call else Kind.refund
  match o with
  | .later => L
  | .tooDeep => credit L rest s
  | .failed fee callback => giveBack e L rest s kind fee (callback && e.builtin s.dest)
  | .done data burn sends fee callback =>
    match runBody e L.bal s.dest s burn sends with
    | none => giveBack e L rest s kind fee (callback && e.builtin s.dest)
    | some (b, ss) =>
      { bal := b, data := fun x => if x = s.dest then data else L.data x, flight := rest ++ ss
        minted := mint L.minted ss
        burned := bump (bump L.burned vite s.fee) s.token (burnOf s.dest s burn) }

/-- `receiveCall`: vm.go:521-661. -/
def receiveCall (e : Env) (L : Ledger D) (rest : List Send) (s : Send) (o : Outcome D) : Ledger D :=
  if e.builtin s.dest ∨ e.contract s.dest then receiveContract e L rest s o
  else match o with
    | .later => L
    | _ => credit L rest s

/-- The failure branch of `receiveCreate`: vm.go:414-441. -/
def giveBackAmount (e : Env) (L : Ledger D) (rest : List Send) (s : Send) : Ledger D :=
  match sendList e s.dest (if s.amount > 0 then addBalance L.bal s.dest s.token s.amount else L.bal)
      (if s.amount > 0 then [⟨.refund, s.from_, s.token, s.amount, none⟩] else []) with
  | none => L
  | some (b, ss) => { L with bal := b, flight := rest ++ ss, burned := bump L.burned vite s.fee }

/-- `receiveCreate`: vm.go:373-442. The amount is given back on failure, the fee is not. -/
def receiveCreate (e : Env) (L : Ledger D) (rest : List Send) (s : Send) (o : Outcome D) : Ledger D :=
  match o with
  | .later => L
  | .done data _ sends _ _ =>
    match sendList e s.dest (addBalance L.bal s.dest s.token s.amount) sends with
    | none => giveBackAmount e L rest s
    | some (b, ss) =>
      { bal := b, data := fun x => if x = s.dest then data else L.data x, flight := rest ++ ss
        minted := mint L.minted ss, burned := bump L.burned vite s.fee }
  | _ => giveBackAmount e L rest s

/-- `receiveReward`, `receiveRefund`: vm.go:760-813. -/
def receivePlain (L : Ledger D) (rest : List Send) (s : Send) (o : Outcome D) : Ledger D :=
  match o with
  | .later => L
  | _ => credit L rest s

/-- The receive branch of `RunV2`: vm.go:231-249. -/
def receive (e : Env) (L : Ledger D) (rest : List Send) (s : Send) (o : Outcome D) : Ledger D :=
  match s.kind with
  | .create => receiveCreate e L rest s o
  | .call => receiveCall e L rest s o
  | .reward => if e.seed then receivePlain L rest s o else receiveCall e L rest s o
  | .refund => receivePlain L rest s o

/-- One block. -/
inductive Step (D : Type)
  /-- A user's send block of type create or call: `RunV2`, vm.go:205-230. Other types are refused. -/
  | send (a : Nat) (r : Request)
  /-- The receive block that takes up the `i`-th open send. -/
  | recv (i : Nat) (o : Outcome D)

/-- Users can only send create and call blocks: vm.go:205-230, 250-252. -/
def userSend (e : Env) (b : Bal) (a : Nat) (r : Request) : Option (Bal × Send) :=
  match r.kind with
  | .create => sendCreate b a r
  | .call => sendCall e b a r
  | _ => none

def step (e : Env) (L : Ledger D) : Step D → Ledger D
  | .send a r =>
    match userSend e L.bal a r with
    | none => L
    | some (b, s) => { L with bal := b, flight := L.flight ++ [s] }
  | .recv i o =>
    match L.flight[i]? with
    | none => L
    | some s => receive e L (L.flight.eraseIdx i) s o

/-- A history. -/
def run (e : Env) (L : Ledger D) (steps : List (Step D)) : Ledger D := steps.foldl (step e) L

end Verif.Vm
