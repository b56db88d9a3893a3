import Verif.Base.Bytes
import Verif.Consensus.ElectModel

/-!
# Blocks: hashes, checks of them and the form in which they are sent and stored

Models `interfaces/core/account_block.go`, `snapshot_block.go` and `vm_log_list.go`, the checks of hash, signature, nonce and fields of
`ledger/verifier/account_verifier.go`, and what the virtual machine does to the fields of a user's send (`vm/vm.go`).

Simplifications: hashes, addresses and token ids are byte strings, of the lengths that `Typed` gives. `crypto.Hash256` is a parameter `H`. A big
number is an integer; a send without an amount panics in Go, here its amount counts as zero. The messages of `vitepb` are structures; writing a
message and reading it back gives the message (the library `golang/protobuf` is not modelled; an empty byte string may come back as nil, and both
are `[]` here).
-/

namespace Verif.Block
open Verif.Bytes

abbrev Hash := Bytes
abbrev Addr := Bytes

/-- `big.Int.Bytes`: the absolute value, big-endian, without leading zeros -/
def bigBytes (x : Int) : Bytes := if x.natAbs = 0 then [] else be (Nat.log2 x.natAbs / 8 + 1) x.natAbs

/-- `LeftPadBytes`, `common/bytes.go:120-129` -/
def leftPad (l : Bytes) (n : Nat) : Bytes := List.replicate (n - l.length) 0 ++ l

/-- `AccountBlock`, `account_block.go:30-66`, without the cached producer -/
structure AccountBlock where
  blockType : UInt8
  hash : Hash
  prevHash : Hash
  height : Nat
  account : Addr
  publicKey : Bytes
  toAddr : Addr
  amount : Option Int
  token : Bytes
  fromHash : Hash
  data : Bytes
  quota : Nat
  quotaUsed : Nat
  fee : Option Int
  logHash : Option Hash
  difficulty : Option Int
  nonce : Bytes
  sends : List AccountBlock
  signature : Bytes
  deriving Repr

/-- `IsSendBlock`, `account_block.go:421-426` -/
def isSend (t : UInt8) : Bool := t == 1 || t == 2 || t == 3 || t == 6

/-- `IsReceiveBlock`, `account_block.go:435-439` -/
def isReceive (t : UInt8) : Bool := t == 4 || t == 5 || t == 7

/-- The fields that only a send or only a receive has, `account_block.go:155-165` -/
def AccountBlock.middle (b : AccountBlock) : Bytes :=
  if isSend b.blockType then b.toAddr ++ leftPad (bigBytes (b.amount.getD 0)) 32 ++ b.token else b.fromHash

/-- `hashSource`, `account_block.go:139-195` -/
def AccountBlock.source (H : Bytes → Hash) (b : AccountBlock) (extra : Bytes) : Bytes :=
  [b.blockType] ++ b.prevHash ++ be 8 b.height ++ b.account ++ b.middle ++
    ((if b.data ≠ [] then H b.data else []) ++ leftPad ((b.fee.map bigBytes).getD []) 32 ++ (b.logHash.getD []) ++ leftPad b.nonce 8 ++
      (b.sends.map (·.hash)).flatten ++ extra)

/-- `ComputeHash`, `account_block.go:197-203` -/
def AccountBlock.computeHash (H : Bytes → Hash) (b : AccountBlock) : Hash := H (b.source H [])

/-- What a send of a contract adds, `account_block.go:207-219`; the index is an `uint8`. -/
def hostBytes (host : AccountBlock) (index : Nat) : Bytes := host.prevHash ++ be 8 host.height ++ [UInt8.ofNat index]

/-- `ComputeSendHash`, `account_block.go:205-226` -/
def AccountBlock.computeSendHash (H : Bytes → Hash) (b host : AccountBlock) (index : Nat) : Hash := H (b.source H (hostBytes host index))

/-- `IsContractAddr`, `common/types/address.go`: the last byte is 1 -/
def isContract (a : Addr) : Bool := a.getLast? == some 1

def zeroHash : Hash := List.replicate 32 0

/-- The loop over the sends in `verifyHash`, `account_verifier.go:318-322` -/
def verifySends (H : Bytes → Hash) (host : AccountBlock) : Nat → List AccountBlock → Bool
  | _, [] => true
  | i, s :: l => decide (s.hash = s.computeSendHash H host i) && verifySends H host (i + 1) l

/-- `verifyHash`, `account_verifier.go:307-324` -/
def verifyHash (H : Bytes → Hash) (b : AccountBlock) : Bool :=
  if b.hash = zeroHash then false
  else if b.computeHash H ≠ b.hash then false
  else if !isContract b.account || isSend b.blockType || b.sends.length ≤ 0 then true
  else verifySends H b 0 b.sends

/-- `verifySignature`, `account_verifier.go:286-305`; `sig` is `crypto.VerifySig` -/
def verifySignature (sig : Bytes → Hash → Bytes → Bool) (b : AccountBlock) : Bool :=
  if isContract b.account && isSend b.blockType then decide (b.signature.length = 0 ∧ b.publicKey.length = 0)
  else if b.signature.length ≤ 0 ∨ b.publicKey.length ≤ 0 then false
  else sig b.publicKey b.hash b.signature

/-- `verifySendBlockIntegrity`, `account_verifier.go:213-251`; a number has more than 256 bits from `2 ^ 256` on -/
def sendIntegrity (b : AccountBlock) : Bool :=
  if b.token = List.replicate 10 0 ∧ b.amount.getD 0 ≠ 0 then false
  else if b.amount.any (fun x => decide (x < 0 ∨ 2 ^ 256 ≤ x)) then false
  else if b.fee.any (fun x => decide (x < 0 ∨ 2 ^ 256 ≤ x)) then false
  else if b.fromHash ≠ zeroHash then false
  else if isContract b.account then decide (b.height = 0 ∧ b.signature.length = 0 ∧ b.publicKey.length = 0)
  else decide (b.height > 1)

/-- `verifyReceiveBlockIntegrity`, `account_verifier.go:253-284` -/
def receiveIntegrity (b : AccountBlock) : Bool :=
  if b.token ≠ List.replicate 10 0 then false
  else if b.amount.getD 0 ≠ 0 then false
  else if b.fee.getD 0 ≠ 0 then false
  else if b.toAddr ≠ List.replicate 21 0 then false
  else if b.height = 0 then false
  else if b.data ≠ [] ∧ !isContract b.account then false
  else if b.sends ≠ [] ∧ !isContract b.account then false
  else b.sends.all sendIntegrity

/-- `verifyNonce`, `account_verifier.go:326-347`; `pow` is the test of the proof of work -/
def verifyNonce (pow : Int → Bytes → Addr → Hash → Bool) (b : AccountBlock) : Bool :=
  if b.nonce.length ≠ 0 then
    if isContract b.account then false
    else match b.difficulty with
      | none => false
      | some d => if b.nonce.length ≠ 8 then false else pow d b.nonce b.account b.prevHash
  else b.difficulty.isNone

/-- What the machine makes of a user's send call: a copy whose fee and quotas it sets (`vm.go:360-410`, `updateBlock`, `vm.go:827-838`), with its hash
(`generator.go:178-186`). The log hash and the list of sends are those of the block given. -/
def vmSend (H : Bytes → Hash) (b : AccountBlock) (fee : Int) (quota quotaUsed : Nat) : AccountBlock :=
  let c := { b with fee := some fee, quota := quota, quotaUsed := quotaUsed }
  { c with hash := c.computeHash H }

/-- `verifyVMResult`, `account_verifier.go:414-473`: after the test of the hash every way through ends with an error -/
def vmResultOk (orig gen : AccountBlock) : Bool := decide (orig.hash = gen.hash)

/-- The tests of a user's send that only look at the block: `VerifyNetAccountBlock` (`verifier.go:68-78`), `verifySelf` (`account_verifier.go:98-118`)
with `verifyProducerLegality` (`:349-379`; `addrOf` is `PubkeyToAddress`), and the comparison with what the machine makes of it. -/
def sendAccepted (H : Bytes → Hash) (sig : Bytes → Hash → Bytes → Bool) (addrOf : Bytes → Addr) (pow : Int → Bytes → Addr → Hash → Bool) (fee : Int)
    (b : AccountBlock) : Bool :=
  isSend b.blockType && !isContract b.account && verifyHash H b && verifySignature sig b && sendIntegrity b && decide (addrOf b.publicKey = b.account) &&
    verifyNonce pow b && vmResultOk b (vmSend H b fee b.quota b.quotaUsed)

/-! ### Snapshot blocks -/

/-- An entry of a snapshot's content -/
structure Item where
  addr : Addr
  hash : Hash
  height : Nat
  deriving DecidableEq, Repr

/-- `SnapshotBlock`, `snapshot_block.go:120-140`. The content is a map; here it is the list of its entries in the order in which the map gives them. -/
structure SnapshotBlock where
  hash : Hash
  prevHash : Hash
  height : Nat
  publicKey : Bytes
  signature : Bytes
  /-- nanoseconds -/
  time : Int
  seed : Nat
  seedHash : Option Hash
  content : List Item
  version : Nat
  deriving DecidableEq, Repr

/-- `scItemToBytes`, `snapshot_block.go:25-38` -/
def Item.bytes (x : Item) : Bytes := x.addr ++ x.hash ++ be 8 x.height

/-- `Less`, `snapshot_block.go:72-74` -/
def bytesLe (a b : Bytes) : Bool := decide (bcmp a b ≠ .gt)

/-- `bytesList`, `snapshot_block.go:62-69,78-82`: the entries sorted. No two are equal, so that every sort gives this list. -/
def bytesList (c : List Item) : List Bytes := Consensus.sortBy bytesLe (c.map Item.bytes)

/-- What depends on the height: the name of the upgrade point at a height (`GetCurPoint`) and whether versions are hashed (`IsLeafUpgrade`). -/
structure Points where
  name : Nat → Option Bytes
  leaf : Nat → Bool

/-- A signed number as 8 bytes, `uint64(x)` -/
def be64 (x : Int) : Bytes := be 8 (x % 2 ^ 64).toNat

/-- `Timestamp.Unix()` -/
def SnapshotBlock.unix (b : SnapshotBlock) : Int := b.time / 1000000000

/-- The bytes hashed by `ComputeHash`, `snapshot_block.go:188-238` -/
def SnapshotBlock.source (P : Points) (b : SnapshotBlock) : Bytes :=
  b.prevHash ++ be 8 b.height ++ be64 b.unix ++ be 8 b.seed ++ b.seedHash.getD zeroHash ++
    ((bytesList b.content).flatten ++ (P.name b.height).getD [] ++ (if P.leaf b.height then be 4 b.version else []))

/-- `ComputeHash`, `snapshot_block.go:188-238` -/
def SnapshotBlock.computeHash (H : Bytes → Hash) (P : Points) (b : SnapshotBlock) : Hash := H (b.source P)

/-- `ComputeSeedHash`, `snapshot_block.go:142-160` -/
def computeSeedHash (H : Bytes → Hash) (seed : Nat) (prevHash : Hash) (unix : Int) : Hash := H (be 8 seed ++ prevHash ++ be64 unix)

/-! ### Logs -/

/-- `VmLog`, `vm_log_list.go:14-17` -/
structure VmLog where
  topics : List Hash
  data : Bytes
  deriving DecidableEq, Repr

/-- The bytes hashed by `VmLogList.Hash`, `vm_log_list.go:38-60`; the address and the previous hash are added from the seed upgrade on -/
def logSource (l : List VmLog) (seed : Bool) (a : Addr) (prev : Hash) : Bytes :=
  (l.map (fun x => x.topics.flatten ++ x.data)).flatten ++ (if seed then a ++ prev else [])

/-- `VmLogList.Hash`, `vm_log_list.go:38-60` -/
def logListHash (H : Bytes → Hash) (l : List VmLog) (seed : Bool) (a : Addr) (prev : Hash) : Option Hash :=
  if l.length = 0 then none else some (H (logSource l seed a prev))

/-! ### Messages -/

/-- `vitepb.AccountBlock` -/
structure PbAccount where
  blockType : Int
  hash : Bytes
  height : Nat
  prevHash : Bytes
  account : Bytes
  publicKey : Bytes
  toAddr : Bytes
  amount : Bytes
  token : Bytes
  fromHash : Bytes
  data : Bytes
  quota : Nat
  fee : Bytes
  logHash : Bytes
  difficulty : Bytes
  nonce : Bytes
  sends : List PbAccount
  signature : Bytes
  quotaUsed : Nat

/-- `Proto`, `account_block.go:252-316` -/
def AccountBlock.proto : AccountBlock → PbAccount
  | ⟨blockType, hash, prevHash, height, account, publicKey, toAddr, amount, token, fromHash, data, quota, quotaUsed, fee, logHash, difficulty, nonce, sends, signature⟩ =>
    { blockType := blockType.toNat, hash, height
      prevHash := if height > 1 then prevHash else []
      account, publicKey
      toAddr := if isSend blockType then toAddr else []
      fromHash := if isSend blockType then [] else fromHash
      amount := if isSend blockType || blockType == 7 then bigBytes (amount.getD 0) else []
      token := if isSend blockType || blockType == 7 then token else []
      data, quota, quotaUsed
      fee := (fee.map bigBytes).getD []
      logHash := logHash.getD []
      difficulty := (difficulty.map bigBytes).getD []
      nonce
      sends := sends.map AccountBlock.proto
      signature }

/-- `BytesToHash`, `hash.go:19-23`: zero and an error if the length is not 32. Here the value. -/
def toHash (l : Bytes) : Hash := if l.length = 32 then l else zeroHash

def zeroAddr : Addr := List.replicate 21 0
def zeroToken : Bytes := List.replicate 10 0

/-- A block as `new` makes it -/
def AccountBlock.blank : AccountBlock :=
  { blockType := 0, hash := zeroHash, prevHash := zeroHash, height := 0, account := zeroAddr, publicKey := [], toAddr := zeroAddr, amount := none, token := zeroToken,
    fromHash := zeroHash, data := [], quota := 0, quotaUsed := 0, fee := none, logHash := none, difficulty := none, nonce := [], sends := [], signature := [] }

/-- The attached sends of a message, in the order of the list, and whether all were read; the first error ends the loop. `account_block.go:392-400` -/
def deProtoList (f : PbAccount → Except AccountBlock AccountBlock) : List PbAccount → List AccountBlock × Bool
  | [] => ([], true)
  | p :: l =>
    match f p with
    | .error _ => ([], false)
    | .ok b => (b :: (deProtoList f l).1, (deProtoList f l).2)

/-- The type of the block, `byte(pb.BlockType)` -/
def PbAccount.type (p : PbAccount) : UInt8 := UInt8.ofNat (p.blockType % 256).toNat

/-- A new block after the fields 1 to 4, `account_block.go:320-330` -/
def PbAccount.part1 (p : PbAccount) : AccountBlock :=
  { AccountBlock.blank with blockType := p.type, hash := toHash p.hash, height := p.height, prevHash := if p.height > 1 then toHash p.prevHash else zeroHash }

/-- and after 5 and 6, `:331-336` -/
def PbAccount.part2 (p : PbAccount) : AccountBlock := { p.part1 with account := p.account, publicKey := p.publicKey }

/-- and after 7 or 10, `:338-350` -/
def PbAccount.part3 (p : PbAccount) : AccountBlock := if isSend p.type then { p.part2 with toAddr := p.toAddr } else { p.part2 with fromHash := p.fromHash }

/-- and after 9 and 8, `:352-363` -/
def PbAccount.part4 (p : PbAccount) : AccountBlock :=
  if isSend p.type || p.type == 7 then { p.part3 with token := p.token, amount := some (num p.amount) } else p.part3

/-- and after 11, 12, 20, 13, `:365-378` -/
def PbAccount.part5 (p : PbAccount) : AccountBlock := { p.part4 with data := p.data, quota := p.quota, quotaUsed := p.quotaUsed, fee := some (num p.fee) }

/-- and after 14, 15, 16, `:380-395` -/
def PbAccount.part6 (p : PbAccount) : AccountBlock :=
  { p.part5 with
    logHash := if p.logHash.length > 0 then some p.logHash else none
    difficulty := if p.difficulty.length > 0 then some (num p.difficulty : Int) else none
    nonce := p.nonce }

/-- `DeProto` of a new block, `account_block.go:318-405`: an error leaves the block as it is then. The bound is the depth of the attached sends. -/
def deProto : Nat → PbAccount → Except AccountBlock AccountBlock
  | 0, _ => .error .blank
  | n + 1, p =>
    if p.account.length ≠ 21 then .error p.part1
    else if isSend p.type && p.toAddr.length ≠ 21 then .error p.part2
    else if !isSend p.type && p.fromHash.length ≠ 32 then .error p.part2
    else if (isSend p.type || p.type == 7) && p.token.length ≠ 10 then .error p.part3
    else if p.logHash.length > 0 ∧ p.logHash.length ≠ 32 then .error p.part5
    else if (deProtoList (deProto n) p.sends).2 then .ok { p.part6 with sends := (deProtoList (deProto n) p.sends).1, signature := p.signature }
    else .error { p.part6 with sends := (deProtoList (deProto n) p.sends).1 }

/-- `Deserialize`, `account_block.go:411-418`, of the bytes of a message: the error of `DeProto` is not looked at. -/
def deserialize (n : Nat) (p : PbAccount) : AccountBlock :=
  match deProto n p with
  | .ok b => b
  | .error b => b

/-- `vitepb.SnapshotBlock` -/
structure PbSnapshot where
  hash : Bytes
  prevHash : Bytes
  height : Nat
  publicKey : Bytes
  signature : Bytes
  timestamp : Int
  seed : Nat
  seedHash : Bytes
  content : Bytes
  version : Nat

/-- The order of `SnapshotContent.proto`, `snapshot_block.go:89-91`: descending addresses -/
def itemGe (a b : Item) : Bool := decide (bcmp a.addr b.addr ≠ .lt)

/-- `SnapshotBlock.Proto`, `snapshot_block.go:257-284`, with `SnapshotContent.proto`, `:84-97` -/
def SnapshotBlock.proto (b : SnapshotBlock) : PbSnapshot :=
  { hash := b.hash, prevHash := b.prevHash, height := b.height, publicKey := b.publicKey, signature := b.signature, timestamp := b.time, seed := b.seed,
    seedHash := b.seedHash.getD [], content := ((Consensus.sortBy itemGe b.content).map Item.bytes).flatten, version := b.version }

/-- The map after an entry is written -/
def setItem (c : List Item) (x : Item) : List Item := c.filter (fun y => decide (y.addr ≠ x.addr)) ++ [x]

/-- `deProto` of the content, `snapshot_block.go:99-117`, with `bytesToScItem`; the bound is the number of turns -/
def contentOf : Nat → Bytes → List Item → List Item
  | 0, _, c => c
  | n + 1, l, c =>
    if l.length = 0 then c
    else contentOf n (l.drop 61) (setItem c ⟨l.take 21, (l.drop 21).take 32, num ((l.drop 53).take 8)⟩)

/-- `SnapshotBlock.DeProto`, `snapshot_block.go:286-332`; `none` is an error -/
def deProtoSnapshot (p : PbSnapshot) : Option SnapshotBlock :=
  if p.hash.length ≠ 32 ∨ p.prevHash.length ≠ 32 ∨ (p.seedHash.length > 0 ∧ p.seedHash.length ≠ 32) ∨ p.content.length % 61 ≠ 0 then none
  else some { hash := p.hash, prevHash := p.prevHash, height := p.height, publicKey := p.publicKey, signature := p.signature, time := p.timestamp, seed := p.seed,
              seedHash := if p.seedHash.length > 0 then some p.seedHash else none, content := contentOf (p.content.length / 61) p.content [], version := p.version }

end Verif.Block
