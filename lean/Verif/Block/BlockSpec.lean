import Verif.Block.BlockModel
import Mathlib.Algebra.Order.Ring.Int

/-! Vocabulary for the statements about blocks (C73-C76). Nothing here is used by the model. -/

namespace Verif.Block.Spec
open Verif.Bytes Verif.Block

/-- The hash function gives 32 bytes. -/
def Sized (H : Bytes → Hash) : Prop := ∀ x, (H x).length = 32

/-- No two different strings of `l` have one hash. (Of all strings there are such two; nobody has found them.) -/
def NoClash (H : Bytes → Hash) (l : List Bytes) : Prop := ∀ x ∈ l, ∀ y ∈ l, H x = H y → x = y

/-- The fields have the sizes of their types in Go, and the numbers fit in 256 bits, as the verifier asks. -/
structure Fits (b : AccountBlock) : Prop where
  hash : b.hash.length = 32
  prevHash : b.prevHash.length = 32
  height : b.height < 2 ^ 64
  account : b.account.length = 21
  toAddr : b.toAddr.length = 21
  token : b.token.length = 10
  fromHash : b.fromHash.length = 32
  logHash : ∀ x, b.logHash = some x → x.length = 32
  amount : (b.amount.getD 0).natAbs < 2 ^ 256
  fee : (b.fee.getD 0).natAbs < 2 ^ 256
  nonce : b.nonce.length ≤ 8
  sends : ∀ s ∈ b.sends, s.hash.length = 32

/-- Two blocks agree on type, place in the ledger and, for a send, on addressee, token and amount (up to its sign), for a receive on what is received. -/
structure SameHead (b c : AccountBlock) : Prop where
  blockType : b.blockType = c.blockType
  prevHash : b.prevHash = c.prevHash
  height : b.height = c.height
  account : b.account = c.account
  send : isSend b.blockType = true → b.toAddr = c.toAddr ∧ (b.amount.getD 0).natAbs = (c.amount.getD 0).natAbs ∧ b.token = c.token
  receive : isSend b.blockType = false → b.fromHash = c.fromHash

/-- Two blocks agree on the rest of what is hashed: data, fee (up to its sign), the hash of the logs, the nonce as 8 bytes and the hashes of the sends. -/
structure SameBody (b c : AccountBlock) : Prop where
  data : b.data = c.data
  fee : (b.fee.getD 0).natAbs = (c.fee.getD 0).natAbs
  logHash : b.logHash = c.logHash
  nonce : List.replicate (8 - b.nonce.length) 0 ++ b.nonce = List.replicate (8 - c.nonce.length) 0 ++ c.nonce
  sends : b.sends.map (·.hash) = c.sends.map (·.hash)

/-- Two blocks have data both or neither, and logs both or neither. -/
def SameShape (b c : AccountBlock) : Prop := (b.data = [] ↔ c.data = []) ∧ (b.logHash = none ↔ c.logHash = none)

/-- A send without logs and without a list of sends, as wallets and contracts make them. -/
def Plain (b : AccountBlock) : Prop := b.logHash = none ∧ b.sends = []

/-- A receive of a contract, as the verifier lets it pass: no fee, no nonce; and no hash in it looks like what it must not be mistaken for: the hash of its data
is not zero, that of its logs does not begin with eight zeros. -/
structure ContractReceive (H : Bytes → Hash) (b : AccountBlock) : Prop where
  receive : isSend b.blockType = false
  fee : b.fee.getD 0 = 0
  nonce : b.nonce = []
  data : b.data ≠ [] → H b.data ≠ List.replicate 32 0
  log : ∀ x, b.logHash = some x → x.take 8 ≠ List.replicate 8 0

/-- A snapshot block as Go can hold it: sizes of types, the time in nanoseconds in 64 bits, one entry for an address. -/
structure FitsSnapshot (b : SnapshotBlock) : Prop where
  hash : b.hash.length = 32
  prevHash : b.prevHash.length = 32
  height : b.height < 2 ^ 64
  time : -2 ^ 63 ≤ b.time ∧ b.time < 2 ^ 63
  seed : b.seed < 2 ^ 64
  seedHash : ∀ x, b.seedHash = some x → x.length = 32
  version : b.version < 2 ^ 32
  item : ∀ x ∈ b.content, x.addr.length = 21 ∧ x.hash.length = 32 ∧ x.height < 2 ^ 64
  nodup : (b.content.map (·.addr)).Nodup

/-- Two snapshot blocks agree on all that is hashed: a missing seed hash counts as zero, the content is a map, the version counts from the leaf upgrade on. -/
structure SameSnapshot (P : Points) (b c : SnapshotBlock) : Prop where
  prevHash : b.prevHash = c.prevHash
  height : b.height = c.height
  seconds : b.time / 1000000000 = c.time / 1000000000
  seed : b.seed = c.seed
  seedHash : b.seedHash.getD (List.replicate 32 0) = c.seedHash.getD (List.replicate 32 0)
  content : ∀ x, x ∈ b.content ↔ x ∈ c.content
  version : P.leaf b.height = true → b.version = c.version

/-- Sizes of types, for the block and for the sends attached to it, which are nested less than `n` deep. -/
def Typed : Nat → AccountBlock → Prop
  | 0, _ => False
  | n + 1, b => b.hash.length = 32 ∧ b.prevHash.length = 32 ∧ b.account.length = 21 ∧ b.toAddr.length = 21 ∧ b.token.length = 10 ∧ b.fromHash.length = 32 ∧
      (∀ x, b.logHash = some x → x.length = 32) ∧ ∀ s ∈ b.sends, Typed n s

/-- A block that says nothing its message has no place for: the first block of an account has no previous one, a send receives nothing, a receive has neither
addressee nor amount (but in the genesis), a send and a genesis block have an amount, the fee is given, amounts are not negative, and a difficulty is positive. -/
def Regular : Nat → AccountBlock → Prop
  | 0, _ => False
  | n + 1, b =>
    (b.height ≤ 1 → b.prevHash = List.replicate 32 0) ∧
    (isSend b.blockType = true → b.fromHash = List.replicate 32 0) ∧
    (isSend b.blockType = false → b.toAddr = List.replicate 21 0) ∧
    (if isSend b.blockType = true ∨ b.blockType = 7 then ∃ x, b.amount = some x ∧ 0 ≤ x else b.amount = none ∧ b.token = List.replicate 10 0) ∧
    (∃ x, b.fee = some x ∧ 0 ≤ x) ∧ (∀ x, b.difficulty = some x → 0 < x) ∧ ∀ s ∈ b.sends, Regular n s

/-- What arrives of a block `b` is `c`: everything but the previous hash of a first block, what a send would receive, and addressee, amount and token of a receive (but in the
genesis); amounts come without their sign, no fee comes as zero, a zero difficulty as none. The same for the attached sends, in order. -/
def Delivered : Nat → AccountBlock → AccountBlock → Prop
  | 0, _, _ => False
  | n + 1, b, c =>
    c.blockType = b.blockType ∧ c.hash = b.hash ∧ c.height = b.height ∧ c.account = b.account ∧ c.publicKey = b.publicKey ∧ c.data = b.data ∧ c.quota = b.quota ∧
    c.quotaUsed = b.quotaUsed ∧ c.logHash = b.logHash ∧ c.nonce = b.nonce ∧ c.signature = b.signature ∧
    c.prevHash = (if 1 < b.height then b.prevHash else List.replicate 32 0) ∧
    c.toAddr = (if isSend b.blockType = true then b.toAddr else List.replicate 21 0) ∧
    c.fromHash = (if isSend b.blockType = true then List.replicate 32 0 else b.fromHash) ∧
    c.token = (if isSend b.blockType = true ∨ b.blockType = 7 then b.token else List.replicate 10 0) ∧
    c.amount = (if isSend b.blockType = true ∨ b.blockType = 7 then some |b.amount.getD 0| else none) ∧
    c.fee = some |b.fee.getD 0| ∧
    c.difficulty = (if b.difficulty.getD 0 = 0 then none else some |b.difficulty.getD 0|) ∧
    List.Forall₂ (Delivered n) b.sends c.sends

/-- All bytes of the logs, one after the other. -/
def allBytes (l : List VmLog) : Bytes := (l.map (fun x => x.topics.flatten ++ x.data)).flatten

/-- Two lists of logs have the same numbers of topics and the same lengths of data, in order. -/
def SameLogShape (l m : List VmLog) : Prop :=
  l.map (fun x => (x.topics.length, x.data.length)) = m.map (fun x => (x.topics.length, x.data.length))

end Verif.Block.Spec
