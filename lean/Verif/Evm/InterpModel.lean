import Verif.Evm.WordModel
import Verif.Evm.QuotaTable
import Verif.Base.Bytes

/-!
# Model of the contract interpreter

Source: `/repo/vm/interpreter.go`, `jump_table.go`, `instructions.go`, `gas_table.go`, `memory.go`, `memory_table.go`,
`stack.go`, `stack_table.go`, `destination.go`, `contract.go`.

A step does what one round of `runLoop` does: fetch, check the stack, compute the memory size, price the instruction,
charge the quota, grow the memory, execute. A Go run-time panic (index out of range, `DealWithErr`) is the outcome `panic`.

Conventions and simplifications.
* A stack word is an `Int` (`*big.Int`), as in `WordModel`; the top of the stack is the head of the list. The pool of
  recycled integers is left out.
* Everything a run only reads (block, balances, snapshot, the account's saved storage, other contracts) is in `Env`.
* Memory is a list of bytes. Go's slices also have a capacity, which decides whether reading beyond the length panics;
  `cap` is that capacity and `Env.grow` is how `append` chooses it.
* Logging, the debug branch and cancelling a run (`vm.abort`) are left out.
* `c.returnData` is only ever set by REVERT, which ends the run (jump_table.go: `returns` is set for REVERT only), so
  within a run it is empty.
* Jump destinations are looked up in the bitmap of the code; the code computes it once per run and keeps it.
-/

namespace Verif.Evm

open Verif.Bytes (Bytes num be)
open Verif.Evm.Word

/-- Largest `uint64`. -/
def maxUint64 : Nat := 2 ^ 64 - 1

/-! ### Instructions -/

/-- Instructions with two operands and one result. -/
inductive Bin
  | add | mul | sub | div | sdiv | mod | smod | exp | signextend | lt | gt | slt | sgt | eq | and | or | xor | byte
  | shl | shr | sar
  deriving DecidableEq, Repr

/-- Instructions that push one word taken from the environment. -/
inductive Src
  | address | caller | callvalue | calldatasize | codesize | returndatasize | timestamp | height | tokenid
  | accountheight | prevhash | fromhash | seed | random
  deriving DecidableEq, Repr

/-- Instructions. -/
inductive Instr
  | stop
  | bin (b : Bin)
  | addmod | mulmod
  | iszero | not
  | sha3 | blake2b
  | src (s : Src)
  | balance | calldataload | calldatacopy | codecopy | returndatacopy
  | pop | mload | mstore | mstore8 | sload | sstore | jump | jumpi | pc | msize | jumpdest
  | push (n : Nat) | dup (n : Nat) | swap (n : Nat) | log (n : Nat)
  | call | call2 | ret | revert
  deriving DecidableEq, Repr

/-- Instruction sets: interpreter.go:14-21. -/
inductive Set
  | simple | rand | earth
  deriving DecidableEq, Repr

/-- The operation at an opcode, `none` if it is not valid: jump_table.go:40-1002 with the opcodes of opcodes.go:21-190.
EXTCODESIZE, EXTCODECOPY, DELEGATECALL, GAS and the others without entry are invalid. -/
def decode (set : Set) (b : Nat) : Option Instr :=
  if 0x60 ≤ b ∧ b ≤ 0x7f then some (.push (b - 0x5f))
  else if 0x80 ≤ b ∧ b ≤ 0x8f then some (.dup (b - 0x7f))
  else if 0x90 ≤ b ∧ b ≤ 0x9f then some (.swap (b - 0x8f))
  else if 0xa0 ≤ b ∧ b ≤ 0xa4 then some (.log (b - 0xa0))
  else match b with
  | 0x00 => some .stop
  | 0x01 => some (.bin .add) | 0x02 => some (.bin .mul) | 0x03 => some (.bin .sub) | 0x04 => some (.bin .div)
  | 0x05 => some (.bin .sdiv) | 0x06 => some (.bin .mod) | 0x07 => some (.bin .smod) | 0x08 => some .addmod
  | 0x09 => some .mulmod | 0x0a => some (.bin .exp) | 0x0b => some (.bin .signextend)
  | 0x10 => some (.bin .lt) | 0x11 => some (.bin .gt) | 0x12 => some (.bin .slt) | 0x13 => some (.bin .sgt)
  | 0x14 => some (.bin .eq) | 0x15 => some .iszero | 0x16 => some (.bin .and) | 0x17 => some (.bin .or)
  | 0x18 => some (.bin .xor) | 0x19 => some .not | 0x1a => some (.bin .byte) | 0x1b => some (.bin .shl)
  | 0x1c => some (.bin .shr) | 0x1d => some (.bin .sar)
  | 0x20 => some .sha3 | 0x21 => some .blake2b
  | 0x30 => some (.src .address) | 0x31 => some .balance | 0x33 => some (.src .caller) | 0x34 => some (.src .callvalue)
  | 0x35 => some .calldataload | 0x36 => some (.src .calldatasize) | 0x37 => some .calldatacopy
  | 0x38 => some (.src .codesize) | 0x39 => some .codecopy | 0x3d => some (.src .returndatasize)
  | 0x3e => some .returndatacopy
  | 0x42 => some (.src .timestamp) | 0x43 => some (.src .height) | 0x46 => some (.src .tokenid)
  | 0x47 => some (.src .accountheight) | 0x48 => some (.src .prevhash) | 0x49 => some (.src .fromhash)
  | 0x4a => some (.src .seed) | 0x4b => if set = .simple then none else some (.src .random)
  | 0x50 => some .pop | 0x51 => some .mload | 0x52 => some .mstore | 0x53 => some .mstore8 | 0x54 => some .sload
  | 0x55 => some .sstore | 0x56 => some .jump | 0x57 => some .jumpi | 0x58 => some .pc | 0x59 => some .msize
  | 0x5b => some .jumpdest
  | 0xf1 => some .call | 0xf2 => if set = .earth then some .call2 else none | 0xf3 => some .ret
  | 0xfd => some .revert
  | _ => none

/-- First argument of `makeStackFunc` in the operation's entry: jump_table.go:40-1002, stack_table.go:5-24. -/
def Instr.pops : Instr → Nat
  | .stop => 0 | .bin _ => 2 | .addmod => 3 | .mulmod => 3 | .iszero => 1 | .not => 1 | .sha3 => 2 | .blake2b => 2
  | .src _ => 0 | .balance => 1 | .calldataload => 1 | .calldatacopy => 3 | .codecopy => 3 | .returndatacopy => 3
  | .pop => 1 | .mload => 1 | .mstore => 2 | .mstore8 => 2 | .sload => 1 | .sstore => 2 | .jump => 1 | .jumpi => 2
  | .pc => 0 | .msize => 0 | .jumpdest => 0 | .push _ => 0 | .dup n => n | .swap n => n + 1 | .log n => n + 2
  | .call => 5 | .call2 => 5 | .ret => 2 | .revert => 2

/-- Second argument of `makeStackFunc` in the operation's entry. -/
def Instr.pushes : Instr → Nat
  | .stop => 0 | .bin _ => 1 | .addmod => 1 | .mulmod => 1 | .iszero => 1 | .not => 1 | .sha3 => 1 | .blake2b => 1
  | .src _ => 1 | .balance => 1 | .calldataload => 1 | .calldatacopy => 0 | .codecopy => 0 | .returndatacopy => 0
  | .pop => 0 | .mload => 1 | .mstore => 0 | .mstore8 => 0 | .sload => 1 | .sstore => 0 | .jump => 0 | .jumpi => 0
  | .pc => 1 | .msize => 1 | .jumpdest => 0 | .push _ => 1 | .dup n => n + 1 | .swap n => n + 1 | .log _ => 0
  | .call => 0 | .call2 => 1 | .ret => 0 | .revert => 0

/-! ### Environment and machine state -/

/-- A call request issued by the contract: the arguments of `util.MakeRequestBlock` in instructions.go:810-817. -/
structure Request where
  dest : Nat
  token : Nat
  amount : Int
  data : Bytes
  deriving DecidableEq, Repr

/-- What a run reads but does not change. -/
structure Env where
  code : Bytes
  data : Bytes
  /-- Instruction set by height: `newInterpreter`, interpreter.go:25-42. -/
  set : Set
  /-- Executing a read-only query (`OffChainReader`, vm.go:890-912). -/
  offchain : Bool
  /-- `upgrade.IsEarthUpgrade(vm.latestSnapshotHeight)` in gasSStore: gas_table.go:352. -/
  limit : Bool
  table : QuotaTable
  /-- Words pushed by the instructions `Src`, when not replaced in a read-only query. -/
  word : Src → Int
  /-- `c.db.GetBalance`. -/
  balance : Nat → Int
  /-- Saved storage: `c.db.GetOriginalValue`. -/
  orig : Nat → Bytes
  keccak : Bytes → Bytes
  blake : Bytes → Bytes
  /-- Destination is a built-in contract in use: `types.IsBuiltinContractAddrInUse`. -/
  builtin : Nat → Bool
  /-- `GetBuiltinContractMethod` and `GetSendQuota`: gas_table.go:535-544; `none` is an error. -/
  builtinQuota : Nat → Bytes → Option Nat
  /-- `getQuotaMultiplierForRS`: gas_table.go:577-597; `none` is an error. -/
  multiplier : Nat → Option Nat
  /-- `ComputeSendBlockHash` of the last request in the list: instructions.go:831. -/
  callHash : List Request → Int
  /-- Capacity of a slice of the given old capacity after `append` makes it the given length. -/
  grow : Nat → Nat → Nat

/-- Memory: memory.go:12-19. -/
structure Mem where
  store : Bytes
  cap : Nat
  lastGas : Nat
  deriving DecidableEq, Repr

/-- State of a run: the locals of `runLoop` (interpreter.go:45-53), `contract` (contract.go:15-27) and what the run
changes in the database (storage, logs) and in the VM context (requests). -/
structure Machine where
  pc : Nat
  stack : List Int
  mem : Mem
  quota : Nat
  /-- Values set with `db.SetValue` in this block, by location. -/
  store : List (Nat × Bytes)
  /-- `c.storageModified`. -/
  touched : List Nat
  logs : List (List Nat × Bytes)
  sends : List Request
  deriving DecidableEq, Repr

/-- Errors: vm/util errors, named after the cause. -/
inductive Err
  | invalidOp | underflow | stackLimit | memOverflow | gasOverflow | outOfQuota | badJump | returnData | storageLimit
  | callRefused
  deriving DecidableEq, Repr

/-- How a run ends. -/
inductive Result
  | ok (ret : Bytes)
  | reverted (ret : Bytes)
  | err (e : Err)
  | panic
  deriving DecidableEq, Repr

/-- `c.getOp`: contract.go:41-50. -/
def getOp (code : Bytes) (n : Nat) : Nat := ((code[n]?).map UInt8.toNat).getD 0

/-! ### Jump destinations -/

/-- `codeBitmap`'s result: a byte slice. -/
abbrev Bitvec := List UInt8

/-- `bits[i] |= v`; `none` is an index out of range. -/
def orAt (bits : Bitvec) (i : Nat) (v : UInt8) : Option Bitvec :=
  (bits[i]?).map (fun b => List.set bits i (b ||| v))

/-- `bitvec.set`: destination.go:13-15. -/
def setBit (bits : Bitvec) (pos : Nat) : Option Bitvec := orAt bits (pos / 8) (0x80 >>> UInt8.ofNat (pos % 8))

/-- `bitvec.set8`: destination.go:17-20. -/
def set8 (bits : Bitvec) (pos : Nat) : Option Bitvec :=
  (orAt bits (pos / 8) (0xFF >>> UInt8.ofNat (pos % 8))).bind
    (fun b => orAt b (pos / 8 + 1) (~~~ (0xFF >>> UInt8.ofNat (pos % 8))))

/-- The two inner loops over the immediate bytes of a PUSH: destination.go:56-63. -/
def setData (bits : Bitvec) (pos : Nat) (numbits : Nat) : Option Bitvec :=
  if numbits ≥ 8 then (set8 bits pos).bind (fun b => setData b (pos + 8) (numbits - 8))
  else if numbits > 0 then (setBit bits pos).bind (fun b => setData b (pos + 1) (numbits - 1))
  else some bits
termination_by numbits

/-- The outer loop: destination.go:50-67. -/
def bitmapLoop (code : Bytes) (pc : Nat) (bits : Bitvec) : Option Bitvec :=
  if h : pc < code.length then
    if 0x60 ≤ code[pc].toNat ∧ code[pc].toNat ≤ 0x7f then
      (setData bits (pc + 1) (code[pc].toNat - 0x60 + 1)).bind
        (fun b => bitmapLoop code (pc + 1 + (code[pc].toNat - 0x60 + 1)) b)
    else bitmapLoop code (pc + 1) bits
  else some bits
termination_by code.length - pc

/-- `codeBitmap`: destination.go:45-69. -/
def codeBitmap (code : Bytes) : Option Bitvec := bitmapLoop code 0 (List.replicate (code.length / 8 + 1 + 4) 0)

/-- `bitvec.codeSegment`: destination.go:23-25. -/
def codeSegment (bits : Bitvec) (pos : Nat) : Option Bool :=
  (bits[pos / 8]?).map (fun b => decide (b &&& (0x80 >>> UInt8.ofNat (pos % 8)) = 0))

/-- `destinations.has`: destination.go:28-42; `none` is an index out of range. `dest.BitLen() >= 63` is `2^62 ≤ dest`. -/
def hasDest (code : Bytes) (dest : Int) : Option Bool :=
  if dest ≥ 2 ^ 62 ∨ dest.toNat ≥ code.length then some false
  else (codeBitmap code).bind (fun m =>
    if getOp code dest.toNat = 0x5b then codeSegment m dest.toNat else some false)

/-! ### Memory -/

/-- `big.Int.Int64` of a non-negative integer. -/
def toInt64 (x : Int) : Int := if x % 2 ^ 64 < 2 ^ 63 then x % 2 ^ 64 else x % 2 ^ 64 - 2 ^ 64

/-- `big.Int.Uint64`. -/
def toUint64 (x : Int) : Nat := (x % 2 ^ 64).toNat

/-- `helper.ToWordSize`: common/helper/common.go:42-48. -/
def toWordSize (size : Nat) : Nat :=
  if size > maxUint64 - 32 + 1 then maxUint64 / 32 + 1 else (size + 32 - 1) / 32

/-- `memory.resize`: memory.go:22-26. -/
def Mem.resize (e : Env) (m : Mem) (size : Nat) : Mem :=
  if m.store.length < size then
    { m with store := m.store ++ List.replicate (size - m.store.length) 0, cap := e.grow m.cap size }
  else m

/-- `memory.get` and `memory.getPtr`: memory.go:34-60; `none` is a panic. A slice may be taken up to the capacity; the
bytes beyond the length are zero. -/
def Mem.get (m : Mem) (offset size : Int) : Option Bytes :=
  if size = 0 then some []
  else if offset < m.store.length then
    if size < 0 ∨ offset < 0 ∨ offset + size > m.cap then none
    else some (((m.store ++ List.replicate (m.cap - m.store.length) 0).drop offset.toNat).take size.toNat)
  else some []

/-- Overwrites `bs.length` bytes from `offset`. -/
def splice (store : Bytes) (offset : Nat) (bs : Bytes) : Bytes :=
  store.take offset ++ bs ++ store.drop (offset + bs.length)

/-- `memory.set`: memory.go:63-74. `copy` copies `min(size, len(value))` bytes. -/
def Mem.set (m : Mem) (offset size : Nat) (value : Bytes) : Option Mem :=
  if size = 0 then some m
  else if offset + size > m.store.length then none
  else some { m with store := splice m.store offset (value.take size) }

/-- `memory.set32`: memory.go:78-88 with `helper.ReadBits`, math_big.go:13-22. -/
def Mem.set32 (m : Mem) (offset : Nat) (val : Int) : Option Mem :=
  if offset + 32 > m.store.length then none
  else some { m with store := splice m.store offset (be 32 val.natAbs) }

/-- `helper.RightPadBytes`: common/helper/common.go:57-66. -/
def rightPad (b : Bytes) (l : Nat) : Bytes := if l ≤ b.length then b else b ++ List.replicate (l - b.length) 0

/-- `helper.GetDataBig`: common/helper/common.go:91-97. -/
def getData (data : Bytes) (start size : Int) : Bytes :=
  rightPad ((data.drop (min start data.length).toNat).take
    ((min (min start data.length + size) data.length).toNat - (min start data.length).toNat)) (toUint64 size)

/-- `calcMemSize`: memory_table.go:10-16. -/
def calcMemSize (off l : Int) : Int := if l = 0 then 0 else off + l

/-- `stack.back`: stack.go:44-46; only used after the stack was checked. -/
def back (s : List Int) (n : Nat) : Int := s.getD n 0

/-- The `memorySize` function of an operation: memory_table.go:18-75 and jump_table.go; `none` if it has none. -/
def Instr.memSize (i : Instr) (s : List Int) : Option Int :=
  match i with
  | .sha3 => some (calcMemSize (back s 0) (back s 1))
  | .blake2b => some (calcMemSize (back s 0) (back s 1))
  | .calldatacopy => some (calcMemSize (back s 0) (back s 2))
  | .codecopy => some (calcMemSize (back s 0) (back s 2))
  | .returndatacopy => some (calcMemSize (back s 0) (back s 2))
  | .mload => some (calcMemSize (back s 0) 32)
  | .mstore => some (calcMemSize (back s 0) 32)
  | .mstore8 => some (calcMemSize (back s 0) 1)
  | .log _ => some (calcMemSize (back s 0) (back s 1))
  | .call => some (calcMemSize (back s 3) (back s 4))
  | .ret => some (calcMemSize (back s 0) (back s 1))
  | .revert => some (calcMemSize (back s 0) (back s 1))
  | _ => none

/-- `memorySize` of a step, in bytes: interpreter.go:69-79; `none` is ErrMemSizeOverflow. -/
def memorySize (i : Instr) (s : List Int) : Option Nat :=
  match i.memSize s with
  | none => some 0
  | some sz =>
    if sz ≥ 2 ^ 64 then none
    else if toWordSize sz.toNat * 32 > maxUint64 then none
    else some (toWordSize sz.toNat * 32)

/-! ### Prices -/

/-- What pricing an instruction yields: the price, whether it is a charge (`true`) or a refund, and the memory with
`lastGasCost` updated and the set of touched locations. -/
inductive Price
  | cost (c : Nat) (charge : Bool) (mem : Mem) (touched : List Nat)
  | err (e : Err)
  | panic
  deriving DecidableEq, Repr

/-- `memoryGasCost`: gas_table.go:17-48, in `uint64` arithmetic; `none` is ErrGasUintOverflow. -/
def memoryGasCost (t : QuotaTable) (m : Mem) (newMemSize : Nat) : Option (Nat × Mem) :=
  if newMemSize = 0 then some (0, m)
  else if newMemSize > 0xffffffffe0 then none
  else if toWordSize newMemSize * 32 > m.store.length then
    let w := toWordSize newMemSize
    let total := (w * t.mem % 2 ^ 64 + w * w % 2 ^ 64 / t.memDivision) % 2 ^ 64
    some ((total + 2 ^ 64 - m.lastGas) % 2 ^ 64, { m with lastGas := total })
  else some (0, m)

/-- `helper.SafeAdd`; `none` is an overflow (`safeAdd_spec` in WordProps relates it to the code). -/
def addChecked (x y : Nat) : Option Nat := if x + y > maxUint64 then none else some (x + y)
/-- `helper.SafeMul`; `none` is an overflow. -/
def mulChecked (x y : Nat) : Option Nat := if x * y > maxUint64 then none else some (x * y)

/-- Length in bytes of the absolute value: `(BitLen() + 7) / 8` and `len(Bytes())`. -/
def byteLen (n : Nat) : Nat := if n = 0 then 0 else byteLen (n / 256) + 1
termination_by n
decreasing_by exact Nat.div_lt_self (by omega) (by decide)

/-- `big.Int.Bytes`: minimal big-endian bytes. -/
def bytesOf (x : Int) : Bytes := be (byteLen x.natAbs) x.natAbs

/-- Constant prices: gas_table.go:50-196 and 396-406. -/
def constGas (t : QuotaTable) : Instr → Nat
  | .bin .add => t.add | .bin .mul => t.mul | .bin .sub => t.sub | .bin .div => t.div | .bin .sdiv => t.sDiv
  | .bin .mod => t.mod | .bin .smod => t.sMod | .addmod => t.addMod | .mulmod => t.mulMod
  | .bin .signextend => t.signExtend | .bin .lt => t.lt | .bin .gt => t.gt | .bin .slt => t.slt | .bin .sgt => t.sgt
  | .bin .eq => t.eq | .iszero => t.isZero | .bin .and => t.and_ | .bin .or => t.or_ | .bin .xor => t.xor_
  | .not => t.not_ | .bin .byte => t.byte | .bin .shl => t.shl | .bin .shr => t.shr | .bin .sar => t.sar
  | .src .address => t.address | .balance => t.balance | .src .caller => t.caller | .src .callvalue => t.callValue
  | .calldataload => t.callDataLoad | .src .calldatasize => t.callDataSize | .src .codesize => t.codeSize
  | .src .returndatasize => t.returnDataSize | .src .timestamp => t.timestamp | .src .height => t.height
  | .src .tokenid => t.tokenID | .src .accountheight => t.accountHeight | .src .prevhash => t.previousHash
  | .src .fromhash => t.fromBlockHash | .src .seed => t.seed | .src .random => t.random | .pop => t.pop
  | .sload => t.sload | .jump => t.jump | .jumpi => t.jumpi | .pc => t.pc | .msize => t.msize
  | .jumpdest => t.jumpdest | .push _ => t.push | .dup _ => t.dup | .swap _ => t.swap
  | _ => 0

/-- `gasExp`: gas_table.go:198-209. -/
def gasExp (t : QuotaTable) (exponent : Int) : Nat := byteLen exponent.natAbs * t.expByte + t.exp

/-- Memory price plus a base plus a price per word of the size operand: `gasBlake2b` (gas_table.go:211-233),
`gasCallDataCopy` (235-259), `gasCodeCopy` (261-283), `gasReturnDataCopy` (285-309). -/
def gasWords (t : QuotaTable) (m : Mem) (memSize base perWord : Nat) (size : Int) : Option (Nat × Mem) :=
  (memoryGasCost t m memSize).bind (fun (g, mem) =>
    (addChecked g base).bind (fun g =>
      if size ≥ 2 ^ 64 then none
      else (mulChecked (toWordSize size.toNat) perWord).bind (fun w => (addChecked g w).map (fun g => (g, mem)))))

/-- Memory price plus a base: `gasMLoad`, `gasMStore`, `gasMStore8`: gas_table.go:311-345. -/
def gasMem (t : QuotaTable) (m : Mem) (memSize base : Nat) : Option (Nat × Mem) :=
  (memoryGasCost t m memSize).bind (fun (g, mem) => (addChecked g base).map (fun g => (g, mem)))

/-- `makeGasLog`: gas_table.go:408-436. -/
def gasLog (t : QuotaTable) (m : Mem) (memSize n : Nat) (size : Int) : Option (Nat × Mem) :=
  if size ≥ 2 ^ 64 then none
  else (memoryGasCost t m memSize).bind (fun (g, mem) =>
    (addChecked g t.log).bind (fun g => (addChecked g (n * t.logTopic)).bind (fun g =>
      (mulChecked size.toNat t.logData).bind (fun d => (addChecked g d).map (fun g => (g, mem))))))

/-- `db.GetValue`: vm_db/storage.go:5-13 with vm_db/unsaved.go:109-119. -/
def getValue (orig : Nat → Bytes) (store : List (Nat × Bytes)) (loc : Nat) : Bytes :=
  match store with
  | [] => orig loc
  | (k, v) :: rest => if k = loc then v else getValue orig rest loc

/-- `db.SetValue`: vm_db/storage.go:15-21. -/
def setValue (store : List (Nat × Bytes)) (loc : Nat) (v : Bytes) : List (Nat × Bytes) :=
  match store with
  | [] => [(loc, v)]
  | (k, w) :: rest => if k = loc then (k, v) :: rest else (k, w) :: setValue rest loc v

/-- The price of a write by saved, current and new value, `true` for a charge: gas_table.go:359-393. -/
def sstorePrice (t : QuotaTable) (original current new : Bytes) : Nat × Bool :=
  if current = new then (t.sstoreNoop, true)
  else if original = current then
    if original.length = 0 then (t.sstoreInit, true)
    else if new.length = 0 then (t.sstoreClean, true)
    else (t.sstoreReset, true)
  else if original = new then
    if original.length = 0 then (t.sstoreInit - t.sstoreMem - t.sstoreNoop, false)
    else if current.length = 0 then (t.sstoreNoop + t.sstoreMem - t.sstoreClean, true)
    else (t.sstoreReset - t.sstoreMem - t.sstoreNoop, false)
  else if original.length > 0 ∧ current.length = 0 ∧ new.length > 0 then
    (t.sstoreReset + t.sstoreMem - t.sstoreClean, true)
  else if original.length > 0 ∧ current.length > 0 ∧ new.length = 0 then
    (t.sstoreReset - t.sstoreMem - t.sstoreClean, false)
  else (t.sstoreMem, true)

/-- `contractModifyStorageMax`: params.go:22. -/
def modifyStorageMax : Nat := 100

/-- `c.storageModified[loc.String()] = struct{}{}`. -/
def touch (touched : List Nat) (loc : Nat) : List Nat := if loc ∈ touched then touched else loc :: touched

/-- `gasSStore`: gas_table.go:347-394. -/
def gasSStore (e : Env) (m : Machine) : Price :=
  let loc := (back m.stack 0).toNat
  let touched := if e.limit then touch m.touched loc else m.touched
  if e.limit ∧ touched.length > modifyStorageMax then .err .storageLimit
  else
    let p := sstorePrice e.table (e.orig loc) (getValue e.orig m.store loc) (bytesOf (back m.stack 1))
    .cost p.1 p.2 m.mem touched

/-- `types.BigToAddress` and `BigToTokenTypeId`: common/types/address.go:94-96, tokentypeid.go:49-51. A value that does not
fit leaves the zero value. -/
def bigToFixed (size : Nat) (x : Int) : Nat := if x < 256 ^ size then x.toNat else 0

/-- The request of CALL and CALL2: instructions.go:805-819, gas_table.go:443-454. -/
def requestOf (s : List Int) (data : Bytes) : Request :=
  ⟨bigToFixed 21 (back s 0), bigToFixed 10 (back s 1), back s 2, data⟩

/-- `util.MultipleCost`: util/quota.go:18-30. -/
def multipleCost (cost mult : Nat) : Option Nat :=
  if mult < 10 then none
  else if mult = 10 then some cost
  else if cost > maxUint64 / mult then none
  else some (cost * mult / 10)

/-- `util.BlockGasCost` without snapshot count: util/quota.go:50-78. -/
def blockGasCost (t : QuotaTable) (data : Bytes) : Option Nat :=
  (mulChecked data.length t.txData).bind (fun d => addChecked t.tx d)

/-- Price of the request itself: gas_table.go:446-467, 513-556. -/
def requestCost (e : Env) (r : Request) : Option Nat :=
  (if e.builtin r.dest then e.builtinQuota r.dest r.data else blockGasCost e.table r.data).bind (fun cost =>
    (e.multiplier r.dest).bind (fun mult => multipleCost cost mult))

/-- `gasCall`, `gasCall2`: gas_table.go:438-480. The data is read from the memory before it is grown. -/
def gasCall (e : Env) (m : Machine) (memSize : Nat) : Price :=
  match memoryGasCost e.table m.mem memSize with
  | none => .err .gasOverflow
  | some (g, mem) =>
    match m.mem.get (toInt64 (back m.stack 3)) (toInt64 (back m.stack 4)) with
    | none => .panic
    | some data =>
      match requestCost e (requestOf m.stack data) with
      | none => .err .callRefused
      | some cost =>
        if cost > e.table.callMinus then
          match addChecked g (cost - e.table.callMinus) with
          | none => .err .gasOverflow
          | some g => .cost g true mem m.touched
        else .cost g true mem m.touched

/-- A charge, or ErrGasUintOverflow. -/
def Price.of (m : Machine) : Option (Nat × Mem) → Price
  | none => .err .gasOverflow
  | some (g, mem) => .cost g true mem m.touched

/-- `gasCost` of an operation: jump_table.go with gas_table.go. -/
def gasCost (e : Env) (i : Instr) (m : Machine) (memSize : Nat) : Price :=
  let t := e.table
  match i with
  | .bin .exp => .cost (gasExp t (back m.stack 1)) true m.mem m.touched
  | .sha3 => .of m (gasWords t m.mem memSize t.blake2b t.blake2bWord (back m.stack 1))
  | .blake2b => .of m (gasWords t m.mem memSize t.blake2b t.blake2bWord (back m.stack 1))
  | .calldatacopy => .of m (gasWords t m.mem memSize t.callDataCopy t.memCopyWord (back m.stack 2))
  | .codecopy => .of m (gasWords t m.mem memSize t.codeCopy t.memCopyWord (back m.stack 2))
  | .returndatacopy => .of m (gasWords t m.mem memSize t.returnDataCopy t.memCopyWord (back m.stack 2))
  | .mload => .of m (gasMem t m.mem memSize t.mload)
  | .mstore => .of m (gasMem t m.mem memSize t.mstore)
  | .mstore8 => .of m (gasMem t m.mem memSize t.mstore8)
  | .sstore => gasSStore e m
  | .log n => .of m (gasLog t m.mem memSize n (back m.stack 1))
  | .call => gasCall e m memSize
  | .call2 => gasCall e m memSize
  | .ret => .of m (memoryGasCost t m.mem memSize)
  | .revert => .of m (memoryGasCost t m.mem memSize)
  | i => .cost (constGas t i) true m.mem m.touched

/-! ### Execution -/

/-- What an execution function yields: the new state (its `pc` not yet advanced for instructions that do not jump), the
returned bytes, an error, or a panic. -/
inductive Exec
  | next (m : Machine)
  | done (m : Machine) (ret : Bytes)
  | err (e : Err)
  | panic
  deriving DecidableEq, Repr

/-- The two-operand instructions: instructions.go:19-335; `x` is the top of the stack. -/
def Bin.eval : Bin → Int → Int → Int
  | .add => opAdd | .mul => opMul | .sub => opSub | .div => opDiv | .sdiv => opSdiv | .mod => opMod | .smod => opSmod
  | .exp => opExp | .signextend => opSignExtend | .lt => opLt | .gt => opGt | .slt => opSlt | .sgt => opSgt
  | .eq => opEq | .and => opAnd | .or => opOr | .xor => opXor | .byte => opByte | .shl => opSHL | .shr => opSHR
  | .sar => opSAR

/-- Words that a read-only query replaces by zero: jump_table.go:193-300 (`opOffchain…`). -/
def Src.hidden : Src → Bool
  | .caller | .callvalue | .timestamp | .height | .tokenid | .fromhash | .seed | .random => true
  | _ => false

/-- The word pushed: instructions.go:356-359, 378-396, 406-409, 423-426, 464-467, 487-582. -/
def srcWord (e : Env) (s : Src) : Int :=
  match s with
  | .calldatasize => e.data.length
  | .codesize => e.code.length
  | .returndatasize => 0
  | s => if e.offchain && s.hidden then 0 else e.word s

/-- Replaces the `n` top words. -/
def Machine.push (m : Machine) (n : Nat) (ws : List Int) : Machine := { m with stack := ws ++ m.stack.drop n }

/-- `opSha3`, `opBlake2b`: instructions.go:337-354. -/
def execHash (m : Machine) (h : Bytes → Bytes) : Exec :=
  match m.stack with
  | off :: size :: s =>
    match m.mem.get (toInt64 off) (toInt64 size) with
    | none => .panic
    | some d => .next { m with stack := (num (h d) : Int) :: s }
  | _ => .panic

/-- `opCallDataCopy`, `opCodeCopy`: instructions.go:411-438. -/
def execCopy (m : Machine) (src : Bytes) : Exec :=
  match m.stack with
  | mo :: o :: l :: s =>
    match m.mem.set (toUint64 mo) (toUint64 l) (getData src o l) with
    | none => .panic
    | some mem => .next { m with stack := s, mem := mem }
  | _ => .panic

/-- `opReturnDataCopy`: instructions.go:469-485, for empty return data. -/
def execReturnDataCopy (m : Machine) : Exec :=
  match m.stack with
  | mo :: o :: l :: s =>
    if o + l ≥ 2 ^ 64 ∨ 0 < toUint64 (o + l) then .err .returnData
    else
      match m.mem.set (toUint64 mo) (toUint64 l) [] with
      | none => .panic
      | some mem => .next { m with stack := s, mem := mem }
  | _ => .panic

/-- `opMload`: instructions.go:589-596. -/
def execMload (m : Machine) : Exec :=
  match m.stack with
  | off :: s =>
    match m.mem.get (toInt64 off) 32 with
    | none => .panic
    | some d => .next { m with stack := (num d : Int) :: s }
  | _ => .panic

/-- `opMstore`: instructions.go:598-605. -/
def execMstore (m : Machine) : Exec :=
  match m.stack with
  | off :: v :: s =>
    match m.mem.set32 (toUint64 off) v with
    | none => .panic
    | some mem => .next { m with stack := s, mem := mem }
  | _ => .panic

/-- `opMstore8`: instructions.go:607-612; `mem.store[off]` out of range is a panic. -/
def execMstore8 (m : Machine) : Exec :=
  match m.stack with
  | off :: v :: s =>
    if 0 ≤ toInt64 off ∧ toInt64 off < m.mem.store.length then
      .next { m with stack := s, mem := { m.mem with
        store := splice m.mem.store (toInt64 off).toNat [UInt8.ofNat (toInt64 v % 256).toNat] } }
    else .panic
  | _ => .panic

/-- `opSLoad`: instructions.go:614-620. -/
def execSload (e : Env) (m : Machine) : Exec :=
  match m.stack with
  | loc :: s => .next { m with stack := (num (getValue e.orig m.store loc.toNat) : Int) :: s }
  | _ => .panic

/-- `opSStore`, `opOffchainSStore`: instructions.go:622-634. -/
def execSstore (e : Env) (m : Machine) : Exec :=
  match m.stack with
  | loc :: v :: s =>
    if e.offchain then .next { m with stack := s }
    else .next { m with stack := s, store := setValue m.store loc.toNat (bytesOf v) }
  | _ => .panic

/-- Going to a jump destination, shared by `opJump` and `opJumpi`. -/
def jumpTo (e : Env) (m : Machine) (pos : Int) (s : List Int) : Exec :=
  match hasDest e.code pos with
  | none => .panic
  | some false => .err .badJump
  | some true => .next { m with stack := s, pc := toUint64 pos }

/-- `opJump`: instructions.go:636-647. -/
def execJump (e : Env) (m : Machine) : Exec :=
  match m.stack with
  | pos :: s => jumpTo e m pos s
  | _ => .panic

/-- `opJumpi`: instructions.go:649-664. -/
def execJumpi (e : Env) (m : Machine) : Exec :=
  match m.stack with
  | pos :: cond :: s => if cond ≠ 0 then jumpTo e m pos s else .next { m with stack := s, pc := m.pc + 1 }
  | _ => .panic

/-- `makePush`: instructions.go:681-701. -/
def execPush (e : Env) (m : Machine) (n : Nat) : Exec :=
  .next { m with
    stack := (num (rightPad ((e.code.drop (min (m.pc + 1) e.code.length)).take
      (min (min (m.pc + 1) e.code.length + n) e.code.length - min (m.pc + 1) e.code.length)) n) : Int) :: m.stack
    pc := m.pc + n }

/-- `makeDup` with `stack.dup`: instructions.go:704-709, stack.go:48-50. -/
def execDup (m : Machine) (n : Nat) : Exec :=
  if n = 0 then .panic
  else match m.stack[n - 1]? with
  | none => .panic
  | some x => .next { m with stack := x :: m.stack }

/-- `makeSwap` with `stack.swap`: instructions.go:712-719, stack.go:52-54. -/
def execSwap (m : Machine) (n : Nat) : Exec :=
  match m.stack[0]?, m.stack[n]? with
  | some x, some y => .next { m with stack := (m.stack.set n x).set 0 y }
  | _, _ => .panic

/-- `makeLog`, `makeOffchainLog`: instructions.go:721-785. -/
def execLog (e : Env) (m : Machine) (n : Nat) : Exec :=
  match m.stack with
  | off :: size :: s =>
    if s.length < n then .panic
    else if e.offchain then .next { m with stack := s.drop n }
    else
      match m.mem.get (toInt64 off) (toInt64 size) with
      | none => .panic
      | some d => .next { m with stack := s.drop n, logs := m.logs ++ [((s.take n).map Int.toNat, d)] }
  | _ => .panic

/-- `opCall`, `opOffchainCall`: instructions.go:805-824. -/
def execCall (e : Env) (m : Machine) : Exec :=
  match m.stack with
  | _ :: _ :: _ :: off :: size :: s =>
    if e.offchain then .next { m with stack := s }
    else
      match m.mem.get (toInt64 off) (toInt64 size) with
      | none => .panic
      | some d => .next { m with stack := s, sends := m.sends ++ [requestOf m.stack d] }
  | _ => .panic

/-- `opCall2`, `opOffchainCall2`: instructions.go:826-840. -/
def execCall2 (e : Env) (m : Machine) : Exec :=
  match execCall e m with
  | .next m' => .next { m' with stack := (if e.offchain then 0 else e.callHash m'.sends) :: m'.stack }
  | r => r

/-- `opReturn`, `opRevert`: instructions.go:842-856. -/
def execReturn (m : Machine) : Exec :=
  match m.stack with
  | off :: size :: s =>
    match m.mem.get (toInt64 off) (toInt64 size) with
    | none => .panic
    | some d => .done { m with stack := s } d
  | _ => .panic

/-- `opRevert`, `opOffchainRevert`: instructions.go:850-861. -/
def execRevert (e : Env) (m : Machine) : Exec :=
  if e.offchain then
    match m.stack with
    | _ :: _ :: s => .done { m with stack := s } []
    | _ => .panic
  else execReturn m

/-- One result from the words on top. -/
def execTop (m : Machine) (n : Nat) (f : List Int → Int) : Exec :=
  if m.stack.length < n then .panic else .next { m with stack := f (m.stack.take n) :: m.stack.drop n }

/-- `execute` of an operation: jump_table.go. -/
def execute (e : Env) (i : Instr) (m : Machine) : Exec :=
  match i with
  | .stop => .done m []
  | .bin b => execTop m 2 (fun s => b.eval (back s 0) (back s 1))
  | .addmod => execTop m 3 (fun s => opAddmod (back s 0) (back s 1) (back s 2))
  | .mulmod => execTop m 3 (fun s => opMulmod (back s 0) (back s 1) (back s 2))
  | .iszero => execTop m 1 (fun s => opIszero (back s 0))
  | .not => execTop m 1 (fun s => opNot (back s 0))
  | .sha3 => execHash m e.keccak
  | .blake2b => execHash m e.blake
  | .src s => execTop m 0 (fun _ => srcWord e s)
  | .balance => execTop m 1 (fun s => e.balance (bigToFixed 10 (back s 0)))
  | .calldataload => execTop m 1 (fun s => num (getData e.data (back s 0) 32))
  | .calldatacopy => execCopy m e.data
  | .codecopy => execCopy m e.code
  | .returndatacopy => execReturnDataCopy m
  | .pop => match m.stack with | _ :: s => .next { m with stack := s } | [] => .panic
  | .mload => execMload m
  | .mstore => execMstore m
  | .mstore8 => execMstore8 m
  | .sload => execSload e m
  | .sstore => execSstore e m
  | .jump => execJump e m
  | .jumpi => execJumpi e m
  | .pc => execTop m 0 (fun _ => m.pc)
  | .msize => execTop m 0 (fun _ => m.mem.store.length)
  | .jumpdest => .next m
  | .push n => execPush e m n
  | .dup n => execDup m n
  | .swap n => execSwap m n
  | .log n => execLog e m n
  | .call => execCall e m
  | .call2 => execCall2 e m
  | .ret => execReturn m
  | .revert => execRevert e m

/-- `operation.jumps`: jump_table.go:560-573. -/
def Instr.jumps : Instr → Bool
  | .jump | .jumpi => true
  | _ => false

/-- `operation.reverts`; in a read-only query REVERT halts instead: jump_table.go:182-190, 292-299. -/
def reverts (e : Env) (i : Instr) : Bool := decide (i = .revert) && !e.offchain

/-- `util.UseQuotaWithFlag`: util/quota.go:33-47; `none` is ErrOutOfQuota. -/
def useQuota (left cost : Nat) (charge : Bool) : Option Nat :=
  if charge then (if left < cost then none else some (left - cost)) else some ((left + cost) % 2 ^ 64)

/-- Result of one round of `runLoop`. -/
inductive Step
  | next (m : Machine)
  | stop (m : Machine) (r : Result)
  deriving DecidableEq, Repr

/-- `stackLimit`: params.go:12. -/
def stackLimit : Nat := 1024

/-- The end of a round: interpreter.go:122-133. -/
def finish (e : Env) (i : Instr) (m : Machine) : Exec → Step
  | .panic => .stop m .panic
  | .err x => .stop m (.err x)
  | .done m' ret => .stop m' (if reverts e i then .reverted ret else .ok ret)
  | .next m' => .next (if i.jumps then m' else { m' with pc := m'.pc + 1 })

/-- Charging, growing the memory and executing: interpreter.go:84-94. -/
def charge (e : Env) (i : Instr) (m : Machine) (memSize cost : Nat) (flag : Bool) : Step :=
  match useQuota m.quota cost flag with
  | none => .stop { m with quota := 0 } (.err .outOfQuota)
  | some q =>
    let m' := { m with quota := q, mem := if memSize > 0 then m.mem.resize e memSize else m.mem }
    finish e i m' (execute e i m')

/-- One round of `runLoop`: interpreter.go:55-134, `makeStackFunc`: stack_table.go:5-16. -/
def step (e : Env) (m : Machine) : Step :=
  match decode e.set (getOp e.code m.pc) with
  | none => .stop m (.err .invalidOp)
  | some i =>
    if m.stack.length < i.pops then .stop m (.err .underflow)
    else if m.stack.length + i.pushes - i.pops > stackLimit then .stop m (.err .stackLimit)
    else
      match memorySize i m.stack with
      | none => .stop m (.err .memOverflow)
      | some memSize =>
        match gasCost e i m memSize with
        | .panic => .stop m .panic
        | .err x => .stop m (.err x)
        | .cost c flag mem touched => charge e i { m with mem := mem, touched := touched } memSize c flag

/-- State at the beginning of a run: interpreter.go:44-53, contract.go:29-39. -/
def init (quota : Nat) : Machine := ⟨0, [], ⟨[], 0, 0⟩, quota, [], [], [], []⟩

/-- At most `fuel` rounds; `none` if the run has not ended. -/
def run (e : Env) : Nat → Machine → Option (Machine × Result)
  | 0, _ => none
  | fuel + 1, m =>
    match step e m with
    | .stop m' r => some (m', r)
    | .next m' => run e fuel m'

end Verif.Evm
