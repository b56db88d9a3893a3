import Verif.Evm.InterpSpec
import Verif.Evm.WordProps

/-!
# Reference machine for C43

What the instructions of the contract language mean, without prices, slices, capacities, bitmaps or integer conversions:
words are 256-bit vectors, memory is an unbounded array of bytes that begins as zeros, storage maps words to words.
-/

namespace Verif.Evm.Ref

open Verif.Bytes (Bytes num be)

/-- A 256-bit word. -/
abbrev Word := BitVec 256

/-- State of the reference machine. -/
structure State where
  pc : Nat
  stack : List Word
  mem : Nat → UInt8
  /-- bytes of memory in use, a multiple of 32 -/
  msize : Nat
  storage : Word → Word
  logs : List (List Word × Bytes)
  sends : List Request

/-- What an instruction does. -/
inductive Outcome
  | next (s : State)
  | returned (s : State) (ret : Bytes)
  | reverted (ret : Bytes)
  | fault

/-- The opcode of an instruction. -/
def opcode : Instr → Nat
  | .stop => 0x00 | .bin .add => 0x01 | .bin .mul => 0x02 | .bin .sub => 0x03 | .bin .div => 0x04 | .bin .sdiv => 0x05
  | .bin .mod => 0x06 | .bin .smod => 0x07 | .addmod => 0x08 | .mulmod => 0x09 | .bin .exp => 0x0a
  | .bin .signextend => 0x0b
  | .bin .lt => 0x10 | .bin .gt => 0x11 | .bin .slt => 0x12 | .bin .sgt => 0x13 | .bin .eq => 0x14 | .iszero => 0x15
  | .bin .and => 0x16 | .bin .or => 0x17 | .bin .xor => 0x18 | .not => 0x19 | .bin .byte => 0x1a | .bin .shl => 0x1b
  | .bin .shr => 0x1c | .bin .sar => 0x1d
  | .sha3 => 0x20 | .blake2b => 0x21
  | .src .address => 0x30 | .balance => 0x31 | .src .caller => 0x33 | .src .callvalue => 0x34 | .calldataload => 0x35
  | .src .calldatasize => 0x36 | .calldatacopy => 0x37 | .src .codesize => 0x38 | .codecopy => 0x39
  | .src .returndatasize => 0x3d | .returndatacopy => 0x3e
  | .src .timestamp => 0x42 | .src .height => 0x43 | .src .tokenid => 0x46 | .src .accountheight => 0x47
  | .src .prevhash => 0x48 | .src .fromhash => 0x49 | .src .seed => 0x4a | .src .random => 0x4b
  | .pop => 0x50 | .mload => 0x51 | .mstore => 0x52 | .mstore8 => 0x53 | .sload => 0x54 | .sstore => 0x55
  | .jump => 0x56 | .jumpi => 0x57 | .pc => 0x58 | .msize => 0x59 | .jumpdest => 0x5b
  | .push n => 0x5f + n | .dup n => 0x7f + n | .swap n => 0x8f + n | .log n => 0xa0 + n
  | .call => 0xf1 | .call2 => 0xf2 | .ret => 0xf3 | .revert => 0xfd

/-- The instructions there are: PUSH1-32, DUP1-16, SWAP1-16, LOG0-4; RANDOM not in the first instruction set, CALL2 only in
the last one. -/
def available (set : Set) : Instr → Prop
  | .push n => 1 ≤ n ∧ n ≤ 32
  | .dup n => 1 ≤ n ∧ n ≤ 16
  | .swap n => 1 ≤ n ∧ n ≤ 16
  | .log n => n ≤ 4
  | .src .random => set ≠ .simple
  | .call2 => set = .earth
  | _ => True

/-- Truth values are the words 1 and 0. -/
def truth (b : Bool) : Word := if b then 1 else 0

/-- Instructions with two operands; `x` is the top of the stack. -/
def binary : Bin → Word → Word → Word
  | .add, x, y => x + y
  | .mul, x, y => x * y
  | .sub, x, y => x - y
  | .div, x, y => x / y
  | .sdiv, x, y => x.sdiv y
  | .mod, x, y => if y = 0 then 0 else x % y
  | .smod, x, y => if y = 0 then 0 else x.srem y
  | .exp, x, y => BitVec.ofNat 256 (x.toNat ^ y.toNat)
  | .signextend, k, x => if k.toNat < 31 then (x.setWidth (8 * k.toNat + 8)).signExtend 256 else x
  | .lt, x, y => truth (x.ult y)
  | .gt, x, y => truth (y.ult x)
  | .slt, x, y => truth (x.slt y)
  | .sgt, x, y => truth (y.slt x)
  | .eq, x, y => truth (decide (x = y))
  | .and, x, y => x &&& y
  | .or, x, y => x ||| y
  | .xor, x, y => x ^^^ y
  | .byte, k, x => if k.toNat < 32 then BitVec.ofNat 256 (x.toNat / 256 ^ (31 - k.toNat) % 256) else 0
  | .shl, s, x => x <<< s
  | .shr, s, x => x >>> s
  | .sar, s, x => x.sshiftRight s.toNat

/-- `n` bytes of `b` from `o`, zeros beyond its end. -/
def slice (b : Bytes) (o n : Nat) : Bytes := (List.range n).map (fun k => b.getD (o + k) 0)

/-- The word with these big-endian bytes. -/
def wordOf (b : Bytes) : Word := BitVec.ofNat 256 (num b)

/-- `n` bytes of the memory from `o`. -/
def State.read (σ : State) (o n : Nat) : Bytes := (List.range n).map (fun k => σ.mem (o + k))

/-- Bytes written to the memory at `o`. -/
def State.write (σ : State) (o : Nat) (b : Bytes) : State :=
  { σ with mem := fun k => if o ≤ k ∧ k < o + b.length then b.getD (k - o) 0 else σ.mem k }

/-- The memory in use is extended, in whole words, to cover `n` bytes from `o`. -/
def State.touch (σ : State) (o n : Nat) : State :=
  { σ with msize := if n = 0 then σ.msize else max σ.msize (32 * ((o + n + 31) / 32)) }

/-- The instruction is done: this is the new stack, and the next instruction follows. -/
def State.with (σ : State) (s : List Word) : Outcome := .next { σ with stack := s, pc := σ.pc + 1 }

/-- The word an environment instruction pushes. A read-only query sees zero for what depends on a transaction. -/
def envWord (e : Env) : Src → Word
  | .calldatasize => BitVec.ofNat 256 e.data.length
  | .codesize => BitVec.ofNat 256 e.code.length
  | .returndatasize => 0
  | .address => BitVec.ofInt 256 (e.word .address)
  | .accountheight => BitVec.ofInt 256 (e.word .accountheight)
  | .prevhash => BitVec.ofInt 256 (e.word .prevhash)
  | s => if e.offchain then 0 else BitVec.ofInt 256 (e.word s)

/-- An address or token id given as a word; one that is too large is the zero one. -/
def idOf (size : Nat) (x : Word) : Nat := if x.toNat < 256 ^ size then x.toNat else 0

/-- The request of a call: destination, token, amount, and the input data in the memory. -/
def request (σ : State) (a t v o n : Word) : Request := ⟨idOf 21 a, idOf 10 t, v.toNat, σ.read o.toNat n.toNat⟩

open Classical in
/-- A jump to a destination in the code, or a fault. -/
noncomputable def goto (e : Env) (σ : State) (pos : Word) (s : List Word) : Outcome :=
  if IsDest e.code pos.toNat then .next { σ with stack := s, pc := pos.toNat } else .fault

/-- The effect of an instruction, once the memory it uses is in use. -/
noncomputable def act (e : Env) (i : Instr) (σ : State) : Outcome :=
  match i, σ.stack with
  | .stop, _ => .returned σ []
  | .bin b, x :: y :: s => σ.with (binary b x y :: s)
  | .addmod, x :: y :: z :: s => σ.with ((if z = 0 then 0 else BitVec.ofNat 256 ((x.toNat + y.toNat) % z.toNat)) :: s)
  | .mulmod, x :: y :: z :: s => σ.with ((if z = 0 then 0 else BitVec.ofNat 256 ((x.toNat * y.toNat) % z.toNat)) :: s)
  | .iszero, x :: s => σ.with (truth (decide (x = 0)) :: s)
  | .not, x :: s => σ.with (~~~ x :: s)
  | .sha3, o :: n :: s => σ.with (wordOf (e.keccak (σ.read o.toNat n.toNat)) :: s)
  | .blake2b, o :: n :: s => σ.with (wordOf (e.blake (σ.read o.toNat n.toNat)) :: s)
  | .src w, s => σ.with (envWord e w :: s)
  | .balance, t :: s => σ.with (BitVec.ofInt 256 (e.balance (idOf 10 t)) :: s)
  | .calldataload, o :: s => σ.with (wordOf (slice e.data o.toNat 32) :: s)
  | .calldatacopy, d :: o :: n :: s => (σ.write d.toNat (slice e.data o.toNat n.toNat)).with s
  | .codecopy, d :: o :: n :: s => (σ.write d.toNat (slice e.code o.toNat n.toNat)).with s
  | .returndatacopy, _ :: o :: n :: s => if o.toNat + n.toNat = 0 then σ.with s else .fault
  | .pop, _ :: s => σ.with s
  | .mload, o :: s => σ.with (wordOf (σ.read o.toNat 32) :: s)
  | .mstore, o :: v :: s => (σ.write o.toNat (be 32 v.toNat)).with s
  | .mstore8, o :: v :: s => (σ.write o.toNat [UInt8.ofNat v.toNat]).with s
  | .sload, k :: s => σ.with (σ.storage k :: s)
  | .sstore, k :: v :: s =>
    if e.offchain then σ.with s else { σ with storage := fun j => if j = k then v else σ.storage j }.with s
  | .jump, pos :: s => goto e σ pos s
  | .jumpi, pos :: c :: s => if c = 0 then σ.with s else goto e σ pos s
  | .pc, s => σ.with (BitVec.ofNat 256 σ.pc :: s)
  | .msize, s => σ.with (BitVec.ofNat 256 σ.msize :: s)
  | .jumpdest, s => σ.with s
  | .push n, s => .next { σ with stack := wordOf (slice e.code (σ.pc + 1) n) :: s, pc := σ.pc + 1 + n }
  | .dup n, s => if n ≤ s.length then σ.with (s.getD (n - 1) 0 :: s) else .fault
  | .swap n, x :: s =>
    if n ≤ s.length then σ.with (s.getD (n - 1) 0 :: (s.take (n - 1) ++ x :: s.drop n)) else .fault
  | .log n, o :: l :: s =>
    if s.length < n then .fault
    else if e.offchain then σ.with (s.drop n)
    else { σ with logs := σ.logs ++ [(s.take n, σ.read o.toNat l.toNat)] }.with (s.drop n)
  | .call, a :: t :: v :: o :: n :: s =>
    if e.offchain then σ.with s
    else { σ with sends := σ.sends ++ [request σ a t v o n] }.with s
  | .call2, a :: t :: v :: o :: n :: s =>
    if e.offchain then σ.with (0 :: s)
    else
      { σ with sends := σ.sends ++ [request σ a t v o n] }.with
        (BitVec.ofInt 256 (e.callHash (σ.sends ++ [request σ a t v o n])) :: s)
  | .ret, o :: n :: s => .returned { σ with stack := s } (σ.read o.toNat n.toNat)
  | .revert, o :: n :: s => if e.offchain then .returned { σ with stack := s } [] else .reverted (σ.read o.toNat n.toNat)
  | _, _ => .fault

/-- The instruction executed: the memory range it names comes into use, then it takes effect. -/
noncomputable def exec (e : Env) (i : Instr) (σ : State) : Outcome :=
  act e i (σ.touch (i.range (σ.stack.map Word.val)).1.toNat (i.range (σ.stack.map Word.val)).2.toNat)

/-- The instruction at the program counter; the code is followed by STOPs. -/
def Fetch (e : Env) (σ : State) (i : Instr) : Prop := opcode i = getOp e.code σ.pc ∧ available e.set i

/-- How an execution from a state ends. -/
inductive Eval (e : Env) : State → Outcome → Prop
  | returned {σ i σ' ret} : Fetch e σ i → exec e i σ = .returned σ' ret → Eval e σ (.returned σ' ret)
  | reverted {σ i ret} : Fetch e σ i → exec e i σ = .reverted ret → Eval e σ (.reverted ret)
  | step {σ i σ' r} : Fetch e σ i → exec e i σ = .next σ' → Eval e σ' r → Eval e σ r

/-- The state at the beginning: empty stack, zero memory, the saved storage. -/
def start (e : Env) : State :=
  ⟨0, [], fun _ => 0, 0, fun k => wordOf (e.orig k.toNat), [], []⟩

end Verif.Evm.Ref

namespace Verif.Evm

/-- The state of the reference machine that a state of the interpreter stands for. -/
def abs (e : Env) (m : Machine) : Ref.State :=
  ⟨m.pc, m.stack.map (BitVec.ofInt 256), fun k => m.mem.store.getD k 0, m.mem.store.length,
    fun k => Ref.wordOf (getValue e.orig m.store k.toNat), m.logs.map (fun l => (l.1.map (BitVec.ofNat 256), l.2)), m.sends⟩

/-- The two cases in which the interpreter is known to differ: SAR of zero by 256 or more, and CALL2 with input outside the
memory in use. -/
def Differs (e : Env) (m : Machine) : Prop :=
  (getOp e.code m.pc = 0x1d ∧ 256 ≤ m.stack.getD 0 0 ∧ m.stack.getD 1 0 = 0) ∨
  (getOp e.code m.pc = 0xf2 ∧ m.stack.getD 4 0 ≠ 0 ∧ m.stack.getD 3 0 + m.stack.getD 4 0 > m.mem.store.length)

end Verif.Evm
