import Verif.Evm.InterpModel

/-!
# Specification for the interpreter properties C05, C06, C07, C09, C10
-/

namespace Verif.Evm

open Verif.Bytes (Bytes num be)

/-- The states a run goes through. -/
inductive Reach (e : Env) (start : Machine) : Machine → Prop
  | here : Reach e start start
  | next {m m'} : Reach e start m → step e m = .next m' → Reach e start m'

/-- Number of immediate bytes of the instruction with this opcode: PUSH1 to PUSH32 carry 1 to 32. -/
def immediates (op : Nat) : Nat := if 0x60 ≤ op ∧ op ≤ 0x7f then op - 0x5f else 0

/-- The positions at which instructions begin when the code is read from its first byte, skipping immediate bytes. -/
inductive InstrStart (code : Bytes) : Nat → Prop
  | first : InstrStart code 0
  | after {p} : InstrStart code p → p < code.length → InstrStart code (p + 1 + immediates (getOp code p))

/-- A real jump destination: the byte is JUMPDEST and an instruction begins there. -/
def IsDest (code : Bytes) (p : Nat) : Prop := p < code.length ∧ getOp code p = 0x5b ∧ InstrStart code p

/-- The memory range an instruction reads or writes, as offset and size, by its operands (top of the stack first).
An empty range is size 0. -/
def Instr.range (i : Instr) (s : List Int) : Int × Int :=
  match i, s with
  | .sha3, off :: size :: _ => (off, size)
  | .blake2b, off :: size :: _ => (off, size)
  | .calldatacopy, dst :: _ :: size :: _ => (dst, size)
  | .codecopy, dst :: _ :: size :: _ => (dst, size)
  | .returndatacopy, dst :: _ :: size :: _ => (dst, size)
  | .mload, off :: _ => (off, 32)
  | .mstore, off :: _ => (off, 32)
  | .mstore8, off :: _ => (off, 1)
  | .log _, off :: size :: _ => (off, size)
  | .call, _ :: _ :: _ :: off :: size :: _ => (off, size)
  | .call2, _ :: _ :: _ :: off :: size :: _ => (off, size)
  | .ret, off :: size :: _ => (off, size)
  | .revert, off :: size :: _ => (off, size)
  | _, _ => (0, 0)

/-- The documented price of a memory of `w` words: a linear and a quadratic part. -/
def memPrice (t : QuotaTable) (w : Nat) : Nat := w * t.mem + w * w / t.memDivision

/-- A 256-bit word. -/
def IsWord (x : Int) : Prop := 0 ≤ x ∧ x < 2 ^ 256

/-- What the rest of the system guarantees about the environment: words are 256-bit words, hashes have 32 bytes, a grown
slice has room for its length, and the instruction prices are those of one of the quota tables. -/
structure Env.Ok (e : Env) : Prop where
  word : ∀ s, IsWord (e.word s)
  balance : ∀ t, IsWord (e.balance t)
  data : e.data.length < 2 ^ 62
  code : e.code.length < 2 ^ 62
  keccak : ∀ b, (e.keccak b).length = 32
  blake : ∀ b, (e.blake b).length = 32
  orig : ∀ k, (e.orig k).length ≤ 32
  callHash : ∀ l, IsWord (e.callHash l)
  grow : ∀ c n, n ≤ e.grow c n
  table : e.table ∈ quotaTables

end Verif.Evm
