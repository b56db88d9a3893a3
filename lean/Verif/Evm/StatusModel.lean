import Verif.Evm.InterpModel

/-!
# Whether a contract reads the state of the chain

`vm/destination.go:71-171`: when a contract is made, its code is looked through for instructions that read what other
nodes may see differently; with one of them, calls have to wait for snapshot blocks.
-/

namespace Verif.Evm
open Verif.Bytes (Bytes)

/-- How the hash that the compiler adds to the code begins.  `destination.go:72`, `:104`. -/
def auxPrefix : Bytes := [0xa1, 0x65, 98, 122, 122, 114, 48, 0x58, 0x20]
def auxPrefixFE : Bytes := 0xfe :: auxPrefix

/-- `destination.go:73`. -/
def auxSuffix : Bytes := [0x00, 0x29]

/-- HEIGHT, TIMESTAMP, SEED, DELEGATECALL, EXTCODESIZE, EXTCODECOPY.  `destination.go:74`. -/
def statusOps : List Nat := [0x43, 0x42, 0x4a, 0xf4, 0x3b, 0x3c]

/-- `destination.go:106`. -/
def snapshotOps : List Nat := [0x43, 0x42, 0xf4, 0x3b, 0x3c]

/-- SEED, RANDOM.  `destination.go:107`. -/
def seedOps : List Nat := [0x4a, 0x4b]

/-- `destination.go:95-101` (`containsAuxCode`). -/
def hasAux (code : Bytes) : Bool :=
  decide (43 < code.length ∧ ((code.take (code.length - 34)).drop (code.length - 43)) = auxPrefix ∧ code.drop (code.length - 2) = auxSuffix)

/-- The loop of `ContainsStatusCode`; `none` is an index out of range.  `destination.go:83-92`. -/
def statusLoop (m : Bitvec) : Nat → Bytes → Option Bool
  | _, [] => some false
  | i, c :: cs => (codeSegment m i).bind (fun s => if s && statusOps.contains c.toNat then some true else statusLoop m (i + 1) cs)

/-- `destination.go:78-93` (`ContainsStatusCode`). -/
def containsStatus (code : Bytes) : Option Bool :=
  let c := if hasAux code then code.take (code.length - 43) else code
  (codeBitmap c).bind (fun m => statusLoop m 0 c)

/-- `bytes.Index`. -/
def indexOf (pat : Bytes) : Bytes → Option Nat
  | [] => if pat.isPrefixOf [] then some 0 else none
  | c :: cs => if pat.isPrefixOf (c :: cs) then some 0 else (indexOf pat cs).map (· + 1)

/-- Whether one of `k` positions from `p` on is not an instruction.  `destination.go:153-159`. -/
def dataAt (m : Bitvec) : Nat → Nat → Option Bool
  | _, 0 => some false
  | p, k + 1 => (codeSegment m p).bind (fun c => if c then dataAt m (p + 1) k else some true)

/-- The loop of `getCodeWithoutAuxCodeAndParams`.  `destination.go:147-169`. -/
def stripLoop (m : Bitvec) (prev : Nat) (res : Bytes) (code : Bytes) : Option Bytes :=
  match indexOf auxPrefixFE code with
  | none => some (res ++ code)
  | some i =>
    if h : code.length < i + 44 then some (res ++ code)
    else (dataAt m (prev + i) 3).bind (fun flag =>
      if flag then stripLoop m (prev + (i + auxPrefixFE.length)) (res ++ code.take (i + auxPrefixFE.length)) (code.drop (i + auxPrefixFE.length))
      else some (res ++ code.take (i + 1)))
termination_by code.length
decreasing_by
  rw [List.length_drop]
  have : auxPrefixFE.length = 10 := rfl
  omega

/-- `destination.go:143-171` (`getCodeWithoutAuxCodeAndParams`). -/
def strip (code : Bytes) : Option Bytes := (codeBitmap code).bind (fun m => stripLoop m 0 [] code)

/-- The loop of `ContainsCertainStatusCode`.  `destination.go:120-139`. -/
def certainLoop (m : Bitvec) : Nat → Bytes → Bool × Bool → Option (Bool × Bool)
  | _, [], r => some r
  | i, c :: cs, r => (codeSegment m i).bind (fun s =>
      if s then
        let r' := (r.1 || snapshotOps.contains c.toNat, r.2 || seedOps.contains c.toNat)
        if r'.1 && r'.2 then some r' else certainLoop m (i + 1) cs r'
      else certainLoop m (i + 1) cs r)

/-- `destination.go:112-141` (`ContainsCertainStatusCode`). -/
def containsCertain (code : Bytes) : Option (Bool × Bool) :=
  if code.length = 0 then some (false, false)
  else (strip code).bind (fun r => (codeBitmap r).bind (fun m => certainLoop m 0 r (false, false)))

end Verif.Evm
