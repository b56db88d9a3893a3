import Verif.Evm.StatusModel

/-!
# The terms under which a contract is made

The data of the request and the checks of them: `vm/util/common.go:53-110`, `vm/vm.go:288-334`.  Quota, balance and fee come
before and after and are left out.  Single bytes are numbers below 256.  An index out of range is `none`.
-/

namespace Verif.Evm
open Verif.Bytes (Bytes)

/-- What is kept about the contract: `vm.go:363` (`ContractMeta`). -/
structure Terms where
  gid : Bytes
  confirmed : Nat
  seed : Nat
  ratio : Nat
  deriving DecidableEq

/-- `common/types/gid.go:18`. -/
def snapshotGid : Bytes := [0, 0, 0, 0, 0, 0, 0, 0, 0, 1]

/-- `common.go:62-64` (`GetCreateContractData`). -/
def createData (code : Bytes) (type confirmed seed ratio : UInt8) (gid : Bytes) : Bytes := gid ++ ([type] ++ ([confirmed] ++ ([seed] ++ ([ratio] ++ code))))

/-- A byte of the data. -/
def byteAt (data : Bytes) (i : Nat) : Option Nat := (data[i]?).map UInt8.toNat

/-- `common.go:67-70` (`GetGidFromCreateContractData`). -/
def gidOf (data : Bytes) : Bytes := data.take 10

/-- `common.go:73-75` (`GetContractTypeFromCreateContractData`). -/
def typeOf (data : Bytes) : Option Nat := byteAt data 10

/-- `common.go:86-88` (`GetSnapshotCountFromCreateContractData`). -/
def confirmedOf (data : Bytes) : Option Nat := byteAt data 11

/-- `common.go:91-93` (`GetSnapshotWithSeedCountCountFromCreateContractData`). -/
def seedOf (data : Bytes) : Option Nat := byteAt data 12

/-- `common.go:96-101` (`GetQuotaMultiplierFromCreateContractData`); `fork` is whether the height is past the seed fork. -/
def ratioOf (fork : Bool) (data : Bytes) : Option Nat := if !fork then byteAt data 12 else byteAt data 13

/-- `common.go:104-109` (`GetCodeFromCreateContractData`). -/
def codeOf (fork : Bool) (data : Bytes) : Bytes := if !fork then data.drop 13 else data.drop 14

/-- `vm.go:288-334`, the checks of `sendCreate`: `none` for a panic, `some none` for an error. -/
def checkCreate (fork : Bool) (data : Bytes) : Option (Option Terms) :=
  if data.length < (if !fork then 13 else 14) then some none
  else if gidOf data = snapshotGid then some none
  else (typeOf data).bind (fun ty =>
    if ty ≠ 1 then some none
    else (confirmedOf data).bind (fun n =>
      if n > 75 then some none
      else (ratioOf fork data).bind (fun q =>
        if q < 10 ∨ q > 100 then some none
        else if !fork then
          (containsStatus (codeOf fork data)).bind (fun a => if a ∧ n = 0 then some none else some (some ⟨gidOf data, n, n, q⟩))
        else (seedOf data).bind (fun r =>
          if r > 75 ∨ n < r then some none
          else (containsCertain (codeOf fork data)).bind (fun ab =>
            if ab.1 ∧ n = 0 then some none
            else if ab.2 ∧ r = 0 then some none
            else some (some ⟨gidOf data, n, r, q⟩))))))

end Verif.Evm
