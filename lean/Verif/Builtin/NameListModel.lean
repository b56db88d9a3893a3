/-!
# Model of the comma separated lists of names in the governance contract

Source: `/repo/vm/contracts/contracts_governance.go:186-209`, `/repo/vm/contracts/abi/abi_gonvernance.go:325-356`.

For every address the contract stores a string: the names of the block producers that have chosen the address as the one
allowed to withdraw their reward. A string is its list of bytes. The functions of package `strings` are modelled by what
they are documented to return.
-/

namespace Verif.Builtin.NameList

/-- A Go string. -/
abbrev Str := List Nat

/-- `WithdrawRewardAddressSeparation`: ",", abi_gonvernance.go:81. -/
def comma : Nat := 44

/-- `strings.Split(s, ",")`. -/
def split : Str → List Str
  | [] => [[]]
  | x :: xs =>
    if x = comma then [] :: split xs
    else match split xs with
      | [] => [[x]]
      | w :: ws => (x :: w) :: ws

/-- `strings.Index`: the first position at which `pat` occurs. -/
def indexOf (pat : Str) : Str → Option Nat
  | [] => if pat.isPrefixOf [] then some 0 else none
  | x :: xs => if pat.isPrefixOf (x :: xs) then some 0 else (indexOf pat xs).map (· + 1)

/-- `addWithdrawRewardAddress`: contracts_governance.go:186-194, on the stored string; no entry is the empty string. -/
def addName (v name : Str) : Str :=
  if v.length = 0 then name else v ++ [comma] ++ name

/-- `deleteWithdrawRewardAddress`: contracts_governance.go:195-209; storing nil is the empty string. -/
def deleteName (v name : Str) : Str :=
  if v = name then []
  else if (name ++ [comma]).isPrefixOf v then v.drop (name.length + 1)
  else if ([comma] ++ name).isSuffixOf v then v.take (v.length - name.length - 1)
  else match indexOf ([comma] ++ name ++ [comma]) v with
    | some i => if i > 0 then v.take i ++ v.drop (i + name.length + 1) else v
    | none => v

/-- The names `GetRegistrationListByRewardWithdrawAddr` looks up: abi_gonvernance.go:338-341. -/
def listNames (v : Str) : List Str := if v.length > 0 then split v else []

end Verif.Builtin.NameList
