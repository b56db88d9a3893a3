/-!
# Quota prices of instructions and transactions

Generated from `/repo/vm/util/quota.go` lines 114-246 (`QuotaTable`, fields used by the interpreter), 271- (`initQuotaTable`)
and 379- (`newViteQuotaTable`). The tables of later upgrades start from `newViteQuotaTable` and change only `CodeQuota`
and `TxDataQuota` among these fields (quota.go:499-549).
-/

namespace Verif.Evm

/-- `util.QuotaTable`: quota.go:114-246, the fields the interpreter and send blocks use. -/
structure QuotaTable where
  add : Nat
  mul : Nat
  sub : Nat
  div : Nat
  sDiv : Nat
  mod : Nat
  sMod : Nat
  addMod : Nat
  mulMod : Nat
  exp : Nat
  expByte : Nat
  signExtend : Nat
  lt : Nat
  gt : Nat
  slt : Nat
  sgt : Nat
  eq : Nat
  isZero : Nat
  and_ : Nat
  or_ : Nat
  xor_ : Nat
  not_ : Nat
  byte : Nat
  shl : Nat
  shr : Nat
  sar : Nat
  blake2b : Nat
  blake2bWord : Nat
  address : Nat
  balance : Nat
  caller : Nat
  callValue : Nat
  callDataLoad : Nat
  callDataSize : Nat
  callDataCopy : Nat
  memCopyWord : Nat
  codeSize : Nat
  codeCopy : Nat
  returnDataSize : Nat
  returnDataCopy : Nat
  timestamp : Nat
  height : Nat
  tokenID : Nat
  accountHeight : Nat
  previousHash : Nat
  fromBlockHash : Nat
  seed : Nat
  random : Nat
  pop : Nat
  mload : Nat
  mstore : Nat
  mstore8 : Nat
  sload : Nat
  sstoreReset : Nat
  sstoreInit : Nat
  sstoreClean : Nat
  sstoreNoop : Nat
  sstoreMem : Nat
  jump : Nat
  jumpi : Nat
  pc : Nat
  msize : Nat
  jumpdest : Nat
  push : Nat
  dup : Nat
  swap : Nat
  log : Nat
  logTopic : Nat
  logData : Nat
  callMinus : Nat
  memDivision : Nat
  snapshot : Nat
  code : Nat
  mem : Nat
  tx : Nat
  txData : Nat
  createTxRequest : Nat
  createTxResponse : Nat
  deriving DecidableEq, Repr

/-- `initQuotaTable: quota.go:271`. -/
def initTable : QuotaTable where
  add := 3
  mul := 5
  sub := 3
  div := 5
  sDiv := 5
  mod := 5
  sMod := 5
  addMod := 8
  mulMod := 8
  exp := 10
  expByte := 50
  signExtend := 5
  lt := 3
  gt := 3
  slt := 3
  sgt := 3
  eq := 3
  isZero := 3
  and_ := 3
  or_ := 3
  xor_ := 3
  not_ := 3
  byte := 3
  shl := 3
  shr := 3
  sar := 3
  blake2b := 30
  blake2bWord := 6
  address := 2
  balance := 400
  caller := 2
  callValue := 2
  callDataLoad := 3
  callDataSize := 2
  callDataCopy := 3
  memCopyWord := 3
  codeSize := 2
  codeCopy := 3
  returnDataSize := 2
  returnDataCopy := 3
  timestamp := 2
  height := 2
  tokenID := 2
  accountHeight := 2
  previousHash := 2
  fromBlockHash := 2
  seed := 2
  random := 2
  pop := 2
  mload := 3
  mstore := 3
  mstore8 := 3
  sload := 200
  sstoreReset := 5000
  sstoreInit := 20000
  sstoreClean := 100
  sstoreNoop := 200
  sstoreMem := 200
  jump := 8
  jumpi := 10
  pc := 2
  msize := 2
  jumpdest := 1
  push := 3
  dup := 3
  swap := 3
  log := 375
  logTopic := 375
  logData := 8
  callMinus := 10000
  memDivision := 512
  snapshot := 200
  code := 200
  mem := 3
  tx := 21000
  txData := 68
  createTxRequest := 21000
  createTxResponse := 53000

/-- `newViteQuotaTable: quota.go:379`. -/
def viteTable : QuotaTable where
  add := 2
  mul := 2
  sub := 2
  div := 3
  sDiv := 5
  mod := 3
  sMod := 4
  addMod := 4
  mulMod := 5
  exp := 10
  expByte := 50
  signExtend := 2
  lt := 2
  gt := 2
  slt := 2
  sgt := 2
  eq := 2
  isZero := 1
  and_ := 2
  or_ := 2
  xor_ := 2
  not_ := 2
  byte := 2
  shl := 2
  shr := 2
  sar := 3
  blake2b := 20
  blake2bWord := 1
  address := 1
  balance := 150
  caller := 1
  callValue := 1
  callDataLoad := 2
  callDataSize := 1
  callDataCopy := 3
  memCopyWord := 3
  codeSize := 1
  codeCopy := 3
  returnDataSize := 1
  returnDataCopy := 3
  timestamp := 1
  height := 1
  tokenID := 1
  accountHeight := 1
  previousHash := 1
  fromBlockHash := 1
  seed := 200
  random := 250
  pop := 1
  mload := 2
  mstore := 1
  mstore8 := 1
  sload := 150
  sstoreReset := 15000
  sstoreInit := 15000
  sstoreClean := 0
  sstoreNoop := 200
  sstoreMem := 200
  jump := 4
  jumpi := 4
  pc := 1
  msize := 1
  jumpdest := 1
  push := 1
  dup := 1
  swap := 2
  log := 375
  logTopic := 375
  logData := 12
  callMinus := 13500
  memDivision := 1024
  snapshot := 40
  code := 160
  mem := 1
  tx := 21000
  txData := 68
  createTxRequest := 31000
  createTxResponse := 31000

/-- newVersion10QuotaTable and the tables after it: quota.go:531-549 (`CodeQuota = 16`, `TxDataQuota = 28`). -/
def version10Table : QuotaTable := { viteTable with code := 16, txData := 28 }

/-- The quota tables of `QuotaTableByHeight`: quota.go:249-268. -/
def quotaTables : List QuotaTable := [initTable, viteTable, version10Table]

end Verif.Evm
