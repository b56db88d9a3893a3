import Verif.Chain.QuotaListModel

/-!
# What the cache of used quota is to say

Read off the ledger alone.
-/

namespace Verif.Chain

/-- Blocks, quota and used quota of an address in a list of blocks. -/
def spent (a : Nat) (bs : List Blk) : Info := ((bs.filter (fun b => decide (b.addr = a))).map Blk.info).sum

/-- Of all addresses. -/
def spentAll (bs : List Blk) : Info := (bs.map Blk.info).sum

/-- The last `n` members of a list. -/
def lastN {α} (n : Nat) (l : List α) : List α := l.drop (l.length - n)

/-- The snapshots that count: the last 74, the genesis never. -/
def counted (snaps : List (List Blk)) : List (List Blk) := lastN 74 (snaps.drop 1)

/-- The list for an address: each snapshot that counts, then the unconfirmed blocks. -/
def usedSpec (snaps : List (List Blk)) (unconfirmed : List Blk) (a : Nat) : List Info :=
  (counted snaps).map (spent a) ++ [spent a unconfirmed]

/-- Used quota of all addresses in the snapshots that count. -/
def globalSpec (snaps : List (List Blk)) : Info := ((counted snaps).map spentAll).sum

end Verif.Chain
