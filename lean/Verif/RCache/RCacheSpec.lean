import Verif.RCache.RCacheModel

/-!
# What the round cache should answer

The same as the database: the balance of an account and the storage of the governance contract at a snapshot block are given by the logs
of the blocks up to it (`balanceAt`, `storageAt`, `listStorage`). -/

namespace Verif.RCache

open Verif.Bytes Verif.Iter

/-- A chain as the node keeps it: heights from 1 on, rounds not falling, hashes all different, and one entry per account in each log. -/
structure Ok (c : Chain) : Prop where
  heights : ∀ i b, c[i]? = some b → b.height = i + 1
  rounds : c.Pairwise (fun a b => a.round ≤ b.round)
  hashes : (c.map (·.hash)).Nodup
  logs : ∀ b ∈ c, (b.log.map (·.1)).Nodup

/-- `Init` reads the rounds in the order it expects: the headers come lowest first, or the cache is left empty because there are few rounds,
or the rounds it reads have one block at most. -/
def Calm (g : Cfg) (c : Chain) : Prop :=
  g.down = false ∨ ∀ l, c.getLast? = some l → l.round ≤ g.count ∨
    ∀ r, l.round - g.count + 1 ≤ r → (c.filter (fun b => decide (b.round = r))).length ≤ 1

/-- What may happen in a state. -/
def Allowed (g : Cfg) (s : St) : Op → Prop
  | .init => s.inited = true ∨ Calm g s.chain
  | .insert b => Ok (s.chain ++ [b])
  | .delete h => 2 ≤ h ∧ h ≤ s.chain.length

/-- The states that arise from a chain and a new cache. -/
inductive Reach (g : Cfg) : St → Prop
  | start {c : Chain} : Ok c → c ≠ [] → Reach g ⟨c, false, 0, []⟩
  | step {s s' : St} {o : Op} : Reach g s → Allowed g s o → step g s o = some s' → Reach g s'

/-- The database has recorded the chain: the history of the governance contract's slots has, for each height, the value written last in the
log of the block of that height. -/
def Recorded (db : Store) (c : Chain) : Prop :=
  ∀ k v j, j < 2 ^ 64 → ((histKey governance k j, v) ∈ db ↔
    ∃ b ∈ c, b.height = j ∧ (b.log.writes.filter (fun e => decide (e.1 = k))).getLast?.map (·.2) = some v)

end Verif.RCache
