import Verif.Builtin.AssetModel
import Verif.Vm.LedgerSpec

/-! Vocabulary for C16 and C17. Nothing here is used by the model. -/

namespace Verif.Builtin.Asset.Spec
open Verif.Vm Verif.Vm.Spec Verif.Builtin.Asset

variable {E : Type}

/-- The asset contract's storage in a ledger. -/
def storage (L : Ledger (State × E)) : State := (L.data assetAddr).1

/-- The recorded supply of a token; a token that does not exist has none. -/
def supply (st : State) (t : Nat) : Int := match st.info t with
  | none => 0
  | some x => x.totalSupply

/-- The recorded supply is what there is: exactly for every token but VITE; for VITE at least, because fees are paid in
VITE and vanish without a record. -/
def SupplyOk (L : Ledger (State × E)) : Prop :=
  (∀ t, t ≠ vite → supply (storage L) t = wealth t L) ∧ wealth vite L ≤ supply (storage L) vite

/-- The token records are in order: supplies are words, a re-issuable token is within its maximum, symbol and index name
one token, indexes are below the limit, and the id lists say who owns what. -/
structure RecordsOk (st : State) : Prop where
  word : ∀ t x, st.info t = some x → x.totalSupply ≤ maxWord ∧ x.maxSupply ≤ maxWord
  capped : ∀ t x, st.info t = some x → x.isReIssuable = true → x.totalSupply ≤ x.maxSupply
  index : ∀ t x, st.info t = some x → x.index < st.nextIndex x.symbol
  limit : ∀ y, st.nextIndex y ≤ tokenNameIndexMax
  unique : ∀ t u x y, st.info t = some x → st.info u = some y → x.symbol = y.symbol → x.index = y.index → t = u
  owners : ∀ o t, t ∈ st.owned o ↔ ∃ x, st.info t = some x ∧ x.owner = o
  nodup : ∀ o, (st.owned o).Nodup

end Verif.Builtin.Asset.Spec
