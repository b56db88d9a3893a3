import Verif.Feed.QueryModel

/-! # What a query for logs should give -/

namespace Verif.Feed.Spec

/-- A log matches topics: at each place where topics are named, its topic is one of them. -/
def Matches (topics : List (List Nat)) (l : Log) : Prop :=
  topics.length ≤ l.topics.length ∧ ∀ (i t : Nat) (r : List Nat), topics[i]? = some r → l.topics[i]? = some t → r = [] ∨ t ∈ r

instance (topics : List (List Nat)) (l : Log) : Decidable (Matches topics l) := by
  have : Matches topics l ↔ (topics.length ≤ l.topics.length ∧ ∀ i : Nat, i < topics.length → ∀ r ∈ topics[i]?, ∀ t ∈ l.topics[i]?, r = [] ∨ t ∈ r) := by
    unfold Matches
    constructor
    · intro h
      exact ⟨h.1, fun i _ r hr t ht => h.2 i t r hr ht⟩
    · intro h
      refine ⟨h.1, fun i t r hr ht => h.2 i ?_ r hr t ht⟩
      by_contra hc
      simp [List.getElem?_eq_none (Nat.le_of_not_lt hc)] at hr
  exact decidable_of_iff' _ this

/-- A height is asked for, `top` being the height of the account: the lower end 0 stands for the latest block, the upper end 0 for no limit. -/
def InRange (hr : HRange) (top h : Nat) : Prop :=
  (if hr.lo = 0 then h = top else hr.lo ≤ h) ∧ (hr.hi = 0 ∨ h ≤ hr.hi)

instance (hr : HRange) (top h : Nat) : Decidable (InRange hr top h) := by unfold InRange; infer_instance

/-- The logs asked for of one account, by height and place in the block. -/
def wanted (topics : List (List Nat)) (bs : List QBlk) (hr : HRange) (addr : Nat) : List QOut :=
  ((bs.zipIdx 1).filter fun b => decide (InRange hr bs.length b.2)).flatMap fun b =>
    ((b.1.logs.getD []).filter fun l => decide (Matches topics l)).map fun l => { log := l, hash := b.1.hash, height := b.2, addr := addr }

end Verif.Feed.Spec
