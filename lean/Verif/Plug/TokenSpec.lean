import Verif.Plug.TokenModel
import Verif.Plug.InfoSpec

/-!
# The blocks of an account with a token: specification -/

namespace Verif.Plug

/-- A block moves a token: it sends it, or it receives a send of it. -/
def Moves (L : List Blk) (b : Blk) (t : Nat) : Prop :=
  (∃ s ∈ b.sends, s.token = t) ∨ ∃ s ∈ L.flatMap Blk.sends, b.src = some s.hash ∧ s.token = t

/-- A page: the blocks of the account that move the token and lie below `max`, the highest first, and none left out as long as there is room. -/
structure IsPage (L : List Blk) (a t max count : Nat) (page : List Blk) : Prop where
  only : ∀ b ∈ page, b ∈ L ∧ b.addr = a ∧ Moves L b t ∧ b.height < max
  order : page.Pairwise fun x y => x.height > y.height
  size : page.length ≤ count
  rest : ∀ x ∈ L, x.addr = a → Moves L x t → x.height < max → x ∉ page → page.length = count ∧ ∀ b ∈ page, x.height < b.height

/-- When a change may come, as in `May`; heights of an account are distinct. `back` are the hashes of the blocks that the last rollback made unconfirmed: none of them may be deleted. -/
def MayT (n : TNode) (back : List Nat) : TOp → Prop
  | .insert b => Valid (n.blocks ++ [b]) ∧ (∀ c ∈ n.blocks, c.addr = b.addr → c.height ≠ b.height) ∧ b.height < maxUint64
  | .snapshot bs => (∀ b ∈ bs, b ∈ n.unconf) ∧ Valid (n.chunks.flatten ++ bs)
  | .delete bs => (∀ b ∈ bs, b ∈ n.unconf ∧ b.hash ∉ back) ∧ Valid (n.chunks.flatten ++ without n.unconf bs)
  | .rollback k _ => k < n.chunks.length
  | .flush => True

/-- The hashes after a change. -/
def backAfter (back : List Nat) (n' : TNode) : TOp → List Nat
  | .rollback _ _ => n'.unconf.map (·.hash)
  | _ => back

/-- The nodes that can come about. -/
inductive ReachT : TNode → List Nat → Prop
  | start : ReachT TNode.start []
  | step {n back op n'} : ReachT n back → MayT n back op → n.step op = some n' → ReachT n' (backAfter back n' op)

end Verif.Plug
