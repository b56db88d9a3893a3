import Verif.Fork.ForkModel

/-! The terms in which the properties of the fork tree are stated. -/

namespace Verif.Fork

/-- A chain of blocks: the block at index `h` has height `h` and links to the one before. `K` are the blocks there are. -/
structure DiskOk (K : Knot → Prop) (d : List Knot) : Prop where
  ok : ∀ h k, d[h]? = some k → k.height = h ∧ K k
  link : ∀ h k k', d[h]? = some k → d[h + 1]? = some k' → k'.prev = k.hash

/-- No two known blocks have the same hash. -/
def Uniq (K : Knot → Prop) : Prop := ∀ a b, K a → K b → a.hash = b.hash → a = b

/-- `y` is a branch that `x` stems from, directly or not. -/
inductive Anc (t : Tree) : Nat → Nat → Prop
  | root {x y : Nat} : (t.br x).root = some y → Anc t x y
  | step {x z y : Nat} : (t.br x).root = some z → Anc t z y → Anc t x y

/-- The head block of the branch is a block of a branch it stems from, so the branch adds nothing to it. -/
def Stale (t : Tree) (i : Nat) : Prop :=
  (t.br i).tail < (t.br i).head ∧
  ∃ y k, Anc t i y ∧ t.knot y (t.br i).head true = some k ∧ k.hash = (t.br i).headHash

/-- The branch has the block the main branch stands on. -/
def OnPath (t : Tree) (i : Nat) : Prop :=
  ∃ k, t.knot i (t.br t.main).tail true = some k ∧ k.hash = (t.br t.main).tailHash

/-- What the pool asks of the tree, `K` being the blocks there are. Blocks are added to, and attached at, branches of the
tree. It switches only to a branch that has the block the main branch stands on (account_pool.go:163-178, 360-372;
snapshot_pool.go:172-203 rolls back first). That the branch is not stale is NOT checked by the code. -/
inductive Allowed (K : Knot → Prop) (t : Tree) : Op → Prop
  | extend {i : Nat} {w : Knot} : i ∈ t.live → K w → Allowed K t (.extend i w)
  | attach {c h : Nat} : c ∈ t.live → Allowed K t (.attach c h)
  | confirm {k : Knot} : K k → Allowed K t (.confirm k)
  | rollback {h : Nat} : Allowed K t (.rollback h)
  | switch {i : Nat} : i ∈ t.live → OnPath t i → ¬ Stale t i → Allowed K t (.switch i)
  | toEmpty {order : List Nat} : (∀ c ∈ order, c ∈ t.live) → Allowed K t (.toEmpty order)
  | prune {old : Nat → Bool} {o1 o2 : List Nat} : Allowed K t (.prune old o1 o2)

/-- The chain on disk after an operation. -/
def chainAfter (d : List Knot) : Op → List Knot
  | .confirm k => if k.height = d.length ∧ d.getLast?.any (fun p => p.hash = k.prev) then d ++ [k] else d
  | .rollback h => if 0 < h then d.take h else d
  | _ => d

/-- The trees there can be, from a chain on disk. -/
inductive Reach (K : Knot → Prop) : Tree → Prop
  | start {disk : List Knot} : disk ≠ [] → DiskOk K disk → Reach K (start disk)
  | step {t t' : Tree} {o : Op} : Reach K t → Allowed K t o → t.step o = some t' → Reach K t'

end Verif.Fork
