import Verif.Plug.InfoModel

/-!
# What is on the road: specification -/

namespace Verif.Plug

/-- The sends of a token that wait for an account in a ledger: those to it whose hash no block receives. -/
def waiting (L : List Blk) (a t : Nat) : List Send :=
  (L.flatMap Blk.sends).filter fun s => decide (s.dest = a) && decide (s.token = t) && !(L.filterMap Blk.src).contains s.hash

/-- Their number and what they carry together; nothing when there are none. -/
def metaOf (ss : List Send) : Option Meta := if ss = [] then none else some (ss.length, (ss.map (·.amount)).sum)

/-- A ledger as the other parts of the node keep it: hashes are distinct, every receive receives a send of the ledger to its account, no send is received twice, and only receives of contracts have a list
of sends (see C61 for what the code does not rule out). -/
structure Valid (L : List Blk) : Prop where
  hashes : (L.map (·.hash)).Nodup
  sends : ((L.flatMap Blk.sends).map (·.hash)).Nodup
  srcs : (L.filterMap Blk.src).Nodup
  found : ∀ b ∈ L, ∀ h, b.src = some h → ∃ s ∈ L.flatMap Blk.sends, s.hash = h ∧ s.dest = b.addr
  lists : ∀ b ∈ L, b.inner ≠ [] → b.contract = true ∧ b.src ≠ none
  later : ∀ b ∈ L, b.kind ≠ .genesis

/-- When a change may come: the ledger is valid after an insertion; a snapshot confirms unconfirmed blocks such that the confirmed ledger is valid; what is left after a deletion is valid; and no more
snapshots are rolled back than there are. -/
def May (n : Node) : Op → Prop
  | .insert b => Valid (n.blocks ++ [b])
  | .snapshot bs => (∀ b ∈ bs, b ∈ n.unconf) ∧ Valid (n.chunks.flatten ++ bs)
  | .delete bs => (∀ b ∈ bs, b ∈ n.unconf) ∧ Valid (n.chunks.flatten ++ n.unconf.filter fun b => !bs.any fun v => decide (v.hash = b.hash))
  | .rollback k _ => k < n.chunks.length

/-- The nodes that can come about. -/
inductive Reach : Node → Prop
  | start : Reach Node.start
  | step {n op} : Reach n → May n op → Reach (n.step op)

end Verif.Plug
