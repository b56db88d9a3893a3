import Verif.Disc.TableViews

/-! # The table of nodes: examples, and what goes wrong (C109, C110) -/

namespace Verif.Disc

/-- Identities of one byte, four buckets of two nodes. -/
def small : Cfg := ⟨1, [0], 4, 2⟩

/-- A history with a full bucket, a failed ping and a removal. -/
def quiet : List Op :=
  [.add ⟨[200], 1, 0⟩ true, .add ⟨[201], 2, 0⟩ true, .add ⟨[100], 3, 0⟩ true, .add ⟨[0], 9, 0⟩ true,
   .bubble [200], .add ⟨[202], 4, 0⟩ true, .pingFailed 0, .add ⟨[203], 5, 0⟩ true, .pingAnswered 0,
   .remove [100], .add ⟨[16], 3, 0⟩ true]

/-- 201 is the oldest after 200 was heard of, and makes room for 202. -/
example : (Sys.init.run small quiet).tab.all small = [⟨[16], 3, 0⟩, ⟨[202], 4, 0⟩, ⟨[200], 1, 0⟩] := by
  decide +kernel

/-- The history is a calm one. -/
theorem quiet_calm : CalmRun small Sys.init quiet := by
  refine ⟨trivial, trivial, trivial, trivial, trivial, trivial, ?_, trivial, trivial, trivial, trivial, trivial⟩
  intro old new h
  have hs : (((((((Sys.init.step small (.add ⟨[200], 1, 0⟩ true)).step small (.add ⟨[201], 2, 0⟩ true)).step small
      (.add ⟨[100], 3, 0⟩ true)).step small (.add ⟨[0], 9, 0⟩ true)).step small (.bubble [200])).step small
      (.add ⟨[202], 4, 0⟩ true)).checking)[0]? = some ((⟨[201], 2, 0⟩, ⟨[202], 4, 0⟩) : Node × Node) := by decide +kernel
  have heq := h.symm.trans hs
  simp only [Option.some.injEq, Prod.mk.injEq] at heq
  rw [heq.1, heq.2]
  decide +kernel

example : Exact small (Sys.init.run small quiet).tab :=
  table_exact_partial small (by decide) (by decide) quiet quiet_calm

example : Placed small (Sys.init.run small quiet).tab :=
  table_placed small (by decide) quiet (by simp [quiet, NoUpdate])

/-- **Two nodes with one address.** Two calls of `add` look up before either
has added its node: both nodes are in the table with the same address; and when
the first is removed, the address of the second is not found any more. -/
theorem address_twice :
    let t := (Sys.init.run small [.beginAdd ⟨[200], 7, 0⟩, .beginAdd ⟨[201], 7, 0⟩, .endAdd 0 true, .endAdd 0 true]).tab
    t.all small = [⟨[200], 7, 0⟩, ⟨[201], 7, 0⟩]
      ∧ (t.remove small [200]).all small = [⟨[201], 7, 0⟩]
      ∧ (t.remove small [200]).resolveAddr 7 = none := by
  decide +kernel

/-- **A node twice.** The bucket is full when 202 is added first, so that 200 is
pinged; then 201 goes and 202 is added; then the ping fails and 202 takes the
place of 200 too. -/
theorem node_twice :
    (Sys.init.run small [.add ⟨[200], 1, 0⟩ true, .add ⟨[201], 2, 0⟩ true, .add ⟨[202], 3, 0⟩ true,
      .remove [201], .add ⟨[202], 3, 0⟩ true, .pingFailed 0]).tab.all small
      = [⟨[202], 3, 0⟩, ⟨[202], 3, 0⟩] := by
  decide +kernel

/-- **An address that is lost.** While 200 is pinged it is removed and comes
back with address 9; then the ping fails, and 202 takes its place, but the index
keeps address 9 for it.  From then on no node with address 9 enters the table,
and no removal helps. -/
theorem address_lost :
    let s := Sys.init.run small [.add ⟨[200], 1, 0⟩ true, .add ⟨[201], 2, 0⟩ true, .add ⟨[202], 3, 0⟩ true,
      .remove [200], .add ⟨[200], 9, 0⟩ true, .pingFailed 0]
    s.tab.all small = [⟨[201], 2, 0⟩, ⟨[202], 3, 0⟩] ∧ s.tab.resolveAddr 9 = some ⟨[200], 9, 0⟩
      ∧ (s.step small (.remove [200])).tab.resolveAddr 9 = some ⟨[200], 9, 0⟩
      ∧ (s.step small (.add ⟨[100], 9, 0⟩ true)).tab.all small = [⟨[201], 2, 0⟩, ⟨[202], 3, 0⟩] := by
  decide +kernel

/-- **A node that cannot be removed.** The answer to a ping is not compared with
the identity of the node that was pinged (`expectID` of the request is never
read), and what it says is written into the node while it is in the table. So a
node that answers with another key stays in the bucket of the old one: it is
listed, but found under neither identity, and removing it has no effect. -/
theorem node_misplaced :
    let t := (Sys.init.run small [.add ⟨[200], 1, 0⟩ true, .update ⟨[200], 1, 0⟩ ⟨[70], 1, 0⟩]).tab
    t.all small = [⟨[70], 1, 0⟩] ∧ t.resolve small [70] = none ∧ t.resolve small [200] = none
      ∧ (t.remove small [70]).all small = [⟨[70], 1, 0⟩] ∧ ¬ Placed small t := by
  refine ⟨by decide +kernel, by decide +kernel, by decide +kernel, by decide +kernel, ?_⟩
  intro h
  have h1 := h.bucket 3 ⟨[70], 1, 0⟩ (by decide +kernel)
  revert h1; decide +kernel

/-- Four nodes, in the order of the buckets. -/
def fourNodes : Tab := (Sys.init.run small [.add ⟨[16], 1, 0⟩ true, .add ⟨[64], 2, 0⟩ true,
  .add ⟨[200], 3, 0⟩ true, .add ⟨[240], 4, 0⟩ true]).tab

/-- **Not the closest.** A full list of neighbours gives up the node in whose
place the new one belongs, not its last.  Asked for two nodes near 255, the
table gives 240 and 64, though 200 is closer than 64. -/
theorem neighbors_not_closest :
    fourNodes.findNeighbors small [255] 2 = [⟨[240], 4, 0⟩, ⟨[64], 2, 0⟩]
      ∧ (⟨[200], 3, 0⟩ : Node) ∈ fourNodes.all small
      ∧ distance 1 [255] [200] < distance 1 [255] [64] := by
  decide +kernel

example : fourNodes.findNeighbors small [255] 9 = [⟨[240], 4, 0⟩, ⟨[200], 3, 0⟩, ⟨[16], 1, 0⟩, ⟨[64], 2, 0⟩] := by
  decide +kernel

example : fourNodes.nodes small [3, 1, 0, 2] 3 = [⟨[200], 3, 0⟩, ⟨[240], 4, 0⟩, ⟨[16], 1, 0⟩]
    ∧ fourNodes.subTreeToFind small [3, 1, 0, 2] = 6 := by
  decide +kernel

end Verif.Disc
