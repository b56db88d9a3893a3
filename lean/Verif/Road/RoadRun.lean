import Verif.Road.RoadReach

/-!
Every operation of a node has an outcome.
-/

namespace Verif.Road

open Verif.Lattice

/-! ### A run: the events in the order of the blocks -/

def goCalls (g : Cfg) : List Call → Pool → Option Pool
  | [], p => some p
  | k :: ks, p =>
    match events g k.chain k.write k.blocks with
    | none => none
    | some es => match p.play es with
      | none => none
      | some p' => goCalls g ks p'

/-- One order of the events that the code may take. -/
def go (g : Cfg) (n : Node) (o : Op) : Option Node :=
  match o with
  | .restart => some ⟨n.chain.restart, load g n.chain.restart⟩
  | o => match Lattice.step (n.cfg g) n.chain o with
    | none => none
    | some c' => (goCalls g (calls g n o) n.pool).map (fun p => ⟨c', p⟩)

theorem goCalls_outcome (g : Cfg) : ∀ (ks : List Call) (p : Pool), Outcome g ks p (goCalls g ks p) := by
  intro ks
  induction ks with
  | nil => intro p; rfl
  | cons k ks ih =>
    intro p
    unfold Outcome goCalls
    cases events g k.chain k.write k.blocks with
    | none => rfl
    | some es =>
      refine ⟨es, List.Perm.refl _, ?_⟩
      cases hp : p.play es with
      | none => simp only [hp]
      | some p' => simp only [hp]; exact ih p'

/-- Every operation has an outcome. -/
theorem go_step (g : Cfg) (n : Node) (o : Op) : NStep g n (.ledger o) (go g n o) := by
  cases o
  case restart => rfl
  all_goals
    simp only [NStep, go]
    split
    · rename_i e; simp only [e]
    · rename_i e; simp only [e]; exact ⟨_, goCalls_outcome g _ _, rfl⟩

theorem Reach.go {g : Cfg} {U : Blk → Prop} {n n' : Node} (o : Op) (h : Reach g U n) (ho : Allowed U n.chain o)
    (e : Road.go g n o = some n') : Reach g U n' := .step h ho (e ▸ go_step g n o)

end Verif.Road
