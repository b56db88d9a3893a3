import Verif.Road.RoadProps
import Verif.Road.RoadRun

/-!
Histories of a node that meet the hypotheses, and the history that hides what waits.
-/

namespace Verif.Road

open Verif.Lattice

/-! ### A history -/

/-- The contracts 3 and 4, the users 1 and 2. -/
def rG : Cfg := ⟨fun a => a = 3 || a = 4, fun _ => true⟩

def g1 : Blk := ⟨11, 1, 1, 0, .genesis, 0, 0, []⟩
def g2 : Blk := ⟨12, 2, 1, 0, .genesis, 0, 0, []⟩
def g3 : Blk := ⟨13, 3, 1, 0, .genesis, 0, 0, []⟩
def g4 : Blk := ⟨14, 4, 1, 0, .genesis, 0, 0, []⟩
/-- 1 sends to 3, to 4 and to 3 again. -/
def s1 : Blk := ⟨21, 1, 2, 11, .send, 3, 0, []⟩
def s2 : Blk := ⟨22, 1, 3, 21, .send, 4, 0, []⟩
def s3 : Blk := ⟨23, 1, 4, 22, .send, 3, 0, []⟩
/-- 3 receives the first and sends twice to 4. -/
def r1 : Blk := ⟨31, 3, 2, 13, .recv, 0, 21, [⟨41, 4⟩, ⟨42, 4⟩]⟩
/-- 3 receives the second send before the first. -/
def r3 : Blk := ⟨33, 3, 2, 13, .recv, 0, 23, []⟩
/-- 3 receives the second after the first. -/
def r3' : Blk := ⟨34, 3, 3, 31, .recv, 0, 23, []⟩
/-- 4 receives the second of the two sends of 3 first, or the first. -/
def q2 : Blk := ⟨52, 4, 2, 14, .recv, 0, 42, []⟩
def q1 : Blk := ⟨51, 4, 2, 14, .recv, 0, 41, []⟩

def rAll : List Blk := [g1, g2, g3, g4, s1, s2, s3, r1, r3, r3', q2, q1]
def rU (b : Blk) : Prop := b ∈ rAll

theorem rU_sound : Sound rU := by
  have h1 : ∀ b ∈ rAll, b.isSend = true → b.sends = [] := by decide +kernel
  have h2 : ∀ b ∈ rAll, b.ids.Nodup := by decide +kernel
  have h3 : ∀ b ∈ rAll, ∀ d ∈ rAll, ∀ h ∈ b.ids, h ∈ d.ids → b.addr = d.addr ∧ b.height = d.height := by decide +kernel
  have h4 : ∀ b ∈ rAll, b.addr ≠ 0 := by decide +kernel
  exact ⟨h1, h2, fun b d h hb hd h1 h2 => h3 b hb d hd h h1 h2, h4⟩

theorem rStart : Start rU [g1, g2, g3, g4] := by
  refine ⟨?_, ?_, ?_⟩
  · intro b hb
    simp only [List.mem_cons, List.not_mem_nil, or_false] at hb
    rcases hb with rfl | rfl | rfl | rfl <;> simp [rU, rAll]
  · decide +kernel
  · decide +kernel

def n0 : Node := ⟨genesis [g1, g2, g3, g4], load rG (genesis [g1, g2, g3, g4])⟩

def run (n : Node) (os : List Op) : Option Node := os.foldlM (go rG) n

theorem run_reach : ∀ (os : List Op) (n n' : Node), Reach rG rU n → (∀ o ∈ os, ∀ c, Allowed rU c o) → run n os = some n' → Reach rG rU n' := by
  intro os
  induction os with
  | nil => intro n n' h _ e; simp only [run, List.foldlM_nil, Option.pure_def, Option.some.injEq] at e; exact e ▸ h
  | cons o os ih =>
    intro n n' h ho e
    simp only [run, List.foldlM_cons, Option.bind_eq_bind] at e
    cases e1 : go rG n o with
    | none => rw [e1] at e; simp at e
    | some n1 =>
      rw [e1] at e
      exact ih n1 n' (h.go o (ho o List.mem_cons_self _) e1) (fun o h => ho o (List.mem_cons_of_mem _ h)) e

theorem ins_allowed (bs : List Blk) (h : ∀ b ∈ bs, b ∈ rAll) : ∀ o ∈ bs.map Op.insert, ∀ c, Allowed rU c o := by
  intro o ho c
  obtain ⟨b, hb, rfl⟩ := List.mem_map.mp ho
  exact h b hb

/-- The three sends, then the receive of 3. -/
def three : List Op := [s1, s2, s3].map .insert
def four : List Op := [s1, s2, s3, r1].map .insert

/-- What waits, in order of the sends; 3 may not receive the second send first. -/
example : (run n0 three).map (fun n => (n.pool.txs.map (·.1), fronts rG n.chain n.pool 3, fronts rG n.chain n.pool 4)) =
    some ([⟨3, 1, 2, 21⟩, ⟨4, 1, 3, 22⟩, ⟨3, 1, 4, 23⟩], [⟨3, 1, 2, 21⟩], [⟨4, 1, 3, 22⟩]) := by decide +kernel
example : (run n0 three).map (fun n => (n.inTurn rG r1, n.inTurn rG r3)) = some (true, false) := by decide +kernel
example : (run n0 three).map (fun n => (n.chain.accepts (n.cfg rG) r1, n.chain.accepts (n.cfg rG) r3, n.chain.accepts rG r3)) =
    some (true, false, true) := by decide +kernel

/-- Without the check of the order the contract could receive out of order: the check is needed for `received_in_order`. -/
example : (run n0 three).map (fun n => n.chain.sendFits r3) = some true := by decide +kernel

/-- After the receive: the two sends of the receive block are in the pool; 4 must receive the first of them first. -/
example : (run n0 four).map (fun n => n.pool.txs.map (·.1)) =
    some [⟨4, 1, 3, 22⟩, ⟨3, 1, 4, 23⟩, ⟨4, 3, 2, 41⟩, ⟨4, 3, 2, 42⟩] := by decide +kernel
example : (run n0 four).map (fun n => (n.inTurn rG q1, n.inTurn rG q2, n.chain.sendFits q2)) = some (true, false, true) := by decide +kernel

/-- Deleting the receive brings the send back; deleting the first send takes all away. -/
example : (run n0 (four ++ [.deleteHash 31])).map (fun n => (fronts rG n.chain n.pool 3, fronts rG n.chain n.pool 4)) =
    some ([⟨3, 1, 2, 21⟩], [⟨4, 1, 3, 22⟩]) := by decide +kernel
example : (run n0 (four ++ [.deleteHash 21])).map (fun n => n.pool.txs.map (·.1)) = some [] := by decide +kernel

/-- The state after the four blocks is reached, so the theorems speak about it. -/
theorem four_reach {n : Node} (h : run n0 four = some n) : Reach rG rU n :=
  run_reach _ _ _ (.start rStart) (ins_allowed _ (by decide +kernel)) h

example : (run n0 four).isSome = true := by decide +kernel

/-! ### Finding: what waits may not be offered -/

/-- 1 sends to 3 and to 4; 3 receives. -/
def hide : List Op := [s1, s2, r1].map .insert

theorem hide_reach {n : Node} (h : run n0 hide = some n) : Reach rG rU n :=
  run_reach _ _ _ (.start rStart) (ins_allowed _ (by decide +kernel)) h

/-- **C67** is false without its condition: the set of callers is one for all contracts of a pool
(ledger/onroad/pool/storage.go:69-89, 137-151). When the contract 3 has received what 1 sent to it, 1 is dropped from the
set, and the send of 1 to 4 is not offered to the producer of 4 although it is the first that waits. -/
theorem hidden_caller : ∃ n, Reach rG rU n ∧ rG.contract 4 = true ∧ Front n.chain.all 4 1 3 0 22 ∧
    (∀ k ∈ fronts rG n.chain n.pool 4, k.caller ≠ 1) ∧ isFront rG n.chain n.pool 4 1 22 = true := by
  have hs : (run n0 hide).isSome = true := by decide +kernel
  obtain ⟨n, hn⟩ := Option.isSome_iff_exists.mp hs
  have hr := hide_reach hn
  have h1 : (run n0 hide).map (fun n => (fronts rG n.chain n.pool 4).map (·.caller)) = some [3] := by decide +kernel
  have h2 : (run n0 hide).map (fun n => isFront rG n.chain n.pool 4 1 22) = some true := by decide +kernel
  have h3 : (run n0 hide).map (fun n => front rG n.chain n.pool 4 1) = some (some ⟨4, 1, 3, 22⟩) := by decide +kernel
  rw [hn] at h1 h2 h3
  simp only [Option.map_some, Option.some.injEq] at h1 h2 h3
  refine ⟨n, hr, rfl, ?_, ?_, h2⟩
  · obtain ⟨_, _, _, i, hf⟩ := (front_exact rU_sound hr 4 1 _).mp h3
    have hi : i = 0 := by
      obtain ⟨⟨d, hd, r1, r2, r3⟩, _⟩ := hf.1
      have hk := ((hr.good rU_sound).inv.ledger.known d hd : d ∈ rAll)
      have : ∀ d ∈ rAll, d.addr = 1 → d.outs.length ≤ 1 := by decide +kernel
      have hl := this d hk r1
      have := (List.getElem?_eq_some_iff.mp r3).1
      omega
    subst hi
    exact hf
  · intro k hk
    have : k.caller ∈ (fronts rG n.chain n.pool 4).map (·.caller) := List.mem_map_of_mem hk
    rw [h1] at this
    simp only [List.mem_singleton] at this
    rw [this]; decide

/-- A restart, or another send of 1 to a contract, brings it back. -/
example : (run n0 (hide ++ [.restart])).map (fun n => (fronts rG n.chain n.pool 4).map (·.caller)) ≠ some [3] := by decide +kernel
example : (run n0 (hide ++ [.insert s3])).map (fun n => (fronts rG n.chain n.pool 4).any (·.caller = 1)) = some true := by decide +kernel

end Verif.Road
