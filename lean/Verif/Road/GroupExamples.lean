import Verif.Road.GroupProps
import Verif.Road.RoadExamples

/-!
Lists of blocks that mix contracts with a pool and contracts without one.

The accounts 3, 4 and 5 are contracts; 5 names a group that has no pool. 3 receives a send of 1 and sends to 5 and to 4.
-/

namespace Verif.Road

open Verif.Lattice

def mG : Cfg := ⟨fun a => a = 3 || a = 4 || a = 5, fun _ => true⟩
def mP (a : Nat) : Bool := a ≠ 5

/-- 1 sends twice to 3. -/
def m1 : Blk := ⟨21, 1, 2, 11, .send, 3, 0, []⟩
def m2 : Blk := ⟨22, 1, 3, 21, .send, 3, 0, []⟩
/-- 3 receives the first, and sends to 5 and to 4. -/
def m3 : Blk := ⟨31, 3, 2, 13, .recv, 0, 21, [⟨41, 5⟩, ⟨42, 4⟩]⟩
/-- 4 receives what 3 sent. -/
def m4 : Blk := ⟨51, 4, 2, 14, .recv, 0, 42, []⟩
/-- 3 receives the second. -/
def m5 : Blk := ⟨32, 3, 3, 31, .recv, 0, 22, []⟩

def mAll : List Blk := [g1, g3, g4, m1, m2, m3, m4, m5]
def mU (b : Blk) : Prop := b ∈ mAll

theorem mU_sound : Sound mU := by
  have h1 : ∀ b ∈ mAll, b.isSend = true → b.sends = [] := by decide +kernel
  have h2 : ∀ b ∈ mAll, b.ids.Nodup := by decide +kernel
  have h3 : ∀ b ∈ mAll, ∀ d ∈ mAll, ∀ h ∈ b.ids, h ∈ d.ids → b.addr = d.addr ∧ b.height = d.height := by decide +kernel
  have h4 : ∀ b ∈ mAll, b.addr ≠ 0 := by decide +kernel
  exact ⟨h1, h2, fun b d h hb hd h1 h2 => h3 b hb d hd h h1 h2, h4⟩

theorem mStart : Start mU [g1, g3, g4] := by
  refine ⟨?_, ?_, ?_⟩
  · intro b hb
    simp only [List.mem_cons, List.not_mem_nil, or_false] at hb
    rcases hb with rfl | rfl | rfl <;> simp [mU, mAll]
  · decide +kernel
  · decide +kernel

def k0 : Node := ⟨genesis [g1, g3, g4], gload mG mP (genesis [g1, g3, g4])⟩

/-- The insertion of a block when the contracts are visited in the order `vs`. -/
def put (n : Node) (b : Blk) (vs : List Visit) : Option Node :=
  (visits mG mP (n.chain.write b) true vs n.pool).map (fun p => ⟨n.chain.write b, p⟩)

theorem put_step {n n' : Node} {b : Blk} {vs : List Visit} (ha : n.chain.accepts (n.gcfg mG mP) b = true)
    (hg : Grouping vs (relevant mG [b])) (h : put n b vs = some n') : GStep mG mP n (.ledger (.insert b)) (some n') := by
  unfold put at h
  cases hv : visits mG mP (n.chain.write b) true vs n.pool with
  | none => rw [hv] at h; cases h
  | some p =>
    rw [hv] at h
    simp only [Option.map_some, Option.some.injEq] at h
    refine ⟨some p, ?_, ?_⟩
    · simp only [gcalls, ha, if_true, GOutcome]
      refine ⟨vs, hg, ?_⟩
      simp only [hv]
    · rw [← h]
      show some _ = some (⟨n.chain.insert _ b, p⟩ : Node)
      unfold Chain.insert
      rw [if_pos ha]

/-- What the receive of 3 is about: 3, 5 and 4. -/
example : (relevant mG [m3]).map target = [3, 5, 4] := by decide +kernel

def visit3 : Visit := ⟨3, [m3]⟩
def visit4 : Visit := ⟨4, [inner m3 ⟨42, 4⟩]⟩
def visit5 : Visit := ⟨5, [inner m3 ⟨41, 5⟩]⟩

/-- Orders in which the three contracts may be visited: 5 last, 5 after 3, 5 first. -/
def lastly : List Visit := [visit3, visit4, visit5]
def midway : List Visit := [visit3, visit5, visit4]
def firstly : List Visit := [visit5, visit3, visit4]

theorem relevant_m3 : relevant mG [m3] = [m3, inner m3 ⟨41, 5⟩, inner m3 ⟨42, 4⟩] := by decide +kernel

theorem grouping_of {vs : List Visit} (h1 : (vs.map (·.addr)).Nodup) (h2 : ∀ v ∈ vs, v.blocks ≠ [] ∧ ∀ b ∈ v.blocks, target b = v.addr)
    (h3 : (vs.flatMap (·.blocks)).Perm [m3, inner m3 ⟨41, 5⟩, inner m3 ⟨42, 4⟩]) : Grouping vs (relevant mG [m3]) := by
  rw [relevant_m3]; exact ⟨h1, h2, h3⟩

theorem lastly_ok : Grouping lastly (relevant mG [m3]) := grouping_of (by decide) (by
  intro v hv
  simp only [lastly, List.mem_cons, List.not_mem_nil, or_false] at hv
  rcases hv with rfl | rfl | rfl <;> decide) (by decide +kernel)
theorem midway_ok : Grouping midway (relevant mG [m3]) := grouping_of (by decide) (by
  intro v hv
  simp only [midway, List.mem_cons, List.not_mem_nil, or_false] at hv
  rcases hv with rfl | rfl | rfl <;> decide) (by decide +kernel)
theorem firstly_ok : Grouping firstly (relevant mG [m3]) := grouping_of (by decide) (by
  intro v hv
  simp only [firstly, List.mem_cons, List.not_mem_nil, or_false] at hv
  rcases hv with rfl | rfl | rfl <;> decide) (by decide +kernel)

/-! ### A state before the receive -/

def k1 : Option Node := (put k0 m1 [⟨3, [m1]⟩]).bind (fun n => put n m2 [⟨3, [m2]⟩])

theorem plain_insert {n : Node} {b : Blk} (h : ∀ a, Touches b a → mG.contract a = true → mP a = true) : Plain mG mP n (.insert b) := by
  intro k hk
  simp only [gcalls] at hk
  split at hk
  · rw [List.mem_singleton] at hk
    subst hk
    left
    intro b' hb' a
    simp only [List.mem_singleton] at hb'
    subst hb'
    exact h a
  · cases hk

theorem m12_plain {b : Blk} (hb : b = m1 ∨ b = m2) : ∀ a, Touches b a → mG.contract a = true → mP a = true := by
  intro a ht _
  rcases hb with rfl | rfl <;>
  · rcases ht with ⟨s, hs, rfl⟩ | ⟨h, _⟩
    · simp only [Blk.outs, m1, m2, Blk.isSend] at hs
      simp at hs
      subst hs; rfl
    · cases h

/-- A plain history: the theorems above speak about it. -/
theorem k1_reach {n : Node} (h : k1 = some n) : GReach mG mP mU (Plain mG mP) n := by
  unfold k1 at h
  have hs : (put k0 m1 [⟨3, [m1]⟩]).isSome = true := by decide +kernel
  obtain ⟨n1, hn1⟩ := Option.isSome_iff_exists.mp hs
  rw [hn1] at h
  simp only [Option.bind_some] at h
  have ha1 : k0.chain.accepts (k0.gcfg mG mP) m1 = true := by decide +kernel
  have r1 : relevant mG [m1] = [m1] := by decide +kernel
  have r2 : relevant mG [m2] = [m2] := by decide +kernel
  have s1 := put_step ha1 (vs := [⟨3, [m1]⟩]) (by
    rw [r1]
    refine ⟨by decide, ?_, List.Perm.refl _⟩
    intro v hv; rw [List.mem_singleton] at hv; subst hv; decide) hn1
  have ha2 : (put k0 m1 [⟨3, [m1]⟩]).map (fun n => n.chain.accepts (n.gcfg mG mP) m2) = some true := by decide +kernel
  rw [hn1] at ha2
  simp only [Option.map_some, Option.some.injEq] at ha2
  have s2 := put_step ha2 (vs := [⟨3, [m2]⟩]) (by
    rw [r2]
    refine ⟨by decide, ?_, List.Perm.refl _⟩
    intro v hv; rw [List.mem_singleton] at hv; subst hv; decide) h
  have k0r : GReach mG mP mU (Plain mG mP) k0 := .start mStart
  have hm1 : Allowed mU k0.chain (.insert m1) := by simp [Allowed, mU, mAll]
  have hm2 : Allowed mU n1.chain (.insert m2) := by simp [Allowed, mU, mAll]
  exact .step (.step k0r hm1 (plain_insert (m12_plain (.inl rfl))) s1) hm2 (plain_insert (m12_plain (.inr rfl))) s2

example : k1.isSome = true := by decide +kernel
example : k1.map (fun n => (isFront mG n.chain n.pool 3 1 21, isFront mG n.chain n.pool 3 1 22)) = some (true, false) := by decide +kernel

theorem GReach.weaken {g : Cfg} {pooled : Nat → Bool} {U : Blk → Prop} {P : Node → Op → Prop} {n : Node} (h : GReach g pooled U P n) :
    GReach g pooled U (fun _ _ => True) n := by
  induction h with
  | start h => exact .start h
  | look _ hs ih => exact .look ih hs
  | step _ ho _ hs ih => exact .step ih ho trivial hs

/-- The state after the receive of 3, by the order of the visits. -/
def after (vs : List Visit) : Option Node := k1.bind (fun n => put n m3 vs)

theorem after_reach {vs : List Visit} (hg : Grouping vs (relevant mG [m3])) {n : Node} (h : after vs = some n) :
    GReach mG mP mU (fun _ _ => True) n := by
  have hs : k1.isSome = true := by decide +kernel
  obtain ⟨n1, hn1⟩ := Option.isSome_iff_exists.mp hs
  have ha : k1.map (fun n => n.chain.accepts (n.gcfg mG mP) m3) = some true := by decide +kernel
  unfold after at h
  rw [hn1] at h ha
  simp only [Option.map_some, Option.some.injEq, Option.bind_some] at h ha
  exact .step (k1_reach hn1).weaken (by simp [Allowed, mU, mAll]) trivial (put_step ha hg h)

/-! ### Finding: nodes with the same blocks disagree -/

/-- **C97** is false for lists of blocks that mix contracts: one block, a receive of 3 that sends to 5 and to 4, and two orders
in which the contracts may be visited. The nodes have the same ledger, in which the send to 4 waits. One of them takes
the receive of 4 for valid, the other refuses it: the send is not in its pool. -/
theorem mixed_call_loses_a_send : ∃ n n', GReach mG mP mU (fun _ _ => True) n ∧ GReach mG mP mU (fun _ _ => True) n' ∧ n.chain = n'.chain ∧
    mP 4 = true ∧ Front n.chain.all 4 3 2 1 42 ∧
    n.chain.accepts (n.gcfg mG mP) m4 = true ∧ n'.chain.accepts (n'.gcfg mG mP) m4 = false ∧ (∀ v, (⟨4, 3, 2, 42⟩, v) ∉ n'.pool.txs) := by
  have e1 : (after lastly).isSome = true := by decide +kernel
  have e2 : (after midway).isSome = true := by decide +kernel
  obtain ⟨n, hn⟩ := Option.isSome_iff_exists.mp e1
  obtain ⟨n', hn'⟩ := Option.isSome_iff_exists.mp e2
  have hc : n.chain = n'.chain := by
    have hs : k1.isSome = true := by decide +kernel
    obtain ⟨n1, hn1⟩ := Option.isSome_iff_exists.mp hs
    have : ∀ vs m, after vs = some m → m.chain = n1.chain.write m3 := by
      intro vs m h
      unfold after at h
      rw [hn1] at h
      simp only [Option.bind_some, put] at h
      cases hv : visits mG mP (n1.chain.write m3) true vs n1.pool with
      | none => rw [hv] at h; cases h
      | some p => rw [hv] at h; simp only [Option.map_some, Option.some.injEq] at h; rw [← h]
    rw [this _ _ hn, this _ _ hn']
  have h1 : (after lastly).map (fun n => (n.chain.accepts (n.gcfg mG mP) m4, n.chain.all)) = some (true, [g1, g3, g4, m1, m2, m3]) := by decide +kernel
  have h2 : (after midway).map (fun n => (n.chain.accepts (n.gcfg mG mP) m4, n.pool.txs.map (·.1))) = some (false, [⟨3, 1, 3, 22⟩]) := by decide +kernel
  rw [hn] at h1
  rw [hn'] at h2
  simp only [Option.map_some, Option.some.injEq, Prod.mk.injEq] at h1 h2
  refine ⟨n, n', after_reach lastly_ok hn, after_reach midway_ok hn', hc, rfl, ?_, h1.1, h2.1, ?_⟩
  · rw [h1.2]
    refine ⟨⟨⟨m3, by simp, rfl, rfl, rfl⟩, by decide +kernel⟩, ?_⟩
    rintro m j k ⟨⟨d, hd, q1, q2, q3⟩, _⟩
    simp only [List.mem_cons, List.not_mem_nil, or_false] at hd
    rcases hd with rfl | rfl | rfl | rfl | rfl | rfl
    · cases q1
    · subst q2; simp [Blk.outs, g3, Blk.isSend] at q3
    · cases q1
    · cases q1
    · cases q1
    · subst q2
      right
      refine ⟨rfl, ?_⟩
      match j, q3 with
      | 0, q3 => simp [Blk.outs, m3, Blk.isSend] at q3
      | j + 1, _ => omega
  · intro v hv
    have := List.mem_map_of_mem (f := Prod.fst) hv
    rw [h2.2] at this
    simp at this

/-- ... and a contract may be blocked for good: if 5 comes first, the send that 3 has received stays in the pool as the first
of its caller, and the next send of the caller is refused although it is the first that waits. -/
theorem mixed_call_blocks_a_contract : ∃ n, GReach mG mP mU (fun _ _ => True) n ∧ mP 3 = true ∧ Front n.chain.all 3 1 3 0 22 ∧
    isFront mG n.chain n.pool 3 1 21 = true ∧ isFront mG n.chain n.pool 3 1 22 = false ∧ n.chain.accepts (n.gcfg mG mP) m5 = false ∧
    n.chain.accepts mG m5 = true := by
  have e1 : (after firstly).isSome = true := by decide +kernel
  obtain ⟨n, hn⟩ := Option.isSome_iff_exists.mp e1
  have h1 : (after firstly).map (fun n => (isFront mG n.chain n.pool 3 1 21, isFront mG n.chain n.pool 3 1 22, n.chain.accepts (n.gcfg mG mP) m5,
      n.chain.accepts mG m5, n.chain.all)) = some (true, false, false, true, [g1, g3, g4, m1, m2, m3]) := by decide +kernel
  rw [hn] at h1
  simp only [Option.map_some, Option.some.injEq, Prod.mk.injEq] at h1
  obtain ⟨a1, a2, a3, a4, a5⟩ := h1
  refine ⟨n, after_reach firstly_ok hn, rfl, ?_, a1, a2, a3, a4⟩
  rw [a5]
  refine ⟨⟨⟨m2, by simp, rfl, rfl, rfl⟩, by decide +kernel⟩, ?_⟩
  rintro m j k ⟨⟨d, hd, q1, q2, q3⟩, hnt⟩
  simp only [List.mem_cons, List.not_mem_nil, or_false] at hd
  rcases hd with rfl | rfl | rfl | rfl | rfl | rfl
  · subst q2; simp [Blk.outs, g1, Blk.isSend] at q3
  · cases q1
  · cases q1
  · have hj : j = 0 ∧ k = 21 := by
      match j, q3 with
      | 0, q3 => simp [Blk.outs, m1, Blk.isSend] at q3; exact ⟨rfl, q3.symm⟩
      | j + 1, q3 => simp [Blk.outs, m1, Blk.isSend] at q3
    rw [hj.2] at hnt
    have := hnt m3 (by simp)
    simp [Blk.takes, Blk.isRecv, Blk.isSend, m3] at this
  · subst q2; right; exact ⟨rfl, Nat.zero_le _⟩
  · cases q1

/-- ... and the node may stop: the send to 4 was lost and 4 never had another; when the block of 3 is deleted and 4 is visited
first, the pool is asked to remove a send of a contract it does not know. -/
theorem mixed_call_stops_the_node : ∃ n, GReach mG mP mU (fun _ _ => True) n ∧ Allowed mU n.chain (.deleteHash 31) ∧
    GStep mG mP n (.ledger (.deleteHash 31)) none := by
  have e1 : (after midway).isSome = true := by decide +kernel
  obtain ⟨n, hn⟩ := Option.isSome_iff_exists.mp e1
  have hu : (after midway).map (fun n => n.chain.unconf) = some [m1, m2, m3] := by decide +kernel
  have hv : (after midway).map (fun n => (visits mG mP n.chain false [visit4, visit3, visit5] n.pool).isNone) = some true := by decide +kernel
  rw [hn] at hu hv
  simp only [Option.map_some, Option.some.injEq, Option.isNone_iff_eq_none] at hu hv
  refine ⟨n, after_reach midway_ok hn, trivial, ?_⟩
  refine ⟨none, ?_, rfl⟩
  have hcalls : gcalls mG mP n (.deleteHash 31) = [⟨n.chain, false, [m3]⟩] := by
    simp only [gcalls, calls, hu]
    have : List.dropWhile (fun b : Blk => b.hash ≠ 31) [m1, m2, m3] = [m3] := by decide +kernel
    have hd : dependents [m3] = [m3] := by decide +kernel
    rw [this]
    dsimp only
    rw [hd]
  rw [hcalls]
  refine ⟨[visit4, visit3, visit5], grouping_of (by decide) ?_ (by decide +kernel), ?_⟩
  · intro v hv
    simp only [List.mem_cons, List.not_mem_nil, or_false] at hv
    rcases hv with rfl | rfl | rfl <;> decide
  · simp only [hv]

end Verif.Road
