import Verif.Snap.ChainModel
import Verif.Snap.TimeProps
import Verif.Consensus.SlotProps

/-!
# C58: what the snapshot chain always is

For every history of arriving blocks and rollbacks, and for every hash function and election.
-/

namespace Verif.Snap
open Verif.Consensus

/-! ### Specification -/

/-- Each block names the one below it. -/
def Linked (c : Chain) : Prop := ∀ i a b, c[i]? = some a → c[i + 1]? = some b → b.prev = a.hash

/-- A chain of one block to start from, at the time that the group has for its genesis. -/
structure Start (g : Cfg) (c : Chain) : Prop where
  one : ∃ b, c = [b] ∧ b.height = 1 ∧ b.time = g.plan.genesis * 1000000000 ∧ g.H b.body = b.hash

/-- A block has the place that the election gives to its producer: its round's proof block is the last one before the proof time, the producer is
among those elected there, and one of its slots starts at the time of the block. -/
def Elected (g : Cfg) (c : Chain) (b : Snap) : Prop :=
  ∃ sec : Int, b.time = sec * 1000000000 ∧
    ∃ pb, LastBefore c (proofTime g.plan (g.plan.index.time2Index sec) * 1000000000) pb ∧
      ∃ s ∈ genPlan g.plan (g.plan.index.time2Index sec) (g.votes pb.hash), s.member = b.producer ∧ s.stime = sec

/-! ### Acceptance -/

theorem lastSeedBlock_none (b : Snap) : lastSeedBlock b = none := rfl

/-- **C58** When a block is accepted: it is the next one, it is later, the account blocks of its content are there, and its producer has the
slot. -/
theorem accepted_iff (g : Cfg) {c : Chain} {latest : Snap} (hl : c.getLast? = some latest) (h0 : 1 ≤ latest.height) (h1 : latest.height < 2 ^ 64 - 1)
    (accounts : Addr → Nat → Option Hash) (b : Snap) (hb : b.height < 2 ^ 64) :
    verifyReferred g c accounts b = .success ↔
      b.height = latest.height + 1 ∧ b.prev = latest.hash ∧ latest.time < b.time ∧ (∀ x ∈ b.content, accounts x.1 x.2.1 = some x.2.2) ∧
        producerOk g c b.producer b.time = some true := by
  have hcontent : contentVerdict accounts b = .success ↔ ∀ x ∈ b.content, accounts x.1 x.2.1 = some x.2.2 := by
    unfold contentVerdict
    constructor
    · intro h x hx
      split at h
      · exact absurd h (by simp)
      · split at h
        · exact absurd h (by simp)
        · rename_i h1 h2
          rw [List.any_eq_true] at h1 h2
          cases ha : accounts x.1 x.2.1 with
          | none => exact absurd ⟨x, hx, by rw [ha]; rfl⟩ h2
          | some y =>
            by_contra hc
            refine h1 ⟨x, hx, ?_⟩
            simp only [ha]
            exact decide_eq_true (fun e => hc (by rw [e]))
    · intro h
      rw [if_neg, if_neg]
      · rw [List.any_eq_true]; rintro ⟨x, hx, hn⟩
        rw [h x hx] at hn; exact absurd hn (by simp)
      · rw [List.any_eq_true]; rintro ⟨x, hx, hn⟩
        rw [h x hx] at hn
        exact (of_decide_eq_true hn) rfl
  have hmod : ∀ n : Nat, 1 ≤ n → n < 2 ^ 64 → (n + (2 ^ 64 - 1)) % 2 ^ 64 = n - 1 := by intro n h h'; omega
  unfold verifyReferred
  rw [hl]
  simp only
  unfold verifySelf verifySnapshotProducer
  simp only [lastSeedBlock_none, Bool.false_eq_true, if_false]
  by_cases e1 : b.height = latest.height + 1
  · rw [if_neg (by omega), if_neg (by rw [hmod b.height (by omega) hb]; omega)]
    by_cases e2 : latest.hash = b.prev
    · rw [if_neg (fun h => h e2)]
      simp only
      by_cases e3 : latest.time < b.time
      · rw [if_neg (fun h => h e3)]
        cases hc : contentVerdict accounts b with
        | success =>
          simp only
          rw [if_pos (by omega)]
          have hx := hcontent.1 hc
          cases hp : producerOk g c b.producer b.time with
          | none => simp
          | some v =>
            cases v with
            | false => simp
            | true => simp only [true_iff]; exact ⟨e1, e2.symm, e3, hx, trivial⟩
        | fail =>
          simp only
          constructor
          · intro h; exact absurd h (by simp)
          · rintro ⟨-, -, -, hx, -⟩; rw [hcontent.2 hx] at hc; exact absurd hc (by simp)
        | pending =>
          simp only
          constructor
          · intro h; exact absurd h (by simp)
          · rintro ⟨-, -, -, hx, -⟩; rw [hcontent.2 hx] at hc; exact absurd hc (by simp)
      · rw [if_pos e3]
        constructor
        · intro h; exact absurd h (by simp)
        · rintro ⟨-, -, h, -⟩; exact absurd h e3
    · rw [if_pos e2]
      constructor
      · intro h; exact absurd h (by simp)
      · rintro ⟨-, h, -⟩; exact absurd h.symm e2
  · constructor
    · intro h
      exfalso
      by_cases hh : b.height = 1 ∧ b.hash ≠ g.genesis
      · rw [if_pos hh] at h; exact absurd h (by simp)
      · rw [if_neg hh] at h
        rw [if_pos] at h
        · exact absurd h (by simp)
        · rcases Nat.eq_zero_or_pos b.height with e | e
          · rw [e]; omega
          · rw [hmod b.height e hb]; omega
    · rintro ⟨h, -⟩; exact absurd h e1

/-- A slot that starts at a time, in terms of the elected. -/
theorem producerOk_elim {g : Cfg} {c : Chain} (hg : Good c) {a : Addr} {t : Int} (h : producerOk g c a t = some true) :
    ∃ sec : Int, t = sec * 1000000000 ∧ ∃ pb, LastBefore c (proofTime g.plan (g.plan.index.time2Index sec) * 1000000000) pb ∧
      ∃ s ∈ genPlan g.plan (g.plan.index.time2Index sec) (g.votes pb.hash), s.member = a ∧ s.stime = sec := by
  unfold producerOk elected at h
  simp only at h
  split at h
  · rename_i pb hpb
    rw [Option.map_some] at h
    injection h with h
    rw [List.any_eq_true] at h
    obtain ⟨s, hs, hd⟩ := h
    rw [Bool.and_eq_true] at hd
    have e1 := of_decide_eq_true hd.1
    have e2 := of_decide_eq_true hd.2
    have hu : unix t = s.stime := by unfold unix; omega
    rw [hu] at hs hpb
    refine ⟨s.stime, e2.symm, pb, ?_, s, hs, e1, rfl⟩
    rcases before_exact hg hpb with ⟨b, hb, hl⟩ | ⟨hb, -⟩
    · injection hb with hb; injection hb with hb; subst hb; exact hl
    · exact absurd hb (by simp)
  · exact absurd h (by simp)

/-! ### The invariant -/

/-- What holds of the chain at all times. -/
structure Inv (g : Cfg) (c : Chain) : Prop where
  good : Good c
  linked : Linked c
  first : ∀ b, c.head? = some b → b.time = g.plan.genesis * 1000000000
  whole : Whole c
  hashed : ∀ b ∈ c, g.H b.body = b.hash
  placed : ∀ b ∈ c, b.height ≠ 1 → Elected g c b

theorem Good.take {c : Chain} (hg : Good c) {n : Nat} (hn : 1 ≤ n) : Good (c.take n) := by
  refine ⟨?_, ?_, hg.times.sublist (List.take_sublist _ _)⟩
  · intro h
    rw [List.take_eq_nil_iff] at h
    rcases h with h | h
    · omega
    · exact hg.ne h
  · intro i b h
    rw [List.getElem?_take] at h
    split at h
    · exact hg.height i b h
    · exact absurd h (by simp)

theorem mem_take {c : Chain} (hg : Good c) {n : Nat} {b : Snap} : b ∈ c.take n ↔ b ∈ c ∧ b.height ≤ n := by
  rw [List.mem_iff_getElem?]
  constructor
  · rintro ⟨i, h⟩
    rw [List.getElem?_take] at h
    split at h
    · exact ⟨List.mem_of_getElem? h, by have := hg.height i b h; omega⟩
    · exact absurd h (by simp)
  · rintro ⟨hb, hn⟩
    have h := headerAt_mem hg hb
    unfold headerAt at h
    split at h
    · exact absurd h (by simp)
    · exact ⟨b.height - 1, by rw [List.getElem?_take, if_pos (by omega)]; exact h⟩

/-- The proof time of the round of a time is not after it. -/
theorem proofTime_le {p : Plan} {sec : Int} (hpos : 0 < p.index.interval) (hr : p.index.InRange sec) (hlater : p.genesis < sec) :
    proofTime p (p.index.time2Index sec) ≤ sec := by
  have h := (index_exact p.index hpos hr (p.index.time2Index sec)).1 rfl
  generalize p.index.time2Index sec = i at *
  unfold proofTime
  split
  · omega
  · refine Int.le_trans ?_ h.1
    unfold TimeIndex.index2Time
    simp only
    have : (p.index.interval : Int) * (i - 2 + 1 : Nat) ≤ p.index.interval * i := by
      apply mul_le_mul_of_nonneg_left _ (by positivity)
      omega
    linarith

/-- What the configuration needs: rounds take time, and times stay within 64 bits. -/
structure CfgOk (g : Cfg) : Prop where
  interval : 0 < g.plan.interval
  nodes : 0 < g.plan.nodeCount
  per : 0 < g.plan.perCount
  rep : 0 < g.plan.rep

theorem CfgOk.pos {g : Cfg} (h : CfgOk g) : 0 < g.plan.index.interval := by
  unfold Plan.index Plan.round
  exact Nat.mul_pos (Nat.mul_pos (Nat.mul_pos h.interval h.nodes) h.per) h.rep

/-- All times are within 64 bits of genesis. -/
def InTime (g : Cfg) (c : Chain) : Prop := ∀ b ∈ c, unix b.time - g.plan.genesis < 2 ^ 64

theorem Good.append {c : Chain} (hg : Good c) {l b : Snap} (hl : c.getLast? = some l) (hh : b.height = l.height + 1) (ht : l.time < b.time) : Good (c ++ [b]) := by
  obtain ⟨l', hl', ml, hlen⟩ := hg.latest
  rw [hl] at hl'; injection hl' with hl'; subst hl'
  refine ⟨by simp, ?_, ?_⟩
  · intro i x h
    rw [List.getElem?_append] at h
    split at h
    · exact hg.height i x h
    · have : i = c.length := by
        by_contra hc
        rw [List.getElem?_eq_none (by simp; omega)] at h
        exact absurd h (by simp)
      subst this
      simp at h
      subst h
      omega
  · rw [List.pairwise_append]
    refine ⟨hg.times, by simp, ?_⟩
    intro a ha x hx
    rw [List.mem_singleton] at hx
    subst hx
    by_cases e : a.height < l.height
    · have := (time_lt_iff hg ha ml).2 e; omega
    · have hm := mem_height hg ha
      have e1 := headerAt_mem hg ha
      rw [show a.height = l.height by omega, headerAt_mem hg ml] at e1
      injection e1 with e1; rw [← e1]; exact ht

/-- Adding a block not before a time does not change which is the last before it. -/
theorem LastBefore.append {c : Chain} {t : Int} {pb b : Snap} (h : LastBefore c t pb) (hb : t ≤ b.time) : LastBefore (c ++ [b]) t pb := by
  refine ⟨by simp [h.1], h.2.1, ?_⟩
  intro x hx hxt
  rw [List.mem_append, List.mem_singleton] at hx
  rcases hx with hx | rfl
  · exact h.2.2 x hx hxt
  · omega

theorem LastBefore.take {c : Chain} (hg : Good c) {t : Int} {pb b : Snap} (h : LastBefore c t pb) (hb : b ∈ c) (ht : t ≤ b.time) {n : Nat} (hn : b.height ≤ n) :
    LastBefore (c.take n) t pb := by
  have := (time_lt_iff hg h.1 hb).1 (by have := h.2.1; omega)
  refine ⟨(mem_take hg).2 ⟨h.1, by omega⟩, h.2.1, ?_⟩
  intro x hx hxt
  exact h.2.2 x ((mem_take hg).1 hx).1 hxt

theorem Elected.proof_le {g : Cfg} (hc : CfgOk g) {c : Chain} (hi : Good c) (hf : ∀ b, c.head? = some b → b.time = g.plan.genesis * 1000000000)
    {b : Snap} (hb : b ∈ c) (h1 : b.height ≠ 1) (ht : unix b.time - g.plan.genesis < 2 ^ 64) {sec : Int} (hs : b.time = sec * 1000000000) :
    proofTime g.plan (g.plan.index.time2Index sec) * 1000000000 ≤ b.time := by
  obtain ⟨x, ex, mx, hx⟩ := hi.genesis
  have hft := hf x ex
  have hm := mem_height hi hb
  have hlt := (time_lt_iff hi mx hb).2 (by omega)
  have hu : unix b.time = sec := by unfold unix; omega
  have := proofTime_le (p := g.plan) (sec := sec) hc.pos ⟨by simp only [Plan.index]; omega, by simp only [Plan.index]; omega⟩ (by omega)
  rw [hs]
  omega

theorem Inv.append {g : Cfg} (hc : CfgOk g) {c : Chain} (hi : Inv g c) (ht : InTime g (c ++ [b])) {l : Snap} (hl : c.getLast? = some l)
    (h1 : b.height = l.height + 1) (h2 : b.prev = l.hash) (h3 : l.time < b.time) (h4 : producerOk g c b.producer b.time = some true) (h5 : g.H b.body = b.hash) : Inv g (c ++ [b]) := by
  obtain ⟨l', hl', ml, hlen⟩ := hi.good.latest
  rw [hl] at hl'; injection hl' with hl'; subst hl'
  have hg' := hi.good.append hl h1 h3
  obtain ⟨sec, hsec, pb, hpb, s, hs, hsm, hst⟩ := producerOk_elim hi.good h4
  have hf' : ∀ x, (c ++ [b]).head? = some x → x.time = g.plan.genesis * 1000000000 := by
    intro x hx
    obtain ⟨y, ey, -, -⟩ := hi.good.genesis
    rw [List.head?_append, ey] at hx
    exact hi.first x (by rw [ey]; exact hx)
  have hb : b ∈ c ++ [b] := by simp
  have hle : ∀ x ∈ c ++ [b], x.height ≠ 1 → ∀ sec : Int, x.time = sec * 1000000000 → proofTime g.plan (g.plan.index.time2Index sec) * 1000000000 ≤ x.time :=
    fun x hx hx1 sec hsec => Elected.proof_le hc hg' hf' hx hx1 (ht x hx) hsec
  refine ⟨hg', ?_, hf', ?_, ?_, ?_⟩
  · intro i x y hx hy
    rw [List.getElem?_append] at hx hy
    by_cases e : i + 1 < c.length
    · rw [if_pos (by omega)] at hx
      rw [if_pos e] at hy
      exact hi.linked i x y hx hy
    · rw [if_neg e] at hy
      by_cases e2 : i + 1 = c.length
      · rw [e2, Nat.sub_self] at hy
        injection hy with hy; subst hy
        rw [if_pos (by omega)] at hx
        have : x = l := by
          rw [List.getLast?_eq_getElem?, show c.length - 1 = i by omega, hx] at hl
          injection hl
        rw [this]; exact h2
      · rw [List.getElem?_eq_none (by simp; omega)] at hy
        exact absurd hy (by simp)
  · intro x hx
    rw [List.mem_append, List.mem_singleton] at hx
    rcases hx with hx | rfl
    · exact hi.whole x hx
    · rw [hsec]; exact Int.mul_emod_left _ _
  · intro x hx
    rw [List.mem_append, List.mem_singleton] at hx
    rcases hx with hx | rfl
    · exact hi.hashed x hx
    · exact h5
  · intro x hx hx1
    rw [List.mem_append, List.mem_singleton] at hx
    rcases hx with hx' | rfl
    · obtain ⟨sec', hsec', pb', hpb', hrest⟩ := hi.placed x hx' hx1
      refine ⟨sec', hsec', pb', hpb'.append ?_, hrest⟩
      have h5 := hle x (by simp [hx']) hx1 sec' hsec'
      have h6 := (time_lt_iff hg' (List.mem_append_left _ hx') hb).2 (by have := (mem_height hi.good hx').2; omega)
      omega
    · exact ⟨sec, hsec, pb, hpb.append (hle x hb (by have := (mem_height hi.good ml).1; omega) sec hsec), s, hs, hsm, hst⟩

theorem Inv.take {g : Cfg} (hc : CfgOk g) {c : Chain} (hi : Inv g c) (ht : InTime g c) {n : Nat} (hn : 1 ≤ n) : Inv g (c.take n) := by
  have hhead : (c.take n).head? = c.head? := by
    cases c with
    | nil => simp
    | cons x l => rw [show n = (n - 1) + 1 by omega, List.take_succ_cons]; rfl
  refine ⟨hi.good.take hn, ?_, ?_, fun b hb => hi.whole b (List.mem_of_mem_take hb), fun b hb => hi.hashed b (List.mem_of_mem_take hb), ?_⟩
  · intro i a b ha hb
    rw [List.getElem?_take] at ha hb
    split at ha
    · split at hb
      · exact hi.linked i a b ha hb
      · exact absurd hb (by simp)
    · exact absurd ha (by simp)
  · intro b hb; rw [hhead] at hb; exact hi.first b hb
  · intro b hb h1
    obtain ⟨mb, hle⟩ := (mem_take hi.good).1 hb
    obtain ⟨sec, hsec, pb, hpb, hrest⟩ := hi.placed b mb h1
    exact ⟨sec, hsec, pb, hpb.take hi.good mb (Elected.proof_le hc hi.good hi.first mb h1 (ht b mb) hsec) hle, hrest⟩

/-- Times and heights of arriving blocks are within 64 bits. -/
def Op.Fits (g : Cfg) : Op → Prop
  | .insert b _ => b.height < 2 ^ 64 - 1 ∧ unix b.time - g.plan.genesis < 2 ^ 64
  | .rollback _ => True

theorem Inv.start {g : Cfg} {c : Chain} (hs : Start g c) : Inv g c := by
  obtain ⟨b, rfl, h1, h2, h3⟩ := hs.one
  refine ⟨⟨by simp, ?_, by simp⟩, ?_, ?_, ?_, ?_, ?_⟩
  · intro i x h
    match i with
    | 0 => simp at h; subst h; exact h1
    | n + 1 => simp at h
  · intro i a x h h'; simp at h'
  · intro x hx; simp at hx; subst hx; exact h2
  · intro x hx; simp at hx; subst hx; rw [h2]; exact Int.mul_emod_left _ _
  · intro x hx; simp at hx; subst hx; exact h3
  · intro x hx hx1; simp at hx; subst hx; exact absurd h1 hx1

/-- What holds with the bounds. -/
structure Inv64 (g : Cfg) (c : Chain) : Prop extends Inv g c where
  intime : InTime g c
  heights : ∀ b ∈ c, b.height < 2 ^ 64 - 1

theorem Inv64.step {g : Cfg} (hc : CfgOk g) {c : Chain} (hi : Inv64 g c) {op : Op} (ho : op.Fits g) : Inv64 g (step g c op) := by
  cases op with
  | rollback h =>
    change Inv64 g (c.take (max 1 h))
    exact ⟨hi.toInv.take hc hi.intime (by omega), fun b hb => hi.intime b (List.mem_of_mem_take hb), fun b hb => hi.heights b (List.mem_of_mem_take hb)⟩
  | insert b accounts =>
    change Inv64 g (if dataValid g b = true ∧ verifyReferred g c accounts b = .success then c ++ [b] else c)
    split
    · rename_i h
      obtain ⟨l, hl, ml, hlen⟩ := hi.good.latest
      obtain ⟨h1, h2, h3, -, h4⟩ := (accepted_iff g hl (mem_height hi.good ml).1 (hi.heights l ml) accounts b (by have := ho.1; omega)).1 h.2
      have hh : g.H b.body = b.hash := by
        have := h.1
        unfold dataValid at this
        rw [Bool.and_eq_true] at this
        exact of_decide_eq_true this.2
      have hin : InTime g (c ++ [b]) := by
        intro x hx
        rw [List.mem_append, List.mem_singleton] at hx
        rcases hx with hx | rfl
        · exact hi.intime x hx
        · exact ho.2
      refine ⟨hi.toInv.append hc hin hl h1 h2 h3 h4 hh, hin, ?_⟩
      intro x hx
      rw [List.mem_append, List.mem_singleton] at hx
      rcases hx with hx | rfl
      · exact hi.heights x hx
      · exact ho.1
    · exact hi

theorem Inv64.run {g : Cfg} (hc : CfgOk g) (ops : List Op) : ∀ {c : Chain}, Inv64 g c → (∀ op ∈ ops, op.Fits g) → Inv64 g (run g c ops) := by
  induction ops with
  | nil => intro c h _; exact h
  | cons op ops ih =>
    intro c h ho
    exact ih (h.step hc (ho op (by simp))) (fun o h' => ho o (by simp [h']))

/-- What holds after every history. -/
theorem reachable {g : Cfg} (hc : CfgOk g) {c : Chain} (hs : Start g c) {ops : List Op} (ho : ∀ op ∈ ops, op.Fits g) : Inv64 g (run g c ops) := by
  refine Inv64.run hc ops ⟨Inv.start hs, ?_, ?_⟩ ho
  · obtain ⟨b, rfl, h1, h2, -⟩ := hs.one
    intro x hx
    simp at hx; subst hx
    rw [h2]
    have : unix (g.plan.genesis * 1000000000) = g.plan.genesis := by unfold unix; omega
    rw [this]; omega
  · obtain ⟨b, rfl, h1, h2, -⟩ := hs.one
    intro x hx
    simp at hx; subst hx; omega

/-! ### The properties -/

/-- **C58** After every history heights count from 1 without gap, every block names the one below, and times increase strictly in whole
seconds. -/
theorem chain_shape {g : Cfg} (hc : CfgOk g) {c : Chain} (hs : Start g c) {ops : List Op} (ho : ∀ op ∈ ops, op.Fits g) :
    Good (run g c ops) ∧ Linked (run g c ops) ∧ Whole (run g c ops) :=
  ⟨(reachable hc hs ho).good, (reachable hc hs ho).linked, (reachable hc hs ho).whole⟩

/-- **C58** After every history every block but the first has a producer that was elected for its round, and stands at the start of one of its
slots; the election is the one that the chain gives now. -/
theorem chain_elected {g : Cfg} (hc : CfgOk g) {c : Chain} (hs : Start g c) {ops : List Op} (ho : ∀ op ∈ ops, op.Fits g) {b : Snap}
    (hb : b ∈ run g c ops) (h1 : b.height ≠ 1) : Elected g (run g c ops) b :=
  (reachable hc hs ho).placed b hb h1

/-- **C58** No producer makes more blocks in a round than it has slots. -/
theorem round_share {g : Cfg} (hc : CfgOk g) {c : Chain} (hs : Start g c) {ops : List Op} (ho : ∀ op ∈ ops, op.Fits g)
    (hv : ∀ h, (g.votes h).Nodup ∧ (g.votes h).length ≤ g.plan.nodeCount) (i : Nat) (a : Addr) :
    ((run g c ops).filter (fun b => decide (b.producer = a ∧ b.height ≠ 1 ∧ g.plan.index.time2Index (unix b.time) = i))).length ≤ g.plan.rep * g.plan.perCount := by
  have hi := reachable hc hs ho
  generalize run g c ops = d at *
  generalize hfl : d.filter (fun b => decide (b.producer = a ∧ b.height ≠ 1 ∧ g.plan.index.time2Index (unix b.time) = i)) = fl
  cases hfe : fl with
  | nil => simp
  | cons b0 rest =>
    have hm : ∀ b ∈ fl, b ∈ d ∧ b.producer = a ∧ b.height ≠ 1 ∧ g.plan.index.time2Index (unix b.time) = i := by
      intro b hb
      rw [← hfl, List.mem_filter] at hb
      exact ⟨hb.1, of_decide_eq_true hb.2⟩
    rw [← hfe]
    obtain ⟨hb0, hp0, h10, hi0⟩ := hm b0 (by rw [hfe]; simp)
    obtain ⟨sec0, hs0, pb, hpb, s0, hs0m, hs0e, -⟩ := hi.placed b0 hb0 h10
    have hu : ∀ {b : Snap} {sec : Int}, b.time = sec * 1000000000 → unix b.time = sec := by intro b sec h; unfold unix; omega
    rw [hu hs0] at hi0
    -- the slots of the producer in the round
    generalize hsl : (genPlan g.plan i (g.votes pb.hash)).filter (fun s => decide (s.member = a)) = sl
    have hmem : a ∈ g.votes pb.hash := by
      rw [hi0] at hs0m
      obtain ⟨j, k, -, -, hk, -, -⟩ := (plan_exact g.plan hc.per i _ (hv _).2 s0).1 hs0m
      rw [hs0e, hp0] at hk
      exact List.mem_of_getElem? hk
    have hlen : sl.length = g.plan.rep * g.plan.perCount := by
      rw [← hsl]; exact slots_equal_share g.plan hc.per i (hv _).2 (hv _).1 hmem
    have hin : ∀ b ∈ fl, b.time ∈ sl.map (fun s => s.stime * 1000000000) := by
      intro b hb
      obtain ⟨mb, hp, h1, hii⟩ := hm b hb
      obtain ⟨sec, hsec, pb', hpb', s, hsm, hse, hst⟩ := hi.placed b mb h1
      rw [hu hsec] at hii
      have hpp : pb' = pb := lastBefore_unique hi.good (by rw [hii] at hpb'; exact hpb') (by rw [hi0] at hpb; exact hpb)
      subst hpp
      rw [List.mem_map]
      refine ⟨s, ?_, by rw [hst, hsec]⟩
      rw [← hsl, List.mem_filter]
      exact ⟨by rw [← hii]; exact hsm, decide_eq_true (by rw [hse, hp])⟩
    have hnd : (fl.map (·.time)).Nodup := by
      have hp : fl.Pairwise (fun a b => a.time < b.time) := by rw [← hfl]; exact hi.good.times.sublist List.filter_sublist
      rw [List.Nodup, List.pairwise_map]
      exact hp.imp (fun h => by omega)
    have hsub : fl.map (·.time) ⊆ sl.map (fun s => s.stime * 1000000000) := by
      intro t ht
      obtain ⟨b, hb, rfl⟩ := List.mem_map.1 ht
      exact hin b hb
    have := (List.subperm_of_subset hnd hsub).length_le
    rw [List.length_map, List.length_map, hlen] at this
    exact this

/-- The time of a whole block is in its hash. -/
theorem time_of_body {a b : Snap} (ha : a.time % 1000000000 = 0) (hb : b.time % 1000000000 = 0) (h : a.body = b.body) : a.time = b.time := by
  have := congrArg Body.sec h
  simp only [Snap.body] at this
  unfold unix at this
  omega

/-- Histories with the same block below it have the same blocks. -/
theorem bodies_agree {g : Cfg} (hH : Function.Injective g.H) {c d : Chain} (hc : Inv g c) (hd : Inv g d) : ∀ (i : Nat) {a b : Snap},
    c[i]? = some a → d[i]? = some b → a.hash = b.hash → ∀ j ≤ i, ∃ x y, c[j]? = some x ∧ d[j]? = some y ∧ x.hash = y.hash ∧ x.body = y.body := by
  intro i
  induction i with
  | zero =>
    intro a b ha hb h j hj
    have : j = 0 := by omega
    subst this
    refine ⟨a, b, ha, hb, h, hH ?_⟩
    rw [hc.hashed a (List.mem_of_getElem? ha), hd.hashed b (List.mem_of_getElem? hb), h]
  | succ i ih =>
    intro a b ha hb h j hj
    have hbody : a.body = b.body := hH (by rw [hc.hashed a (List.mem_of_getElem? ha), hd.hashed b (List.mem_of_getElem? hb), h])
    by_cases e : j = i + 1
    · subst e; exact ⟨a, b, ha, hb, h, hbody⟩
    · have hlc : i + 1 < c.length := by by_contra hc; rw [List.getElem?_eq_none (by omega)] at ha; exact absurd ha (by simp)
      have hld : i + 1 < d.length := by by_contra hc; rw [List.getElem?_eq_none (by omega)] at hb; exact absurd hb (by simp)
      have ea : c[i]? = some c[i] := List.getElem?_eq_getElem (by omega)
      have eb : d[i]? = some d[i] := List.getElem?_eq_getElem (by omega)
      have hp : a.prev = b.prev := congrArg Body.prev hbody
      rw [hc.linked i _ a ea ha, hd.linked i _ b eb hb] at hp
      exact ih ea eb hp j (by omega)

/-- The same with the chains taken as they are. -/
theorem history_agrees {g : Cfg} (hg : CfgOk g) (hH : Function.Injective g.H) (hv : ∀ h, (g.votes h).length ≤ g.plan.nodeCount)
    {c d : Chain} (hi : Inv64 g c) (hi' : Inv64 g d) {a b : Snap} (ha : a ∈ c) (hb : b ∈ d) (h : a.hash = b.hash) :
    a.height = b.height ∧ ∀ j < a.height, ∃ x y, c[j]? = some x ∧ d[j]? = some y ∧
      x.hash = y.hash ∧ x.body = y.body ∧ x.time = y.time ∧ (x.height ≠ 1 → x.producer = y.producer) := by
  have hbody : a.body = b.body := hH (by rw [hi.hashed a ha, hi'.hashed b hb, h])
  have hh : a.height = b.height := congrArg Body.height hbody
  refine ⟨hh, ?_⟩
  have hat : ∀ {c : Chain} (_ : Good c) {x : Snap}, x ∈ c → 1 ≤ x.height ∧ c[x.height - 1]? = some x := by
    intro c hgc x hx
    have h := headerAt_mem hgc hx
    have h1 := mem_height hgc hx
    unfold headerAt at h
    rw [if_neg (by omega)] at h
    exact ⟨h1.1, h⟩
  obtain ⟨a1, ea⟩ := hat hi.good ha
  obtain ⟨b1, eb⟩ := hat hi'.good hb
  rw [← hh] at eb
  have hall := bodies_agree hH hi.toInv hi'.toInv _ ea eb h
  intro j hj
  obtain ⟨x, y, hx, hy, hxy, hbxy⟩ := hall j (by omega)
  have mx := List.mem_of_getElem? hx
  have my := List.mem_of_getElem? hy
  have htime := time_of_body (hi.whole x mx) (hi'.whole y my) hbxy
  refine ⟨x, y, hx, hy, hxy, hbxy, htime, ?_⟩
  intro hx1
  have hxh := hi.good.height j x hx
  have hyh := hi'.good.height j y hy
  obtain ⟨sec, hsec, pb, hpb, s, hsm, hse, hst⟩ := hi.placed x mx hx1
  obtain ⟨sec', hsec', pb', hpb', s', hsm', hse', hst'⟩ := hi'.placed y my (by omega)
  have hss : sec' = sec := by omega
  subst hss
  -- the proof block is the same
  have hle := Elected.proof_le hg hi.good hi.first mx hx1 (hi.intime x mx) hsec
  have hpx : pb.height < x.height := (time_lt_iff hi.good hpb.1 mx).1 (by have := hpb.2.1; omega)
  obtain ⟨p1, ep⟩ := hat hi.good hpb.1
  obtain ⟨q, r, hq, hr, hqr, hbqr⟩ := hall (pb.height - 1) (by omega)
  rw [ep] at hq; injection hq with hq; subst hq
  have mr := List.mem_of_getElem? hr
  have htr := time_of_body (hi.whole pb hpb.1) (hi'.whole r mr) hbqr
  have hrl : LastBefore d (proofTime g.plan (g.plan.index.time2Index sec') * 1000000000) r := by
    refine ⟨mr, by rw [← htr]; exact hpb.2.1, ?_⟩
    intro z hz hzt
    have hzy : z.height < y.height := (time_lt_iff hi'.good hz my).1 (by omega)
    obtain ⟨z1, ez⟩ := hat hi'.good hz
    obtain ⟨u, v, hu, hv', huv, hbuv⟩ := hall (z.height - 1) (by omega)
    rw [ez] at hv'; injection hv' with hv'; subst hv'
    have mu := List.mem_of_getElem? hu
    have htu := time_of_body (hi.whole u mu) (hi'.whole z hz) hbuv
    have := hpb.2.2 u mu (by omega)
    have e1 : u.height = z.height := congrArg Body.height hbuv
    have e2 : pb.height = r.height := congrArg Body.height hbqr
    omega
  have hpr : pb' = r := lastBefore_unique hi'.good hpb' hrl
  subst hpr
  rw [hqr] at hsm
  have hm : ∀ _ : Nat, (g.votes pb'.hash).length ≤ g.plan.nodeCount := fun _ => hv _
  exact producer_unique g.plan hg.per hg.interval (fun _ => g.votes pb'.hash) hm
    ((producer_exact g.plan _ _ _).2 ⟨s, hsm, hse, hst⟩) ((producer_exact g.plan _ _ _).2 ⟨s', hsm', hse', hst'⟩)

/-- **C58** A hash stands for a history: if the chains of two nodes have blocks of the same hash, of whatever heights, the heights are the same, and
everything below is the same, hashes, contents, times and producers. -/
theorem same_hash_same_history {g : Cfg} (hg : CfgOk g) (hH : Function.Injective g.H) (hv : ∀ h, (g.votes h).length ≤ g.plan.nodeCount)
    {c d : Chain} (hs : Start g c) (hs' : Start g d)
    {ops ops' : List Op} (ho : ∀ op ∈ ops, op.Fits g) (ho' : ∀ op ∈ ops', op.Fits g) {a b : Snap} (ha : a ∈ run g c ops) (hb : b ∈ run g d ops')
    (h : a.hash = b.hash) :
    a.height = b.height ∧ ∀ j < a.height, ∃ x y, (run g c ops)[j]? = some x ∧ (run g d ops')[j]? = some y ∧
      x.hash = y.hash ∧ x.body = y.body ∧ x.time = y.time ∧ (x.height ≠ 1 → x.producer = y.producer) := by
  exact history_agrees hg hH hv (reachable hg hs ho) (reachable hg hs' ho') ha hb h

/-- **C58** The first block never changes. -/
theorem genesis_stays {g : Cfg} {c : Chain} (hne : c ≠ []) (ops : List Op) : (run g c ops).head? = c.head? ∧ run g c ops ≠ [] := by
  induction ops generalizing c with
  | nil => exact ⟨rfl, hne⟩
  | cons op ops ih =>
    have h1 : (step g c op).head? = c.head? ∧ step g c op ≠ [] := by
      cases c with
      | nil => exact absurd rfl hne
      | cons x l =>
        cases op with
        | rollback h =>
          change ((x :: l).take (max 1 h)).head? = _ ∧ (x :: l).take (max 1 h) ≠ []
          rw [show max 1 h = (max 1 h - 1) + 1 by omega, List.take_succ_cons]
          exact ⟨rfl, by simp⟩
        | insert b acc =>
          change (if _ then (x :: l) ++ [b] else (x :: l)).head? = _ ∧ (if _ then (x :: l) ++ [b] else (x :: l)) ≠ []
          split <;> exact ⟨rfl, by simp⟩
    obtain ⟨h2, h3⟩ := ih h1.2
    exact ⟨by rw [← h1.1]; exact h2, h3⟩

end Verif.Snap
