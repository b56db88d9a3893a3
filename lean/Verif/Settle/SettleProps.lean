import Verif.Settle.SettleLemmas

/-!
# C71, C72: which block is irreversible, and what a fork may delete

For every chain and every history of insertions, queries and forks.
-/

namespace Verif.Settle
open Verif.Consensus Verif.Snap

variable {g : Cfg} {block : Hash → Snap} {c d : Chain}

theorem cnt_eq (g : Cfg) : g.cnt = 2 * (g.nodes / 3) + 1 := by unfold Cfg.cnt; omega

theorem Ok.round_genesis (h : Ok g block c) (hi : 0 < g.ti.interval) {b : Snap} (hb : c.head? = some b) : g.round b = 0 := by
  by_contra hc
  obtain ⟨x, ex, mx, -⟩ := h.good.genesis
  rw [hb] at ex; injection ex with ex; subst ex
  have h1 := (h.round_le hi mx 1).1 (by omega)
  rw [h.genesis b hb] at h1
  unfold Cfg.start TimeIndex.index2Time at h1
  simp only at h1
  push_cast at h1
  omega

/-- The search: what it finds, from a last block of a round. -/
theorem search_spec (h : Ok g block c) (hi : 0 < g.ti.interval) (lastIdx : Nat) (head : Snap) : ∀ (fuel : Nat) (latest : Snap), latest.height < fuel → latest ∈ c →
    (∀ b ∈ c, g.round b = g.round latest → b.height ≤ latest.height) → (∀ q, Final g c q → g.round q ≤ g.round latest) →
    (∃ i, search g c lastIdx head fuel latest = .ok (some i) ∧ i.proof = head ∧ Highest g c i.point) ∨
      (search g c lastIdx head fuel latest = .ok none ∧ ∀ q, Final g c q → g.round q < lastIdx) ∨
      (search g c lastIdx head fuel latest = .panic ∧ ∃ b ∈ c, g.round b = 0 ∧ g.cnt < b.height) := by
  intro fuel
  induction fuel with
  | zero => intro latest hlt; omega
  | succ fuel ih =>
    intro latest hlt hm hlast habove
    have below : ∀ b ∈ c, g.round b ≤ g.round latest → b.height ≤ latest.height := by
      intro b hb hr
      by_cases e : g.round b = g.round latest
      · exact hlast b hb e
      · by_contra hc
        have := h.round_mono hi hm hb (by omega)
        omega
    unfold search
    split
    · rename_i hle
      refine Or.inl ⟨_, rfl, rfl, ?_⟩
      intro q hq
      have := hq.height_lt h.good (l := latest) (fun b hb e => below b hb (by have := habove q hq; omega))
      omega
    rename_i hgt
    simp only
    split
    · rename_i hidx
      exact Or.inr (Or.inl ⟨rfl, fun q hq => by have := habove q hq; omega⟩)
    rename_i hidx
    rcases h.before hi (g.round latest) with ⟨b, hb, e, hr, hmax⟩ | ⟨e, hall⟩
    · simp only [e]
      have hbl : b.height < latest.height := by
        by_contra hc
        have := h.round_mono hi hm hb (by omega)
        omega
      obtain ⟨p, hp⟩ := headerAt_isSome (c := c) (h := b.height + 1) (by omega) (by have := mem_height h.good hm; omega)
      obtain ⟨hph, hpm, -, -⟩ := headerAt_some h.good hp
      simp only [hp]
      have hpr : g.round p = g.round latest := by
        have h1 := h.round_mono hi hpm hm (by omega)
        by_contra hc
        have := hmax p hpm (by omega)
        omega
      have hrd : ∀ x ∈ c, g.round x = g.round latest ↔ p.height ≤ x.height ∧ x.height ≤ latest.height := by
        intro x hx
        constructor
        · intro ex
          refine ⟨?_, hlast x hx ex⟩
          by_contra hc
          have := h.round_mono hi hx hb (by omega)
          omega
        · rintro ⟨h1, h2⟩
          have a1 := h.round_mono hi hpm hx h1
          have a2 := h.round_mono hi hx hm h2
          omega
      have hck := check_exact (g := g) (n := g.cnt) h.good hpm hm hrd (by omega)
      split
      · rename_i hch
        have hq := hck.1 hch
        have hf : Final g c p := by
          refine ⟨hpm, ?_, ?_, ?_⟩
          · have := (mem_height h.good hb).1; omega
          · intro x hx ex
            exact ((hrd x hx).1 (by omega)).1
          · rw [hpr, ← cnt_eq]; exact hq
        refine Or.inl ⟨_, rfl, rfl, hf, ?_⟩
        intro q hq
        have hqr := habove q hq
        by_cases eq : g.round q = g.round latest
        · exact hq.first p hpm (by omega)
        · have := hmax q hq.mem (by omega)
          omega
      · rename_i hch
        have hno : ∀ q, Final g c q → g.round q ≠ g.round latest := by
          intro q hq eq
          apply hch
          rw [hck, ← eq, cnt_eq]
          exact hq.quorum
        apply ih b (by omega) hb
        · intro x hx ex
          exact hmax x hx (by omega)
        · intro q hq
          have := hmax q hq.mem (by have := hno q hq; have := habove q hq; omega)
          exact h.round_mono hi hq.mem hb this
    · simp only [e]
      refine Or.inr (Or.inr ⟨trivial, latest, hm, ?_, by omega⟩)
      obtain ⟨x, ex, mx, -⟩ := h.good.genesis
      have := hall x mx
      rw [h.round_genesis hi ex] at this
      omega

theorem getLatest_spec (h : Ok g block c) (hi : 0 < g.ti.interval) (hn : 3 ≤ g.nodes) (lastIdx : Nat) :
    (∃ i, getLatest g c lastIdx = .ok (some i) ∧ c.getLast? = some i.proof ∧ Highest g c i.point) ∨
      (getLatest g c lastIdx = .ok none ∧ ∀ q, Final g c q → g.round q < lastIdx) ∨
      (getLatest g c lastIdx = .panic ∧ ∃ b ∈ c, g.round b = 0 ∧ g.cnt < b.height) := by
  obtain ⟨l, el, ml, hl⟩ := h.good.latest
  unfold getLatest
  rw [if_neg (by omega)]
  simp only [el]
  have top : ∀ b ∈ c, b.height ≤ l.height := fun b hb => by rw [hl]; exact (mem_height h.good hb).2
  rcases search_spec h hi lastIdx l (l.height + 1) l (by omega) ml (fun b hb _ => top b hb) (fun q hq => h.round_mono hi hq.mem ml (top q hq.mem)) with
    ⟨i, e, hp, hh⟩ | hx | hx
  · exact Or.inl ⟨i, e, by rw [hp], hh⟩
  · exact Or.inr (Or.inl hx)
  · exact Or.inr (Or.inr hx)

/-- Without a bound something is found. -/
theorem getLatest_zero (hn : 3 ≤ g.nodes) : getLatest g c 0 ≠ .ok none := by
  unfold getLatest
  rw [if_neg (by omega)]
  split
  · simp
  rename_i l _
  have key : ∀ (fuel : Nat) (x : Snap), search g c 0 l fuel x ≠ .ok none := by
    intro fuel
    induction fuel with
    | zero => intro x hx; unfold search at hx; exact absurd hx (by simp)
    | succ n ih =>
      intro x hx
      unfold search at hx
      split at hx
      · exact absurd hx (by simp)
      simp only at hx
      rw [if_neg (by omega)] at hx
      split at hx
      · exact absurd hx (by simp)
      · exact absurd hx (by simp)
      · exact absurd hx (by simp)
      · split at hx
        · exact absurd hx (by simp)
        · split at hx
          · exact absurd hx (by simp)
          · exact ih _ hx
  exact key _ _

/-! ### What is kept -/

/-- What is kept was right for the chain that ended with its proof point. -/
def Kept (g : Cfg) (block : Hash → Snap) (i : Info) : Prop := ∃ d, Ok g block d ∧ d.getLast? = some i.proof ∧ Highest g d i.point

structure Inv (g : Cfg) (block : Hash → Snap) (s : St) : Prop where
  ok : Ok g block s.chain
  kept : ∀ i, s.info = some i → Kept g block i
  few : g.nodes < 3 → s.info = none

/-- If the proof point is still on the chain, it is there with all below it. -/
theorem Kept.on (h : Ok g block c) {i : Info} (hk : Kept g block i) {b : Snap} (hb : headerAt c i.proof.height = some b) (e : b.hash = i.proof.hash) :
    b = i.proof ∧ ∃ rest, c = c.take i.proof.height ++ rest ∧ (c.take i.proof.height).getLast? = some i.proof ∧ Ok g block (c.take i.proof.height) ∧
      Highest g (c.take i.proof.height) i.point := by
  obtain ⟨d, hd, hlast, hh⟩ := hk
  obtain ⟨l, el, ml, hl⟩ := hd.good.latest
  rw [el] at hlast; injection hlast with hlast
  rw [← hlast] at hb e ⊢
  obtain ⟨hbh, hbm, h1, h2⟩ := headerAt_some h.good hb
  have hbe : b = l := by rw [← h.known b hbm, e, hd.known l ml]
  have h0 : l.height = d.length := hl
  have ec : c[l.height - 1]? = some b := by
    unfold headerAt at hb
    rwa [if_neg (by omega)] at hb
  have ed : d[l.height - 1]? = some l := by
    rw [List.getLast?_eq_getElem?] at el
    rwa [h0]
  have hpre := same_prefix h hd _ _ _ ec ed e
  rw [show l.height - 1 + 1 = l.height by omega] at hpre
  have htd : d.take l.height = d := List.take_of_length_le (by omega)
  rw [htd] at hpre
  refine ⟨hbe, c.drop l.height, (List.take_append_drop _ _).symm, ?_, ?_, ?_⟩
  · rw [hpre, el]
  · rw [hpre]; exact hd
  · rw [hpre]
    exact hh

/-- What was the highest final block still is, if none of a round from that of the last block on is final. -/
theorem highest_lift {e : Chain} (h : Ok g block (c ++ e)) (hi : 0 < g.ti.interval) {l : Snap} (hl : c.getLast? = some l) {o : Option Snap} (hh : Highest g c o)
    (hno : ∀ q, Final g (c ++ e) q → g.round q < g.round l) : Highest g (c ++ e) o := by
  have hlm : l ∈ c := List.mem_of_getLast? hl
  have back : ∀ q, Final g (c ++ e) q → Final g c q := by
    intro q hq
    apply hq.shrink
    intro b hb eb
    have h1 := good_append_height h.good hlm hb
    have := h.round_mono hi (List.mem_append_left _ hlm) (List.mem_append_right _ hb) (by omega)
    have := hno q hq
    omega
  cases o with
  | none => exact fun q hq => hh q (back q hq)
  | some p => exact ⟨hh.1.grow h.good, fun q hq => hh.2 q (back q hq)⟩

/-- What an update leaves: either it panics, for a long first round, or the record is right for the chain as it is. -/
theorem update_spec (hi : 0 < g.ti.interval) (hn : 3 ≤ g.nodes) {s : St} (h : Inv g block s) :
    (∃ i, update g s = .ok ⟨s.chain, some i⟩ ∧ Highest g s.chain i.point ∧ headerAt s.chain i.proof.height = some i.proof ∧ Kept g block i) ∨
      (update g s = .panic ∧ ∃ b ∈ s.chain, g.round b = 0 ∧ g.cnt < b.height) := by
  have fresh : ∀ {i : Info}, s.chain.getLast? = some i.proof → Highest g s.chain i.point →
      headerAt s.chain i.proof.height = some i.proof ∧ Kept g block i := fun hl hh => ⟨headerAt_mem h.ok.good (List.mem_of_getLast? hl), s.chain, h.ok, hl, hh⟩
  have zero : ∀ (o : Option Snap), getLatestBlock g s.chain o = getLatest g s.chain 0 →
      (∃ i, getLatestBlock g s.chain o = .ok (some i) ∧ s.chain.getLast? = some i.proof ∧ Highest g s.chain i.point) ∨
        (getLatestBlock g s.chain o = .panic ∧ ∃ b ∈ s.chain, g.round b = 0 ∧ g.cnt < b.height) := by
    intro o e
    rw [e]
    rcases getLatest_spec h.ok hi hn 0 with hx | ⟨e, -⟩ | hx
    · exact Or.inl hx
    · exact absurd e (getLatest_zero hn)
    · exact Or.inr hx
  unfold update
  rw [if_neg (by omega)]
  cases hinfo : s.info with
  | none =>
    simp only
    rcases zero none rfl with ⟨i, e, hl, hh⟩ | ⟨e, hx⟩
    · rw [e]
      exact Or.inl ⟨i, rfl, hh, fresh hl hh⟩
    · rw [e]
      exact Or.inr ⟨rfl, hx⟩
  | some last =>
    simp only
    by_cases hon : ∃ b, headerAt s.chain last.proof.height = some b ∧ b.hash = last.proof.hash
    · obtain ⟨b, hb, eb⟩ := hon
      obtain ⟨rfl, rest, ec, hl, hok, hh⟩ := (h.kept last hinfo).on h.ok hb eb
      have e : getLatestBlock g s.chain (some last.proof) = getLatest g s.chain (g.round last.proof) := by
        unfold getLatestBlock
        simp [hb]
      rw [e]
      rcases getLatest_spec h.ok hi hn (g.round last.proof) with ⟨i, e, hl, hh⟩ | ⟨e, hno⟩ | ⟨e, hx⟩
      · rw [e]
        exact Or.inl ⟨i, rfl, hh, fresh hl hh⟩
      · rw [e]
        refine Or.inl ⟨last, by rw [← hinfo], ?_, hb, h.kept last hinfo⟩
        rw [ec]
        refine highest_lift (block := block) ?_ hi hl hh ?_
        · rw [← ec]; exact h.ok
        · rw [← ec]; exact hno
      · rw [e]
        exact Or.inr ⟨rfl, hx⟩
    · have e : getLatestBlock g s.chain (some last.proof) = getLatest g s.chain 0 := by
        unfold getLatestBlock
        simp only
        congr 1
        split
        · rfl
        · rename_i b hb
          rw [if_neg (fun e => hon ⟨b, hb, e⟩)]
      rcases zero _ e with ⟨i, e, hl, hh⟩ | ⟨e, hx⟩
      · rw [e]
        exact Or.inl ⟨i, rfl, hh, fresh hl hh⟩
      · rw [e]
        exact Or.inr ⟨rfl, hx⟩

/-! ### Reached states -/

theorem Inv.fork (hi : 0 < g.ti.interval) {s s' : St} (h : Inv g block s) {key : Nat} (hk : 2 ≤ key) {b : Bool} (e : fork g s key = .ok (s', b)) : Inv g block s' := by
  unfold Settle.fork at e
  split at e
  · injection e with e; injection e with e _; subst e; exact h
  by_cases hn : 3 ≤ g.nodes
  · rcases update_spec hi hn h with ⟨i, eu, hh, ho, hkp⟩ | ⟨eu, -⟩
    · have h' : Inv g block ⟨s.chain, some i⟩ := ⟨h.ok, fun j hj => by injection hj with hj; subst hj; exact hkp, fun hc => by omega⟩
      rw [eu] at e
      simp only at e
      split at e
      · exact absurd e (by simp)
      · injection e with e; injection e with e _; subst e; exact h'
      · injection e with e; injection e with e _; subst e
        exact ⟨h.ok.take (by omega), h'.kept, h'.few⟩
    · rw [eu] at e; exact absurd e (by simp)
  · have eu : update g s = .ok s := by unfold update; rw [if_pos (by omega)]
    rw [eu] at e
    simp only at e
    split at e
    · exact absurd e (by simp)
    · injection e with e; injection e with e _; subst e; exact h
    · injection e with e; injection e with e _; subst e
      exact ⟨h.ok.take (by omega), h.kept, h.few⟩

theorem Inv.step (hi : 0 < g.ti.interval) {s s' : St} (h : Inv g block s) {o : Op} (ho : Allowed g block s o) (e : step g s o = some s') : Inv g block s' := by
  cases o with
  | grow b =>
    simp only [Settle.step, Option.some.injEq] at e
    subst e
    exact ⟨ho, h.kept, h.few⟩
  | update =>
    simp only [Settle.step, report] at e
    by_cases hn : 3 ≤ g.nodes
    · rcases update_spec hi hn h with ⟨i, eu, hh, ho, hkp⟩ | ⟨eu, -⟩
      · rw [eu] at e
        simp only [Option.some.injEq] at e
        subst e
        exact ⟨h.ok, fun j hj => by injection hj with hj; subst hj; exact hkp, fun hc => by omega⟩
      · rw [eu] at e; exact absurd e (by simp)
    · have eu : Settle.update g s = .ok s := by unfold Settle.update; rw [if_pos (by omega)]
      rw [eu] at e
      simp only [Option.some.injEq] at e
      subst e; exact h
  | fork key =>
    simp only [Settle.step] at e
    split at e
    · rename_i ef
      injection e with e; subst e
      exact h.fork hi ho ef
    · exact absurd e (by simp)

theorem Reach.inv (hi : 0 < g.ti.interval) {s : St} (h : Reach g block s) : Inv g block s := by
  induction h with
  | start h => exact ⟨h, fun i hi => absurd hi (by simp), fun _ => rfl⟩
  | step _ ho e ih => exact ih.step hi ho e

/-! ### C71: the block reported -/

/-- **C71** The block that is reported as irreversible is the highest final block of the chain: the first block of the last round in which
`2 * (n / 3) + 1` different producers made blocks. None is reported only if there is none. -/
theorem reported_exact (hi : 0 < g.ti.interval) (hn : 3 ≤ g.nodes) {s s' : St} (h : Reach g block s) {o : Option Snap} (e : report g s = .ok (s', o)) :
    s'.chain = s.chain ∧ Highest g s.chain o := by
  unfold report at e
  rcases update_spec hi hn (h.inv hi) with ⟨i, eu, hh, -, -⟩ | ⟨eu, -⟩
  · rw [eu] at e
    simp only [Out.ok.injEq, Prod.mk.injEq] at e
    obtain ⟨rfl, rfl⟩ := e
    exact ⟨rfl, hh⟩
  · rw [eu] at e; exact absurd e (by simp)

/-- **C71** The highest final block is one block. -/
theorem highest_unique (h : Ok g block c) {o o' : Option Snap} (ho : Highest g c o) (ho' : Highest g c o') : o = o' := by
  cases o with
  | none =>
    cases o' with
    | none => rfl
    | some p => exact absurd ho'.1 (ho p)
  | some p =>
    cases o' with
    | none => exact absurd ho.1 (ho' p)
    | some q =>
      have h1 := ho.2 q ho'.1
      have h2 := ho'.2 p ho.1
      rw [h.same ho.1.mem ho'.1.mem (by omega)]

/-- **C71, in part** The query answers and no operation panics. Missing: a chain whose first round has more blocks than make a quorum, see
`long_first_round_panics`. -/
theorem never_panics_partial (hi : 0 < g.ti.interval) {s : St} (h : Reach g block s) (hc : Calm g s.chain) (o : Op) : ∃ s', step g s o = some s' := by
  have hinv := h.inv hi
  have hu : ∃ s', update g s = .ok s' ∧ s'.chain = s.chain ∧ ∀ i, s'.info = some i → headerAt s.chain i.proof.height = some i.proof := by
    by_cases hn : 3 ≤ g.nodes
    · rcases update_spec hi hn hinv with ⟨i, eu, -, ho, -⟩ | ⟨-, b, hb, h0, hlt⟩
      · exact ⟨_, eu, rfl, fun j hj => by injection hj with hj; subst hj; exact ho⟩
      · have := hc b hb h0
        rw [cnt_eq] at hlt
        omega
    · refine ⟨s, by unfold update; rw [if_pos (by omega)], rfl, ?_⟩
      intro i e
      rw [hinv.few (by omega)] at e
      exact absurd e (by simp)
  obtain ⟨s', eu, ec, hp⟩ := hu
  cases o with
  | grow b => exact ⟨_, rfl⟩
  | update => simp only [Settle.step, report, eu]; exact ⟨_, rfl⟩
  | fork key =>
    simp only [Settle.step, fork]
    split
    · rename_i e1
      split at e1
      · exact ⟨_, rfl⟩
      · exact ⟨_, rfl⟩
    · rename_i hx
      exfalso
      by_cases hk : key > s.chain.length
      · rw [if_pos hk] at hx; exact hx s true rfl
      · rw [if_neg hk, eu] at hx
        simp only at hx
        cases hck : checkPrinciple s' key with
        | ok u => rw [hck] at hx; exact hx _ _ rfl
        | err => rw [hck] at hx; exact hx _ _ rfl
        | panic =>
          unfold checkPrinciple at hck
          split at hck
          · exact absurd hck (by simp)
          · rename_i i ei
            rw [ec, hp i ei] at hck
            simp only [ne_eq, not_true_eq_false, if_false] at hck
            split at hck
            · exact absurd hck (by simp)
            · split at hck <;> exact absurd hck (by simp)

/-! ### C72: what a fork may delete -/

/-- **C72** The decision of a fork, exactly: it goes on if it deletes nothing, or if all final blocks are below the first block it deletes; then that
block and all above it are deleted, and nothing else. Otherwise the chain stays as it is. -/
theorem fork_exact (hi : 0 < g.ti.interval) (hn : 3 ≤ g.nodes) {s s' : St} (h : Reach g block s) {key : Nat} {b : Bool} (e : fork g s key = .ok (s', b)) :
    (b = true ↔ s.chain.length < key ∨ ∀ q, Final g s.chain q → q.height < key) ∧ s'.chain = if b then s.chain.take (key - 1) else s.chain := by
  unfold fork at e
  split at e
  · rename_i hgt
    simp only [Out.ok.injEq, Prod.mk.injEq] at e
    obtain ⟨rfl, rfl⟩ := e
    refine ⟨⟨fun _ => Or.inl hgt, fun _ => rfl⟩, ?_⟩
    rw [if_pos rfl, List.take_of_length_le (by omega)]
  rename_i hle
  rcases update_spec hi hn (h.inv hi) with ⟨i, eu, hh, hp, -⟩ | ⟨eu, -⟩
  · rw [eu] at e
    simp only [checkPrinciple, hp, ne_eq, not_true_eq_false, if_false] at e
    cases hpt : i.point with
    | none =>
      rw [hpt] at e hh
      simp only [Out.ok.injEq, Prod.mk.injEq] at e
      obtain ⟨rfl, rfl⟩ := e
      refine ⟨⟨fun _ => Or.inr fun q hq => absurd hq (hh q), fun _ => rfl⟩, rfl⟩
    | some p =>
      rw [hpt] at e hh
      simp only at e
      by_cases hlt : p.height < key
      · rw [if_pos hlt] at e
        simp only [Out.ok.injEq, Prod.mk.injEq] at e
        obtain ⟨rfl, rfl⟩ := e
        refine ⟨⟨fun _ => Or.inr fun q hq => by have := hh.2 q hq; omega, fun _ => rfl⟩, rfl⟩
      · rw [if_neg hlt] at e
        simp only [Out.ok.injEq, Prod.mk.injEq] at e
        obtain ⟨rfl, rfl⟩ := e
        refine ⟨⟨fun hb => absurd hb (by simp), ?_⟩, rfl⟩
        rintro (hx | hx)
        · omega
        · exact absurd (hx p hh.1) hlt
  · rw [eu] at e; exact absurd e (by simp)

/-- **C72** Nothing that happens removes a block that is final at that moment, nor any block below it. -/
theorem final_not_removed (hi : 0 < g.ti.interval) (hn : 3 ≤ g.nodes) {s s' : St} (h : Reach g block s) {o : Op} (e : step g s o = some s') {p : Snap}
    (hp : Final g s.chain p) : s'.chain.take p.height = s.chain.take p.height ∧ p ∈ s'.chain := by
  have hok := (h.inv hi).ok
  have hh := mem_height hok.good hp.mem
  have mem : s'.chain.take p.height = s.chain.take p.height → p ∈ s'.chain := by
    intro ht
    have hm := headerAt_mem hok.good hp.mem
    unfold headerAt at hm
    rw [if_neg (by omega)] at hm
    have : (s.chain.take p.height)[p.height - 1]? = some p := by rw [List.getElem?_take, if_pos (by omega)]; exact hm
    rw [← ht] at this
    exact List.mem_of_mem_take (List.mem_of_getElem? this)
  suffices ht : s'.chain.take p.height = s.chain.take p.height from ⟨ht, mem ht⟩
  cases o with
  | grow b =>
    simp only [step, Option.some.injEq] at e
    subst e
    exact List.take_append_of_le_length hh.2
  | update =>
    simp only [step] at e
    split at e
    · rename_i er
      injection e with e; subst e
      rw [(reported_exact hi hn h er).1]
    · exact absurd e (by simp)
  | fork key =>
    simp only [step] at e
    split at e
    · rename_i s2 b ef
      injection e with e; subst e
      obtain ⟨h1, h2⟩ := fork_exact hi hn h ef
      cases b with
      | false => rw [h2]; rfl
      | true =>
        rw [h2, if_pos rfl, List.take_take]
        congr 1
        rcases h1.1 rfl with hx | hx
        · omega
        · have := hx p hp; omega
    · exact absurd e (by simp)

/-- **C72** A block ceases to be final only when a fork deletes blocks of its own round above it. -/
theorem final_lost_only_by (hi : 0 < g.ti.interval) (hn : 3 ≤ g.nodes) {s s' : St} (h : Reach g block s) {o : Op} (ho : Allowed g block s o)
    (e : step g s o = some s') {p : Snap} (hp : Final g s.chain p) (hnot : ¬ Final g s'.chain p) :
    ∃ key x, o = .fork key ∧ p.height < key ∧ x ∈ s.chain ∧ key ≤ x.height ∧ g.round x = g.round p := by
  have hok := (h.inv hi).ok
  cases o with
  | grow b =>
    simp only [step, Option.some.injEq] at e
    subst e
    exact absurd (hp.grow ho.good) hnot
  | update =>
    simp only [step] at e
    split at e
    · rename_i er
      injection e with e; subst e
      rw [(reported_exact hi hn h er).1] at hnot
      exact absurd hp hnot
    · exact absurd e (by simp)
  | fork key =>
    simp only [step] at e
    split at e
    · rename_i s2 b ef
      injection e with e; subst e
      obtain ⟨h1, h2⟩ := fork_exact hi hn h ef
      cases b with
      | false => rw [h2] at hnot; exact absurd hp hnot
      | true =>
        rw [h2, if_pos rfl] at hnot
        by_contra hc
        apply hnot
        have ec : s.chain = s.chain.take (key - 1) ++ s.chain.drop (key - 1) := (List.take_append_drop _ _).symm
        rcases h1.1 rfl with hx | hx
        · rw [List.take_of_length_le (by omega)]; exact hp
        · have hpk := hx p hp
          rw [ec] at hp
          apply hp.shrink
          intro y hy ey
          apply hc
          have hym : y ∈ s.chain := List.mem_of_mem_drop hy
          refine ⟨key, y, rfl, hpk, hym, ?_, ey⟩
          obtain ⟨j, hj⟩ := List.mem_iff_getElem?.1 hy
          rw [List.getElem?_drop] at hj
          have := hok.good.height _ _ hj
          omega
    · exact absurd e (by simp)

/-- **C72** While there is no fork the block that is reported does not go back. -/
theorem reported_monotone (hi : 0 < g.ti.interval) (hn : 3 ≤ g.nodes) {s t s' t' : St} (h : Reach g block s) (h' : Reach g block t) {rest : Chain}
    (hc : t.chain = s.chain ++ rest) {p : Snap} {o : Option Snap} (e : report g s = .ok (s', some p)) (e' : report g t = .ok (t', o)) :
    ∃ q, o = some q ∧ p.height ≤ q.height := by
  have h1 := (reported_exact hi hn h e).2
  have h2 := (reported_exact hi hn h' e').2
  have ht := (h'.inv hi).ok.good
  rw [hc] at ht h2
  have hp := h1.1.grow ht
  cases o with
  | none => exact absurd hp (h2 p)
  | some q => exact ⟨q, rfl, h2.2 p hp⟩

/-! ### The quorum -/

/-- **C72** Two rounds that are final have more than a third of the producers in common, if the number of nodes leaves no remainder of 2. -/
theorem quorums_meet {n : Nat} (h : n % 3 ≠ 2) {A B P : Finset Addr} (hP : P.card = n) (hA : A ⊆ P) (hB : B ⊆ P) (ha : 2 * (n / 3) + 1 ≤ A.card)
    (hb : 2 * (n / 3) + 1 ≤ B.card) : n < 3 * (A ∩ B).card := by
  have h1 := Finset.card_union_add_card_inter A B
  have h2 := Finset.card_le_card (Finset.union_subset hA hB)
  omega

/-- With 5 nodes they may have only one in common, less than a third. -/
theorem quorums_of_five : ∃ A B P : Finset Addr, P.card = 5 ∧ A ⊆ P ∧ B ⊆ P ∧ 2 * (5 / 3) + 1 ≤ A.card ∧ 2 * (5 / 3) + 1 ≤ B.card ∧ 3 * (A ∩ B).card < 5 :=
  ⟨{1, 2, 3}, {3, 4, 5}, {1, 2, 3, 4, 5}, by decide +kernel, by decide +kernel, by decide +kernel, by decide +kernel, by decide +kernel, by decide +kernel⟩

end Verif.Settle
