import Verif.Stats.StatLemmas

/-!
# C36: the statistics are those of the chain, whatever is kept
-/

namespace Verif.Stats
open Verif.Consensus Verif.Snap

variable {g : Env} {first : Snap} {c : Chain}

/-! ### Queries of the chain -/

theorem start_whole (g : Env) (k : Nat) : start g k % 1000000000 = 0 := by unfold start; exact Int.mul_emod_left _ _

theorem before_of (h : Valid g first c) {t : Int} (ht : t % 1000000000 = 0) {b : Snap} (hb : LastBefore c t b) : before c t = some b := by
  unfold before
  cases hr : headerBefore c t (c.length + 3) with
  | none => exact absurd hr (before_ends h.good h.inv.whole ht (Nat.le_refl _))
  | some r =>
    rcases before_exact h.good hr with ⟨b', rfl, hl⟩ | ⟨rfl, hx⟩
    · simp only [lastBefore_unique h.good hl hb]
    · have := hx b hb.1
      have := hb.2.1
      omega

theorem from_answers (h : Valid g first c) {t : Int} (ht : t % 1000000000 = 0) (e : Nat) : ∃ l, headersFrom c e t none (c.length + 3) = some (some l) := by
  unfold headersFrom
  cases hr : headerBefore c t (c.length + 3) with
  | none => exact absurd hr (before_ends h.good h.inv.whole ht (Nat.le_refl _))
  | some r =>
    rw [h.first]
    rcases before_exact h.good hr with ⟨b', rfl, hl⟩ | ⟨rfl, hx⟩ <;> simp only <;> split <;> exact ⟨_, rfl⟩

/-- A list in falling order with given members. -/
theorem sorted_eq : ∀ {l l' : List Snap}, l.Pairwise (fun a b => b.height < a.height) → l'.Pairwise (fun a b => b.height < a.height) → (∀ x, x ∈ l ↔ x ∈ l') → l = l' := by
  intro l
  induction l with
  | nil =>
    intro l' _ _ h
    cases l' with
    | nil => rfl
    | cons x l' => exact absurd ((h x).2 (by simp)) (by simp)
  | cons a l ih =>
    intro l' h1 h2 h
    cases l' with
    | nil => exact absurd ((h a).1 (by simp)) (by simp)
    | cons b l' =>
      rw [List.pairwise_cons] at h1 h2
      have hab : a = b := by
        rcases List.mem_cons.1 ((h a).1 (by simp)) with e | e
        · exact e
        · rcases List.mem_cons.1 ((h b).2 (by simp)) with e' | e'
          · exact e'.symm
          · have := h1.1 b e'; have := h2.1 a e; omega
      subst hab
      congr 1
      apply ih h1.2 h2.2
      intro x
      constructor
      · intro hx
        rcases List.mem_cons.1 ((h x).1 (by simp [hx])) with e | e
        · subst e; have := h1.1 x hx; omega
        · exact e
      · intro hx
        rcases List.mem_cons.1 ((h x).2 (by simp [hx])) with e | e
        · subst e; have := h2.1 x hx; omega
        · exact e

/-! ### Counting -/

/-- A map with given counts. -/
def Rep (m : Addr → Option Content) (e f : Addr → Nat) : Prop := ∀ a, m a = if e a = 0 ∧ f a = 0 then none else some ⟨e a, f a⟩

theorem rep_addNum {m : Addr → Option Content} {e f : Addr → Nat} (h : Rep m e f) (x : Addr) {de df : Nat} (hd : 0 < de + df) :
    Rep (addNum m x de df) (fun a => if a = x then e a + de else e a) (fun a => if a = x then f a + df else f a) := by
  intro a
  unfold addNum
  simp only
  by_cases hx : a = x
  · subst hx
    rw [if_pos rfl, if_pos rfl, if_pos rfl, h a]
    by_cases e0 : e a = 0 ∧ f a = 0
    · rw [if_pos e0, if_neg (by omega)]
      simp only [Option.some.injEq, Content.mk.injEq]
      omega
    · rw [if_neg e0, if_neg (by omega)]
  · rw [if_neg hx, if_neg hx, if_neg hx]
    exact h a

theorem rep_blocks : ∀ (l : List Snap) {m : Addr → Option Content} {e f : Addr → Nat}, Rep m e f →
    Rep (l.foldl (fun m b => addNum m b.producer 0 1) m) e (fun a => f a + (l.filter (fun b => decide (b.producer = a))).length) := by
  intro l
  induction l with
  | nil => intro m e f h; simpa using h
  | cons b l ih =>
    intro m e f h
    rw [List.foldl_cons]
    have := ih (rep_addNum h b.producer (de := 0) (df := 1) (by omega))
    intro a
    rw [this a]
    have e1 : (if a = b.producer then e a + 0 else e a) = e a := by split <;> rfl
    have e2 : (if a = b.producer then f a + 1 else f a) + (l.filter (fun b => decide (b.producer = a))).length =
        f a + ((b :: l).filter (fun b => decide (b.producer = a))).length := by
      by_cases hx : a = b.producer
      · rw [if_pos hx, List.filter_cons_of_pos (by simpa using hx.symm), List.length_cons]; omega
      · rw [if_neg hx, List.filter_cons_of_neg (by simpa using fun h => hx h.symm)]
    simp only [e1, e2]

theorem rep_plan : ∀ (l : List Slot) {m : Addr → Option Content} {e f : Addr → Nat}, Rep m e f →
    Rep (l.foldl (fun m s => addNum m s.member 1 0) m) (fun a => e a + (l.filter (fun s => decide (s.member = a))).length) f := by
  intro l
  induction l with
  | nil => intro m e f h; simpa using h
  | cons b l ih =>
    intro m e f h
    rw [List.foldl_cons]
    have := ih (rep_addNum h b.member (de := 1) (df := 0) (by omega))
    intro a
    rw [this a]
    have e1 : (if a = b.member then f a + 0 else f a) = f a := by split <;> rfl
    have e2 : (if a = b.member then e a + 1 else e a) + (l.filter (fun s => decide (s.member = a))).length =
        e a + ((b :: l).filter (fun s => decide (s.member = a))).length := by
      by_cases hx : a = b.member
      · rw [if_pos hx, List.filter_cons_of_pos (by simpa using hx.symm), List.length_cons]; omega
      · rw [if_neg hx, List.filter_cons_of_neg (by simpa using fun h => hx h.symm)]
    simp only [e1, e2]

/-! ### What is kept -/

/-- The array of a level of the database. -/
def Lvl.arr : Lvl → Arr
  | .hour => .hour
  | .day => .day

/-- All that is kept was true on some chain of the network. -/
structure Kept (g : Env) (first : Snap) (st : St) : Prop where
  periods : ∀ i p, st.periods i = some p → ∃ d, Valid g first d ∧ p = truth g (view d) i (i + 1)
  db : ∀ l i p, st.db l i = some p → ∃ d, Valid g first d ∧ p = truthOf g (view d) l.arr i
  elections : ∀ h l, st.elections h = some l → l = g.votes h

theorem kept_init : Kept g first St.init := ⟨fun _ _ h => absurd h (by simp [St.init]), fun _ _ _ h => absurd h (by simp [St.init]), fun _ _ h => absurd h (by simp [St.init])⟩

/-- With the same last block before a round the statistics before it are the same. -/
theorem truth_of_hash (he : EnvOk g first) {d : Chain} (hc : Valid g first c) (hd : Valid g first d) {k : Nat} (hk : 1 ≤ k)
    (h : hashAt g (view c) k = hashAt g (view d) k) {i j : Nat} (hij : i ≤ j) (hj : j ≤ k) : truth g (view c) i j = truth g (view d) i j := by
  obtain ⟨a, ha⟩ := hc.last he.cfg hk
  obtain ⟨b, hb⟩ := hd.last he.cfg hk
  rw [hashAt_of hc.good ha, hashAt_of hd.good hb] at h
  exact truth_same he.cfg hc hd hij hj hk (views_agree he hc hd ha hb h)

/-- An election that gives the true producers for low proof blocks. -/
def ElOk (g : Env) (first : Snap) (c : Chain) (n : Nat) (el : Elect) : Prop :=
  ∀ st pb, Kept g first st → pb ∈ c → pb.height < n → ∃ st', el st pb = (st', some (g.votes pb.hash)) ∧ Kept g first st'

/-- The proof block of a round in which a block is made is below that block. -/
theorem proof_below (hok : CfgOk g.toCfg) (h : Valid g first c) {i : Nat} {b : Snap} (hb : b ∈ c) (h1 : b.height ≠ 1) (hs : start g i ≤ b.time) :
    ∃ pb, LastBefore c (proofTime g.plan i * 1000000000) pb ∧ pb.height < b.height := by
  obtain ⟨fm, fh, ft⟩ := h.firstMem
  have hb1 := (mem_height h.good hb).1
  by_cases e : i < 2
  · have hp : proofTime g.plan i * 1000000000 = start g 0 + 1000000000 := by
      unfold proofTime; rw [if_pos e, start_zero]; omega
    refine ⟨first, ⟨fm, by omega, ?_⟩, by omega⟩
    intro x hx hxt
    rw [hp] at hxt
    by_contra hc
    have h2 := (time_lt_iff h.good fm hx).2 (by omega)
    have h3 := h.inv.whole x hx
    have h4 := start_whole g 0
    omega
  · have hp : proofTime g.plan i * 1000000000 = start g (i - 1) := by
      unfold proofTime
      rw [if_neg e]
      have : (g.plan.index.index2Time (i - 2)).2 * 1000000000 = start g (i - 2 + 1) := congrArg Prod.snd (periodTime_eq g (i - 2))
      rw [this]
      congr 1
      omega
    obtain ⟨pb, hpb⟩ := h.last hok (k := i - 1) (by omega)
    refine ⟨pb, by rw [hp]; exact hpb, ?_⟩
    apply (time_lt_iff h.good hpb.1 hb).1
    have := hpb.2.1
    have := start_mono (g := g) (show i - 1 ≤ i by omega)
    omega

theorem proof_whole (p : Plan) (i : Nat) : proofTime p i * 1000000000 % 1000000000 = 0 := Int.mul_emod_left _ _

theorem find_hash (hH : Function.Injective g.H) (h : Valid g first c) {b : Snap} (hb : b ∈ c) : c.find? (fun x => decide (x.hash = b.hash)) = some b := by
  cases hf : c.find? (fun x => decide (x.hash = b.hash)) with
  | none =>
    rw [List.find?_eq_none] at hf
    exact absurd (decide_eq_true rfl) (hf b hb)
  | some x =>
    have h1 := List.find?_some hf
    have h1 := of_decide_eq_true h1
    have h2 := List.mem_of_find?_eq_some hf
    rw [same_height h.good h2 hb (hash_height hH h.inv.toInv h2 hb h1)]

theorem periodChain_spec (he : EnvOk g first) (h : Valid g first c) {n : Nat} {el : Elect} (hel : ElOk g first c n el) {st : St} (hk : Kept g first st) {i : Nat} {b : Snap}
    (hb : LastBefore c (start g (i + 1)) b) (hn : b.height ≤ n) :
    ∃ st', periodChain g el c st i b.hash = (st', some (truth g (view c) i (i + 1))) ∧ Kept g first st' := by
  have hlt := start_lt he.cfg (show i < i + 1 by omega)
  have hhash := hashAt_of (g := g) h.good hb
  have hb1 := mem_height h.good hb.1
  unfold periodChain
  rw [find_hash he.inj h hb.1]
  simp only [periodTime_eq]
  by_cases e : b.time < start g i
  · rw [if_pos e]
    refine ⟨st, ?_, hk⟩
    rw [truth_nil he.cfg he.inj h (by omega), hhash]
    rw [blocksIn_nil]
    intro x hx h1 h2
    by_contra hc
    have := hb.2.2 x hx (by omega)
    by_cases e2 : x.height = b.height
    · rw [same_height h.good hx hb.1 e2] at h2; omega
    · have := (time_lt_iff h.good hx hb.1).2 (by omega); omega
  · rw [if_neg e]
    obtain ⟨l, hl⟩ := from_answers h (start_whole g i) b.height
    rw [hl]
    simp only
    obtain ⟨hmem, hsort⟩ := from_exact h.good hl
    by_cases e1 : b.height = 1
    · have hnil : l = [] := by
        rw [List.eq_nil_iff_forall_not_mem]
        intro x hx
        obtain ⟨hx, -, h2, h3⟩ := (hmem x).1 hx
        have := (mem_height h.good hx).1
        omega
      rw [if_pos (by rw [hnil]; rfl)]
      refine ⟨st, ?_, hk⟩
      rw [truth_nil he.cfg he.inj h (by omega), hhash]
      rw [blocksIn_nil]
      intro x hx h1 h2
      by_contra hc
      have := hb.2.2 x hx (by omega)
      have := (mem_height h.good hx).1
      omega
    · have hbl : b ∈ l := (hmem b).2 ⟨hb.1, by omega, Nat.le_refl _, e1⟩
      rw [if_neg (by have := List.length_pos_of_mem hbl; omega)]
      obtain ⟨pb, hpb, hpbh⟩ := proof_below he.cfg h hb.1 e1 (by omega : start g i ≤ b.time)
      rw [before_of h (proof_whole _ _) hpb]
      simp only
      obtain ⟨st', hst, hk'⟩ := hel st pb hk hpb.1 (by omega)
      rw [hst]
      simp only
      refine ⟨st', ?_, hk'⟩
      congr 1
      -- the point
      unfold genPoint
      have hhead : l.head? = some b := by
        cases l with
        | nil => exact absurd hbl (by simp)
        | cons x l =>
          rw [List.pairwise_cons] at hsort
          rcases List.mem_cons.1 hbl with rfl | hb'
          · rfl
          · have h1 := hsort.1 b hb'
            obtain ⟨-, -, h2, -⟩ := (hmem x).1 (by simp)
            omega
      cases hlast : l.getLast? with
      | none => rw [List.getLast?_eq_none_iff] at hlast; subst hlast; exact absurd hbl (by simp)
      | some x =>
        rw [hhead]
        simp only
        rw [if_neg (by simp)]
        obtain ⟨hx, hxt, hxh, hx1⟩ := (hmem x).1 (List.mem_of_getLast? hlast)
        have hx2 := (mem_height h.good hx)
        -- the block below the lowest
        have hprev : x.prev = hashAt g (view c) i := by
          obtain ⟨y, hy⟩ := headerAt_isSome (c := c) (h := x.height - 1) (by omega) (by omega)
          obtain ⟨hyh, hym, -, -⟩ := headerAt_some h.good hy
          have hlink : x.prev = y.hash := by
            have e1 := headerAt_mem h.good hx
            unfold headerAt at e1 hy
            rw [if_neg (by omega)] at e1 hy
            refine h.inv.linked (x.height - 2) y x ?_ ?_
            · rw [← hy]; congr 1
            · rw [← e1]; congr 1; omega
          have hlow : ∀ z ∈ l, x.height ≤ z.height := by
            intro z hz
            have hrev : l.reverse.Pairwise (fun a b => a.height < b.height) := by rw [List.pairwise_reverse]; exact hsort
            have hh : l.reverse.head? = some x := by rw [List.head?_reverse]; exact hlast
            cases hr : l.reverse with
            | nil => rw [hr] at hh; exact absurd hh (by simp)
            | cons w r =>
              rw [hr] at hh hrev
              simp at hh
              subst hh
              rw [List.pairwise_cons] at hrev
              have hz' : z ∈ l.reverse := List.mem_reverse.2 hz
              rw [hr] at hz'
              rcases List.mem_cons.1 hz' with rfl | hz'
              · exact Nat.le_refl _
              · have := hrev.1 z hz'; omega
          obtain ⟨fm, fh, ft⟩ := h.firstMem
          by_cases hyt : y.time < start g i
          · have : LastBefore c (start g i) y := by
              refine ⟨hym, hyt, ?_⟩
              intro z hz hzt
              by_contra hc
              by_cases e3 : z.height = x.height
              · rw [same_height h.good hz hx e3] at hzt; omega
              · have := (time_lt_iff h.good hx hz).2 (by omega); omega
            rw [hashAt_of h.good this, hlink]
          · have hy1 : y.height = 1 := by
              by_contra hc
              have := hlow y ((hmem y).2 ⟨hym, by omega, by omega, hc⟩)
              omega
            have hyf := same_height h.good hym fm (by omega)
            subst hyf
            have hi0 : i = 0 := by
              by_contra hc
              have := start_lt (i := 0) (j := i) he.cfg (by omega)
              omega
            subst hi0
            rw [hashAt_zero h, hlink]
        -- the counts
        have hleq : l = (c.filter (fun z => decide (z.height ≠ 1 ∧ start g i ≤ z.time ∧ z.time < start g (i + 1)))).reverse := by
          apply sorted_eq hsort
          · rw [List.pairwise_reverse]
            have hpc : c.Pairwise (fun a b => a.height < b.height) := by
              refine List.Pairwise.imp_of_mem ?_ h.good.times
              intro a b ha hb hab
              exact (time_lt_iff h.good ha hb).1 hab
            exact hpc.sublist List.filter_sublist
          · intro z
            rw [hmem z, List.mem_reverse, List.mem_filter, decide_eq_true_iff]
            constructor
            · rintro ⟨hz, h2, h3, h4⟩
              refine ⟨hz, h4, h2, ?_⟩
              by_cases e3 : z.height = b.height
              · rw [same_height h.good hz hb.1 e3]; exact hb.2.1
              · have := (time_lt_iff h.good hz hb.1).2 (by omega)
                have := hb.2.1
                omega
            · rintro ⟨hz, h4, h2, h3⟩
              exact ⟨hz, h2, hb.2.2 z hz h3, h4⟩
        have hblocks : blocksIn g (view c) i (i + 1) = (c.filter (fun z => decide (z.height ≠ 1 ∧ start g i ≤ z.time ∧ z.time < start g (i + 1)))).map Snap.blk := by
          unfold blocksIn view
          rw [List.filter_map]
          rfl
        have hfac : ∀ a, (l.filter (fun z => decide (z.producer = a))).length = factual g (view c) i (i + 1) a := by
          intro a
          unfold factual
          rw [hblocks, hleq, List.filter_reverse, List.length_reverse, List.filter_map, List.length_map]
          rfl
        have hexp : ∀ a, ((genPlan g.plan i (g.votes pb.hash)).filter (fun s => decide (s.member = a))).length = expected g (view c) i (i + 1) a := by
          intro a
          unfold expected
          rw [show i + 1 - i = 1 by omega]
          simp only [List.range'_one, List.map_cons, List.map_nil, List.sum_cons, List.sum_nil, Nat.add_zero]
          rw [if_neg]
          · unfold slots
            rw [lastBefore_view h.good hpb]
            rfl
          · rw [List.isEmpty_iff, hblocks, List.map_eq_nil_iff, ← List.reverse_eq_nil_iff, ← hleq]
            intro hn
            rw [hn] at hbl
            exact absurd hbl (by simp)
        have hrep : Rep ((genPlan g.plan i (g.votes pb.hash)).foldl (fun m s => addNum m s.member 1 0) (l.foldl (fun m b => addNum m b.producer 0 1) (fun _ => none)))
            (fun a => expected g (view c) i (i + 1) a) (fun a => factual g (view c) i (i + 1) a) := by
          have h0 : Rep (fun _ => none) (fun _ => 0) (fun _ => 0) := fun a => by rw [if_pos ⟨rfl, rfl⟩]
          have h2 := rep_plan (genPlan g.plan i (g.votes pb.hash)) (rep_blocks l h0)
          intro a
          rw [h2 a]
          simp only [Nat.zero_add, hfac, hexp]
        unfold truth
        rw [hprev, hhash]
        congr 2
        funext a
        exact hrep a

theorem kept_periods {st : St} (hk : Kept g first st) {i : Nat} {d : Chain} (hd : Valid g first d) :
    Kept g first { st with periods := fun j => if j = i then some (truth g (view d) i (i + 1)) else st.periods j } := by
  refine ⟨?_, hk.db, hk.elections⟩
  intro j p hp
  simp only at hp
  split at hp
  · rename_i e
    subst e
    injection hp with hp
    exact ⟨d, hd, hp.symm⟩
  · exact hk.periods j p hp

theorem proofEmpty_of (h : Valid g first c) {s t : Int} (ht : t % 1000000000 = 0) {b : Snap} (hb : LastBefore c t b) : proofEmpty c s t = some (decide (b.time < s)) := by
  unfold proofEmpty
  rw [before_of h ht hb]
  simp only
  rw [if_neg (by have := hb.2.1; omega)]

/-- If the last block before the end of rounds is before their start, they have no block. -/
theorem nil_of_last (h : Valid g first c) {i j : Nat} {b : Snap} (hb : LastBefore c (start g j) b) (e : b.time < start g i) : blocksIn g (view c) i j = [] := by
  rw [blocksIn_nil]
  intro x hx h1 h2
  by_contra hc
  have := hb.2.2 x hx (by omega)
  by_cases e2 : x.height = b.height
  · rw [same_height h.good hx hb.1 e2] at h2; omega
  · have := (time_lt_iff h.good hx hb.1).2 (by omega); omega

theorem periodGet_spec (he : EnvOk g first) (h : Valid g first c) {n : Nat} {el : Elect} (hel : ElOk g first c n el) {st : St} (hk : Kept g first st) {i : Nat} {b : Snap}
    (hb : LastBefore c (start g (i + 1)) b) (hn : b.height ≤ n) :
    ∃ st', periodGet g el c st i b.hash = (st', some (truth g (view c) i (i + 1))) ∧ Kept g first st' := by
  have hhash := hashAt_of (g := g) h.good hb
  obtain ⟨st1, hst1, hk1⟩ := periodChain_spec he h hel hk hb hn
  unfold periodGet
  simp only
  rw [hst1, h.first]
  simp only [Option.map_some]
  by_cases e0 : some first.hash = some b.hash
  · rw [if_pos e0]
    injection e0 with e0
    refine ⟨st, ?_, hk⟩
    obtain ⟨fm, fh, ft⟩ := h.firstMem
    have hh := hash_height he.inj h.inv.toInv hb.1 fm e0.symm
    rw [truth_nil he.cfg he.inj h (by omega), hhash]
    rw [blocksIn_nil]
    intro x hx h1 h2
    by_contra hc
    have := hb.2.2 x hx (by omega)
    have := (mem_height h.good hx).1
    omega
  · rw [if_neg e0]
    cases hp : st.periods i with
    | none =>
      simp only
      rw [periodTime_eq, proofEmpty_of h (start_whole g _) hb]
      by_cases e : b.time < start g i
      · rw [decide_eq_true e]
        simp only
        refine ⟨st, ?_, hk⟩
        rw [truth_nil he.cfg he.inj h (by omega) (nil_of_last h hb e), hhash]
      · rw [decide_eq_false e]
        exact ⟨_, rfl, kept_periods hk1 h⟩
    | some p =>
      simp only
      by_cases e : b.hash = p.hash
      · rw [if_pos e]
        refine ⟨st, ?_, hk⟩
        obtain ⟨d, hd, rfl⟩ := hk.periods i p hp
        rw [← hhash] at e
        rw [truth_of_hash he h hd (by omega : 1 ≤ i + 1) e (by omega) (Nat.le_refl _)]
      · rw [if_neg e]
        exact ⟨_, rfl, kept_periods hk1 h⟩

/-! ### Success rates and elections -/

theorem hashAt_last (he : EnvOk g first) (h : Valid g first c) {k : Nat} (hk : 1 ≤ k) : ∃ b, LastBefore c (start g k) b ∧ hashAt g (view c) k = b.hash := by
  obtain ⟨b, hb⟩ := h.last he.cfg hk
  exact ⟨b, hb, hashAt_of h.good hb⟩

theorem proofHash_of (he : EnvOk g first) (h : Valid g first c) {k : Nat} (hk : 1 ≤ k) : proofHash c (start g k) = some (hashAt g (view c) k) := by
  obtain ⟨b, hb, hh⟩ := hashAt_last he h hk
  unfold proofHash
  rw [before_of h (start_whole g k) hb, hh]
  rfl

theorem rateLoop_spec (he : EnvOk g first) (h : Valid g first c) {n : Nat} {el : Elect} (hel : ElOk g first c n el) (E : Nat) : ∀ (m : Nat) {st : St}, Kept g first st →
    ∀ (i : Nat) (prev : Option Hash), (prev = none ∨ prev = some (hashAt g (view c) (i + 1))) → i + 1 ≤ E → (∀ b, LastBefore c (start g (i + 1)) b → b.height ≤ n) →
    ∃ st', rateLoop g el c m st i prev (counts g (view c) (i + 1) E) = (st', some (counts g (view c) (i + 1 - m) E)) ∧ Kept g first st' := by
  intro m
  induction m with
  | zero => intro st hk i prev _ _ _; exact ⟨st, rfl, hk⟩
  | succ m ih =>
    intro st hk i prev hprev hE hlow
    obtain ⟨b, hb, hh⟩ := hashAt_last he h (k := i + 1) (by omega)
    obtain ⟨st1, hst1, hk1⟩ := periodGet_spec he h hel hk hb (hlow b hb)
    have hnone : periodAt g el c st i = (st1, some (truth g (view c) i (i + 1))) := by
      unfold periodAt
      rw [periodTime_eq, proofHash_of he h (by omega : 1 ≤ i + 1)]
      simp only
      rw [hh]
      exact hst1
    have hsome : periodGet g el c st i (hashAt g (view c) (i + 1)) = (st1, some (truth g (view c) i (i + 1))) := by rw [hh]; exact hst1
    have hrest : ∃ st', (if i = 0 then (st1, some (mergeMap (counts g (view c) (i + 1) E) (truth g (view c) i (i + 1)).sbps))
        else rateLoop g el c m st1 (i - 1) (some (truth g (view c) i (i + 1)).prev) (mergeMap (counts g (view c) (i + 1) E) (truth g (view c) i (i + 1)).sbps)) =
        (st', some (counts g (view c) (i + 1 - (m + 1)) E)) ∧ Kept g first st' := by
      have hm : mergeMap (counts g (view c) (i + 1) E) (truth g (view c) i (i + 1)).sbps = counts g (view c) i E := merge_counts (by omega) hE
      rw [hm]
      by_cases e : i = 0
      · subst e
        rw [if_pos rfl]
        exact ⟨st1, by rw [show 0 + 1 - (m + 1) = 0 by omega], hk1⟩
      · rw [if_neg e]
        obtain ⟨st2, h2, hk2⟩ := ih hk1 (i - 1) (some (hashAt g (view c) i)) (Or.inr (by rw [show i - 1 + 1 = i by omega])) (by omega) (by
          intro x hx
          rw [show i - 1 + 1 = i by omega] at hx
          have h1 := hlow b hb
          have : LastBefore c (start g (i + 1)) b := hb
          have := hb.2.2 x hx.1 (by have := hx.2.1; have := start_mono (g := g) (show i ≤ i + 1 by omega); omega)
          omega)
        rw [show i - 1 + 1 = i by omega] at h2
        refine ⟨st2, ?_, hk2⟩
        rw [show i + 1 - (m + 1) = i - m by omega]
        exact h2
    unfold rateLoop
    rcases hprev with rfl | rfl
    · simp only
      rw [hnone]
      exact hrest
    · simp only
      rw [hsome]
      exact hrest

theorem counts_self (v : List Blk) (k : Nat) : counts g v k k = fun _ => none := by
  apply counts_nil
  unfold blocksIn
  rw [List.filter_eq_nil_iff]
  intro x _ hd
  have := of_decide_eq_true hd
  omega

theorem successRate_spec (he : EnvOk g first) (h : Valid g first c) {n : Nat} {el : Elect} (hel : ElOk g first c n el) {st : St} (hk : Kept g first st) (i : Nat)
    (hlow : ∀ b, LastBefore c (start g (i + 1)) b → b.height ≤ n) :
    ∃ st', successRate g el c st i = (st', some (trueRates g (view c) i)) ∧ Kept g first st' := by
  obtain ⟨st1, h1, hk1⟩ := rateLoop_spec he h hel (i + 1) 48 hk i none (Or.inl rfl) (Nat.le_refl _) hlow
  rw [counts_self] at h1
  unfold successRate
  rw [h1]
  exact ⟨st1, rfl, hk1⟩

/-- A block stands in its round. -/
theorem round_start (he : EnvOk g first) (h : Valid g first c) {b : Snap} (hb : b ∈ c) :
    start g (g.plan.index.time2Index (unix b.time)) ≤ b.time := by
  have hw := h.inv.whole b hb
  obtain ⟨fm, fh, ft⟩ := h.firstMem
  rw [start_zero] at ft
  have hft : first.time ≤ b.time := by
    by_cases e : b.height = 1
    · rw [same_height h.good hb fm (by omega)]
    · have := (time_lt_iff h.good fm hb).2 (by have := (mem_height h.good hb).1; omega); omega
  have hr : g.plan.index.InRange (unix b.time) := ⟨by unfold unix; change g.plan.genesis ≤ _; omega, h.inv.intime b hb⟩
  have := (index_exact g.plan.index he.cfg.pos hr _).1 rfl
  have h1 : (periodTime g (g.plan.index.time2Index (unix b.time))).1 = start g (g.plan.index.time2Index (unix b.time)) := congrArg Prod.fst (periodTime_eq g _)
  rw [← h1]
  unfold periodTime
  simp only
  unfold unix at this ⊢
  omega

theorem calVotes_spec (he : EnvOk g first) (h : Valid g first c) : ∀ n, ElOk g first c n (calVotes g c n) := by
  intro n
  induction n with
  | zero => intro st pb _ _ hn; omega
  | succ n ih =>
    intro st pb hk hpb hn
    unfold calVotes
    simp only
    cases hel : st.elections pb.hash with
    | some l =>
      simp only
      exact ⟨st, by rw [hk.elections _ _ hel], hk⟩
    | none =>
      simp only
      have hcons := he.consistent c h pb hpb
      have hrr : (if g.plan.index.time2Index (unix pb.time) < 2 then 0 else g.plan.index.time2Index (unix pb.time) - 2) = rateRound g pb := by
        unfold rateRound; split <;> omega
      rw [hrr]
      have hput : ∀ {st : St} {l : List Addr}, Kept g first st → l = g.votes pb.hash →
          Kept g first { st with elections := fun h => if h = pb.hash then some l else st.elections h } := by
        intro st l hk hl
        refine ⟨hk.periods, hk.db, ?_⟩
        intro x l' hx
        simp only at hx
        split at hx
        · rename_i e
          injection hx with hx
          rw [← hx, e]
          exact hl
        · exact hk.elections x l' hx
      by_cases e : rateRound g pb = 0
      · rw [if_neg (by omega)]
        rw [if_pos e] at hcons
        simp only
        exact ⟨_, by rw [← hcons], hput hk hcons.symm⟩
      · rw [if_pos (by omega)]
        rw [if_neg e] at hcons
        obtain ⟨st1, h1, hk1⟩ := successRate_spec he h ih hk (rateRound g pb) (by
          intro x hx
          have hs := round_start he h hpb
          have hle : rateRound g pb + 1 ≤ g.plan.index.time2Index (unix pb.time) := by unfold rateRound at e ⊢; omega
          have := start_mono (g := g) hle
          have := (time_lt_iff h.good hx.1 hpb).1 (by have := hx.2.1; omega)
          omega)
        rw [h1]
        simp only
        exact ⟨_, by rw [← hcons], hput hk1 hcons.symm⟩

theorem elect_ok (he : EnvOk g first) (h : Valid g first c) : ElOk g first c (c.length + 1) (elect g c) := calVotes_spec he h _

/-! ### Hours and days -/

/-- An array whose elements have `w` rounds and are exact. -/
def GetOk (g : Env) (first : Snap) (c : Chain) (w : Nat) (low : Get) (val : Nat → Point) : Prop :=
  ∀ st m, Kept g first st → ∃ st', low st m (hashAt g (view c) ((m + 1) * w)) = (st', some (val m)) ∧ Kept g first st'

theorem period_ok (he : EnvOk g first) (h : Valid g first c) : GetOk g first c 1 (periodGet g (elect g c) c) (fun m => truth g (view c) (m * 1) ((m + 1) * 1)) := by
  intro st m hk
  simp only [Nat.mul_one]
  obtain ⟨b, hb, hh⟩ := hashAt_last he h (k := m + 1) (by omega)
  rw [hh]
  exact periodGet_spec he h (elect_ok he h) hk hb (by have := (mem_height h.good hb.1).2; omega)

theorem kernelLoop_spec (he : EnvOk g first) (h : Valid g first c) {w : Nat} (hw : 0 < w) {low : Get} (hlow : GetOk g first c w low (fun m => truth g (view c) (m * w) ((m + 1) * w)))
    (s E : Nat) : ∀ (n : Nat) {st : St}, Kept g first st → (s + n) * w ≤ E →
    ∃ st', kernelLoop low s n st (hashAt g (view c) ((s + n) * w)) (truth g (view c) ((s + n) * w) E) = (st', some (truth g (view c) (s * w) E)) ∧ Kept g first st' := by
  intro n
  induction n with
  | zero => intro st hk _; exact ⟨st, rfl, hk⟩
  | succ n ih =>
    intro st hk hE
    have hlt : (s + n) * w < (s + n + 1) * w := Nat.mul_lt_mul_of_pos_right (by omega) hw
    have hsucc : s + (n + 1) = s + n + 1 := by omega
    rw [hsucc] at hE ⊢
    obtain ⟨st1, h1, hk1⟩ := hlow st (s + n) hk
    obtain ⟨st2, h2, hk2⟩ := ih hk1 (by omega)
    unfold kernelLoop
    rw [h1]
    simp only
    by_cases e : (truth g (view c) ((s + n) * w) ((s + n + 1) * w)).isEmpty = true
    · rw [if_pos e]
      rw [truth_isEmpty he.cfg he.inj h hlt] at e
      have hh := (hashAt_eq_iff he.cfg he.inj h hlt).2 e
      have ht : truth g (view c) ((s + n + 1) * w) E = truth g (view c) ((s + n) * w) E := by
        unfold truth
        rw [hh]
        congr 1
        rw [← merge_counts (g := g) (v := view c) (Nat.le_of_lt hlt) hE, counts_nil e, merge_comm, merge_none]
      rw [hh, ht]
      exact ⟨st2, h2, hk2⟩
    · rw [if_neg e]
      have hla : (truth g (view c) ((s + n + 1) * w) E).leftAppend (truth g (view c) ((s + n) * w) ((s + n + 1) * w)) = some (truth g (view c) ((s + n) * w) E) := by
        unfold Point.leftAppend
        rw [if_neg (by simp [truth])]
        unfold truth
        simp only
        rw [merge_counts (Nat.le_of_lt hlt) hE]
      rw [hla]
      exact ⟨st2, h2, hk2⟩

theorem truth_self (he : EnvOk g first) (v : List Blk) (E : Nat) : truth g v E E = Point.empty (hashAt g v E) := by
  unfold truth Point.empty
  rw [counts_self]

theorem rate_pos (he : EnvOk g first) : 0 < rate g .hour := by
  have := he.divides
  rcases Nat.eq_zero_or_pos (rate g .hour) with e | e
  · rw [e] at this; omega
  · exact e

theorem width_pos (he : EnvOk g first) (a : Arr) : 0 < width g a := by
  have := rate_pos he
  cases a <;> simp only [width] <;> omega

theorem timeOf_eq (he : EnvOk g first) (a : Arr) (i : Nat) : timeOf g a i = (start g (i * width g a), start g ((i + 1) * width g a)) := by
  have hd := he.divides
  cases a with
  | period => simp only [timeOf, width, Nat.mul_one]; exact periodTime_eq g i
  | hour =>
    have h1 : ∀ k : Nat, start g (k * rate g .hour) = (g.plan.genesis + 3600 * k) * 1000000000 := by
      intro k
      unfold start
      have : (g.plan.round : Int) * ((k * rate g .hour : Nat) : Int) = 3600 * k := by
        rw [Nat.mul_comm k]; push_cast; rw [← Int.mul_assoc]
        have : (g.plan.round : Int) * (rate g .hour : Int) = 3600 := by exact_mod_cast hd
        rw [this]
      rw [this]
    simp only [timeOf, width, lvlTime, TimeIndex.index2Time]
    rw [h1, h1]
    push_cast
    rfl
  | day =>
    have h1 : ∀ k : Nat, start g (k * (24 * rate g .hour)) = (g.plan.genesis + 86400 * k) * 1000000000 := by
      intro k
      unfold start
      have : (g.plan.round : Int) * ((k * (24 * rate g .hour) : Nat) : Int) = 86400 * k := by
        have : (g.plan.round : Int) * (rate g .hour : Int) = 3600 := by exact_mod_cast hd
        have e2 : (g.plan.round : Int) * ((k * (24 * rate g .hour) : Nat) : Int) = 24 * k * ((g.plan.round : Int) * (rate g .hour : Int)) := by push_cast; ring
        rw [e2, this]
        ring
      rw [this]
    simp only [timeOf, width, lvlTime, TimeIndex.index2Time]
    rw [h1, h1]
    push_cast
    rfl

theorem kernel_spec (he : EnvOk g first) (h : Valid g first c) (l : Lvl) {low : Get} {w : Nat} (hw : 0 < w) (hwidth : width g l.arr = rate g l * w)
    (hlow : GetOk g first c w low (fun m => truth g (view c) (m * w) ((m + 1) * w))) {st : St} (hk : Kept g first st) (i : Nat) :
    ∃ st', kernel g l low st i (hashAt g (view c) ((i + 1) * width g l.arr)) = (st', some (truthOf g (view c) l.arr i)) ∧ Kept g first st' := by
  have e1 : (i * rate g l + rate g l) * w = (i + 1) * width g l.arr := by rw [hwidth]; ring
  have e2 : i * rate g l * w = i * width g l.arr := by rw [hwidth]; ring
  obtain ⟨st', h1, hk'⟩ := kernelLoop_spec he h hw hlow (i * rate g l) ((i + 1) * width g l.arr) (rate g l) hk (by rw [e1])
  rw [e1, e2, truth_self he] at h1
  unfold kernel
  rw [h1]
  refine ⟨st', ?_, hk'⟩
  cases l with
  | hour => rfl
  | day => rfl

theorem kept_put {st : St} (hk : Kept g first st) (l : Lvl) (i : Nat) {p : Option Point} (hp : ∀ q, p = some q → ∃ d, Valid g first d ∧ q = truthOf g (view d) l.arr i) :
    Kept g first (st.put l i p) := by
  refine ⟨hk.periods, ?_, hk.elections⟩
  intro l' j q hq
  unfold St.put at hq
  simp only at hq
  split at hq
  · rename_i e
    obtain ⟨rfl, rfl⟩ := e
    exact hp q hq
  · exact hk.db l' j q hq

theorem truthOf_hash (v : List Blk) (a : Arr) (i : Nat) : (truthOf g v a i).hash = hashAt g v ((i + 1) * width g a) := by
  cases a <;> simp only [truthOf]
  · rfl
  · rfl
  · split <;> rfl

theorem truthOf_nil (he : EnvOk g first) (h : Valid g first c) (a : Arr) (i : Nat) (hn : blocksIn g (view c) (i * width g a) ((i + 1) * width g a) = []) :
    truthOf g (view c) a i = Point.empty (hashAt g (view c) ((i + 1) * width g a)) := by
  have hlt : i * width g a < (i + 1) * width g a := Nat.mul_lt_mul_of_pos_right (by omega) (width_pos he a)
  have := truth_nil he.cfg he.inj h hlt hn
  cases a <;> simp only [truthOf]
  · exact this
  · exact this
  · rw [if_pos ((truth_isEmpty he.cfg he.inj h hlt).2 hn)]
    exact this

theorem truthOf_same (he : EnvOk g first) {d : Chain} (hc : Valid g first c) (hd : Valid g first d) (a : Arr) (i : Nat)
    (h : hashAt g (view c) ((i + 1) * width g a) = hashAt g (view d) ((i + 1) * width g a)) : truthOf g (view c) a i = truthOf g (view d) a i := by
  have hlt : i * width g a < (i + 1) * width g a := Nat.mul_lt_mul_of_pos_right (by omega) (width_pos he a)
  have := truth_of_hash he hc hd (by omega) h (Nat.le_of_lt hlt) (Nat.le_refl _)
  unfold truthOf
  rw [this]

theorem linkedGet_spec (he : EnvOk g first) (h : Valid g first c) (l : Lvl) {low : Get} {w : Nat} (hw : 0 < w) (hwidth : width g l.arr = rate g l * w)
    (hlow : GetOk g first c w low (fun m => truth g (view c) (m * w) ((m + 1) * w))) : GetOk g first c (width g l.arr) (linkedGet g l low c) (fun i => truthOf g (view c) l.arr i) := by
  intro st i hk
  obtain ⟨st1, h1, hk1⟩ := kernel_spec he h l hw hwidth hlow hk i
  have hpos : 1 ≤ (i + 1) * width g l.arr := Nat.mul_pos (by omega) (width_pos he l.arr)
  obtain ⟨b, hb, hh⟩ := hashAt_last he h hpos
  have htime : lvlTime g l i = (start g (i * width g l.arr), start g ((i + 1) * width g l.arr)) := by
    rw [← timeOf_eq he]
    cases l <;> rfl
  unfold linkedGet
  simp only
  rw [h1]
  simp only
  cases hdb : st.db l i with
  | none =>
    simp only
    rw [htime, proofEmpty_of h (start_whole g _) hb]
    by_cases e : b.time < start g (i * width g l.arr)
    · rw [decide_eq_true e]
      simp only
      refine ⟨st, ?_, hk⟩
      rw [truthOf_nil he h l.arr i (nil_of_last h hb e)]
    · rw [decide_eq_false e]
      simp only [Bool.false_and]
      exact ⟨_, rfl, kept_put hk1 l i (fun q hq => ⟨c, h, by injection hq with hq; exact hq.symm⟩)⟩
  | some p =>
    simp only
    by_cases e : hashAt g (view c) ((i + 1) * width g l.arr) = p.hash
    · rw [if_pos e]
      refine ⟨st, ?_, hk⟩
      obtain ⟨d, hd, rfl⟩ := hk.db l i p hdb
      rw [truthOf_hash] at e
      rw [truthOf_same he h hd l.arr i e]
    · rw [if_neg e]
      by_cases e2 : (true && (truthOf g (view c) l.arr i).isEmpty) = true
      · rw [if_pos e2]
        exact ⟨_, rfl, kept_put hk1 l i (fun q hq => absurd hq (by simp))⟩
      · rw [if_neg e2]
        exact ⟨_, rfl, kept_put hk1 l i (fun q hq => ⟨c, h, by injection hq with hq; exact hq.symm⟩)⟩

theorem get_ok (he : EnvOk g first) (h : Valid g first c) (a : Arr) : GetOk g first c (width g a) (get g c a) (fun i => truthOf g (view c) a i) := by
  have hp : GetOk g first c 1 (periodGet g (elect g c) c) (fun m => truth g (view c) (m * 1) ((m + 1) * 1)) := period_ok he h
  have hh : GetOk g first c (width g Lvl.hour.arr) (linkedGet g .hour (periodGet g (elect g c) c) c) (fun i => truthOf g (view c) Lvl.hour.arr i) :=
    linkedGet_spec he h .hour (by omega) (by simp [width, Lvl.arr]) hp
  cases a with
  | period => exact hp
  | hour => exact hh
  | day =>
    refine linkedGet_spec he h .day (w := rate g .hour) (rate_pos he) rfl ?_
    exact hh

theorem getAt_spec (he : EnvOk g first) (h : Valid g first c) {st : St} (hk : Kept g first st) (a : Arr) (i : Nat) :
    ∃ st', getAt g c a st i = (st', some (truthOf g (view c) a i)) ∧ Kept g first st' := by
  unfold getAt
  rw [timeOf_eq he, proofHash_of he h (Nat.mul_pos (by omega) (width_pos he a) : 1 ≤ (i + 1) * width g a)]
  exact get_ok he h a st i hk

/-! ### Lists -/

theorem empty_below_first (he : EnvOk g first) (h : Valid g first c) {k : Nat} (hk : 1 ≤ k) (e : hashAt g (view c) k = first.hash) {i j : Nat} (hj : j ≤ k) :
    blocksIn g (view c) i j = [] := by
  obtain ⟨b, hb, hh⟩ := hashAt_last he h hk
  obtain ⟨fm, fh, ft⟩ := h.firstMem
  rw [hh] at e
  have h1 := hash_height he.inj h.inv.toInv hb.1 fm e
  rw [blocksIn_nil]
  intro x hx h2 h3
  by_contra hc
  have := start_mono (g := g) hj
  have := hb.2.2 x hx (by omega)
  have := (mem_height h.good hx).1
  omega

theorem truthOf_isEmpty (he : EnvOk g first) (h : Valid g first c) (a : Arr) (i : Nat) :
    (truthOf g (view c) a i).isEmpty = true ↔ blocksIn g (view c) (i * width g a) ((i + 1) * width g a) = [] := by
  have hlt : i * width g a < (i + 1) * width g a := Nat.mul_lt_mul_of_pos_right (by omega) (width_pos he a)
  have := truth_isEmpty he.cfg he.inj h hlt
  cases a <;> simp only [truthOf]
  · exact this
  · exact this
  · split
    · exact this
    · exact this

theorem truthOf_prev (v : List Blk) (a : Arr) (i : Nat) : (truthOf g v a i).prev = hashAt g v (i * width g a) := by
  cases a <;> simp only [truthOf]
  · rfl
  · rfl
  · split <;> rfl

theorem trueStats_succ (v : List Blk) (a : Arr) (s n : Nat) : trueStats g v a s (n + 1) = trueStats g v a s n ++
    (if (blocksIn g v ((s + n) * width g a) ((s + n + 1) * width g a)).isEmpty then [] else [(s + n, truthOf g v a (s + n))]) := by
  unfold trueStats
  rw [show List.range' s (n + 1) = List.range' s n ++ [s + n] from by rw [List.range'_concat]; simp, List.filter_append, List.map_append]
  congr 1
  by_cases e : (blocksIn g v ((s + n) * width g a) ((s + n + 1) * width g a)).isEmpty = true
  · rw [if_pos e, List.filter_cons_of_neg (by simp [e])]; rfl
  · rw [if_neg e, List.filter_cons_of_pos (by simp [e])]; rfl

theorem statsLoop_spec (he : EnvOk g first) (h : Valid g first c) (a : Arr) (s : Nat) : ∀ (n : Nat) {st : St}, Kept g first st → ∀ (prev : Option Hash) (acc : List (Nat × Point)),
    (prev = none ∨ prev = some (hashAt g (view c) ((s + n) * width g a))) →
    ∃ st', statsLoop g c a s n st prev acc = (st', some (trueStats g (view c) a s n ++ acc)) ∧ Kept g first st' := by
  intro n
  induction n with
  | zero => intro st hk prev acc _; exact ⟨st, rfl, hk⟩
  | succ n ih =>
    intro st hk prev acc hprev
    have hlt : (s + n) * width g a < (s + n + 1) * width g a := Nat.mul_lt_mul_of_pos_right (by omega) (width_pos he a)
    rw [show s + (n + 1) = s + n + 1 by omega] at hprev
    unfold statsLoop
    rw [h.first]
    by_cases e0 : prev.isSome = true ∧ prev = Option.map (·.hash) (some first)
    · rw [if_pos e0]
      refine ⟨st, ?_, hk⟩
      have hh : hashAt g (view c) ((s + n + 1) * width g a) = first.hash := by
        rcases hprev with rfl | rfl
        · exact absurd e0.1 (by simp)
        · have := e0.2
          simp only [Option.map_some, Option.some.injEq] at this
          exact this
      have hnil : ∀ m, m ≤ n + 1 → trueStats g (view c) a s m = [] := by
        intro m hm
        induction m with
        | zero => rfl
        | succ m ihm =>
          rw [trueStats_succ, ihm (by omega)]
          rw [empty_below_first he h (by omega) hh (Nat.mul_le_mul_right _ (by omega))]
          rfl
      rw [hnil (n + 1) (Nat.le_refl _)]
      rfl
    · rw [if_neg e0]
      have hrest : ∀ st1, Kept g first st1 → ∃ st', (if (truthOf g (view c) a (s + n)).isEmpty = true then statsLoop g c a s n st1 prev acc
          else statsLoop g c a s n st1 (some (truthOf g (view c) a (s + n)).prev) ((s + n, truthOf g (view c) a (s + n)) :: acc)) =
          (st', some (trueStats g (view c) a s (n + 1) ++ acc)) ∧ Kept g first st' := by
        intro st1 hk1
        rw [trueStats_succ]
        by_cases e : (truthOf g (view c) a (s + n)).isEmpty = true
        · rw [if_pos e]
          rw [truthOf_isEmpty he h] at e
          rw [if_pos (by rw [e]; rfl), List.append_nil]
          apply ih hk1
          rw [← (hashAt_eq_iff he.cfg he.inj h hlt).2 e]
          exact hprev
        · rw [if_neg e]
          rw [truthOf_isEmpty he h] at e
          rw [if_neg (by rw [List.isEmpty_iff]; exact e), List.append_assoc]
          apply ih hk1
          right
          rw [truthOf_prev]
      rcases hprev with rfl | rfl
      · obtain ⟨st1, h1, hk1⟩ := getAt_spec he h hk a (s + n)
        simp only
        rw [h1]
        exact hrest st1 hk1
      · obtain ⟨st1, h1, hk1⟩ := get_ok he h a st (s + n) hk
        simp only
        rw [h1]
        exact hrest st1 hk1

/-! ### Histories -/

/-- The chains that are ever there are chains of the network. -/
def Op.Fits (g : Env) (first : Snap) : Op → Prop
  | .chain c => Valid g first c
  | _ => True

theorem step_kept (he : EnvOk g first) {s : Sys} (hv : Valid g first s.chain) (hk : Kept g first s.st) (op : Op) (ho : op.Fits g first) :
    Valid g first (step g s op).chain ∧ Kept g first (step g s op).st := by
  cases op with
  | chain c => exact ⟨ho, hk⟩
  | «at» a i =>
    obtain ⟨st', h1, h2⟩ := getAt_spec he hv hk a i
    refine ⟨hv, ?_⟩
    simp only [step, h1]
    exact h2
  | stats a i j =>
    obtain ⟨st', h1, h2⟩ := statsLoop_spec he hv a i (j + 1 - i) hk none [] (Or.inl rfl)
    refine ⟨hv, ?_⟩
    simp only [step, baseStats, h1]
    exact h2
  | election i =>
    simp only [step]
    split
    · exact ⟨hv, hk⟩
    · rename_i pb hpb
      refine ⟨hv, ?_⟩
      have hm : pb ∈ s.chain := by
        unfold before at hpb
        cases hr : headerBefore s.chain (proofTime g.plan i * 1000000000) (s.chain.length + 3) with
        | none => exact absurd hr (before_ends hv.good hv.inv.whole (proof_whole _ _) (Nat.le_refl _))
        | some r =>
          rw [hr] at hpb
          rcases before_exact hv.good hr with ⟨b', rfl, hl⟩ | ⟨rfl, -⟩
          · simp only [Option.some.injEq] at hpb
            subst hpb
            exact hl.1
          · exact absurd hpb (by simp)
      obtain ⟨st', h1, h2⟩ := elect_ok he hv s.st pb hk hm (by have := (mem_height hv.good hm).2; omega)
      rw [h1]
      exact h2
  | evict ps es =>
    refine ⟨hv, ?_, hk.db, ?_⟩
    · intro i p hp
      simp only [step] at hp
      split at hp
      · exact absurd hp (by simp)
      · exact hk.periods i p hp
    · intro x l hx
      simp only [step] at hx
      split at hx
      · exact absurd hx (by simp)
      · exact hk.elections x l hx

theorem run_kept (he : EnvOk g first) : ∀ (ops : List Op) {s : Sys}, Valid g first s.chain → Kept g first s.st → (∀ op ∈ ops, op.Fits g first) →
    Valid g first (run g s ops).chain ∧ Kept g first (run g s ops).st := by
  intro ops
  induction ops with
  | nil => intro s hv hk _; exact ⟨hv, hk⟩
  | cons op ops ih =>
    intro s hv hk ho
    obtain ⟨h1, h2⟩ := step_kept he hv hk op (ho op (by simp))
    exact ih h1 h2 (fun o h => ho o (by simp [h]))

/-- **C36.** After any history of growth, forks and rollbacks, of queries and of dropped entries, the statistics of any round, hour or day are those of the blocks on the
chain: the blocks each producer made, and its slots in the rounds in which any block was made. -/
theorem statistics_exact (he : EnvOk g first) {c0 : Chain} (h0 : Valid g first c0) (ops : List Op) (ho : ∀ op ∈ ops, op.Fits g first) (a : Arr) (i : Nat) :
    (getAt g (run g ⟨c0, St.init⟩ ops).chain a (run g ⟨c0, St.init⟩ ops).st i).2 = some (truthOf g (view (run g ⟨c0, St.init⟩ ops).chain) a i) := by
  obtain ⟨hv, hk⟩ := run_kept he ops (s := ⟨c0, St.init⟩) h0 kept_init ho
  obtain ⟨st', h1, -⟩ := getAt_spec he hv hk a i
  rw [h1]

/-- **C36.** And the list of statistics between two indices has exactly those in which a block was made, in order. -/
theorem list_exact (he : EnvOk g first) {c0 : Chain} (h0 : Valid g first c0) (ops : List Op) (ho : ∀ op ∈ ops, op.Fits g first) (a : Arr) (s e : Nat) :
    (baseStats g (run g ⟨c0, St.init⟩ ops).chain a (run g ⟨c0, St.init⟩ ops).st s e).2 = some (trueStats g (view (run g ⟨c0, St.init⟩ ops).chain) a s (e + 1 - s)) := by
  obtain ⟨hv, hk⟩ := run_kept he ops (s := ⟨c0, St.init⟩) h0 kept_init ho
  obtain ⟨st', h1, -⟩ := statsLoop_spec he hv a s (e + 1 - s) hk none [] (Or.inl rfl)
  unfold baseStats
  rw [h1, List.append_nil]

/-- **C36.** The election of a round, which itself asks for success rates of rounds before, gives the producers that the votes and the true success rates give. -/
theorem election_exact (he : EnvOk g first) {c0 : Chain} (h0 : Valid g first c0) (ops : List Op) (ho : ∀ op ∈ ops, op.Fits g first) {pb : Snap}
    (hpb : pb ∈ (run g ⟨c0, St.init⟩ ops).chain) :
    (elect g (run g ⟨c0, St.init⟩ ops).chain (run g ⟨c0, St.init⟩ ops).st pb).2 =
      some (g.choose pb.hash (if rateRound g pb = 0 then fun _ => none else trueRates g (view (run g ⟨c0, St.init⟩ ops).chain) (rateRound g pb))) := by
  obtain ⟨hv, hk⟩ := run_kept he ops (s := ⟨c0, St.init⟩) h0 kept_init ho
  obtain ⟨st', h1, -⟩ := elect_ok he hv (run g ⟨c0, St.init⟩ ops).st pb hk hpb (by have := (mem_height hv.good hpb).2; omega)
  rw [h1, he.consistent _ hv pb hpb]

/-- **C36.** The statistics of an hour or a day are the sums of those of its rounds. -/
theorem sum_of_rounds (g : Env) (v : List Blk) (i n : Nat) (a : Addr) :
    factual g v i (i + n) a = ((List.range' i n).map (fun k => factual g v k (k + 1) a)).sum ∧
      expected g v i (i + n) a = ((List.range' i n).map (fun k => expected g v k (k + 1) a)).sum := by
  induction n with
  | zero =>
    constructor
    · unfold factual blocksIn
      rw [List.range'_zero, List.map_nil, List.sum_nil, List.length_eq_zero_iff, List.filter_eq_nil_iff]
      intro x hx
      have := of_decide_eq_true (List.mem_filter.1 hx).2
      rw [Nat.add_zero] at this
      omega
    · unfold expected
      rw [show i + 0 - i = 0 by omega]
      rfl
  | succ n ih =>
    rw [show List.range' i (n + 1) = List.range' i n ++ [i + n] from by rw [List.range'_concat]; simp, List.map_append, List.sum_append, List.map_append, List.sum_append,
      ← ih.1, ← ih.2, show i + (n + 1) = (i + n) + 1 by omega, factual_split (show i ≤ i + n by omega) (Nat.le_succ _), expected_split (show i ≤ i + n by omega) (Nat.le_succ _)]
    exact ⟨by simp, by simp⟩

end Verif.Stats
