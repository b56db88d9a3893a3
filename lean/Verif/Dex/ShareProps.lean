import Verif.Dex.ShareSpec
import Verif.Dex.BigFloatErr

/-! C28, C47: the share records add up, and a pot is divided completely and in proportion. -/

namespace Verif.Dex

def Asc (h : Hist) : Prop := h.Pairwise (fun x y => x.period < y.period)
def Upto (n : Nat) (h : Hist) : Prop := ∀ e ∈ h, 1 ≤ e.period ∧ e.period ≤ n

theorem recorded_nil (p : Nat) : recorded [] p = 0 := rfl

theorem recorded_snoc_lt {h : Hist} {q x p : Nat} (hp : p < q) : recorded (h ++ [⟨q, x⟩]) p = recorded h p := by
  simp [recorded, List.filter_append, Nat.not_le.mpr hp]

theorem recorded_snoc_ge {h : Hist} {q x p : Nat} (hp : q ≤ p) : recorded (h ++ [⟨q, x⟩]) p = x := by
  simp [recorded, List.filter_append, hp]

theorem recorded_stable {h : Hist} {n p : Nat} (hu : Upto n h) (hp : n ≤ p) : recorded h p = recorded h n := by
  have : ∀ q, n ≤ q → h.filter (fun e => decide (e.period ≤ q)) = h := by
    intro q hq
    apply List.filter_eq_self.mpr
    intro e he
    have := (hu e he).2
    simp; omega
  unfold recorded
  rw [this p hp, this n (le_refl n)]

theorem snoc_cases (h : Hist) : h = [] ∨ ∃ d e, h = d ++ [e] := by
  rcases List.eq_nil_or_concat h with h | ⟨d, e, h⟩
  · exact .inl h
  · exact .inr ⟨d, e, by simpa using h⟩

theorem sorted_snoc {d : Hist} {e : Entry} : Asc (d ++ [e]) ↔ Asc d ∧ ∀ x ∈ d, x.period < e.period := by
  unfold Asc
  rw [List.pairwise_append]
  simp

theorem upto_snoc {n : Nat} {d : Hist} {e : Entry} : Upto n (d ++ [e]) ↔ Upto n d ∧ 1 ≤ e.period ∧ e.period ≤ n := by
  unfold Upto
  constructor
  · intro h; exact ⟨fun x hx => h x (by simp [hx]), h e (by simp)⟩
  · intro h x hx
    rcases List.mem_append.mp hx with hx | hx
    · exact h.1 x hx
    · simp at hx; subst hx; exact h.2

/-- A well formed record up to the present period. -/
structure Good (n : Nat) (h : Hist) : Prop where
  sorted : Asc h
  upto : Upto n h

theorem Good.nil (n : Nat) : Good n [] := ⟨List.Pairwise.nil, by simp [Upto]⟩

theorem Good.mono {n m : Nat} {h : Hist} (g : Good n h) (hm : n ≤ m) : Good m h :=
  ⟨g.sorted, fun e he => ⟨(g.upto e he).1, (g.upto e he).2.trans hm⟩⟩

/-- What a change of the amount does to the holder's record. -/
structure UserStep (thr n : Nat) (h h' : Hist) (new : Nat) : Prop where
  good : Good n h'
  past : ∀ p, p < n → recorded h' p = recorded h p
  now : ∀ p, n ≤ p → worth thr (recorded h' p) = worth thr new

theorem settleUser_spec {thr n : Nat} (ht : 0 < thr) (hn1 : 1 ≤ n) {h : Hist} (g : Good n h) {old new : Nat}
    (hold : worth thr (recorded h n) = worth thr old) :
    UserStep thr n h (settleUser thr n h ((new : Int) - old) new).1 new ∧
    (settleUser thr n h ((new : Int) - old) new).2 = (worth thr new : Int) - worth thr old := by
  rcases snoc_cases h with rfl | ⟨d, e, rfl⟩
  · have h0 : worth thr old = 0 := by rw [← hold, recorded_nil]; simp [worth]
    unfold settleUser
    simp only [List.getLast?_nil]
    by_cases hn : thr ≤ new
    · rw [if_pos hn]
      refine ⟨⟨⟨by simp [Asc], by simp [Upto, hn1]⟩, ?_, ?_⟩, by rw [h0]; simp [worth, hn]⟩
      · intro p hp; exact recorded_snoc_lt (h := []) hp
      · intro p hp
        have := recorded_snoc_ge (h := []) (x := new) hp
        simp only [List.nil_append] at this
        rw [this]
    · rw [if_neg hn]
      refine ⟨⟨g, fun _ _ => rfl, ?_⟩, by rw [h0]; simp [worth, hn]⟩
      intro p _; rw [recorded_nil]; simp [worth, hn]
  · obtain ⟨gs, gl⟩ := sorted_snoc.mp g.sorted
    obtain ⟨ud, ue1, ue⟩ := upto_snoc.mp g.upto
    have hrec : ∀ p, n ≤ p → recorded (d ++ [e]) p = e.amount := fun p hp => recorded_snoc_ge (le_trans ue hp)
    rw [hrec n (le_refl n)] at hold
    have happ : ∀ x, e.period < n → UserStep thr n (d ++ [e]) ((d ++ [e]) ++ [⟨n, x⟩]) x := by
      intro x hlt
      refine ⟨⟨sorted_snoc.mpr ⟨g.sorted, ?_⟩, upto_snoc.mpr ⟨g.upto, hn1, le_refl n⟩⟩, ?_, ?_⟩
      · intro y hy
        rcases List.mem_append.mp hy with hy | hy
        · exact lt_trans (gl y hy) hlt
        · simp at hy; subst hy; exact hlt
      · intro p hp; exact recorded_snoc_lt hp
      · intro p hp; rw [recorded_snoc_ge hp]
    have hrep : ∀ x, e.period = n → UserStep thr n (d ++ [e]) (d ++ [⟨n, x⟩]) x := by
      intro x heq
      refine ⟨⟨sorted_snoc.mpr ⟨gs, fun y hy => heq ▸ gl y hy⟩, upto_snoc.mpr ⟨ud, hn1, le_refl n⟩⟩, ?_, ?_⟩
      · intro p hp
        rw [recorded_snoc_lt hp, recorded_snoc_lt (by omega)]
      · intro p hp; rw [recorded_snoc_ge hp]
    unfold settleUser
    simp only [List.getLast?_append, List.getLast?_singleton, Option.some_or, List.dropLast_concat]
    by_cases hper : e.period = n
    · rw [if_pos hper]
      by_cases hn : thr ≤ new
      · rw [if_pos hn]
        refine ⟨hrep new hper, ?_⟩
        by_cases hv : thr ≤ e.amount
        · have ho : thr ≤ old := by
            by_contra hc
            simp [worth, hv, hc] at hold; omega
          simp [worth, hn, ho, hv]
        · have : worth thr old = 0 := by rw [← hold]; simp [worth, hv]
          rw [this]; simp [worth, hn, hv]
      · rw [if_neg hn]
        constructor
        · split
          · exact hrep new hper
          · rename_i hlen
            have hd : d = [] := by
              rcases d with _ | ⟨y, ys⟩
              · rfl
              · simp at hlen
            subst hd
            refine ⟨Good.nil n, ?_, ?_⟩
            · intro p hp
              rw [recorded_nil, recorded_snoc_lt (by omega), recorded_nil]
            · intro p _; rw [recorded_nil]; simp [worth, hn]
        · rw [← hold]
          by_cases hv : thr ≤ e.amount <;> simp [worth, hn, hv]
    · rw [if_neg hper]
      have hlt : e.period < n := by omega
      by_cases hn : thr ≤ new
      · rw [if_pos hn]
        refine ⟨happ new hlt, ?_⟩
        by_cases hv : thr ≤ e.amount
        · have ho : thr ≤ old := by
            by_contra hc
            simp [worth, hv, hc] at hold; omega
          simp [worth, hn, ho, hv]
        · have : worth thr old = 0 := by rw [← hold]; simp [worth, hv]
          rw [this]; simp [worth, hn, hv]
      · rw [if_neg hn]
        by_cases hv : thr ≤ e.amount
        · rw [if_pos hv]
          refine ⟨happ new hlt, ?_⟩
          rw [← hold]; simp [worth, hn, hv]
        · rw [if_neg hv]
          refine ⟨⟨g, fun _ _ => rfl, ?_⟩, ?_⟩
          · intro p hp
            rw [hrec p hp]; simp [worth, hn, hv]
          · rw [← hold]; simp [worth, hn, hv]

theorem settleSum_spec {n : Nat} (hn1 : 1 ≤ n) {s : Hist} (g : Good n s) {c : Int} (hc : 0 ≤ (recorded s n : Int) + c) :
    ∃ s', settleSum n s c = some s' ∧ Good n s' ∧ (∀ p, p < n → recorded s' p = recorded s p) ∧
      ∀ p, n ≤ p → (recorded s' p : Int) = recorded s n + c := by
  unfold settleSum
  by_cases h0 : c = 0
  · rw [if_pos h0]
    exact ⟨s, rfl, g, fun _ _ => rfl, fun p hp => by rw [recorded_stable g.upto hp]; omega⟩
  · rw [if_neg h0]
    rcases snoc_cases s with rfl | ⟨d, e, rfl⟩
    · rw [recorded_nil] at hc
      have hpos : 0 < c := by push_cast at hc; omega
      simp only [List.getLast?_nil]
      rw [if_pos hpos]
      refine ⟨_, rfl, ⟨by simp [Asc], by simp [Upto, hn1]⟩, ?_, ?_⟩
      · intro p hp; exact recorded_snoc_lt (h := []) hp
      · intro p hp
        have := recorded_snoc_ge (h := []) (x := c.natAbs) hp
        simp only [List.nil_append] at this
        rw [this, recorded_nil]; omega
    · obtain ⟨gs, gl⟩ := sorted_snoc.mp g.sorted
      obtain ⟨ud, ue1, ue⟩ := upto_snoc.mp g.upto
      have hrec : recorded (d ++ [e]) n = e.amount := recorded_snoc_ge ue
      rw [hrec] at hc ⊢
      simp only [List.getLast?_append, List.getLast?_singleton, Option.some_or, List.dropLast_concat]
      rw [if_neg (by omega)]
      by_cases hper : e.period = n
      · rw [if_pos hper]
        refine ⟨_, rfl, ⟨sorted_snoc.mpr ⟨gs, fun y hy => hper ▸ gl y hy⟩, upto_snoc.mpr ⟨ud, hn1, le_refl n⟩⟩, ?_, ?_⟩
        · intro p hp
          rw [recorded_snoc_lt hp, recorded_snoc_lt (by omega)]
        · intro p hp
          rw [recorded_snoc_ge hp]; omega
      · rw [if_neg hper]
        have hlt : e.period < n := by omega
        refine ⟨_, rfl, ⟨sorted_snoc.mpr ⟨g.sorted, ?_⟩, upto_snoc.mpr ⟨g.upto, hn1, le_refl n⟩⟩, ?_, ?_⟩
        · intro y hy
          rcases List.mem_append.mp hy with hy | hy
          · exact lt_trans (gl y hy) hlt
          · simp at hy; subst hy; exact hlt
        · intro p hp; exact recorded_snoc_lt hp
        · intro p hp
          rw [recorded_snoc_ge hp]; omega

theorem takeWhile_eq_filter {h : Hist} (hs : Asc h) (p : Nat) :
    h.takeWhile (fun e => decide (e.period ≤ p)) = h.filter (fun e => decide (e.period ≤ p)) := by
  induction h with
  | nil => rfl
  | cons e r ih =>
    have he := List.pairwise_cons.mp hs
    by_cases hp : e.period ≤ p
    · simp [List.filter_cons, hp, ih he.2]
    · simp only [List.takeWhile_cons, List.filter_cons, hp, decide_false, Bool.false_eq_true, if_false]
      symm
      apply List.filter_eq_nil_iff.mpr
      intro x hx
      have := he.1 x hx
      simp; omega

/-- Dropping entries before one that is still in force changes nothing for later periods. -/
theorem recorded_drop {a b : Hist} {e : Entry} {p : Nat} (he : e.period ≤ p) :
    recorded (a ++ e :: b) p = recorded (e :: b) p := by
  unfold recorded
  rw [List.filter_append, List.getLast?_append]
  have : ((e :: b).filter (fun e => decide (e.period ≤ p))).getLast? ≠ none := by
    simp [List.filter_cons, he]
  obtain ⟨y, hy⟩ := Option.ne_none_iff_exists'.mp this
  rw [hy]; simp

theorem matchByPeriod_none {h : Hist} (hs : Asc h) {p : Nat} (hm : matchByPeriod h p = none) : recorded h p = 0 := by
  unfold matchByPeriod at hm
  rw [takeWhile_eq_filter hs] at hm
  unfold recorded
  split at hm
  · rename_i hl; rw [hl]; rfl
  · rename_i e hl
    rw [hl]
    split at hm
    · rename_i h0; simpa using h0
    · simp at hm

theorem matchByPeriod_some {h : Hist} {n : Nat} (g : Good n h) {p x : Nat} {h' : Hist} (hm : matchByPeriod h p = some (x, h')) :
    x = recorded h p ∧ 0 < x ∧ Good n h' ∧ ∀ q, p < q → recorded h' q = recorded h q := by
  unfold matchByPeriod at hm
  split at hm
  · simp at hm
  · rename_i e hl
    split at hm
    · simp at hm
    · rename_i h0
      simp only [Option.some.injEq, Prod.mk.injEq] at hm
      obtain ⟨hx, hh⟩ := hm
      have hrec : x = recorded h p := by
        unfold recorded
        rw [takeWhile_eq_filter g.sorted] at hl
        rw [hl, ← hx]; rfl
      obtain ⟨d, hd⟩ : ∃ d, h.takeWhile (fun e => decide (e.period ≤ p)) = d ++ [e] := by
        rcases snoc_cases (h.takeWhile (fun e => decide (e.period ≤ p))) with hc | ⟨d, e', hc⟩
        · rw [hc] at hl; simp at hl
        · rw [hc] at hl; simp at hl; subst hl; exact ⟨d, hc⟩
      have hsplit : h = d ++ e :: h.dropWhile (fun e => decide (e.period ≤ p)) := by
        have := List.takeWhile_append_dropWhile (p := fun e : Entry => decide (e.period ≤ p)) (l := h)
        rw [hd] at this
        simpa using this.symm
      generalize hr : h.dropWhile (fun e => decide (e.period ≤ p)) = rest at hsplit
      have hdrop : h.drop ((h.takeWhile (fun e => decide (e.period ≤ p))).length - 1) = e :: rest := by
        rw [hd]
        conv_lhs => rw [hsplit]
        simp
      have hep : e.period ≤ p := by
        have : e ∈ h.takeWhile (fun e => decide (e.period ≤ p)) := by rw [hd]; simp
        rw [takeWhile_eq_filter g.sorted] at this
        simpa using (List.mem_filter.mp this).2
      have gsub : Good n (e :: rest) := by
        have hsub : (e :: rest).Sublist h := by rw [hsplit]; exact List.sublist_append_right _ _
        exact ⟨g.sorted.sublist hsub, fun y hy => g.upto y (hsub.subset hy)⟩
      have hkeep : ∀ q, p < q → recorded (e :: rest) q = recorded h q := by
        intro q hq
        rw [hsplit, recorded_drop (by omega)]
      refine ⟨hrec, by omega, ?_⟩
      rw [← hh]
      unfold trimTo
      rw [hdrop]
      split
      · rename_i e0 e1 r heq
        simp only [List.cons.injEq] at heq
        obtain ⟨rfl, rfl⟩ := heq
        split
        · rename_i hp1
          refine ⟨⟨(List.pairwise_cons.mp gsub.sorted).2, fun y hy => gsub.upto y (List.mem_cons_of_mem _ hy)⟩, ?_⟩
          intro q hq
          rw [← hkeep q hq]
          exact (recorded_drop (a := [e]) (by omega)).symm
        · exact ⟨gsub, hkeep⟩
      · exact ⟨gsub, hkeep⟩

theorem canDelete_worth {thr : Nat} {h : Hist} (hd : canDelete thr h = true) (q : Nat) :
    worth thr (recorded h q) = 0 := by
  unfold canDelete at hd
  split at hd
  · rename_i e
    simp only [decide_eq_true_eq] at hd
    by_cases hq : e.period ≤ q
    · have : recorded [e] q = e.amount := recorded_snoc_ge (h := []) hq
      rw [this]; simp [worth]; omega
    · have : recorded [e] q = 0 := recorded_snoc_lt (h := []) (by omega)
      rw [this]; simp [worth]
  · simp at hd

/-! ### The table and its sum -/

/-- The records agree with the amounts held (now: `amt`; at the end of earlier periods: `past`) and with their sum, from period
`lo` on. -/
structure ShareInv (thr n lo : Nat) (t : Table Nat Hist) (sum : Hist) (amt : Nat → Nat) (past : Nat → Nat → Nat) : Prop where
  now : 1 ≤ n
  proper : Table.Proper t
  good : ∀ a, Good n (histOf a t)
  goodSum : Good n sum
  cur : ∀ a, worth thr (recorded (histOf a t) n) = worth thr (amt a)
  sum : ∀ p, lo ≤ p → recorded sum p = allWorth thr p t
  before : ∀ p a, lo ≤ p → p < n → worth thr (recorded (histOf a t) p) = worth thr (past p a)
  lo : lo ≤ n

theorem ShareInv.init (thr n : Nat) (hn : 1 ≤ n) : ShareInv thr n 0 [] [] (fun _ => 0) (fun _ _ => 0) := by
  refine ⟨hn, by simp [Table.Proper], fun _ => Good.nil n, Good.nil n, fun _ => rfl, fun p _ => rfl, fun _ _ _ _ => rfl, by omega⟩

theorem histOf_put (a b : Nat) (h : Hist) (t : Table Nat Hist) : histOf b (Table.put a h t) = if b = a then h else histOf b t := by
  unfold histOf
  rw [Table.get_put]
  split <;> simp

theorem histOf_del (a b : Nat) {t : Table Nat Hist} (hp : Table.Proper t) :
    histOf b (Table.del a t) = if b = a then [] else histOf b t := by
  unfold histOf
  by_cases h : b = a
  · subst h; rw [Table.get_del_self b hp, if_pos rfl]; rfl
  · rw [Table.get_del_ne h, if_neg h]

theorem histOf_save (a b : Nat) (h : Hist) {t : Table Nat Hist} (hp : Table.Proper t) :
    histOf b (saveHist a h t) = if b = a then h else histOf b t := by
  unfold saveHist
  split
  · rename_i h0; rw [histOf_del a b hp, h0]
  · exact histOf_put a b h t

theorem proper_save (a : Nat) (h : Hist) {t : Table Nat Hist} (hp : Table.Proper t) : Table.Proper (saveHist a h t) := by
  unfold saveHist
  split
  · exact Table.proper_del a hp
  · exact Table.proper_put a h hp

theorem worth_nil (thr p : Nat) : worth thr (recorded [] p) = 0 := by
  rw [recorded_nil]; unfold worth; split <;> rfl

theorem elim_histOf (thr p a : Nat) (t : Table Nat Hist) :
    (Table.get a t).elim 0 (fun h => worth thr (recorded h p)) = worth thr (recorded (histOf a t) p) := by
  unfold histOf
  cases Table.get a t with
  | none => simp [worth_nil]
  | some h => rfl

theorem allWorth_save (thr p a : Nat) (h : Hist) (t : Table Nat Hist) :
    allWorth thr p (saveHist a h t) + worth thr (recorded (histOf a t) p) = allWorth thr p t + worth thr (recorded h p) := by
  rw [← elim_histOf]
  unfold saveHist allWorth
  split
  · rename_i h0
    subst h0
    rw [worth_nil]
    exact Table.total_del (fun _ h => worth thr (recorded h p)) a t
  · exact Table.total_put (fun _ h => worth thr (recorded h p)) a h t

theorem worth_le_all (thr p a : Nat) (t : Table Nat Hist) : worth thr (recorded (histOf a t) p) ≤ allWorth thr p t := by
  have := allWorth_save thr p a [] t
  rw [worth_nil] at this
  omega

/-- A change of one holder's amount keeps the records in order, and is never refused. -/
theorem ShareInv.settle {thr n lo : Nat} (ht : 0 < thr) {t : Table Nat Hist} {sum : Hist} {amt : Nat → Nat}
    {past : Nat → Nat → Nat} (I : ShareInv thr n lo t sum amt past) (a new : Nat) :
    ∃ t' sum', settleShares thr n t sum a ((new : Int) - amt a) new = some (t', sum') ∧
      ShareInv thr n lo t' sum' (fun b => if b = a then new else amt b) past := by
  obtain ⟨U, C⟩ := settleUser_spec ht I.now (I.good a) (new := new) (I.cur a)
  unfold settleShares
  have hh : (Table.get a t).getD [] = histOf a t := rfl
  simp only [hh]
  generalize hr : settleUser thr n (histOf a t) ((new : Int) - amt a) new = r at U C
  have hle := worth_le_all thr n a t
  have hsn := I.sum n I.lo
  rw [I.cur a] at hle
  obtain ⟨s', hs, gs, sp, sn⟩ := settleSum_spec I.now I.goodSum (c := r.2) (by rw [C, hsn]; omega)
  refine ⟨saveHist a r.1 t, s', by rw [hs]; rfl, ?_⟩
  refine ⟨I.now, proper_save a r.1 I.proper, ?_, gs, ?_, ?_, ?_, I.lo⟩
  · intro b
    rw [histOf_save a b r.1 I.proper]
    split
    · exact U.good
    · exact I.good b
  · intro b
    rw [histOf_save a b r.1 I.proper]
    by_cases hb : b = a
    · simp only [hb, if_true]; exact U.now n (le_refl n)
    · simp only [hb, if_false]; exact I.cur b
  · intro p hp
    have e := allWorth_save thr p a r.1 t
    by_cases hpn : p < n
    · rw [sp p hpn, I.sum p hp]
      rw [U.past p hpn] at e
      omega
    · have hnp : n ≤ p := by omega
      have h1 := sn p hnp
      rw [U.now p hnp, recorded_stable (I.good a).upto hnp, I.cur a] at e
      have h2 : allWorth thr p t = allWorth thr n t := by
        rw [← I.sum p hp, ← hsn, recorded_stable I.goodSum.upto hnp]
      rw [hsn, C] at h1
      rw [h2] at e
      omega
  · intro p b h1 h2
    rw [histOf_save a b r.1 I.proper]
    split
    · rename_i e; subst e; rw [U.past p h2]; exact I.before p b h1 h2
    · exact I.before p b h1 h2

/-- A later period begins: the amounts held now are those held at the end of the periods before it. -/
theorem ShareInv.advance {thr n lo m : Nat} {t : Table Nat Hist} {sum : Hist} {amt : Nat → Nat} {past : Nat → Nat → Nat}
    (I : ShareInv thr n lo t sum amt past) (hm : n ≤ m) :
    ShareInv thr m lo t sum amt (fun p a => if n ≤ p then amt a else past p a) := by
  refine ⟨I.now.trans hm, I.proper, fun a => (I.good a).mono hm, I.goodSum.mono hm, ?_, I.sum, ?_, I.lo.trans hm⟩
  · intro a
    rw [recorded_stable (I.good a).upto hm]
    exact I.cur a
  · intro p a h1 h2
    by_cases h : n ≤ p
    · rw [if_pos h, recorded_stable (I.good a).upto h]; exact I.cur a
    · rw [if_neg h]; exact I.before p a h1 (by omega)

/-! ### Dividing a pot -/

/-- The holders that take part, with what counts for them. -/
def holders (thr p : Nat) (t : Table Nat Hist) : List (Nat × Nat) :=
  (t.map (fun x => (x.1, worth thr (recorded x.2 p)))).filter (fun x => x.2 ≠ 0)

/-- What a list of payments gives a holder in a token. -/
def paidTo (a tok : Nat) (l : List (Nat × Nat × Nat)) : Nat := (l.map (fun x => if x.1 = a ∧ x.2.1 = tok then x.2.2 else 0)).sum

/-- What a list of payments takes of a token. -/
def paidOf (tok : Nat) (l : List (Nat × Nat × Nat)) : Nat := (l.map (fun x => if x.2.1 = tok then x.2.2 else 0)).sum

/-- What is left in the pots of a token. -/
def leftOf (tok : Nat) (pots : List Pot) : Nat := (pots.map (fun q => if q.token = tok then q.left else 0)).sum

theorem Pot.pay_keeps (total part : Nat) (q : Pot) :
    (q.pay total part).1.token = q.token ∧ (q.pay total part).1.pool = q.pool ∧
    (q.pay total part).1.left + (q.pay total part).2 = q.left ∧ (q.done = true → (q.pay total part).2 = 0) := by
  unfold Pot.pay
  split
  · simp
  · rename_i hd
    split
    · simp [hd]
    · rename_i h
      push Not at h
      refine ⟨rfl, rfl, ?_, by simp [hd]⟩
      simp only
      omega

theorem paidOf_payPots (total part a tok : Nat) (pots : List Pot) :
    leftOf tok (pots.map (fun q => (q.pay total part).1)) + paidOf tok (payPots total part a pots) = leftOf tok pots := by
  induction pots with
  | nil => simp [leftOf, paidOf, payPots]
  | cons q qs ih =>
    obtain ⟨k1, k2, k3, k4⟩ := Pot.pay_keeps total part q
    unfold leftOf paidOf payPots at *
    simp only [List.map_cons, List.sum_cons, k1]
    by_cases hd : q.done
    · have := k4 hd
      simp only [List.filter_cons, hd, Bool.not_true, Bool.false_eq_true, if_false]
      by_cases ht : q.token = tok
      · simp only [ht, if_true] at *; omega
      · simp only [ht, if_false] at *; omega
    · simp only [List.filter_cons, hd, Bool.not_false, if_true, List.map_cons, List.sum_cons]
      by_cases ht : q.token = tok
      · simp only [ht, if_true] at *; omega
      · simp only [ht, if_false] at *; omega

theorem paidOf_append (tok : Nat) (l l' : List (Nat × Nat × Nat)) : paidOf tok (l ++ l') = paidOf tok l + paidOf tok l' := by
  simp [paidOf]

theorem paidTo_append (a tok : Nat) (l l' : List (Nat × Nat × Nat)) : paidTo a tok (l ++ l') = paidTo a tok l + paidTo a tok l' := by
  simp [paidTo]

/-- Nothing is made or lost: per token, what is paid and what is left is what was there. -/
theorem divide_conserves (thr p total tok : Nat) (t : Table Nat Hist) (pots : List Pot) :
    leftOf tok (divide thr p total t pots).2.1 + paidOf tok (divide thr p total t pots).2.2 = leftOf tok pots := by
  induction t generalizing pots with
  | nil => simp [divide, paidOf]
  | cons e rest ih =>
    obtain ⟨a, h⟩ := e
    unfold divide
    split
    · simp [paidOf]
    · split
      · exact ih pots
      · split
        · exact ih pots
        · rename_i x h' _ _
          have h1 := ih (pots.map (fun q => (q.pay total x).1))
          have h2 := paidOf_payPots total x a tok pots
          simp only [paidOf_append]
          omega

/-- What a step of the loop does, by cases. -/
theorem divide_cases (thr p total a : Nat) (h : Hist) (rest : Table Nat Hist) (pots : List Pot) :
    (pots.all (·.done) = true ∧ divide thr p total ((a, h) :: rest) pots = ((a, h) :: rest, pots, [])) ∨
    (pots.all (·.done) = false ∧ matchByPeriod h p = none ∧ divide thr p total ((a, h) :: rest) pots =
      ((a, h) :: (divide thr p total rest pots).1, (divide thr p total rest pots).2)) ∨
    (pots.all (·.done) = false ∧ ∃ x h', matchByPeriod h p = some (x, h') ∧ x < thr ∧
      divide thr p total ((a, h) :: rest) pots =
        (keepHist thr a h' ++ (divide thr p total rest pots).1, (divide thr p total rest pots).2)) ∨
    (pots.all (·.done) = false ∧ ∃ x h', matchByPeriod h p = some (x, h') ∧ thr ≤ x ∧
      divide thr p total ((a, h) :: rest) pots =
        (keepHist thr a h' ++ (divide thr p total rest (pots.map (fun q => (q.pay total x).1))).1,
          (divide thr p total rest (pots.map (fun q => (q.pay total x).1))).2.1,
          payPots total x a pots ++ (divide thr p total rest (pots.map (fun q => (q.pay total x).1))).2.2)) := by
  by_cases hd : pots.all (·.done) = true
  · left; refine ⟨hd, ?_⟩
    rw [divide, if_pos hd]
  · right
    have hd' : pots.all (·.done) = false := by simpa using hd
    rcases hm : matchByPeriod h p with _ | ⟨x, h'⟩
    · left; refine ⟨hd', rfl, ?_⟩
      rw [divide, if_neg hd]; simp only [hm]
    · right
      by_cases hx : x < thr
      · left; refine ⟨hd', x, h', rfl, hx, ?_⟩
        rw [divide, if_neg hd]; simp only [hm, hx, if_true]
      · right; refine ⟨hd', x, h', rfl, by omega, ?_⟩
        rw [divide, if_neg hd]; simp only [hm, hx, if_false]

theorem get_cons (b a : Nat) (h : Hist) (r : Table Nat Hist) : Table.get b ((a, h) :: r) = if a = b then some h else Table.get b r := rfl

theorem allWorth_cons (thr q a : Nat) (h : Hist) (r : Table Nat Hist) :
    allWorth thr q ((a, h) :: r) = worth thr (recorded h q) + allWorth thr q r := by simp [allWorth, Table.total]

theorem allWorth_append (thr q : Nat) (l r : Table Nat Hist) : allWorth thr q (l ++ r) = allWorth thr q l + allWorth thr q r := by
  simp [allWorth, Table.total]

theorem allWorth_keep (thr q a : Nat) (h : Hist) : allWorth thr q (keepHist thr a h) = worth thr (recorded h q) := by
  unfold keepHist
  split
  · rename_i hd; rw [canDelete_worth hd]; rfl
  · simp [allWorth, Table.total]

/-- The records after the loop. -/
structure Trimmed (thr n p : Nat) (t t' : Table Nat Hist) : Prop where
  keys : (t'.map (·.1)).Sublist (t.map (·.1))
  good : ∀ x ∈ t', Good n x.2
  same : ∀ a q, p < q → worth thr (recorded (histOf a t') q) = worth thr (recorded (histOf a t) q)
  all : ∀ q, p < q → allWorth thr q t' = allWorth thr q t

theorem Trimmed.refl {thr n p : Nat} {t : Table Nat Hist} (g : ∀ x ∈ t, Good n x.2) : Trimmed thr n p t t :=
  ⟨List.Sublist.refl _, g, fun _ _ _ => rfl, fun _ _ => rfl⟩

theorem Trimmed.cons {thr n p a : Nat} {h h' : Hist} {r r' : Table Nat Hist} {l : Table Nat Hist}
    (hn : a ∉ r.map (·.1)) (T : Trimmed thr n p r r')
    (hl : l = [(a, h')] ∨ (l = [] ∧ ∀ q, worth thr (recorded h' q) = 0)) (g : Good n h')
    (hk : ∀ q, p < q → recorded h' q = recorded h q) : Trimmed thr n p ((a, h) :: r) (l ++ r') := by
  have hn' : a ∉ r'.map (·.1) := fun hm => hn (T.keys.subset hm)
  have hga : Table.get a r' = none := Table.get_none hn'
  rcases hl with rfl | ⟨rfl, h0⟩
  · refine ⟨by simpa using T.keys, ?_, ?_, ?_⟩
    · intro x hx
      rcases List.mem_append.mp hx with hx | hx
      · simp at hx; subst hx; exact g
      · exact T.good x hx
    · intro b q hq
      have := T.same b q hq
      unfold histOf at *
      simp only [List.singleton_append, get_cons]
      by_cases hb : a = b
      · simp [hb, hk q hq]
      · simpa [hb] using this
    · intro q hq
      rw [allWorth_append, allWorth_cons, allWorth_cons, T.all q hq, hk q hq]
      simp [allWorth, Table.total]
  · refine ⟨by simpa using T.keys.cons a, ?_, ?_, ?_⟩
    · intro x hx; exact T.good x (by simpa using hx)
    · intro b q hq
      have := T.same b q hq
      unfold histOf at *
      simp only [List.nil_append, get_cons]
      by_cases hb : a = b
      · subst hb
        rw [hga]
        simp only [if_true, Option.getD_some, Option.getD_none]
        rw [← hk q hq, h0 q, worth_nil]
      · simpa [hb] using this
    · intro q hq
      rw [List.nil_append, allWorth_cons, T.all q hq, ← hk q hq, h0 q]; omega

theorem keep_cases (thr a : Nat) (h : Hist) :
    keepHist thr a h = [(a, h)] ∨ (keepHist thr a h = [] ∧ ∀ q, worth thr (recorded h q) = 0) := by
  unfold keepHist
  split
  · rename_i hd; exact .inr ⟨rfl, canDelete_worth hd⟩
  · exact .inl rfl

theorem divide_trims (thr p total n : Nat) (t : Table Nat Hist) (hp : Table.Proper t) (g : ∀ x ∈ t, Good n x.2) (pots : List Pot) :
    Trimmed thr n p t (divide thr p total t pots).1 := by
  induction t generalizing pots with
  | nil => exact Trimmed.refl g
  | cons e rest ih =>
    obtain ⟨a, h⟩ := e
    have hp' : a ∉ rest.map (·.1) ∧ Table.Proper rest := by
      unfold Table.Proper at hp ⊢
      simpa using hp
    have g0 : Good n h := g (a, h) (by simp)
    have gr : ∀ x ∈ rest, Good n x.2 := fun x hx => g x (List.mem_cons_of_mem _ hx)
    rcases divide_cases thr p total a h rest pots with ⟨_, e⟩ | ⟨_, _, e⟩ | ⟨_, x, h', hm, hx, e⟩ | ⟨_, x, h', hm, hx, e⟩
    · rw [e]; exact Trimmed.refl g
    · rw [e]; exact Trimmed.cons hp'.1 (ih hp'.2 gr pots) (l := [(a, h)]) (.inl rfl) g0 (fun _ _ => rfl)
    · rw [e]
      obtain ⟨_, _, g1, k1⟩ := matchByPeriod_some g0 hm
      exact Trimmed.cons hp'.1 (ih hp'.2 gr pots) (keep_cases thr a h') g1 k1
    · rw [e]
      obtain ⟨_, _, g1, k1⟩ := matchByPeriod_some g0 hm
      exact Trimmed.cons hp'.1 (ih hp'.2 gr _) (keep_cases thr a h') g1 k1

/-- A pot on its way to being used up: it is, or the parts still to come fill it. -/
def Covered (total r : Nat) (q : Pot) : Prop :=
  (q.done = true ∧ q.left = 0) ∨ (q.done = false ∧ q.divided < total ∧ total ≤ q.divided + r)

theorem Covered.pay {total r x : Nat} {q : Pot} (h : Covered total (x + r) q) : Covered total r (q.pay total x).1 := by
  unfold Pot.pay
  rcases h with ⟨h1, h2⟩ | ⟨h1, h2, h3⟩
  · rw [if_pos h1]; exact .inl ⟨h1, h2⟩
  · rw [if_neg (by simp [h1])]
    split
    · exact .inl ⟨rfl, rfl⟩
    · rename_i hc
      push Not at hc
      refine .inr ⟨h1, by simpa using hc.2, by simp only; omega⟩

theorem match_worth {thr n p : Nat} {h : Hist} (g : Good n h) :
    (matchByPeriod h p = none → worth thr (recorded h p) = 0) ∧
    (∀ x h', matchByPeriod h p = some (x, h') → worth thr (recorded h p) = if thr ≤ x then x else 0) := by
  constructor
  · intro hm
    rw [matchByPeriod_none g.sorted hm]; unfold worth; split <;> rfl
  · intro x h' hm
    obtain ⟨h1, _⟩ := matchByPeriod_some g hm
    rw [← h1]; rfl

/-- Every pot is used up, if the holders' amounts reach the total. -/
theorem divide_exhausts (thr p total n : Nat) (t : Table Nat Hist) (g : ∀ x ∈ t, Good n x.2) (pots : List Pot)
    (hc : ∀ q ∈ pots, Covered total (allWorth thr p t) q) : ∀ q ∈ (divide thr p total t pots).2.1, q.done = true ∧ q.left = 0 := by
  induction t generalizing pots with
  | nil =>
    intro q hq
    rcases hc q hq with h | ⟨_, h2, h3⟩
    · exact h
    · simp [allWorth, Table.total] at h3; omega
  | cons e rest ih =>
    obtain ⟨a, h⟩ := e
    have g0 : Good n h := g (a, h) (by simp)
    have gr : ∀ x ∈ rest, Good n x.2 := fun x hx => g x (List.mem_cons_of_mem _ hx)
    obtain ⟨m0, m1⟩ := match_worth (thr := thr) (p := p) g0
    rw [allWorth_cons] at hc
    rcases divide_cases thr p total a h rest pots with ⟨hd, e⟩ | ⟨_, hm, e⟩ | ⟨_, x, h', hm, hx, e⟩ | ⟨_, x, h', hm, hx, e⟩
    · rw [e]
      intro q hq
      rcases hc q hq with h | ⟨h1, _, _⟩
      · exact h
      · have := (List.all_eq_true.mp hd) q hq
        simp [h1] at this
    · rw [e]
      rw [m0 hm, Nat.zero_add] at hc
      exact ih gr pots hc
    · rw [e]
      rw [m1 x h' hm, if_neg (by omega), Nat.zero_add] at hc
      exact ih gr pots hc
    · rw [e]
      rw [m1 x h' hm, if_pos hx] at hc
      refine ih gr _ ?_
      intro q hq
      obtain ⟨q0, h0, rfl⟩ := List.mem_map.mp hq
      exact (hc q0 h0).pay

/-! ### Fairness -/

theorem proportion_err (total part pool : Nat) (ht : 0 < total) (hp : part ≤ total) (hs : pool < 2 ^ 100) :
    |(proportion total part pool : ℚ) - exactShare total part pool| ≤ 1 := by
  have h1 : Within 2 (rnd (pool : ℚ)) (pool : ℚ) := (Within.refl (by positivity)).rnd (by norm_num)
  have h2 : Within 2 (rnd (part : ℚ)) (part : ℚ) := (Within.refl (by positivity)).rnd (by norm_num)
  have h3 : Within 2 (rnd (total : ℚ)) (total : ℚ) := (Within.refl (by positivity)).rnd (by norm_num)
  have h4 := ((h2.div h3 (by positivity) (by norm_num)).rnd (by norm_num))
  have h5 := (h1.mul h4 (by norm_num)).rnd (by norm_num)
  norm_num at h5
  have he : (pool : ℚ) * ((part : ℚ) / total) = exactShare total part pool := by unfold exactShare; ring
  rw [he] at h5
  have hE0 := h5.pos
  have hE1 : exactShare total part pool ≤ 2 ^ 100 := by
    unfold exactShare
    rw [div_le_iff₀ (by positivity)]
    have a1 : (pool : ℚ) ≤ 2 ^ 100 := by exact_mod_cast hs.le
    have a2 : (part : ℚ) ≤ total := by exact_mod_cast hp
    exact mul_le_mul a1 a2 (by positivity) (by positivity)
  generalize exactShare total part pool = E at *
  have u := roundAmount_le h5.nonneg (b := E * (1 + 16 / 2 ^ 120) + 1 / 2) (by
    have := h5.hi; norm_num at this ⊢; linarith)
  have l := roundAmount_ge h5.nonneg (b := E * (1 - 16 / 2 ^ 120) + 1 / 2) (by
    have := h5.lo; norm_num at this ⊢; linarith)
  have hu : (proportion total part pool : ℚ) ≤ (E * (1 + 16 / 2 ^ 120) + 1 / 2) * (1 + 1 / 2 ^ 120) := u
  have hl : (E * (1 - 16 / 2 ^ 120) + 1 / 2) * (1 - 1 / 2 ^ 120) - 1 < (proportion total part pool : ℚ) := l
  generalize (proportion total part pool : ℚ) = x at *
  rw [abs_le]
  constructor <;> norm_num at * <;> linarith

theorem exactShare_add (total a b pool : Nat) : exactShare total (a + b) pool = exactShare total a pool + exactShare total b pool := by
  unfold exactShare; push_cast; ring

theorem exactShare_nonneg (total a pool : Nat) : 0 ≤ exactShare total a pool := by unfold exactShare; positivity

theorem exactShare_mono (total pool : Nat) {a b : Nat} (h : a ≤ b) : exactShare total a pool ≤ exactShare total b pool := by
  obtain ⟨c, rfl⟩ := Nat.exists_eq_add_of_le h
  rw [exactShare_add]
  have := exactShare_nonneg total c pool
  linarith

theorem exactShare_zero (total pool : Nat) : exactShare total 0 pool = 0 := by unfold exactShare; simp

/-- A pot after `k` holders: what is left is what the holders to come should get, up to one unit per holder served. -/
def Fair (total pool k r : Nat) (q : Pot) : Prop :=
  q.pool = pool ∧ ((q.done = true ∧ q.left = 0 ∧ exactShare total r pool ≤ k) ∨
    (q.done = false ∧ q.divided + r = total ∧ |(q.left : ℚ) - exactShare total r pool| ≤ k))

theorem Fair.pay {total pool k r x : Nat} {q : Pot} (ht : 0 < total) (hs : pool < 2 ^ 100) (h : Fair total pool k (x + r) q) :
    Fair total pool (k + 1) r (q.pay total x).1 ∧ |((q.pay total x).2 : ℚ) - exactShare total x pool| ≤ k + 1 := by
  obtain ⟨hp, h⟩ := h
  have hx0 := exactShare_nonneg total x pool
  have hr0 := exactShare_nonneg total r pool
  rw [exactShare_add] at h
  unfold Pot.pay
  rcases h with ⟨h1, h2, h3⟩ | ⟨h1, h2, h3⟩
  · rw [if_pos h1]
    refine ⟨⟨hp, .inl ⟨h1, h2, by push_cast; linarith⟩⟩, ?_⟩
    rw [abs_le]; push_cast; constructor <;> linarith
  · rw [if_neg (by simp [h1])]
    have hpe := proportion_err total x pool ht (by omega) hs
    rw [hp]
    rw [abs_le] at h3 hpe
    split
    · rename_i hc
      rcases hc with hc | hc
      · have hc' : (q.left : ℚ) ≤ proportion total x pool := by exact_mod_cast hc
        refine ⟨⟨rfl, .inl ⟨rfl, rfl, by push_cast; linarith⟩⟩, ?_⟩
        rw [abs_le]; constructor <;> simp only <;> linarith
      · have hr : r = 0 := by omega
        subst hr
        rw [exactShare_zero] at *
        refine ⟨⟨rfl, .inl ⟨rfl, rfl, by rw [exactShare_zero]; positivity⟩⟩, ?_⟩
        rw [abs_le]; constructor <;> simp only <;> linarith
    · rename_i hc
      push Not at hc
      refine ⟨⟨rfl, .inr ⟨h1, by simp only; omega, ?_⟩⟩, ?_⟩
      · simp only
        rw [Nat.cast_sub hc.1.le, abs_le]
        push_cast
        constructor <;> linarith
      · rw [abs_le]
        have hk : (0:ℚ) ≤ k := by positivity
        constructor <;> simp only <;> linarith

theorem paidTo_payPots {total x a b : Nat} {pots : List Pot} (hn : (pots.map (·.token)).Nodup) {q : Pot} (hq : q ∈ pots) :
    paidTo b q.token (payPots total x a pots) = if a = b then (q.pay total x).2 else 0 := by
  induction pots with
  | nil => simp at hq
  | cons q0 qs ih =>
    simp only [List.map_cons, List.nodup_cons] at hn
    have hrest : q0.token = q.token → paidTo b q.token (payPots total x a qs) = 0 := by
      intro he
      unfold paidTo payPots
      apply List.sum_eq_zero
      intro y hy
      simp only [List.map_map, List.mem_map, List.mem_filter, Function.comp] at hy
      obtain ⟨w, hw, rfl⟩ := hy
      have : w.token ≠ q.token := fun e => hn.1 (by rw [he, ← e]; exact List.mem_map.mpr ⟨w, hw.1, rfl⟩)
      simp [this]
    have hsplit : payPots total x a (q0 :: qs) = payPots total x a [q0] ++ payPots total x a qs := by
      unfold payPots
      rw [← List.map_append, ← List.filter_append]; rfl
    have h1 : paidTo b q.token (payPots total x a [q0]) = if a = b ∧ q0.token = q.token then (q0.pay total x).2 else 0 := by
      unfold payPots paidTo
      by_cases hd : q0.done
      · have := (Pot.pay_keeps total x q0).2.2.2 hd
        simp [hd, this]
      · simp [hd]
    rw [hsplit, paidTo_append, h1]
    rcases List.mem_cons.mp hq with rfl | hq
    · rw [hrest rfl]
      by_cases hab : a = b <;> simp [hab]
    · have hne : q0.token ≠ q.token := fun e => hn.1 (by rw [e]; exact List.mem_map.mpr ⟨q, hq, rfl⟩)
      rw [ih hn.2 hq]
      simp [hne]

theorem paidTo_payPots_ne {total x a b tok : Nat} {pots : List Pot} (hab : a ≠ b) : paidTo b tok (payPots total x a pots) = 0 := by
  unfold paidTo payPots
  apply List.sum_eq_zero
  intro y hy
  simp only [List.map_map, List.mem_map, List.mem_filter, Function.comp] at hy
  obtain ⟨w, hw, rfl⟩ := hy
  simp [hab]

/-- Nobody outside the table is paid. -/
theorem paidTo_absent (thr p total a tok : Nat) (t : Table Nat Hist) (pots : List Pot) (ha : a ∉ t.map (·.1)) :
    paidTo a tok (divide thr p total t pots).2.2 = 0 := by
  induction t generalizing pots with
  | nil => rfl
  | cons e rest ih =>
    obtain ⟨b, h⟩ := e
    simp only [List.map_cons, List.mem_cons, not_or] at ha
    rcases divide_cases thr p total b h rest pots with ⟨_, e⟩ | ⟨_, _, e⟩ | ⟨_, x, h', hm, hx, e⟩ | ⟨_, x, h', hm, hx, e⟩
    · rw [e]; rfl
    · rw [e]; exact ih pots ha.2
    · rw [e]; exact ih pots ha.2
    · rw [e]
      simp only [paidTo_append]
      rw [ih _ ha.2, paidTo_payPots_ne (fun e => ha.1 e.symm)]

theorem pay_tokens (total x : Nat) (pots : List Pot) : (pots.map (fun q => (q.pay total x).1)).map (·.token) = pots.map (·.token) := by
  rw [List.map_map]
  apply List.map_congr_left
  intro q _
  exact (Pot.pay_keeps total x q).1

theorem holders_cons (thr p a : Nat) (h : Hist) (r : Table Nat Hist) :
    holders thr p ((a, h) :: r) =
      (if worth thr (recorded h p) ≠ 0 then [(a, worth thr (recorded h p))] else []) ++ holders thr p r := by
  unfold holders
  by_cases hw : worth thr (recorded h p) = 0
  · simp [hw]
  · simp [hw]

/-- Every holder gets the exact share, up to one unit per holder. -/
theorem divide_fair (thr p total pool n : Nat) (hthr : 0 < thr) (ht : 0 < total) (hs : pool < 2 ^ 100) (t : Table Nat Hist)
    (hp : Table.Proper t) (g : ∀ x ∈ t, Good n x.2) (pots : List Pot) (hn : (pots.map (·.token)).Nodup) (q : Pot) (hq : q ∈ pots)
    (k : Nat) (hf : Fair total pool k (allWorth thr p t) q) (a : Nat) :
    |(paidTo a q.token (divide thr p total t pots).2.2 : ℚ) - exactShare total (worth thr (recorded (histOf a t) p)) pool| ≤
      k + (holders thr p t).length := by
  induction t generalizing pots q k with
  | nil =>
    have : worth thr (recorded (histOf a ([] : Table Nat Hist)) p) = 0 := worth_nil thr p
    rw [this, exactShare_zero]
    simp [divide, paidTo, holders]
  | cons e rest ih =>
    obtain ⟨b, h⟩ := e
    have hp' : b ∉ rest.map (·.1) ∧ Table.Proper rest := by
      unfold Table.Proper at hp ⊢
      simpa using hp
    have g0 : Good n h := g (b, h) (by simp)
    have gr : ∀ x ∈ rest, Good n x.2 := fun x hx => g x (List.mem_cons_of_mem _ hx)
    obtain ⟨m0, m1⟩ := match_worth (thr := thr) (p := p) g0
    have hhist : histOf a ((b, h) :: rest) = if b = a then h else histOf a rest := by
      unfold histOf; rw [get_cons]; split <;> rfl
    have hb0 : histOf b rest = [] := by unfold histOf; rw [Table.get_none hp'.1]; rfl
    have hk : (0:ℚ) ≤ k := by positivity
    have skip : worth thr (recorded h p) = 0 →
        divide thr p total ((b, h) :: rest) pots = ((divide thr p total ((b, h) :: rest) pots).1, (divide thr p total rest pots).2) →
        |(paidTo a q.token (divide thr p total ((b, h) :: rest) pots).2.2 : ℚ) -
          exactShare total (worth thr (recorded (histOf a ((b, h) :: rest)) p)) pool| ≤
            k + (holders thr p ((b, h) :: rest)).length := by
      intro hw he
      rw [allWorth_cons, hw, Nat.zero_add] at hf
      have := ih hp'.2 gr pots hn q hq k hf
      have e1 : (divide thr p total ((b, h) :: rest) pots).2.2 = (divide thr p total rest pots).2.2 := by rw [he]
      have e2 : worth thr (recorded (histOf a ((b, h) :: rest)) p) = worth thr (recorded (histOf a rest) p) := by
        rw [hhist]
        split
        · rename_i hba; subst hba; rw [hw, hb0, worth_nil]
        · rfl
      rw [e1, e2, holders_cons]
      simpa [hw] using this
    rcases divide_cases thr p total b h rest pots with ⟨hd, e⟩ | ⟨_, hm, e⟩ | ⟨_, x, h', hm, hx, e⟩ | ⟨_, x, h', hm, hx, e⟩
    · rw [e]
      obtain ⟨hpool, hf⟩ := hf
      rcases hf with ⟨h1, h2, h3⟩ | ⟨h1, _, _⟩
      · have hle : worth thr (recorded (histOf a ((b, h) :: rest)) p) ≤ allWorth thr p ((b, h) :: rest) := worth_le_all _ _ _ _
        have h4 := exactShare_mono total pool hle
        have h5 := exactShare_nonneg total (worth thr (recorded (histOf a ((b, h) :: rest)) p)) pool
        have h6 : (0:ℚ) ≤ (holders thr p ((b, h) :: rest)).length := by positivity
        simp only [paidTo, List.map_nil, List.sum_nil]
        rw [abs_le]; push_cast; constructor <;> linarith
      · have := (List.all_eq_true.mp hd) q hq
        simp [h1] at this
    · exact skip (m0 hm) (by rw [e])
    · exact skip (by rw [m1 x h' hm, if_neg (by omega)]) (by rw [e])
    · have hw : worth thr (recorded h p) = x := by rw [m1 x h' hm, if_pos hx]
      rw [allWorth_cons, hw] at hf
      obtain ⟨f1, f2⟩ := hf.pay ht hs
      have hq' : (q.pay total x).1 ∈ pots.map (fun q => (q.pay total x).1) := List.mem_map.mpr ⟨q, hq, rfl⟩
      have htok := (Pot.pay_keeps total x q).1
      have := ih hp'.2 gr (pots.map (fun q => (q.pay total x).1)) (by rw [pay_tokens]; exact hn) _ hq' (k + 1) f1
      rw [htok] at this
      rw [e, holders_cons, hw]
      simp only [paidTo_append]
      rw [paidTo_payPots hn hq, hhist]
      have hlen : ((if x ≠ 0 then [(b, x)] else [] : List (Nat × Nat)) ++ holders thr p rest).length = 1 + (holders thr p rest).length := by
        rw [if_pos (by omega)]; simp; omega
      rw [hlen]
      by_cases hba : b = a
      · subst hba
        rw [if_pos rfl, if_pos rfl, hw, paidTo_absent thr p total b q.token rest _ hp'.1, Nat.add_zero]
        refine le_trans f2 ?_
        have : (0:ℚ) ≤ (holders thr p rest).length := by positivity
        push_cast; linarith
      · rw [if_neg hba, if_neg hba, Nat.zero_add]
        refine le_trans this ?_
        push_cast; linarith

theorem good_histOf {n : Nat} {t : Table Nat Hist} (g : ∀ x ∈ t, Good n x.2) (a : Nat) : Good n (histOf a t) := by
  unfold histOf
  cases h : Table.get a t with
  | none => exact Good.nil n
  | some v => exact g _ (Table.get_mem h)

/-- Trimming the records for a period that is over keeps them in order for all later periods. -/
theorem ShareInv.trim {thr n lo P x : Nat} {t t' : Table Nat Hist} {sum sum' : Hist} {amt : Nat → Nat} {past : Nat → Nat → Nat}
    (I : ShareInv thr n lo t sum amt past) (hlo : lo ≤ P) (hP : P < n) (hm : matchByPeriod sum P = some (x, sum')) (T : Trimmed thr n P t t') :
    ShareInv thr n (P + 1) t' sum' amt past := by
  obtain ⟨-, -, g, hs⟩ := matchByPeriod_some I.goodSum hm
  refine ⟨I.now, ?_, good_histOf T.good, g, ?_, ?_, ?_, hP⟩
  · exact T.keys.nodup I.proper
  · intro a; rw [T.same a n hP]; exact I.cur a
  · intro p hp
    rw [hs p (by omega), I.sum p (by omega), T.all p (by omega)]
  · intro p a h1 h2
    rw [T.same a p (by omega)]; exact I.before p a (by omega) h2

end Verif.Dex
