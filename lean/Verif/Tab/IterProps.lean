import Verif.Tab.IterLemmas
import Verif.Tab.TableProps

/-! # The iterator over a table is a cursor -/

namespace Verif.Tab
open Verif.Bytes Verif.Store

variable {O : Type} [LinearOrder O]
variable {o : Opts O} {fk : Bytes → Bytes}

theorem at_isOn (lo : Nat) (p : Place) : (p.at lo).isOn = p.isOn := by cases p <;> rfl

theorem stands_good {ord : Bytes → O} {b : Block} {n : Nat} {K V : Nat → Bytes} {off st : Nat → Nat} (_ : Rep ord b n K V off st)
    {lo hi : Nat} {i : BI} {p : At} (h : Stands b K V off st lo hi i p) : i.bad = false := by
  cases p <;> exact h.1

theorem isFirst_of {ord : Bytes → O} {b : Block} {n : Nat} {K V : Nat → Bytes} {off st : Nat → Nat} (_ : Rep ord b n K V off st)
    {lo hi : Nat} {i : BI} (c : Cut b n off st lo hi i) (h : Stands b K V off st lo hi i (.on lo)) : i.isFirst = true := by
  obtain ⟨_, _, hlt, _, _, _, h1, h2, h3, h4, hd⟩ := h
  unfold BI.isFirst
  rcases hd with ⟨hd, hp, _⟩ | ⟨hd, hst⟩
  · rw [hd]
    exact decide_eq_true (by rw [hp, c.real])
  · rw [hd]
    refine decide_eq_true ⟨?_, ?_⟩
    · rw [hst]
      have : max lo (st i.restartIndex) = lo := by omega
      rw [this]
      have hf : frames K V off lo lo = [] := by
        cases lo with
        | zero => rfl
        | succ l => unfold frames; rw [if_neg (by omega)]
      rw [hf]; rfl
    · rcases c.ends with ⟨e1, e2, e3, e4, e5, e6⟩ | ⟨e1, e2, _⟩
      · by_contra hne
        have := e5 i.restartIndex (by omega) (by omega)
        omega
      · omega

theorem isLast_of {ord : Bytes → O} {b : Block} {n : Nat} {K V : Nat → Bytes} {off st : Nat → Nat} (_ : Rep ord b n K V off st)
    {lo hi j : Nat} {i : BI} (c : Cut b n off st lo hi i) (h : Stands b K V off st lo hi i (.on j)) (hj : j + 1 = hi) : i.isLast = true := by
  obtain ⟨_, _, _, _, _, ho, _, _, _, _, hd⟩ := h
  unfold BI.isLast
  rcases hd with ⟨hd, _⟩ | ⟨hd, _⟩
  · rw [hd]; exact decide_eq_true (by rw [ho, c.limit, hj])
  · rw [hd]; exact decide_eq_true (by rw [ho, c.limit, hj])

/-- A data iterator that stands somewhere in a list of entries. -/
def DatAt (ord : Bytes → O) (d : Dat) (l : List (Bytes × Bytes)) (p : Place) : Prop :=
  ∃ (es : List (Bytes × Bytes)) (off st : Nat → Nat) (lo hi : Nat), Rep ord d.1 es.length (keyOf es) (valOf es) off st ∧
    Cut d.1 es.length off st lo hi d.2 ∧ Stands d.1 (keyOf es) (valOf es) off st lo hi d.2 (p.at lo) ∧ l = part es lo hi

/-- A data iterator as it is made. -/
theorem slice_datAt {I : Nat} {es : List (Bytes × Bytes)} (hI : 0 < I) (hne : es ≠ []) (ord : Bytes → O)
    (hs : es.Pairwise (fun x y => ord x.1 < ord y.1)) (hsz : (blockBytes I es).length < 2 ^ 32) (start limit : Option Bytes) :
    DatAt ord (Block.ofBytes (blockBytes I es), BI.slice ord (Block.ofBytes (blockBytes I es)) start limit false) (between ord start limit es) .before := by
  have h := rep_of_writer (ord := ord) hI hne hs hsz
  obtain ⟨lo, m, hi, g1, g2, g3, g4, g5, g6, g7, g8, g9⟩ := slice_spec h start limit false
  rw [if_neg (by simp)] at g7
  subst g7
  exact ⟨es, _, _, lo, hi, h, g8, g9, (part_between hs start limit g1 g2 g3 g4 g5 g6).symm⟩

theorem between_all {ord : Bytes → O} {start limit : Option Bytes} {es : List (Bytes × Bytes)}
    (h1 : ∀ s, start = some s → ∀ e ∈ es, ord s ≤ ord e.1) (h2 : ∀ l, limit = some l → ∀ e ∈ es, ord e.1 < ord l) :
    between ord start limit es = es := by
  unfold between
  rw [List.filter_eq_self]
  intro e he
  have a1 : fromKey ord start e = true := by
    cases hs : start with
    | none => rfl
    | some s => exact decide_eq_true (h1 s hs e he)
  have a2 : toKey ord limit e = true := by
    cases hs : limit with
    | none => rfl
    | some s => exact decide_eq_true (h2 s hs e he)
  rw [a1, a2]; rfl

theorem between_flat (ord : Bytes → O) (start limit : Option Bytes) (ls : List (List (Bytes × Bytes))) :
    between ord start limit ls.flatten = (ls.map (between ord start limit)).flatten := by
  unfold between
  rw [List.filter_flatten]

/-- **The iterator over a table is a cursor** over the entries between the bounds. -/
theorem iter_spec (g : Good o fk) {r : TR} {T : List Blk} (t : Table o fk r T) (hTne : T ≠ [])
    (hs : ((T.map Blk.ents).flatten).Pairwise (fun x y => o.ord x.1 < o.ord y.1)) (start limit : Option Bytes) (strict : Bool) :
    ∃ v, r.iter o start limit strict = some v ∧ TabAt o (v, v.new) (between o.ord start limit (T.map Blk.ents).flatten) .before ∧
      ∀ as, v.asks v.new as = cursor o.ord (between o.ord start limit (T.map Blk.ents).flatten) .before as := by
  have hblk : ∀ t' ∈ T, t'.ents.Pairwise (fun x y => o.ord x.1 < o.ord y.1) := by
    intro t' ht'
    exact (List.pairwise_flatten.1 hs).1 _ (List.mem_map.2 ⟨t', ht', rfl⟩)
  have hidx : (T.map Blk.idx).Pairwise (fun x y => o.ord x.1 < o.ord y.1) := by
    rw [List.pairwise_map]
    refine t.before.imp_of_mem ?_
    intro a b _ hb hab
    obtain ⟨e, he⟩ := List.exists_mem_of_ne_nil _ (t.ne b hb)
    exact lt_of_lt_of_le (hab e he).1 (t.upTo b hb e he)
  have hread : ∀ t' ∈ T, r.dataBlock o t'.h = some (Block.ofBytes (blockBytes o.interval t'.ents)) := by
    intro t' ht'
    unfold TR.dataBlock
    rw [t.read t' ht']; rfl
  have hdec : ∀ t' ∈ T, decH (encH t'.h) = some (t'.h, []) := by
    intro t' ht'
    have := decH_enc t'.h (t.handle t' ht').1 (t.handle t' ht').2 []
    rwa [List.append_nil] at this
  refine ⟨⟨o, r, Block.ofBytes (blockBytes 1 (T.map Blk.idx)), start, limit, strict⟩, by unfold TR.iter; rw [t.index]; rfl, ?_⟩
  have hR := rep_of_writer (ord := o.ord) (I := 1) (by omega) (by simpa using hTne) hidx t.isize
  obtain ⟨lo, m, hi, g1, g2, g3, g4, g5, g6, g7, g8, g9⟩ := slice_spec hR start limit true
  rw [if_pos rfl] at g7
  rw [List.length_map] at g2 g3 g5 g6 g7
  have hlen := g8.hn
  rw [List.length_map] at hlen
  have hle := g8.le
  generalize hib : Block.ofBytes (blockBytes 1 (T.map Blk.idx)) = ib at *
  -- keys of the index
  have hkey : ∀ q (hq : q < T.length), keyOf (T.map Blk.idx) q = T[q].key := by
    intro q hq
    unfold keyOf
    rw [getD_of_lt (by simpa using hq), List.getElem_map]; rfl
  have hval : ∀ q (hq : q < T.length), valOf (T.map Blk.idx) q = encH T[q].h := by
    intro q hq
    unfold valOf
    rw [getD_of_lt (by simpa using hq), List.getElem_map]; rfl
  generalize hTm : (T.drop lo).take (hi - lo) = Tm
  have hTml : Tm.length = hi - lo := by rw [← hTm, List.length_take, List.length_drop]; omega
  have hTmg : ∀ j (hj : j < Tm.length), Tm[j] = T[lo + j]'(by omega) := by
    intro j hj
    subst hTm
    rw [List.getElem_take, List.getElem_drop]
  have hTmm : ∀ t' ∈ Tm, t' ∈ T := by
    intro t' ht'
    rw [← hTm] at ht'
    exact List.mem_of_mem_drop (List.mem_of_mem_take ht')
  have hX : part (T.map Blk.idx) lo hi = Tm.map Blk.idx := by
    unfold part
    rw [← hTm, List.map_take, List.map_drop]
  have hTmb : Tm.Pairwise (fun t t' => ∀ e ∈ t'.ents, t.Before o fk e.1) := by
    rw [← hTm]
    exact t.before.sublist ((List.take_sublist _ _).trans (List.drop_sublist _ _))
  have hbef : ∀ a b (ha : a < T.length) (hb : b < T.length), a < b → ∀ e ∈ T[b].ents, o.ord T[a].key < o.ord e.1 := by
    intro a b ha hb hab e he
    exact ((List.pairwise_iff_getElem.1 t.before) a b ha hb hab e he).1
  have hkmono : ∀ a b (ha : a < T.length) (hb : b < T.length), a ≤ b → o.ord T[a].key ≤ o.ord T[b].key := by
    intro a b ha hb hab
    rcases Nat.lt_or_ge a b with h | h
    · obtain ⟨e, he⟩ := List.exists_mem_of_ne_nil _ (t.ne T[b] (List.getElem_mem hb))
      exact le_of_lt (lt_of_lt_of_le (hbef a b ha hb h e he) (t.upTo _ (List.getElem_mem hb) e he))
    · have : a = b := by omega
      subst this; exact le_refl _
  have hbet : ∀ t' ∈ Tm, ∀ e ∈ between o.ord start limit t'.ents, e ∈ t'.ents := fun t' _ e he => List.mem_of_mem_filter he
  -- all the entries in the range lie in these blocks
  have hall : between o.ord start limit (T.map Blk.ents).flatten = (Tm.map (fun t' => between o.ord start limit t'.ents)).flatten := by
    have hsplit : T = T.take lo ++ (Tm ++ T.drop hi) := by
      have h1 : T.drop lo = Tm ++ T.drop hi := by
        rw [← hTm]
        conv_lhs => rw [← List.take_append_drop (hi - lo) (T.drop lo)]
        rw [List.drop_drop, show lo + (hi - lo) = hi by omega]
      rw [← h1, List.take_append_drop]
    rw [between_flat, List.map_map]
    conv_lhs => rw [hsplit]
    rw [List.map_append, List.map_append, List.flatten_append, List.flatten_append]
    have z1 : ((T.take lo).map (between o.ord start limit ∘ Blk.ents)).flatten = [] := by
      rw [List.flatten_eq_nil_iff]
      intro l hl
      obtain ⟨t', ht', rfl⟩ := List.mem_map.1 hl
      show between o.ord start limit t'.ents = []
      unfold between
      rw [List.filter_eq_nil_iff]
      intro e he
      obtain ⟨q, hq, rfl⟩ := List.getElem_of_mem ht'
      rw [List.length_take] at hq
      rw [List.getElem_take] at he
      cases hst : start with
      | none => rw [g4 hst] at hq; omega
      | some s =>
        have h1 := (g3 s hst).1 q (by omega)
        rw [hkey q (by omega)] at h1
        have h2 := lt_of_le_of_lt (t.upTo _ (List.getElem_mem (by omega : q < T.length)) e he) h1
        have : fromKey o.ord (some s) e = false := decide_eq_false (not_le_of_gt h2)
        rw [this]; simp
    have z2 : ((T.drop hi).map (between o.ord start limit ∘ Blk.ents)).flatten = [] := by
      rw [List.flatten_eq_nil_iff]
      intro l hl
      obtain ⟨t', ht', rfl⟩ := List.mem_map.1 hl
      show between o.ord start limit t'.ents = []
      unfold between
      rw [List.filter_eq_nil_iff]
      intro e he
      obtain ⟨q, hq, rfl⟩ := List.getElem_of_mem ht'
      rw [List.length_drop] at hq
      rw [List.getElem_drop] at he
      have hmn : m < T.length ∧ hi = m + 1 := by omega
      cases hst : limit with
      | none => have := g6 hst; omega
      | some s =>
        have h1 := (g5 s hst).2 hmn.1
        rw [hkey m hmn.1] at h1
        have h2 := hbef m (hi + q) hmn.1 (by omega) (by omega) e he
        have : toKey o.ord (some s) e = false := decide_eq_false (not_lt_of_ge (le_of_lt (lt_of_le_of_lt h1 h2)))
        rw [this]; simp
    rw [z1, z2, List.nil_append, List.append_nil]
    rfl
  rw [hall]
  have y : Sys (IEnv.gen ⟨o, r, ib, start, limit, strict⟩) (Tm.map Blk.idx) (Tm.map (fun t' => between o.ord start limit t'.ents))
      (fun i c => Cut ib (T.map Blk.idx).length (offOf 1 (T.map Blk.idx)) (startOf 1 (T.map Blk.idx)) lo hi i ∧
        Stands ib (keyOf (T.map Blk.idx)) (valOf (T.map Blk.idx)) (offOf 1 (T.map Blk.idx)) (startOf 1 (T.map Blk.idx)) lo hi i (c.at lo))
      (DatAt o.ord) := by
    refine ⟨?_, ?_, ?_, ?_, ?_, ?_, ?_, ?_, ?_, ?_⟩
    · rw [List.length_map, List.length_map]
    · show (Tm.map Blk.idx).length ≤ ib.fuel
      have := hR.n_le
      rw [List.length_map] at this ⊢
      omega
    · rintro i c a ⟨c1, c2⟩
      obtain ⟨s1, s2, s3⟩ := ask_stands hR c1 c2 a
      rw [hX] at s2 s3
      exact ⟨⟨c1.same s1, s3⟩, by rw [← at_isOn lo]; exact s2, stands_good hR s3⟩
    · rintro d l p a ⟨es, off, st, lo', hi', d1, d2, d3, rfl⟩
      obtain ⟨s1, s2, s3⟩ := ask_stands d1 d2 d3 a
      exact ⟨⟨es, off, st, lo', hi', d1, d2.same s1, s3, rfl⟩, by rw [← at_isOn lo']; exact s2, stands_good d1 s3⟩
    · rintro d l p ⟨es, off, st, lo', hi', d1, d2, d3, rfl⟩
      rw [← stands_sees d2.hn d3]; rfl
    · rintro i j ⟨c1, c2⟩
      have hjlt : lo + j < hi := c2.2.2.1
      have hjT : lo + j < T.length := by omega
      have hv : i.value = encH T[lo + j].h := by rw [c2.2.2.2.2.1, hval _ hjT]
      have htm := List.getElem_mem hjT
      have hLs : (Tm.map (fun t' => between o.ord start limit t'.ents)).getD j [] = between o.ord start limit T[lo + j].ents := by
        rw [List.getD_eq_getElem?_getD, List.getElem?_map, List.getElem?_eq_getElem (by omega), hTmg j (by omega)]; rfl
      rw [hLs]
      show DatAt o.ord (IEnv.get ⟨o, r, ib, start, limit, strict⟩ i) _ _
      unfold IEnv.get
      dsimp only
      rw [hv, hdec _ htm]
      dsimp only
      rw [hread _ htm]
      dsimp only
      by_cases hsl : (i.isFirst || i.isLast) = true
      · rw [if_pos hsl]
        exact slice_datAt g.interval (t.ne _ htm) o.ord (hblk _ htm) (t.small _ htm) start limit
      · rw [if_neg hsl]
        have h1 : j ≠ 0 := by
          intro h
          subst h
          exact hsl (by rw [isFirst_of hR c1 c2]; rfl)
        have h2 : lo + j + 1 ≠ hi := by
          intro h
          exact hsl (by rw [isLast_of hR c1 c2 h]; simp)
        have hb1 : between o.ord start limit T[lo + j].ents = T[lo + j].ents := by
          apply between_all
          · intro s hst e he
            have h3 := (g3 s hst).2 (by omega)
            rw [hkey lo (by omega)] at h3
            exact le_of_lt (lt_of_le_of_lt h3 (hbef lo (lo + j) (by omega) hjT (by omega) e he))
          · intro l hlim e he
            have h3 := (g5 l hlim).1 (lo + j) (by omega) (by omega)
            rw [hkey _ hjT] at h3
            exact lt_of_le_of_lt (t.upTo _ htm e he) h3
        have hb2 : between o.ord none none T[lo + j].ents = T[lo + j].ents := between_all (by intro s h; cases h) (by intro s h; cases h)
        have := slice_datAt g.interval (t.ne _ htm) o.ord (hblk _ htm) (t.small _ htm) none none
        rw [hb2] at this
        rw [hb1]
        exact this
    · rintro i j ⟨c1, c2⟩
      have : lo + j < hi := c2.2.2.1
      rw [List.length_map]; omega
    · rintro d l q ⟨es, off, st, lo', hi', d1, d2, d3, rfl⟩
      have h1 : lo' + q < hi' := d3.2.2.1
      have h2 := d2.hn
      unfold part
      rw [List.length_take, List.length_drop]; omega
    · intro k j hlow e he
      rw [← List.map_take] at he
      obtain ⟨l, hl, hel⟩ := List.mem_flatten.1 he
      obtain ⟨t', ht', rfl⟩ := List.mem_map.1 hl
      have htT := List.mem_of_mem_take ht'
      refine lt_of_le_of_lt (t.upTo t' (hTmm t' htT) e (hbet t' htT e hel)) (hlow t'.idx ?_)
      rw [← List.map_take]
      exact List.mem_map.2 ⟨t', ht', rfl⟩
    · intro k j hj hk e he
      rw [← List.map_drop] at he
      obtain ⟨l, hl, hel⟩ := List.mem_flatten.1 he
      obtain ⟨t', ht', rfl⟩ := List.mem_map.1 hl
      have htT := List.mem_of_mem_drop ht'
      rw [List.getElem_map] at hk
      rw [List.length_map] at hj
      obtain ⟨q, hq, hqe⟩ := List.getElem_of_mem ht'
      rw [List.length_drop] at hq
      rw [List.getElem_drop] at hqe
      have := (List.pairwise_iff_getElem.1 hTmb) j (j + 1 + q) hj (by omega) (by omega) e (by rw [hqe]; exact hbet t' htT e hel)
      exact le_of_lt (lt_of_le_of_lt hk this.1)
  exact ⟨⟨_, _, _, _, y, rfl, ⟨rfl, Or.inl ⟨rfl, ⟨g8, g9⟩, rfl⟩⟩, rfl⟩, fun as => asks2 y as (p := .before) ⟨rfl, Or.inl ⟨rfl, ⟨g8, g9⟩, rfl⟩⟩⟩

theorem table_at (g : Good o fk) {es : List (Bytes × Bytes)} (hne : es ≠ []) (hk : ∀ e ∈ es, e.1 ≠ [])
    (hs : es.Pairwise (fun x y => o.ord x.1 < o.ord y.1)) :
    ∃ w, tableOf o es = some w ∧ ((∀ d ∈ w.log, d.length < 2 ^ 32) → w.file.length < 2 ^ 63 →
      ∃ r, openT o w.file = some r ∧ ∀ start limit strict, ∃ v, r.iter o start limit strict = some v ∧
        TabAt o (v, v.new) (between o.ord start limit es) .before ∧ ∀ as, v.asks v.new as = cursor o.ord (between o.ord start limit es) .before as) := by
  have t0 : Took o fk (TW.new o) [] := ⟨[], [], [], new_mid g, rfl, rfl, fun h => absurd rfl h⟩
  obtain ⟨w, hw, t⟩ := appends_took g es [] _ t0 (by simpa using hs) hk
  rw [List.nil_append] at t
  refine ⟨w.close o, by unfold tableOf; rw [hw]; rfl, ?_⟩
  intro hlog hsz
  obtain ⟨r, T, hr, tb, hfl⟩ := close_open g t hne hs hlog hsz
  have hTne : T ≠ [] := by
    intro h
    rw [h] at hfl
    exact hne hfl.symm
  have hs' : ((T.map Blk.ents).flatten).Pairwise (fun x y => o.ord x.1 < o.ord y.1) := by rw [hfl]; exact hs
  refine ⟨r, hr, ?_⟩
  intro start limit strict
  obtain ⟨v, h1, h2, h3⟩ := iter_spec g tb hTne hs' start limit strict
  rw [hfl] at h2 h3
  exact ⟨v, h1, h2, h3⟩

/-- **The iterator over a table that was written is a cursor over the entries written**, within the
bounds, whatever is asked of it and in whatever order; and it reports no error. -/
theorem table_iterator_is_cursor (g : Good o fk) {es : List (Bytes × Bytes)} (hne : es ≠ []) (hk : ∀ e ∈ es, e.1 ≠ [])
    (hs : es.Pairwise (fun x y => o.ord x.1 < o.ord y.1)) :
    ∃ w, tableOf o es = some w ∧ ((∀ d ∈ w.log, d.length < 2 ^ 32) → w.file.length < 2 ^ 63 →
      ∃ r, openT o w.file = some r ∧ ∀ start limit strict, ∃ v, r.iter o start limit strict = some v ∧
        ∀ as, v.asks v.new as = cursor o.ord (between o.ord start limit es) .before as) := by
  obtain ⟨w, h1, h2⟩ := table_at g hne hk hs
  refine ⟨w, h1, fun hlog hsz => ?_⟩
  obtain ⟨r, h3, h4⟩ := h2 hlog hsz
  refine ⟨r, h3, fun start limit strict => ?_⟩
  obtain ⟨v, h5, _, h6⟩ := h4 start limit strict
  exact ⟨v, h5, h6⟩

end Verif.Tab
