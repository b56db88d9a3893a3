import Verif.Mem.Lemmas
import Verif.Mem.Spec

/-! # The memory table is a sorted map, whatever heights are drawn -/

namespace Verif.Mem

variable {K V : Type} [LinearOrder K]

/-- The entries of some nodes. -/
def DB.entries (p : DB K V) (L : List Nat) : List (K × V) := L.filterMap p.pair

theorem entries_append (p : DB K V) (A B : List Nat) : p.entries (A ++ B) = p.entries A ++ p.entries B :=
  List.filterMap_append

theorem entries_cons {p : DB K V} {i : Nat} {k : K} {v : V} (hk : p.key i = some k) (hv : p.val i = some v)
    (L : List Nat) : p.entries (i :: L) = (k, v) :: p.entries L := by
  unfold DB.entries
  rw [List.filterMap_cons]
  simp [DB.pair, hk, hv]

theorem entries_congr {p q : DB K V} {L : List Nat} (h : ∀ i ∈ L, q.key i = p.key i ∧ q.val i = p.val i) :
    q.entries L = p.entries L := by
  unfold DB.entries
  refine List.filterMap_congr ?_
  intro i hi
  simp only [DB.pair, (h i hi).1, (h i hi).2]

theorem mem_entries {p : DB K V} {L : List Nat} {e : K × V} :
    e ∈ p.entries L ↔ ∃ i ∈ L, p.key i = some e.1 ∧ p.val i = some e.2 := by
  unfold DB.entries
  rw [List.mem_filterMap]
  constructor
  · rintro ⟨i, hi, he⟩
    refine ⟨i, hi, ?_⟩
    simp only [DB.pair] at he
    cases hk : p.key i with
    | none => simp [hk] at he
    | some k =>
      cases hv : p.val i with
      | none => simp [hk, hv] at he
      | some v =>
        simp only [hk, hv, Option.bind_some, Option.map_some, Option.some.injEq] at he
        subst he
        exact ⟨rfl, rfl⟩
  · rintro ⟨i, hi, hk, hv⟩
    exact ⟨i, hi, by simp [DB.pair, hk, hv]⟩

theorem entries_length {p : DB K V} {L : List Nat} (h : ∀ i ∈ L, ∃ k v, p.key i = some k ∧ p.val i = some v) :
    (p.entries L).length = L.length := by
  induction L with
  | nil => rfl
  | cons i L ih =>
    obtain ⟨k, v, hk, hv⟩ := h i (by simp)
    rw [entries_cons hk hv, List.length_cons, List.length_cons, ih (fun j hj => h j (by simp [hj]))]

theorem entries_sorted {p : DB K V} {L : List Nat} (h : Inv p L) :
    (p.entries L).Pairwise (fun a b => a.1 < b.1) := by
  unfold DB.entries
  rw [List.pairwise_filterMap]
  refine h.sorted.imp ?_
  intro a b hab x hx y hy
  simp only [DB.pair] at hx hy
  cases hk : p.key a with
  | none => simp [hk] at hx
  | some k =>
    cases hk' : p.key b with
    | none => simp [hk'] at hy
    | some k' =>
      cases hv : p.val a with
      | none => simp [hk, hv] at hx
      | some v =>
        cases hv' : p.val b with
        | none => simp [hk', hv'] at hy
        | some v' =>
          simp only [hk, hv, hk', hv', Option.bind_some, Option.map_some, Option.some.injEq] at hx hy
          rw [← hx, ← hy]
          exact hab k k' hk hk'

/-- The nodes are those below and then the others. -/
theorem Inv.cut {p : DB K V} {L : List Nat} (h : Inv p L) (k : K) : L = p.low L k ++ p.high L k := by
  have hs := h.sorted
  have hk := h.keys
  clear h
  induction L with
  | nil => rfl
  | cons a L ih =>
    rw [List.pairwise_cons] at hs
    by_cases ha : p.lt a k = true
    · have h1 : p.low (a :: L) k = a :: p.low L k := by exact List.filter_cons_of_pos (p := fun i => p.lt i k) ha
      have h2 : p.high (a :: L) k = p.high L k := by
        exact List.filter_cons_of_neg (p := fun i => !p.lt i k) (by simp [ha])
      rw [h1, h2, List.cons_append, ← ih hs.2 (fun i hi => hk i (by simp [hi]))]
    · have hall : ∀ b ∈ a :: L, p.lt b k = false := by
        intro b hb
        rcases List.mem_cons.1 hb with rfl | hb
        · simpa using ha
        · obtain ⟨x, _, hx, _⟩ := hk a (by simp)
          obtain ⟨y, _, hy, _⟩ := hk b (by simp [hb])
          have := hs.1 b hb x y hx hy
          simp only [DB.lt, hx, hy, decide_eq_true_eq, decide_eq_false_iff_not, not_lt] at ha ⊢
          exact le_trans ha (le_of_lt this)
      have := low_high (p := p) (A := []) (B := a :: L) (k := k) (by simp) hall
      rw [List.nil_append] at this
      rw [this.1, this.2, List.nil_append]

theorem low_mem {p : DB K V} {L : List Nat} {k : K} {a : Nat} (h : a ∈ p.low L k) :
    a ∈ L ∧ p.lt a k = true := List.mem_filter.1 h

theorem high_mem {p : DB K V} {L : List Nat} {k : K} {a : Nat} (h : a ∈ p.high L k) :
    a ∈ L ∧ p.lt a k = false := by
  obtain ⟨h1, h2⟩ := List.mem_filter.1 h
  exact ⟨h1, by simpa using h2⟩

/-- What a search finds, in terms of the entries. -/
theorem Inv.found {p : DB K V} {L : List Nat} (h : Inv p L) (k : K) :
    (∀ e ∈ p.entries (p.low L k), e.1 < k) ∧
    ((p.hit (p.high L k) k = true ∧ ∃ b B v, p.high L k = b :: B ∧ p.key b = some k ∧ p.val b = some v ∧
        ∀ e ∈ p.entries B, k < e.1) ∨
     (p.hit (p.high L k) k = false ∧ ∀ e ∈ p.entries (p.high L k), k < e.1)) := by
  have hc := h.cut k
  refine ⟨?_, ?_⟩
  · intro e he
    obtain ⟨i, hi, hk, _⟩ := mem_entries.1 he
    have := (low_mem hi).2
    simpa [DB.lt, hk] using this
  · cases hh : p.high L k with
    | nil => exact .inr ⟨rfl, by simp [DB.entries]⟩
    | cons b B =>
      have hb : b ∈ L ∧ p.lt b k = false := high_mem (by rw [hh]; simp)
      obtain ⟨x, v, hx, hv⟩ := h.keys b hb.1
      rw [hh] at hc
      have hi : Inv p (p.low L k ++ b :: B) := hc ▸ h
      have hs := (List.pairwise_cons.1 (List.pairwise_append.1 hi.sorted).2.1).1
      have hge : k ≤ x := by simpa [DB.lt, hx] using hb.2
      by_cases he : x = k
      · left
        refine ⟨by simp [DB.hit, DB.eq, hx, he], b, B, v, rfl, by rw [hx, he], hv, ?_⟩
        intro e hm
        obtain ⟨i, hi, hk, _⟩ := mem_entries.1 hm
        rw [← he]
        exact hs i hi x e.1 hx hk
      · right
        have hlt : k < x := lt_of_le_of_ne hge (Ne.symm he)
        refine ⟨by simp [DB.hit, DB.eq, hx, he], ?_⟩
        intro e hm
        rw [entries_cons hx hv] at hm
        rcases List.mem_cons.1 hm with rfl | hm
        · exact hlt
        · obtain ⟨i, hi, hk, _⟩ := mem_entries.1 hm
          exact lt_trans hlt (hs i hi x e.1 hx hk)

theorem filter_lt {k : K} {l1 l2 : List (K × V)} (h1 : ∀ e ∈ l1, e.1 < k) (h2 : ∀ e ∈ l2, k ≤ e.1) :
    (l1 ++ l2).filter (fun e => decide (e.1 < k)) = l1 := by
  rw [List.filter_append, List.filter_eq_self.2, List.filter_eq_nil_iff.2, List.append_nil]
  · intro e he
    simpa using h2 e he
  · intro e he
    simpa using h1 e he

theorem filter_gt {k : K} {l1 l2 : List (K × V)} (h1 : ∀ e ∈ l1, e.1 ≤ k) (h2 : ∀ e ∈ l2, k < e.1) :
    (l1 ++ l2).filter (fun e => decide (k < e.1)) = l2 := by
  rw [List.filter_append, List.filter_eq_nil_iff.2, List.filter_eq_self.2, List.nil_append]
  · intro e he
    simpa using h2 e he
  · intro e he
    simpa using h1 e he

/-! ### The lists after a put and after a delete -/

theorem link_eq (prev : Nat → Nat) (node : Nat) (next : Nat → Nat → Nat) (n a l : Nat) :
    link prev node n next a l =
      if l < n then (if a = prev l then node else if a = node then next (prev l) l else next a l)
      else next a l := by
  induction n with
  | zero => rfl
  | succ n ih =>
    simp only [link]
    by_cases hl : l = n
    · subst hl
      rw [if_pos rfl, if_pos (Nat.lt_succ_self l)]
      have h0 : ∀ b, link prev node l next b l = next b l := by
        intro b
        have : ∀ m, m ≤ l → link prev node m next b l = next b l := by
          intro m
          induction m with
          | zero => intro _; rfl
          | succ m ihm =>
            intro hm
            simp only [link]
            rw [if_neg (by omega)]
            exact ihm (by omega)
        exact this l (Nat.le_refl l)
      rw [h0, h0]
    · rw [if_neg hl, ih]
      by_cases hln : l < n
      · rw [if_pos hln, if_pos (Nat.lt_succ_of_lt hln)]
      · rw [if_neg hln, if_neg (show ¬ l < n + 1 by omega)]

theorem unlink_eq (prev : Nat → Nat) (next : Nat → Nat → Nat) (n a l : Nat) :
    unlink prev n next a l = if l < n ∧ a = prev l then next (next (prev l) l) l else next a l := by
  induction n with
  | zero => simp [unlink]
  | succ n ih =>
    simp only [unlink]
    by_cases hl : l = n
    · subst hl
      have h0 : ∀ b, unlink prev l next b l = next b l := by
        intro b
        have : ∀ m, m ≤ l → unlink prev m next b l = next b l := by
          intro m
          induction m with
          | zero => intro _; rfl
          | succ m ihm =>
            intro hm
            simp only [unlink]
            rw [if_neg (by omega)]
            exact ihm (by omega)
        exact this l (Nat.le_refl l)
      rw [h0, h0, h0]
      by_cases ha : a = prev l
      · rw [if_pos ⟨rfl, ha⟩, if_pos ⟨by omega, ha⟩]
      · rw [if_neg (by simp [ha]), if_neg (by simp [ha])]
    · rw [if_neg (by simp [hl]), ih]
      by_cases hln : l < n
      · by_cases ha : a = prev l
        · rw [if_pos ⟨hln, ha⟩, if_pos ⟨by omega, ha⟩]
        · rw [if_neg (by simp [ha]), if_neg (by simp [ha])]
      · rw [if_neg (by simp [hln]), if_neg (by omega)]

/-- The table holds the entries `m`. -/
def Holds (klen : K → Nat) (vlen : V → Nat) (p : DB K V) (m : List (K × V)) : Prop :=
  ∃ L, Inv p L ∧ p.entries L = m ∧ p.n = m.length ∧ p.size = total klen vlen m

theorem total_append (klen : K → Nat) (vlen : V → Nat) (a b : List (K × V)) :
    total klen vlen (a ++ b) = total klen vlen a + total klen vlen b := by
  induction a with
  | nil => simp [total]
  | cons e a ih => simp only [List.cons_append, total, ih]; omega

theorem new_inv : Inv (DB.new : DB K V) [] where
  nodup := by simp
  lt := by simp
  keys := by simp
  sorted := List.Pairwise.nil
  heights := by simp
  mh := ⟨by simp [DB.new], by simp [DB.new, maxH]⟩
  links := fun h => rfl
  used := by simp [DB.new]

theorem holds_new (klen : K → Nat) (vlen : V → Nat) : Holds klen vlen (DB.new : DB K V) [] :=
  ⟨[], new_inv, rfl, rfl, rfl⟩

theorem filter_congr_mem {q r : Nat → Bool} {L : List Nat} (h : ∀ i ∈ L, q i = r i) : L.filter q = L.filter r :=
  List.filter_congr h

/-- The table after a put: the lists, the nodes that stay, and the entries. -/
theorem put_spec (klen : K → Nat) (vlen : V → Nat) {p : DB K V} {L : List Nat} (hi : Inv p L) (k : K) (v : V)
    (h : Nat) (hh : 1 ≤ h ∧ h ≤ 12) (hn : p.n = (p.entries L).length)
    (hsz : p.size = total klen vlen (p.entries L)) :
    ∃ q L', p.put klen vlen k v h = some q ∧ Inv q L' ∧ (∀ i ∈ L, i ∈ L' ∧ q.key i = p.key i) ∧
      q.entries L' = (p.entries L).filter (fun e => decide (e.1 < k)) ++ (k, v) ::
        (p.entries L).filter (fun e => decide (k < e.1)) ∧
      q.n = (q.entries L').length ∧ q.size = total klen vlen (q.entries L') := by
  obtain ⟨prev, hf, hprev⟩ := findGE_spec hi k true
  have hprev := hprev rfl
  have hc := hi.cut k
  obtain ⟨hlow, hhigh⟩ := hi.found k
  unfold DB.put
  rcases hhigh with ⟨hhit, b, B, w, hb, hkb, hvb, hgt⟩ | ⟨hhit, hgt⟩
  · -- it is there
    have hhd : (p.high L k).headD 0 = b := by rw [hb]; rfl
    rw [hhd] at hf
    rw [hf]
    simp only [hhit, if_true]
    rw [hb] at hc
    have hbL : b ∈ L := by rw [hc]; simp
    have hnd := (List.nodup_cons.1 hi.nodup).2
    have hne : ∀ i ∈ p.low L k ++ B, i ≠ b := by
      intro i him he
      subst he
      rw [hc, List.nodup_append] at hnd
      rcases List.mem_append.1 him with h1 | h1
      · exact hnd.2.2 i h1 i (by simp) rfl
      · exact (List.nodup_cons.1 hnd.2.1).1 h1
    have hE : p.entries L = p.entries (p.low L k) ++ (k, w) :: p.entries B := by
      conv => lhs; rw [hc]
      rw [entries_append, entries_cons hkb hvb]
    have hfl : (p.entries L).filter (fun e => decide (e.1 < k)) = p.entries (p.low L k) := by
      rw [hE]
      refine filter_lt hlow ?_
      intro e he
      rcases List.mem_cons.1 he with rfl | he
      · exact le_refl _
      · exact le_of_lt (hgt e he)
    have hfg : (p.entries L).filter (fun e => decide (k < e.1)) = p.entries B := by
      rw [hE, List.append_cons]
      refine filter_gt ?_ hgt
      intro e he
      rcases List.mem_append.1 he with he | he
      · exact le_of_lt (hlow e he)
      · rw [List.mem_singleton] at he
        rw [he]
    rw [hfl, hfg]
    have hent : ({ p with
        val := fun i => if i = b then some v else p.val i
        size := p.size + (vlen v : Int) - (match p.val b with | some w => (vlen w : Int) | none => 0) } :
          DB K V).entries L = p.entries (p.low L k) ++ (k, v) :: p.entries B := by
      conv => lhs; rw [hc]
      rw [entries_append, entries_cons (i := b) (k := k) (v := v) (by exact hkb) (by simp only [if_true])]
      congr 1
      · refine entries_congr (fun i hi' => ⟨rfl, ?_⟩)
        simp only
        rw [if_neg (hne i (by simp [hi']))]
      · congr 1
        refine entries_congr (fun i hi' => ⟨rfl, ?_⟩)
        simp only
        rw [if_neg (hne i (by simp [hi']))]
    refine ⟨_, L, rfl, ⟨hi.nodup, hi.lt, ?_, hi.sorted, hi.heights, hi.mh, hi.links, hi.used⟩,
      fun i hi' => ⟨hi', rfl⟩, hent, ?_, ?_⟩
    · intro i hi'
      obtain ⟨x, y, h1, h2⟩ := hi.keys i hi'
      by_cases hib : i = b
      · exact ⟨x, v, h1, by simp [hib]⟩
      · exact ⟨x, y, h1, by simp [hib, h2]⟩
    · refine Eq.trans ?_ (congrArg List.length hent.symm)
      simp only
      rw [hn, hE]
      simp
    · refine Eq.trans ?_ (congrArg (total klen vlen) hent.symm)
      simp only [hvb]
      rw [hsz, hE]
      simp only [total_append, total]
      omega
  · -- it is not there
    rw [hf]
    simp only [hhit, Bool.false_eq_true, if_false]
    have hE : p.entries L = p.entries (p.low L k) ++ p.entries (p.high L k) := by
      conv => lhs; rw [hc]
      rw [entries_append]
    have hfl : (p.entries L).filter (fun e => decide (e.1 < k)) = p.entries (p.low L k) := by
      rw [hE]
      exact filter_lt hlow (fun e he => le_of_lt (hgt e he))
    have hfg : (p.entries L).filter (fun e => decide (k < e.1)) = p.entries (p.high L k) := by
      rw [hE]
      exact filter_gt (fun e he => le_of_lt (hlow e he)) hgt
    rw [hfl, hfg]
    have hmem : ∀ i, i ∈ p.low L k ∨ i ∈ p.high L k → i ∈ L := by
      rintro i (h1 | h1)
      · exact (low_mem h1).1
      · exact (high_mem h1).1
    have hne : ∀ i ∈ L, i ≠ p.used := by
      intro i hiL he
      have := hi.lt i hiL
      omega
    have hmh := hi.mh
    generalize hq : ({
      key := fun i => if i = p.used then some k else p.key i
      val := fun i => if i = p.used then some v else p.val i
      height := fun i => if i = p.used then h else p.height i
      next := link (fun i => if p.maxHeight ≤ i then 0 else prev i) p.used h p.next
      used := p.used + 1
      maxHeight := if p.maxHeight < h then h else p.maxHeight
      n := p.n + 1
      size := p.size + (klen k : Int) + (vlen v : Int) } : DB K V) = q
    have hkey : ∀ i, i ≠ p.used → q.key i = p.key i ∧ q.val i = p.val i ∧ q.height i = p.height i := by
      intro i hne
      rw [← hq]
      simp only [if_neg hne, and_self]
    have hnew : q.key p.used = some k ∧ q.val p.used = some v ∧ q.height p.used = h := by
      rw [← hq]; simp
    have hent : q.entries (p.low L k ++ p.used :: p.high L k) =
        p.entries (p.low L k) ++ (k, v) :: p.entries (p.high L k) := by
      rw [entries_append, entries_cons hnew.1 hnew.2.1]
      congr 1
      · exact entries_congr (fun i hi' => ⟨(hkey i (hne i (hmem i (.inl hi')))).1,
          (hkey i (hne i (hmem i (.inl hi')))).2.1⟩)
      · congr 1
        exact entries_congr (fun i hi' => ⟨(hkey i (hne i (hmem i (.inr hi')))).1,
          (hkey i (hne i (hmem i (.inr hi')))).2.1⟩)
    have hL' : ∀ i, i ∈ p.low L k ++ p.used :: p.high L k → i = p.used ∨ i ∈ L := by
      intro i hm
      rcases List.mem_append.1 hm with hm | hm
      · exact .inr (hmem i (.inl hm))
      · rcases List.mem_cons.1 hm with hm | hm
        · exact .inl hm
        · exact .inr (hmem i (.inr hm))
    have hin : ∀ i, i ∈ L → i ∈ p.low L k ++ p.used :: p.high L k := by
      intro i hm
      rw [hc] at hm
      rcases List.mem_append.1 hm with hm | hm
      · exact List.mem_append_left _ hm
      · exact List.mem_append_right _ (.tail _ hm)
    have hnd : (0 :: (p.low L k ++ p.used :: p.high L k)).Nodup := by
      have h1 : (0 :: (p.low L k ++ p.high L k)).Nodup := hc ▸ hi.nodup
      have h2 : p.used ∉ 0 :: (p.low L k ++ p.high L k) := by
        rw [← hc]
        intro hm
        rcases List.mem_cons.1 hm with hm | hm
        · have := hi.used; omega
        · exact hne _ hm rfl
      have h3 : (0 :: (p.low L k ++ p.used :: p.high L k)).Perm (p.used :: (0 :: (p.low L k ++ p.high L k))) :=
        (List.Perm.cons 0 List.perm_middle).trans (List.Perm.swap _ _ _)
      exact h3.nodup_iff.2 (List.nodup_cons.2 ⟨h2, h1⟩)
    refine ⟨q, p.low L k ++ p.used :: p.high L k, rfl, ⟨hnd, ?_, ?_, ?_, ?_, ?_, ?_, ?_⟩,
      fun i hiL => ⟨hin i hiL, (hkey i (hne i hiL)).1⟩, hent, ?_, ?_⟩
    · intro i hm
      have : q.used = p.used + 1 := by rw [← hq]
      rw [this]
      rcases hL' i hm with rfl | hm
      · omega
      · have := hi.lt i hm; omega
    · intro i hm
      rcases hL' i hm with rfl | hm
      · exact ⟨k, v, hnew.1, hnew.2.1⟩
      · rw [(hkey i (hne i hm)).1, (hkey i (hne i hm)).2.1]
        exact hi.keys i hm
    · have hs : (p.low L k ++ p.high L k).Pairwise
          (fun i j => ∀ a b, p.key i = some a → p.key j = some b → a < b) := hc ▸ hi.sorted
      rw [List.pairwise_append] at hs ⊢
      refine ⟨?_, List.pairwise_cons.2 ⟨?_, ?_⟩, ?_⟩
      · refine List.Pairwise.imp_of_mem ?_ hs.1
        intro a b ha hb hab
        rw [(hkey a (hne a (hmem a (.inl ha)))).1, (hkey b (hne b (hmem b (.inl hb)))).1]
        exact hab
      · intro b hb x y hx hy
        rw [hnew.1] at hx
        rw [(hkey b (hne b (hmem b (.inr hb)))).1] at hy
        obtain ⟨x', y', h1, h2⟩ := hi.keys b (hmem b (.inr hb))
        rw [h1] at hy
        have := hgt (x', y') (mem_entries.2 ⟨b, hb, h1, h2⟩)
        simp only [Option.some.injEq] at hx hy
        rw [← hx, ← hy]
        exact this
      · refine List.Pairwise.imp_of_mem ?_ hs.2.1
        intro a b ha hb hab
        rw [(hkey a (hne a (hmem a (.inr ha)))).1, (hkey b (hne b (hmem b (.inr hb)))).1]
        exact hab
      · intro a ha b hb x y hx hy
        rw [(hkey a (hne a (hmem a (.inl ha)))).1] at hx
        rcases List.mem_cons.1 hb with rfl | hb
        · rw [hnew.1] at hy
          obtain ⟨x', y', h1, h2⟩ := hi.keys a (hmem a (.inl ha))
          rw [h1] at hx
          have := hlow (x', y') (mem_entries.2 ⟨a, ha, h1, h2⟩)
          simp only [Option.some.injEq] at hx hy
          rw [← hx, ← hy]
          exact this
        · rw [(hkey b (hne b (hmem b (.inr hb)))).1] at hy
          exact hs.2.2 a ha b hb x y hx hy
    · intro i hm
      have hqm : q.maxHeight = if p.maxHeight < h then h else p.maxHeight := by rw [← hq]
      rw [hqm]
      rcases hL' i hm with rfl | hm
      · rw [hnew.2.2]
        split <;> omega
      · rw [(hkey i (hne i hm)).2.2]
        have := hi.heights i hm
        split <;> omega
    · have hqm : q.maxHeight = if p.maxHeight < h then h else p.maxHeight := by rw [← hq]
      rw [hqm]
      unfold maxH at *
      split <;> omega
    · intro l
      have hqn : ∀ a, q.next a l = if l < h then
          (if a = lastOr 0 ((p.low L k).filter (fun j => decide (l < p.height j))) then p.used
            else if a = p.used then p.next (lastOr 0 ((p.low L k).filter (fun j => decide (l < p.height j)))) l
            else p.next a l)
          else p.next a l := by
        intro a
        rw [← hq]
        simp only
        rw [link_eq]
        have : (if p.maxHeight ≤ l then 0 else prev l) =
            lastOr 0 ((p.low L k).filter (fun j => decide (l < p.height j))) := by
          by_cases hl : p.maxHeight ≤ l
          · rw [if_pos hl, List.filter_eq_nil_iff.2]
            · rfl
            · intro a ha
              have := (hi.heights a (low_mem ha).1).2
              simp only [decide_eq_true_eq]
              omega
          · rw [if_neg hl]
            exact hprev l (by omega)
        rw [this]
      have hfA : (p.low L k).filter (fun i => decide (l < q.height i)) =
          (p.low L k).filter (fun i => decide (l < p.height i)) :=
        filter_congr_mem (fun i hm => by rw [(hkey i (hne i (hmem i (.inl hm)))).2.2])
      have hfB : (p.high L k).filter (fun i => decide (l < q.height i)) =
          (p.high L k).filter (fun i => decide (l < p.height i)) :=
        filter_congr_mem (fun i hm => by rw [(hkey i (hne i (hmem i (.inr hm)))).2.2])
      have hlk : Links (fun a => p.next a l) 0 ((p.low L k).filter (fun i => decide (l < p.height i)) ++
          (p.high L k).filter (fun i => decide (l < p.height i))) := by
        have := hi.links l
        rw [hc, List.filter_append] at this
        exact this
      have hsub : (0 :: ((p.low L k).filter (fun i => decide (l < p.height i)) ++
          (p.high L k).filter (fun i => decide (l < p.height i)))).Nodup := by
        have h1 := hi.nodup
        have h2 : (0 :: ((p.low L k ++ p.high L k).filter (fun i => decide (l < p.height i)))).Sublist (0 :: L) := by
          rw [← hc]
          exact (List.filter_sublist).cons_cons 0
        rw [List.filter_append] at h2
        exact h1.sublist h2
      rw [List.filter_append, hfA]
      by_cases hl : l < h
      · rw [List.filter_cons_of_pos (by simp [hnew.2.2, hl]), hfB]
        refine links_insert p.used _ _ 0 hlk hsub ?_ ?_ ?_ ?_
        · intro hm
          rcases List.mem_cons.1 hm with hm | hm
          · have := hi.used; omega
          · rcases List.mem_append.1 hm with hm | hm
            · exact hne _ (hmem _ (.inl (List.mem_filter.1 hm).1)) rfl
            · exact hne _ (hmem _ (.inr (List.mem_filter.1 hm).1)) rfl
        · rw [hqn, if_pos hl, if_pos rfl]
        · rw [hqn, if_pos hl]
          by_cases he : p.used = lastOr 0 ((p.low L k).filter (fun j => decide (l < p.height j)))
          · exfalso
            rcases lastOr_mem ((p.low L k).filter (fun j => decide (l < p.height j))) 0 with ⟨h1, _⟩ | h1
            · rw [h1] at he
              have := hi.used; omega
            · rw [← he] at h1
              exact hne _ (hmem _ (.inl (List.mem_filter.1 h1).1)) rfl
          · rw [if_neg he, if_pos rfl]
        · intro y h1 h2
          rw [hqn, if_pos hl, if_neg h1, if_neg h2]
      · rw [List.filter_cons_of_neg (by simp [hnew.2.2]; omega), hfB]
        refine links_congr _ 0 (fun x _ => ?_) hlk
        rw [hqn, if_neg hl]
    · rw [← hq]
      simp
    · rw [hent, ← hq]
      simp only
      rw [hn, hE]
      simp
      omega
    · rw [hent, ← hq]
      simp only
      rw [hsz, hE]
      simp only [total_append, total]
      omega

/-- The table after a delete. -/
theorem delete_spec (klen : K → Nat) (vlen : V → Nat) {p : DB K V} {m : List (K × V)}
    (hm : Holds klen vlen p m) (k : K) :
    ∃ q, p.delete klen vlen k = some (q, m.any (fun e => decide (e.1 = k))) ∧
      Holds klen vlen q (m.filter (fun e => decide (e.1 ≠ k))) := by
  obtain ⟨L, hi, rfl, hn, hsz⟩ := hm
  obtain ⟨prev, hf, hprev⟩ := findGE_spec hi k true
  have hprev := hprev rfl
  have hc := hi.cut k
  obtain ⟨hlow, hhigh⟩ := hi.found k
  unfold DB.delete
  rcases hhigh with ⟨hhit, b, B, w, hb, hkb, hvb, hgt⟩ | ⟨hhit, hgt⟩
  · have hhd : (p.high L k).headD 0 = b := by rw [hb]; rfl
    rw [hhd] at hf
    rw [hf]
    simp only [hhit, if_true]
    rw [hb] at hc
    have hE : p.entries L = p.entries (p.low L k) ++ (k, w) :: p.entries B := by
      conv => lhs; rw [hc]
      rw [entries_append, entries_cons hkb hvb]
    have hfil : (p.entries L).filter (fun e => decide (e.1 ≠ k)) =
        p.entries (p.low L k) ++ p.entries B := by
      rw [hE, List.filter_append, List.filter_cons_of_neg (by simp), List.filter_eq_self.2,
        List.filter_eq_self.2]
      · intro e he
        simpa using ne_of_gt (hgt e he)
      · intro e he
        simpa using ne_of_lt (hlow e he)
    have hany : (p.entries L).any (fun e => decide (e.1 = k)) = true := by
      rw [hE]; simp
    rw [hany, hfil]
    have hbL : b ∈ L := by rw [hc]; simp
    have hsubl : (p.low L k ++ B).Sublist L := by
      conv => rhs; rw [hc]
      exact (List.sublist_cons_self b B).append_left _
    refine ⟨_, rfl, p.low L k ++ B, ⟨?_, ?_, ?_, ?_, ?_, hi.mh, ?_, hi.used⟩, ?_, ?_, ?_⟩
    · exact hi.nodup.sublist (hsubl.cons_cons 0)
    · exact fun i h => hi.lt i (hsubl.subset h)
    · exact fun i h => hi.keys i (hsubl.subset h)
    · exact hi.sorted.sublist hsubl
    · exact fun i h => hi.heights i (hsubl.subset h)
    · intro l
      have hlk := hi.links l
      have hhb := (hi.heights b hbL).2
      rw [hc, List.filter_append] at hlk
      rw [List.filter_append]
      have hsub : (0 :: ((p.low L k).filter (fun i => decide (l < p.height i)) ++
          (b :: B).filter (fun i => decide (l < p.height i)))).Nodup := by
        have h2 : (0 :: ((p.low L k ++ b :: B).filter (fun i => decide (l < p.height i)))).Sublist (0 :: L) := by
          rw [← hc]
          exact (List.filter_sublist).cons_cons 0
        rw [List.filter_append] at h2
        exact hi.nodup.sublist h2
      by_cases hl : l < p.height b
      · rw [List.filter_cons_of_pos (by simpa using hl)] at hlk hsub
        have hp : prev l = lastOr 0 ((p.low L k).filter (fun i => decide (l < p.height i))) :=
          hprev l (by omega)
        have hnx := links_next _ _ _ hlk
        simp only [List.headD_cons] at hnx
        refine links_remove b _ _ 0 hlk hsub ?_ ?_
        · simp only
          rw [unlink_eq, hp, if_pos ⟨hl, rfl⟩, hnx]
        · intro y hy
          simp only
          rw [unlink_eq, hp, if_neg (fun h => hy h.2)]
      · rw [List.filter_cons_of_neg (by simpa using hl)] at hlk
        refine links_congr _ 0 (fun x _ => ?_) hlk
        simp only
        rw [unlink_eq, if_neg (fun h => hl h.1)]
    · exact entries_append p _ _
    · simp only
      rw [hn, hE]
      simp
    · simp only [hkb, hvb]
      rw [hsz, hE]
      simp only [total_append, total]
      omega
  · rw [hf]
    simp only [hhit, Bool.false_eq_true, if_false]
    have hE : p.entries L = p.entries (p.low L k) ++ p.entries (p.high L k) := by
      conv => lhs; rw [hc]
      rw [entries_append]
    have hnone : ∀ e ∈ p.entries L, e.1 ≠ k := by
      intro e he
      rw [hE] at he
      rcases List.mem_append.1 he with he | he
      · exact ne_of_lt (hlow e he)
      · exact ne_of_gt (hgt e he)
    refine ⟨p, ?_, L, hi, ?_, ?_⟩
    · congr 2
      rw [eq_comm, List.any_eq_false]
      intro e he
      simpa using hnone e he
    · rw [eq_comm, List.filter_eq_self]
      intro e he
      simpa using hnone e he
    · rw [List.filter_eq_self.2]
      · exact ⟨hn, hsz⟩
      · intro e he
        simpa using hnone e he

/-- What a search finds, as a find in the entries. -/
theorem search_spec {p : DB K V} {L : List Nat} (hi : Inv p L) (k : K) :
    ∃ prev, p.findGE k false = some (((p.high L k).headD 0, p.hit (p.high L k) k), prev) ∧
      (if p.hit (p.high L k) k then p.val ((p.high L k).headD 0) else none) =
        ((p.entries L).find? (fun e => decide (e.1 = k))).map Prod.snd ∧
      p.hit (p.high L k) k = (p.entries L).any (fun e => decide (e.1 = k)) ∧
      (if (p.high L k).headD 0 ≠ 0 then p.pair ((p.high L k).headD 0) else none) =
        (p.entries L).find? (fun e => decide (k ≤ e.1)) := by
  obtain ⟨prev, hf, _⟩ := findGE_spec hi k false
  refine ⟨prev, hf, ?_⟩
  have hc := hi.cut k
  obtain ⟨hlow, hhigh⟩ := hi.found k
  have hE : p.entries L = p.entries (p.low L k) ++ p.entries (p.high L k) := by
    conv => lhs; rw [hc]
    rw [entries_append]
  have hl1 : (p.entries (p.low L k)).find? (fun e => decide (e.1 = k)) = none := by
    rw [List.find?_eq_none]
    intro e he
    simpa using ne_of_lt (hlow e he)
  have hl2 : (p.entries (p.low L k)).find? (fun e => decide (k ≤ e.1)) = none := by
    rw [List.find?_eq_none]
    intro e he
    simpa using hlow e he
  have hl3 : (p.entries (p.low L k)).any (fun e => decide (e.1 = k)) = false := by
    rw [List.any_eq_false]
    intro e he
    simpa using ne_of_lt (hlow e he)
  rw [hE, List.find?_append, List.find?_append, List.any_append, hl1, hl2, hl3]
  simp only [Option.none_or, Bool.false_or]
  rcases hhigh with ⟨hhit, b, B, w, hb, hkb, hvb, hgt⟩ | ⟨hhit, hgt⟩
  · have hb0 : b ≠ 0 := hi.ne_zero (by rw [hc, hb]; simp)
    rw [hhit, hb, entries_cons hkb hvb]
    simp [hvb, hb0, DB.pair, hkb]
  · rw [hhit]
    refine ⟨?_, ?_, ?_⟩
    · rw [List.find?_eq_none.2]
      · simp
      · intro e he
        simpa using ne_of_gt (hgt e he)
    · rw [eq_comm, List.any_eq_false]
      intro e he
      simpa using ne_of_gt (hgt e he)
    · cases hh : p.high L k with
      | nil => simp [DB.entries]
      | cons b B =>
        have hbL : b ∈ L := (high_mem (show b ∈ p.high L k by rw [hh]; simp)).1
        obtain ⟨x, y, hx, hy⟩ := hi.keys b hbL
        have hb0 : b ≠ 0 := hi.ne_zero hbL
        rw [hh, entries_cons hx hy] at hgt
        have := hgt (x, y) (by simp)
        rw [entries_cons hx hy, List.find?_cons_of_pos (by simpa using le_of_lt this)]
        simp [hb0, DB.pair, hx, hy]

/-- One question. -/
theorem step_spec (klen : K → Nat) (vlen : V → Nat) {p : DB K V} {m : List (K × V)}
    (hm : Holds klen vlen p m) (o : Op K V) (ho : o.fine) :
    ∃ q, step klen vlen p o = some (q, (specStep klen vlen m o).2) ∧
      Holds klen vlen q (specStep klen vlen m o).1 := by
  cases o with
  | put k v h =>
    obtain ⟨L, hi, rfl, hn, hsz⟩ := hm
    obtain ⟨q, L', h1, h2, _, h4, h5, h6⟩ := put_spec klen vlen hi k v h ho hn hsz
    refine ⟨q, by simp [step, h1, specStep], L', h2, h4, ?_, ?_⟩
    · rw [h5, h4]; rfl
    · rw [h6, h4]; rfl
  | del k =>
    obtain ⟨q, h1, h2⟩ := delete_spec klen vlen hm k
    exact ⟨q, by simp [step, h1, specStep], h2⟩
  | get k =>
    have hm' := hm
    obtain ⟨L, hi, rfl, hn, hsz⟩ := hm
    obtain ⟨prev, h1, h2, _, _⟩ := search_spec hi k
    refine ⟨p, ?_, hm'⟩
    simp only [step, DB.get, h1, Option.map_some, specStep]
    rw [h2]
  | has k =>
    have hm' := hm
    obtain ⟨L, hi, rfl, hn, hsz⟩ := hm
    obtain ⟨prev, h1, _, h2, _⟩ := search_spec hi k
    refine ⟨p, ?_, hm'⟩
    simp only [step, DB.contains, h1, Option.map_some, specStep]
    rw [h2]
  | find k =>
    have hm' := hm
    obtain ⟨L, hi, rfl, hn, hsz⟩ := hm
    obtain ⟨prev, h1, _, _, h2⟩ := search_spec hi k
    refine ⟨p, ?_, hm'⟩
    simp only [step, DB.find, h1, Option.map_some, specStep]
    rw [h2]
  | len =>
    have hm' := hm
    obtain ⟨L, hi, rfl, hn, hsz⟩ := hm
    exact ⟨p, by simp [step, specStep, hn], hm'⟩
  | size =>
    have hm' := hm
    obtain ⟨L, hi, rfl, hn, hsz⟩ := hm
    exact ⟨p, by simp [step, specStep, hsz], hm'⟩

theorem run_spec (klen : K → Nat) (vlen : V → Nat) (ops : List (Op K V)) :
    ∀ {p : DB K V} {m : List (K × V)}, Holds klen vlen p m → (∀ o ∈ ops, o.fine) →
      ∃ q, run klen vlen p ops = some (q, specRun klen vlen m ops) ∧
        Holds klen vlen q (specEnd klen vlen m ops) := by
  induction ops with
  | nil => intro p m h _; exact ⟨p, rfl, h⟩
  | cons o ops ih =>
    intro p m h hf
    obtain ⟨q, h1, h2⟩ := step_spec klen vlen h o (hf o (by simp))
    obtain ⟨r, h3, h4⟩ := ih h2 (fun o ho => hf o (by simp [ho]))
    exact ⟨r, by simp [run, h1, h3, specRun], h4⟩

/-- Whatever is asked of a new table, in whatever order, and whatever heights are drawn, the answers
are those of a sorted list of entries with one entry for a key; no search runs for ever. -/
theorem table_is_map (klen : K → Nat) (vlen : V → Nat) (ops : List (Op K V)) (h : ∀ o ∈ ops, o.fine) :
    ∃ q, run klen vlen (DB.new : DB K V) ops = some (q, specRun klen vlen [] ops) := by
  obtain ⟨q, h1, _⟩ := run_spec klen vlen ops (holds_new klen vlen) h
  exact ⟨q, h1⟩

/-- The heights that are drawn do not show. -/
theorem heights_hidden (klen : K → Nat) (vlen : V → Nat) (ops ops' : List (Op K V))
    (h : ∀ o ∈ ops, o.fine) (h' : ∀ o ∈ ops', o.fine)
    (hs : List.Forall₂ (fun o o' => o = o' ∨ ∃ k v a b, o = .put k v a ∧ o' = .put k v b) ops ops') :
    (run klen vlen (DB.new : DB K V) ops).map Prod.snd = (run klen vlen (DB.new : DB K V) ops').map Prod.snd := by
  obtain ⟨q, h1⟩ := table_is_map klen vlen ops h
  obtain ⟨q', h2⟩ := table_is_map klen vlen ops' h'
  rw [h1, h2]
  simp only [Option.map_some, Option.some.injEq]
  clear h1 h2 h h'
  generalize ([] : List (K × V)) = m
  induction hs generalizing m with
  | nil => rfl
  | cons ho _ ih =>
    rcases ho with rfl | ⟨k, v, a, b, rfl, rfl⟩
    · simp only [specRun]; rw [ih]
    · simp only [specRun, specStep]; rw [ih]

end Verif.Mem
