import Verif.Plug.InfoSpec

/-!
# What is on the road: sums -/

namespace Verif.Plug

/-- What an entry counts for an account and a token, by some weight of sends. -/
def val (w : Send → Int) (look : Nat → Option Send) (a t : Nat) : Ent → Int
  | .out s => if s.dest = a ∧ s.token = t then w s else 0
  | .inn b h =>
    match look h with
    | some s => if b = a ∧ s.token = t then -w s else 0
    | none => 0

/-- The sum of the entries. -/
def net (w : Send → Int) (look : Nat → Option Send) (a t : Nat) (es : List Ent) : Int := (es.map (val w look a t)).sum

theorem net_append (w : Send → Int) (look : Nat → Option Send) (a t : Nat) (x y : List Ent) : net w look a t (x ++ y) = net w look a t x + net w look a t y := by
  unfold net; rw [List.map_append, List.sum_append]

theorem net_perm {w : Send → Int} {look : Nat → Option Send} {a t : Nat} {x y : List Ent} (h : x.Perm y) : net w look a t x = net w look a t y :=
  (h.map _).sum_eq

/-- Entries in which a send and its receive fit together. -/
structure Fit (look : Nat → Option Send) (es : List Ent) : Prop where
  nodup : es.Nodup
  outs : ∀ s s', .out s ∈ es → .out s' ∈ es → s.hash = s'.hash → s = s'
  inns : ∀ a a' h, .inn a h ∈ es → .inn a' h ∈ es → a = a'
  pair : ∀ s a h, .out s ∈ es → .inn a h ∈ es → s.hash = h → s.dest = a
  looks : ∀ s, .out s ∈ es → look s.hash = some s

theorem Fit.sub {look : Nat → Option Send} {es fs : List Ent} (h : Fit look es) (hs : fs.Sublist es) : Fit look fs :=
  ⟨h.nodup.sublist hs, fun s s' h1 h2 => h.outs s s' (hs.subset h1) (hs.subset h2), fun a a' k h1 h2 => h.inns a a' k (hs.subset h1) (hs.subset h2),
    fun s a k h1 h2 => h.pair s a k (hs.subset h1) (hs.subset h2), fun s h1 => h.looks s (hs.subset h1)⟩

theorem sum_filter_key (f : Ent → Int) : ∀ {m : List Ent}, (m.map Ent.key).Nodup → ∀ {v : Ent}, v ∈ m → (m.map f).sum = f v + ((m.filter fun x => decide (x.key ≠ v.key)).map f).sum := by
  intro m
  induction m with
  | nil => intro _ v hv; cases hv
  | cons x m ih =>
    intro hn v hv
    rw [List.map_cons, List.nodup_cons] at hn
    rcases List.mem_cons.1 hv with rfl | hv
    · rw [List.filter_cons_of_neg (by simp), List.filter_eq_self.2]
      · simp
      · intro y hy
        simp only [decide_eq_true_eq, ne_eq]
        rintro e
        exact hn.1 (List.mem_map.2 ⟨y, hy, e⟩)
    · rw [List.filter_cons_of_pos (by simp only [decide_eq_true_eq, ne_eq]; rintro e; exact hn.1 (List.mem_map.2 ⟨v, hv, e.symm⟩)), List.map_cons, List.map_cons, List.sum_cons, List.sum_cons,
        ih hn.2 hv]
      omega

/-- Leaving out pairs changes no sum. -/
theorem cut_net {look : Nat → Option Send} (w : Send → Int) (a t : Nat) : ∀ (es m done : List Ent), Fit look (done ++ es) → (m.map Ent.key).Nodup → (∀ e ∈ m, e ∈ done) →
    net w look a t m = net w look a t done → net w look a t (es.foldl cutStep m) = net w look a t (done ++ es) ∧ (∀ e ∈ es.foldl cutStep m, e ∈ done ++ es) := by
  intro es
  induction es with
  | nil => intro m done _ _ hm hs; simpa using ⟨hs, hm⟩
  | cons e es ih =>
    intro m done hf hn hm hs
    have hre : done ++ e :: es = (done ++ [e]) ++ es := by simp
    rw [List.foldl_cons, hre]
    have hf' : Fit look ((done ++ [e]) ++ es) := by rw [← hre]; exact hf
    have hed : e ∉ done := by
      intro he
      have := hf.nodup
      rw [List.nodup_append] at this
      exact this.2.2 e he e (by simp) rfl
    have hem : e ∈ done ++ e :: es := by simp
    have hsub : ∀ x ∈ done, x ∈ done ++ e :: es := fun x hx => List.mem_append_left _ hx
    refine ih (cutStep m e) (done ++ [e]) hf' ?_ ?_ ?_
    · unfold cutStep
      split
      · split
        · exact hn.sublist (List.filter_sublist.map _)
        · rw [List.map_append, List.nodup_append]
          refine ⟨hn.sublist (List.filter_sublist.map _), by simp, ?_⟩
          intro x hx y hy hxy
          obtain ⟨z, hz, rfl⟩ := List.mem_map.1 hx
          simp only [List.map_cons, List.map_nil, List.mem_singleton] at hy
          have := (List.mem_filter.1 hz).2
          simp only [decide_eq_true_eq] at this
          exact this (hxy.trans hy)
      · rename_i hnone
        rw [List.map_append, List.nodup_append]
        refine ⟨hn, by simp, ?_⟩
        intro x hx y hy hxy
        obtain ⟨z, hz, rfl⟩ := List.mem_map.1 hx
        simp only [List.map_cons, List.map_nil, List.mem_singleton] at hy
        have := List.find?_eq_none.1 hnone z hz
        simp only [decide_eq_true_eq] at this
        exact this (hxy.trans hy)
    · intro x hx
      unfold cutStep at hx
      split at hx
      · split at hx
        · exact List.mem_append_left _ (hm x (List.mem_filter.1 hx).1)
        · rcases List.mem_append.1 hx with hx | hx
          · exact List.mem_append_left _ (hm x (List.mem_filter.1 hx).1)
          · exact List.mem_append_right _ hx
      · rcases List.mem_append.1 hx with hx | hx
        · exact List.mem_append_left _ (hm x hx)
        · exact List.mem_append_right _ hx
    · rw [net_append, ← hs]
      unfold cutStep
      split
      · rename_i v hv
        have hvm := List.mem_of_find?_eq_some hv
        have hvk : v.key = e.key := by simpa using List.find?_some hv
        have hvd := hm v hvm
        have hsum := sum_filter_key (val w look a t) hn hvm
        rw [hvk] at hsum
        split
        · rename_i hne
          have hz : val w look a t v + val w look a t e = 0 := by
            cases v with
            | out s =>
              cases e with
              | out s' => exact absurd rfl hne
              | inn b h =>
                have h1 : s.hash = h := hvk
                have h2 := hf.pair s b h (hsub _ hvd) hem h1
                have h3 := hf.looks s (hsub _ hvd)
                subst h1 h2
                simp only [val, h3]
                split_ifs <;> omega
            | inn b h =>
              cases e with
              | inn b' h' => exact absurd rfl hne
              | out s =>
                have h1 : s.hash = h := hvk.symm
                have h2 := hf.pair s b h hem (hsub _ hvd) h1
                have h3 := hf.looks s hem
                subst h1 h2
                simp only [val, h3]
                split_ifs <;> omega
          unfold net
          rw [hsum]
          simp
          omega
        · rename_i he
          exfalso
          simp only [ne_eq, not_not] at he
          cases v with
          | out s =>
            cases e with
            | inn b h => simp [Ent.isOut] at he
            | out s' =>
              have := hf.outs s s' (hsub _ hvd) hem hvk
              subst this
              exact hed hvd
          | inn b h =>
            cases e with
            | out s => simp [Ent.isOut] at he
            | inn b' h' =>
              have h1 : h = h' := hvk
              subst h1
              have := hf.inns b b' h (hsub _ hvd) hem
              subst this
              exact hed hvd
      · rw [net_append]

theorem sumsOf_addTo (g : List (Nat × Int × Int)) (t u : Nat) (n a : Int) :
    sumsOf (addTo g t n a) u = if u = t then some (((sumsOf g t).getD (0, 0)).1 + n, ((sumsOf g t).getD (0, 0)).2 + a) else sumsOf g u := by
  induction g with
  | nil =>
    unfold addTo sumsOf
    by_cases h : u = t
    · subst h; simp
    · simp [h, Ne.symm h]
  | cons e g ih =>
    obtain ⟨v, m, b⟩ := e
    unfold addTo
    by_cases hv : v = t
    · subst hv
      rw [if_pos rfl]
      by_cases h : u = v
      · subst h; simp [sumsOf]
      · simp [sumsOf, h, Ne.symm h]
    · rw [if_neg hv]
      by_cases h : u = t
      · subst h
        rw [if_pos rfl] at ih ⊢
        have e1 : sumsOf ((v, m, b) :: addTo g u n a) u = sumsOf (addTo g u n a) u := by simp [sumsOf, hv]
        have e2 : sumsOf ((v, m, b) :: g) u = sumsOf g u := by simp [sumsOf, hv]
        rw [e1, e2, ih]
      · rw [if_neg h] at ih ⊢
        by_cases hu : v = u
        · subst hu; simp [sumsOf]
        · have e1 : sumsOf ((v, m, b) :: addTo g t n a) u = sumsOf (addTo g t n a) u := by simp [sumsOf, hu]
          have e2 : sumsOf ((v, m, b) :: g) u = sumsOf g u := by simp [sumsOf, hu]
          rw [e1, e2, ih]

/-- Every token is listed once. -/
theorem addTo_nodup {g : List (Nat × Int × Int)} (h : (g.map (·.1)).Nodup) (t : Nat) (n a : Int) : ((addTo g t n a).map (·.1)).Nodup ∧ ∀ u ∈ (addTo g t n a).map (·.1), u = t ∨ u ∈ g.map (·.1) := by
  induction g with
  | nil => simp [addTo]
  | cons e g ih =>
    obtain ⟨v, m, b⟩ := e
    rw [List.map_cons, List.nodup_cons] at h
    unfold addTo
    by_cases hv : v = t
    · rw [if_pos hv]
      refine ⟨by rw [List.map_cons, List.nodup_cons]; exact h, fun u hu => Or.inr hu⟩
    · rw [if_neg hv]
      obtain ⟨i1, i2⟩ := ih h.2
      refine ⟨?_, ?_⟩
      · rw [List.map_cons, List.nodup_cons]
        refine ⟨fun hm => ?_, i1⟩
        rcases i2 v hm with rfl | hm
        · exact hv rfl
        · exact h.1 hm
      · intro u hu
        rw [List.map_cons] at hu
        rcases List.mem_cons.1 hu with rfl | hu
        · right; simp
        · rcases i2 u hu with rfl | hu
          · exact Or.inl rfl
          · right; rw [List.map_cons]; exact List.mem_cons_of_mem _ hu

/-- The sums of the entries of an account. -/
theorem aggregate_spec {look : Nat → Option Send} {a : Nat} : ∀ (es : List Ent) (g : List (Nat × Int × Int)), (∀ e ∈ es, e.addr = a) → (∀ b h, .inn b h ∈ es → look h ≠ none) → (g.map (·.1)).Nodup →
    ∃ g', aggregate look es g = some g' ∧ (g'.map (·.1)).Nodup ∧ ∀ t, (sumsOf g' t).getD (0, 0) =
      (((sumsOf g t).getD (0, 0)).1 + net (fun _ => 1) look a t es, ((sumsOf g t).getD (0, 0)).2 + net (fun s => s.amount) look a t es) := by
  intro es
  induction es with
  | nil => intro g _ _ hn; exact ⟨g, rfl, hn, fun t => by simp [net]⟩
  | cons e es ih =>
    intro g ha hl hn
    have ha' := ha e (by simp)
    have hes : ∀ e ∈ es, e.addr = a := fun x hx => ha x (List.mem_cons_of_mem _ hx)
    have hls : ∀ b h, Ent.inn b h ∈ es → look h ≠ none := fun b h hx => hl b h (List.mem_cons_of_mem _ hx)
    cases e with
    | out s =>
      obtain ⟨g', h1, h2, h3⟩ := ih (addTo g s.token 1 s.amount) hes hls (addTo_nodup hn _ _ _).1
      refine ⟨g', h1, h2, fun t => ?_⟩
      rw [h3 t, sumsOf_addTo]
      have hd : s.dest = a := ha'
      by_cases ht : t = s.token
      · subst ht
        simp [net, val, hd]
        omega
      · simp [net, val, ht, Ne.symm ht]
    | inn b h =>
      obtain ⟨s, hs⟩ := Option.ne_none_iff_exists'.1 (hl b h (by simp))
      obtain ⟨g', h1, h2, h3⟩ := ih (addTo g s.token (-1) (-(s.amount : Int))) hes hls (addTo_nodup hn _ _ _).1
      refine ⟨g', by unfold aggregate; rw [hs]; exact h1, h2, fun t => ?_⟩
      rw [h3 t, sumsOf_addTo]
      have hd : b = a := ha'
      by_cases ht : t = s.token
      · subst ht
        simp [net, val, hd, hs]
        omega
      · simp [net, val, ht, hs, Ne.symm ht]

/-- The entries of other accounts count nothing. -/
theorem net_filter (w : Send → Int) (look : Nat → Option Send) (a t : Nat) (es : List Ent) : net w look a t (es.filter fun e => decide (e.addr = a)) = net w look a t es := by
  induction es with
  | nil => rfl
  | cons e es ih =>
    by_cases h : e.addr = a
    · rw [List.filter_cons_of_pos (by simpa using h)]
      unfold net at ih ⊢
      rw [List.map_cons, List.map_cons, List.sum_cons, List.sum_cons, ih]
    · rw [List.filter_cons_of_neg (by simpa using h), ih]
      unfold net
      rw [List.map_cons, List.sum_cons]
      have : val w look a t e = 0 := by
        cases e with
        | out s => simp only [Ent.addr] at h; simp [val, h]
        | inn b k =>
          simp only [Ent.addr] at h
          simp only [val]
          split
          · rw [if_neg (by rintro ⟨h1, -⟩; exact h h1)]
          · rfl
      omega

/-- From the entry of some sends to that of others. -/
theorem change_meta (x y : List Send) : change (metaOf x) ((y.length : Int) - x.length) ((((y.map (·.amount)).sum : Nat) : Int) - ((x.map (·.amount)).sum : Nat)) = some (metaOf y) := by
  have hx1 : (((metaOf x).getD (0, 0)).1 : Int) = x.length := by unfold metaOf; split <;> simp_all
  have hx2 : (((metaOf x).getD (0, 0)).2 : Int) = ((x.map (·.amount)).sum : Nat) := by unfold metaOf; split <;> simp_all
  unfold change
  simp only [hx1, hx2]
  rw [show (x.length : Int) + (y.length - x.length) = y.length by omega,
    show ((((x.map (·.amount)).sum : Nat) : Int)) + ((((y.map (·.amount)).sum : Nat) : Int) - ((x.map (·.amount)).sum : Nat)) = ((y.map (·.amount)).sum : Nat) by omega]
  rw [if_neg (by
    rintro (h | h | ⟨h1, h2⟩)
    · omega
    · omega
    · have : y = [] := List.eq_nil_of_length_eq_zero (by omega)
      rw [this] at h1; simp at h1)]
  unfold metaOf
  by_cases hy : y = []
  · subst hy; simp
  · rw [if_neg hy, if_neg (by have := List.length_pos_iff.2 hy; omega)]
    simp

/-- The changed store is exact when it was exact and the entries add up to the difference. -/
theorem flush_exact {look : Nat → Option Send} {sign : Int} {es : List Ent} {db : Nat → Nat → Option Meta} {x y : Nat → Nat → List Send}
    (hdb : ∀ a t, db a t = metaOf (x a t)) (hl : ∀ b h, .inn b h ∈ es → look h ≠ none)
    (hn : ∀ a t, sign * net (fun _ => 1) look a t es = ((y a t).length : Int) - (x a t).length)
    (hs : ∀ a t, sign * net (fun s => s.amount) look a t es = ((((y a t).map (·.amount)).sum : Nat) : Int) - (((x a t).map (·.amount)).sum : Nat)) :
    ∀ a t, flush look sign es db a t = metaOf (y a t) := by
  intro a t
  obtain ⟨g, h1, -, h3⟩ := aggregate_spec (look := look) (a := a) (es.filter fun e => decide (e.addr = a)) [] (fun e he => by simpa using (List.mem_filter.1 he).2)
    (fun b h hm => hl b h (List.mem_filter.1 hm).1) (by simp)
  have h3 := h3 t
  rw [net_filter, net_filter] at h3
  have h4 : (sumsOf g t).getD (0, 0) = (net (fun _ => 1) look a t es, net (fun s => s.amount) look a t es) := by
    rw [h3]; simp [sumsOf]
  unfold flush
  rw [h1]
  dsimp only
  cases hg : sumsOf g t with
  | none =>
    rw [hg] at h4
    simp only [Option.getD_none, Prod.mk.injEq] at h4
    have e1 := hn a t
    have e2 := hs a t
    rw [← h4.1] at e1
    rw [← h4.2] at e2
    dsimp only
    rw [hdb a t]
    have := change_meta (x a t) (y a t)
    rw [← e1, ← e2] at this
    unfold metaOf at this ⊢
    by_cases hx : x a t = []
    · have : y a t = [] := List.eq_nil_of_length_eq_zero (by rw [hx] at e1; simp at e1; omega)
      rw [if_pos hx, if_pos this]
    · have hy : y a t ≠ [] := by
        intro hy
        rw [hy] at e1
        have := List.length_pos_iff.2 hx
        rw [List.length_nil] at e1
        omega
      rw [if_neg hx, if_neg hy]
      congr 2
      · omega
      · omega
  | some d =>
    obtain ⟨dn, da⟩ := d
    rw [hg] at h4
    simp only [Option.getD_some, Prod.mk.injEq] at h4
    dsimp only
    rw [h4.1, h4.2, hn a t, hs a t, hdb a t, change_meta]
    rfl

end Verif.Plug
