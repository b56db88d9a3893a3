import Verif.Batch.TopoModel

/-!
# Properties of sorting the account blocks of a chunk -/

namespace Verif.Batch

/-- Whether a node stands where everything it refers to in the list comes before it. -/
def InOrder (ns : List Node) : Prop := ∀ pre n post, ns = pre ++ n :: post → ∀ k ∈ n.inputs, (∃ m ∈ ns, k ∈ m.names) → ∃ m ∈ pre, k ∈ m.names

theorem realOf_some {ns : List Node} {k r : Nat} (h : realOf ns k = some r) : ∃ m ∈ ns, m.id = r ∧ k ∈ m.names := by
  unfold realOf at h
  rw [Option.map_eq_some_iff] at h
  obtain ⟨m, hm, rfl⟩ := h
  have h1 := List.find?_some hm
  have h2 := List.mem_of_find?_eq_some hm
  exact ⟨m, by simpa using h2, rfl, by simpa using h1⟩

theorem realOf_isSome {ns : List Node} {k : Nat} {m : Node} (hm : m ∈ ns) (hk : k ∈ m.names) : ∃ r, realOf ns k = some r := by
  unfold realOf
  cases h : ns.reverse.find? fun n => decide (k ∈ n.names) with
  | some m' => exact ⟨m'.id, rfl⟩
  | none =>
    rw [List.find?_eq_none] at h
    exact absurd (by simpa using hk) (h m (by simpa using hm))

theorem keepLast_nodup {ns : List Node} (h : (ns.map (·.id)).Nodup) : keepLast ns = ns := by
  induction ns with
  | nil => rfl
  | cons n ns ih =>
    simp only [List.map_cons, List.nodup_cons] at h
    unfold keepLast
    rw [if_neg, ih h.2]
    simp only [List.any_eq_true, decide_eq_true_eq, not_exists, not_and]
    intro m hm he
    exact h.1 (List.mem_map.2 ⟨m, hm, he⟩)

theorem id_inj {ns : List Node} (h : (ns.map (·.id)).Nodup) {a b : Node} (ha : a ∈ ns) (hb : b ∈ ns) (he : a.id = b.id) : a = b :=
  List.inj_on_of_nodup_map h ha hb he

theorem count_outputs (env : List Node) {ns : List Node} (h : (ns.map (·.id)).Nodup) (r : Nat) {u : Node} (hu : u ∈ ns) :
    (outputsOf env ns r).count u.id = (realInputs env u).count r := by
  have key : ∀ n : Node, (((realInputs env n).filter fun x => decide (x = r)).map fun _ => n.id).count u.id = if n.id = u.id then (realInputs env n).count r else 0 := by
    intro n
    rw [List.map_const', List.count_replicate]
    by_cases hn : n.id = u.id
    · rw [if_pos hn, if_pos (by simp [hn]), ← List.countP_eq_length_filter]
      rw [List.count_eq_countP]
      rfl
    · rw [if_neg hn, if_neg (by simpa using hn)]
  have zero : ∀ l : List Node, (∀ n ∈ l, n.id ≠ u.id) → (outputsOf env l r).count u.id = 0 := by
    intro l
    induction l with
    | nil => intro _; rfl
    | cons n l ih =>
      intro hl
      unfold outputsOf at ih ⊢
      rw [List.flatMap_cons, List.count_append, key n, if_neg (hl n List.mem_cons_self), ih fun n hn => hl n (List.mem_cons_of_mem _ hn)]
  induction ns with
  | nil => cases hu
  | cons n ns ih =>
    simp only [List.map_cons, List.nodup_cons] at h
    have hcons : (outputsOf env (n :: ns) r).count u.id = (if n.id = u.id then (realInputs env n).count r else 0) + (outputsOf env ns r).count u.id := by
      unfold outputsOf
      rw [List.flatMap_cons, List.count_append, key n]
    rw [hcons]
    rcases List.mem_cons.1 hu with rfl | hu
    · rw [if_pos rfl, zero ns fun m hm he => h.1 (List.mem_map.2 ⟨m, hm, he⟩), Nat.add_zero]
    · rw [if_neg (fun he => h.1 (List.mem_map.2 ⟨u, hu, he.symm⟩)), ih h.2 hu, Nat.zero_add]

theorem mem_outputs {env ns : List Node} {r o : Nat} (h : o ∈ outputsOf env ns r) : ∃ u ∈ ns, u.id = o ∧ r ∈ realInputs env u := by
  unfold outputsOf at h
  simp only [List.mem_flatMap, List.mem_map, List.mem_filter, decide_eq_true_eq] at h
  obtain ⟨u, hu, x, ⟨hx, rfl⟩, rfl⟩ := h
  exact ⟨u, hu, rfl, hx⟩

theorem countDown_all {us : List GNode} {os : List Nat} (h : ∀ o ∈ os, ∃ u ∈ us, u.id = o) :
    countDown us os = some (us.map fun u => { u with cnt := u.cnt - (os.count u.id : Int) }) := by
  induction os generalizing us with
  | nil => simp [countDown]
  | cons o os ih =>
    unfold countDown
    rw [if_pos, ih]
    · rw [List.map_map]
      congr 1
      refine List.map_congr_left fun u _ => ?_
      simp only [Function.comp]
      by_cases hu : u.id = o
      · subst hu
        simp only [if_true, List.count_cons_self]
        congr 1
        push_cast; omega
      · rw [if_neg hu, List.count_cons_of_ne (fun e => hu e.symm)]
    · intro x hx
      obtain ⟨u, hu, rfl⟩ := h x (List.mem_cons_of_mem _ hx)
      refine ⟨_, List.mem_map.2 ⟨u, hu, rfl⟩, ?_⟩
      split <;> rfl
    · simp only [List.any_eq_true, decide_eq_true_eq]
      obtain ⟨u, hu, he⟩ := h o List.mem_cons_self
      exact ⟨u, hu, he⟩

/-- What holds between two moves: every node is sorted or not, the counts are of the inputs that are not sorted, and the sorted ones are in order. -/
structure Moving (ns : List Node) (S : List Nat) (U : List GNode) : Prop where
  all : (S ++ U.map (·.id)).Perm (ns.map (·.id))
  node : ∀ u ∈ U, ∃ n ∈ ns, u.id = n.id ∧ u.outs = outputsOf ns ns n.id ∧ u.cnt = ((realInputs ns n).countP (fun r => decide (r ∈ U.map (·.id))) : Int)
  order : ∀ pre r post, S = pre ++ r :: post → ∀ n ∈ ns, n.id = r → ∀ x ∈ realInputs ns n, x ∈ pre

theorem realInputs_mem {ns : List Node} {n : Node} {x : Nat} (h : x ∈ realInputs ns n) : x ∈ ns.map (·.id) := by
  unfold realInputs at h
  rw [List.mem_filterMap] at h
  obtain ⟨k, -, hk⟩ := h
  obtain ⟨m, hm, rfl, -⟩ := realOf_some hk
  exact List.mem_map.2 ⟨m, hm, rfl⟩

theorem moving_start {ns : List Node} (h : (ns.map (·.id)).Nodup) : Moving ns [] (graphOf ns) := by
  unfold graphOf
  rw [keepLast_nodup h]
  refine ⟨by simp [List.map_map, Function.comp_def], ?_, fun pre r post hs => by simp at hs⟩
  intro u hu
  obtain ⟨n, hn, rfl⟩ := List.mem_map.1 hu
  refine ⟨n, hn, rfl, rfl, ?_⟩
  dsimp only
  rw [List.countP_eq_length.2]
  intro x hx
  rw [decide_eq_true_eq, List.map_map]
  exact realInputs_mem hx

/-- A node whose inputs are all sorted is moved. -/
theorem moving_one {ns : List Node} (hnd : (ns.map (·.id)).Nodup) {S : List Nat} {U : List GNode} (h : Moving ns S U) {g : GNode} (hg : ∃ u ∈ U, u.id = g.id ∧ u.outs = g.outs ∧ u.cnt = 0) :
    ∃ U', moveOne (S, U) g = some (S ++ [g.id], U') ∧ Moving ns (S ++ [g.id]) U' ∧ U'.length < U.length ∧
      (∀ v ∈ U, v.cnt = 0 → v.id ≠ g.id → ∃ v' ∈ U', v'.id = v.id ∧ v'.outs = v.outs ∧ v'.cnt = 0) := by
  obtain ⟨u, hu, hid, houts, hz⟩ := hg
  obtain ⟨n, hn, hun, hunouts, hcnt⟩ := h.node u hu
  have hall : (S ++ U.map (·.id)).Nodup := h.all.nodup_iff.2 hnd
  have hUnd : (U.map (·.id)).Nodup := (List.nodup_append.1 hall).2.1
  have hdisj : ∀ x ∈ S, x ∉ U.map (·.id) := fun x hx hx' => (List.nodup_append.1 hall).2.2 x hx x hx' rfl
  have hnin : ∀ x ∈ realInputs ns n, x ∉ U.map (·.id) := by
    have : (realInputs ns n).countP (fun r => decide (r ∈ U.map (·.id))) = 0 := by omega
    rw [List.countP_eq_zero] at this
    intro x hx
    have := this x hx
    simpa using this
  have hninS : ∀ x ∈ realInputs ns n, x ∈ S := by
    intro x hx
    have := h.all.mem_iff.2 (realInputs_mem hx)
    rcases List.mem_append.1 this with h' | h'
    · exact h'
    · exact absurd h' (hnin x hx)
  have hgid : g.id = n.id := by rw [← hid, hun]
  have hgouts : g.outs = outputsOf ns ns n.id := by rw [← houts, hunouts]
  have hnU : n.id ∈ U.map (·.id) := List.mem_map.2 ⟨u, hu, hun⟩
  have houtU : ∀ o ∈ g.outs, ∃ v ∈ U, v.id = o := by
    intro o ho
    rw [hgouts] at ho
    obtain ⟨w, hw, rfl, hwin⟩ := mem_outputs ho
    have hmem := h.all.mem_iff.2 (List.mem_map.2 ⟨w, hw, rfl⟩)
    rcases List.mem_append.1 hmem with h' | h'
    · obtain ⟨pre, post, hs⟩ := List.append_of_mem h'
      have := h.order pre w.id post hs w hw rfl n.id hwin
      exact absurd hnU (hdisj n.id (by rw [hs]; exact List.mem_append_left _ this))
    · obtain ⟨v, hv, he⟩ := List.mem_map.1 h'
      exact ⟨v, hv, he⟩
  have hno : g.id ∉ g.outs := by
    intro ho
    rw [hgouts, hgid] at ho
    obtain ⟨w, hw, hwid, hwin⟩ := mem_outputs ho
    have := id_inj hnd hw hn hwid
    subst this
    exact hnin _ hwin hnU
  have hmapid : ((U.map fun v => ({ v with cnt := v.cnt - (g.outs.count v.id : Int) } : GNode)).filter fun v => decide (v.id ≠ g.id)).map (·.id) =
      (U.map (·.id)).filter fun x => decide (x ≠ g.id) := by
    rw [List.filter_map, List.map_map, List.filter_map]
    rfl
  have hmemU' : ∀ x, x ∈ (U.map (·.id)).filter (fun x => decide (x ≠ g.id)) ↔ x ∈ U.map (·.id) ∧ x ≠ g.id := by
    intro x; rw [List.mem_filter, decide_eq_true_eq]
  refine ⟨_, by unfold moveOne; dsimp only; rw [countDown_all houtU]; rfl, ?_, ?_, ?_⟩
  · refine ⟨?_, ?_, ?_⟩
    · rw [hmapid]
      refine List.Perm.trans ?_ h.all
      rw [List.append_assoc]
      refine List.Perm.append_left _ ?_
      have herase : (U.map (·.id)).filter (fun x => decide (x ≠ g.id)) = (U.map (·.id)).erase g.id := by
        rw [hUnd.erase_eq_filter]
        congr 1
        funext x
        simp [bne, beq_eq_decide]
      rw [herase]
      exact (List.perm_cons_erase (by rw [hgid]; exact hnU)).symm
    · intro v hv
      rw [List.mem_filter, List.mem_map] at hv
      obtain ⟨⟨w, hw, rfl⟩, hne⟩ := hv
      simp only [decide_eq_true_eq] at hne
      obtain ⟨m, hm, hwm, hwo, hwc⟩ := h.node w hw
      refine ⟨m, hm, hwm, hwo, ?_⟩
      dsimp only
      rw [hmapid]
      have hcnt2 : (g.outs.count w.id : Int) = ((realInputs ns m).count g.id : Int) := by
        rw [hgouts, hwm, count_outputs ns hnd n.id hm, hgid]
      rw [hwc, hcnt2]
      have : (realInputs ns m).countP (fun r => decide (r ∈ U.map (·.id))) =
          (realInputs ns m).countP (fun r => decide (r ∈ (U.map (·.id)).filter fun x => decide (x ≠ g.id))) + (realInputs ns m).count g.id := by
        generalize realInputs ns m = l
        induction l with
        | nil => rfl
        | cons x l ih =>
          simp only [List.countP_cons, List.count_cons, ih, hmemU', decide_eq_true_eq]
          by_cases hx : x = g.id
          · have hm' : g.id ∈ U.map (·.id) := by rw [hgid]; exact hnU
            rw [hx]
            simp only [hm', ne_eq, not_true_eq_false, and_false, if_true, beq_self_eq_true, if_false]
            omega
          · simp [hx]; omega
      omega
    · intro pre r post hs m hm hmr x hx
      rcases List.eq_nil_or_concat post with rfl | ⟨post', w, rfl⟩
      · obtain ⟨rfl, he⟩ := List.append_inj' (hs : S ++ [g.id] = pre ++ [r]) rfl
        simp only [List.cons.injEq, and_true] at he
        have : m = n := id_inj hnd hm hn (by rw [hmr, ← he, hgid])
        subst this
        exact hninS x hx
      · have : S ++ [g.id] = (pre ++ r :: post') ++ [w] := by rw [hs]; simp
        exact h.order pre r post' (List.append_inj' this rfl).1 m hm hmr x hx
  · have : (U.map fun v => ({ v with cnt := v.cnt - (g.outs.count v.id : Int) } : GNode)).length = U.length := List.length_map _
    rw [← this]
    refine List.length_filter_lt_length_iff_exists.2 ⟨_, List.mem_map.2 ⟨u, hu, rfl⟩, ?_⟩
    simp [hid]
  · intro v hv hvz hvne
    refine ⟨_, List.mem_filter.2 ⟨List.mem_map.2 ⟨v, hv, rfl⟩, by simpa using hvne⟩, rfl, rfl, ?_⟩
    dsimp only
    obtain ⟨m, hm, hvm, -, hvc⟩ := h.node v hv
    have hc : (g.outs.count v.id) = (realInputs ns m).count g.id := by
      rw [hgouts, hvm, count_outputs ns hnd n.id hm, hgid]
    have : (realInputs ns m).count g.id = 0 := by
      rw [List.count_eq_zero]
      intro hin
      have hz' : (realInputs ns m).countP (fun r => decide (r ∈ U.map (·.id))) = 0 := by omega
      rw [List.countP_eq_zero] at hz'
      have := hz' _ hin
      simp only [decide_eq_true_eq] at this
      exact this (by rw [hgid]; exact hnU)
    omega

theorem moving_all {ns : List Node} (hnd : (ns.map (·.id)).Nodup) : ∀ (W : List GNode) (S : List Nat) (U : List GNode), Moving ns S U → (W.map (·.id)).Nodup →
    (∀ g ∈ W, ∃ u ∈ U, u.id = g.id ∧ u.outs = g.outs ∧ u.cnt = 0) →
    ∃ U', moveAll (S, U) W = some (S ++ W.map (·.id), U') ∧ Moving ns (S ++ W.map (·.id)) U' ∧ U'.length + W.length ≤ U.length := by
  intro W
  induction W with
  | nil => intro S U h _ _; exact ⟨U, by simp [moveAll], by simpa using h, by simp⟩
  | cons g W ih =>
    intro S U h hW hg
    simp only [List.map_cons, List.nodup_cons] at hW
    obtain ⟨U₁, h1, h2, h3, h4⟩ := moving_one hnd h (hg g List.mem_cons_self)
    obtain ⟨U₂, g1, g2, g3⟩ := ih (S ++ [g.id]) U₁ h2 hW.2 (by
      intro w hw
      obtain ⟨u, hu, hid, houts, hz⟩ := hg w (List.mem_cons_of_mem _ hw)
      obtain ⟨v, hv, e1, e2, e3⟩ := h4 u hu hz (by
        intro he
        exact hW.1 (List.mem_map.2 ⟨w, hw, by rw [← hid, he]⟩))
      exact ⟨v, hv, by rw [e1, hid], by rw [e2, houts], e3⟩)
    refine ⟨U₂, ?_, ?_, ?_⟩
    · unfold moveAll
      rw [h1]; dsimp only; rw [g1]; simp
    · simpa using g2
    · simp only [List.length_cons]; omega

/-- Nodes none of which can come first among them. -/
def Stuck (ns : List Node) : Prop := ∃ C : List Nat, C ≠ [] ∧ (∀ c ∈ C, c ∈ ns.map (·.id)) ∧ ∀ n ∈ ns, n.id ∈ C → ∃ x ∈ realInputs ns n, x ∈ C

theorem rounds_spec {ns : List Node} (hnd : (ns.map (·.id)).Nodup) : ∀ (f : Nat) (S : List Nat) (U : List GNode), Moving ns S U → U.length ≤ f →
    (∃ l, rounds f (S, U) = .done l ∧ Moving ns l []) ∨ (rounds f (S, U) = .cycle ∧ Stuck ns) := by
  intro f
  induction f with
  | zero =>
    intro S U h hl
    have : U = [] := List.eq_nil_of_length_eq_zero (by omega)
    subst this
    exact Or.inl ⟨S, rfl, h⟩
  | succ f ih =>
    intro S U h hl
    have hall : (S ++ U.map (·.id)).Nodup := h.all.nodup_iff.2 hnd
    have hUnd : (U.map (·.id)).Nodup := (List.nodup_append.1 hall).2.1
    unfold rounds
    dsimp only
    have hperm : (zeros U).Perm (U.filter fun u => decide (u.cnt = 0)) := List.perm_insertionSort _ _
    by_cases hc : ((zeros U).isEmpty && !U.isEmpty) = true
    · rw [if_pos hc]
      refine Or.inr ⟨rfl, U.map (·.id), ?_, ?_, ?_⟩
      · simp only [Bool.and_eq_true, Bool.not_eq_true', List.isEmpty_eq_false_iff] at hc
        simpa using hc.2
      · intro c hcm
        exact h.all.mem_iff.1 (List.mem_append_right _ hcm)
      · intro n hn hnU
        obtain ⟨u, hu, hun⟩ := List.mem_map.1 hnU
        obtain ⟨m, hm, hum, -, hcnt⟩ := h.node u hu
        have : n = m := id_inj hnd hn hm (by rw [← hun, hum])
        subst this
        have hne : u.cnt ≠ 0 := by
          intro hz
          simp only [Bool.and_eq_true, List.isEmpty_iff] at hc
          have : u ∈ zeros U := hperm.mem_iff.2 (List.mem_filter.2 ⟨hu, by simpa using hz⟩)
          rw [hc.1] at this
          cases this
        have hpos : 0 < (realInputs ns n).countP (fun r => decide (r ∈ U.map (·.id))) := by omega
        obtain ⟨x, hx, hxU⟩ := List.countP_pos_iff.1 hpos
        exact ⟨x, hx, by simpa using hxU⟩
    · rw [if_neg hc]
      have hz1 : ((zeros U).map (·.id)).Nodup := by
        rw [(hperm.map (·.id)).nodup_iff]
        exact hUnd.sublist (List.Sublist.map _ List.filter_sublist)
      have hz2 : ∀ g ∈ zeros U, ∃ u ∈ U, u.id = g.id ∧ u.outs = g.outs ∧ u.cnt = 0 := by
        intro g hg
        have := hperm.mem_iff.1 hg
        rw [List.mem_filter, decide_eq_true_eq] at this
        exact ⟨g, this.1, rfl, rfl, this.2⟩
      obtain ⟨U', h1, h2, h3⟩ := moving_all hnd (zeros U) S U h hz1 hz2
      rw [h1]
      dsimp only
      by_cases he : U'.isEmpty = true
      · rw [if_pos he]
        have : U' = [] := by simpa using he
        subst this
        exact Or.inl ⟨_, rfl, h2⟩
      · rw [if_neg he]
        refine ih _ U' h2 ?_
        have hzl : 0 < (zeros U).length := by
          by_contra h0
          have hz0 : zeros U = [] := List.eq_nil_of_length_eq_zero (by omega)
          have hUe : U = [] := by
            simp only [hz0, List.isEmpty_nil, Bool.true_and, Bool.not_eq_true', Bool.not_eq_false] at hc
            simpa using hc
          subst hUe
          simp only [List.length_nil] at h3
          have : U' = [] := List.eq_nil_of_length_eq_zero (by omega)
          simp [this] at he
        omega

/-- **C91.** Sorting blocks with different hashes does not panic, and when it gives an order, it is an order of the same blocks in which every block comes after the blocks of
the list it refers to. -/
theorem topo_ordered {ns : List Node} (hnd : (ns.map (·.id)).Nodup) :
    topoSort ns ≠ .panic ∧ ∀ r, topoSort ns = .done r → r.Perm ns ∧ InOrder r := by
  have hlen : (graphOf ns).length ≤ ns.length := by
    unfold graphOf; rw [keepLast_nodup hnd, List.length_map]
  rcases rounds_spec hnd ns.length [] (graphOf ns) (moving_start hnd) hlen with ⟨l, h1, h2⟩ | ⟨h1, -⟩
  · unfold topoSort
    rw [h1]
    refine ⟨by simp, ?_⟩
    intro r hr
    simp only [Sorted.done.injEq] at hr
    have hperm : r.Perm ns := by rw [← hr]; exact List.perm_insertionSort _ _
    have hsort : r.Pairwise fun a b => indexIn l a ≤ indexIn l b := by
      rw [← hr]
      have : Std.Total (α := Node) fun a b => indexIn l a ≤ indexIn l b := ⟨fun a b => Nat.le_total _ _⟩
      have : IsTrans Node fun a b => indexIn l a ≤ indexIn l b := ⟨fun a b c => Nat.le_trans⟩
      exact List.pairwise_insertionSort (fun a b => indexIn l a ≤ indexIn l b) ns
    refine ⟨hperm, ?_⟩
    intro pre n post hs k hk hm
    obtain ⟨m₀, hm₀, hkm₀⟩ := hm
    obtain ⟨x, hx⟩ := realOf_isSome (hperm.mem_iff.1 hm₀) hkm₀
    obtain ⟨m, hmn, rfl, hkm⟩ := realOf_some hx
    have hn : n ∈ ns := hperm.mem_iff.1 (by rw [hs]; simp)
    have hin : m.id ∈ realInputs ns n := List.mem_filterMap.2 ⟨k, hk, hx⟩
    have hlall : l.Perm (ns.map (·.id)) := by simpa using h2.all
    have hnl : n.id ∈ l := hlall.mem_iff.2 (List.mem_map.2 ⟨n, hn, rfl⟩)
    obtain ⟨p, q, hpq⟩ := List.append_of_mem hnl
    have hmp := h2.order p n.id q hpq n hn rfl m.id hin
    have hlt : indexIn l m < indexIn l n := by
      unfold indexIn
      have hln : l.Nodup := hlall.nodup_iff.2 hnd
      have h3 : l.findIdx (fun x => decide (x = n.id)) = p.length := by
        rw [hpq, List.findIdx_append]
        have hnp : n.id ∉ p := by
          intro h'
          rw [hpq] at hln
          exact (List.nodup_append.1 hln).2.2 n.id h' n.id (by simp) rfl
        have hnot : ¬ p.findIdx (fun x => decide (x = n.id)) < p.length := by
          rw [List.findIdx_lt_length]
          rintro ⟨y, hy, hye⟩
          simp only [decide_eq_true_eq] at hye
          exact hnp (hye ▸ hy)
        rw [if_neg hnot]
        simp [List.findIdx_cons]
      have h4 : l.findIdx (fun x => decide (x = m.id)) < p.length := by
        have : p.findIdx (fun x => decide (x = m.id)) < p.length := List.findIdx_lt_length.2 ⟨m.id, hmp, by simp⟩
        rw [hpq, List.findIdx_append, if_pos this]
        exact this
      omega
    have hmr : m ∈ r := hperm.mem_iff.2 hmn
    rw [hs] at hmr hsort
    rcases List.mem_append.1 hmr with h' | h'
    · exact ⟨m, h', hkm⟩
    · exfalso
      rcases List.mem_cons.1 h' with rfl | h'
      · omega
      · have := (List.pairwise_cons.1 (List.pairwise_append.1 hsort).2.1).1 m h'
        omega
  · unfold topoSort
    rw [h1]
    exact ⟨by simp, fun r hr => by simp at hr⟩

/-- **C91.** When no two blocks have a hash in common and there is an order in which every block comes after those it refers to, sorting gives one: it reports a cycle only when
there is one. -/
theorem topo_complete {ns : List Node} (hnd : (ns.map (·.id)).Nodup) (hnames : ∀ a ∈ ns, ∀ b ∈ ns, ∀ k, k ∈ a.names → k ∈ b.names → a = b)
    {o : List Node} (ho : o.Perm ns) (hord : InOrder o) : ∃ r, topoSort ns = .done r := by
  have hlen : (graphOf ns).length ≤ ns.length := by
    unfold graphOf; rw [keepLast_nodup hnd, List.length_map]
  rcases rounds_spec hnd ns.length [] (graphOf ns) (moving_start hnd) hlen with ⟨l, h1, -⟩ | ⟨-, C, hC, hCn, hstuck⟩
  · unfold topoSort
    rw [h1]
    exact ⟨_, rfl⟩
  · exfalso
    -- the first node of the order that is among the stuck ones
    have key : ∀ (q p : List Node), o = p ++ q → (∀ n ∈ p, n.id ∉ C) → ∀ n ∈ q, n.id ∉ C := by
      intro q
      induction q with
      | nil => intro p _ _ n hn; cases hn
      | cons a q ih =>
        intro p hp hpC
        have haC : a.id ∉ C := by
          intro ha
          have hao : a ∈ o := by rw [hp]; simp
          obtain ⟨x, hx, hxC⟩ := hstuck a (ho.mem_iff.1 hao) ha
          unfold realInputs at hx
          rw [List.mem_filterMap] at hx
          obtain ⟨k, hk, hr⟩ := hx
          obtain ⟨m, hm, rfl, hkm⟩ := realOf_some hr
          obtain ⟨m', hm', hkm'⟩ := hord p a q hp k hk ⟨m, ho.mem_iff.2 hm, hkm⟩
          have : m' = m := hnames m' (ho.mem_iff.1 (by rw [hp]; exact List.mem_append_left _ hm')) m hm k hkm' hkm
          subst this
          exact hpC m' hm' hxC
        intro n hn
        rcases List.mem_cons.1 hn with rfl | hn
        · exact haC
        · refine ih (p ++ [a]) (by rw [hp]; simp) ?_ n hn
          intro m hm
          rcases List.mem_append.1 hm with hm | hm
          · exact hpC m hm
          · simp only [List.mem_singleton] at hm; subst hm; exact haC
    obtain ⟨c, hc⟩ := List.exists_mem_of_ne_nil _ hC
    obtain ⟨n, hn, rfl⟩ := List.mem_map.1 (hCn c hc)
    exact key o [] rfl (fun n hn => by cases hn) n (ho.mem_iff.2 hn) hc

end Verif.Batch
