import Verif.Plug.TokenLemmas

/-!
# The blocks of an account with a token: the pages -/

namespace Verif.Plug

/-- What holds of a node at any time. -/
structure InvT (n : TNode) (back : List Nat) : Prop where
  pre : ∀ k, Valid (n.chunks.take k).flatten
  all : Valid n.blocks
  spots : Spots n.blocks
  low : ∀ b ∈ n.blocks, b.height < maxUint64
  backs : ∀ h ∈ back, ∃ b ∈ n.blocks, b.hash = h
  pendKeys : n.idx.pend.map (·.1) = n.unconf.map (·.hash)
  pendRecs : ∀ b ∈ n.unconf, ∀ rs, (b.hash, rs) ∈ n.idx.pend → ∀ k x, (k, x) ∈ rs ↔ b.hash ∉ back ∧ x = b.hash ∧ SrcOf n.blocks b k
  base : Exact n.blocks (fun b => b ∈ n.chunks.flatten ∨ (b ∈ n.unconf ∧ b.hash ∈ back)) n.idx.base
  view : Exact n.blocks (fun b => b ∈ n.blocks) n.idx.view

theorem mem_without {bs gone : List Blk} {b : Blk} : b ∈ without bs gone ↔ b ∈ bs ∧ ∀ v ∈ gone, v.hash ≠ b.hash := by
  unfold without
  rw [List.mem_filter]
  simp

theorem InvT.conf {n : TNode} {back : List Nat} (h : InvT n back) : Valid n.chunks.flatten := by
  have := h.pre n.chunks.length
  rwa [List.take_length] at this

theorem InvT.unconfHashes {n : TNode} {back : List Nat} (h : InvT n back) : (n.unconf.map (·.hash)).Nodup := by
  have := h.all.hashes
  unfold TNode.blocks at this
  rw [List.map_append] at this
  exact (List.nodup_append.1 this).2.1

/-- Every unconfirmed block has a batch. -/
theorem InvT.pend_of {n : TNode} {back : List Nat} (h : InvT n back) {b : Blk} (hb : b ∈ n.unconf) : ∃ rs, (b.hash, rs) ∈ n.idx.pend := by
  have : b.hash ∈ n.idx.pend.map (·.1) := by rw [h.pendKeys]; exact List.mem_map.2 ⟨b, hb, rfl⟩
  obtain ⟨⟨x, rs⟩, hm, e⟩ := List.mem_map.1 this
  have e : x = b.hash := e
  subst e
  exact ⟨rs, hm⟩

theorem find_pend {p : List (Nat × List (Key × Nat))} (hn : (p.map (·.1)).Nodup) {h : Nat} {rs : List (Key × Nat)} (hm : (h, rs) ∈ p) : p.find? (fun e => decide (e.1 = h)) = some (h, rs) := by
  induction p with
  | nil => cases hm
  | cons x p ih =>
    rw [List.map_cons, List.nodup_cons] at hn
    rw [List.find?_cons]
    rcases List.mem_cons.1 hm with rfl | hm
    · simp
    · have : x.1 ≠ h := fun e => hn.1 (List.mem_map.2 ⟨_, hm, e.symm⟩)
      simp only [this, decide_false]
      exact ih hn.2 hm

/-- The disk with all batches has the keys of all blocks. -/
theorem InvT.full {n : TNode} {back : List Nat} (h : InvT n back) : Exact n.blocks (fun b => b ∈ n.blocks) (n.idx.base.puts (n.idx.pend.flatMap (·.2))) := by
  have := Exact.puts (Q := fun b => b ∈ n.unconf ∧ b.hash ∉ back) h.spots h.base (by
    rintro b (hb | hb)
    · exact List.mem_append_left _ hb
    · exact List.mem_append_right _ hb.1) (fun b hb => List.mem_append_right _ hb.1) (rs := n.idx.pend.flatMap (·.2)) (by
    intro k x
    rw [List.mem_flatMap]
    constructor
    · rintro ⟨⟨q, rs⟩, hm, hr⟩
      have hq : q ∈ n.unconf.map (·.hash) := by rw [← h.pendKeys]; exact List.mem_map.2 ⟨_, hm, rfl⟩
      obtain ⟨b, hb, e⟩ := List.mem_map.1 hq
      have e : b.hash = q := e
      subst e
      obtain ⟨h1, h2, h3⟩ := (h.pendRecs b hb rs hm k x).1 hr
      exact ⟨b, ⟨hb, h1⟩, h2.symm, h3⟩
    · rintro ⟨b, ⟨hb, h1⟩, h2, h3⟩
      obtain ⟨rs, hm⟩ := h.pend_of hb
      exact ⟨(b.hash, rs), hm, (h.pendRecs b hb rs hm k x).2 ⟨h1, h2.symm, h3⟩⟩)
  refine this.congr ?_
  intro b
  unfold TNode.blocks
  rw [List.mem_append]
  by_cases hb : b.hash ∈ back <;> simp [hb]

theorem filter_pend {n : TNode} {back : List Nat} (h : InvT n back) {bs : List Blk} (hb : ∀ b ∈ bs, b ∈ n.unconf) :
    (n.idx.pend.filter fun e => !bs.any fun b => decide (b.hash = e.1)).map (·.1) = (without n.unconf bs).map (·.hash) := by
  have e1 : (n.idx.pend.filter fun e => !bs.any fun b => decide (b.hash = e.1)).map (·.1) = (n.idx.pend.map (·.1)).filter fun x => !bs.any fun b => decide (b.hash = x) := by
    rw [List.filter_map]; rfl
  have e2 : (without n.unconf bs).map (·.hash) = (n.unconf.map (·.hash)).filter fun x => !bs.any fun b => decide (b.hash = x) := by
    unfold without
    rw [List.filter_map]; rfl
  rw [e1, e2, h.pendKeys]

theorem inv_stepT {n n' : TNode} {back : List Nat} (h : InvT n back) {op : TOp} (hm : MayT n back op) (hs : n.step op = some n') : InvT n' (backAfter back n' op) := by
  cases op with
  | insert b =>
    obtain ⟨hv, hsp, hlow⟩ := hm
    simp only [TNode.step] at hs
    split at hs
    · cases hs
    · rename_i ks hks
      cases hs
      have hblk : (⟨n.chunks, n.unconf ++ [b], ⟨n.idx.base, n.idx.pend ++ [(b.hash, ks.map fun k => (k, b.hash))], n.idx.view.puts (ks.map fun k => (k, b.hash))⟩⟩ : TNode).blocks = n.blocks ++ [b] := by
        show n.chunks.flatten ++ (n.unconf ++ [b]) = n.chunks.flatten ++ n.unconf ++ [b]
        rw [List.append_assoc]
      have hsub : ∀ c ∈ n.blocks, c ∈ n.blocks ++ [b] := fun c hc => List.mem_append_left _ hc
      have hbm : b ∈ n.blocks ++ [b] := by simp
      have hfresh : ∀ c ∈ n.blocks, c.hash ≠ b.hash := by
        intro c hc e
        have := hv.hashes
        rw [List.map_append, List.nodup_append] at this
        exact this.2.2 c.hash (List.mem_map.2 ⟨c, hc, rfl⟩) b.hash (by simp) e
      have hback : b.hash ∉ back := by
        intro hb
        obtain ⟨c, hc, e⟩ := h.backs _ hb
        exact hfresh c hc e
      have hspots : Spots (n.blocks ++ [b]) := by
        intro x hx y hy e1 e2
        rcases List.mem_append.1 hx with hx | hx <;> rcases List.mem_append.1 hy with hy | hy
        · exact h.spots x hx y hy e1 e2
        · simp only [List.mem_singleton] at hy
          rw [hy] at e1 e2
          exact absurd e2 (hsp x hx e1)
        · simp only [List.mem_singleton] at hx
          rw [hx] at e1 e2
          exact absurd e2.symm (hsp y hy e1.symm)
        · simp only [List.mem_singleton] at hx hy
          rw [hx, hy]
      refine ⟨h.pre, by rw [hblk]; exact hv, by rw [hblk]; exact hspots, ?_, ?_, ?_, ?_, ?_, ?_⟩
      · rw [hblk]
        intro c hc
        rcases List.mem_append.1 hc with hc | hc
        · exact h.low c hc
        · simp only [List.mem_singleton] at hc; rw [hc]; exact hlow
      · intro x hx
        obtain ⟨c, hc, e⟩ := h.backs x hx
        rw [hblk]
        exact ⟨c, hsub c hc, e⟩
      · show (n.idx.pend ++ [_]).map _ = (n.unconf ++ [b]).map _
        rw [List.map_append, List.map_append, h.pendKeys]
        rfl
      · rw [hblk]
        intro c hc rs hr k x
        have hr : (c.hash, rs) ∈ n.idx.pend ++ [(b.hash, ks.map fun k => (k, b.hash))] := hr
        have hc : c ∈ n.unconf ++ [b] := hc
        rcases List.mem_append.1 hc with hc | hc
        · have hcb : c ∈ n.blocks := List.mem_append_right _ hc
          rcases List.mem_append.1 hr with hr | hr
          · have := h.pendRecs c hc rs hr k x
            rw [srcOf_sub h.all hv hsub hcb] at this
            exact this
          · simp only [List.mem_singleton, Prod.mk.injEq] at hr
            exact absurd hr.1 (hfresh c hcb)
        · simp only [List.mem_singleton] at hc
          subst hc
          rcases List.mem_append.1 hr with hr | hr
          · exfalso
            have : c.hash ∈ n.unconf.map (·.hash) := by rw [← h.pendKeys]; exact List.mem_map.2 ⟨_, hr, rfl⟩
            obtain ⟨d, hd, e⟩ := List.mem_map.1 this
            exact hfresh d (List.mem_append_right _ hd) e
          · simp only [List.mem_singleton, Prod.mk.injEq, true_and] at hr
            subst hr
            have hkm := keys_mem hv hsub hbm hks
            rw [List.mem_map]
            constructor
            · rintro ⟨q, hq, e⟩
              cases e
              exact ⟨hback, rfl, (hkm k).1 hq⟩
            · rintro ⟨-, rfl, hsrc⟩
              exact ⟨k, (hkm k).2 hsrc, rfl⟩
      · rw [hblk]
        have := (Exact.sub h.all hv hsub (P := fun b => b ∈ n.chunks.flatten ∨ (b ∈ n.unconf ∧ b.hash ∈ back)) (v := n.idx.base) (by
          rintro c (hc | hc)
          · exact List.mem_append_left _ hc
          · exact List.mem_append_right _ hc.1)).1 h.base
        refine this.congr ?_
        intro c
        show _ ↔ c ∈ n.chunks.flatten ∨ (c ∈ n.unconf ++ [b] ∧ c.hash ∈ back)
        constructor
        · rintro (hc | ⟨h1, h2⟩)
          · exact Or.inl hc
          · exact Or.inr ⟨List.mem_append_left _ h1, h2⟩
        · rintro (hc | ⟨h1, h2⟩)
          · exact Or.inl hc
          · rcases List.mem_append.1 h1 with h1 | h1
            · exact Or.inr ⟨h1, h2⟩
            · simp only [List.mem_singleton] at h1
              rw [h1] at h2
              exact absurd h2 hback
      · rw [hblk]
        have h1 := (Exact.sub h.all hv hsub (P := fun b => b ∈ n.blocks) (v := n.idx.view) (fun c hc => hc)).1 h.view
        have hkm := keys_mem hv hsub hbm hks
        have h2 := Exact.puts (Q := fun c => c = b) hspots h1 hsub (fun c hc => by rw [hc]; exact hbm) (rs := ks.map fun k => (k, b.hash)) (by
          intro k x
          rw [List.mem_map]
          constructor
          · rintro ⟨q, hq, e⟩
            cases e
            exact ⟨b, rfl, rfl, (hkm k).1 hq⟩
          · rintro ⟨c, rfl, rfl, hsrc⟩
            exact ⟨k, (hkm k).2 hsrc, rfl⟩)
        refine h2.congr ?_
        intro c
        rw [List.mem_append, List.mem_singleton]
  | snapshot bs =>
    obtain ⟨hb, hv⟩ := hm
    simp only [TNode.step, Option.some.injEq] at hs
    subst hs
    have hbs : (bs.map (·.hash)).Nodup := by
      have := hv.hashes
      rw [List.map_append] at this
      exact (List.nodup_append.1 this).2.1
    generalize hn' : (⟨n.chunks ++ [bs], without n.unconf bs, ⟨n.idx.base.puts (bs.flatMap fun b => ((n.idx.pend.find? fun e => decide (e.1 = b.hash)).map (·.2)).getD []),
      n.idx.pend.filter (fun e => !bs.any fun b => decide (b.hash = e.1)), n.idx.view⟩⟩ : TNode) = n'
    have hperm : n.blocks.Perm n'.blocks := by
      rw [← hn']
      show (n.chunks.flatten ++ n.unconf).Perm ((n.chunks ++ [bs]).flatten ++ without n.unconf bs)
      rw [List.flatten_append, List.append_assoc]
      refine List.Perm.append_left _ ?_
      simpa [without] using (split_perm h.unconfHashes hbs hb).symm
    have hval : Valid n'.blocks := h.all.perm hperm
    have hsub : ∀ c ∈ n.blocks, c ∈ n'.blocks := fun c hc => hperm.mem_iff.1 hc
    have hpn : (n.idx.pend.map (·.1)).Nodup := by rw [h.pendKeys]; exact h.unconfHashes
    have hbase : Exact n.blocks (fun c => (c ∈ n.chunks.flatten ∨ (c ∈ n.unconf ∧ c.hash ∈ back)) ∨ (c ∈ bs ∧ c.hash ∉ back)) n'.idx.base := by
      rw [← hn']
      refine Exact.puts (Q := fun c => c ∈ bs ∧ c.hash ∉ back) h.spots h.base ?_ (fun c hc => List.mem_append_right _ (hb c hc.1)) ?_
      · rintro c (hc | hc)
        · exact List.mem_append_left _ hc
        · exact List.mem_append_right _ hc.1
      · intro k x
        rw [List.mem_flatMap]
        constructor
        · rintro ⟨c, hc, hr⟩
          obtain ⟨rs, hp⟩ := h.pend_of (hb c hc)
          rw [find_pend hpn hp] at hr
          obtain ⟨h1, h2, h3⟩ := (h.pendRecs c (hb c hc) rs hp k x).1 hr
          exact ⟨c, ⟨hc, h1⟩, h2.symm, h3⟩
        · rintro ⟨c, ⟨hc, h1⟩, h2, h3⟩
          obtain ⟨rs, hp⟩ := h.pend_of (hb c hc)
          refine ⟨c, hc, ?_⟩
          rw [find_pend hpn hp]
          exact (h.pendRecs c (hb c hc) rs hp k x).2 ⟨h1, h2.symm, h3⟩
    refine ⟨?_, hval, ?_, fun c hc => h.low c (hperm.mem_iff.2 hc), ?_, ?_, ?_, ?_, ?_⟩
    · intro k
      rw [← hn']
      show Valid ((n.chunks ++ [bs]).take k).flatten
      rcases take_append_le n.chunks bs k with e | e <;> rw [e]
      · exact h.pre k
      · simpa using hv
    · intro x hx y hy
      exact h.spots x (hperm.mem_iff.2 hx) y (hperm.mem_iff.2 hy)
    · intro x hx
      obtain ⟨c, hc, e⟩ := h.backs x hx
      exact ⟨c, hsub c hc, e⟩
    · rw [← hn']
      exact filter_pend h hb
    · intro c hc rs hr k x
      have hc' : c ∈ n.unconf := by rw [← hn'] at hc; exact (mem_without.1 hc).1
      have hr' : (c.hash, rs) ∈ n.idx.pend := by rw [← hn'] at hr; exact (List.mem_filter.1 hr).1
      have := h.pendRecs c hc' rs hr' k x
      rw [srcOf_sub h.all hval hsub (List.mem_append_right _ hc')] at this
      exact this
    · have hP : ∀ c, (c ∈ n.chunks.flatten ∨ (c ∈ n.unconf ∧ c.hash ∈ back)) ∨ (c ∈ bs ∧ c.hash ∉ back) → c ∈ n.blocks := by
        rintro c ((hc | hc) | hc)
        · exact List.mem_append_left _ hc
        · exact List.mem_append_right _ hc.1
        · exact List.mem_append_right _ (hb c hc.1)
      refine ((Exact.sub h.all hval hsub hP).1 hbase).congr ?_
      intro c
      rw [← hn']
      show _ ↔ c ∈ (n.chunks ++ [bs]).flatten ∨ (c ∈ without n.unconf bs ∧ c.hash ∈ back)
      rw [List.flatten_append, List.mem_append, mem_without]
      simp only [List.flatten_cons, List.flatten_nil, List.append_nil]
      constructor
      · rintro ((hc | hc) | hc)
        · exact Or.inl (Or.inl hc)
        · by_cases hcb : c ∈ bs
          · exact Or.inl (Or.inr hcb)
          · refine Or.inr ⟨⟨hc.1, fun v hv e => hcb ?_⟩, hc.2⟩
            rwa [← hash_unique h.unconfHashes (hb v hv) hc.1 e]
        · exact Or.inl (Or.inr hc.1)
      · rintro ((hc | hc) | hc)
        · exact Or.inl (Or.inl hc)
        · by_cases hcb : c.hash ∈ back
          · exact Or.inl (Or.inr ⟨hb c hc, hcb⟩)
          · exact Or.inr ⟨hc, hcb⟩
        · exact Or.inl (Or.inr ⟨hc.1.1, hc.2⟩)
    · have := (Exact.sub h.all hval hsub (P := fun b => b ∈ n.blocks) (fun c hc => hc)).1 h.view
      rw [← hn'] at this ⊢
      exact this.congr (fun c => by rw [hn']; exact hperm.mem_iff)
  | delete bs =>
    obtain ⟨hb, hv⟩ := hm
    simp only [TNode.step] at hs
    split at hs
    · cases hs
    · rename_i ks hks
      simp only [Option.some.injEq] at hs
      subst hs
      generalize hn' : (⟨n.chunks, without n.unconf bs, ⟨n.idx.base, n.idx.pend.filter (fun e => !bs.any fun b => decide (b.hash = e.1)), n.idx.view.dels ks⟩⟩ : TNode) = n'
      have hval : Valid n'.blocks := by rw [← hn']; exact hv
      have hmem : ∀ c, c ∈ n'.blocks ↔ c ∈ n.blocks ∧ c ∉ bs := by
        intro c
        rw [← hn']
        show c ∈ n.chunks.flatten ++ without n.unconf bs ↔ c ∈ n.chunks.flatten ++ n.unconf ∧ c ∉ bs
        rw [List.mem_append, List.mem_append, mem_without]
        constructor
        · rintro (hc | hc)
          · refine ⟨Or.inl hc, fun hcb => ?_⟩
            have hu := (hb c hcb).1
            have := h.all.hashes
            unfold TNode.blocks at this
            rw [List.map_append, List.nodup_append] at this
            exact this.2.2 c.hash (List.mem_map.2 ⟨c, hc, rfl⟩) c.hash (List.mem_map.2 ⟨c, hu, rfl⟩) rfl
          · exact ⟨Or.inr hc.1, fun hcb => hc.2 c hcb rfl⟩
        · rintro ⟨hc | hc, hcb⟩
          · exact Or.inl hc
          · refine Or.inr ⟨hc, fun v hv e => hcb ?_⟩
            rwa [← hash_unique h.unconfHashes (hb v hv).1 hc e]
      have hsub : ∀ c ∈ n'.blocks, c ∈ n.blocks := fun c hc => ((hmem c).1 hc).1
      refine ⟨by rw [← hn']; exact h.pre, hval, ?_, fun c hc => h.low c (hsub c hc), ?_, ?_, ?_, ?_, ?_⟩
      · intro x hx y hy
        exact h.spots x (hsub x hx) y (hsub y hy)
      · intro x hx
        obtain ⟨c, hc, e⟩ := h.backs x hx
        refine ⟨c, (hmem c).2 ⟨hc, fun hcb => (hb c hcb).2 ?_⟩, e⟩
        rw [e]; exact hx
      · rw [← hn']
        exact filter_pend h (fun b hm => (hb b hm).1)
      · intro c hc rs hr k x
        have hcn : c ∈ n'.blocks := List.mem_append_right _ hc
        have hc' : c ∈ n.unconf := by rw [← hn'] at hc; exact (mem_without.1 hc).1
        have hr' : (c.hash, rs) ∈ n.idx.pend := by rw [← hn'] at hr; exact (List.mem_filter.1 hr).1
        have := h.pendRecs c hc' rs hr' k x
        rw [← srcOf_sub hval h.all hsub hcn] at this
        exact this
      · have hPQ : ∀ c, (c ∈ n.chunks.flatten ∨ (c ∈ n.unconf ∧ c.hash ∈ back)) ↔ (c ∈ n'.chunks.flatten ∨ (c ∈ n'.unconf ∧ c.hash ∈ back)) := by
          intro c
          rw [← hn']
          show _ ↔ c ∈ n.chunks.flatten ∨ (c ∈ without n.unconf bs ∧ c.hash ∈ back)
          rw [mem_without]
          constructor
          · rintro (hc | ⟨h1, h2⟩)
            · exact Or.inl hc
            · exact Or.inr ⟨⟨h1, fun v hv e => (hb v hv).2 (by rw [e]; exact h2)⟩, h2⟩
          · rintro (hc | ⟨h1, h2⟩)
            · exact Or.inl hc
            · exact Or.inr ⟨h1.1, h2⟩
        have h1 := h.base.congr hPQ
        have h2 := (Exact.sub hval h.all hsub (by
          rintro c (hc | hc)
          · exact List.mem_append_left _ hc
          · exact List.mem_append_right _ hc.1)).2 h1
        rw [← hn'] at h2 ⊢
        exact h2
      · have h1 := Exact.dels h.spots h.view (fun c hc => hc) (bs := bs) (fun b hm => List.mem_append_right _ (hb b hm).1) (keysOf_mem h.all (fun b hm => List.mem_append_right _ (hb b hm).1) hks)
        have h2 := h1.congr (fun c => (hmem c).symm)
        have h3 := (Exact.sub hval h.all hsub (fun c hc => hc)).2 h2
        rw [← hn'] at h3 ⊢
        exact h3
  | rollback k keep =>
    have hm : k < n.chunks.length := hm
    simp only [TNode.step] at hs
    generalize hj : n.chunks.length - (k + 1) = j at hs
    have hjl : j < n.chunks.length := by omega
    have hdrop : n.chunks.drop j = n.chunks[j] :: n.chunks.drop (j + 1) := List.drop_eq_getElem_cons hjl
    have htake' : (n.chunks.take (j + 1)).flatten = (n.chunks.take j).flatten ++ n.chunks[j] := by
      rw [show n.chunks.take (j + 1) = n.chunks.take j ++ [n.chunks[j]] by rw [List.take_append_getElem], List.flatten_append]
      simp only [List.flatten_cons, List.flatten_nil, List.append_nil]
    generalize hnew : (if keep = true then (n.chunks.drop j).headD [] else []) = new at hs
    generalize hgone : (if keep = true then (n.chunks.drop j).tail.flatten else (n.chunks.drop j).flatten) = gone at hs
    have hsplit : (n.chunks.take j).flatten ++ new ++ gone = n.chunks.flatten := by
      cases keep with
      | false =>
        simp only [Bool.false_eq_true, if_false] at hnew hgone
        rw [← hnew, ← hgone, List.append_nil, ← List.flatten_append, List.take_append_drop]
      | true =>
        simp only [if_true] at hnew hgone
        rw [hdrop] at hnew hgone
        simp only [List.headD_cons, List.tail_cons] at hnew hgone
        rw [← hnew, ← hgone, ← htake', ← List.flatten_append, List.take_append_drop]
    have hval : Valid ((n.chunks.take j).flatten ++ new) := by
      cases keep with
      | false =>
        simp only [Bool.false_eq_true, if_false] at hnew
        rw [← hnew, List.append_nil]
        exact h.pre j
      | true =>
        simp only [if_true] at hnew
        rw [hdrop] at hnew
        simp only [List.headD_cons] at hnew
        rw [← hnew, ← htake']
        exact h.pre (j + 1)
    split at hs
    · cases hs
    · rename_i ks hks
      simp only [Option.some.injEq] at hs
      have hbl : n'.blocks = (n.chunks.take j).flatten ++ new := by rw [← hs]; rfl
      have hall : n.blocks = ((n.chunks.take j).flatten ++ new) ++ (gone ++ n.unconf) := by
        unfold TNode.blocks
        rw [← hsplit, List.append_assoc]
      have hmem : ∀ c, c ∈ n'.blocks ↔ c ∈ n.blocks ∧ c ∉ gone ++ n.unconf := by
        intro c
        rw [hbl, hall]
        constructor
        · intro hc
          refine ⟨List.mem_append_left _ hc, fun hg => ?_⟩
          have := h.all.hashes
          rw [hall, List.map_append, List.nodup_append] at this
          exact this.2.2 c.hash (List.mem_map.2 ⟨c, hc, rfl⟩) c.hash (List.mem_map.2 ⟨c, hg, rfl⟩) rfl
        · rintro ⟨hc, hg⟩
          exact (List.mem_append.1 hc).resolve_right hg
      have hsub : ∀ c ∈ n'.blocks, c ∈ n.blocks := fun c hc => ((hmem c).1 hc).1
      have hval' : Valid n'.blocks := by rw [hbl]; exact hval
      have hgm : ∀ c ∈ gone ++ n.unconf, c ∈ n.blocks := fun c hc => by rw [hall]; exact List.mem_append_right _ hc
      have hkm := keysOf_mem h.all hgm hks
      have hv1 : Exact n'.blocks (fun c => c ∈ n'.blocks) (n.idx.view.dels ks) :=
        (Exact.sub hval' h.all hsub (fun c hc => hc)).2 ((Exact.dels h.spots h.view (fun c hc => hc) hgm hkm).congr (fun c => (hmem c).symm))
      have hb1 : Exact n'.blocks (fun c => c ∈ n'.blocks) ((n.idx.base.puts (n.idx.pend.flatMap (·.2))).dels ks) :=
        (Exact.sub hval' h.all hsub (fun c hc => hc)).2 ((Exact.dels h.spots h.full (fun c hc => hc) hgm hkm).congr (fun c => (hmem c).symm))
      have hun : n'.unconf = new := by rw [← hs]
      have hch : n'.chunks = n.chunks.take j := by rw [← hs]
      show InvT n' (n'.unconf.map (·.hash))
      refine ⟨?_, hval', ?_, fun c hc => h.low c (hsub c hc), ?_, ?_, ?_, ?_, ?_⟩
      · intro i
        rw [hch, List.take_take]
        exact h.pre _
      · intro x hx y hy
        exact h.spots x (hsub x hx) y (hsub y hy)
      · intro x hx
        obtain ⟨c, hc, e⟩ := List.mem_map.1 hx
        exact ⟨c, List.mem_append_right _ hc, e⟩
      · rw [← hs]
        show (new.map _).map _ = new.map _
        rw [List.map_map]; rfl
      · intro c hc rs hr q x
        have : rs = [] := by
          rw [← hs] at hr
          obtain ⟨d, -, e⟩ := List.mem_map.1 hr
          exact (Prod.mk.inj e).2.symm
        subst this
        constructor
        · intro hx; cases hx
        · rintro ⟨h1, -⟩
          exact absurd (List.mem_map.2 ⟨c, hc, rfl⟩) h1
      · have : n'.idx.base = (n.idx.base.puts (n.idx.pend.flatMap (·.2))).dels ks := by rw [← hs]
        rw [this]
        refine hb1.congr ?_
        intro c
        unfold TNode.blocks
        rw [List.mem_append]
        constructor
        · rintro (hc | hc)
          · exact Or.inl hc
          · exact Or.inr ⟨hc, List.mem_map.2 ⟨c, hc, rfl⟩⟩
        · rintro (hc | hc)
          · exact Or.inl hc
          · exact Or.inr hc.1
      · have : n'.idx.view = n.idx.view.dels ks := by rw [← hs]
        rw [this]
        exact hv1
  | flush =>
    simp only [TNode.step, Option.some.injEq] at hs
    subst hs
    exact ⟨h.pre, h.all, h.spots, h.low, h.backs, h.pendKeys, h.pendRecs, h.base, h.full⟩

theorem reach_invT {n : TNode} {back : List Nat} (h : ReachT n back) : InvT n back := by
  induction h with
  | start =>
    have e : TNode.start.blocks = [] := rfl
    refine ⟨fun k => (by simpa [TNode.start] using valid_nil), (by rw [e]; exact valid_nil), ?_, ?_, (by simp), rfl, ?_, ?_, ?_⟩
    · rw [e]; intro b hb; cases hb
    · rw [e]; intro b hb; cases hb
    · intro b hb; cases hb
    · exact ⟨by simp [TNode.start], fun k x => ⟨fun h => (by cases h), (by rintro ⟨b, hb | hb, -⟩; cases hb; cases hb.1)⟩⟩
    · exact ⟨by simp [TNode.start], fun k x => ⟨fun h => (by cases h), (by rintro ⟨b, hb, -⟩; cases hb)⟩⟩
  | step _ hm hs ih => exact inv_stepT ih hm hs

theorem blockOf_mem {L : List Blk} (hn : (L.map (·.hash)).Nodup) {b : Blk} (hb : b ∈ L) : blockOf L b.hash = some b := by
  unfold blockOf
  induction L with
  | nil => cases hb
  | cons x L ih =>
    rw [List.map_cons, List.nodup_cons] at hn
    rw [List.find?_cons]
    rcases List.mem_cons.1 hb with rfl | hb
    · simp
    · have : x.hash ≠ b.hash := fun e => hn.1 (List.mem_map.2 ⟨b, hb, e.symm⟩)
      simp only [this, decide_false]
      exact ih hn.2 hb

theorem filterMap_heights {L : List Blk} {l : List (Key × Nat)} (h : ∀ e ∈ l, ∃ b, blockOf L e.2 = some b ∧ b.height = e.1.2.2) :
    (l.filterMap fun e => blockOf L e.2).map (·.height) = l.map fun e => e.1.2.2 := by
  induction l with
  | nil => rfl
  | cons x l ih =>
    obtain ⟨b, h1, h2⟩ := h x (by simp)
    rw [List.filterMap_cons, h1]
    simp only [List.map_cons, h2]
    rw [ih (fun e he => h e (List.mem_cons_of_mem _ he))]

/-- A page of a node is a page. -/
theorem page_is {n : TNode} {back : List Nat} (h : InvT n back) (a t max count : Nat) :
    IsPage n.blocks a t max count (((n.walk a t max).take count).filterMap fun e => blockOf n.blocks e.2) := by
  have hmem : ∀ e, e ∈ n.walk a t max ↔ e ∈ n.idx.view ∧ e.1.1 = a ∧ e.1.2.1 = t ∧ e.1.2.2 < max := by
    intro e
    unfold TNode.walk
    rw [(List.mergeSort_perm _ _).mem_iff, List.mem_filter]
    simp [and_assoc]
  have hsrc : ∀ e ∈ n.walk a t max, ∃ b ∈ n.blocks, blockOf n.blocks e.2 = some b ∧ b.height = e.1.2.2 ∧ b.addr = a ∧ Moves n.blocks b t ∧ b.height < max := by
    intro e he
    obtain ⟨h1, h2, h3, h4⟩ := (hmem e).1 he
    obtain ⟨k, x⟩ := e
    obtain ⟨b, hb, e1, s1, s2, s3⟩ := (h.view.mem k x).1 h1
    refine ⟨b, hb, ?_, s2, s1.trans h2, ?_, ?_⟩
    · rw [← e1]; exact blockOf_mem h.all.hashes hb
    · have h3 : k.2.1 = t := h3
      rw [← h3]; exact s3
    · rw [s2]; exact h4
  have hkeys : ((n.walk a t max).map (·.1)).Nodup := by
    unfold TNode.walk
    rw [((List.mergeSort_perm _ _).map _).nodup_iff]
    exact h.view.keys.sublist (List.filter_sublist.map _)
  have hsorted : (n.walk a t max).Pairwise fun x y => x.1.2.2 ≥ y.1.2.2 := by
    have := List.pairwise_mergeSort (le := fun x y : Key × Nat => decide (y.1.2.2 ≤ x.1.2.2)) (fun x y z => by simp; omega) (fun x y => by simp; omega)
      (n.idx.view.filter fun e => decide (e.1.1 = a) && decide (e.1.2.1 = t) && decide (e.1.2.2 < max))
    refine List.Pairwise.imp ?_ this
    intro x y e
    simpa using e
  have hstrict : (n.walk a t max).Pairwise fun x y => x.1.2.2 > y.1.2.2 := by
    have hne : (n.walk a t max).Pairwise fun x y => x.1 ≠ y.1 := by
      have := hkeys
      unfold List.Nodup at this
      rwa [List.pairwise_map] at this
    have := List.Pairwise.and_mem.1 (hsorted.and hne)
    refine List.Pairwise.imp ?_ this
    rintro x y ⟨hx, hy, h1, h2⟩
    obtain ⟨-, x1, x2, -⟩ := (hmem x).1 hx
    obtain ⟨-, y1, y2, -⟩ := (hmem y).1 hy
    have : x.1.2.2 ≠ y.1.2.2 := by
      intro e
      exact h2 (Prod.ext (x1.trans y1.symm) (Prod.ext (x2.trans y2.symm) e))
    omega
  have htk : ∀ e ∈ (n.walk a t max).take count, e ∈ n.walk a t max := fun e he => List.mem_of_mem_take he
  have hhts := filterMap_heights (L := n.blocks) (l := (n.walk a t max).take count) (fun e he => by
    obtain ⟨b, -, h1, h2, -⟩ := hsrc e (htk e he)
    exact ⟨b, h1, h2⟩)
  have hlen : (((n.walk a t max).take count).filterMap fun e => blockOf n.blocks e.2).length = ((n.walk a t max).take count).length := by
    have := congrArg List.length hhts
    simpa using this
  refine ⟨?_, ?_, ?_, ?_⟩
  · intro b hb
    obtain ⟨e, he, eb⟩ := List.mem_filterMap.1 hb
    obtain ⟨c, hc, h1, h2, h3, h4, h5⟩ := hsrc e (htk e he)
    rw [h1] at eb
    cases eb
    exact ⟨hc, h3, h4, h5⟩
  · have : (((n.walk a t max).take count).map fun e => e.1.2.2).Pairwise (· > ·) := by
      rw [List.pairwise_map]
      exact hstrict.sublist (List.take_sublist _ _)
    rw [← hhts, List.pairwise_map] at this
    exact this
  · rw [hlen, List.length_take]; omega
  · intro x hx hxa hxt hxm hxn
    have hxe : ((a, t, x.height), x.hash) ∈ n.walk a t max := by
      rw [hmem]
      refine ⟨(h.view.mem _ _).2 ⟨x, hx, rfl, hxa, rfl, hxt⟩, rfl, rfl, hxm⟩
    have hnot : ((a, t, x.height), x.hash) ∉ (n.walk a t max).take count := by
      intro hm
      exact hxn (List.mem_filterMap.2 ⟨_, hm, blockOf_mem h.all.hashes hx⟩)
    have hdrop : ((a, t, x.height), x.hash) ∈ (n.walk a t max).drop count := by
      have := hxe
      rw [← List.take_append_drop count (n.walk a t max)] at this
      exact (List.mem_append.1 this).resolve_left hnot
    refine ⟨?_, ?_⟩
    · rw [hlen, List.length_take]
      have := List.length_pos_of_mem hdrop
      rw [List.length_drop] at this
      omega
    · intro b hb
      obtain ⟨e, he, eb⟩ := List.mem_filterMap.1 hb
      obtain ⟨c, hc, h1, h2, -⟩ := hsrc e (htk e he)
      rw [h1] at eb
      cases eb
      have hp := hstrict
      rw [← List.take_append_drop count (n.walk a t max), List.pairwise_append] at hp
      have := hp.2.2 e he _ hdrop
      rw [h2]
      exact this

/-- **The first page is exact.** After any history in which no block is deleted that a rollback had made unconfirmed, and with flushes at any time, the first page has the highest blocks of the account
that move the token, in order, and leaves none out as long as there is room. -/
theorem first_page_partial {n : TNode} {back : List Nat} (h : ReachT n back) (a t count : Nat) : ∃ page, n.getBlocks a t none count = some page ∧ IsPage n.blocks a t maxUint64 count page :=
  ⟨_, rfl, page_is (reach_invT h) a t maxUint64 count⟩

/-- **Later pages are exact.** The page from a block on that itself sends or receives the token: it has the blocks from the height of that block downwards. -/
theorem next_page_partial {n : TNode} {back : List Nat} (h : ReachT n back) (a t count : Nat) {b : Blk} (hb : b ∈ n.blocks)
    (ht : (∃ d x, b.kind = .send d t x) ∨ ∃ s ∈ n.blocks.flatMap Blk.sends, b.src = some s.hash ∧ s.token = t) :
    ∃ page, n.getBlocks a t (some b.hash) count = some page ∧ IsPage n.blocks a t (b.height + 1) count page := by
  have inv := reach_invT h
  have htok : b.token (lookIn n.blocks) = some t := by
    unfold Blk.token
    rcases ht with ⟨d, x, e⟩ | ⟨s, hs, e1, e2⟩
    · rw [e]
    · unfold Blk.src at e1
      cases hk : b.kind with
      | send d u x => rw [hk] at e1; cases e1
      | genesis => rw [hk] at e1; cases e1
      | recv q =>
        rw [hk] at e1
        cases e1
        dsimp only
        rw [lookIn_mem inv.all hs, Option.map_some, e2]
  refine ⟨_, ?_, page_is inv a t (b.height + 1) count⟩
  unfold TNode.getBlocks
  dsimp only
  rw [blockOf_mem inv.all.hashes hb]
  dsimp only
  rw [htok]
  dsimp only
  rw [if_neg (by simp)]

/-- **A node keeps going.** Deletions and rollbacks never fail for want of a send. -/
theorem keysOf_some {L : List Blk} (hL : Valid L) : ∀ {bs : List Blk}, (∀ b ∈ bs, b ∈ L) → ∃ ks, keysOf (lookIn L) bs = some ks := by
  intro bs
  induction bs with
  | nil => intro _; exact ⟨[], rfl⟩
  | cons b bs ih =>
    intro hb
    obtain ⟨ks, hks⟩ := ih (fun c hc => hb c (List.mem_cons_of_mem _ hc))
    have hbL := hb b (by simp)
    have : ∃ t, b.token (lookIn L) = some t := by
      unfold Blk.token
      cases hk : b.kind with
      | send d u x => exact ⟨u, rfl⟩
      | genesis => exact absurd hk (hL.later b hbL)
      | recv q =>
        have hsrc : b.src = some q := by unfold Blk.src; rw [hk]
        obtain ⟨s, hs, e, -⟩ := hL.found b hbL q hsrc
        refine ⟨s.token, ?_⟩
        dsimp only
        rw [← e, lookIn_mem hL hs, Option.map_some]
    obtain ⟨t, ht⟩ := this
    unfold keysOf Blk.keys
    rw [ht, hks]
    exact ⟨_, rfl⟩

end Verif.Plug
