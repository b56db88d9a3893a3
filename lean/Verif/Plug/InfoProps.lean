import Verif.Plug.InfoLedger

/-!
# What is on the road: the answers -/

namespace Verif.Plug

theorem valid_nil : Valid [] := ⟨by simp, by simp, by simp, by simp, by simp, by simp⟩

/-- What holds of a node at any time. -/
structure Inv (n : Node) : Prop where
  pre : ∀ k, Valid (n.chunks.take k).flatten
  all : Valid n.blocks
  db : ∀ a t, n.plug.db a t = metaOf (waiting n.chunks.flatten a t)
  cache : ∀ a, (n.plug.cache a).Perm (n.unconf.filter fun b => decide (b.cacheAddr = a))

theorem Inv.conf {n : Node} (h : Inv n) : Valid n.chunks.flatten := by
  have := h.pre n.chunks.length
  rwa [List.take_length] at this

theorem hash_unique {L : List Blk} (hn : (L.map (·.hash)).Nodup) {b c : Blk} (hb : b ∈ L) (hc : c ∈ L) (e : b.hash = c.hash) : b = c := by
  induction L with
  | nil => cases hb
  | cons x L ih =>
    rw [List.map_cons, List.nodup_cons] at hn
    rcases List.mem_cons.1 hb with e1 | hb <;> rcases List.mem_cons.1 hc with e2 | hc
    · rw [e1, e2]
    · exact absurd (List.mem_map.2 ⟨c, hc, by rw [← e, e1]⟩) hn.1
    · exact absurd (List.mem_map.2 ⟨b, hb, by rw [e, e2]⟩) hn.1
    · exact ih hn.2 hb hc

theorem Inv.unconfHashes {n : Node} (h : Inv n) : (n.unconf.map (·.hash)).Nodup := by
  have := h.all.hashes
  unfold Node.blocks at this
  rw [List.map_append] at this
  exact (List.nodup_append.1 this).2.1

/-- Blocks taken out of the cache. -/
theorem remove_all (bs : List Blk) : ∀ (c : Nat → List Blk) (a : Nat), bs.foldl removeUnconfirmed c a = (c a).filter fun v => !bs.any fun b => decide (b.cacheAddr = a) && decide (v.hash = b.hash) := by
  induction bs with
  | nil => intro c a; simp
  | cons b bs ih =>
    intro c a
    rw [List.foldl_cons, ih]
    unfold removeUnconfirmed
    by_cases h : a = b.cacheAddr
    · rw [if_pos h, List.filter_filter]
      apply List.filter_congr
      intro v _
      rw [List.any_cons]
      by_cases h2 : v.hash = b.hash <;> simp [h, h2]
    · rw [if_neg h]
      apply List.filter_congr
      intro v _
      rw [List.any_cons]
      simp [Ne.symm h]

/-- Taking blocks that are unconfirmed out of the cache and of the unconfirmed blocks. -/
theorem remove_cache {n : Node} (h : Inv n) {bs : List Blk} (hb : ∀ b ∈ bs, b ∈ n.unconf) (a : Nat) :
    (bs.foldl removeUnconfirmed n.plug.cache a).Perm ((n.unconf.filter fun b => !bs.any fun v => decide (v.hash = b.hash)).filter fun b => decide (b.cacheAddr = a)) := by
  rw [remove_all]
  refine ((h.cache a).filter _).trans ?_
  rw [List.filter_filter, List.filter_filter]
  apply List.Perm.of_eq
  apply List.filter_congr
  intro v hv
  by_cases ha : v.cacheAddr = a
  · simp only [ha, decide_true, Bool.and_true, Bool.true_and]
    congr 1
    rw [Bool.eq_iff_iff, List.any_eq_true, List.any_eq_true]
    constructor
    · rintro ⟨b, hm, hp⟩
      simp only [Bool.and_eq_true, decide_eq_true_eq] at hp
      exact ⟨b, hm, by simpa using hp.2.symm⟩
    · rintro ⟨b, hm, hp⟩
      simp only [decide_eq_true_eq] at hp
      have := hash_unique h.unconfHashes (hb b hm) hv hp
      subst this
      exact ⟨b, hm, by simp [ha]⟩
  · simp [ha]

theorem flush_nil (look : Nat → Option Send) (sign : Int) (db : Nat → Nat → Option Meta) : flush look sign (cut []) db = db := rfl

/-- Inserting blocks with fresh hashes into an empty cache. -/
theorem insert_all (bs : List Blk) : ∀ (p : Plug), (bs.foldl Plug.insertBlock p).db = p.db ∧ ((bs.map (·.hash)).Nodup → (∀ a, ∀ v ∈ p.cache a, ∀ b ∈ bs, v.hash ≠ b.hash) →
    ∀ a, (bs.foldl Plug.insertBlock p).cache a = p.cache a ++ bs.filter fun b => decide (b.cacheAddr = a)) := by
  induction bs with
  | nil => intro p; exact ⟨rfl, fun _ _ a => by simp⟩
  | cons b bs ih =>
    intro p
    rw [List.foldl_cons]
    obtain ⟨i1, i2⟩ := ih (p.insertBlock b)
    refine ⟨i1, fun hn hf a => ?_⟩
    rw [List.map_cons, List.nodup_cons] at hn
    have hc : ∀ a, (p.insertBlock b).cache a = if a = b.cacheAddr then p.cache a ++ [b] else p.cache a := by
      intro a
      show addUnconfirmed p.cache b a = _
      unfold addUnconfirmed
      by_cases ha : a = b.cacheAddr
      · rw [if_pos ha, if_pos ha, if_neg]
        rw [List.any_eq_true]
        rintro ⟨v, hv, e⟩
        simp only [decide_eq_true_eq] at e
        exact hf a v hv b (by simp) e
      · rw [if_neg ha, if_neg ha]
    rw [i2 hn.2, hc]
    · by_cases ha : a = b.cacheAddr
      · rw [if_pos ha, List.filter_cons_of_pos (by simpa using ha.symm)]
        simp
      · rw [if_neg ha, List.filter_cons_of_neg (by simpa using Ne.symm ha)]
    · intro a v hv c hcm e
      rw [hc] at hv
      split at hv
      · rcases List.mem_append.1 hv with hv | hv
        · exact hf a v hv c (List.mem_cons_of_mem _ hcm) e
        · simp only [List.mem_singleton] at hv
          subst hv
          exact hn.1 (List.mem_map.2 ⟨c, hcm, e.symm⟩)
      · exact hf a v hv c (List.mem_cons_of_mem _ hcm) e

theorem take_append_le {α : Type} (l : List α) (x : α) (k : Nat) : (l ++ [x]).take k = l.take k ∨ (l ++ [x]).take k = l ++ [x] := by
  by_cases h : k ≤ l.length
  · left; rw [List.take_append_of_le_length h]
  · right; rw [List.take_of_length_le]; rw [List.length_append, List.length_singleton]; omega

/-- Taking confirmed blocks out of the unconfirmed ones keeps the whole. -/
theorem split_perm {U bs : List Blk} (hU : (U.map (·.hash)).Nodup) (hbs : (bs.map (·.hash)).Nodup) (hb : ∀ b ∈ bs, b ∈ U) : (bs ++ U.filter fun b => !bs.any fun v => decide (v.hash = b.hash)).Perm U := by
  have hU' : U.Nodup := hU.of_map _
  have hb' : bs.Nodup := hbs.of_map _
  have hiff : ∀ x ∈ U, (bs.any fun v => decide (v.hash = x.hash)) = true ↔ x ∈ bs := by
    intro x hx
    rw [List.any_eq_true]
    constructor
    · rintro ⟨v, hv, e⟩
      simp only [decide_eq_true_eq] at e
      rwa [← hash_unique hU (hb v hv) hx e]
    · exact fun h => ⟨x, h, by simp⟩
  rw [List.perm_ext_iff_of_nodup ?_ hU']
  · intro x
    rw [List.mem_append, List.mem_filter]
    constructor
    · rintro (h | h)
      · exact hb x h
      · exact h.1
    · intro hx
      by_cases h : x ∈ bs
      · exact Or.inl h
      · exact Or.inr ⟨hx, by rw [Bool.not_eq_true', Bool.eq_false_iff]; exact fun e => h ((hiff x hx).1 e)⟩
  · rw [List.nodup_append]
    refine ⟨hb', hU'.filter _, ?_⟩
    intro x hx y hy e
    subst e
    have := (List.mem_filter.1 hy)
    rw [(hiff x this.1).2 hx] at this
    exact absurd this.2 (by simp)

theorem inv_step {n : Node} (h : Inv n) {op : Op} (hm : May n op) : Inv (n.step op) := by
  cases op with
  | insert b =>
    have hm : Valid (n.blocks ++ [b]) := hm
    have hn : ∀ v ∈ n.unconf, v.hash ≠ b.hash := by
      intro v hv e
      have := hm.hashes
      rw [List.map_append, List.nodup_append] at this
      exact this.2.2 v.hash (List.mem_map.2 ⟨v, by unfold Node.blocks; exact List.mem_append_right _ hv, rfl⟩) b.hash (by simp) e
    refine ⟨h.pre, ?_, h.db, ?_⟩
    · show Valid (n.chunks.flatten ++ (n.unconf ++ [b]))
      rw [← List.append_assoc]; exact hm
    · intro a
      have h1 := (insert_all [b] n.plug).2 (by simp) (by
        intro a v hv c hc
        simp only [List.mem_singleton] at hc
        subst hc
        exact hn v (List.mem_filter.1 ((h.cache a).mem_iff.1 hv)).1) a
      show ((n.plug.insertBlock b).cache a).Perm ((n.unconf ++ [b]).filter _)
      rw [List.filter_append]
      have h1 : (n.plug.insertBlock b).cache a = n.plug.cache a ++ [b].filter fun b => decide (b.cacheAddr = a) := h1
      rw [h1]
      exact (h.cache a).append_right _
  | snapshot bs =>
    obtain ⟨hb, hv⟩ := hm
    have hbs : (bs.map (·.hash)).Nodup := by
      have := hv.hashes
      rw [List.map_append] at this
      exact (List.nodup_append.1 this).2.1
    refine ⟨?_, ?_, ?_, ?_⟩
    · intro k
      show Valid ((n.chunks ++ [bs]).take k).flatten
      rcases take_append_le n.chunks bs k with e | e <;> rw [e]
      · exact h.pre k
      · simpa using hv
    · refine h.all.perm ?_
      show (n.chunks.flatten ++ n.unconf).Perm ((n.chunks ++ [bs]).flatten ++ n.unconf.filter fun b => !bs.any fun v => decide (v.hash = b.hash))
      rw [List.flatten_append, List.append_assoc]
      refine List.Perm.append_left _ ?_
      simpa using (split_perm h.unconfHashes hbs hb).symm
    · have hk : Knows (lookIn n.blocks) (n.chunks.flatten ++ bs) := knows_lookIn h.all (fun b hm => by
        rcases List.mem_append.1 hm with hm | hm
        · exact List.mem_append_left _ hm
        · exact List.mem_append_right _ (hb b hm))
      intro a t
      show flush (lookIn n.blocks) 1 (cut bs) n.plug.db a t = metaOf (waiting (n.chunks ++ [bs]).flatten a t)
      rw [(flush_blocks h.conf hv hk).1 h.db a t]
      simp
    · exact remove_cache h hb
  | delete bs =>
    obtain ⟨hb, hv⟩ := hm
    exact ⟨h.pre, hv, h.db, remove_cache h hb⟩
  | rollback k keep =>
    have hm : k < n.chunks.length := hm
    generalize hj : n.chunks.length - (k + 1) = j
    have hjl : j < n.chunks.length := by omega
    have hleft := h.pre j
    have hleft1 := h.pre (j + 1)
    have hsplit : n.chunks.take j ++ n.chunks.drop j = n.chunks := List.take_append_drop j n.chunks
    have hdrop : n.chunks.drop j = n.chunks[j] :: n.chunks.drop (j + 1) := List.drop_eq_getElem_cons hjl
    have htake : n.chunks.take (j + 1) = n.chunks.take j ++ [n.chunks[j]] := by rw [List.take_append_getElem]
    have htake' : (n.chunks.take (j + 1)).flatten = (n.chunks.take j).flatten ++ n.chunks[j] := by rw [htake, List.flatten_append]; simp only [List.flatten_cons, List.flatten_nil, List.append_nil]
    have hall : (n.chunks.take (j + 1)).flatten ++ (n.chunks.drop (j + 1)).flatten = n.chunks.flatten := by rw [← List.flatten_append, List.take_append_drop]
    have hall0 : (n.chunks.take j).flatten ++ (n.chunks.drop j).flatten = n.chunks.flatten := by rw [← List.flatten_append, hsplit]
    have hpre : ∀ i, Valid ((n.chunks.take j).take i).flatten := by
      intro i
      rw [List.take_take]
      exact h.pre _
    have hkn : ∀ {L : List Blk}, (∀ b ∈ L, b ∈ n.chunks.flatten) → Knows (lookIn n.blocks) L := fun hL => knows_lookIn h.all (fun b hm => List.mem_append_left _ (hL b hm))
    cases keep with
    | false =>
      have hst : n.step (.rollback k false) = ⟨n.chunks.take j, [], (n.plug.deleteSnapshots (lookIn n.blocks) (n.chunks.drop j).flatten).removeNew (lookIn ((n.chunks.take j).flatten ++ [])) []⟩ := by
        subst hj
        rfl
      rw [hst]
      refine ⟨hpre, ?_, ?_, fun a => List.Perm.refl _⟩
      · show Valid ((n.chunks.take j).flatten ++ [])
        rw [List.append_nil]; exact hleft
      · intro a t
        show flush (lookIn n.blocks) (-1) (cut (n.chunks.drop j).flatten) n.plug.db a t = metaOf (waiting (n.chunks.take j).flatten a t)
        refine (flush_blocks (bs := (n.chunks.drop j).flatten) hleft ?_ ?_).2 ?_ a t
        · rw [hall0]; exact h.conf
        · exact hkn (fun b hb => by rwa [hall0] at hb)
        · rw [hall0]; exact h.db
    | true =>
      have hnew : ∀ a, ∀ v ∈ n.plug.cache a, ∀ b ∈ n.chunks[j], v.hash ≠ b.hash := by
        intro a v hv b hb e
        have hv' := (List.mem_filter.1 ((h.cache a).mem_iff.1 hv)).1
        have hb' : b ∈ n.chunks.flatten := List.mem_flatten.2 ⟨_, List.getElem_mem hjl, hb⟩
        have := h.all.hashes
        unfold Node.blocks at this
        rw [List.map_append, List.nodup_append] at this
        exact this.2.2 b.hash (List.mem_map.2 ⟨b, hb', rfl⟩) v.hash (List.mem_map.2 ⟨v, hv', rfl⟩) e.symm
      have hfil : (n.chunks[j].filter fun b => !(n.plug.cache b.addr).any fun v => decide (v.hash = b.hash)) = n.chunks[j] := by
        rw [List.filter_eq_self]
        intro b hb
        rw [Bool.not_eq_true', List.any_eq_false]
        intro v hv
        simpa using hnew b.addr v hv b hb
      have hst : n.step (.rollback k true) = ⟨n.chunks.take j, n.chunks[j], n.chunks[j].foldl Plug.insertBlock
          ⟨flush (lookIn ((n.chunks.take j).flatten ++ n.chunks[j])) (-1) (cut n.chunks[j]) (flush (lookIn n.blocks) (-1) (cut (n.chunks.drop (j + 1)).flatten) n.plug.db), fun _ => []⟩⟩ := by
        simp only [Node.step, hj, hdrop, if_true, List.headD_cons, List.tail_cons]
        unfold Plug.removeNew Plug.deleteSnapshots
        simp only [hfil]
      rw [hst]
      have hval : Valid ((n.chunks.take j).flatten ++ n.chunks[j]) := by rw [← htake']; exact hleft1
      have hnh : (n.chunks[j].map (·.hash)).Nodup := by
        have := hval.hashes
        rw [List.map_append] at this
        exact (List.nodup_append.1 this).2.1
      obtain ⟨i1, i2⟩ := insert_all n.chunks[j] ⟨flush (lookIn ((n.chunks.take j).flatten ++ n.chunks[j])) (-1) (cut n.chunks[j]) (flush (lookIn n.blocks) (-1) (cut (n.chunks.drop (j + 1)).flatten) n.plug.db), fun _ => []⟩
      refine ⟨hpre, hval, ?_, ?_⟩
      · intro a t
        show (n.chunks[j].foldl Plug.insertBlock _).db a t = metaOf (waiting (n.chunks.take j).flatten a t)
        rw [i1]
        refine (flush_blocks hleft hval (knows_lookIn hval (fun b hb => hb))).2 ?_ a t
        intro a t
        rw [← htake']
        refine (flush_blocks (bs := (n.chunks.drop (j + 1)).flatten) hleft1 ?_ ?_).2 ?_ a t
        · rw [hall]; exact h.conf
        · exact hkn (fun b hb => by rwa [hall] at hb)
        · rw [hall]; exact h.db
      · intro a
        show ((n.chunks[j].foldl Plug.insertBlock _).cache a).Perm _
        rw [i2 hnh (fun _ v hv => by cases hv)]
        exact List.Perm.refl _

theorem reach_inv {n : Node} (h : Reach n) : Inv n := by
  induction h with
  | start => exact ⟨fun k => by simpa [Node.start] using valid_nil, by simpa [Node.blocks, Node.start] using valid_nil, fun a t => by simp [Node.start, waiting, metaOf], fun a => by simp [Node.start]⟩
  | step _ hm ih => exact inv_step ih hm

/-- **What is kept of the confirmed ledger is exact.** After any history of insertions, snapshots, deletions and rollbacks the store has for every account and every token the number and the amount of the
sends that wait in the confirmed ledger, and no entry when none waits. -/
theorem store_exact {n : Node} (h : Reach n) (a t : Nat) : n.plug.db a t = metaOf (waiting n.chunks.flatten a t) := (reach_inv h).db a t

/-- What a block counts for an account to which its send list sends nothing. -/
theorem block_net {b : Blk} {a : Nat} (hl : b.inner ≠ [] → b.contract = true ∧ b.src ≠ none) (hg : b.kind ≠ .genesis) (hi : ∀ s ∈ b.inner, s.dest ≠ a) (w : Send → Int) (look : Nat → Option Send) (t : Nat) :
    net w look a t b.ents = if b.cacheAddr = a then val w look a t b.top else 0 := by
  unfold Blk.ents Blk.cacheAddr Blk.top
  cases hk : b.kind with
  | genesis => exact absurd hk hg
  | send d u x =>
    by_cases hd : d = a
    · simp [net, hd]
    · simp [net, val, hd]
  | recv k =>
    have h0 : net w look a t (if b.contract = true then b.inner.map .out else []) = 0 := by
      split
      · have : ∀ l : List Send, (∀ s ∈ l, s.dest ≠ a) → net w look a t (l.map .out) = 0 := by
          intro l
          induction l with
          | nil => intro _; rfl
          | cons s l ih =>
            intro h
            have := ih (fun x hx => h x (List.mem_cons_of_mem _ hx))
            unfold net at this ⊢
            rw [List.map_cons, List.map_cons, List.sum_cons, this]
            simp [val, h s (by simp)]
        exact this _ hi
      · rfl
    have h1 : net w look a t (Ent.inn b.addr k :: if b.contract = true then b.inner.map .out else []) = val w look a t (.inn b.addr k) := by
      unfold net at h0 ⊢
      rw [List.map_cons, List.sum_cons, h0]
      omega
    dsimp only
    rw [h1]
    by_cases hd : b.addr = a
    · rw [if_pos hd]
    · rw [if_neg hd]
      simp only [val]
      split
      · simp [hd]
      · rfl

/-- **What is on the road is answered exactly.** After any history, when no contract has just sent anything to the account from within a receive that is not confirmed, the question is answered, and for every token the
answer is the number and the amount of the sends that wait for the account in the whole ledger. -/
theorem info_exact_partial {n : Node} (h : Reach n) {a : Nat} (hi : ∀ b ∈ n.unconf, ∀ s ∈ b.inner, s.dest ≠ a) :
    ∃ f, n.plug.info (lookIn n.blocks) a = some f ∧ ∀ t, f t = metaOf (waiting n.blocks a t) := by
  have inv := reach_inv h
  have hkn : Knows (lookIn n.blocks) n.blocks := knows_lookIn inv.all (fun b hb => hb)
  have hkc : Knows (lookIn n.blocks) n.chunks.flatten := knows_lookIn inv.all (fun b hb => List.mem_append_left _ hb)
  have hmem : ∀ b ∈ n.plug.cache a, b ∈ n.unconf ∧ b.cacheAddr = a := by
    intro b hb
    have := List.mem_filter.1 ((inv.cache a).mem_iff.1 hb)
    exact ⟨this.1, by simpa using this.2⟩
  have htop : ∀ b ∈ n.plug.cache a, b.top.addr = a := by
    intro b hb
    obtain ⟨hu, hc⟩ := hmem b hb
    unfold Blk.top
    unfold Blk.cacheAddr at hc
    cases hk : b.kind with
    | genesis => exact absurd hk (inv.all.later b (List.mem_append_right _ hu))
    | send d u x => rw [hk] at hc; exact hc
    | recv k => rw [hk] at hc; exact hc
  have hlook : ∀ b k, Ent.inn b k ∈ (n.plug.cache a).map Blk.top → lookIn n.blocks k ≠ none := by
    intro c k hm
    obtain ⟨b, hb, e⟩ := List.mem_map.1 hm
    obtain ⟨hu, -⟩ := hmem b hb
    have hsrc : b.src = some k := by
      unfold Blk.top at e
      unfold Blk.src
      cases hk : b.kind with
      | genesis => exact absurd hk (inv.all.later b (List.mem_append_right _ hu))
      | send d u x => rw [hk] at e; cases e
      | recv k' => rw [hk] at e; cases e; rfl
    obtain ⟨s, hs, e2, -⟩ := inv.all.found b (List.mem_append_right _ hu) k hsrc
    have := hkn s hs
    rw [e2] at this
    rw [this]
    exact (by simp)
  have hnet : ∀ w t, net w (lookIn n.blocks) a t ((n.plug.cache a).map Blk.top) = ((waiting n.blocks a t).map w).sum - ((waiting n.chunks.flatten a t).map w).sum := by
    intro w t
    have h1 : net w (lookIn n.blocks) a t ((n.plug.cache a).map Blk.top) = net w (lookIn n.blocks) a t (n.unconf.flatMap Blk.ents) := by
      rw [net_perm ((inv.cache a).map _)]
      have : ∀ U : List Blk, (∀ b ∈ U, b ∈ n.unconf) → net w (lookIn n.blocks) a t ((U.filter fun b => decide (b.cacheAddr = a)).map Blk.top) = net w (lookIn n.blocks) a t (U.flatMap Blk.ents) := by
        intro U
        induction U with
        | nil => intro _; rfl
        | cons b U ih =>
          intro hU
          have ih := ih (fun x hx => hU x (List.mem_cons_of_mem _ hx))
          have hb := hU b (by simp)
          rw [List.flatMap_cons, net_append, ← ih, block_net (inv.all.lists b (List.mem_append_right _ hb)) (inv.all.later b (List.mem_append_right _ hb)) (hi b hb)]
          by_cases hc : b.cacheAddr = a
          · rw [List.filter_cons_of_pos (by simpa using hc), if_pos hc]
            unfold net
            rw [List.map_cons, List.map_cons, List.sum_cons]
          · rw [List.filter_cons_of_neg (by simpa using hc), if_neg hc]
            omega
      exact this _ (fun b hb => hb)
    rw [h1, ← net_ents inv.all hkn, ← net_ents inv.conf hkc]
    unfold Node.blocks
    rw [List.flatMap_append, net_append]
    omega
  obtain ⟨g, hg, hnd, hsum⟩ := aggregate_spec (look := lookIn n.blocks) (a := a) ((n.plug.cache a).map Blk.top) [] (fun e he => by
    obtain ⟨b, hb, rfl⟩ := List.mem_map.1 he
    exact htop b hb) hlook (by simp)
  have hsum' : ∀ t, (sumsOf g t).getD (0, 0) = (((waiting n.blocks a t).length : Int) - (waiting n.chunks.flatten a t).length,
      ((((waiting n.blocks a t).map (·.amount)).sum : Nat) : Int) - (((waiting n.chunks.flatten a t).map (·.amount)).sum : Nat)) := by
    intro t
    rw [hsum t, hnet, hnet, sum_ones, sum_ones, sum_amounts, sum_amounts]
    simp [sumsOf]
  clear hsum
  have hsum := hsum'
  clear hsum'
  have hch : ∀ t, change (n.plug.db a t) ((sumsOf g t).getD (0, 0)).1 ((sumsOf g t).getD (0, 0)).2 = some (metaOf (waiting n.blocks a t)) := by
    intro t
    rw [inv.db a t, hsum t]
    exact change_meta _ _
  have hfind : ∀ e ∈ g, sumsOf g e.1 = some e.2 := by
    intro e he
    unfold sumsOf
    clear hg hsum hch
    induction g with
    | nil => cases he
    | cons x g ih =>
      rw [List.map_cons, List.nodup_cons] at hnd
      rw [List.find?_cons]
      rcases List.mem_cons.1 he with rfl | he
      · simp
      · have : x.1 ≠ e.1 := fun e' => hnd.1 (List.mem_map.2 ⟨e, he, e'.symm⟩)
        simp only [this, decide_false]
        exact ih hnd.2 he
  unfold Plug.info
  rw [hg]
  dsimp only
  rw [if_neg]
  · refine ⟨_, rfl, fun t => ?_⟩
    have hc := hch t
    cases hs : sumsOf g t with
    | some d =>
      rw [hs] at hc
      dsimp only
      rw [Option.getD_some] at hc
      rw [hc]
      rfl
    | none =>
      have e := hsum t
      rw [hs] at e
      simp only [Option.getD_none, Prod.mk.injEq] at e
      dsimp only
      rw [inv.db a t]
      unfold metaOf
      have hl : (waiting n.chunks.flatten a t) = [] ↔ (waiting n.blocks a t) = [] := by
        rw [← List.length_eq_zero_iff, ← List.length_eq_zero_iff]; omega
      by_cases hz : waiting n.blocks a t = []
      · rw [if_pos hz, if_pos (hl.2 hz)]
      · rw [if_neg hz, if_neg (fun e => hz (hl.1 e))]
        congr 2
        · omega
        · omega
  · rw [List.any_eq_true]
    rintro ⟨e, he, hn⟩
    have hc := hch e.1
    rw [hfind e he, Option.getD_some] at hc
    rw [hc] at hn
    cases hn

end Verif.Plug
