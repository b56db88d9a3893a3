import Verif.Gossip.Model
import Verif.Gossip.ChooseProps

/-! # What a node does with blocks that it hears of (C121, C122) -/

namespace Verif.Gossip

/-! ### The queue of blocks kept back -/

/-- What the queue gives when it is emptied: what stands from its index on; the index stays. -/
theorem drain_spec (fuel : Nat) (q : Queue) (h : q.items.length - q.idx < fuel) :
    q.drain fuel = (q.items.drop q.idx, ⟨[], max q.idx q.items.length⟩) := by
  induction fuel generalizing q with
  | zero => omega
  | succ fuel ih =>
    simp only [Queue.drain, Queue.deq]
    by_cases hi : q.idx < q.items.length
    · rw [List.getElem?_eq_getElem hi]
      simp only
      rw [ih ⟨q.items, q.idx + 1⟩ (by simp only; omega)]
      simp only [Prod.mk.injEq, Queue.mk.injEq, true_and]
      refine ⟨(List.drop_eq_getElem_cons hi).symm, by omega⟩
    · rw [List.getElem?_eq_none (by omega)]
      simp only [Prod.mk.injEq, Queue.mk.injEq, true_and]
      exact ⟨(List.drop_eq_nil_of_le (by omega)).symm, by omega⟩

theorem enq_all (l : List Blk) (q : Queue) (h : q.items.length ≤ queueCap) :
    l.foldl Queue.enq q = ⟨(q.items ++ l).take queueCap, q.idx⟩ := by
  induction l generalizing q with
  | nil => simp [List.take_of_length_le h]
  | cons b l ih =>
    simp only [List.foldl_cons]
    by_cases hq : q.items.length < queueCap
    · have he : q.enq b = ⟨q.items ++ [b], q.idx⟩ := by simp [Queue.enq, hq]
      rw [he, ih ⟨q.items ++ [b], q.idx⟩ (by simp; omega)]
      simp
    · have he : q.enq b = q := by simp [Queue.enq, hq]
      rw [he, ih q h]
      have hl : q.items.length = queueCap := by omega
      rw [List.take_append_of_le_length (by omega), List.take_append_of_le_length (by omega)]

/-- A session of synchronisation: blocks come in and are kept back, then they are given out. -/
def session (q : Queue) (l : List Blk) : List Blk × Queue :=
  (l.foldl Queue.enq q).drain ((l.foldl Queue.enq q).items.length + 1)

/-- In the first session all blocks are given out, in order, up to a thousand of them. -/
theorem first_session (l : List Blk) : (session ⟨[], 0⟩ l).1 = l.take queueCap := by
  unfold session
  rw [enq_all l ⟨[], 0⟩ (by simp), drain_spec _ _ (by omega)]
  simp

/-- Exactly what is given out in the second one: as many blocks as were given out in the first are
missing at its beginning. -/
theorem second_session (l l' : List Blk) :
    (session (session ⟨[], 0⟩ l).2 l').1 = (l'.take queueCap).drop (min l.length queueCap) := by
  have h1 : (session ⟨[], 0⟩ l).2 = ⟨[], min l.length queueCap⟩ := by
    unfold session
    rw [enq_all l ⟨[], 0⟩ (by simp), drain_spec _ _ (by omega)]
    simp
    omega
  rw [h1]
  unfold session
  rw [enq_all l' ⟨[], _⟩ (by simp), drain_spec _ _ (by omega)]
  simp

/-- So blocks are lost: a block for every one of the session before. -/
theorem second_session_loses (l l' : List Blk) (h : l ≠ []) (h' : l' ≠ []) :
    (session (session ⟨[], 0⟩ l).2 l').1 ≠ l'.take queueCap := by
  rw [second_session]
  intro he
  have hl := congrArg List.length he
  have h1 : 0 < l.length := List.length_pos_iff.2 h
  have h2 : 0 < l'.length := List.length_pos_iff.2 h'
  have h3 : 0 < queueCap := by decide
  simp only [List.length_drop, List.length_take] at hl
  omega

/-! ### Blocks given to the subscribers -/

/-- The blocks kept back that are still to be given out. -/
def Queue.waiting (q : Queue) : List Blk := q.items.drop q.idx

theorem waiting_enq (q : Queue) (b : Blk) : (q.enq b).waiting.Sublist (q.waiting ++ [b]) := by
  unfold Queue.enq Queue.waiting
  split
  · simp only
    rw [List.drop_append]
    exact List.Sublist.append (List.Sublist.refl _) (List.drop_sublist _ _)
  · exact List.sublist_append_left _ _

/-- What holds of a node at any time: the blocks given out and those kept back passed the check, no
two of them have the same hash, and these hashes are all noted as seen. -/
structure Inv (n : Node) : Prop where
  valid : ∀ b ∈ n.fed ++ (n.sq.waiting ++ n.aq.waiting), b.valid = true
  once : ((n.fed ++ (n.sq.waiting ++ n.aq.waiting)).map (·.body)).Nodup
  seen : ∀ b ∈ n.fed ++ (n.sq.waiting ++ n.aq.waiting), b.body ∈ n.filter
  white : ∀ b ∈ n.fed, b.claimed ∉ n.black

theorem Inv.of_sublist {n n' : Node} (h : Inv n)
    (hs : (n'.fed ++ (n'.sq.waiting ++ n'.aq.waiting)).Sublist
      (n.fed ++ (n.sq.waiting ++ n.aq.waiting)))
    (hf : ∀ x ∈ n.filter, x ∈ n'.filter) (hb : ∀ b ∈ n'.fed, b.claimed ∉ n'.black) : Inv n' :=
  { valid := fun b hb => h.valid b (hs.subset hb)
    once := h.once.sublist (hs.map _)
    seen := fun b hb => hf _ (h.seen b (hs.subset hb))
    white := hb }

theorem notify_fields (n : Node) (b : Blk) : (n.notify b).filter = n.filter ∧
    (n.notify b).sq = n.sq ∧ (n.notify b).aq = n.aq ∧ (n.notify b).black = n.black ∧
    (n.notify b).peers = n.peers ∧ (n.notify b).st = n.st := by
  unfold Node.notify
  split <;> simp

theorem notify_all (l : List Blk) (n : Node) : let n' := l.foldl Node.notify n
    n'.filter = n.filter ∧ n'.sq = n.sq ∧ n'.aq = n.aq ∧ n'.black = n.black ∧
    n'.fed = n.fed ++ l.filter (fun b => !n.black.contains b.claimed) := by
  induction l generalizing n with
  | nil => simp
  | cons b l ih =>
    obtain ⟨h1, h2, h3, h4, _, _⟩ := notify_fields n b
    obtain ⟨i1, i2, i3, i4, i5⟩ := ih (n.notify b)
    simp only [List.foldl_cons]
    refine ⟨i1.trans h1, i2.trans h2, i3.trans h3, i4.trans h4, ?_⟩
    rw [i5, h4]
    unfold Node.notify
    by_cases hb : n.black.contains b.claimed = true
    · rw [if_pos hb, List.filter_cons_of_neg (by rw [hb]; simp)]
    · rw [if_neg hb, List.filter_cons_of_pos (by simpa using hb)]
      simp

/-- What happens when synchronisation is over: the snapshot blocks are given out, then the account
blocks, without the black ones, and nothing is kept back any more. -/
theorem sync_spec (n : Node) (st : St) (h' : st = .done ∨ st = .error ∨ st = .cancel) : let n' := n.sync st
    n'.fed = n.fed ++ (n.sq.waiting ++ n.aq.waiting).filter (fun b => !n.black.contains b.claimed) ∧
    n'.sq.waiting = [] ∧ n'.aq.waiting = [] ∧ n'.filter = n.filter ∧ n'.black = n.black := by
  have h : st.exited = true := by rcases h' with rfl | rfl | rfl <;> rfl
  simp only [Node.sync, h, if_true]
  rw [drain_spec _ n.sq (by omega)]
  obtain ⟨h1, h2, h3, h4, h5⟩ := notify_all n.sq.waiting
    { n with st := st, sq := ⟨[], max n.sq.idx n.sq.items.length⟩ }
  have hw : n.sq.items.drop n.sq.idx = n.sq.waiting := rfl
  simp only [hw] at h1 h2 h3 h4 h5 ⊢
  rw [drain_spec _ _ (by omega), h3]
  obtain ⟨i1, i2, i3, i4, i5⟩ := notify_all n.aq.waiting
    { (List.foldl Node.notify { n with st := st, sq := ⟨[], max n.sq.idx n.sq.items.length⟩ }
        n.sq.waiting) with aq := ⟨[], max n.aq.idx n.aq.items.length⟩ }
  simp only at i1 i2 i3 i4 i5
  refine ⟨?_, ?_, ?_, i1.trans h1, i4.trans h4⟩
  · refine i5.trans ?_
    rw [h4, h5, List.filter_append, ← List.append_assoc]
  · have h6 := i2.trans h2
    change (List.foldl Node.notify _ n.aq.waiting).sq.waiting = []
    rw [h6]
    simp [Queue.waiting]
  · change (List.foldl Node.notify _ n.aq.waiting).aq.waiting = []
    rw [i3]
    simp [Queue.waiting]

/-- The outcome of a message: it changes nothing, or it only notes the hash, or the block is new and
passed the check, and is given to the subscribers or kept back. -/
theorem handle_cases (n : Node) (pick : Bool) (order : List Nat) (src : Nat) (b : Blk) (ttl : Nat) :
    n.handle pick order src b ttl = (n, []) ∨
    (b.body ∉ n.filter ∧ n.handle pick order src b ttl = ({ n with filter := b.body :: n.filter }, [])) ∨
    (b.body ∉ n.filter ∧ b.valid = true ∧
      let f := if 0 < ttl then ({ n with filter := b.body :: n.filter } : Node).forward order src b
        else ({ n with filter := b.body :: n.filter }, [])
      n.handle pick order src b ttl =
        (if f.1.st.exited then f.1.notify b else f.1.keep b, f.2.map (fun p => (p, ttl - 1)))) := by
  unfold Node.handle
  by_cases h1 : (b.snap && decide (b.height + 100 < n.top)) = true
  · rw [if_pos h1]; exact .inl rfl
  rw [if_neg h1]
  by_cases h2 : n.filter.contains b.claimed = true
  · rw [if_pos h2]; exact .inl rfl
  rw [if_neg h2]
  by_cases h3 : n.filter.contains b.body = true
  · rw [if_pos h3]; exact .inl rfl
  rw [if_neg h3]
  have h3' : b.body ∉ n.filter := by simpa using h3
  by_cases h4 : (!b.snap && pick && decide (100 < ({ n with filter := b.body :: n.filter } : Node).confirmed b.body)) = true
  · simp only
    rw [if_pos h4]; exact .inr (.inl ⟨h3', rfl⟩)
  simp only
  rw [if_neg h4]
  by_cases h5 : (!b.valid) = true
  · rw [if_pos h5]; exact .inr (.inl ⟨h3', rfl⟩)
  · rw [if_neg h5]
    exact .inr (.inr ⟨h3', by simpa using h5, rfl⟩)

theorem forward_fields (n : Node) (order : List Nat) (src : Nat) (b : Blk) :
    let f := n.forward order src b
    f.1.filter = n.filter ∧ f.1.sq = n.sq ∧ f.1.aq = n.aq ∧ f.1.black = n.black ∧ f.1.fed = n.fed ∧
    f.1.st = n.st ∧ f.1.peers = n.peers ∧ f.1.told = n.told ∧ f.1.full = n.full ∧ f.1.top = n.top ∧
    f.1.confirmed = n.confirmed := by
  simp [Node.forward]

theorem Inv.take {n : Node} (h : Inv n) (b : Blk) (hb : b.body ∉ n.filter) (hv : b.valid = true) :
    Inv (if n.st.exited then ({ n with filter := b.body :: n.filter } : Node).notify b
      else ({ n with filter := b.body :: n.filter } : Node).keep b) := by
  have hnew : b.body ∉ (n.fed ++ (n.sq.waiting ++ n.aq.waiting)).map (·.body) := by
    intro hm
    obtain ⟨c, hc, he⟩ := List.mem_map.1 hm
    exact hb (he ▸ h.seen c hc)
  have key : ∀ n' : Node, (n'.fed ++ (n'.sq.waiting ++ n'.aq.waiting)).Sublist
        (n.fed ++ (n.sq.waiting ++ n.aq.waiting) ++ [b]) ∨
      (∃ l, l.Perm (n.fed ++ (n.sq.waiting ++ n.aq.waiting) ++ [b]) ∧
        (n'.fed ++ (n'.sq.waiting ++ n'.aq.waiting)).Sublist l) →
      n'.filter = b.body :: n.filter → (∀ c ∈ n'.fed, c.claimed ∉ n'.black) → Inv n' := by
    intro n' hs hf hw
    have hs' : ∃ l, l.Perm (n.fed ++ (n.sq.waiting ++ n.aq.waiting) ++ [b]) ∧
        (n'.fed ++ (n'.sq.waiting ++ n'.aq.waiting)).Sublist l := by
      rcases hs with hs | hs
      · exact ⟨_, List.Perm.refl _, hs⟩
      · exact hs
    obtain ⟨l, hp, hsub⟩ := hs'
    have hin : ∀ c ∈ n'.fed ++ (n'.sq.waiting ++ n'.aq.waiting),
        c ∈ n.fed ++ (n.sq.waiting ++ n.aq.waiting) ∨ c = b := by
      intro c hc
      have := hp.subset (hsub.subset hc)
      rw [List.mem_append, List.mem_singleton] at this
      exact this
    refine ⟨fun c hc => ?_, ?_, fun c hc => ?_, hw⟩
    · rcases hin c hc with hc | rfl
      · exact h.valid c hc
      · exact hv
    · refine List.Nodup.sublist (hsub.map _) ((hp.map _).nodup_iff.2 ?_)
      rw [List.map_append, List.nodup_append]
      refine ⟨h.once, by simp, ?_⟩
      intro x hx y hy hxy
      simp only [List.map_cons, List.map_nil, List.mem_singleton] at hy
      subst hxy hy
      exact hnew hx
    · rw [hf]
      rcases hin c hc with hc | rfl
      · exact .tail _ (h.seen c hc)
      · exact .head _
  split
  · unfold Node.notify
    split
    · refine key _ (.inl ?_) rfl (h.white)
      exact List.sublist_append_left _ _
    · rename_i hbl
      refine key _ (.inr ⟨(n.fed ++ [b]) ++ (n.sq.waiting ++ n.aq.waiting), ?_, ?_⟩) rfl ?_
      · rw [List.append_assoc, List.append_assoc]
        exact List.Perm.append_left _ List.perm_append_comm
      · exact List.Sublist.refl _
      · intro c hc
        simp only [List.mem_append, List.mem_singleton] at hc
        rcases hc with hc | rfl
        · exact h.white c hc
        · simpa using hbl
  · unfold Node.keep
    split
    · refine key _ (.inr ⟨n.fed ++ ((n.sq.waiting ++ [b]) ++ n.aq.waiting), ?_, ?_⟩) rfl h.white
      · rw [List.append_assoc, List.append_assoc, List.append_assoc]
        refine List.Perm.append_left _ (List.Perm.append_left _ ?_)
        exact List.perm_append_comm
      · exact List.Sublist.append (List.Sublist.refl _)
          (List.Sublist.append (waiting_enq _ _) (List.Sublist.refl _))
    · refine key _ (.inr ⟨n.fed ++ (n.sq.waiting ++ (n.aq.waiting ++ [b])), ?_, ?_⟩) rfl h.white
      · rw [List.append_assoc, List.append_assoc]
      · exact List.Sublist.append (List.Sublist.refl _)
          (List.Sublist.append (List.Sublist.refl _) (waiting_enq _ _))

theorem Inv.known {n : Node} (h : Inv n) (known : Nat → List Nat) : Inv { n with known := known } :=
  ⟨h.valid, h.once, h.seen, h.white⟩

theorem Inv.handle {n : Node} (h : Inv n) (pick : Bool) (order : List Nat) (src : Nat) (b : Blk)
    (ttl : Nat) : Inv (n.handle pick order src b ttl).1 := by
  rcases handle_cases n pick order src b ttl with he | ⟨hb, he⟩ | ⟨hb, hv, he⟩
  · rw [he]; exact h
  · rw [he]
    exact ⟨h.valid, h.once, fun c hc => .tail _ (h.seen c hc), h.white⟩
  · rw [he]
    simp only
    split
    · simp only [Node.forward]
      exact (h.known (spread b.claimed (({ n with filter := b.body :: n.filter } : Node).choose order src) n.known).1).take b hb hv
    · exact h.take b hb hv

theorem Inv.step {n : Node} (h : Inv n) (e : Ev) : Inv (n.step e).1 := by
  cases e with
  | recv pick order src b ttl => exact h.handle pick order src b ttl
  | own order b =>
    simp only [Node.step, Node.broadcast]
    split
    · exact h
    · exact ⟨h.valid, h.once, fun c hc => .tail _ (h.seen c hc), h.white⟩
  | sync st =>
    simp only [Node.step]
    by_cases hst : st.exited = true
    · obtain ⟨h1, h2, h3, h4, h5⟩ := sync_spec n st (by cases st <;> simp_all [St.exited])
      refine h.of_sublist ?_ (fun x hx => by rw [h4]; exact hx) ?_
      · rw [h1, h2, h3, List.append_nil, List.append_nil]
        exact List.Sublist.append (List.Sublist.refl _) List.filter_sublist
      · rw [h1, h5]
        intro b hb
        rcases List.mem_append.1 hb with hb | hb
        · exact h.white b hb
        · simpa using (List.mem_filter.1 hb).2
    · simp only [Node.sync, hst, Bool.false_eq_true, if_false]
      exact ⟨h.valid, h.once, h.seen, h.white⟩
  | hear p l => exact ⟨h.valid, h.once, h.seen, h.white⟩
  | chain t c => exact ⟨h.valid, h.once, h.seen, h.white⟩

theorem Inv.run {n : Node} (h : Inv n) (es : List Ev) : Inv (n.run es) := by
  induction es generalizing n with
  | nil => exact h
  | cons e es ih => exact ih (h.step e)

theorem Inv.fresh (peers : List Nat) (full : Bool) (black : List Nat) : Inv (Node.fresh peers full black) := by
  constructor <;> simp [Node.fresh, Queue.waiting]

/-- Whatever messages come, from whomever, in whatever order, and however synchronisation goes: the
subscribers are told only of blocks whose hash and signature are right, of none twice, and of no
black one. -/
theorem fed_valid_once (peers : List Nat) (full : Bool) (black : List Nat) (es : List Ev) :
    let n := (Node.fresh peers full black).run es
    (∀ b ∈ n.fed, b.claimed = b.body ∧ b.sig = true ∧ b.claimed ∉ n.black) ∧
    (n.fed.map (·.claimed)).Nodup := by
  have h := (Inv.fresh peers full black).run es
  have hv : ∀ b ∈ ((Node.fresh peers full black).run es).fed, b.claimed = b.body ∧ b.sig = true := by
    intro b hb
    have := h.valid b (List.mem_append_left _ hb)
    simpa [Blk.valid] using this
  refine ⟨fun b hb => ⟨(hv b hb).1, (hv b hb).2, h.white b hb⟩, ?_⟩
  have hn := h.once
  rw [List.map_append, List.nodup_append] at hn
  have : ((Node.fresh peers full black).run es).fed.map (·.claimed) =
      ((Node.fresh peers full black).run es).fed.map (·.body) :=
    List.map_congr_left (fun b hb => (hv b hb).1)
  rw [this]
  exact hn.1

theorem spread_spec (h : Nat) (ps : List Nat) (hn : ps.Nodup) : ∀ known : Nat → List Nat,
    (spread h ps known).2 = ps.filter (fun p => !(known p).contains h) ∧
    ∀ q x, x ∈ (spread h ps known).1 q ↔ x ∈ known q ∨ (x = h ∧ q ∈ ps) := by
  induction ps with
  | nil => intro known; simp [spread]
  | cons p ps ih =>
    intro known
    obtain ⟨hp, hn'⟩ := List.nodup_cons.1 hn
    simp only [spread]
    by_cases hk : (known p).contains h = true
    · rw [if_pos hk]
      obtain ⟨h1, h2⟩ := ih hn' known
      refine ⟨by rw [h1, List.filter_cons_of_neg (by rw [hk]; simp)], fun q x => ?_⟩
      rw [h2]
      have : h ∈ known p := by simpa using hk
      constructor
      · rintro (hx | ⟨rfl, hq⟩)
        · exact .inl hx
        · exact .inr ⟨rfl, .tail _ hq⟩
      · rintro (hx | ⟨rfl, hq⟩)
        · exact .inl hx
        · rcases List.mem_cons.1 hq with rfl | hq
          · exact .inl this
          · exact .inr ⟨rfl, hq⟩
    · rw [if_neg hk]
      obtain ⟨h1, h2⟩ := ih hn' (fun q => if q = p then h :: known q else known q)
      refine ⟨?_, fun q x => ?_⟩
      · simp only
        rw [h1, List.filter_cons_of_pos (by simpa using hk)]
        congr 1
        refine List.filter_congr (fun q hq => ?_)
        have hqp : ¬ q = p := fun he => hp (he ▸ hq)
        rw [if_neg hqp]
      · simp only
        rw [h2]
        by_cases hq : q = p
        · simp only [if_pos hq, List.mem_cons]
          constructor
          · rintro ((rfl | hx) | ⟨rfl, h3⟩)
            · exact .inr ⟨rfl, .inl hq⟩
            · exact .inl hx
            · exact .inr ⟨rfl, .inl hq⟩
          · rintro (hx | ⟨rfl, _⟩)
            · exact .inl (.inr hx)
            · exact .inl (.inl rfl)
        · rw [if_neg hq, List.mem_cons]
          simp only [hq, false_or]

theorem spread_sub (h : Nat) (ps : List Nat) : ∀ known : Nat → List Nat,
    (spread h ps known).2.Sublist ps := by
  induction ps with
  | nil => intro known; simp [spread]
  | cons p ps ih =>
    intro known
    simp only [spread]
    split
    · exact List.Sublist.cons _ (ih _)
    · exact List.Sublist.cons_cons _ (ih _)

theorem choose_sub (n : Node) (order : List Nat) (src : Nat) :
    (n.choose order src).Sublist order ∧ src ∉ n.choose order src := by
  unfold Node.choose
  have hfull : (fullPeers order src).Sublist order ∧ src ∉ fullPeers order src :=
    ⟨List.filter_sublist, by simp [fullPeers]⟩
  split
  · exact hfull
  · by_cases ht : n.told src = []
    · rw [ht]
      exact hfull
    · obtain ⟨h1, h2, _, _⟩ := cross_spec order (n.told src) src 3 10 ht
      exact ⟨h1, h2⟩

/-- A block is passed on only if it passed the check and was not seen before; it goes to peers only,
to none twice, not to the one it came from, with a shorter time to live, and from then on it is
seen. -/
theorem passed_on (n : Node) (pick : Bool) (order : List Nat) (src : Nat) (b : Blk) (ttl : Nat)
    (ho : order.Perm n.peers) (hp : n.peers.Nodup) :
    let r := n.handle pick order src b ttl
    (∀ m ∈ r.2, m.1 ∈ n.peers ∧ m.1 ≠ src ∧ m.2 + 1 = ttl ∧ b.valid = true ∧ b.claimed ∉ n.filter ∧
      b.claimed ∈ r.1.filter) ∧ (r.2.map (·.1)).Nodup := by
  rcases handle_cases n pick order src b ttl with he | ⟨hb, he⟩ | ⟨hb, hv, he⟩
  · rw [he]; simp
  · rw [he]; simp
  · have hv' : b.claimed = b.body ∧ b.sig = true := by simpa [Blk.valid] using hv
    rw [he]
    by_cases ht : 0 < ttl
    · simp only [if_pos ht]
      obtain ⟨hc1, hc2⟩ := choose_sub ({ n with filter := b.body :: n.filter } : Node) order src
      have hsub : (({ n with filter := b.body :: n.filter } : Node).forward order src b).2.Sublist
          (({ n with filter := b.body :: n.filter } : Node).choose order src) := by
        simp only [Node.forward]
        exact spread_sub _ _ _
      have hfil : (if (({ n with filter := b.body :: n.filter } : Node).forward order src b).1.st.exited
            then (({ n with filter := b.body :: n.filter } : Node).forward order src b).1.notify b
            else (({ n with filter := b.body :: n.filter } : Node).forward order src b).1.keep b).filter =
          b.body :: n.filter := by
        split
        · rw [(notify_fields _ _).1]; rfl
        · unfold Node.keep
          split <;> rfl
      refine ⟨?_, ?_⟩
      · intro m hm
        obtain ⟨p, hp', rfl⟩ := List.mem_map.1 hm
        have hin := hsub.subset hp'
        refine ⟨ho.subset (hc1.subset hin), fun hs => hc2 (hs ▸ hin), by simp only; omega, hv, ?_, ?_⟩
        · rw [hv'.1]; exact hb
        · rw [hfil, hv'.1]; exact .head _
      · rw [List.map_map]
        have : (fun m : Nat × Nat => m.1) ∘ (fun p => (p, ttl - 1)) = id := rfl
        rw [this, List.map_id]
        exact (ho.nodup_iff.2 hp).sublist (hsub.trans hc1)
    · simp [if_neg ht]

/-! ### A block can be kept from a node -/

theorem filter_grows (n : Node) (e : Ev) (x : Nat) (h : x ∈ n.filter) : x ∈ (n.step e).1.filter := by
  cases e with
  | recv pick order src b ttl =>
    simp only [Node.step]
    rcases handle_cases n pick order src b ttl with he | ⟨hb, he⟩ | ⟨hb, hv, he⟩
    · rw [he]; exact h
    · rw [he]; exact .tail _ h
    · rw [he]
      have hf : ∀ n' : Node, n'.filter = b.body :: n.filter →
          x ∈ (if n'.st.exited then n'.notify b else n'.keep b).filter := by
        intro n' hn
        split
        · rw [(notify_fields _ _).1, hn]; exact .tail _ h
        · unfold Node.keep
          split
          · simp only [hn]; exact .tail _ h
          · simp only [hn]; exact .tail _ h
      refine hf _ ?_
      split <;> rfl
  | own order b =>
    simp only [Node.step, Node.broadcast]
    split
    · exact h
    · exact .tail _ h
  | sync st =>
    simp only [Node.step]
    by_cases hst : st.exited = true
    · obtain ⟨_, _, _, h4, _⟩ := sync_spec n st (by cases st <;> simp_all [St.exited])
      rw [h4]; exact h
    · simp only [Node.sync, hst, Bool.false_eq_true, if_false]; exact h
  | hear p l => exact h
  | chain t c => exact h

/-- The hashes given out and kept back. -/
def Node.held (n : Node) : List Nat := (n.fed ++ (n.sq.waiting ++ n.aq.waiting)).map (·.body)

theorem held_step (n : Node) (e : Ev) (x : Nat) (h : x ∈ n.filter) (hx : x ∉ n.held) :
    x ∉ (n.step e).1.held := by
  cases e with
  | recv pick order src b ttl =>
    simp only [Node.step]
    rcases handle_cases n pick order src b ttl with he | ⟨hb, he⟩ | ⟨hb, hv, he⟩
    · rw [he]; exact hx
    · rw [he]; exact hx
    · rw [he]
      have hf : ∀ n' : Node, n'.fed = n.fed → n'.sq = n.sq → n'.aq = n.aq →
          x ∉ (if n'.st.exited then n'.notify b else n'.keep b).held := by
        intro n' h1 h2 h3 hin
        have hsub : ∀ c ∈ ((if n'.st.exited then n'.notify b else n'.keep b).fed ++
            ((if n'.st.exited then n'.notify b else n'.keep b).sq.waiting ++
              (if n'.st.exited then n'.notify b else n'.keep b).aq.waiting)),
            c ∈ n.fed ++ (n.sq.waiting ++ n.aq.waiting) ∨ c = b := by
          intro c hc
          rw [← h1, ← h2, ← h3]
          have hq : ∀ q : Queue, c ∈ (q.enq b).waiting → c ∈ q.waiting ∨ c = b := by
            intro q hq
            have := (waiting_enq q b).subset hq
            rw [List.mem_append, List.mem_singleton] at this
            exact this
          split at hc
          · unfold Node.notify at hc
            split at hc
            · exact .inl hc
            · simp only [List.mem_append, List.mem_singleton] at hc ⊢
              rcases hc with (hc | hc) | hc
              · exact .inl (.inl hc)
              · exact .inr hc
              · exact .inl (.inr hc)
          · unfold Node.keep at hc
            split at hc
            · simp only [List.mem_append] at hc ⊢
              rcases hc with hc | hc | hc
              · exact .inl (.inl hc)
              · rcases hq _ hc with hc | hc
                · exact .inl (.inr (.inl hc))
                · exact .inr hc
              · exact .inl (.inr (.inr hc))
            · simp only [List.mem_append] at hc ⊢
              rcases hc with hc | hc | hc
              · exact .inl (.inl hc)
              · exact .inl (.inr (.inl hc))
              · rcases hq _ hc with hc | hc
                · exact .inl (.inr (.inr hc))
                · exact .inr hc
        obtain ⟨c, hc, rfl⟩ := List.mem_map.1 hin
        rcases hsub c hc with hc | rfl
        · exact hx (List.mem_map_of_mem hc)
        · exact hb h
      refine hf _ ?_ ?_ ?_ <;> split <;> rfl
  | own order b =>
    simp only [Node.step, Node.broadcast]
    split
    · exact hx
    · exact hx
  | sync st =>
    simp only [Node.step]
    by_cases hst : st.exited = true
    · obtain ⟨h1, h2, h3, _, _⟩ := sync_spec n st (by cases st <;> simp_all [St.exited])
      intro hin
      unfold Node.held at hin
      rw [h1, h2, h3, List.append_nil, List.append_nil] at hin
      obtain ⟨c, hc, rfl⟩ := List.mem_map.1 hin
      refine hx (List.mem_map_of_mem ?_)
      rcases List.mem_append.1 hc with hc | hc
      · exact List.mem_append_left _ hc
      · exact List.mem_append_right _ (List.mem_filter.1 hc).1
    · simp only [Node.sync, hst, Bool.false_eq_true, if_false]; exact hx
  | hear p l => exact hx
  | chain t c => exact hx

/-- A copy of a block with a wrong signature is enough: the node notes the hash before it looks at
the signature, and the hash does not depend on it.  Whatever happens later, the subscribers are never
told of the genuine block. -/
theorem forged_copy_blocks (n : Node) (b : Blk) (pick : Bool) (order : List Nat) (src ttl : Nat)
    (es : List Ev) (hnew : b.claimed ∉ n.filter) (hbody : b.claimed = b.body) (hheld : b.body ∉ n.held)
    (hage : b.snap = true → n.top ≤ b.height + 100) :
    ∀ c ∈ ((n.handle pick order src { b with sig := false } ttl).1.run es).fed, c.body ≠ b.body := by
  have hm : b.body ∈ (n.handle pick order src { b with sig := false } ttl).1.filter := by
    unfold Node.handle
    have h1 : (({ b with sig := false } : Blk).snap &&
        decide (({ b with sig := false } : Blk).height + 100 < n.top)) = false := by
      cases hs : b.snap with
      | false => simp
      | true =>
        have := hage hs
        simp only [Bool.true_and, decide_eq_false_iff_not]
        omega
    have h2 : n.filter.contains b.claimed = false := by simpa using hnew
    have h3 : n.filter.contains b.body = false := by rw [← hbody]; exact h2
    have h4 : ({ b with sig := false } : Blk).valid = false := by simp [Blk.valid]
    simp only [h1, h2, h3, h4, Bool.false_eq_true, if_false, Bool.not_false, if_true]
    split <;> exact .head _
  have hh : b.body ∉ (n.handle pick order src { b with sig := false } ttl).1.held := by
    rcases handle_cases n pick order src { b with sig := false } ttl with he | ⟨_, he⟩ | ⟨_, hv, _⟩
    · rw [he]; exact hheld
    · rw [he]; exact hheld
    · simp [Blk.valid] at hv
  generalize (n.handle pick order src { b with sig := false } ttl).1 = n' at hm hh
  intro c hc hcb
  have : ∀ es (n' : Node), b.body ∈ n'.filter → b.body ∉ n'.held → b.body ∉ (n'.run es).held := by
    intro es
    induction es with
    | nil => intro n' _ h; exact h
    | cons e es ih => intro n' h1 h2; exact ih _ (filter_grows n' e _ h1) (held_step n' e _ h1 h2)
  refine this es n' hm hh ?_
  rw [← hcb]
  exact List.mem_map_of_mem (List.mem_append_left _ hc)

/-! ### Subscribers -/

/-- What may be asked of the feed. -/
inductive FeedOp where
  | subA | subB | unsubA (i : Nat) | unsubB (i : Nat)

/-- One of these. -/
def Feed.step (f : Feed) : FeedOp → Feed
  | .subA => f.subA.1
  | .subB => f.subB.1
  | .unsubA i => f.unsubA i
  | .unsubB i => f.unsubB i

structure FeedInv (f : Feed) : Prop where
  a : ∀ i ∈ f.aSubs, i ≤ f.cur
  b : ∀ i ∈ f.bSubs, i ≤ f.cur
  apart : ∀ i ∈ f.aSubs, i ∉ f.bSubs

theorem FeedInv.step {f : Feed} (h : FeedInv f) (o : FeedOp) : FeedInv (f.step o) := by
  cases o with
  | subA =>
    refine ⟨fun i hi => ?_, fun i hi => ?_, fun i hi hb => ?_⟩
    · simp only [Feed.step, Feed.subA, List.mem_append, List.mem_singleton] at hi ⊢
      rcases hi with hi | rfl
      · have := h.a i hi; omega
      · omega
    · have := h.b i hi
      simp only [Feed.step, Feed.subA]
      omega
    · simp only [Feed.step, Feed.subA, List.mem_append, List.mem_singleton] at hi hb
      rcases hi with hi | rfl
      · exact h.apart i hi hb
      · have := h.b _ hb; omega
  | subB =>
    refine ⟨fun i hi => ?_, fun i hi => ?_, fun i hi hb => ?_⟩
    · have := h.a i hi
      simp only [Feed.step, Feed.subB]
      omega
    · simp only [Feed.step, Feed.subB, List.mem_append, List.mem_singleton] at hi ⊢
      rcases hi with hi | rfl
      · have := h.b i hi; omega
      · omega
    · simp only [Feed.step, Feed.subB, List.mem_append, List.mem_singleton] at hi hb
      rcases hb with hb | rfl
      · exact h.apart i hi hb
      · have := h.a _ hi; omega
  | unsubA i =>
    exact ⟨fun j hj => h.a j (List.mem_filter.1 hj).1, h.b,
      fun j hj hb => h.apart j (List.mem_filter.1 hj).1 hb⟩
  | unsubB i =>
    exact ⟨fun j hj => h.a j (List.mem_filter.1 hj).1, h.b,
      fun j hj hb => h.apart j (List.mem_filter.1 hj).1 hb⟩

/-- A subscriber stays until it asks to be taken off the list of its own kind, whatever the others
do; one of account blocks is told no more when it has asked. -/
theorem subscribers (ops : List FeedOp) :
    let f := ops.foldl Feed.step ⟨[], [], 0⟩
    (∀ i, i ∉ (f.unsubA i).aSubs) ∧
    (∀ i j, j ∈ f.aSubs → j ≠ i → j ∈ (f.unsubA i).aSubs ∧ j ∈ (f.unsubB i).aSubs) ∧
    (∀ i ∈ f.bSubs, ∀ j, j ∈ f.aSubs → j ∈ (f.unsubB i).aSubs) ∧
    (∀ i j, j ∈ f.bSubs → j ∈ (f.unsubA i).bSubs) := by
  have hinv : FeedInv (ops.foldl Feed.step ⟨[], [], 0⟩) := by
    have : ∀ (ops : List FeedOp) f, FeedInv f → FeedInv (ops.foldl Feed.step f) := by
      intro ops
      induction ops with
      | nil => intro f h; exact h
      | cons o ops ih => intro f h; exact ih _ (h.step o)
    exact this ops _ ⟨by simp, by simp, by simp⟩
  refine ⟨fun i => by simp [Feed.unsubA], fun i j hj hne => ?_, fun i hi j hj => ?_, fun i j hj => hj⟩
  · simp only [Feed.unsubA, Feed.unsubB, List.mem_filter, bne_iff_ne]
    exact ⟨⟨hj, hne⟩, ⟨hj, hne⟩⟩
  · simp only [Feed.unsubB, List.mem_filter, bne_iff_ne]
    exact ⟨hj, fun he => hinv.apart j hj (he ▸ hi)⟩

/-- A subscriber of snapshot blocks cannot leave: it is told of every block after it has asked. -/
theorem snapshot_subscriber_stays (f : Feed) : f.subB.2 ∈ (f.subB.1.unsubB f.subB.2).bSubs := by
  simp [Feed.subB, Feed.unsubB]

/-! ### Examples -/

def exBlk (i : Nat) : Blk := ⟨false, i, i, 0, true⟩

-- kept back and given out; the second time the first two are lost
example : (session ⟨[], 0⟩ [exBlk 1, exBlk 2]).1 = [exBlk 1, exBlk 2] ∧
    (session (session ⟨[], 0⟩ [exBlk 1, exBlk 2]).2 [exBlk 3, exBlk 4, exBlk 5]).1 = [exBlk 5] := by
  decide +kernel

-- blocks come while syncing and after: all are given out once, the black one is not
example : ((Node.fresh [1, 2, 3] false [9]).run
    [.recv false [1, 2, 3] 1 (exBlk 5) 32, .recv false [1, 2, 3] 2 (exBlk 5) 32,
     .recv false [1, 2, 3] 2 (exBlk 9) 32, .sync .done, .recv true [1, 2, 3] 3 (exBlk 6) 3]).fed =
    [exBlk 5, exBlk 6] := by decide +kernel

example : ((Node.fresh [1, 2, 3] false []).handle false [3, 1, 2] 1 (exBlk 5) 32).2 =
    [(3, 31), (2, 31)] := by decide +kernel

-- the genuine block after the forged one
example : ((Node.fresh [1, 2, 3] false []).run
    [.sync .done, .recv false [1, 2, 3] 1 { exBlk 5 with sig := false } 32,
     .recv false [1, 2, 3] 2 (exBlk 5) 32]).fed = [] := by decide +kernel

end Verif.Gossip
