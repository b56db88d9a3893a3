import Verif.Gossip.NetSpec
import Verif.Gossip.NodeProps

/-! # A block reaches every node (C123) -/

namespace Verif.Gossip

/-- What of a node stays the same while it handles a message. -/
structure Same (n n' : Node) : Prop where
  st : n'.st = n.st
  black : n'.black = n.black
  told : n'.told = n.told
  top : n'.top = n.top
  confirmed : n'.confirmed = n.confirmed
  full : n'.full = n.full

theorem Same.trans {a b c : Node} (h : Same a b) (h' : Same b c) : Same a c :=
  ⟨h'.st.trans h.st, h'.black.trans h.black, h'.told.trans h.told, h'.top.trans h.top,
    h'.confirmed.trans h.confirmed, h'.full.trans h.full⟩

theorem same_take (n : Node) (b : Blk) :
    Same n (if n.st.exited then n.notify b else n.keep b) ∧
    (if n.st.exited then n.notify b else n.keep b).filter = n.filter ∧
    (if n.st.exited then n.notify b else n.keep b).known = n.known ∧
    (∀ x ∈ n.fed, x ∈ (if n.st.exited then n.notify b else n.keep b).fed) ∧
    (n.st.exited = true → b.claimed ∉ n.black →
      b ∈ (if n.st.exited then n.notify b else n.keep b).fed) := by
  split
  · unfold Node.notify
    split
    · rename_i hb
      refine ⟨⟨rfl, rfl, rfl, rfl, rfl, rfl⟩, rfl, rfl, fun x hx => hx, fun _ h => ?_⟩
      exact absurd (by simpa using hb) h
    · exact ⟨⟨rfl, rfl, rfl, rfl, rfl, rfl⟩, rfl, rfl, fun x hx => List.mem_append_left _ hx,
        fun _ _ => by simp⟩
  · rename_i hs
    unfold Node.keep
    split
    · exact ⟨⟨rfl, rfl, rfl, rfl, rfl, rfl⟩, rfl, rfl, fun x hx => hx, fun h => absurd h hs⟩
    · exact ⟨⟨rfl, rfl, rfl, rfl, rfl, rfl⟩, rfl, rfl, fun x hx => hx, fun h => absurd h hs⟩

/-- A message with another block changes nothing with regard to this one. -/
theorem handle_other (n : Node) (pick : Bool) (order : List Nat) (src : Nat) (b : Blk) (ttl h : Nat)
    (hn : order.Nodup) (hb : b.body ≠ h) (hv : b.valid = true) :
    let n' := (n.handle pick order src b ttl).1
    Same n n' ∧ (h ∈ n'.filter ↔ h ∈ n.filter) ∧ (∀ p, h ∈ n'.known p ↔ h ∈ n.known p) ∧
    (∀ x ∈ n.fed, x ∈ n'.fed) := by
  have hc : b.claimed = b.body := by
    have : b.claimed = b.body ∧ b.sig = true := by simpa [Blk.valid] using hv
    exact this.1
  rcases handle_cases n pick order src b ttl with he | ⟨_, he⟩ | ⟨_, _, he⟩
  · rw [he]
    exact ⟨⟨rfl, rfl, rfl, rfl, rfl, rfl⟩, Iff.rfl, fun _ => Iff.rfl, fun x hx => hx⟩
  · rw [he]
    refine ⟨⟨rfl, rfl, rfl, rfl, rfl, rfl⟩, ?_, fun _ => Iff.rfl, fun x hx => hx⟩
    simp only [List.mem_cons]
    exact ⟨fun h => h.resolve_left (fun he => hb he.symm), .inr⟩
  · rw [he]
    have key : ∀ n1 : Node, Same n n1 → n1.filter = b.body :: n.filter →
        (∀ p, h ∈ n1.known p ↔ h ∈ n.known p) → n1.fed = n.fed →
        let n' := if n1.st.exited then n1.notify b else n1.keep b
        Same n n' ∧ (h ∈ n'.filter ↔ h ∈ n.filter) ∧ (∀ p, h ∈ n'.known p ↔ h ∈ n.known p) ∧
        (∀ x ∈ n.fed, x ∈ n'.fed) := by
      intro n1 h1 h2 h3 h4
      obtain ⟨i1, i2, i3, i4, _⟩ := same_take n1 b
      refine ⟨h1.trans i1, ?_, ?_, ?_⟩
      · rw [i2, h2, List.mem_cons]
        exact ⟨fun h => h.resolve_left (fun he => hb he.symm), .inr⟩
      · intro p
        rw [i3]
        exact h3 p
      · intro x hx
        exact i4 x (h4 ▸ hx)
    split
    · refine key _ ⟨rfl, rfl, rfl, rfl, rfl, rfl⟩ rfl ?_ rfl
      intro p
      simp only [Node.forward]
      rw [(spread_spec b.claimed _
        (hn.sublist (choose_sub ({ n with filter := b.body :: n.filter } : Node) order src).1) n.known).2]
      exact ⟨fun h' => h'.resolve_right (fun ⟨he, _⟩ => hb (by rw [← hc, he])), .inl⟩
    · exact key _ ⟨rfl, rfl, rfl, rfl, rfl, rfl⟩ rfl (fun _ => Iff.rfl) rfl

/-- A message with a block not seen before. -/
theorem handle_new (n : Node) (pick : Bool) (order : List Nat) (src : Nat) (c : Blk) (ttl : Nat)
    (hn : order.Nodup) (hv : c.valid = true) (hnew : c.body ∉ n.filter)
    (hold : c.snap = true → n.top ≤ c.height + 100) (hconf : n.confirmed c.body ≤ 100)
    (hlive : n.st.exited = true) (hblack : c.claimed ∉ n.black) :
    let r := n.handle pick order src c ttl
    Same n r.1 ∧ r.1.filter = c.body :: n.filter ∧ c ∈ r.1.fed ∧
    (∀ p, c.body ∈ r.1.known p → c.body ∈ n.known p ∨ (0 < ttl ∧ p ∈ n.choose order src)) ∧
    (0 < ttl → ∀ p ∈ n.choose order src, c.body ∉ n.known p → (p, ttl - 1) ∈ r.2) ∧
    (∀ m ∈ r.2, 0 < ttl ∧ m.1 ∈ order ∧ m.2 = ttl - 1) ∧ r.2.length ≤ order.length := by
  have hc : c.claimed = c.body ∧ c.sig = true := by simpa [Blk.valid] using hv
  have h1 : (c.snap && decide (c.height + 100 < n.top)) = false := by
    cases hs : c.snap with
    | false => simp
    | true =>
      have := hold hs
      simp only [Bool.true_and, decide_eq_false_iff_not]
      omega
  have h2 : n.filter.contains c.claimed = false := by rw [hc.1]; simpa using hnew
  have h3 : n.filter.contains c.body = false := by simpa using hnew
  have h4 : decide (100 < n.confirmed c.body) = false := by simpa using hconf
  simp only [Node.handle, h1, h2, h3, h4, hv, Bool.and_false, Bool.false_eq_true, if_false, Bool.not_true]
  by_cases ht : 0 < ttl
  · simp only [if_pos ht]
    have hcs := choose_sub n order src
    have hch : ({ n with filter := c.body :: n.filter } : Node).choose order src =
      n.choose order src := rfl
    obtain ⟨s1, s2⟩ := spread_spec c.claimed (n.choose order src) (hn.sublist hcs.1) n.known
    obtain ⟨i1, i2, i3, i4, i5⟩ :=
      same_take (({ n with filter := c.body :: n.filter } : Node).forward order src c).1 c
    refine ⟨⟨i1.st, i1.black, i1.told, i1.top, i1.confirmed, i1.full⟩, i2, i5 hlive hblack, ?_, ?_, ?_, ?_⟩
    · intro p hp
      rw [i3] at hp
      simp only [Node.forward] at hp
      rw [hch, s2] at hp
      rcases hp with hp | ⟨_, hp⟩
      · exact .inl hp
      · exact .inr ⟨ht, hp⟩
    · intro _ p hp hk
      refine List.mem_map.2 ⟨p, ?_, rfl⟩
      simp only [Node.forward]
      rw [hch, s1, hc.1]
      exact List.mem_filter.2 ⟨hp, by simpa using hk⟩
    · intro m hm
      obtain ⟨p, hp, rfl⟩ := List.mem_map.1 hm
      simp only [Node.forward] at hp
      rw [hch] at hp
      exact ⟨ht, hcs.1.subset ((spread_sub _ _ _).subset hp), rfl⟩
    · rw [List.length_map]
      simp only [Node.forward]
      rw [hch]
      exact Nat.le_trans (spread_sub _ _ _).length_le hcs.1.length_le
  · simp only [if_neg ht]
    obtain ⟨i1, i2, i3, i4, i5⟩ := same_take ({ n with filter := c.body :: n.filter } : Node) c
    refine ⟨⟨i1.st, i1.black, i1.told, i1.top, i1.confirmed, i1.full⟩, i2, i5 hlive hblack, ?_, ?_, ?_, ?_⟩
    · intro p hp
      rw [i3] at hp
      exact .inl hp
    · intro h
      exact absurd h ht
    · simp
    · simp

/-- A message with a block seen before. -/
theorem handle_old (n : Node) (pick : Bool) (order : List Nat) (src : Nat) (c : Blk) (ttl : Nat)
    (h : c.body ∈ n.filter) : n.handle pick order src c ttl = (n, []) := by
  rcases handle_cases n pick order src c ttl with he | ⟨hb, _⟩ | ⟨hb, _, _⟩
  · exact he
  · exact absurd h hb
  · exact absurd h hb

/-- The block has come there or is on its way there. -/
def Cov (c : Blk) (net : Net) (x : Nat) : Prop :=
  c.body ∈ (net.node x).filter ∨ ∃ w ∈ net.wire, w.b = c ∧ w.dst = x

/-- The message came over distinct nodes that have the block, as many as the time to live says. -/
def Path (c : Blk) (ids : List Nat) (net : Net) (ttl : Nat) : Prop :=
  ∃ path : List Nat, path.Nodup ∧ (∀ x ∈ path, x ∈ ids ∧ c.body ∈ (net.node x).filter) ∧
    33 ≤ path.length + ttl

/-- What holds at any time; `os` are the nodes that sent the block as their own. -/
structure NInv (adj : Nat → List Nat) (ids : List Nat) (c : Blk) (os : Nat → Prop) (net : Net) :
    Prop where
  right : c.valid = true
  cov : ∀ i, c.body ∈ (net.node i).filter → ∀ x ∈ adj i, Cov c net x
  inids : ∀ i, c.body ∈ (net.node i).filter → i ∈ ids
  fed : ∀ i, c.body ∈ (net.node i).filter → os i ∨ c ∈ (net.node i).fed
  known : ∀ i p, c.body ∈ (net.node i).known p → Cov c net p
  live : ∀ i, (net.node i).st.exited = true
  white : ∀ i, c.claimed ∉ (net.node i).black
  told : ∀ i p, ∀ x ∈ (net.node i).told p, x ∈ adj p
  young : ∀ i, (c.snap = true → (net.node i).top ≤ c.height + 100) ∧ (net.node i).confirmed c.body ≤ 100
  wvalid : ∀ w ∈ net.wire, w.b.valid = true
  wire : ∀ w ∈ net.wire, w.b.body = c.body → w.b = c ∧ c.body ∈ (net.node w.src).filter ∧
    w.dst ∈ ids ∧ w.dst ∈ adj w.src ∧ Path c ids net w.ttl
  osin : ∀ i, os i → c.body ∈ (net.node i).filter

theorem NInv.start {adj : Nat → List Nat} {ids : List Nat} {c : Blk} {net : Net}
    (h : Start adj c net) : NInv adj ids c (fun _ => False) net :=
  { right := h.right
    cov := fun i hi => absurd hi (h.unseen i)
    inids := fun i hi => absurd hi (h.unseen i)
    fed := fun i hi => absurd hi (h.unseen i)
    known := fun i p hp => absurd hp (h.unknown i p)
    live := h.live
    white := h.white
    told := h.told
    young := h.young
    wvalid := fun w hw => (h.wire w hw).1
    wire := fun w hw he => absurd he (h.wire w hw).2
    osin := fun _ h => h.elim }

/-- A change of one node that has nothing to do with the block, which may take a message about
another block and send some about it. -/
theorem NInv.frame {adj : Nat → List Nat} {ids : List Nat} {c : Blk} {os : Nat → Prop} {net : Net}
    (h : NInv adj ids c os net) (net' : Net)
    (hf : ∀ i, c.body ∈ (net'.node i).filter ↔ c.body ∈ (net.node i).filter)
    (hk : ∀ i p, c.body ∈ (net'.node i).known p ↔ c.body ∈ (net.node i).known p)
    (hfed : ∀ i, ∀ x ∈ (net.node i).fed, x ∈ (net'.node i).fed)
    (hl : ∀ i, (net'.node i).st = (net.node i).st)
    (hb : ∀ i, (net'.node i).black = (net.node i).black)
    (ht : ∀ i p, ∀ x ∈ (net'.node i).told p, x ∈ adj p)
    (hy : ∀ i, (c.snap = true → (net'.node i).top ≤ c.height + 100) ∧ (net'.node i).confirmed c.body ≤ 100)
    (hw1 : ∀ w ∈ net.wire, w.b = c → w ∈ net'.wire)
    (hw2 : ∀ w ∈ net'.wire, w ∈ net.wire ∨ (w.b.valid = true ∧ w.b.body ≠ c.body)) :
    NInv adj ids c os net' := by
  have hcov : ∀ x, Cov c net x → Cov c net' x := by
    rintro x (hx | ⟨w, hw, h1, h2⟩)
    · exact .inl ((hf x).2 hx)
    · exact .inr ⟨w, hw1 w hw h1, h1, h2⟩
  refine
    { right := h.right
      cov := fun i hi x hx => hcov x (h.cov i ((hf i).1 hi) x hx)
      inids := fun i hi => h.inids i ((hf i).1 hi)
      fed := fun i hi => ?_
      known := fun i p hp => hcov p (h.known i p ((hk i p).1 hp))
      live := fun i => by rw [hl]; exact h.live i
      white := fun i => by rw [hb]; exact h.white i
      told := ht
      young := hy
      wvalid := fun w hw => ?_
      wire := fun w hw he => ?_
      osin := fun i hi => (hf i).2 (h.osin i hi) }
  · rcases h.fed i ((hf i).1 hi) with h1 | h1
    · exact .inl h1
    · exact .inr (hfed i c h1)
  · rcases hw2 w hw with h1 | h1
    · exact h.wvalid w h1
    · exact h1.1
  · rcases hw2 w hw with h1 | h1
    · obtain ⟨h2, h3, h4, h5, path, h6, h7, h8⟩ := h.wire w h1 he
      exact ⟨h2, (hf _).2 h3, h4, h5, path, h6, fun x hx => ⟨(h7 x hx).1, (hf x).2 (h7 x hx).2⟩, h8⟩
    · exact absurd he h1.2

theorem mem_eraseIdx_or {l : List Wire} {k : Nat} {w x : Wire} (hk : l[k]? = some w) (hx : x ∈ l) :
    x = w ∨ x ∈ l.eraseIdx k := by
  obtain ⟨i, hi, rfl⟩ := List.getElem_of_mem hx
  by_cases he : i = k
  · subst he
    rw [List.getElem?_eq_getElem hi] at hk
    exact .inl (Option.some.inj hk)
  · right
    rw [List.mem_eraseIdx_iff_getElem]
    exact ⟨i, hi, he, rfl⟩

theorem full_ids {ids path : List Nat} (hi : ids.length ≤ 34) (hp : path.Nodup)
    (hs : ∀ x ∈ path, x ∈ ids) (hl : 34 ≤ path.length) : ∀ x ∈ ids, x ∈ path := by
  intro x hx
  by_contra hn
  have h1 : (x :: path).Nodup := List.nodup_cons.2 ⟨hn, hp⟩
  have h2 : (x :: path).length ≤ ids.length := by
    refine (List.Nodup.subperm h1 ?_).length_le
    intro y hy
    rcases List.mem_cons.1 hy with rfl | hy
    · exact hx
    · exact hs y hy
  simp only [List.length_cons] at h2
  omega

/-- Sending a block of one's own. -/
theorem NInv.own {adj : Nat → List Nat} {ids : List Nat} {c : Blk} {os : Nat → Prop} {net : Net}
    (h : NInv adj ids c os net) (i : Nat) (order : List Nat) (b : Blk)
    (hid : b = c → i ∈ ids) (hclosed : ∀ i ∈ ids, ∀ x ∈ adj i, x ∈ ids)
    (hl : Legal adj c net (.own i order b)) :
    NInv adj ids c (fun j => os j ∨ (b = c ∧ j = i)) (net.step (.own i order b)) := by
  obtain ⟨hperm, hval, heq⟩ := hl
  have hst : (net.node i).st ≠ .syncing := by
    intro he
    have := h.live i
    rw [he] at this
    exact absurd this (by decide)
  have hclaim : b.claimed = b.body := by
    have : b.claimed = b.body ∧ b.sig = true := by simpa [Blk.valid] using hval
    exact this.1
  by_cases hb : b.body = c.body
  · have hbc := heq hb
    subst hbc
    -- the filter of the sender has it now
    have hf : ∀ j, b.body ∈ ((net.step (.own i order b)).node j).filter ↔
        j = i ∨ b.body ∈ (net.node j).filter := by
      intro j
      simp only [Net.step, Net.put, Node.step, Node.broadcast, if_neg hst]
      by_cases hj : j = i
      · simp [hj, hclaim]
      · simp [hj]
    have hw : (net.step (.own i order b)).wire = net.wire ++ (order.map (fun p => (⟨i, p, 32, b⟩ : Wire))) := by
      simp only [Net.step, Net.put, Node.step, Node.broadcast, if_neg hst, List.map_map]
      rfl
    have hnode : ∀ j, ∃ f, (net.step (.own i order b)).node j = { net.node j with filter := f } := by
      intro j
      simp only [Net.step, Net.put, Node.step, Node.broadcast, if_neg hst]
      by_cases hj : j = i
      · exact ⟨_, by rw [if_pos hj, hj]⟩
      · exact ⟨(net.node j).filter, by rw [if_neg hj]⟩
    have hcov : ∀ x, Cov b net x → Cov b (net.step (.own i order b)) x := by
      rintro x (hx | ⟨w, hw', h1, h2⟩)
      · exact .inl ((hf x).2 (.inr hx))
      · exact .inr ⟨w, by rw [hw]; exact List.mem_append_left _ hw', h1, h2⟩
    refine
      { right := h.right
        cov := fun j hj x hx => ?_
        inids := fun j hj => ?_
        fed := fun j hj => ?_
        known := fun j p hp => ?_
        live := fun j => ?_
        white := fun j => ?_
        told := fun j => ?_
        young := fun j => ?_
        wvalid := fun w hw' => ?_
        wire := fun w hw' he => ?_
        osin := fun j hj => ?_ }
    · rcases (hf j).1 hj with rfl | hj
      · refine .inr ⟨⟨j, x, 32, b⟩, ?_, rfl, rfl⟩
        rw [hw]
        exact List.mem_append_right _ (List.mem_map.2 ⟨x, hperm.mem_iff.2 hx, rfl⟩)
      · exact hcov x (h.cov j hj x hx)
    · rcases (hf j).1 hj with rfl | hj
      · exact hid rfl
      · exact h.inids j hj
    · rcases (hf j).1 hj with rfl | hj
      · exact .inl (.inr ⟨rfl, rfl⟩)
      · obtain ⟨f, he⟩ := hnode j
        rw [he]
        rcases h.fed j hj with h1 | h1
        · exact .inl (.inl h1)
        · exact .inr h1
    · obtain ⟨f, he⟩ := hnode j
      rw [he] at hp
      exact hcov p (h.known j p hp)
    · obtain ⟨f, he⟩ := hnode j
      rw [he]; exact h.live j
    · obtain ⟨f, he⟩ := hnode j
      rw [he]; exact h.white j
    · obtain ⟨f, he⟩ := hnode j
      rw [he]; exact h.told j
    · obtain ⟨f, he⟩ := hnode j
      rw [he]; exact h.young j
    · rw [hw, List.mem_append] at hw'
      rcases hw' with hw' | hw'
      · exact h.wvalid w hw'
      · obtain ⟨p, _, rfl⟩ := List.mem_map.1 hw'
        exact hval
    · rw [hw, List.mem_append] at hw'
      rcases hw' with hw' | hw'
      · obtain ⟨h2, h3, h4, h5, path, h6, h7, h8⟩ := h.wire w hw' he
        exact ⟨h2, (hf _).2 (.inr h3), h4, h5, path, h6,
          fun x hx => ⟨(h7 x hx).1, (hf x).2 (.inr (h7 x hx).2)⟩, h8⟩
      · obtain ⟨p, hp, rfl⟩ := List.mem_map.1 hw'
        have hp' := hperm.subset hp
        refine ⟨rfl, (hf i).2 (.inl rfl), hclosed i (hid rfl) p hp', hp', [i], by simp, ?_, by simp⟩
        intro x hx
        rw [List.mem_singleton] at hx
        subst hx
        exact ⟨hid rfl, (hf x).2 (.inl rfl)⟩
    · rcases hj with hj | ⟨_, rfl⟩
      · exact (hf j).2 (.inr (h.osin j hj))
      · exact (hf j).2 (.inl rfl)
  · have hne : b ≠ c := fun he => hb (by rw [he])
    have hos : (fun j => os j ∨ (b = c ∧ j = i)) = os := by
      funext j
      simp [hne]
    rw [hos]
    have hnode : ∀ j, ∃ f, (net.step (.own i order b)).node j = { net.node j with filter := f } ∧
        (c.body ∈ f ↔ c.body ∈ (net.node j).filter) := by
      intro j
      simp only [Net.step, Net.put, Node.step, Node.broadcast, if_neg hst]
      by_cases hj : j = i
      · refine ⟨b.claimed :: (net.node i).filter, by rw [if_pos hj, hj], ?_⟩
        rw [hj, List.mem_cons, hclaim]
        exact ⟨fun h => h.resolve_left (fun he => hb he.symm), .inr⟩
      · exact ⟨(net.node j).filter, by rw [if_neg hj], Iff.rfl⟩
    refine h.frame _ ?_ ?_ ?_ ?_ ?_ ?_ ?_ ?_ ?_
    · intro j
      obtain ⟨f, he, hc⟩ := hnode j
      rw [he]; exact hc
    · intro j p
      obtain ⟨f, he, hc⟩ := hnode j
      rw [he]
    · intro j x hx
      obtain ⟨f, he, hc⟩ := hnode j
      rw [he]; exact hx
    · intro j
      obtain ⟨f, he, hc⟩ := hnode j
      rw [he]
    · intro j
      obtain ⟨f, he, hc⟩ := hnode j
      rw [he]
    · intro j
      obtain ⟨f, he, hc⟩ := hnode j
      rw [he]; exact h.told j
    · intro j
      obtain ⟨f, he, hc⟩ := hnode j
      rw [he]; exact h.young j
    · intro w hw _
      simp only [Net.step, Net.put]
      exact List.mem_append_left _ hw
    · intro w hw
      simp only [Net.step, Net.put, List.mem_append] at hw
      rcases hw with hw | hw
      · exact .inl hw
      · obtain ⟨m, _, rfl⟩ := List.mem_map.1 hw
        exact .inr ⟨hval, hb⟩

/-- A message arrives. -/
theorem NInv.deliver {adj : Nat → List Nat} {ids : List Nat} {c : Blk} {os : Nat → Prop} {net : Net}
    (h : NInv adj ids c os net) (k : Nat) (pick : Bool) (order : List Nat)
    (hclosed : ∀ i ∈ ids, ∀ x ∈ adj i, x ∈ ids) (hlen : ids.length ≤ 34)
    (hnd : ∀ i, (adj i).Nodup) (hl : Legal adj c net (.deliver k pick order)) :
    NInv adj ids c os (net.step (.deliver k pick order)) := by
  simp only [Net.step]
  cases hk : net.wire[k]? with
  | none => exact h
  | some w =>
    have hperm := hl w hk
    have hno : order.Nodup := hperm.nodup_iff.2 (hnd _)
    have hwin : w ∈ net.wire := List.mem_of_getElem? hk
    simp only
    by_cases hb : w.b.body = c.body
    · obtain ⟨hbc, hsrc, hdst, hadj, path, hp1, hp2, hp3⟩ := h.wire w hwin hb
      rw [hbc]
      by_cases hseen : c.body ∈ (net.node w.dst).filter
      · -- seen before: only the message is gone
        have hr : (net.node w.dst).step (.recv pick order w.src c w.ttl) = (net.node w.dst, []) :=
          handle_old _ _ _ _ _ _ hseen
        have hnode : ∀ j, (({ net with wire := net.wire.eraseIdx k } : Net).put w.dst c
            ((net.node w.dst).step (.recv pick order w.src c w.ttl))).node j = net.node j := by
          intro j
          rw [hr]
          simp only [Net.put]
          split
          · rename_i he; rw [he]
          · rfl
        have hwire : (({ net with wire := net.wire.eraseIdx k } : Net).put w.dst c
            ((net.node w.dst).step (.recv pick order w.src c w.ttl))).wire = net.wire.eraseIdx k := by
          rw [hr]
          simp [Net.put]
        have hcov : ∀ x, Cov c net x → Cov c (({ net with wire := net.wire.eraseIdx k } : Net).put w.dst c
            ((net.node w.dst).step (.recv pick order w.src c w.ttl))) x := by
          rintro x (hx | ⟨w', hw', h1, h2⟩)
          · left; rw [hnode]; exact hx
          · rcases mem_eraseIdx_or hk hw' with rfl | hw''
            · left; rw [hnode, ← h2]; exact hseen
            · right; exact ⟨w', by rw [hwire]; exact hw'', h1, h2⟩
        refine
          { right := h.right
            cov := fun j hj x hx => hcov x (h.cov j (by rw [← hnode j]; exact hj) x hx)
            inids := fun j hj => h.inids j (by rw [← hnode j]; exact hj)
            fed := fun j hj => by rw [hnode]; exact h.fed j (by rw [← hnode j]; exact hj)
            known := fun j p hp => hcov p (h.known j p (by rw [← hnode j]; exact hp))
            live := fun j => by rw [hnode]; exact h.live j
            white := fun j => by rw [hnode]; exact h.white j
            told := fun j => by rw [hnode]; exact h.told j
            young := fun j => by rw [hnode]; exact h.young j
            wvalid := fun w' hw' => h.wvalid w' (by rw [hwire] at hw'; exact List.mem_of_mem_eraseIdx hw')
            wire := fun w' hw' he => ?_
            osin := fun j hj => by rw [hnode]; exact h.osin j hj }
        rw [hwire] at hw'
        obtain ⟨h2, h3, h4, h5, path, h6, h7, h8⟩ := h.wire w' (List.mem_of_mem_eraseIdx hw') he
        exact ⟨h2, by rw [hnode]; exact h3, h4, h5, path, h6,
          fun x hx => ⟨(h7 x hx).1, by rw [hnode]; exact (h7 x hx).2⟩, h8⟩
      · -- new
        obtain ⟨r1, r2, r3, r4, r5, r6, _⟩ := handle_new (net.node w.dst) pick order w.src c w.ttl hno
          h.right hseen (h.young w.dst).1 (h.young w.dst).2 (h.live w.dst) (h.white w.dst)
        simp only [Node.step]
        generalize hrr : (net.node w.dst).handle pick order w.src c w.ttl = r at r1 r2 r3 r4 r5 r6
        have hnd' : ∀ j, j ≠ w.dst → (({ net with wire := net.wire.eraseIdx k } : Net).put w.dst c r).node j =
            net.node j := fun j hj => by simp only [Net.put, if_neg hj]
        have hdd : (({ net with wire := net.wire.eraseIdx k } : Net).put w.dst c r).node w.dst = r.1 := by
          simp only [Net.put, if_true]
        have hf : ∀ j, c.body ∈ ((({ net with wire := net.wire.eraseIdx k } : Net).put w.dst c r).node j).filter ↔
            j = w.dst ∨ c.body ∈ (net.node j).filter := by
          intro j
          by_cases hj : j = w.dst
          · subst hj
            rw [hdd, r2]
            simp
          · rw [hnd' j hj]
            simp [hj]
        have hwire : (({ net with wire := net.wire.eraseIdx k } : Net).put w.dst c r).wire =
            net.wire.eraseIdx k ++ r.2.map (fun m => ⟨w.dst, m.1, m.2, c⟩) := rfl
        have hcov : ∀ x, Cov c net x →
            Cov c (({ net with wire := net.wire.eraseIdx k } : Net).put w.dst c r) x := by
          rintro x (hx | ⟨w', hw', h1, h2⟩)
          · exact .inl ((hf x).2 (.inr hx))
          · rcases mem_eraseIdx_or hk hw' with rfl | hw''
            · exact .inl ((hf x).2 (.inl h2.symm))
            · exact .inr ⟨w', by rw [hwire]; exact List.mem_append_left _ hw'', h1, h2⟩
        have hsame : ∀ j, Same (net.node j)
            ((({ net with wire := net.wire.eraseIdx k } : Net).put w.dst c r).node j) := by
          intro j
          by_cases hj : j = w.dst
          · subst hj
            rw [hdd]; exact r1
          · rw [hnd' j hj]; exact ⟨rfl, rfl, rfl, rfl, rfl, rfl⟩
        -- whoever was chosen gets it
        have hchosen : 0 < w.ttl → ∀ x ∈ (net.node w.dst).choose order w.src,
            Cov c (({ net with wire := net.wire.eraseIdx k } : Net).put w.dst c r) x := by
          intro ht x hx
          by_cases hkn : c.body ∈ (net.node w.dst).known x
          · exact hcov x (h.known _ _ hkn)
          · refine .inr ⟨⟨w.dst, x, w.ttl - 1, c⟩, ?_, rfl, rfl⟩
            rw [hwire]
            exact List.mem_append_right _ (List.mem_map.2 ⟨_, r5 ht x hx hkn, rfl⟩)
        refine
          { right := h.right
            cov := fun j hj x hx => ?_
            inids := fun j hj => ?_
            fed := fun j hj => ?_
            known := fun j p hp => ?_
            live := fun j => by rw [(hsame j).st]; exact h.live j
            white := fun j => by rw [(hsame j).black]; exact h.white j
            told := fun j => by rw [(hsame j).told]; exact h.told j
            young := fun j => by rw [(hsame j).top, (hsame j).confirmed]; exact h.young j
            wvalid := fun w' hw' => ?_
            wire := fun w' hw' he => ?_
            osin := fun j hj => (hf j).2 (.inr (h.osin j hj)) }
        · rcases (hf j).1 hj with rfl | hj
          · by_cases ht : 0 < w.ttl
            · by_cases hch : x ∈ (net.node w.dst).choose order w.src
              · exact hchosen ht x hch
              · -- not chosen: it is the sender or a peer of the sender
                by_cases hxs : x = w.src
                · subst hxs
                  exact .inl ((hf _).2 (.inr hsrc))
                · have hxo : x ∈ order := hperm.mem_iff.2 hx
                  unfold Node.choose at hch
                  split at hch
                  · exact absurd (((full_spec order w.src 0 0).2 x).2 ⟨hxo, hxs⟩) hch
                  · by_cases hte : (net.node w.dst).told w.src = []
                    · rw [hte, (full_spec order w.src 3 10).1] at hch
                      exact absurd (((full_spec order w.src 0 0).2 x).2 ⟨hxo, hxs⟩) hch
                    · obtain ⟨_, _, h3, _⟩ := cross_spec order ((net.node w.dst).told w.src) w.src 3 10 hte
                      by_cases hxt : x ∈ (net.node w.dst).told w.src
                      · exact hcov x (h.cov w.src hsrc x (h.told w.dst w.src x hxt))
                      · exact absurd (h3 x hxo hxs hxt) hch
            · -- the time to live is over: everybody has it
              have hnp : w.dst ∉ path := fun hm => hseen (hp2 _ hm).2
              have hall := full_ids hlen (List.nodup_cons.2 ⟨hnp, hp1⟩)
                (fun y hy => by
                  rcases List.mem_cons.1 hy with rfl | hy
                  · exact hdst
                  · exact (hp2 y hy).1) (by simp only [List.length_cons]; omega)
              have hxi := hall x (hclosed _ hdst x hx)
              left
              rw [hf]
              rcases List.mem_cons.1 hxi with rfl | hxi
              · exact .inl rfl
              · exact .inr (hp2 x hxi).2
          · exact hcov x (h.cov j hj x hx)
        · rcases (hf j).1 hj with rfl | hj
          · exact hdst
          · exact h.inids j hj
        · by_cases hjd : j = w.dst
          · subst hjd
            rw [hdd]
            exact .inr r3
          · rw [hnd' j hjd]
            rcases (hf j).1 hj with hj | hj
            · exact absurd hj hjd
            · exact h.fed j hj
        · by_cases hjd : j = w.dst
          · subst hjd
            rw [hdd] at hp
            rcases r4 p hp with hp | ⟨ht, hp⟩
            · exact hcov p (h.known _ p hp)
            · exact hchosen ht p hp
          · rw [hnd' j hjd] at hp
            exact hcov p (h.known j p hp)
        · rw [hwire, List.mem_append] at hw'
          rcases hw' with hw' | hw'
          · exact h.wvalid w' (List.mem_of_mem_eraseIdx hw')
          · obtain ⟨m, _, rfl⟩ := List.mem_map.1 hw'
            exact h.right
        · rw [hwire, List.mem_append] at hw'
          rcases hw' with hw' | hw'
          · obtain ⟨h2, h3, h4, h5, path', h6, h7, h8⟩ := h.wire w' (List.mem_of_mem_eraseIdx hw') he
            exact ⟨h2, (hf _).2 (.inr h3), h4, h5, path', h6,
              fun x hx => ⟨(h7 x hx).1, (hf x).2 (.inr (h7 x hx).2)⟩, h8⟩
          · obtain ⟨m, hm, rfl⟩ := List.mem_map.1 hw'
            obtain ⟨ht, hm1, hm2⟩ := r6 m hm
            have hma := hperm.subset hm1
            have hnp : w.dst ∉ path := fun hm => hseen (hp2 _ hm).2
            refine ⟨rfl, (hf _).2 (.inl rfl), hclosed _ hdst _ hma, hma, w.dst :: path,
              List.nodup_cons.2 ⟨hnp, hp1⟩, ?_, ?_⟩
            · intro x hx
              rcases List.mem_cons.1 hx with rfl | hx
              · exact ⟨hdst, (hf _).2 (.inl rfl)⟩
              · exact ⟨(hp2 x hx).1, (hf x).2 (.inr (hp2 x hx).2)⟩
            · simp only [List.length_cons]
              omega
    · -- another block
      obtain ⟨r1, r2, r3, r4⟩ := handle_other (net.node w.dst) pick order w.src w.b w.ttl c.body hno hb
        (h.wvalid w hwin)
      simp only [Node.step]
      generalize (net.node w.dst).handle pick order w.src w.b w.ttl = r at r1 r2 r3 r4
      have hnd' : ∀ j, j ≠ w.dst → (({ net with wire := net.wire.eraseIdx k } : Net).put w.dst w.b r).node j =
          net.node j := fun j hj => by simp only [Net.put, if_neg hj]
      have hdd : (({ net with wire := net.wire.eraseIdx k } : Net).put w.dst w.b r).node w.dst = r.1 := by
        simp only [Net.put, if_true]
      have hsame : ∀ j, Same (net.node j)
          ((({ net with wire := net.wire.eraseIdx k } : Net).put w.dst w.b r).node j) := by
        intro j
        by_cases hj : j = w.dst
        · subst hj
          rw [hdd]; exact r1
        · rw [hnd' j hj]; exact ⟨rfl, rfl, rfl, rfl, rfl, rfl⟩
      refine h.frame _ ?_ ?_ ?_ (fun j => (hsame j).st) (fun j => (hsame j).black)
        (fun j => by rw [(hsame j).told]; exact h.told j)
        (fun j => by rw [(hsame j).top, (hsame j).confirmed]; exact h.young j) ?_ ?_
      · intro j
        by_cases hj : j = w.dst
        · subst hj
          rw [hdd]; exact r2
        · rw [hnd' j hj]
      · intro j p
        by_cases hj : j = w.dst
        · subst hj
          rw [hdd]; exact r3 p
        · rw [hnd' j hj]
      · intro j x hx
        by_cases hj : j = w.dst
        · subst hj
          rw [hdd]; exact r4 x hx
        · rw [hnd' j hj]; exact hx
      · intro w' hw' he
        simp only [Net.put]
        rcases mem_eraseIdx_or hk hw' with rfl | hw''
        · exact absurd (by rw [he]) hb
        · exact List.mem_append_left _ hw''
      · intro w' hw'
        simp only [Net.put, List.mem_append] at hw'
        rcases hw' with hw' | hw'
        · exact .inl (List.mem_of_mem_eraseIdx hw')
        · obtain ⟨m, _, rfl⟩ := List.mem_map.1 hw'
          exact .inr ⟨h.wvalid w hwin, hb⟩

/-- A node hears of the peers of a peer, or its chain moves. -/
theorem NInv.quiet {adj : Nat → List Nat} {ids : List Nat} {c : Blk} {os : Nat → Prop} {net : Net}
    (h : NInv adj ids c os net) (i : Nat) (n : Node) (b : Blk)
    (h1 : n.filter = (net.node i).filter) (h2 : n.known = (net.node i).known)
    (h3 : n.fed = (net.node i).fed) (h4 : n.st = (net.node i).st) (h5 : n.black = (net.node i).black)
    (h6 : ∀ p, ∀ x ∈ n.told p, x ∈ adj p)
    (h7 : (c.snap = true → n.top ≤ c.height + 100) ∧ n.confirmed c.body ≤ 100) :
    NInv adj ids c os (net.put i b (n, [])) := by
  have hnode : ∀ j, (net.put i b (n, [])).node j = n ∧ j = i ∨ (net.put i b (n, [])).node j = net.node j := by
    intro j
    simp only [Net.put]
    by_cases hj : j = i
    · exact .inl ⟨by rw [if_pos hj], hj⟩
    · exact .inr (by rw [if_neg hj])
  refine h.frame _ ?_ ?_ ?_ ?_ ?_ ?_ ?_ ?_ ?_
  · intro j
    rcases hnode j with ⟨he, rfl⟩ | he <;> rw [he]
    rw [h1]
  · intro j p
    rcases hnode j with ⟨he, rfl⟩ | he <;> rw [he]
    rw [h2]
  · intro j x hx
    rcases hnode j with ⟨he, rfl⟩ | he <;> rw [he]
    · rw [h3]; exact hx
    · exact hx
  · intro j
    rcases hnode j with ⟨he, rfl⟩ | he <;> rw [he]
    exact h4
  · intro j
    rcases hnode j with ⟨he, rfl⟩ | he <;> rw [he]
    exact h5
  · intro j
    rcases hnode j with ⟨he, rfl⟩ | he <;> rw [he]
    · exact h6
    · exact h.told j
  · intro j
    rcases hnode j with ⟨he, rfl⟩ | he <;> rw [he]
    · exact h7
    · exact h.young j
  · intro w hw _
    simp only [Net.put]
    exact List.mem_append_left _ hw
  · intro w hw
    simp only [Net.put, List.map_nil, List.append_nil] at hw
    exact .inl hw

theorem NInv.run {adj : Nat → List Nat} {ids : List Nat} {c : Blk}
    (hclosed : ∀ i ∈ ids, ∀ x ∈ adj i, x ∈ ids) (hlen : ids.length ≤ 34) (hnd : ∀ i, (adj i).Nodup)
    (ops : List NetOp) : ∀ (net : Net) (os : Nat → Prop), NInv adj ids c os net →
      LegalRun adj c net ops → (∀ i ∈ origins c ops, i ∈ ids) →
      NInv adj ids c (fun j => os j ∨ j ∈ origins c ops) (net.run ops) := by
  induction ops with
  | nil =>
    intro net os h _ _
    have : (fun j => os j ∨ j ∈ origins c []) = os := by funext j; simp [origins]
    rw [this]
    exact h
  | cons o ops ih =>
    intro net os h hl hid
    obtain ⟨hl1, hl2⟩ := hl
    have quiet : ∀ os', NInv adj ids c os' (net.step o) → (∀ i ∈ origins c ops, i ∈ ids) →
        (∀ j, (os' j ∨ j ∈ origins c ops) ↔ (os j ∨ j ∈ origins c (o :: ops))) →
        NInv adj ids c (fun j => os j ∨ j ∈ origins c (o :: ops)) (net.run (o :: ops)) := by
      intro os' h' hid' he
      have : (fun j => os j ∨ j ∈ origins c (o :: ops)) = (fun j => os' j ∨ j ∈ origins c ops) := by
        funext j
        exact propext (he j).symm
      rw [this]
      exact ih _ _ h' hl2 hid'
    cases o with
    | own i order b =>
      refine quiet _ (h.own i order b ?_ hclosed hl1) ?_ ?_
      · intro hb
        refine hid i ?_
        simp [origins, hb]
      · intro j hj
        refine hid j ?_
        simp only [origins]
        split
        · exact .tail _ hj
        · exact hj
      · intro j
        simp only [origins]
        split
        · rename_i hb
          simp only [hb, true_and, List.mem_cons, or_assoc]
        · rename_i hb
          simp only [hb, false_and, or_false]
    | deliver k pick order =>
      exact quiet os (h.deliver k pick order hclosed hlen hnd hl1) hid (fun j => Iff.rfl)
    | hear i p l =>
      refine quiet os ?_ hid (fun j => Iff.rfl)
      simp only [Net.step, Node.step]
      refine h.quiet i _ _ rfl rfl rfl rfl rfl ?_ (h.young i)
      intro q x hx
      simp only at hx
      split at hx
      · rename_i he
        subst he
        exact hl1 x hx
      · exact h.told i q x hx
    | chain i top confirmed =>
      refine quiet os ?_ hid (fun j => Iff.rfl)
      simp only [Net.step, Node.step]
      exact h.quiet i _ _ rfl rfl rfl rfl rfl (h.told i) hl1

/-- A block reaches everybody.  In a net of at most 34 nodes with fixed links, whatever else is sent,
in whatever order the messages arrive, however the peers come in each node's map, and whether a node
forwards to all or to a part: once the block is on its way no more, every node linked with one that
sent it has given it to its subscribers or sent it itself. -/
theorem reaches_all (adj : Nat → List Nat) (ids : List Nat) (c : Blk) (net : Net) (ops : List NetOp)
    (hclosed : ∀ i ∈ ids, ∀ x ∈ adj i, x ∈ ids) (hlen : ids.length ≤ 34) (hnd : ∀ i, (adj i).Nodup)
    (hstart : Start adj c net) (hlegal : LegalRun adj c net ops) (hids : ∀ i ∈ origins c ops, i ∈ ids)
    (hrest : ¬ inFlight c (net.run ops)) (i j : Nat) (hi : i ∈ origins c ops) (hij : Linked adj i j) :
    j ∈ origins c ops ∨ c ∈ ((net.run ops).node j).fed := by
  have h := NInv.run hclosed hlen hnd ops net _ (NInv.start hstart) hlegal hids
  have hall : ∀ j, Linked adj i j → c.body ∈ ((net.run ops).node j).filter := by
    intro j hj
    induction hj with
    | here => exact h.osin i (.inr hi)
    | on j k _ hk ih =>
      rcases h.cov j ih k hk with h1 | ⟨w, hw, h1, _⟩
      · exact h1
      · exact absurd ⟨w, hw, h1⟩ hrest
  rcases h.fed j (hall j hij) with (hf | ho) | hfed
  · exact hf.elim
  · exact .inl ho
  · exact .inr hfed

end Verif.Gossip
