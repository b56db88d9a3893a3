import Verif.Gossip.NetProps

/-! # How many messages carry a block, and where a block does not arrive (C123) -/

namespace Verif.Gossip

/-- The links of the nodes that do not have the block yet. -/
def pending (adj : Nat → List Nat) (c : Blk) (net : Net) (ids : List Nat) : Nat :=
  (ids.map (fun i => if c.body ∈ (net.node i).filter then 0 else (adj i).length)).sum

/-- The messages with the block. -/
def carrying (c : Blk) (net : Net) : Nat := net.wire.countP (fun w => decide (w.b = c))

theorem pending_le {adj : Nat → List Nat} {c : Blk} {net net' : Net} (ids : List Nat)
    (h : ∀ i, c.body ∈ (net.node i).filter → c.body ∈ (net'.node i).filter) :
    pending adj c net' ids ≤ pending adj c net ids := by
  induction ids with
  | nil => simp [pending]
  | cons i ids ih =>
    simp only [pending, List.map_cons, List.sum_cons] at ih ⊢
    have : (if c.body ∈ (net'.node i).filter then 0 else (adj i).length) ≤
        (if c.body ∈ (net.node i).filter then 0 else (adj i).length) := by
      by_cases h1 : c.body ∈ (net.node i).filter
      · rw [if_pos (h i h1)]; omega
      · rw [if_neg h1]; split <;> omega
    omega

theorem pending_drop {adj : Nat → List Nat} {c : Blk} {net net' : Net} (ids : List Nat) (i : Nat)
    (h : ∀ j, c.body ∈ (net.node j).filter → c.body ∈ (net'.node j).filter) (hi : i ∈ ids)
    (hn : c.body ∉ (net.node i).filter) (hy : c.body ∈ (net'.node i).filter) :
    pending adj c net' ids + (adj i).length ≤ pending adj c net ids := by
  induction ids with
  | nil => simp at hi
  | cons j ids ih =>
    by_cases hj : i = j
    · subst hj
      have := pending_le (adj := adj) ids h
      simp only [pending, List.map_cons, List.sum_cons, if_pos hy, if_neg hn] at this ⊢
      omega
    · have hi' : i ∈ ids := by
        rcases List.mem_cons.1 hi with rfl | hi
        · exact absurd rfl hj
        · exact hi
      have := ih hi'
      have h2 : (if c.body ∈ (net'.node j).filter then 0 else (adj j).length) ≤
          (if c.body ∈ (net.node j).filter then 0 else (adj j).length) := by
        by_cases h1 : c.body ∈ (net.node j).filter
        · rw [if_pos (h j h1)]; omega
        · rw [if_neg h1]; split <;> omega
      simp only [pending, List.map_cons, List.sum_cons] at this ⊢
      omega

theorem countP_eraseIdx (l : List Wire) (p : Wire → Bool) : ∀ k w, l[k]? = some w →
    (l.eraseIdx k).countP p + (if p w then 1 else 0) = l.countP p := by
  induction l with
  | nil => intro k w h; simp at h
  | cons x l ih =>
    intro k w h
    cases k with
    | zero =>
      simp only [List.getElem?_cons_zero, Option.some.injEq] at h
      subst h
      simp [List.countP_cons]
    | succ k =>
      simp only [List.getElem?_cons_succ] at h
      have := ih k w h
      simp only [List.eraseIdx_cons_succ, List.countP_cons]
      omega

theorem filter_net (net : Net) (o : NetOp) (x j : Nat) (h : x ∈ (net.node j).filter) :
    x ∈ ((net.step o).node j).filter := by
  have key : ∀ (net : Net) (i : Nat) (b : Blk) (e : Ev), x ∈ (net.node j).filter →
      ∀ r, r = (net.node i).step e → x ∈ ((net.put i b r).node j).filter := by
    intro net i b e h r hr
    simp only [Net.put]
    by_cases hj : j = i
    · rw [if_pos hj, hr]
      exact filter_grows _ _ _ (hj ▸ h)
    · rw [if_neg hj]; exact h
  cases o with
  | own i order b => exact key net i b _ h _ rfl
  | deliver k pick order =>
    simp only [Net.step]
    split
    · exact h
    · rename_i w _
      exact key { net with wire := net.wire.eraseIdx k } w.dst w.b (.recv pick order w.src w.b w.ttl) h _ rfl
  | hear i p l => exact key net i _ _ h _ rfl
  | chain i t f => exact key net i _ _ h _ rfl

theorem traffic_run {adj : Nat → List Nat} {ids : List Nat} {c : Blk}
    (hclosed : ∀ i ∈ ids, ∀ x ∈ adj i, x ∈ ids) (hlen : ids.length ≤ 34) (hnd : ∀ i, (adj i).Nodup)
    (ops : List NetOp) : ∀ (net : Net) (os : Nat → Prop), NInv adj ids c os net →
      LegalRun adj c net ops → origins c ops = [] →
      arrived c net ops + (carrying c (net.run ops) + pending adj c (net.run ops) ids) ≤
        carrying c net + pending adj c net ids := by
  induction ops with
  | nil => intro net os _ _ _; simp [arrived, Net.run]
  | cons o ops ih =>
    intro net os h hl ho
    obtain ⟨hl1, hl2⟩ := hl
    have hp := pending_le (adj := adj) (c := c) (net := net) (net' := net.step o) ids
      (fun i => filter_net net o c.body i)
    have hrun : net.run (o :: ops) = (net.step o).run ops := rfl
    rw [hrun]
    cases o with
    | own i order b =>
      have hb : b ≠ c := by
        intro he
        simp [origins, he] at ho
      have ho' : origins c ops = [] := by simpa [origins, hb] using ho
      have hn := h.own i order b (fun he => absurd he hb) hclosed hl1
      have := ih _ _ hn hl2 ho'
      have hc : carrying c (net.step (.own i order b)) = carrying c net := by
        simp only [carrying, Net.step, Net.put, List.countP_append]
        rw [Nat.add_eq_left, List.countP_eq_zero]
        intro w hw
        obtain ⟨m, _, rfl⟩ := List.mem_map.1 hw
        simpa using hb
      simp only [arrived]
      omega
    | deliver k pick order =>
      have hn := h.deliver k pick order hclosed hlen hnd hl1
      have := ih _ _ hn hl2 ho
      simp only [arrived]
      cases hk : net.wire[k]? with
      | none =>
        have he : net.step (.deliver k pick order) = net := by simp [Net.step, hk]
        rw [he] at this
        simp only [he]
        omega
      | some w =>
        simp only
        have hwin : w ∈ net.wire := List.mem_of_getElem? hk
        have hperm := hl1 w hk
        have hno : order.Nodup := hperm.nodup_iff.2 (hnd _)
        have hcnt := countP_eraseIdx net.wire (fun w => decide (w.b = c)) k w hk
        have hstep : net.step (.deliver k pick order) =
            ({ net with wire := net.wire.eraseIdx k } : Net).put w.dst w.b
              ((net.node w.dst).step (.recv pick order w.src w.b w.ttl)) := by
          simp only [Net.step, hk]
        by_cases hb : w.b = c
        · rw [if_pos hb]
          simp only [hb, decide_true, if_true] at hcnt
          by_cases hseen : c.body ∈ (net.node w.dst).filter
          · have hr : (net.node w.dst).step (.recv pick order w.src w.b w.ttl) = (net.node w.dst, []) := by
              rw [hb]
              exact handle_old _ _ _ _ _ _ hseen
            have hc : carrying c (net.step (.deliver k pick order)) + 1 = carrying c net := by
              rw [hstep, hr]
              simp only [carrying, Net.put, List.map_nil, List.append_nil]
              exact hcnt
            omega
          · obtain ⟨_, r2, _, _, _, _, r7⟩ := handle_new (net.node w.dst) pick order w.src c w.ttl hno
              h.right hseen (h.young w.dst).1 (h.young w.dst).2 (h.live w.dst) (h.white w.dst)
            have hdst := (h.wire w hwin (by rw [hb])).2.2.1
            have hd := pending_drop (adj := adj) (c := c) (net := net)
              (net' := net.step (.deliver k pick order)) ids w.dst
              (fun j => filter_net net _ c.body j) hdst hseen (by
                rw [hstep, hb]
                simp only [Net.put, if_true, Node.step]
                rw [r2]
                exact .head _)
            have hc : carrying c (net.step (.deliver k pick order)) + 1 ≤
                carrying c net + (adj w.dst).length := by
              rw [hstep, hb]
              simp only [carrying, Net.put, List.countP_append, Node.step]
              have h1 : List.countP (fun w => decide (w.b = c))
                  (List.map (fun m => (⟨w.dst, m.1, m.2, c⟩ : Wire))
                    ((net.node w.dst).handle pick order w.src c w.ttl).2) ≤ (adj w.dst).length := by
                refine Nat.le_trans List.countP_le_length ?_
                rw [List.length_map, ← hperm.length_eq]
                exact r7
              omega
            omega
        · rw [if_neg hb]
          simp only [hb, decide_false, Bool.false_eq_true, if_false, Nat.add_zero] at hcnt
          have hc : carrying c (net.step (.deliver k pick order)) = carrying c net := by
            rw [hstep]
            simp only [carrying, Net.put, List.countP_append]
            rw [hcnt, Nat.add_eq_left, List.countP_eq_zero]
            intro w' hw'
            obtain ⟨m, _, rfl⟩ := List.mem_map.1 hw'
            simpa using hb
          omega
    | hear i p l =>
      have hn := NInv.run hclosed hlen hnd [.hear i p l] net os h ⟨hl1, trivial⟩ (by simp [origins])
      have := ih _ _ hn hl2 ho
      have hc : carrying c (net.step (.hear i p l)) = carrying c net := by
        simp [carrying, Net.step, Net.put, Node.step]
      simp only [arrived, Net.run] at this ⊢
      omega
    | chain i top confirmed =>
      have hn := NInv.run hclosed hlen hnd [.chain i top confirmed] net os h ⟨hl1, trivial⟩ (by simp [origins])
      have := ih _ _ hn hl2 ho
      have hc : carrying c (net.step (.chain i top confirmed)) = carrying c net := by
        simp [carrying, Net.step, Net.put, Node.step]
      simp only [arrived, Net.run] at this ⊢
      omega

/-- A block that one node sends is carried by no more messages than there are links, counted in both
directions: those that arrived and those on their way together.  So it comes to rest. -/
theorem traffic (adj : Nat → List Nat) (ids : List Nat) (c : Blk) (net : Net) (i : Nat)
    (order : List Nat) (ops : List NetOp)
    (hclosed : ∀ i ∈ ids, ∀ x ∈ adj i, x ∈ ids) (hlen : ids.length ≤ 34) (hnd : ∀ i, (adj i).Nodup)
    (hstart : Start adj c net) (hlegal : LegalRun adj c net (.own i order c :: ops)) (hi : i ∈ ids)
    (honce : origins c ops = []) :
    arrived c net (.own i order c :: ops) +
      (net.run (.own i order c :: ops)).wire.countP (fun w => decide (w.b = c)) ≤
      (ids.map (fun j => (adj j).length)).sum := by
  obtain ⟨hl1, hl2⟩ := hlegal
  have h0 := NInv.start (ids := ids) hstart
  have h1 := h0.own i order c (fun _ => hi) hclosed hl1
  have h := traffic_run hclosed hlen hnd ops _ _ h1 hl2 honce
  have hst : (net.node i).st ≠ .syncing := by
    intro he
    have := hstart.live i
    rw [he] at this
    exact absurd this (by decide)
  have hcl : c.claimed = c.body := by
    have : c.claimed = c.body ∧ c.sig = true := by simpa [Blk.valid] using hstart.right
    exact this.1
  have hd := pending_drop (adj := adj) (c := c) (net := net) (net' := net.step (.own i order c)) ids i
    (fun j => filter_net net _ c.body j) hi (hstart.unseen i) (by
      simp only [Net.step, Net.put, if_true, Node.step, Node.broadcast, if_neg hst]
      rw [hcl]
      exact .head _)
  have hc0 : net.wire.countP (fun w => decide (w.b = c)) = 0 := by
    rw [List.countP_eq_zero]
    intro w hw he
    simp only [decide_eq_true_eq] at he
    exact (hstart.wire w hw).2 (by rw [he])
  have hc : carrying c (net.step (.own i order c)) ≤ (adj i).length := by
    simp only [carrying, Net.step, Net.put, List.countP_append, hc0, Node.step, Node.broadcast, if_neg hst,
      Nat.zero_add]
    refine Nat.le_trans List.countP_le_length ?_
    rw [List.length_map, List.length_map, hl1.1.length_eq]
  have hp : pending adj c net ids ≤ (ids.map (fun j => (adj j).length)).sum := by
    have : ∀ l : List Nat, pending adj c net l ≤ (l.map (fun j => (adj j).length)).sum := by
      intro l
      induction l with
      | nil => simp [pending]
      | cons j l ih =>
        simp only [pending, List.map_cons, List.sum_cons] at ih ⊢
        split <;> omega
    exact this ids
  simp only [arrived, Nat.zero_add]
  change _ + carrying c ((net.step (.own i order c)).run ops) ≤ _
  omega

/-! ### Where a block does not arrive -/

/-- A net of nodes that have just been started and are not syncing. -/
def exNet (adj : Nat → List Nat) (told : Nat → Nat → List Nat) : Net :=
  { node := fun i => { Node.fresh (adj i) false [] with st := .done, told := told i }, wire := [] }

/-- The snapshot block sent in the examples. -/
def exC : Blk := ⟨true, 7, 7, 1, true⟩

/-- A line of nodes, each linked with the next. -/
def line (n : Nat) (i : Nat) : List Nat :=
  if i = 0 then (if 1 < n then [1] else []) else if i + 1 < n then [i - 1, i + 1]
    else if i < n then [i - 1] else []

/-- The block goes down the line: each message arrives at once. -/
def down (n : Nat) : Nat → List NetOp
  | 0 => []
  | k + 1 => down n k ++ [.deliver 0 false (line n (k + 1))]

/-- A check that a run is legal, for runs in which only `c` is sent and nobody hears of anything. -/
def legalB (adj : Nat → List Nat) (c : Blk) : Net → List NetOp → Bool
  | _, [] => true
  | net, .own i order b :: os =>
    decide (order = adj i) && b.valid && decide (b = c) && legalB adj c (net.step (.own i order b)) os
  | net, .deliver k pick order :: os =>
    (match net.wire[k]? with
      | none => true
      | some w => decide (order = adj w.dst)) && legalB adj c (net.step (.deliver k pick order)) os
  | _, _ :: _ => false

theorem legal_of_check {adj : Nat → List Nat} {c : Blk} (ops : List NetOp) : ∀ net,
    legalB adj c net ops = true → LegalRun adj c net ops := by
  induction ops with
  | nil => intro net _; trivial
  | cons o ops ih =>
    intro net h
    cases o with
    | own i order b =>
      simp only [legalB, Bool.and_eq_true, decide_eq_true_eq] at h
      obtain ⟨⟨⟨h1, h2⟩, h3⟩, h4⟩ := h
      exact ⟨⟨by rw [h1], h2, fun _ => h3⟩, ih _ h4⟩
    | deliver k pick order =>
      simp only [legalB, Bool.and_eq_true] at h
      obtain ⟨h1, h2⟩ := h
      refine ⟨fun w hw => ?_, ih _ h2⟩
      rw [hw] at h1
      simp only [decide_eq_true_eq] at h1
      rw [h1]
    | hear i p l => simp [legalB] at h
    | chain i t f => simp [legalB] at h

theorem start_ex (adj : Nat → List Nat) (told : Nat → Nat → List Nat)
    (h : ∀ i p, ∀ x ∈ told i p, x ∈ adj p) : Start adj exC (exNet adj told) := by
  constructor <;> simp [exNet, Node.fresh, exC, Blk.valid, St.exited]
  exact h

theorem line_linked (n : Nat) : ∀ i, i < n → Linked (line n) 0 i := by
  intro i
  induction i with
  | zero => intro _; exact .here
  | succ i ih =>
    intro h
    refine .on i _ (ih (by omega)) ?_
    unfold line
    by_cases h0 : i = 0
    · subst h0
      simp [h]
    · simp [h0, h]

-- three nodes in a line: the block comes to the end
example : ((exNet (line 3) (fun _ _ => [])).run (.own 0 [1] exC :: down 3 2)).wire = [] ∧
    exC ∈ (((exNet (line 3) (fun _ _ => [])).run (.own 0 [1] exC :: down 3 2)).node 2).fed := by
  decide +kernel

-- and it is a run as the theorems suppose it
example : LegalRun (line 3) exC (exNet (line 3) (fun _ _ => [])) (.own 0 [1] exC :: down 3 2) :=
  legal_of_check _ _ (by decide +kernel)

/-- The bound of 34 nodes is sharp: in a line of 35 the time to live is over before the end. -/
theorem line_too_long : let net := exNet (line 35) (fun _ _ => [])
    let ops := NetOp.own 0 [1] exC :: down 35 33
    Start (line 35) exC net ∧ LegalRun (line 35) exC net ops ∧ ¬ inFlight exC (net.run ops) ∧
    0 ∈ origins exC ops ∧ Linked (line 35) 0 34 ∧ 34 ∉ origins exC ops ∧
    exC ∉ ((net.run ops).node 34).fed ∧ exC ∈ ((net.run ops).node 33).fed := by
  refine ⟨start_ex _ _ (by simp), legal_of_check _ _ (by decide +kernel), ?_, by decide +kernel,
    line_linked 35 34 (by omega), by decide +kernel, by decide +kernel, by decide +kernel⟩
  have : ((exNet (line 35) (fun _ _ => [])).run (NetOp.own 0 [1] exC :: down 35 33)).wire = [] := by
    decide +kernel
  rintro ⟨w, hw, _⟩
  rw [this] at hw
  simp at hw

/-- A star: node 1 in the middle. -/
def star (n : Nat) (i : Nat) : List Nat :=
  if i = 1 then 0 :: (List.range n).drop 2 else if i < n then [1] else []

/-- Nodes must say truly who their peers are: node 1 believes that node 0, which sends the block, is
linked with nodes 2 and 3, as it was once; it forwards to one of them only, and the other never gets
it. -/
theorem stale_peers : let net := exNet (star 4) (fun i p => if i = 1 ∧ p = 0 then [1, 2, 3] else [])
    let ops := [NetOp.own 0 [1] exC, .deliver 0 false [0, 2, 3], .deliver 0 false [1]]
    LegalRun (star 4) exC net ops ∧ (net.run ops).wire = [] ∧
    exC ∉ ((net.run ops).node 2).fed ∧ exC ∈ ((net.run ops).node 3).fed ∧ 2 ∈ star 4 1 := by
  refine ⟨legal_of_check _ _ (by decide +kernel), by decide +kernel, by decide +kernel, by decide +kernel,
    by decide⟩

end Verif.Gossip
