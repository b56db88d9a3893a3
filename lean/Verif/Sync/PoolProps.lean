import Verif.Sync.PoolModel

/-!
# Download connections: who is chosen, who is removed, who is blocked

Property C88. -/

namespace Verif.Sync

/-! ## Who is chosen -/

theorem chooseLoop_spec {upTo n : Nat} {createNew : Bool} {m : List Nat} (l : List Conn) (i : Nat) :
    (∀ x, chooseLoop upTo n createNew m l i = some x → (∃ c ∈ l, c.busy = false ∧ upTo ≤ c.height ∧ x = .conn c) ∨ ∃ p ∈ m, x = .peer p) ∧
    (chooseLoop upTo n createNew m l i = none → (createNew = true → m ≠ []) → ∀ c ∈ l, c.busy = true ∨ c.height < upTo) := by
  induction l generalizing i with
  | nil => exact ⟨fun x h => (by cases h), by simp⟩
  | cons c l ih =>
    unfold chooseLoop
    split
    · rename_i hc
      refine ⟨fun x hx => ?_, fun hx hm d hd => ?_⟩
      · rcases (ih (i + 1)).1 x hx with ⟨c', h1, h2⟩ | h
        · exact Or.inl ⟨c', List.mem_cons_of_mem _ h1, h2⟩
        · exact Or.inr h
      · rcases List.mem_cons.mp hd with rfl | hd
        · simpa using hc
        · exact (ih (i + 1)).2 hx hm d hd
    · rename_i hc
      have hc' : c.busy = false ∧ upTo ≤ c.height := by
        simp only [Bool.or_eq_true, decide_eq_true_eq, not_or, Bool.not_eq_true] at hc
        exact ⟨hc.1, by omega⟩
      split
      · refine ⟨fun x hx => ?_, fun hx => (by cases hx)⟩
        cases hx
        exact Or.inl ⟨c, List.mem_cons_self, hc'.1, hc'.2, rfl⟩
      · split
        · split
          · refine ⟨fun x hx => ?_, fun hx => (by cases hx)⟩
            cases hx
            exact Or.inr ⟨_, List.mem_cons_self, rfl⟩
          · rename_i hcn _
            refine ⟨fun x hx => ?_, fun hx hm => absurd rfl (hm hcn)⟩
            rcases (ih (i + 1)).1 x hx with ⟨c', h1, h2⟩ | h
            · exact Or.inl ⟨c', List.mem_cons_of_mem _ h1, h2⟩
            · exact Or.inr h
        · refine ⟨fun x hx => ?_, fun hx => (by cases hx)⟩
          cases hx
          exact Or.inl ⟨c, List.mem_cons_self, hc'.1, hc'.2, rfl⟩

/-- Peers a new connection may be made to, in words. -/
theorem mem_freshPeers {black : Nat → Option Nat} {now : Nat} {conns : List Conn} {peers : List (Nat × Nat)} {upTo p : Nat} :
    p ∈ freshPeers black now conns peers upTo ↔ (∃ h, (p, h) ∈ peers ∧ upTo ≤ h) ∧ (∀ c ∈ conns, c.peer ≠ p) ∧ ∀ t, black p = some t → now ≤ t := by
  unfold freshPeers
  rw [List.mem_filter, List.mem_filter, List.mem_map]
  constructor
  · rintro ⟨⟨⟨⟨q, h⟩, hq, rfl⟩, h2⟩, h3⟩
    rw [List.mem_filter] at hq
    refine ⟨⟨h, hq.1, by simpa using hq.2⟩, ?_, ?_⟩
    · intro c hc he
      simp only [Bool.not_eq_true', List.any_eq_false, decide_eq_true_eq] at h2
      exact h2 c hc he
    · intro t ht
      dsimp only at h3 ht
      rw [ht] at h3
      simpa using h3
  · rintro ⟨⟨h, hq, hle⟩, h2, h3⟩
    refine ⟨⟨⟨(p, h), List.mem_filter.mpr ⟨hq, by simpa using hle⟩, rfl⟩, ?_⟩, ?_⟩
    · simp only [Bool.not_eq_true', List.any_eq_false, decide_eq_true_eq]
      exact h2
    · cases ht : black p with
      | none => rfl
      | some t => simpa using h3 t ht

/-- **C88.** A source given for a task has all blocks of it: a connection without a download to a peer that is tall enough, or a peer that is tall enough and has no connection. -/
theorem choice_fits {black : Nat → Option Nat} {now : Nat} {conns : List Conn} {peers : List (Nat × Nat)} {upTo : Nat} {coin : Bool} {ord : List Conn → List Conn} {ordm : List Nat → List Nat}
    (hord : ∀ l, (ord l).Perm l) (hordm : ∀ l, (ordm l).Perm l) :
    (∀ c, choose black now conns peers upTo coin ord ordm = .conn c → c ∈ conns ∧ c.busy = false ∧ upTo ≤ c.height) ∧
    (∀ p, choose black now conns peers upTo coin ord ordm = .peer p → (∃ h, (p, h) ∈ peers ∧ upTo ≤ h) ∧ ∀ c ∈ conns, c.peer ≠ p) := by
  have key : ∀ x, choose black now conns peers upTo coin ord ordm = x → x = .noPeer ∨ x = .nothing ∨ (∃ c ∈ conns, c.busy = false ∧ upTo ≤ c.height ∧ x = .conn c) ∨
      ∃ p ∈ freshPeers black now conns peers upTo, x = .peer p := by
    intro x hx
    unfold choose at hx
    split at hx
    · exact Or.inl hx.symm
    · dsimp only at hx
      split at hx
      · rename_i y hy
        subst hx
        rcases (chooseLoop_spec _ _).1 y hy with ⟨c, h1, h2⟩ | ⟨p, h1, h2⟩
        · exact Or.inr (Or.inr (Or.inl ⟨c, (hord _).mem_iff.mp h1, h2⟩))
        · exact Or.inr (Or.inr (Or.inr ⟨p, (hordm _).mem_iff.mp h1, h2⟩))
      · split at hx
        · rename_i p r hm
          refine Or.inr (Or.inr (Or.inr ⟨p, (hordm _).mem_iff.mp ?_, hx.symm⟩))
          rw [hm]
          exact List.mem_cons_self
        · exact Or.inr (Or.inl hx.symm)
  refine ⟨fun c hc => ?_, fun p hp => ?_⟩
  · rcases key _ hc with h | h | ⟨d, h1, h2, h3, h4⟩ | ⟨p, -, h⟩
    · cases h
    · cases h
    · cases h4
      exact ⟨h1, h2, h3⟩
    · cases h
  · rcases key _ hp with h | h | ⟨d, h1, h2, h3, h4⟩ | ⟨q, h, he⟩
    · cases h
    · cases h
    · cases h4
    · cases he
      have := mem_freshPeers.mp h
      exact ⟨this.1, this.2.1⟩

/-- **C88.** No source is given only if there is none: all peers are too short, or no connection of a tall peer is idle and every tall peer has a connection already, or was on the black list. -/
theorem choice_found {black : Nat → Option Nat} {now : Nat} {conns : List Conn} {peers : List (Nat × Nat)} {upTo : Nat} {coin : Bool} {ord : List Conn → List Conn} {ordm : List Nat → List Nat}
    (hord : ∀ l, (ord l).Perm l) (hordm : ∀ l, (ordm l).Perm l) :
    (choose black now conns peers upTo coin ord ordm = .noPeer → ∀ p ∈ peers, p.2 < upTo) ∧
    (choose black now conns peers upTo coin ord ordm = .nothing →
      (∀ c ∈ conns, c.busy = true ∨ c.height < upTo) ∧ ∀ p ∈ peers, upTo ≤ p.2 → (∃ c ∈ conns, c.peer = p.1) ∨ ∃ t, black p.1 = some t ∧ t < now) := by
  unfold choose
  split
  · rename_i he
    refine ⟨fun _ p hp => ?_, fun h => (by cases h)⟩
    by_contra hlt
    have : p ∈ peers.filter (fun p => decide (upTo ≤ p.2)) := List.mem_filter.mpr ⟨hp, by simp; omega⟩
    rw [List.isEmpty_iff.mp he] at this
    cases this
  · dsimp only
    split
    · rename_i x hx
      rcases (chooseLoop_spec _ _).1 x hx with ⟨c, -, -, -, rfl⟩ | ⟨p, -, rfl⟩
      · exact ⟨fun h => (by cases h), fun h => (by cases h)⟩
      · exact ⟨fun h => (by cases h), fun h => (by cases h)⟩
    · rename_i hx
      split
      · exact ⟨fun h => (by cases h), fun h => (by cases h)⟩
      · rename_i hm
        refine ⟨fun h => (by cases h), fun _ => ⟨fun c hc => ?_, fun p hp hle => ?_⟩⟩
        · refine (chooseLoop_spec _ _).2 hx ?_ c ((hord _).mem_iff.mpr hc)
          rw [hm]
          simp
        · have hno : p.1 ∉ freshPeers black now conns peers upTo := by
            rw [← (hordm _).mem_iff, hm]
            simp
          rw [mem_freshPeers] at hno
          by_contra hh
          rw [not_or] at hh
          refine hno ⟨⟨p.2, hp, hle⟩, fun c hc he => hh.1 ⟨c, hc, he⟩, fun t ht => ?_⟩
          by_contra hlt
          exact hh.2 ⟨t, ht, by omega⟩

/-! ## Who is removed -/

/-- The index says for every connection where it is. -/
structure Indexed (p : Pool) : Prop where
  at_ : ∀ i c, p.l[i]? = some c → p.mi c.peer = some i
  has : ∀ q i, p.mi q = some i → ∃ c, p.l[i]? = some c ∧ c.peer = q

theorem indexed_empty : Indexed Pool.empty := ⟨by simp [Pool.empty], by simp [Pool.empty]⟩

theorem Indexed.inj {p : Pool} (h : Indexed p) {i j : Nat} {c d : Conn} (hi : p.l[i]? = some c) (hj : p.l[j]? = some d) (he : c.peer = d.peer) : i = j := by
  have h1 := h.at_ i c hi
  have h2 := h.at_ j d hj
  rw [he, h2] at h1
  exact (Option.some.inj h1).symm

theorem eraseIdx_filter (l : List Conn) (i : Nat) (c : Conn) (hi : l[i]? = some c) (hu : ∀ j d, l[j]? = some d → d.peer = c.peer → j = i) :
    l.eraseIdx i = l.filter (fun d => decide (d.peer ≠ c.peer)) := by
  induction l generalizing i with
  | nil => simp at hi
  | cons x l ih =>
    cases i with
    | zero =>
      simp only [List.getElem?_cons_zero, Option.some.injEq] at hi
      subst hi
      rw [List.eraseIdx_cons_zero, List.filter_cons_of_neg (by simp), List.filter_eq_self.mpr]
      intro d hd
      obtain ⟨j, hj⟩ := List.getElem?_of_mem hd
      by_contra hh
      have := hu (j + 1) d (by simpa using hj) (by simpa using hh)
      omega
    | succ i =>
      rw [List.getElem?_cons_succ] at hi
      have hx : x.peer ≠ c.peer := fun he => by
        have := hu 0 x rfl he
        omega
      rw [List.eraseIdx_cons_succ, List.filter_cons_of_pos (by simpa using hx), ih i hi]
      intro j d hj he
      have := hu (j + 1) d (by simpa using hj) he
      omega

/-- **C88.** While the index is right, removing the connection of a peer removes it and no other. -/
theorem removed_exact {p : Pool} (h : Indexed p) (peer : Nat) : (delConn p peer).l = p.l.filter (fun c => decide (c.peer ≠ peer)) := by
  unfold delConn
  cases hm : p.mi peer with
  | none =>
    dsimp only
    rw [List.filter_eq_self.mpr]
    intro c hc
    obtain ⟨i, hi⟩ := List.getElem?_of_mem hc
    have := h.at_ i c hi
    by_contra hh
    rw [show c.peer = peer by simpa using hh, hm] at this
    cases this
  | some i =>
    obtain ⟨c, hc, rfl⟩ := h.has peer i hm
    dsimp only
    unfold delAt
    rw [if_pos (List.getElem?_eq_some_iff.mp hc).1]
    exact eraseIdx_filter _ _ _ hc (fun j d hj he => h.inj hj hc he)

theorem indexed_add {p : Pool} (h : Indexed p) (c : Conn) : Indexed (addConn p c).1 := by
  unfold addConn
  cases hm : p.mi c.peer with
  | some i => exact h
  | none =>
    refine ⟨fun i d hd => ?_, fun q i hi => ?_⟩
    · dsimp only at hd ⊢
      rcases Nat.lt_trichotomy i p.l.length with hlt | heq | hgt
      · rw [List.getElem?_append_left hlt] at hd
        have := h.at_ i d hd
        rw [if_neg ?_, this]
        intro he
        rw [he, hm] at this
        cases this
      · subst heq
        simp only [List.getElem?_concat_length, Option.some.injEq] at hd
        subst hd
        rw [if_pos rfl]
      · rw [List.getElem?_eq_none (by simp; omega)] at hd
        cases hd
    · dsimp only at hi ⊢
      split at hi
      · rename_i he
        cases hi
        exact ⟨c, by simp, he.symm⟩
      · obtain ⟨d, hd, he⟩ := h.has q i hi
        exact ⟨d, by rw [List.getElem?_append_left (List.getElem?_eq_some_iff.mp hd).1]; exact hd, he⟩

theorem reindex_other (l : List Conn) (i : Nat) (mi : Nat → Option Nat) (q : Nat) (h : ∀ c ∈ l, c.peer ≠ q) : reindex l i mi q = mi q := by
  induction l generalizing i mi with
  | nil => rfl
  | cons c l ih =>
    rw [reindex, ih _ _ (fun d hd => h d (List.mem_cons_of_mem _ hd))]
    exact if_neg (fun he => h c List.mem_cons_self he.symm)

theorem reindex_at (l : List Conn) (hu : l.Pairwise (fun c d => c.peer ≠ d.peer)) (i : Nat) (mi : Nat → Option Nat) (j : Nat) (c : Conn) (hc : l[j]? = some c) : reindex l i mi c.peer = some (i + j) := by
  induction l generalizing i mi j with
  | nil => simp at hc
  | cons d l ih =>
    obtain ⟨h1, h2⟩ := List.pairwise_cons.mp hu
    rw [reindex]
    cases j with
    | zero =>
      simp only [List.getElem?_cons_zero, Option.some.injEq] at hc
      subst hc
      rw [reindex_other _ _ _ _ (fun c hc => (h1 c hc).symm)]
      simp
    | succ j =>
      rw [List.getElem?_cons_succ] at hc
      rw [ih h2 _ _ j hc]
      congr 1
      omega

/-- Sorting makes the index right, if there is an entry only for peers that have a connection, and each has one. -/
theorem indexed_sort {ord : List Conn → List Conn} (hord : ∀ l, (ord l).Perm l) {p : Pool} (hu : p.l.Pairwise (fun c d => c.peer ≠ d.peer)) (hk : ∀ q i, p.mi q = some i → ∃ c ∈ p.l, c.peer = q) : Indexed (sortPool ord p) := by
  have hu' : (ord p.l).Pairwise (fun c d => c.peer ≠ d.peer) := (hord p.l).symm.pairwise hu (fun h => h.symm)
  refine ⟨fun i c hc => ?_, fun q i hq => ?_⟩
  · have := reindex_at _ hu' 0 p.mi i c hc
    rwa [Nat.zero_add] at this
  · dsimp only [sortPool] at hq ⊢
    by_cases hex : ∃ c ∈ ord p.l, c.peer = q
    · obtain ⟨c, hc, rfl⟩ := hex
      obtain ⟨j, hj⟩ := List.getElem?_of_mem hc
      rw [reindex_at _ hu' 0 p.mi j c hj, Nat.zero_add, Option.some.injEq] at hq
      subst hq
      exact ⟨c, hj, rfl⟩
    · rw [reindex_other _ _ _ _ (fun c hc he => hex ⟨c, hc, he⟩)] at hq
      obtain ⟨c, hc, he⟩ := hk q i hq
      exact absurd ⟨c, (hord _).mem_iff.mpr hc, he⟩ hex

/-- What is done to a pool. -/
inductive POp
  | add (c : Conn)
  | sort (ord : List Conn → List Conn)
  | removeAndSort (peer : Nat) (ord : List Conn → List Conn)

/-- One of these. -/
def pstep (p : Pool) : POp → Pool
  | .add c => (addConn p c).1
  | .sort ord => sortPool ord p
  | .removeAndSort peer ord => sortPool ord (delConn p peer)

/-- The orders only order. -/
def POp.Ok : POp → Prop
  | .add _ => True
  | .sort ord => ∀ l, (ord l).Perm l
  | .removeAndSort _ ord => ∀ l, (ord l).Perm l

theorem Indexed.pairwise {p : Pool} (h : Indexed p) : p.l.Pairwise (fun c d => c.peer ≠ d.peer) := by
  rw [List.pairwise_iff_getElem]
  intro i j hi hj hij he
  have := h.inj (List.getElem?_eq_getElem hi) (List.getElem?_eq_getElem hj) he
  omega

theorem indexed_pstep {p : Pool} (h : Indexed p) {op : POp} (ho : op.Ok) : Indexed (pstep p op) := by
  cases op with
  | add c => exact indexed_add h c
  | sort ord =>
    refine indexed_sort ho h.pairwise (fun q i hq => ?_)
    obtain ⟨c, hc, he⟩ := h.has q i hq
    exact ⟨c, List.mem_of_getElem? hc, he⟩
  | removeAndSort peer ord =>
    have hl := removed_exact h peer
    refine indexed_sort ho ?_ (fun q i hq => ?_)
    · rw [hl]
      exact h.pairwise.sublist List.filter_sublist
    · rw [hl]
      have hq' : q ≠ peer ∧ p.mi q = some i := by
        unfold delConn at hq
        cases hm : p.mi peer with
        | none =>
          rw [hm] at hq
          dsimp only at hq
          refine ⟨fun he => ?_, hq⟩
          rw [he, hm] at hq
          cases hq
        | some j =>
          rw [hm] at hq
          dsimp only at hq
          split at hq
          · cases hq
          · rename_i hne
            exact ⟨hne, hq⟩
      obtain ⟨c, hc, he⟩ := h.has q i hq'.2
      exact ⟨c, List.mem_filter.mpr ⟨List.mem_of_getElem? hc, by simpa [he] using hq'.1⟩, he⟩

/-- **C88, in part.** If connections are sorted after every removal, then at every time removing the connection of a peer removes it and no other, and a connection is refused exactly if the peer has one.
Missing: two removals in a row, see `second_removal`. -/
theorem pool_exact_partial (ops : List POp) (ho : ∀ op ∈ ops, op.Ok) (peer : Nat) (c : Conn) :
    (delConn (ops.foldl pstep .empty) peer).l = (ops.foldl pstep .empty).l.filter (fun c => decide (c.peer ≠ peer)) ∧
      ((addConn (ops.foldl pstep .empty) c).2 = false ↔ ∃ d ∈ (ops.foldl pstep .empty).l, d.peer = c.peer) := by
  have h : ∀ (ops : List POp), (∀ op ∈ ops, op.Ok) → ∀ p, Indexed p → Indexed (ops.foldl pstep p) := by
    intro ops
    induction ops with
    | nil => intro _ p hp; exact hp
    | cons op ops ih => intro ho p hp; exact ih (fun x hx => ho x (List.mem_cons_of_mem _ hx)) _ (indexed_pstep hp (ho op List.mem_cons_self))
  have hi := h ops ho _ indexed_empty
  refine ⟨removed_exact hi peer, ?_⟩
  unfold addConn
  cases hm : (ops.foldl pstep Pool.empty).mi c.peer with
  | none =>
    refine ⟨fun h => (by cases h), ?_⟩
    rintro ⟨d, hd, he⟩
    obtain ⟨i, hi'⟩ := List.getElem?_of_mem hd
    have := hi.at_ i d hi'
    rw [he, hm] at this
    cases this
  | some i =>
    refine ⟨fun _ => ?_, fun _ => rfl⟩
    obtain ⟨d, hd, he⟩ := hi.has _ _ hm
    exact ⟨d, List.mem_of_getElem? hd, he⟩

/-- **C88, fails.** Two removals in a row: of three connections the first two are removed, and what is left is the second, which is closed. A new connection to the third peer, which has none, is refused. -/
theorem second_removal : ∃ a b c : Conn,
    let p := delConn (delConn ([a, b, c].foldl (fun p x => (addConn p x).1) .empty) a.peer) b.peer
    p.l = [b] ∧ (addConn p c).2 = false := by
  exact ⟨⟨1, 9, false, 1⟩, ⟨2, 9, false, 2⟩, ⟨3, 9, false, 3⟩, by decide +kernel⟩

/-- **C88, fails.** A second connection to a peer is refused, and then the first one, which is in use, is removed from the pool. -/
theorem refused_removes {p : Pool} (h : Indexed p) {c d : Conn} (hc : c ∈ p.l) (hd : d.peer = c.peer) : c ∉ (created p d).l := by
  obtain ⟨i, hi⟩ := List.getElem?_of_mem hc
  have hm := h.at_ i c hi
  unfold created addConn
  rw [hd, hm]
  simp only [Bool.false_eq_true, if_false]
  rw [removed_exact h, List.mem_filter]
  simp

/-! ## Who is blocked -/

/-- **C88, fails.** A peer that is blocked is chosen. -/
theorem blocked_chosen : ∃ black now, (blockedAt black 7 now).1 = true ∧ choose black now [] [(7, 100)] 50 false id id = .peer 7 := by
  refine ⟨fun q => if q = 7 then some 1000 else none, 10, ?_, ?_⟩ <;> decide +kernel

/-- The event is at a later time than `t` and does not block the peer again; orders only order. -/
def After (t id : Nat) : BEv → Prop
  | .pick now _ _ _ _ ord ordm => t < now ∧ (∀ l, (ord l).Perm l) ∧ ∀ l, (ordm l).Perm l
  | .ban id' _ => id' ≠ id

/-- **C88, fails.** When the time of a blocked peer is over, no connection to it is ever made again, whatever happens. -/
theorem ban_forever {black : Nat → Option Nat} {id t : Nat} (hb : black id = some t) (evs : List BEv) (hevs : ∀ e ∈ evs, After t id e) (e : BEv) (he : After t id e) :
    dialled (evs.foldl bstep black) e ≠ some id := by
  have never : ∀ (black : Nat → Option Nat), black id = some t → ∀ now conns peers upTo coin ord ordm, t < now → (∀ l, (ord l).Perm l) → (∀ l, (ordm l).Perm l) →
      choose black now conns peers upTo coin ord ordm ≠ .peer id := by
    intro black hb now conns peers upTo coin ord ordm hlt hord hordm hch
    have hno : id ∉ ordm (freshPeers black now conns peers upTo) := by
      rw [(hordm _).mem_iff, mem_freshPeers]
      rintro ⟨-, -, h⟩
      have := h t hb
      omega
    unfold choose at hch
    split at hch
    · cases hch
    · dsimp only at hch
      split at hch
      · rename_i y hy
        subst hch
        rcases (chooseLoop_spec _ _).1 _ hy with ⟨c, -, -, -, h⟩ | ⟨p, h1, h2⟩
        · cases h
        · cases h2
          exact hno h1
      · split at hch
        · rename_i p r hm
          cases hch
          rw [hm] at hno
          exact hno List.mem_cons_self
        · cases hch
  have keep : ∀ (evs : List BEv), (∀ e ∈ evs, After t id e) → ∀ black : Nat → Option Nat, black id = some t → (evs.foldl bstep black) id = some t := by
    intro evs
    induction evs with
    | nil => intro _ black hb; exact hb
    | cons x evs ih =>
      intro hall black hb
      refine ih (fun y hy => hall y (List.mem_cons_of_mem _ hy)) _ ?_
      have hx := hall x List.mem_cons_self
      cases x with
      | ban id' till =>
        show (if id = id' then some till else black id) = some t
        rw [if_neg (fun h => hx h.symm)]
        exact hb
      | pick now conns peers upTo coin ord ordm =>
        obtain ⟨h1, h2, h3⟩ := hx
        have hn := never black hb now conns peers upTo coin ord ordm h1 h2 h3
        have other : ∀ p, p ≠ id → (blockedAt black p now).2 id = some t := by
          intro p hp
          unfold blockedAt
          cases black p with
          | none => exact hb
          | some u =>
            dsimp only
            split
            · exact hb
            · show (if id = p then none else black id) = some t
              rw [if_neg (fun h => hp h.symm)]
              exact hb
        simp only [bstep]
        cases hc : choose black now conns peers upTo coin ord ordm with
        | peer p => exact other p (fun h => hn (h ▸ hc))
        | noPeer => exact hb
        | conn c => exact hb
        | nothing => exact hb
  have hk := keep evs hevs black hb
  cases e with
  | ban => intro h; cases h
  | pick now conns peers upTo coin ord ordm =>
    obtain ⟨h1, h2, h3⟩ := he
    have hn := never _ hk now conns peers upTo coin ord ordm h1 h2 h3
    simp only [dialled]
    split
    · rename_i p hp
      split
      · simp
      · intro h
        cases h
        exact hn hp
    · simp

/-! ## Cases -/

example : choose (fun _ => none) 0 [⟨1, 90, true, 1⟩, ⟨2, 40, false, 2⟩, ⟨3, 90, false, 3⟩] [(1, 90), (2, 40), (3, 90), (4, 80)] 60 false id id = .conn ⟨3, 90, false, 3⟩ := by decide +kernel
example : choose (fun _ => none) 0 [⟨1, 90, true, 1⟩, ⟨2, 40, false, 2⟩, ⟨3, 90, false, 3⟩] [(1, 90), (2, 40), (3, 90), (4, 80)] 60 true id id = .peer 4 := by decide +kernel
example : choose (fun _ => none) 0 [⟨1, 90, true, 1⟩] [(1, 90)] 60 true id id = .nothing := by decide +kernel
example : choose (fun _ => none) 0 [⟨1, 90, false, 1⟩] [(1, 90)] 100 true id id = .noPeer := by decide +kernel
/-- The pool of `pool_exact_partial` is not empty. -/
example : ([.add ⟨1, 9, false, 1⟩, .add ⟨2, 9, false, 2⟩, .removeAndSort 1 id, .add ⟨1, 9, false, 3⟩].foldl pstep .empty).l.map (·.uid) = [2, 3] := by decide +kernel
example : After 5 1 (.pick 6 [] [] 0 true id id) := ⟨by decide, fun _ => .refl _, fun _ => .refl _⟩

end Verif.Sync
