import Verif.Disc.TableLemmas

/-! # The table of nodes: invariants (C109) -/

namespace Verif.Disc

/-- The state of the buckets in every history without changes in place. -/
def TOk (c : Cfg) (t : Tab) : Prop :=
  ∀ i, (t.bkts i).ok ∧ (t.bkts i).list.length ≤ c.cap
    ∧ ∀ n ∈ (t.bkts i).list, c.slot n.id = i ∧ c.foreign n = true

theorem TOk_empty (c : Cfg) : TOk c Tab.empty := by
  intro i; exact ⟨⟨rfl, rfl⟩, by simp [Tab.empty, Bkt.empty], by simp [Tab.empty, Bkt.empty]⟩

theorem TOk_setMap {c : Cfg} {t : Tab} (h : TOk c t) (a : Nat) (v : Option Node) : TOk c (t.setMap a v) := h

theorem TOk_setBkt {c : Cfg} {t : Tab} (h : TOk c t) (i : Nat) (b : Bkt) (ok : b.ok)
    (hl : b.list.length ≤ c.cap) (hn : ∀ n ∈ b.list, c.slot n.id = i ∧ c.foreign n = true) :
    TOk c (t.setBkt i b) := by
  intro j
  unfold Tab.setBkt
  by_cases hj : j = i
  · simp only [hj, if_true]; exact ⟨ok, hl, hn⟩
  · simp only [hj, if_false]; exact h j

theorem TOk_bubble {c : Cfg} {t : Tab} (h : TOk c t) (id : Id) : TOk c (t.bubble c id) := by
  obtain ⟨ok, hl, hn⟩ := h (c.slot id)
  obtain ⟨h1, h2⟩ := bubble_perm ok id
  exact TOk_setBkt h _ _ h1 (by rw [h2.length_eq]; exact hl) (fun n hm => hn n (h2.mem_iff.mp hm))

theorem TOk_remove {c : Cfg} {t : Tab} (h : TOk c t) (id : Id) : TOk c (t.remove c id) := by
  obtain ⟨ok, hl, hn⟩ := h (c.slot id)
  unfold Tab.remove
  rcases remove_cases ok id with ⟨_, hr⟩ | ⟨n, b', _, _, hr, ok', hp⟩
  · rw [hr]; exact h
  · rw [hr]
    refine TOk_setMap (TOk_setBkt h _ _ ok' ?_ ?_) _ _
    · have := hp.length_eq; simp at this; omega
    · intro m hm; exact hn m (hp.mem_iff.mp (by simp [hm]))

theorem TOk_commit {c : Cfg} (hc : 0 < c.cap) {t : Tab} (h : TOk c t) (n : Node)
    (hf : c.foreign n = true) : TOk c (t.commit c n).1 := by
  obtain ⟨ok, hl, hn⟩ := h (c.slot n.id)
  unfold Tab.commit
  rcases add_cases hc ok hl n with ⟨m, _, hr⟩ | ⟨_, hlt, hr, ok'⟩
  · rw [hr]; exact h
  · rw [hr]
    refine TOk_setMap (TOk_setBkt h _ _ ok' (by simp; omega) ?_) _ _
    intro m hm
    rcases List.mem_append.mp hm with hm | hm
    · exact hn m hm
    · simp at hm; subst hm; exact ⟨rfl, hf⟩

theorem TOk_replaced {c : Cfg} {t : Tab} (h : TOk c t) (old new : Node)
    (hf : c.foreign new = true) : TOk c (t.replaced (c.slot new.id) old new) := by
  obtain ⟨ok, hl, hn⟩ := h (c.slot new.id)
  unfold Tab.replaced Bkt.replace
  cases hr : ((t.bkts (c.slot new.id)).resolve old.id).isSome with
  | false => exact h
  | true =>
    dsimp only
    refine TOk_setMap (TOk_setMap (TOk_setBkt h _ _ ?_ ?_ ?_) _ _) _ _
    · exact ⟨by simp [replaceFirst_length, ok.1], by simp [replaceFirst_length, ok.2]⟩
    · simp only [replaceFirst_length]; exact hl
    · intro m hm
      rcases replaceFirst_mem _ _ _ _ hm with hm | hm
      · subst hm; exact ⟨rfl, hf⟩
      · exact hn m hm

/-- The state of the whole system in every history without changes in place. -/
def SOk (c : Cfg) (s : Sys) : Prop :=
  TOk c s.tab ∧ (∀ n ∈ s.adding, c.foreign n = true) ∧ ∀ e ∈ s.checking, c.foreign e.2 = true

theorem SOk_tryAdd {c : Cfg} (hc : 0 < c.cap) {s : Sys} (h : SOk c s) (n : Node) (check : Bool)
    (hf : c.foreign n = true) : SOk c (s.tryAdd c n check) := by
  have ht := TOk_commit hc h.1 n hf
  unfold Sys.tryAdd
  rcases hr : s.tab.commit c n with ⟨t, v⟩
  rw [hr] at ht
  cases v with
  | none => exact ⟨ht, h.2.1, h.2.2⟩
  | some m =>
    refine ⟨ht, h.2.1, ?_⟩
    intro e he
    dsimp only at he
    split at he
    · rcases List.mem_append.mp he with he | he
      · exact h.2.2 e he
      · simp at he; subst he; exact hf
    · exact h.2.2 e he

theorem SOk_step {c : Cfg} (hc : 0 < c.cap) {s : Sys} (h : SOk c s) (op : Op) (hop : NoUpdate op) :
    SOk c (s.step c op) := by
  cases op with
  | beginAdd n =>
    simp only [Sys.step]
    split
    · exact h
    · rename_i hf
      split
      · split
        · exact ⟨TOk_bubble h.1 _, h.2.1, h.2.2⟩
        · exact h
      · refine ⟨h.1, ?_, h.2.2⟩
        intro m hm
        rcases List.mem_append.mp hm with hm | hm
        · exact h.2.1 m hm
        · simp at hm; subst hm; simpa using hf
  | endAdd k check =>
    simp only [Sys.step]
    split
    · exact h
    · rename_i n hk
      exact SOk_tryAdd hc (s := { s with adding := s.adding.eraseIdx k })
        ⟨h.1, fun m hm => h.2.1 m (List.mem_of_mem_eraseIdx hm), h.2.2⟩ n check
        (h.2.1 n (List.mem_of_getElem? hk))
  | add n check =>
    simp only [Sys.step]
    split
    · exact h
    · rename_i hf
      split
      · split
        · exact ⟨TOk_bubble h.1 _, h.2.1, h.2.2⟩
        · exact h
      · exact SOk_tryAdd hc h n check (by simpa using hf)
  | pingFailed k =>
    simp only [Sys.step]
    split
    · exact h
    · rename_i old new hk
      exact ⟨TOk_replaced h.1 _ _ (h.2.2 _ (List.mem_of_getElem? hk)), h.2.1,
        fun e he => h.2.2 e (List.mem_of_mem_eraseIdx he)⟩
  | pingAnswered k => exact ⟨h.1, h.2.1, fun e he => h.2.2 e (List.mem_of_mem_eraseIdx he)⟩
  | remove id => exact ⟨TOk_remove h.1 _, h.2.1, h.2.2⟩
  | bubble id => exact ⟨TOk_bubble h.1 _, h.2.1, h.2.2⟩
  | reset => exact ⟨TOk_empty c, h.2.1, h.2.2⟩
  | update old new => exact absurd hop id

theorem SOk_run {c : Cfg} (hc : 0 < c.cap) (ops : List Op) (s : Sys) (h : SOk c s)
    (hop : ∀ op ∈ ops, NoUpdate op) : SOk c (s.run c ops) := by
  induction ops generalizing s with
  | nil => exact h
  | cons op ops ih =>
    exact ih _ (SOk_step hc h op (hop op (by simp))) (fun o ho => hop o (by simp [ho]))

theorem SOk_init (c : Cfg) : SOk c Sys.init := ⟨TOk_empty c, by simp [Sys.init], by simp [Sys.init]⟩

theorem mem_all {c : Cfg} (hn : 0 < c.num) {t : Tab} (h : TOk c t) (n : Node) :
    n ∈ t.all c ↔ n ∈ (t.bkts (c.slot n.id)).list := by
  unfold Tab.all
  rw [List.mem_flatMap]
  constructor
  · rintro ⟨i, _, hm⟩
    rw [((h i).2.2 n hm).1]; exact hm
  · intro hm
    exact ⟨_, List.mem_range.mpr (slot_lt c hn _), hm⟩

/-- **C109 (any order of the steps).** However the calls interleave, also with
two nodes added at once and with late answers to pings: as long as no node of
the table is changed in place, each node is in the bucket of its distance, no
bucket is over its size, the counters are right, and the own node is not
there. -/
theorem table_placed (c : Cfg) (hc : 0 < c.cap) (ops : List Op)
    (hop : ∀ op ∈ ops, NoUpdate op) : Placed c (Sys.init.run c ops).tab := by
  have h := (SOk_run hc ops _ (SOk_init c) hop).1
  refine ⟨fun i n hm => ((h i).2.2 n hm).1, fun i => (h i).2.1, fun i => (h i).1.2, ?_⟩
  intro n hm
  obtain ⟨i, _, hm⟩ := List.mem_flatMap.mp hm
  have := ((h i).2.2 n hm).2
  simpa [Cfg.foreign] using this

/-! ## Calm histories -/

/-- The state of the table in a calm history. -/
structure TX (c : Cfg) (t : Tab) : Prop where
  tok : TOk c t
  ids : ∀ i, ((t.bkts i).list.map Node.id).Nodup
  map : ∀ a n, t.map a = some n ↔ n ∈ (t.bkts (c.slot n.id)).list ∧ n.addr = a

theorem TX_empty (c : Cfg) : TX c Tab.empty :=
  ⟨TOk_empty c, by simp [Tab.empty, Bkt.empty], by simp [Tab.empty, Bkt.empty]⟩

theorem setBkt_mem (t : Tab) (i : Nat) (b : Bkt) (j : Nat) :
    (t.setBkt i b).bkts j = if j = i then b else t.bkts j := rfl

theorem TX_bubble {c : Cfg} {t : Tab} (h : TX c t) (id : Id) : TX c (t.bubble c id) := by
  obtain ⟨_, h2⟩ := bubble_perm (h.tok (c.slot id)).1 id
  refine ⟨TOk_bubble h.tok id, ?_, ?_⟩
  · intro i
    unfold Tab.bubble
    rw [setBkt_mem]
    split
    · exact (h2.map Node.id).nodup_iff.mpr (h.ids _)
    · exact h.ids i
  · intro a n
    unfold Tab.bubble
    rw [setBkt_mem]
    show t.map a = some n ↔ _
    rw [h.map]
    split
    · rename_i he; rw [h2.mem_iff, he]
    · rfl

theorem unique_addr {c : Cfg} {t : Tab} (h : TX c t) {m n : Node}
    (hm : m ∈ (t.bkts (c.slot m.id)).list) (hn : n ∈ (t.bkts (c.slot n.id)).list)
    (ha : m.addr = n.addr) : m = n := by
  have h1 := (h.map n.addr m).mpr ⟨hm, ha⟩
  have h2 := (h.map n.addr n).mpr ⟨hn, rfl⟩
  rw [h1] at h2; exact Option.some.inj h2

theorem TX_remove {c : Cfg} {t : Tab} (h : TX c t) (id : Id) : TX c (t.remove c id) := by
  have htok := TOk_remove h.tok id
  unfold Tab.remove at htok ⊢
  rcases remove_cases (h.tok (c.slot id)).1 id with ⟨_, hr⟩ | ⟨n, b', hn, hid, hr, ok', hp⟩
  · rw [hr]; exact h
  · rw [hr] at htok ⊢
    have hnd : (b'.list.map Node.id).Nodup ∧ ∀ m ∈ b'.list, m ≠ n := by
      have h1 := (hp.map Node.id).nodup_iff.mpr (h.ids _)
      rw [List.map_append, List.nodup_append] at h1
      refine ⟨h1.1, ?_⟩
      intro m hm he
      exact h1.2.2 m.id (List.mem_map_of_mem hm) n.id (by simp) (by rw [he])
    have hns : n ∈ (t.bkts (c.slot n.id)).list := by rw [hid]; exact hn
    refine ⟨htok, ?_, ?_⟩
    · intro i
      show (((t.setBkt (c.slot id) b').bkts i).list.map Node.id).Nodup
      rw [setBkt_mem]
      split
      · exact hnd.1
      · exact h.ids i
    · intro a m
      show (if a = n.addr then none else t.map a) = some m ↔
        m ∈ ((t.setBkt (c.slot id) b').bkts (c.slot m.id)).list ∧ m.addr = a
      rw [setBkt_mem]
      have hiff : m ∈ (if c.slot m.id = c.slot id then b' else t.bkts (c.slot m.id)).list ↔
          m ∈ (t.bkts (c.slot m.id)).list ∧ m ≠ n := by
        split
        · rename_i he
          rw [he]
          constructor
          · intro hm; exact ⟨hp.mem_iff.mp (by simp [hm]), hnd.2 m hm⟩
          · rintro ⟨hm, hne⟩
            have := hp.mem_iff.mpr hm
            simp only [List.mem_append, List.mem_singleton] at this
            rcases this with h | h
            · exact h
            · exact absurd h hne
        · rename_i he
          exact ⟨fun hm => ⟨hm, fun hh => he (by rw [hh, hid])⟩, fun hm => hm.1⟩
      rw [hiff]
      by_cases ha : a = n.addr
      · rw [if_pos ha]
        constructor
        · intro hh; cases hh
        · rintro ⟨⟨h1, h2⟩, h3⟩
          exact absurd (unique_addr h h1 hns (by rw [h3, ha])) h2
      · rw [if_neg ha, h.map]
        constructor
        · rintro ⟨h1, h2⟩; exact ⟨⟨h1, fun hh => ha (by rw [← h2, hh])⟩, h2⟩
        · rintro ⟨⟨h1, _⟩, h2⟩; exact ⟨h1, h2⟩

theorem TX_commit {c : Cfg} (hc : 0 < c.cap) {t : Tab} (h : TX c t) (n : Node)
    (hf : c.foreign n = true) (hk : t.known c n = none) : TX c (t.commit c n).1 := by
  have htok := TOk_commit hc h.tok n hf
  have hmap : t.map n.addr = none := by
    unfold Tab.known at hk
    split at hk
    · cases hk
    · exact hk
  unfold Tab.commit at htok ⊢
  rcases add_cases hc (h.tok (c.slot n.id)).1 (h.tok (c.slot n.id)).2.1 n with ⟨m, _, hr⟩ | ⟨hnew, hlt, hr, ok'⟩
  · rw [hr]; exact h
  · rw [hr] at htok ⊢
    refine ⟨htok, ?_, ?_⟩
    · intro i
      show (((t.setBkt (c.slot n.id) _).bkts i).list.map Node.id).Nodup
      rw [setBkt_mem]
      split
      · simp only [List.map_append, List.map_cons, List.map_nil]
        rw [List.nodup_append]
        refine ⟨h.ids _, by simp, ?_⟩
        intro x hx y hy he
        obtain ⟨m, hm, rfl⟩ := List.mem_map.mp hx
        simp at hy; subst hy
        exact hnew m hm he
      · exact h.ids i
    · intro a m
      show (if a = n.addr then some n else t.map a) = some m ↔
        m ∈ ((t.setBkt (c.slot n.id) _).bkts (c.slot m.id)).list ∧ m.addr = a
      rw [setBkt_mem]
      have hiff : m ∈ (if c.slot m.id = c.slot n.id then
            (⟨(t.bkts (c.slot n.id)).list ++ [n], (t.bkts (c.slot n.id)).tail + 1, (t.bkts (c.slot n.id)).count + 1⟩ : Bkt)
            else t.bkts (c.slot m.id)).list ↔ m ∈ (t.bkts (c.slot m.id)).list ∨ m = n := by
        split
        · rename_i he; rw [he]; simp
        · rename_i he
          exact ⟨fun hm => .inl hm, fun hm => hm.elim id (fun hh => absurd (by rw [hh]) he)⟩
      rw [hiff]
      by_cases ha : a = n.addr
      · rw [if_pos ha]
        constructor
        · intro hh; cases hh; exact ⟨.inr rfl, ha.symm⟩
        · rintro ⟨h1 | h1, h2⟩
          · have := (h.map n.addr m).mpr ⟨h1, by rw [h2, ha]⟩
            rw [hmap] at this; cases this
          · rw [h1]
      · rw [if_neg ha, h.map]
        constructor
        · rintro ⟨h1, h2⟩; exact ⟨.inl h1, h2⟩
        · rintro ⟨h1 | h1, h2⟩
          · exact ⟨h1, h2⟩
          · exact absurd (by rw [← h2, h1]) ha

theorem TX_replaced {c : Cfg} (hn : 0 < c.num) {t : Tab} (h : TX c t) (old new : Node)
    (hf : c.foreign new = true)
    (hcalm : ∀ m ∈ t.all c, m = old ∨ (m.id ≠ old.id ∧ m.id ≠ new.id ∧ m.addr ≠ new.addr)) :
    TX c (t.replaced (c.slot new.id) old new) := by
  have htok := TOk_replaced h.tok old new hf
  unfold Tab.replaced Bkt.replace at htok ⊢
  cases hr : ((t.bkts (c.slot new.id)).resolve old.id).isSome with
  | false => exact h
  | true =>
    rw [hr] at htok
    dsimp only at htok ⊢
    have hall : ∀ m, m ∈ (t.bkts (c.slot m.id)).list → m = old ∨ (m.id ≠ old.id ∧ m.id ≠ new.id ∧ m.addr ≠ new.addr) :=
      fun m hm => hcalm m ((mem_all hn h.tok m).mpr hm)
    have hb : ∀ m, m ∈ (t.bkts (c.slot new.id)).list → m ∈ (t.bkts (c.slot m.id)).list := by
      intro m hm; rw [((h.tok _).2.2 m hm).1]; exact hm
    obtain ⟨o, ho⟩ := Option.isSome_iff_exists.mp hr
    have hoo : o = old := by
      rcases hall o (hb o (resolve_some ho).1) with h1 | h1
      · exact h1
      · exact absurd (resolve_some ho).2 h1.1
    have hmem : old ∈ (t.bkts (c.slot new.id)).list := by rw [← hoo]; exact (resolve_some ho).1
    have hslot : c.slot old.id = c.slot new.id := ((h.tok _).2.2 old hmem).1
    obtain ⟨rest, hp1, hp2⟩ := replaceFirst_perm old new _ hmem
      (fun m hm => (hall m (hb m hm)).imp id (fun x => x.1))
    have hnd := (hp1.map Node.id).nodup_iff.mp (h.ids _)
    rw [List.map_cons, List.nodup_cons] at hnd
    have hrest : ∀ m ∈ rest, m ≠ old ∧ m.id ≠ new.id ∧ m.addr ≠ new.addr := by
      intro m hm
      have hne : m ≠ old := fun he => hnd.1 (by rw [← he]; exact List.mem_map_of_mem hm)
      rcases hall m (hb m (hp1.mem_iff.mpr (by simp [hm]))) with h1 | h1
      · exact absurd h1 hne
      · exact ⟨hne, h1.2⟩
    refine ⟨htok, ?_, ?_⟩
    · intro i
      show (((t.setBkt (c.slot new.id) _).bkts i).list.map Node.id).Nodup
      rw [setBkt_mem]
      split
      · refine (hp2.map Node.id).nodup_iff.mpr ?_
        rw [List.map_cons, List.nodup_cons]
        refine ⟨?_, hnd.2⟩
        intro hx
        obtain ⟨m, hm, he⟩ := List.mem_map.mp hx
        exact (hrest m hm).2.1 he
      · exact h.ids i
    · intro a m
      show (if a = new.addr then some new else if a = old.addr then none else t.map a) = some m ↔
        m ∈ ((t.setBkt (c.slot new.id) _).bkts (c.slot m.id)).list ∧ m.addr = a
      rw [setBkt_mem]
      have hiff : m ∈ (if c.slot m.id = c.slot new.id then
            { t.bkts (c.slot new.id) with list := replaceFirst old.id new (t.bkts (c.slot new.id)).list }
            else t.bkts (c.slot m.id)).list ↔ m = new ∨ (m ∈ (t.bkts (c.slot m.id)).list ∧ m ≠ old) := by
        split
        · rename_i he
          rw [he, hp2.mem_iff, hp1.mem_iff]
          simp only [List.mem_cons]
          constructor
          · rintro (h1 | h1)
            · exact .inl h1
            · exact .inr ⟨.inr h1, (hrest m h1).1⟩
          · rintro (h1 | ⟨h1 | h1, h2⟩)
            · exact .inl h1
            · exact absurd h1 h2
            · exact .inr h1
        · rename_i he
          constructor
          · intro hm; exact .inr ⟨hm, fun hh => he (by rw [hh, hslot])⟩
          · rintro (h1 | ⟨h1, _⟩)
            · exact absurd (by rw [h1]) he
            · exact h1
      rw [hiff]
      have holds : old ∈ (t.bkts (c.slot old.id)).list := by rw [hslot]; exact hmem
      by_cases ha : a = new.addr
      · rw [if_pos ha]
        constructor
        · intro hh; cases hh; exact ⟨.inl rfl, ha.symm⟩
        · rintro ⟨h1 | ⟨h1, h2⟩, h3⟩
          · rw [h1]
          · rcases hall m h1 with h4 | h4
            · exact absurd h4 h2
            · exact absurd (by rw [h3, ha]) h4.2.2
      · rw [if_neg ha]
        by_cases hb' : a = old.addr
        · rw [if_pos hb']
          constructor
          · intro hh; cases hh
          · rintro ⟨h1 | ⟨h1, h2⟩, h3⟩
            · exact absurd (by rw [← h3, h1]) ha
            · exact absurd (unique_addr h h1 holds (by rw [h3, hb'])) h2
        · rw [if_neg hb', h.map]
          constructor
          · rintro ⟨h1, h2⟩; exact ⟨.inr ⟨h1, fun hh => hb' (by rw [← h2, hh])⟩, h2⟩
          · rintro ⟨h1 | ⟨h1, h2⟩, h3⟩
            · exact absurd (by rw [← h3, h1]) ha
            · exact ⟨h1, h3⟩

theorem TX_step {c : Cfg} (hc : 0 < c.cap) (hn : 0 < c.num) {s : Sys} (h : TX c s.tab) (hs : SOk c s)
    (op : Op) (hop : Calm c s op) : TX c (s.step c op).tab := by
  cases op with
  | beginAdd n => exact absurd hop id
  | endAdd k check => exact absurd hop id
  | update old new => exact absurd hop id
  | add n check =>
    simp only [Sys.step]
    split
    · exact h
    · rename_i hf
      split
      · split
        · exact TX_bubble h _
        · exact h
      · rename_i hk
        have := TX_commit hc h n (by simpa using hf) hk
        unfold Sys.tryAdd
        rcases hr : s.tab.commit c n with ⟨t, v⟩
        rw [hr] at this
        cases v <;> exact this
  | pingFailed k =>
    simp only [Sys.step]
    split
    · exact h
    · rename_i old new hk
      exact TX_replaced hn h old new (hs.2.2 _ (List.mem_of_getElem? hk)) (hop old new hk)
  | pingAnswered k => exact h
  | remove id => exact TX_remove h _
  | bubble id => exact TX_bubble h _
  | reset => exact TX_empty c

theorem calm_noUpdate {c : Cfg} {s : Sys} {op : Op} (h : Calm c s op) : NoUpdate op := by
  cases op <;> simp_all [Calm, NoUpdate]

theorem TX_run {c : Cfg} (hc : 0 < c.cap) (hn : 0 < c.num) (ops : List Op) (s : Sys) (h : TX c s.tab)
    (hs : SOk c s) (hop : CalmRun c s ops) : TX c (s.run c ops).tab := by
  induction ops generalizing s with
  | nil => exact h
  | cons op ops ih =>
    exact ih _ (TX_step hc hn h hs op hop.1) (SOk_step hc hs op (calm_noUpdate hop.1)) hop.2

theorem TX_exact {c : Cfg} (hn : 0 < c.num) {t : Tab} (h : TX c t) : Exact c t := by
  have hslot : ∀ i m, m ∈ (t.bkts i).list → c.slot m.id = i := fun i m hm => ((h.tok i).2.2 m hm).1
  have hids : ((t.all c).map Node.id).Nodup := by
    unfold Tab.all
    rw [List.map_flatMap, List.nodup_flatMap]
    refine ⟨fun i _ => h.ids i, ?_⟩
    refine List.Pairwise.imp ?_ (List.nodup_range (n := c.num))
    intro i j hij
    rw [Function.onFun, List.disjoint_left]
    intro x hx hy
    obtain ⟨m, hm, rfl⟩ := List.mem_map.mp hx
    obtain ⟨m', hm', he⟩ := List.mem_map.mp hy
    exact hij (by rw [← hslot i m hm, ← hslot j m' hm', he])
  refine ⟨hids, ?_, ?_, ?_, ?_⟩
  · apply List.Nodup.map_on _ (List.Nodup.of_map _ hids)
    intro x hx y hy he
    exact unique_addr h ((mem_all hn h.tok x).mp hx) ((mem_all hn h.tok y).mp hy) he
  · intro id n
    rw [mem_all hn h.tok]
    unfold Tab.resolve
    constructor
    · intro hr
      obtain ⟨h1, h2⟩ := resolve_some hr
      rw [h2]; exact ⟨h1, rfl⟩
    · rintro ⟨h1, rfl⟩
      cases hr : (t.bkts (c.slot n.id)).resolve n.id with
      | none => exact absurd rfl (resolve_none.mp hr n h1)
      | some m =>
        obtain ⟨h3, h4⟩ := resolve_some hr
        exact congrArg some (List.inj_on_of_nodup_map (h.ids _) h3 h1 h4)
  · intro a n
    rw [mem_all hn h.tok]
    exact h.map a n
  · unfold Tab.size Tab.all
    rw [List.length_flatMap]
    congr 1
    apply List.map_congr_left
    intro i _
    exact (h.tok i).1.2

/-- **C109 (calm histories).** If the calls do not overlap, no node is changed
in place and a replacement finds the table as it was when it was decided, then
the table is a set of nodes with different identities and different addresses,
and `resolve`, `resolveAddr` and `size` tell exactly what it holds. -/
theorem table_exact_partial (c : Cfg) (hc : 0 < c.cap) (hn : 0 < c.num) (ops : List Op)
    (hop : CalmRun c Sys.init ops) : Exact c (Sys.init.run c ops).tab :=
  TX_exact hn (TX_run hc hn ops _ (TX_empty c) (SOk_init c) hop)

end Verif.Disc
