import Verif.Ndb.Model
import Verif.Tactics

/-! # The database of known nodes gives back what was stored, and forgets what is old -/

namespace Verif.Ndb
open Verif.Bytes Verif.Store

/-! ### Specification -/

/-- Each key is there once. -/
def Uniq (s : Store) : Prop := s.Pairwise (fun a b => a.1 ≠ b.1)

/-- The keys of a node. -/
def keysOf (id : Bytes) : List Bytes := [dataPrefix ++ id, activePrefix ++ id, checkPrefix ++ id, markPrefix ++ id]

/-- When a node was active, if that is known. -/
def lastSeen (s : Store) (id : Bytes) : Option Int := (get s (activePrefix ++ id)).map decodeVarint

/-- The mark of a node and when it was given, if the entry is whole. -/
def markOf (s : Store) (id : Bytes) : Option (Int × Int) :=
  (get s (markPrefix ++ id)).bind (fun v => if v.length < 16 then none else some (signed (num (v.take 8)), signed (num ((v.drop 8).take 8))))

/-! ### The store -/

theorem get_del (s : Store) (k k' : Bytes) : get (del s k) k' = if k = k' then none else get s k' := by
  unfold get del
  rw [List.find?_filter]
  by_cases h : k = k'
  · subst h
    rw [if_pos rfl]
    rw [List.find?_eq_none.2 (by intro x _; simp)]; rfl
  · rw [if_neg h]
    congr 1
    congr 1
    funext a
    by_cases q : a.1 = k'
    · have : a.1 ≠ k := fun e => h (e.symm.trans q)
      simp [q, this]; exact fun e => h e.symm
    · simp [q]

theorem get_put (s : Store) (k v k' : Bytes) : get (put s k v) k' = if k = k' then some v else get s k' := by
  unfold put
  by_cases h : k = k'
  · rw [if_pos h]; unfold get; rw [List.find?_cons]; simp [h]
  · rw [if_neg h]
    have := get_del s k k'
    rw [if_neg h] at this
    rw [← this]
    unfold get
    rw [List.find?_cons]; simp [h]

theorem uniq_del {s : Store} (h : Uniq s) (k : Bytes) : Uniq (del s k) := h.sublist List.filter_sublist

theorem uniq_put {s : Store} (h : Uniq s) (k v : Bytes) : Uniq (put s k v) := by
  refine List.pairwise_cons.2 ⟨?_, uniq_del h k⟩
  intro e he q
  have := (List.mem_filter.1 he).2
  simp only [ne_eq, decide_not, Bool.not_eq_true', decide_eq_false_iff_not] at this
  exact this q.symm

theorem mem_get {s : Store} (h : Uniq s) (k v : Bytes) : (k, v) ∈ s ↔ get s k = some v := by
  unfold get
  induction s with
  | nil => simp
  | cons e s ih =>
    have hc := List.pairwise_cons.1 h
    rw [List.find?_cons]
    by_cases q : e.1 = k
    · simp only [q, decide_true, Option.map_some, Option.some.injEq]
      constructor
      · intro m
        rcases List.mem_cons.1 m with m | m
        · rw [← m]
        · exact absurd q (hc.1 _ m)
      · intro m
        rw [← q, ← m]; exact List.mem_cons_self
    · simp only [q, decide_false]
      rw [← ih hc.2, List.mem_cons]
      constructor
      · rintro (m | m)
        · rw [← m] at q; exact absurd rfl q
        · exact m
      · exact Or.inr

/-! ### Keys -/

theorem data_active (a b : Bytes) : dataPrefix ++ a ≠ activePrefix ++ b := by intro h; simp [dataPrefix, activePrefix] at h
theorem data_check (a b : Bytes) : dataPrefix ++ a ≠ checkPrefix ++ b := by intro h; simp [dataPrefix, checkPrefix] at h
theorem data_mark (a b : Bytes) : dataPrefix ++ a ≠ markPrefix ++ b := by intro h; simp [dataPrefix, markPrefix] at h
theorem active_check (a b : Bytes) : activePrefix ++ a ≠ checkPrefix ++ b := by intro h; simp [activePrefix, checkPrefix] at h
theorem active_mark (a b : Bytes) : activePrefix ++ a ≠ markPrefix ++ b := by intro h; simp [activePrefix, markPrefix] at h
theorem check_mark (a b : Bytes) : checkPrefix ++ a ≠ markPrefix ++ b := by intro h; simp [checkPrefix, markPrefix] at h

theorem data_mem {a b : Bytes} : dataPrefix ++ a ∈ keysOf b ↔ a = b := by
  simp [keysOf, data_active, data_check, data_mark]

theorem get_removeNode (s : Store) (id k : Bytes) : get (removeNode s id) k = if k ∈ keysOf id then none else get s k := by
  unfold removeNode
  rw [get_del, get_del, get_del, get_del]
  unfold keysOf
  by_cases h : k ∈ [dataPrefix ++ id, activePrefix ++ id, checkPrefix ++ id, markPrefix ++ id]
  · rw [if_pos h]
    simp only [List.mem_cons, List.not_mem_nil, or_false] at h
    rcases h with h | h | h | h <;> simp [h]
  · rw [if_neg h]
    simp only [List.mem_cons, List.not_mem_nil, or_false, not_or] at h
    rw [if_neg (fun e => h.2.2.2 e.symm), if_neg (fun e => h.2.2.1 e.symm), if_neg (fun e => h.2.1 e.symm), if_neg (fun e => h.1 e.symm)]

/-! ### Numbers -/

theorem unzigzag_zigzag (i : Int) : unzigzag (zigzag i) = i := by
  unfold unzigzag zigzag
  by_cases h : 0 ≤ i
  · rw [if_pos h, if_pos (by omega)]; omega
  · rw [if_neg h, if_neg (by omega)]; omega

theorem varint_roundtrip {i : Int} (h : -2 ^ 62 ≤ i) (h' : i < 2 ^ 62) : decodeVarint (encodeVarint i) = i := by
  have hz : zigzag i < 2 ^ 63 := by unfold zigzag; split <;> omega
  have := Verif.Tab.read_uvarint (zigzag i) hz []
  rw [List.append_nil] at this
  unfold decodeVarint encodeVarint
  rw [this]
  exact unzigzag_zigzag i

theorem be_length (k : Nat) : ∀ n, (be k n).length = k := by
  induction k with
  | zero => intro n; rfl
  | succ k ih => intro n; simp [be, ih]

theorem signed_wrap {v : Int} (h : -2 ^ 63 ≤ v) (h' : v < 2 ^ 63) : signed (num (be 8 (v % 2 ^ 64).toNat)) = v := by
  rw [num_be]
  unfold signed
  split <;> omega

/-! ### Single nodes -/

variable {N : Type} {C : Codec N}

/-- **What is stored of a node is read**, and nothing of it changes what is stored of others. -/
theorem store_retrieve (s : Store) (n : N) (hC : C.de (C.ser n) = some n) (id : Bytes) :
    retrieveNode C (storeNode C s n) id = if C.id n = id then some n else retrieveNode C s id := by
  unfold retrieveNode storeNode
  rw [get_put]
  by_cases h : C.id n = id
  · rw [if_pos (by rw [h]), if_pos h]; exact hC
  · rw [if_neg (by simpa using h), if_neg h]

theorem active_stored (s : Store) (id id' : Bytes) {t : Int} (h : -2 ^ 62 ≤ t) (h' : t < 2 ^ 62) :
    activeAt (storeActive s id t) id' = if id = id' then t else activeAt s id' := by
  unfold activeAt retrieveInt storeActive
  rw [get_put]
  by_cases q : id = id'
  · rw [if_pos (by rw [q]), if_pos q]; exact varint_roundtrip h h'
  · rw [if_neg (by simpa using q), if_neg q]

theorem check_stored (s : Store) (id id' : Bytes) {t : Int} (h : -2 ^ 62 ≤ t) (h' : t < 2 ^ 62) :
    checkAt (storeCheck s id t) id' = if id = id' then t else checkAt s id' := by
  unfold checkAt retrieveInt storeCheck
  rw [get_put]
  by_cases q : id = id'
  · rw [if_pos (by rw [q]), if_pos q]; exact varint_roundtrip h h'
  · rw [if_neg (by simpa using q), if_neg q]

theorem mark_stored (s : Store) (id id' : Bytes) {v t : Int} (h : -2 ^ 63 ≤ v) (h' : v < 2 ^ 63) (ht : -2 ^ 63 ≤ t) (ht' : t < 2 ^ 63) :
    markOf (storeMark s id v t) id' = if id = id' then some (v, t) else markOf s id' := by
  unfold markOf storeMark
  rw [get_put]
  by_cases q : id = id'
  · rw [if_pos (by rw [q]), if_pos q]
    have hl : ∀ n, (be 8 n).length = 8 := be_length 8
    rw [Option.bind_some, if_neg (by rw [List.length_append, hl, hl]; omega), List.take_left' (hl _), List.drop_left' (hl _), List.take_of_length_le (by rw [hl]),
      signed_wrap h h', signed_wrap ht ht']
  · rw [if_neg (by simpa using q), if_neg q]

/-- The kinds of entries do not mix. -/
theorem kinds_apart (s : Store) (id : Bytes) (n : N) (v t : Int) (id' : Bytes) :
    retrieveNode C (storeMark (storeCheck (storeActive s id t) id t) id v t) id' = retrieveNode C s id' ∧
    lastSeen (storeNode C s n) id' = lastSeen s id' ∧ lastSeen (storeMark (storeCheck s id t) id v t) id' = lastSeen s id' ∧
    markOf (storeCheck (storeActive (storeNode C s n) id t) id t) id' = markOf s id' := by
  refine ⟨?_, ?_, ?_, ?_⟩
  · unfold retrieveNode storeMark storeCheck storeActive
    rw [get_put, if_neg (data_mark _ _).symm, get_put, if_neg (data_check _ _).symm, get_put, if_neg (data_active _ _).symm]
  · unfold lastSeen storeNode
    rw [get_put, if_neg (data_active _ _)]
  · unfold lastSeen storeMark storeCheck
    rw [get_put, if_neg (active_mark _ _).symm, get_put, if_neg (active_check _ _).symm]
  · unfold markOf storeCheck storeActive storeNode
    rw [get_put, if_neg (check_mark _ _), get_put, if_neg (active_mark _ _), get_put, if_neg (data_mark _ _)]

/-- **A mark is not read back** by the function for it: it expects another form, and gives zero for every mark
from 0 to 2^56. -/
theorem retrieveMark_zero (s : Store) (id : Bytes) {v t : Int} (h : 0 ≤ v) (h' : v < 2 ^ 56) : retrieveMark (storeMark s id v t) id = 0 := by
  have hb : ∃ r, be 8 (v % 2 ^ 64).toNat = 0 :: r := by
    have hl := be_length 8 (v % 2 ^ 64).toNat
    cases hbe : be 8 (v % 2 ^ 64).toNat with
    | nil => rw [hbe] at hl; cases hl
    | cons a r =>
      rw [hbe] at hl
      have hn := num_be 8 (v % 2 ^ 64).toNat
      rw [hbe, num_cons] at hn
      have hr : r.length = 7 := by simpa using hl
      rw [hr] at hn
      have : a.toNat = 0 := by
        by_contra q
        have : 1 ≤ a.toNat := by omega
        have : 256 ^ 7 ≤ a.toNat * 256 ^ 7 := Nat.le_mul_of_pos_left _ (by omega)
        omega
      exact ⟨r, by rw [show a = 0 from UInt8.toNat.inj (by simpa using this)]⟩
  obtain ⟨r, hr⟩ := hb
  unfold retrieveMark retrieveInt storeMark
  rw [get_put, if_pos rfl, hr]
  rfl

/-! ### Many nodes -/

theorem entry_form {s : Store} {p : Bytes} {e : Bytes × Bytes} (h : e ∈ entries s p) : e ∈ s ∧ e.1 = p ++ e.1.drop p.length := by
  obtain ⟨h1, h2⟩ := List.mem_filter.1 h
  refine ⟨h1, ?_⟩
  obtain ⟨t, ht⟩ := List.isPrefixOf_iff_prefix.1 h2
  rw [← ht]; simp

theorem entry_mem {s : Store} (hs : Uniq s) (p id v : Bytes) : (p ++ id, v) ∈ entries s p ↔ get s (p ++ id) = some v := by
  unfold entries
  rw [List.mem_filter, mem_get hs]
  simp

/-- What an entry of the times gives. -/
def pick (C : Codec N) (now expiration : Int) (s : Store) (e : Bytes × Bytes) : Option N :=
  if (e.1.drop activePrefix.length).length ≠ 32 then none
  else if now - decodeVarint e.2 > expiration then none else retrieveNode C s (e.1.drop activePrefix.length)

/-- The keys that go with it, if it gives nothing. -/
def kills (e : Bytes × Bytes) : List Bytes := if (e.1.drop activePrefix.length).length ≠ 32 then [e.1] else keysOf (e.1.drop activePrefix.length)

theorem read_step (now expiration : Int) (acc : List N × Store) (e : Bytes × Bytes) :
    (readStep C now expiration acc e).1 = acc.1 ++ (pick C now expiration acc.2 e).toList ∧
    ∀ k, get (readStep C now expiration acc e).2 k = if pick C now expiration acc.2 e = none ∧ k ∈ kills e then none else get acc.2 k := by
  unfold readStep pick kills
  dsimp only
  by_cases h1 : (e.1.drop activePrefix.length).length ≠ 32
  · rw [if_pos h1, if_pos h1, if_pos h1]
    refine ⟨by simp, fun k => ?_⟩
    rw [get_del]
    simp [eq_comm]
  · rw [if_neg h1, if_neg h1, if_neg h1]
    by_cases h2 : now - decodeVarint e.2 > expiration
    · rw [if_pos h2, if_pos h2]
      refine ⟨by simp, fun k => ?_⟩
      rw [get_removeNode]; simp
    · rw [if_neg h2, if_neg h2]
      cases hr : retrieveNode C acc.2 (e.1.drop activePrefix.length) with
      | none =>
        refine ⟨by simp, fun k => ?_⟩
        rw [get_removeNode]; simp
      | some n => simp

theorem read_loop (now expiration : Int) (es : List (Bytes × Bytes)) : ∀ acc : List N × Store, (∀ e ∈ es, e.1 = activePrefix ++ e.1.drop activePrefix.length) →
    es.Pairwise (fun a b => a.1 ≠ b.1) →
    (es.foldl (readStep C now expiration) acc).1 = acc.1 ++ es.filterMap (pick C now expiration acc.2) ∧
    ∀ k, get (es.foldl (readStep C now expiration) acc).2 k = if ∃ e ∈ es, pick C now expiration acc.2 e = none ∧ k ∈ kills e then none else get acc.2 k := by
  induction es with
  | nil => intro acc _ _; exact ⟨by simp, fun k => by simp⟩
  | cons e es ih =>
    intro acc hf hp
    have hc := List.pairwise_cons.1 hp
    obtain ⟨s1, s2⟩ := read_step (C := C) now expiration acc e
    obtain ⟨i1, i2⟩ := ih (readStep C now expiration acc e) (fun x hx => hf x (List.mem_cons_of_mem _ hx)) hc.2
    have hsame : ∀ e' ∈ es, pick C now expiration (readStep C now expiration acc e).2 e' = pick C now expiration acc.2 e' := by
      intro e' he'
      unfold pick retrieveNode
      rw [s2]
      have : ¬ (pick C now expiration acc.2 e = none ∧ dataPrefix ++ e'.1.drop activePrefix.length ∈ kills e) := by
        rintro ⟨_, hk⟩
        unfold kills at hk
        by_cases h1 : (e.1.drop activePrefix.length).length ≠ 32
        · rw [if_pos h1, List.mem_singleton] at hk
          rw [hf e List.mem_cons_self] at hk
          exact data_active _ _ hk
        · rw [if_neg h1] at hk
          have := data_mem.1 hk
          apply hc.1 e' he'
          rw [hf e List.mem_cons_self, hf e' (List.mem_cons_of_mem _ he'), this]
      rw [if_neg this]
    refine ⟨?_, fun k => ?_⟩
    · rw [List.foldl_cons, i1, s1, List.append_assoc, List.filterMap_cons]
      rw [List.filterMap_congr hsame]
      cases pick C now expiration acc.2 e <;> rfl
    · rw [List.foldl_cons, i2, s2]
      have hex : (∃ x ∈ es, pick C now expiration (readStep C now expiration acc e).2 x = none ∧ k ∈ kills x) ↔ ∃ x ∈ es, pick C now expiration acc.2 x = none ∧ k ∈ kills x := by
        constructor
        · rintro ⟨x, hx, h1, h2⟩; exact ⟨x, hx, by rw [← hsame x hx]; exact h1, h2⟩
        · rintro ⟨x, hx, h1, h2⟩; exact ⟨x, hx, by rw [hsame x hx]; exact h1, h2⟩
      simp only [hex, List.mem_cons, exists_eq_or_imp]
      by_cases q1 : ∃ x ∈ es, pick C now expiration acc.2 x = none ∧ k ∈ kills x
      · rw [if_pos q1, if_pos (Or.inr q1)]
      · rw [if_neg q1]
        by_cases q2 : pick C now expiration acc.2 e = none ∧ k ∈ kills e
        · rw [if_pos q2, if_pos (Or.inl q2)]
        · rw [if_neg q2, if_neg (by rintro (x | x); exacts [q2 x, q1 x])]

/-- **The nodes that are read** are those that were active not too long ago and are stored. -/
theorem readNodes_exact {s : Store} (hs : Uniq s) (now expiration : Int) (n : N) :
    n ∈ (readNodes C s now expiration).1 ↔ ∃ id t, id.length = 32 ∧ lastSeen s id = some t ∧ now - t ≤ expiration ∧ retrieveNode C s id = some n := by
  have hl := (read_loop (C := C) now expiration (entries s activePrefix) ([], s) (fun e he => (entry_form he).2) (hs.sublist List.filter_sublist)).1
  show n ∈ ((entries s activePrefix).foldl (readStep C now expiration) ([], s)).1 ↔ _
  rw [hl, List.nil_append, List.mem_filterMap]
  constructor
  · rintro ⟨e, he, hp⟩
    obtain ⟨hm, hf⟩ := entry_form he
    unfold pick at hp
    by_cases h1 : (e.1.drop activePrefix.length).length ≠ 32
    · rw [if_pos h1] at hp; cases hp
    · rw [if_neg h1] at hp
      by_cases h2 : now - decodeVarint e.2 > expiration
      · rw [if_pos h2] at hp; cases hp
      · rw [if_neg h2] at hp
        refine ⟨_, decodeVarint e.2, not_not.1 h1, ?_, by omega, hp⟩
        unfold lastSeen
        rw [← hf, (mem_get hs e.1 e.2).1 hm]; rfl
  · rintro ⟨id, t, hid, ht, hle, hr⟩
    obtain ⟨v, hv, hvt⟩ := Option.map_eq_some_iff.1 ht
    refine ⟨(activePrefix ++ id, v), (entry_mem hs activePrefix id v).2 hv, ?_⟩
    unfold pick
    have hd : (activePrefix ++ id).drop activePrefix.length = id := List.drop_left
    dsimp only
    rw [hd, if_neg (by simpa using hid), if_neg (by rw [hvt]; omega)]
    exact hr

/-- **Reading forgets** a node that was active too long ago or cannot be read, with all its entries, and keeps
all that is stored of the others. -/
theorem readNodes_store {s : Store} (hs : Uniq s) (now expiration : Int) {id : Bytes} (hid : id.length = 32) {k : Bytes} (hk : k ∈ keysOf id) :
    get (readNodes C s now expiration).2 k =
      if ∃ t, lastSeen s id = some t ∧ (now - t > expiration ∨ retrieveNode C s id = none) then none else get s k := by
  have hl := (read_loop (C := C) now expiration (entries s activePrefix) ([], s) (fun e he => (entry_form he).2) (hs.sublist List.filter_sublist)).2 k
  show get ((entries s activePrefix).foldl (readStep C now expiration) ([], s)).2 k = _
  rw [hl]
  have hkeys : ∀ id', k ∈ keysOf id' → id' = id := by
    intro id' hk'
    simp only [keysOf, List.mem_cons, List.not_mem_nil, or_false] at hk hk'
    rcases hk with h | h | h | h <;> rw [h] at hk' <;>
      simp [data_active, data_check, data_mark, active_check, active_mark, check_mark, (data_active _ _).symm, (data_check _ _).symm, (data_mark _ _).symm,
        (active_check _ _).symm, (active_mark _ _).symm, (check_mark _ _).symm] at hk' <;> exact hk'.symm
  have hiff : (∃ e ∈ entries s activePrefix, pick C now expiration (([], s) : List N × Store).2 e = none ∧ k ∈ kills e) ↔
      ∃ t, lastSeen s id = some t ∧ (now - t > expiration ∨ retrieveNode C s id = none) := by
    constructor
    · rintro ⟨e, he, hp, hke⟩
      obtain ⟨hm, hf⟩ := entry_form he
      have hlen : ¬ (e.1.drop activePrefix.length).length ≠ 32 := by
        intro h1
        unfold kills at hke
        rw [if_pos h1, List.mem_singleton] at hke
        have : k = activePrefix ++ e.1.drop activePrefix.length := hke.trans hf
        have hin : k ∈ keysOf (e.1.drop activePrefix.length) := by rw [this]; simp [keysOf]
        rw [hkeys _ hin] at h1
        exact h1 hid
      unfold kills at hke
      rw [if_neg hlen] at hke
      have hide := hkeys _ hke
      unfold pick at hp
      rw [if_neg hlen] at hp
      refine ⟨decodeVarint e.2, ?_, ?_⟩
      · unfold lastSeen
        rw [← hide, ← hf, (mem_get hs e.1 e.2).1 hm]; rfl
      · by_cases h2 : now - decodeVarint e.2 > expiration
        · exact Or.inl h2
        · rw [if_neg h2, hide] at hp
          exact Or.inr hp
    · rintro ⟨t, ht, hor⟩
      obtain ⟨v, hv, hvt⟩ := Option.map_eq_some_iff.1 ht
      refine ⟨(activePrefix ++ id, v), (entry_mem hs activePrefix id v).2 hv, ?_⟩
      have hd : (activePrefix ++ id).drop activePrefix.length = id := List.drop_left
      unfold pick kills
      dsimp only
      refine ⟨?_, ?_⟩
      · rw [hd, if_neg (by simpa using hid)]
        rcases hor with h | h
        · rw [if_pos (by rw [hvt]; exact h)]
        · rw [h]; simp
      · rw [hd, if_neg (by simpa using hid)]; exact hk
  by_cases q : ∃ t, lastSeen s id = some t ∧ (now - t > expiration ∨ retrieveNode C s id = none)
  · rw [if_pos q, if_pos (hiff.2 q)]
  · rw [if_neg q, if_neg (fun x => q (hiff.1 x))]

end Verif.Ndb
