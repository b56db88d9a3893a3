import Verif.Iter.StorageLemmas

/-! # Iterating over a contract's storage while a block is executed -/

namespace Verif.Iter

open Verif.Bytes Verif.State

/-- A sequence of writes of a block; a write that is refused changes nothing. -/
def writes (u : Unsaved) (ws : List Entry) : Unsaved := ws.foldl (fun u w => (setValue w.1 w.2 u).getD u) u

theorem UInv.writes {u : Unsaved} (h : UInv u) (ws : List Entry) : UInv (writes u ws) := by
  induction ws generalizing u with
  | nil => exact h
  | cons w ws ih =>
    simp only [Iter.writes, List.foldl_cons]
    refine ih ?_
    cases hs : setValue w.1 w.2 u with
    | none => exact h
    | some u' => exact h.set hs

theorem getValue_eq (db : Store) (addr : Bytes) {u : Unsaved} (h : UInv u) (k : Bytes) :
    getValue db addr u k = (lookup u.storage k).getD (storeValue db addr k) := by
  have hd := h.deleted k
  unfold getValue Unsaved.getValue
  simp only [lookup, Unsaved.isDelete] at hd ⊢
  cases hf : u.storage.find? (fun e => decide (e.1 = k)) with
  | some e => rfl
  | none =>
    rw [hf] at hd
    simp only [Option.map_none] at hd ⊢
    rw [if_neg (by rw [hd]; simp)]
    rfl

/-- **After any writes, `GetValue` returns the value written last**, or the chain's if the key was not written. A write with a key of more
than 32 bytes is refused. -/
theorem getValue_writes (db : Store) (addr : Bytes) (ws : List Entry) (k : Bytes) :
    getValue db addr (writes .new ws) k =
      ((ws.reverse.find? (fun w => decide (w.1 = k ∧ w.1.length ≤ 32))).map (·.2)).getD (storeValue db addr k) := by
  have key : ∀ (ws : List Entry) (u : Unsaved), UInv u → lookup (writes u ws).storage k =
      match ws.reverse.find? (fun w => decide (w.1 = k ∧ w.1.length ≤ 32)) with
      | some w => some w.2
      | none => lookup u.storage k := by
    intro ws
    induction ws with
    | nil => intro u _; rfl
    | cons w ws ih =>
      intro u hu
      have hu' : UInv ((setValue w.1 w.2 u).getD u) := by
        cases hs : setValue w.1 w.2 u with
        | none => exact hu
        | some u' => exact hu.set hs
      have h1 : writes u (w :: ws) = writes ((setValue w.1 w.2 u).getD u) ws := rfl
      rw [h1, ih _ hu', List.reverse_cons, List.find?_append]
      cases hf : ws.reverse.find? (fun w => decide (w.1 = k ∧ w.1.length ≤ 32)) with
      | some w' => rfl
      | none =>
        simp only [Option.none_or, List.find?_cons, List.find?_nil]
        by_cases hl : 32 < w.1.length
        · have : ¬ (w.1 = k ∧ w.1.length ≤ 32) := by omega
          simp [setValue, hl, this]
        · rw [setValue, if_neg hl]
          simp only [Option.getD_some, Unsaved.setValue]
          rw [lookup_put hu.sorted]
          by_cases hk : w.1 = k
          · subst hk
            have : w.1 = w.1 ∧ w.1.length ≤ 32 := ⟨rfl, by omega⟩
            simp [this]
          · have : ¬ (w.1 = k ∧ w.1.length ≤ 32) := fun h => hk h.1
            simp [this, Ne.symm hk]
  rw [getValue_eq db addr (UInv.new.writes ws), key ws .new UInv.new]
  cases ws.reverse.find? (fun w => decide (w.1 = k ∧ w.1.length ≤ 32)) with
  | some w => rfl
  | none => rfl

/-- The sources of the iterator a block gets. -/
def sources (db : Store) (addr : Bytes) (u : Unsaved) (p : Bytes) : List (List Entry) :=
  [(u.newIterator p).items, (decoded (newRaw db addr p)).items]

theorem newIterator_eq (db : Store) (addr : Bytes) (u : Unsaved) (p : Bytes) :
    newIterator db addr u p = Merged.new ((sources db addr u p).map Cursor.new) := rfl

/-- No slot with an empty key is in the range of the iterator. -/
def NoEmptyKey (db : Store) (addr : Bytes) (u : Unsaved) (p : Bytes) : Prop :=
  p ≠ [] ∨ ((∀ e ∈ u.storage, e.1 ≠ []) ∧ ∀ v, (rawKey addr [], v) ∉ db)

theorem sources_ok {db : Store} (hdb : StoreWf db) {addr p : Bytes} (ha : addr.length = 21) {u : Unsaved} (hu : UInv u)
    (hp : PlainPrefix p) (hne : NoEmptyKey db addr u p) : ∀ l ∈ sources db addr u p, Source l := by
  have hpre : p ≠ [] → ¬ p <+: [] := by intro h1 h2; exact h1 (List.prefix_nil.mp h2)
  intro l hl
  simp only [sources, List.mem_cons, List.not_mem_nil, or_false] at hl
  rcases hl with rfl | rfl
  · constructor
    · simp only [Unsaved.newIterator, Cursor.new]; exact hu.sorted.filter _
    · intro e he
      simp only [Unsaved.newIterator, Cursor.new, List.mem_filter, inRange_iff] at he
      rcases hne with h | ⟨h, _⟩
      · intro hk; rw [hk] at he; exact hpre h he.2
      · exact h e he.1
  · refine decoded_source hdb ha ?_
    intro v hv
    rcases hne with h | ⟨_, h⟩
    · obtain ⟨k, hk, hek, _, hpk, _⟩ := newRaw_items hdb ha hv
      have : k = [] := by
        have h1 := decode_rawKey ha hk
        rw [← hek, decode_rawKey ha (by simp)] at h1
        exact h1.symm
      subst this
      exact hpre h ((prefix_keyBytes hp hk).mp hpk)
    · simp only [newRaw, Cursor.new, List.mem_filter] at hv
      exact h v hv.1

/-- What a reading of the iterator sees is what `GetValue` returns. -/
theorem newest_sources {db : Store} (hdb : StoreWf db) {addr p : Bytes} (ha : addr.length = 21) {u : Unsaved} (hu : UInv u)
    (hp : PlainPrefix p) (hne : NoEmptyKey db addr u p) (k v : Bytes) :
    newest (sources db addr u p) u.isDelete k = some v ↔ Listed (getValue db addr u) p k v := by
  have hsrc := sources_ok hdb ha hu hp hne
  have h1 : lookup (u.newIterator p).items k = if inRange p k then lookup u.storage k else none := by
    simp only [Unsaved.newIterator, Cursor.new]
    exact lookup_filter
  have h2 : ∀ w, lookup (decoded (newRaw db addr p)).items k = some w ↔ storeValue db addr k = w ∧ w ≠ [] ∧ p <+: k := by
    intro w
    rw [← decoded_lookup hdb ha hp]
    constructor
    · exact lookup_mem
    · exact lookup_of_mem (hsrc _ (by simp [sources])).sorted
  have hd := hu.deleted k
  have hnew : newest (sources db addr u p) u.isDelete k =
      if u.isDelete k then none else
        match lookup (u.newIterator p).items k with
        | some v => some v
        | none => lookup (decoded (newRaw db addr p)).items k := by
    simp only [newest, sources, List.findSome?_cons, List.findSome?_nil]
    split
    · rfl
    · cases lookup (u.newIterator p).items k with
      | some w => rfl
      | none => simp only; cases lookup (decoded (newRaw db addr p)).items k <;> rfl
  rw [hnew, h1]
  unfold Listed
  rw [getValue_eq db addr hu]
  cases hl : lookup u.storage k with
  | some w =>
    rw [hl] at hd
    by_cases hw : w = []
    · have : u.isDelete k = true := hd.mpr (by rw [hw])
      rw [if_pos this, hw]
      simp only [Option.getD_some, reduceCtorEq, false_iff]
      rintro ⟨h, h', _⟩
      exact h' h.symm
    · have : ¬ u.isDelete k = true := by rw [hd]; simpa using hw
      rw [if_neg this]
      simp only [Option.getD_some]
      cases hr : inRange p k with
      | true =>
        simp only [if_true, Option.some.injEq]
        constructor
        · rintro rfl; exact ⟨rfl, hw, (inRange_iff p k).mp hr⟩
        · exact fun h => h.1
      | false =>
        have hnp : ¬ p <+: k := by rw [← inRange_iff, hr]; simp
        simp only [Bool.false_eq_true, if_false]
        rw [h2]
        simp [hnp]
  | none =>
    rw [hl] at hd
    have : ¬ u.isDelete k = true := by rw [hd]; simp
    rw [if_neg this]
    simp only [ite_self, Option.getD_none]
    exact h2 v

/-- **Iterating over a contract's storage gives what `GetValue` gives.** During the execution of a block, after any writes, an iterator for a
prefix read to its end with `Next` returns every slot whose key begins with the prefix and whose value is not empty, once, in ascending
order of the keys, with the value `GetValue` returns; and nothing else. The prefix must not end in a zero byte, and no slot with an empty
key may be in its range. -/
theorem iterate_exact {db : Store} (hdb : StoreWf db) {addr p : Bytes} (ha : addr.length = 21) (ws : List Entry) (hp : PlainPrefix p)
    (hne : NoEmptyKey db addr (writes .new ws) p) {n : Nat} (hn : total (sources db addr (writes .new ws) p) < n) :
    InOrder true (drain true (writes .new ws).isDelete n (newIterator db addr (writes .new ws) p)) ∧
      ∀ k v, (k, v) ∈ drain true (writes .new ws).isDelete n (newIterator db addr (writes .new ws) p) ↔
        Listed (getValue db addr (writes .new ws)) p k v := by
  have hu := UInv.new.writes ws
  rw [newIterator_eq]
  obtain ⟨h1, h2⟩ := read_forward (del := (writes .new ws).isDelete) (sources_ok hdb ha hu hp hne) hn
  exact ⟨h1, fun k v => by rw [h2, newest_sources hdb ha hu hp hne]⟩

/-- The iterator after any steps in either direction still has the same sources. -/
theorem steps_sources {db : Store} {addr p : Bytes} {u : Unsaved} (ds : List Bool) :
    (ds.foldl (fun m d => (m.step d u.isDelete).1) (newIterator db addr u p)).slots.map (·.cur.items) = sources db addr u p := by
  have key : ∀ (ds : List Bool) (m : Merged), (ds.foldl (fun m d => (m.step d u.isDelete).1) m).slots.map (·.cur.items) =
      m.slots.map (·.cur.items) := by
    intro ds
    induction ds with
    | nil => intro m; rfl
    | cons d ds ih => intro m; rw [List.foldl_cons, ih, step_sources]
  rw [key]
  simp [newIterator, Merged.new, sources]

/-- **`Last` and `Prev` to the end give the same slots in descending order**, whatever steps were taken before. -/
theorem iterate_back {db : Store} (hdb : StoreWf db) {addr p : Bytes} (ha : addr.length = 21) (ws : List Entry) (hp : PlainPrefix p)
    (hne : NoEmptyKey db addr (writes .new ws) p) {n : Nat} (hn : total (sources db addr (writes .new ws) p) ≤ n) (ds : List Bool) :
    let m := ds.foldl (fun m d => (m.step d (writes .new ws).isDelete).1) (newIterator db addr (writes .new ws) p)
    InOrder false (readBack (writes .new ws).isDelete n m) ∧
      ∀ k v, (k, v) ∈ readBack (writes .new ws).isDelete n m ↔ Listed (getValue db addr (writes .new ws)) p k v := by
  have hu := UInv.new.writes ws
  obtain ⟨h1, h2⟩ := read_backward (del := (writes .new ws).isDelete) (sources_ok hdb ha hu hp hne) hn (steps_sources (u := writes .new ws) ds)
  exact ⟨h1, fun k v => by rw [h2, newest_sources hdb ha hu hp hne]⟩

/-- **`Seek(q)` and `Next` to the end give the slots whose key is not below `q`**, whatever steps were taken before. -/
theorem iterate_from {db : Store} (hdb : StoreWf db) {addr p : Bytes} (ha : addr.length = 21) (ws : List Entry) (hp : PlainPrefix p)
    (hne : NoEmptyKey db addr (writes .new ws) p) {n : Nat} (hn : total (sources db addr (writes .new ws) p) ≤ n) (ds : List Bool) (q : Bytes) :
    let m := ds.foldl (fun m d => (m.step d (writes .new ws).isDelete).1) (newIterator db addr (writes .new ws) p)
    InOrder true (readFrom (writes .new ws).isDelete q n m) ∧
      ∀ k v, (k, v) ∈ readFrom (writes .new ws).isDelete q n m ↔ Listed (getValue db addr (writes .new ws)) p k v ∧ lt k q = false := by
  have hu := UInv.new.writes ws
  obtain ⟨h1, h2⟩ := read_from (del := (writes .new ws).isDelete) (sources_ok hdb ha hu hp hne) hn (steps_sources (u := writes .new ws) ds) q
  exact ⟨h1, fun k v => by rw [h2, newest_sources hdb ha hu hp hne]⟩

/-- **`Seek` on the chain's iterator**: the raw iterator, sought with the raw key, stands where an iterator over the decoded keys would stand
if sought with the key itself. -/
theorem seek_decoded {db : Store} (hdb : StoreWf db) {addr p q : Bytes} (ha : addr.length = 21) (hq : q.length ≤ 32) :
    decoded ((newRaw db addr p).seek (rawKey addr q)) = (decoded (newRaw db addr p)).seek q := by
  have hall : ∀ e ∈ (newRaw db addr p).items, lt e.1 (rawKey addr q) = lt (decodeKey e.1) q := by
    intro e he
    obtain ⟨k, h1, h2, _⟩ := newRaw_items hdb ha he
    rw [h2, rawKey_lt h1 hq, decode_rawKey ha h1]
  have htw : ∀ l : List Entry, (∀ e ∈ l, lt e.1 (rawKey addr q) = lt (decodeKey e.1) q) →
      (l.takeWhile (fun e => lt e.1 (rawKey addr q))).length = ((l.map (fun e => (decodeKey e.1, e.2))).takeWhile (fun e => lt e.1 q)).length := by
    intro l
    induction l with
    | nil => intro _; rfl
    | cons a l ih =>
      intro h
      have h1 := h a List.mem_cons_self
      simp only [List.map_cons, List.takeWhile_cons]
      rw [h1]
      split
      · simp only [List.length_cons]; rw [ih (fun e he => h e (List.mem_cons_of_mem _ he))]
      · rfl
  simp only [Cursor.seek, decoded]
  rw [htw _ hall]

end Verif.Iter
