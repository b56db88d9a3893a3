import Verif.Iter.MergeProps
import Verif.State.KeyProps

/-! # Lemmas about key ranges, padded keys and the unsaved part -/

namespace Verif.Iter

open Verif.Bytes Verif.Consensus Verif.State

/-! ## Key ranges -/

theorem successor_cons (c : UInt8) (p : Bytes) :
    successor (c :: p) = match successor p with
      | some s => some (c :: s)
      | none => if c = 255 then none else some [c + 1] := by
  unfold successor
  rw [List.reverse_cons, List.dropWhile_append]
  cases h : p.reverse.dropWhile (fun b => b == 255) with
  | nil =>
    simp only [List.isEmpty_nil, if_true]
    by_cases hc : c = 255
    · subst hc; simp
    · simp [List.dropWhile_cons, hc]
  | cons b r =>
    simp

theorem lt_cons {x y : UInt8} {a b : Bytes} : lt (x :: a) (y :: b) = if x < y then true else if y < x then false else lt a b := by
  simp only [lt, bcmp, UInt8.lt_iff_toNat_lt]
  split
  · rfl
  · split <;> rfl

/-- **The range of a prefix holds exactly the keys that begin with it.** -/
theorem inRange_iff (p k : Bytes) : inRange p k = true ↔ p <+: k := by
  induction p generalizing k with
  | nil => simp [inRange, successor, lt]; cases k <;> simp [bcmp]
  | cons c p ih =>
    cases k with
    | nil => simp [inRange, lt, bcmp]
    | cons x k =>
      rw [List.cons_prefix_cons, ← ih]
      unfold inRange
      rw [successor_cons, lt_cons]
      by_cases h1 : x < c
      · have : c ≠ x := by rintro rfl; exact absurd h1 (UInt8.lt_irrefl _)
        simp [h1, this]
      · by_cases h2 : c < x
        · have hcx : c ≠ x := by rintro rfl; exact absurd h2 (UInt8.lt_irrefl _)
          rw [if_neg h1, if_pos h2]
          simp only [Bool.not_false, Bool.true_and, hcx, false_and, iff_false, Bool.not_eq_true]
          cases hs : successor p with
          | some s => simp [lt_cons, h1, h2]
          | none =>
            simp only
            by_cases hc : c = 255
            · subst hc
              rw [UInt8.lt_iff_toNat_lt] at h2
              have := x.toNat_lt
              have h255 : (255 : UInt8).toNat = 255 := rfl
              omega
            · rw [if_neg hc]
              simp only
              rw [lt_cons]
              have hle : ¬ x < c + 1 := by
                rw [UInt8.lt_iff_toNat_lt] at h2 ⊢
                have h255 : c.toNat ≠ 255 := fun h => hc (UInt8.toNat_inj.mp h)
                have := c.toNat_lt
                rw [UInt8.toNat_add]
                have : (1 : UInt8).toNat = 1 := rfl
                omega
              rw [if_neg hle]
              split
              · rfl
              · simp [lt]; cases k <;> simp [bcmp]
        · have hxc : c = x := by
            rw [UInt8.lt_iff_toNat_lt] at h1 h2
            exact UInt8.toNat_inj.mp (by omega)
          subst hxc
          rw [if_neg h1, if_neg h2]
          simp only [true_and]
          cases hs : successor p with
          | some s => simp [lt_cons]
          | none =>
            simp only
            by_cases hc : c = 255
            · subst hc; simp
            · rw [if_neg hc]
              have : c < c + 1 := by
                rw [UInt8.lt_iff_toNat_lt, UInt8.toNat_add]
                have h255 : c.toNat ≠ 255 := fun h => hc (UInt8.toNat_inj.mp h)
                have := c.toNat_lt
                have : (1 : UInt8).toNat = 1 := rfl
                omega
              simp [lt_cons, this]

/-! ## Padded keys -/

/-- A key padded with zeros to `m` bytes, and a last byte. -/
def padTo (m : Nat) (a : Bytes) (x : UInt8) : Bytes := a ++ List.replicate (m - a.length) 0 ++ [x]

theorem padTo_zero_lt {m : Nat} {b : Bytes} {x y : UInt8} (hb : b.length ≤ m) (hxy : x < y) : bcmp (padTo m [] x) (padTo m b y) = .lt := by
  induction m generalizing b with
  | zero =>
    have : b = [] := List.length_eq_zero_iff.mp (by omega)
    subst this
    rw [UInt8.lt_iff_toNat_lt] at hxy
    simp [padTo, bcmp, hxy]
  | succ m ih =>
    cases b with
    | nil =>
      have := ih (b := []) (by simp)
      simp only [padTo, List.nil_append, List.length_nil, Nat.sub_zero, List.replicate_succ, List.cons_append, bcmp] at this ⊢
      simpa using this
    | cons z b =>
      have := ih (b := b) (by simpa using hb)
      simp only [padTo, List.nil_append, List.length_nil, Nat.sub_zero, List.replicate_succ, List.cons_append, bcmp,
        List.length_cons, Nat.add_sub_add_right] at this ⊢
      split
      · rfl
      · split
        · rename_i h1 h2
          have : (0 : UInt8).toNat = 0 := rfl
          omega
        · exact this

theorem padTo_cmp {m c : Nat} {a b : Bytes} (ha : a.length ≤ m) (hb : b.length ≤ m) (hc : c + m ≤ 255) :
    bcmp (padTo m a (UInt8.ofNat (c + a.length))) (padTo m b (UInt8.ofNat (c + b.length))) = bcmp a b := by
  have hlt : ∀ i j : Nat, i < j → j ≤ 255 → UInt8.ofNat i < UInt8.ofNat j := by
    intro i j h1 h2
    rw [UInt8.lt_iff_toNat_lt, UInt8.toNat_ofNat', UInt8.toNat_ofNat', Nat.mod_eq_of_lt (by omega), Nat.mod_eq_of_lt (by omega)]
    exact h1
  induction a generalizing b m c with
  | nil =>
    cases b with
    | nil => exact bcmp_self _
    | cons y b =>
      rw [padTo_zero_lt hb (hlt _ _ (by simp) (by simp only [List.length_cons] at *; omega))]
      rfl
  | cons x a ih =>
    cases b with
    | nil =>
      rw [bcmp_swap, padTo_zero_lt ha (hlt _ _ (by simp) (by simp only [List.length_cons] at *; omega))]
      rfl
    | cons y b =>
      cases m with
      | zero => simp at ha
      | succ m =>
        have := ih (m := m) (c := c + 1) (b := b) (by simpa using ha) (by simpa using hb) (by omega)
        simp only [padTo, List.length_cons, List.cons_append, Nat.add_sub_add_right, bcmp] at this ⊢
        rw [show c + (a.length + 1) = c + 1 + a.length by omega, show c + (b.length + 1) = c + 1 + b.length by omega, this]

/-- **Padding keeps the order of the keys.** -/
theorem keyBytes_lt {a b : Bytes} (ha : a.length ≤ 32) (hb : b.length ≤ 32) : lt (keyBytes a) (keyBytes b) = lt a b := by
  have := padTo_cmp (c := 0) ha hb (by omega)
  simp only [Nat.zero_add, padTo] at this
  simp only [lt, keyBytes, this]

theorem lt_append_left (p a b : Bytes) : lt (p ++ a) (p ++ b) = lt a b := by
  induction p with
  | nil => rfl
  | cons x p ih => simp [lt_cons, ih]

theorem rawKey_lt {addr a b : Bytes} (ha : a.length ≤ 32) (hb : b.length ≤ 32) : lt (rawKey addr a) (rawKey addr b) = lt a b := by
  rw [rawKey, rawKey, lt_append_left, keyBytes_lt ha hb]

theorem keyBytes_get {k : Bytes} (hk : k.length ≤ 32) : (keyBytes k)[32]? = some (UInt8.ofNat k.length) := by
  unfold keyBytes
  rw [List.getElem?_append_right (by simp; omega)]
  simp only [List.length_append, List.length_replicate]
  rw [show 32 - (k.length + (32 - k.length)) = 0 by omega]
  rfl

theorem keyBytes_take {k : Bytes} : (keyBytes k).take k.length = k := by
  unfold keyBytes
  rw [List.append_assoc, List.take_left']
  rfl

theorem decode_aux {t : UInt8} {addr k r : Bytes} (ha : addr.length = 21) (hk : k.length ≤ 32) : decodeKey (t :: addr ++ keyBytes k ++ r) = k := by
  have hl : (t :: addr).length = 22 := by simp [ha]
  have hdrop : (t :: addr ++ keyBytes k ++ r).drop 22 = keyBytes k ++ r := by
    rw [List.append_assoc, List.drop_left' hl]
  have hget : (t :: addr ++ keyBytes k ++ r)[54]? = some (UInt8.ofNat k.length) := by
    rw [List.append_assoc, List.getElem?_append_right (by rw [hl]; omega), hl,
      List.getElem?_append_left (by rw [keyBytes_length hk]; omega)]
    exact keyBytes_get hk
  unfold decodeKey
  rw [hdrop, hget, Option.getD_some, UInt8.toNat_ofNat', Nat.mod_eq_of_lt (by omega), List.take_append_of_le_length (by rw [keyBytes_length hk]; omega)]
  exact keyBytes_take

/-- **The key read off a raw key is the key.** -/
theorem decode_rawKey {addr k : Bytes} (ha : addr.length = 21) (hk : k.length ≤ 32) : decodeKey (rawKey addr k) = k := by
  have := decode_aux (t := 1) (r := []) ha hk
  rwa [List.append_nil] at this

/-- A prefix that does not end in a zero and is no longer than a key. -/
def PlainPrefix (p : Bytes) : Prop := p.length ≤ 32 ∧ p.getLast? ≠ some 0

theorem prefix_keyBytes {p k : Bytes} (hp : PlainPrefix p) (hk : k.length ≤ 32) : p <+: keyBytes k ↔ p <+: k := by
  constructor
  · intro h
    have hkk : k <+: keyBytes k := by unfold keyBytes; rw [List.append_assoc]; exact List.prefix_append _ _
    rcases Nat.lt_or_ge k.length p.length with hlt | hge
    · exfalso
      apply hp.2
      have hlen := hp.1
      rw [List.getLast?_eq_getElem?]
      have := List.prefix_iff_getElem?.mp h (p.length - 1) (by omega)
      rw [List.getElem?_eq_getElem (by omega)]
      rw [← this]
      unfold keyBytes
      rw [List.getElem?_append_left (by simp; omega), List.getElem?_append_right (by omega), List.getElem?_replicate,
        if_pos (by omega)]
    · exact List.prefix_of_prefix_length_le h hkk hge
  · intro h
    unfold keyBytes
    rw [List.append_assoc]
    exact h.trans (List.prefix_append _ _)

/-! ## Stores -/

/-- What the database holds: keys in order, and every key of the storage table made from an address and a key, with a value. -/
structure StoreWf (db : Store) : Prop where
  sorted : db.Pairwise (fun a b => lt a.1 b.1 = true)
  shape : ∀ e ∈ db, e.1.head? = some 1 → ∃ addr k, addr.length = 21 ∧ k.length ≤ 32 ∧ e.1 = rawKey addr k ∧ e.2 ≠ []

theorem newRaw_items {db : Store} (hdb : StoreWf db) {addr p : Bytes} (ha : addr.length = 21) {e : Entry}
    (he : e ∈ (newRaw db addr p).items) : ∃ k, k.length ≤ 32 ∧ e.1 = rawKey addr k ∧ e.2 ≠ [] ∧ p <+: keyBytes k ∧ e ∈ db := by
  simp only [newRaw, Cursor.new, List.mem_filter] at he
  obtain ⟨h1, h2⟩ := he
  rw [inRange_iff] at h2
  obtain ⟨r, hr⟩ := h2
  have hh : e.1.head? = some 1 := by rw [← hr]; rfl
  obtain ⟨a', k, ha', hk, hek, hv⟩ := hdb.shape e h1 hh
  rw [hek] at hr
  simp only [rawPrefix, rawKey, List.cons_append, List.cons.injEq, true_and, List.append_assoc] at hr
  obtain ⟨e1, e2⟩ := List.append_inj hr (by rw [ha, ha'])
  subst e1
  exact ⟨k, hk, hek, hv, ⟨r, e2⟩, h1⟩

theorem decoded_source {db : Store} (hdb : StoreWf db) {addr p : Bytes} (ha : addr.length = 21)
    (hne : ∀ v, (rawKey addr [], v) ∉ (newRaw db addr p).items) : Source (decoded (newRaw db addr p)).items := by
  constructor
  · simp only [decoded, List.pairwise_map]
    have hs : (newRaw db addr p).items.Pairwise (fun a b => lt a.1 b.1 = true) := by
      simp only [newRaw, Cursor.new]; exact hdb.sorted.filter _
    refine List.Pairwise.imp_of_mem ?_ hs
    intro a b hma hmb hab
    obtain ⟨ka, h1, h2, _⟩ := newRaw_items hdb ha hma
    obtain ⟨kb, h3, h4, _⟩ := newRaw_items hdb ha hmb
    rw [h2, h4, rawKey_lt h1 h3] at hab
    rw [h2, h4, decode_rawKey ha h1, decode_rawKey ha h3]
    exact hab
  · intro e he
    simp only [decoded, List.mem_map] at he
    obtain ⟨r, hr, rfl⟩ := he
    obtain ⟨k, h1, h2, _⟩ := newRaw_items hdb ha hr
    simp only
    rw [h2, decode_rawKey ha h1]
    rintro rfl
    exact hne r.2 (by rw [← h2]; exact hr)

theorem storeValue_of_mem {db : Store} (hdb : StoreWf db) {addr k v : Bytes} (h : (rawKey addr k, v) ∈ db) : storeValue db addr k = v := by
  have := lookup_of_mem hdb.sorted h
  simp only [lookup] at this
  simp only [storeValue, this, Option.getD_some]

theorem mem_of_storeValue {db : Store} {addr k v : Bytes} (h : storeValue db addr k = v) (hv : v ≠ []) : (rawKey addr k, v) ∈ db := by
  unfold storeValue at h
  cases hf : lookup db (rawKey addr k) with
  | none =>
    simp only [lookup] at hf
    rw [hf] at h
    exact absurd h.symm hv
  | some w =>
    have := lookup_mem hf
    simp only [lookup] at hf
    rw [hf] at h
    simp only [Option.getD_some] at h
    subst h
    exact this

theorem decoded_lookup {db : Store} (hdb : StoreWf db) {addr p k v : Bytes} (ha : addr.length = 21) (hp : PlainPrefix p) :
    (k, v) ∈ (decoded (newRaw db addr p)).items ↔ storeValue db addr k = v ∧ v ≠ [] ∧ p <+: k := by
  simp only [decoded, List.mem_map]
  constructor
  · rintro ⟨r, hr, he⟩
    obtain ⟨k', h1, h2, h3, h4, h5⟩ := newRaw_items hdb ha hr
    rw [h2, decode_rawKey ha h1] at he
    obtain ⟨rfl, rfl⟩ := Prod.mk.inj he
    refine ⟨storeValue_of_mem hdb (by rw [← h2]; exact h5), h3, (prefix_keyBytes hp h1).mp h4⟩
  · rintro ⟨h1, h2, h3⟩
    have hm := mem_of_storeValue h1 h2
    have hk : k.length ≤ 32 := by
      obtain ⟨a', k', ha', hk', hek, _⟩ := hdb.shape _ hm rfl
      have := congrArg List.length hek
      simp only [rawKey, List.length_append, List.length_cons, keyBytes_length hk', ha, ha'] at this
      simp only [keyBytes, List.length_append, List.length_replicate, List.length_cons, List.length_nil] at this
      omega
    refine ⟨(rawKey addr k, v), ?_, ?_⟩
    · simp only [newRaw, Cursor.new, List.mem_filter]
      refine ⟨hm, ?_⟩
      rw [inRange_iff, rawPrefix, rawKey]
      exact (List.prefix_append_right_inj _).mpr ((prefix_keyBytes hp hk).mpr h3)
    · rw [decode_rawKey ha hk]

/-! ## The unsaved part -/

theorem mem_put {k v : Bytes} {l : List Entry} {e : Entry} (h : e ∈ put k v l) : e = (k, v) ∨ e ∈ l := by
  induction l with
  | nil => simp only [put, List.mem_singleton] at h; exact .inl h
  | cons a l ih =>
    unfold put at h
    split at h
    · rcases List.mem_cons.mp h with h | h
      · exact .inl h
      · exact .inr h
    · split at h
      · rcases List.mem_cons.mp h with h | h
        · exact .inl h
        · exact .inr (List.mem_cons_of_mem _ h)
      · rcases List.mem_cons.mp h with h | h
        · exact .inr (by rw [h]; exact List.mem_cons_self)
        · rcases ih h with h | h
          · exact .inl h
          · exact .inr (List.mem_cons_of_mem _ h)

theorem put_sorted {k v : Bytes} {l : List Entry} (h : l.Pairwise (fun a b => lt a.1 b.1 = true)) :
    (put k v l).Pairwise (fun a b => lt a.1 b.1 = true) := by
  induction l with
  | nil => simp [put]
  | cons a l ih =>
    obtain ⟨h1, h2⟩ := List.pairwise_cons.mp h
    unfold put
    split
    · rename_i hk
      refine List.pairwise_cons.mpr ⟨?_, h⟩
      intro b hb
      rcases List.mem_cons.mp hb with rfl | hb
      · exact hk
      · exact lt_trans hk (h1 b hb)
    · rename_i hk
      split
      · rename_i hak
        refine List.pairwise_cons.mpr ⟨?_, h2⟩
        intro b hb
        simp only
        rw [← hak]
        exact h1 b hb
      · rename_i hak
        refine List.pairwise_cons.mpr ⟨?_, ih h2⟩
        intro b hb
        rcases mem_put hb with rfl | hb
        · rcases lt_total a.1 k with h | h | h
          · exact h
          · exact absurd h hak
          · exact absurd h hk
        · exact h1 b hb

theorem lookup_put {k v k' : Bytes} {l : List Entry} (h : l.Pairwise (fun a b => lt a.1 b.1 = true)) :
    lookup (put k v l) k' = if k' = k then some v else lookup l k' := by
  induction l with
  | nil =>
    by_cases hk : k' = k
    · subst hk; simp [put, lookup]
    · simp [put, lookup, hk, Ne.symm hk]
  | cons a l ih =>
    obtain ⟨h1, h2⟩ := List.pairwise_cons.mp h
    unfold put
    split
    · by_cases hk : k' = k
      · subst hk; simp [lookup]
      · simp [lookup, List.find?_cons, hk, Ne.symm hk]
    · split
      · rename_i hak
        by_cases hk : k' = k
        · subst hk; simp [lookup]
        · simp [lookup, hk, Ne.symm hk, hak]
      · rename_i hak
        have := ih h2
        simp only [lookup, List.find?_cons] at this ⊢
        by_cases hk : k' = k
        · subst hk
          simp only [hak, decide_false, if_true] at this ⊢
          exact this
        · by_cases hak' : a.1 = k'
          · simp [hak', hk]
          · simp only [hak', decide_false]
            exact this

/-- What holds for the unsaved part after any writes. -/
structure UInv (u : Unsaved) : Prop where
  sorted : u.storage.Pairwise (fun a b => lt a.1 b.1 = true)
  deleted : ∀ k, u.isDelete k = true ↔ lookup u.storage k = some []
  short : ∀ e ∈ u.storage, e.1.length ≤ 32

theorem UInv.new : UInv Unsaved.new := ⟨List.Pairwise.nil, by simp [Unsaved.isDelete, Unsaved.new, lookup], by simp [Unsaved.new]⟩

theorem UInv.set {u u' : Unsaved} {k v : Bytes} (h : UInv u) (hs : setValue k v u = some u') : UInv u' := by
  unfold setValue at hs
  split at hs
  · cases hs
  · rename_i hk
    have hs := (Option.some.inj hs).symm
    subst hs
    refine ⟨put_sorted h.sorted, ?_, ?_⟩
    · intro k'
      have hd := h.deleted k'
      simp only [Unsaved.isDelete, Unsaved.setValue, List.contains_eq_mem, decide_eq_true_eq] at hd ⊢
      rw [lookup_put h.sorted]
      by_cases hv : v = []
      · subst hv
        simp only [if_true, List.mem_cons]
        by_cases hkk : k' = k
        · simp [hkk]
        · simp [hkk, hd]
      · simp only [if_neg hv, List.mem_filter, decide_eq_true_eq]
        by_cases hkk : k' = k
        · simp [hkk, hv]
        · simp [hkk, hd]
    · intro e he
      rcases mem_put he with rfl | he
      · simpa using hk
      · exact h.short e he

theorem lookup_filter {P : Bytes → Bool} {l : List Entry} {k : Bytes} :
    lookup (l.filter (fun e => P e.1)) k = if P k then lookup l k else none := by
  induction l with
  | nil => simp [lookup]
  | cons a l ih =>
    rw [List.filter_cons]
    by_cases ha : a.1 = k
    · subst ha
      cases hP : P a.1 with
      | true => simp [lookup]
      | false =>
        rw [hP] at ih
        simpa using ih
    · cases hP : P a.1 with
      | true =>
        simp only [if_true]
        simp only [lookup, List.find?_cons, ha, decide_false] at ih ⊢
        exact ih
      | false =>
        simp only [Bool.false_eq_true, if_false]
        rw [ih]
        simp [lookup, ha]

end Verif.Iter
