import Verif.Ndb.Props

/-! # What is cleaned, and which marked nodes are read -/

namespace Verif.Ndb
open Verif.Bytes Verif.Store

variable {N : Type} {C : Codec N}

/-! ### Each node once -/

/-- **Each node is read once**, when every node is stored under its own identity. -/
theorem readNodes_once {s : Store} (hs : Uniq s) (now expiration : Int) (hid : ∀ id n, retrieveNode C s id = some n → C.id n = id) :
    ((readNodes C s now expiration).1.map C.id).Nodup := by
  have hl := (read_loop (C := C) now expiration (entries s activePrefix) ([], s) (fun e he => (entry_form he).2) (hs.sublist List.filter_sublist)).1
  show (((entries s activePrefix).foldl (readStep C now expiration) ([], s)).1.map C.id).Nodup
  rw [hl, List.nil_append]
  have hpick : ∀ e n, pick C now expiration s e = some n → C.id n = e.1.drop activePrefix.length := by
    intro e n h
    unfold pick at h
    split at h
    · cases h
    · split at h
      · cases h
      · exact hid _ _ h
  unfold List.Nodup
  rw [List.pairwise_map, List.pairwise_filterMap]
  have hp : (entries s activePrefix).Pairwise (fun a b => a.1 ≠ b.1) := hs.sublist List.filter_sublist
  refine hp.imp_of_mem ?_
  intro a b ha hb hab n hn m hm q
  rw [hpick a n hn, hpick b m hm] at q
  apply hab
  rw [(entry_form ha).2, (entry_form hb).2, q]

/-! ### Cleaning -/

/-- An entry that is cleaned. -/
def dropped (now expiration : Int) (e : Bytes × Bytes) : Prop := (e.1.drop activePrefix.length).length ≠ 32 ∨ now - decodeVarint e.2 > expiration

theorem clean_loop (now expiration : Int) (es : List (Bytes × Bytes)) (k : Bytes) : ∀ s : Store,
    ((∃ e ∈ es, dropped now expiration e ∧ k ∈ kills e) → get (es.foldl (cleanStep now expiration) s) k = none) ∧
    ((¬ ∃ e ∈ es, dropped now expiration e ∧ k ∈ kills e) → get (es.foldl (cleanStep now expiration) s) k = get s k) := by
  induction es with
  | nil => intro s; exact ⟨fun ⟨e, he, _⟩ => (by cases he), fun _ => rfl⟩
  | cons e es ih =>
    intro s
    have hstep : (dropped now expiration e ∧ k ∈ kills e → get (cleanStep now expiration s e) k = none) ∧
        (¬ (dropped now expiration e ∧ k ∈ kills e) → get (cleanStep now expiration s e) k = get s k) := by
      unfold cleanStep kills dropped
      dsimp only
      by_cases h1 : (e.1.drop activePrefix.length).length ≠ 32
      · rw [if_pos h1, if_pos h1, get_del, List.mem_singleton]
        refine ⟨fun h => if_pos h.2.symm, fun h => if_neg (fun q => h ⟨Or.inl h1, q.symm⟩)⟩
      · rw [if_neg h1, if_neg h1]
        by_cases h2 : now - decodeVarint e.2 > expiration
        · rw [if_pos h2, get_removeNode]
          exact ⟨fun h => if_pos h.2, fun h => if_neg (fun q => h ⟨Or.inr h2, q⟩)⟩
        · rw [if_neg h2]
          exact ⟨fun h => absurd h.1 (by rintro (x | x); exacts [h1 x, h2 x]), fun _ => rfl⟩
    rw [List.foldl_cons]
    obtain ⟨i1, i2⟩ := ih (cleanStep now expiration s e)
    by_cases q : ∃ x ∈ es, dropped now expiration x ∧ k ∈ kills x
    · refine ⟨fun _ => i1 q, fun h => absurd ?_ h⟩
      obtain ⟨x, hx, hy⟩ := q
      exact ⟨x, List.mem_cons_of_mem _ hx, hy⟩
    · rw [i2 q]
      refine ⟨?_, fun h => hstep.2 (fun x => h ⟨e, List.mem_cons_self, x⟩)⟩
      rintro ⟨x, hx, hy⟩
      rcases List.mem_cons.1 hx with r | r
      · rw [r] at hy; exact hstep.1 hy
      · exact absurd ⟨x, r, hy⟩ q

theorem keys_one {id id' k : Bytes} (hk : k ∈ keysOf id) (hk' : k ∈ keysOf id') : id' = id := by
  simp only [keysOf, List.mem_cons, List.not_mem_nil, or_false] at hk hk'
  rcases hk with h | h | h | h <;> rw [h] at hk' <;>
    simp [data_active, data_check, data_mark, active_check, active_mark, check_mark, (data_active _ _).symm, (data_check _ _).symm, (data_mark _ _).symm,
      (active_check _ _).symm, (active_mark _ _).symm, (check_mark _ _).symm] at hk' <;> exact hk'.symm

/-- **Cleaning forgets** exactly the nodes that were active too long ago, with all their entries. -/
theorem clean_exact {s : Store} (hs : Uniq s) (now expiration : Int) {id : Bytes} (hid : id.length = 32) {k : Bytes} (hk : k ∈ keysOf id) :
    get (clean s now expiration) k = if ∃ t, lastSeen s id = some t ∧ now - t > expiration then none else get s k := by
  obtain ⟨l1, l2⟩ := clean_loop now expiration (entries s activePrefix) k s
  have hiff : (∃ e ∈ entries s activePrefix, dropped now expiration e ∧ k ∈ kills e) ↔ ∃ t, lastSeen s id = some t ∧ now - t > expiration := by
    constructor
    · rintro ⟨e, he, hdr, hke⟩
      obtain ⟨hm, hf⟩ := entry_form he
      have hin : k ∈ keysOf (e.1.drop activePrefix.length) := by
        unfold kills at hke
        by_cases h1 : (e.1.drop activePrefix.length).length ≠ 32
        · rw [if_pos h1, List.mem_singleton] at hke
          rw [hke.trans hf]; simp [keysOf]
        · rw [if_neg h1] at hke; exact hke
      have hide := keys_one hk hin
      refine ⟨decodeVarint e.2, ?_, ?_⟩
      · unfold lastSeen
        rw [← hide, ← hf, (mem_get hs e.1 e.2).1 hm]; rfl
      · rcases hdr with h | h
        · rw [hide] at h; exact absurd hid h
        · exact h
    · rintro ⟨t, ht, hgt⟩
      obtain ⟨v, hv, hvt⟩ := Option.map_eq_some_iff.1 ht
      refine ⟨(activePrefix ++ id, v), (entry_mem hs activePrefix id v).2 hv, Or.inr (by rw [hvt]; exact hgt), ?_⟩
      have hd : (activePrefix ++ id).drop activePrefix.length = id := List.drop_left
      unfold kills
      dsimp only
      rw [hd, if_neg (by simpa using hid)]; exact hk
  show get ((entries s activePrefix).foldl (cleanStep now expiration) s) k = _
  by_cases q : ∃ t, lastSeen s id = some t ∧ now - t > expiration
  · rw [if_pos q]; exact l1 (hiff.2 q)
  · rw [if_neg q]; exact l2 (fun x => q (hiff.1 x))

/-! ### Marked nodes -/

/-- What an entry of the marks gives. -/
def freshMark (now : Int) (e : Bytes × Bytes) : Option Mark :=
  if (e.1.drop markPrefix.length).length ≠ 32 then none
  else if e.2.length < 16 then none
  else if now - signed (num ((e.2.drop 8).take 8)) > 24 * 3600 * 7 then none
  else some ⟨e.1.drop markPrefix.length, signed (num (e.2.take 8))⟩

theorem retrieve_del_mark (s : Store) (k id : Bytes) : retrieveNode C (del s (markPrefix ++ k)) id = retrieveNode C s id := by
  unfold retrieveNode
  rw [get_del, if_neg (data_mark _ _).symm]

theorem mark_loop (now : Int) (es : List (Bytes × Bytes)) : ∀ acc : List Mark × Store, (∀ e ∈ es, e.1 = markPrefix ++ e.1.drop markPrefix.length) →
    (es.foldl (markStep now) acc).1 = acc.1 ++ es.filterMap (freshMark now) ∧
    ∀ id, retrieveNode C (es.foldl (markStep now) acc).2 id = retrieveNode C acc.2 id := by
  induction es with
  | nil => intro acc _; exact ⟨by simp, fun _ => rfl⟩
  | cons e es ih =>
    intro acc hf
    obtain ⟨i1, i2⟩ := ih (markStep now acc e) (fun x hx => hf x (List.mem_cons_of_mem _ hx))
    have hdel : ∀ id, retrieveNode C (del acc.2 e.1) id = retrieveNode C acc.2 id := by
      intro id
      rw [hf e List.mem_cons_self]; exact retrieve_del_mark _ _ _
    have hstep : (markStep now acc e).1 = acc.1 ++ (freshMark now e).toList ∧ ∀ id, retrieveNode C (markStep now acc e).2 id = retrieveNode C acc.2 id := by
      unfold markStep freshMark
      dsimp only
      by_cases h1 : (e.1.drop markPrefix.length).length ≠ 32
      · rw [if_pos h1, if_pos h1]; exact ⟨by simp, hdel⟩
      · rw [if_neg h1, if_neg h1]
        by_cases h2 : e.2.length < 16
        · rw [if_pos h2, if_pos h2]; exact ⟨by simp, hdel⟩
        · rw [if_neg h2, if_neg h2]
          by_cases h3 : now - signed (num ((e.2.drop 8).take 8)) > 24 * 3600 * 7
          · rw [if_pos h3, if_pos h3]; exact ⟨by simp, hdel⟩
          · rw [if_neg h3, if_neg h3]; exact ⟨by simp, fun _ => rfl⟩
    rw [List.foldl_cons]
    refine ⟨?_, fun id => (i2 id).trans (hstep.2 id)⟩
    rw [i1, hstep.1, List.append_assoc, List.filterMap_cons]
    cases freshMark now e <;> rfl

theorem pick_loop (ms : List Mark) : ∀ acc : List N × Store,
    (ms.foldl (pickStep C) acc).1 = acc.1 ++ ms.filterMap (fun m => retrieveNode C acc.2 m.id) ∧
    ∀ id, retrieveNode C (ms.foldl (pickStep C) acc).2 id = retrieveNode C acc.2 id := by
  induction ms with
  | nil => intro acc; exact ⟨by simp, fun _ => rfl⟩
  | cons m ms ih =>
    intro acc
    obtain ⟨i1, i2⟩ := ih (pickStep C acc m)
    have hstep : (pickStep C acc m).1 = acc.1 ++ (retrieveNode C acc.2 m.id).toList ∧ ∀ id, retrieveNode C (pickStep C acc m).2 id = retrieveNode C acc.2 id := by
      unfold pickStep
      cases hr : retrieveNode C acc.2 m.id with
      | none =>
        refine ⟨by simp, fun id => ?_⟩
        show retrieveNode C (removeNode acc.2 m.id) id = _
        by_cases q : id = m.id
        · rw [q, hr]
          unfold retrieveNode
          rw [get_removeNode, if_pos (data_mem.2 rfl)]; rfl
        · unfold retrieveNode
          rw [get_removeNode, if_neg (fun x => q (data_mem.1 x))]
      | some n => exact ⟨by simp, fun _ => rfl⟩
    rw [List.foldl_cons]
    refine ⟨?_, fun id => (i2 id).trans (hstep.2 id)⟩
    rw [i1, hstep.1, List.append_assoc, List.filterMap_cons]
    have : (fun m' : Mark => retrieveNode C (pickStep C acc m).2 m'.id) = (fun m' : Mark => retrieveNode C acc.2 m'.id) := by
      funext m'; exact hstep.2 _
    rw [this]
    cases retrieveNode C acc.2 m.id <;> rfl

/-- **The marked nodes that are read**: of all nodes with a mark of the last seven days, the `n` with the highest
marks, highest first; those of them that are stored.  No node that is stored is forgotten by it. -/
theorem readMarkNodes_exact {s : Store} (hs : Uniq s) (now : Int) (n : Nat) :
    (∃ top rest : List Mark, ((top ++ rest).map Mark.id).Nodup ∧
      (∀ id w, ⟨id, w⟩ ∈ top ++ rest ↔ id.length = 32 ∧ ∃ t, markOf s id = some (w, t) ∧ now - t ≤ 7 * 24 * 3600) ∧
      top.length = min n (top ++ rest).length ∧ top.Pairwise (fun a b => a.weight ≥ b.weight) ∧ (∀ a ∈ top, ∀ b ∈ rest, a.weight ≥ b.weight) ∧
      (readMarkNodes C s now n).1 = top.filterMap (fun m => retrieveNode C s m.id)) ∧
    ∀ id, retrieveNode C (readMarkNodes C s now n).2 id = retrieveNode C s id := by
  obtain ⟨l1, l2⟩ := mark_loop (C := C) now (entries s markPrefix) ([], s) (fun e he => (entry_form he).2)
  rw [List.nil_append] at l1
  obtain ⟨p1, p2⟩ := pick_loop (C := C)
    ((((entries s markPrefix).foldl (markStep now) ([], s)).1.insertionSort (fun a b => a.weight ≥ b.weight)).take n)
    ([], ((entries s markPrefix).foldl (markStep now) ([], s)).2)
  refine ⟨?_, fun id => (p2 id).trans (l2 id)⟩
  rw [List.nil_append, l1] at p1
  have hfm : ∀ e m, freshMark now e = some m → m.id = e.1.drop markPrefix.length := by
    intro e m h
    unfold freshMark at h
    split at h
    · cases h
    · split at h
      · cases h
      · split at h
        · cases h
        · cases h; rfl
  generalize hL : (entries s markPrefix).filterMap (freshMark now) = L at p1
  have hperm := List.perm_insertionSort (fun a b : Mark => a.weight ≥ b.weight) L
  generalize hS : L.insertionSort (fun a b : Mark => a.weight ≥ b.weight) = S at p1 hperm
  have hsorted : S.Pairwise (fun a b => a.weight ≥ b.weight) := by
    have : Std.Total (fun a b : Mark => a.weight ≥ b.weight) := ⟨fun a b => by omega⟩
    have : IsTrans Mark (fun a b : Mark => a.weight ≥ b.weight) := ⟨fun a b c h1 h2 => by omega⟩
    rw [← hS]; exact List.pairwise_insertionSort _ L
  have happ : S.take n ++ S.drop n = S := List.take_append_drop n S
  have hsp := List.pairwise_append.1 (happ.symm ▸ hsorted)
  refine ⟨S.take n, S.drop n, ?_, ?_, ?_, hsp.1, hsp.2.2, ?_⟩
  · rw [happ]
    refine ((hperm.map Mark.id).nodup_iff).2 ?_
    rw [← hL]
    unfold List.Nodup
    rw [List.pairwise_map, List.pairwise_filterMap]
    have hp : (entries s markPrefix).Pairwise (fun a b => a.1 ≠ b.1) := hs.sublist List.filter_sublist
    refine hp.imp_of_mem ?_
    intro a b ha hb hab x hx y hy q
    rw [hfm a x hx, hfm b y hy] at q
    apply hab
    rw [(entry_form ha).2, (entry_form hb).2, q]
  · intro id w
    rw [happ, hperm.mem_iff, ← hL, List.mem_filterMap]
    constructor
    · rintro ⟨e, he, hp⟩
      obtain ⟨hm, hf⟩ := entry_form he
      have hid := hfm e _ hp
      unfold freshMark at hp
      by_cases h1 : (e.1.drop markPrefix.length).length ≠ 32
      · rw [if_pos h1] at hp; cases hp
      · rw [if_neg h1] at hp
        by_cases h2 : e.2.length < 16
        · rw [if_pos h2] at hp; cases hp
        · rw [if_neg h2] at hp
          by_cases h3 : now - signed (num ((e.2.drop 8).take 8)) > 24 * 3600 * 7
          · rw [if_pos h3] at hp; cases hp
          · rw [if_neg h3] at hp
            have hw : signed (num (e.2.take 8)) = w := by
              have := congrArg (Option.map Mark.weight) hp
              simpa using this
            change id = _ at hid
            refine ⟨by rw [hid]; exact not_not.1 h1, signed (num ((e.2.drop 8).take 8)), ?_, by omega⟩
            unfold markOf
            rw [hid, ← hf, (mem_get hs e.1 e.2).1 hm, Option.bind_some, if_neg h2, hw]
    · rintro ⟨hid, t, ht, hle⟩
      unfold markOf at ht
      obtain ⟨v, hv, hvt⟩ := Option.bind_eq_some_iff.1 ht
      refine ⟨(markPrefix ++ id, v), (entry_mem hs markPrefix id v).2 hv, ?_⟩
      have hd : (markPrefix ++ id).drop markPrefix.length = id := List.drop_left
      by_cases h2 : v.length < 16
      · rw [if_pos h2] at hvt; cases hvt
      · rw [if_neg h2] at hvt
        have hvt' := Option.some.inj hvt
        have e1 := congrArg Prod.fst hvt'
        have e2 := congrArg Prod.snd hvt'
        dsimp only at e1 e2
        unfold freshMark
        dsimp only
        rw [hd, if_neg (by simpa using hid), if_neg h2, if_neg (by rw [e2]; omega), e1]
  · rw [happ, List.length_take]
  · show _ = (S.take n).filterMap _
    have : (fun m : Mark => retrieveNode C s m.id) = (fun m : Mark => retrieveNode C ((entries s markPrefix).foldl (markStep now) ([], s)).2 m.id) := by
      funext m; exact (l2 m.id).symm
    rw [this, ← p1, ← hS, ← hL, ← l1]
    rfl

/-! ### A case -/

/-- Nodes of 33 bytes: the identity and one byte more. -/
def bytesCodec : Codec Bytes where
  ser n := n
  de b := if b.length = 33 then some b else none
  id n := n.take 32

def nodeA : Bytes := List.replicate 32 1 ++ [7]
def nodeB : Bytes := List.replicate 32 2 ++ [8]
def nodeC : Bytes := List.replicate 32 3 ++ [9]

/-- A was active at 1000, B at 100, C at 900 but is not stored. -/
def caseStore : Store :=
  storeMark (storeMark (storeMark (storeActive (storeActive (storeActive (storeNode bytesCodec (storeNode bytesCodec [] nodeA) nodeB)
    (nodeA.take 32) 1000) (nodeB.take 32) 100) (nodeC.take 32) 900) (nodeA.take 32) 5 700000) (nodeB.take 32) 6 700000) (nodeC.take 32) (-3) 1

theorem case_uniq : Uniq caseStore := by
  unfold caseStore storeMark storeActive storeNode
  exact uniq_put (uniq_put (uniq_put (uniq_put (uniq_put (uniq_put (uniq_put (uniq_put List.Pairwise.nil _ _) _ _) _ _) _ _) _ _) _ _) _ _) _ _

example : (readNodes bytesCodec caseStore 1100 200).1 = [nodeA] := by decide +kernel
example : (readNodes bytesCodec caseStore 1100 1000).1 = [nodeB, nodeA] := by decide +kernel
example : retrieveNode bytesCodec (readNodes bytesCodec caseStore 1100 200).2 (nodeB.take 32) = none := by decide +kernel
example : retrieveNode bytesCodec (clean caseStore 1100 200) (nodeA.take 32) = some nodeA ∧ retrieveNode bytesCodec (clean caseStore 1100 200) (nodeB.take 32) = none := by decide +kernel
example : (readMarkNodes bytesCodec caseStore 700100 5).1 = [nodeB, nodeA] := by decide +kernel
example : (readMarkNodes bytesCodec caseStore 700100 1).1 = [nodeB] := by decide +kernel
example : ∀ n ∈ [nodeA, nodeB], bytesCodec.de (bytesCodec.ser n) = some n := by decide +kernel

/-- Fewer than asked for may be read though there are more: a mark counts before it is known whether its node is stored. -/
theorem readMarkNodes_short : (readMarkNodes bytesCodec (storeMark caseStore (nodeC.take 32) 9 700000) 700100 1).1 = [] ∧
    (readMarkNodes bytesCodec (storeMark caseStore (nodeC.take 32) 9 700000) 700100 3).1 = [nodeB, nodeA] := by decide +kernel

end Verif.Ndb
