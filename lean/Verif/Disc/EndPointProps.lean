import Verif.Disc.EndPointModel

/-! # End points and answers to requests for nodes (C111) -/

namespace Verif.Disc

/-- An end point that can be sent: 1 to 63 bytes of host, a port of two bytes,
an address of the length that goes with its type, and not the name
"localhost", which stands for the address 127.0.0.1. -/
structure EndPoint.Valid (e : EndPoint) : Prop where
  len : 1 ≤ e.host.length ∧ e.host.length ≤ 63
  port : e.port < 65536
  v4 : e.typ = .ipv4 → e.host.length ≤ 4
  v6 : e.typ = .ipv6 → 4 < e.host.length ∧ e.host.length ≤ 16
  dom : e.typ = .domain → e.host ≠ loopback

theorem serialize_length (e : EndPoint) (b : List Nat) (h : e.serialize = some b) :
    b.length = e.length := by
  unfold EndPoint.serialize at h
  split_ifs at h <;> simp only [Option.some.injEq] at h <;> subst h <;> simp [EndPoint.length] <;> simp_all <;> omega

/-- **C111 (end points).** What is written of an end point is read back as it
was, and `Length` is the number of bytes. -/
theorem endpoint_round_trip (e : EndPoint) (h : e.Valid) :
    ∃ b, e.serialize = some b ∧ b.length = e.length ∧ deserialize b = some e := by
  have hl := h.len
  obtain ⟨host, port, typ⟩ := e
  have hp := h.port
  have h4 := h.v4
  have h6 := h.v6
  have hd := h.dom
  simp only at hl hp h4 h6 hd
  have hser : ∃ b, (EndPoint.mk host port typ).serialize = some b := by
    unfold EndPoint.serialize
    rw [if_neg (by simp only; omega), if_neg (by simp only; omega)]
    exact ⟨_, rfl⟩
  obtain ⟨b, hb⟩ := hser
  refine ⟨b, hb, serialize_length _ _ hb, ?_⟩
  unfold EndPoint.serialize at hb
  rw [if_neg (by simp only; omega), if_neg (by simp only; omega)] at hb
  simp only [Option.some.injEq] at hb
  subst hb
  generalize hf : (if typ = HostType.domain ∨ host.length > 16 then 2 else 0) = f
  have hf' : (f = 2 ∧ typ = .domain) ∨ (f = 0 ∧ typ ≠ .domain) := by
    subst hf
    split
    · rename_i hh
      left
      refine ⟨rfl, ?_⟩
      rcases hh with hh | hh
      · exact hh
      · cases typ with
        | ipv4 => have := h4 rfl; omega
        | ipv6 => have := h6 rfl; omega
        | domain => rfl
    · rename_i hh
      right
      exact ⟨rfl, fun hx => hh (.inl hx)⟩
  unfold deserialize
  by_cases hport : port = defaultPort
  · subst hport
    simp only [ne_eq, not_true_eq_false, if_false, Nat.add_zero, List.append_nil, List.length_cons,
      List.getD_cons_zero, List.drop_succ_cons, List.drop_zero]
    have e1 : (host.length * 4 + f) / 4 = host.length := by omega
    have e2 : (host.length * 4 + f) % 2 = 0 := by omega
    rw [if_neg (by omega), e1, if_neg (by omega), e2]
    simp only [zero_ne_one, if_false, Nat.add_zero]
    rw [if_neg (by omega), List.take_length]
    rcases hf' with ⟨hf1, ht⟩ | ⟨hf1, ht⟩
    · rw [if_pos (by omega), if_neg (hd ht), ht]
    · rw [if_neg (by omega)]
      cases typ with
      | ipv4 => rw [if_neg (by have := h4 rfl; omega)]
      | ipv6 => rw [if_pos (by have := h6 rfl; omega)]
      | domain => exact absurd rfl ht
  · simp only [ne_eq, hport, not_false_eq_true, if_true, List.cons_append, List.length_cons,
      List.length_append, List.length_nil, List.getD_cons_zero, List.drop_succ_cons, List.drop_zero]
    have e1 : (host.length * 4 + f + 1) / 4 = host.length := by omega
    have e2 : (host.length * 4 + f + 1) % 2 = 1 := by omega
    rw [if_neg (by omega), e1, if_neg (by omega), e2]
    simp only [if_true]
    rw [if_neg (by omega), List.take_left]
    have g1 : List.getD ((host.length * 4 + f + 1) :: (host ++ [port / 256 % 256, port % 256]))
        (host.length + (0 + 1 + 1) + 1 - 1) 0 = port % 256 := by
      rw [show host.length + (0 + 1 + 1) + 1 - 1 = (host.length + 1) + 1 by omega, List.getD_cons_succ,
        List.getD_eq_getElem?_getD, List.getElem?_append_right (by omega)]
      simp
    have g2 : List.getD ((host.length * 4 + f + 1) :: (host ++ [port / 256 % 256, port % 256]))
        (host.length + (0 + 1 + 1) + 1 - 2) 0 = port / 256 % 256 := by
      rw [show host.length + (0 + 1 + 1) + 1 - 2 = host.length + 1 by omega, List.getD_cons_succ,
        List.getD_eq_getElem?_getD, List.getElem?_append_right (by omega)]
      simp
    rw [g1, g2]
    have hpp : port % 256 + port / 256 % 256 * 256 = port := by omega
    rw [hpp]
    rcases hf' with ⟨hf1, ht⟩ | ⟨hf1, ht⟩
    · rw [if_pos (by omega), if_neg (hd ht), ht]
    · rw [if_neg (by omega)]
      cases typ with
      | ipv4 => rw [if_neg (by have := h4 rfl; omega)]
      | ipv6 => rw [if_pos (by have := h6 rfl; omega)]
      | domain => exact absurd rfl ht

/-- Bytes that follow an end point are taken for its port. -/
theorem endpoint_trailing_port :
    deserialize [17, 10, 0, 0, 1, 0, 80] = some ⟨[10, 0, 0, 1], 80, .ipv4⟩
      ∧ deserialize [17, 10, 0, 0, 1, 0, 80, 1, 2] = some ⟨[10, 0, 0, 1], 258, .ipv4⟩ := by
  decide

/-! ## The answer -/

theorem splitLoop_join (es cur : List EndPoint) (bytes : Nat) :
    (splitLoop es cur bytes).flatten = cur ++ es := by
  induction es generalizing cur bytes with
  | nil => simp only [splitLoop]; split <;> simp_all
  | cons e es ih =>
    simp only [splitLoop]
    split
    · simp [ih]
    · simp [ih]

theorem splitEndPoints_join (eps : List EndPoint) : (splitEndPoints eps).flatten = eps := by
  unfold splitEndPoints; simpa using splitLoop_join eps [] 0

/-- **C111 (nothing is left out).** The packets of an answer have all its end
points, in order. -/
theorem answer_join (eps : List EndPoint) : ((sendNodes eps).map Prod.fst).flatten = eps := by
  unfold sendNodes
  rw [List.map_map]
  have : ((splitEndPoints eps).zipIdx.map (Prod.fst ∘ fun p =>
      (p.1, decide (p.2 = (splitEndPoints eps).length - 1)))) = splitEndPoints eps := by
    have : (Prod.fst ∘ fun p : List EndPoint × Nat =>
        (p.1, decide (p.2 = (splitEndPoints eps).length - 1))) = Prod.fst := rfl
    rw [this, List.zipIdx_map_fst]
  rw [this]
  exact splitEndPoints_join eps

/-- The bytes of some end points. -/
def total (es : List EndPoint) : Nat := (es.map EndPoint.length).sum

theorem total_append (a b : List EndPoint) : total (a ++ b) = total a + total b := by
  simp [total]

theorem splitLoop_small (es cur : List EndPoint) (bytes : Nat) (hes : ∀ e ∈ es, e.length ≤ 66)
    (hcur : total cur ≤ bytes + 66) (hb : bytes ≤ 802) :
    ∀ part ∈ splitLoop es cur bytes, total part ≤ 868 := by
  induction es generalizing cur bytes with
  | nil =>
    simp only [splitLoop]
    intro part hp
    split at hp
    · simp at hp
    · simp at hp; subst hp; omega
  | cons e es ih =>
    have he := hes e (by simp)
    have hes' : ∀ x ∈ es, x.length ≤ 66 := fun x hx => hes x (by simp [hx])
    simp only [splitLoop]
    split
    · intro part hp
      rcases List.mem_cons.mp hp with hp | hp
      · subst hp; omega
      · exact ih [e] 0 hes' (by simp [total]; omega) (by omega) part hp
    · refine ih (cur ++ [e]) (bytes + e.length) hes' ?_ (by omega)
      rw [total_append]; simp [total] at *; omega

theorem varint_le (fuel v : Nat) : varint fuel v ≤ fuel + 1 := by
  induction fuel generalizing v with
  | zero => simp [varint]
  | succ fuel ih => simp only [varint]; split <;> have := ih (v / 128) <;> omega

theorem serialized_le (es : List EndPoint) (hes : ∀ e ∈ es, e.length ≤ 66) :
    ((es.filterMap EndPoint.serialize).map fun b => 1 + varint 9 b.length + b.length).sum
      ≤ total es + 2 * es.length := by
  induction es with
  | nil => simp [total]
  | cons e es ih =>
    have he := hes e (by simp)
    have := ih (fun x hx => hes x (by simp [hx]))
    have ht : total (e :: es) = e.length + total es := by simp [total]
    rw [ht]
    cases hs : e.serialize with
    | none => rw [List.filterMap_cons_none hs, List.length_cons]; omega
    | some b =>
      rw [List.filterMap_cons_some hs]
      have hl := serialize_length e b hs
      have hv : varint 9 b.length = 1 := by
        rw [hl]; unfold varint; rw [if_pos (by omega)]
      simp only [List.map_cons, List.sum_cons, hv, List.length_cons]
      omega

theorem valid_length (e : EndPoint) (h : e.Valid) : e.length ≤ 66 := by
  have := h.len
  unfold EndPoint.length; split <;> omega

/-- **C111 (packets fit), for at most 110 end points.** Every packet of an
answer has at most 1200 bytes, which is what a node reads of a packet. -/
theorem answer_fits_partial (eps : List EndPoint) (time : Nat) (hv : ∀ e ∈ eps, e.Valid)
    (h : eps.length ≤ 110) : ∀ p ∈ sendNodes eps, packetLength p.1 p.2 time ≤ 1200 := by
  intro p hp
  unfold sendNodes at hp
  obtain ⟨⟨part, i⟩, hm, rfl⟩ := List.mem_map.mp hp
  have hpart : part ∈ splitEndPoints eps := List.fst_mem_of_mem_zipIdx hm
  have hle : ∀ e ∈ eps, e.length ≤ 66 := fun e he => valid_length e (hv e he)
  have h1 := splitLoop_small eps [] 0 hle (by simp [total]) (by omega) part hpart
  have hj : (splitEndPoints eps).flatten = eps := splitEndPoints_join eps
  have hsub : part.Sublist eps := by
    rw [← hj]; exact List.sublist_flatten_of_mem hpart
  have h2 := serialized_le part (fun e he => hle e (hsub.subset he))
  have h3 := hsub.length_le
  have h4 := varint_le 9 time
  unfold packetLength
  dsimp only
  split <;> omega

/-- The counter is compared with 802, but each end point takes two bytes more
than are counted.  160 IPv4 nodes on the usual port are sent in one packet of
1226 bytes, of which the receiver reads 1200, so that the signature is not
found and the answer is lost. -/
theorem answer_too_long :
    let eps := List.replicate 160 (⟨[10, 0, 0, 1], 8483, .ipv4⟩ : EndPoint)
    (sendNodes eps).map (fun p => packetLength p.1 p.2 1600000000) = [1226] := by
  decide +kernel

theorem splitLoop_ne (es cur : List EndPoint) (bytes : Nat) (h : cur ≠ [] ∨ (es ≠ [] ∧ bytes = 0))
    (hes : ∀ e ∈ es, e.length ≤ 66) : ∀ part ∈ splitLoop es cur bytes, part ≠ [] := by
  induction es generalizing cur bytes with
  | nil =>
    intro part hp
    simp only [splitLoop] at hp
    split at hp
    · simp at hp
    · simp at hp; subst hp; assumption
  | cons e es ih =>
    have he := hes e (by simp)
    have hes' : ∀ x ∈ es, x.length ≤ 66 := fun x hx => hes x (by simp [hx])
    intro part hp
    simp only [splitLoop] at hp
    split at hp
    · rename_i hb
      rcases List.mem_cons.mp hp with hp | hp
      · subst hp
        rcases h with h | h
        · exact h
        · omega
      · exact ih [e] 0 (.inl (by simp)) hes' part hp
    · exact ih (cur ++ [e]) _ (.inl (by simp)) hes' part hp

/-- Packets in order: all but the last are not marked, and bring fewer end
points than were asked for. -/
theorem receive_all (count received : Nat) (parts : List (List EndPoint)) (hne : parts ≠ [])
    (hpart : ∀ p ∈ parts, p ≠ []) (hle : received + parts.flatten.length ≤ count) (k m : Nat)
    (hm : m = k + parts.length) :
    receive count received ((parts.zipIdx k).map fun p => (p.1, decide (p.2 = m - 1))) = parts.flatten := by
  induction parts generalizing received k with
  | nil => exact absurd rfl hne
  | cons p ps ih =>
    simp only [List.zipIdx_cons, List.map_cons, receive, List.flatten_cons]
    simp only [List.flatten_cons, List.length_append] at hle
    cases ps with
    | nil => simp [receive]
    | cons q qs =>
      have hq : 0 < q.length := List.length_pos_iff.mpr (hpart q (by simp))
      simp only [List.length_cons] at hm
      rw [if_neg]
      · rw [ih (received + p.length) (by simp) (fun x hx => hpart x (by simp [hx]))
          (by omega) (k + 1) (by simp only [List.length_cons]; omega)]
      · simp only [List.flatten_cons, List.length_append] at hle
        simp; omega

/-- **C111 (the whole answer arrives).** Packets that arrive, and in order: who
asked for at least as many nodes as there are in the answer gets them all. -/
theorem answer_received (eps : List EndPoint) (count : Nat) (hv : ∀ e ∈ eps, e.Valid)
    (h : eps.length ≤ count) : receive count 0 (sendNodes eps) = eps := by
  cases heps : eps with
  | nil => rfl
  | cons e es =>
    rw [← heps]
    have hj : (splitEndPoints eps).flatten = eps := splitEndPoints_join eps
    have hne : splitEndPoints eps ≠ [] := by
      intro hh; rw [hh, heps] at hj; simp at hj
    have := receive_all count 0 (splitEndPoints eps) hne
      (splitLoop_ne eps [] 0 (.inr ⟨by rw [heps]; simp, rfl⟩) (fun x hx => valid_length x (hv x hx)))
      (by rw [hj]; omega) 0 (splitEndPoints eps).length (by omega)
    rw [hj] at this
    exact this

/-- If the last packet overtakes another one, the rest of the answer is lost. -/
theorem answer_out_of_order (a b : List EndPoint) (count : Nat) :
    receive count 0 [(b, true), (a, false)] = b := by
  simp [receive]

/-- **C111 (what is refused).** An end point is refused exactly if its host is empty
or longer than 63 bytes; what is written consists of bytes. -/
theorem serialize_refuses (e : EndPoint) :
    (e.serialize = none ↔ e.host.length = 0 ∨ 63 < e.host.length)
      ∧ ∀ b, e.serialize = some b → (∀ x ∈ e.host, x < 256) → ∀ x ∈ b, x < 256 := by
  constructor
  · unfold EndPoint.serialize
    split
    · rename_i h; simp [h]
    · rename_i h
      split
      · rename_i h2; simp only [true_iff]; exact Or.inr h2
      · rename_i h2
        simp only [reduceCtorEq, false_iff]
        omega
  · intro b hb hh x hx
    unfold EndPoint.serialize at hb
    split at hb
    · cases hb
    · split at hb
      · cases hb
      · rename_i h1 h2
        simp only [Option.some.injEq] at hb
        subst hb
        simp only [List.cons_append, List.mem_cons, List.mem_append] at hx
        rcases hx with rfl | hx | hx
        · have a : (if e.typ = .domain ∨ e.host.length > 16 then 2 else 0) ≤ 2 := by split <;> omega
          have c : (if e.port ≠ defaultPort then 1 else 0) ≤ 1 := by split <;> omega
          omega
        · exact hh x hx
        · split at hx
          · simp only [List.mem_cons, List.not_mem_nil, or_false] at hx
            rcases hx with rfl | rfl <;> exact Nat.mod_lt _ (by decide)
          · simp at hx

/-- **C111 (nothing beyond the end).** What is read as an end point has all the
bytes that its first byte announces. -/
theorem deserialize_complete (b : List Nat) (e : EndPoint) (h : deserialize b = some e) :
    0 < b.length ∧ 1 + b.getD 0 0 / 4 + (if b.getD 0 0 % 2 = 1 then 2 else 0) ≤ b.length := by
  unfold deserialize at h
  split at h
  · cases h
  · rename_i h0
    refine ⟨by omega, ?_⟩
    simp only at h
    split at h
    · cases h
    · by_cases h2 : b.length < b.getD 0 0 / 4 + 1 + (if b.getD 0 0 % 2 = 1 then 2 else 0)
      · rw [if_pos h2] at h; cases h
      · omega

/-- **C111 (cut off).** An end point of which the end is missing is refused. -/
theorem truncated_refused (e : EndPoint) (b : List Nat) (hs : e.serialize = some b) (n : Nat) (hn : n < b.length) :
    deserialize (b.take n) = none := by
  cases hd : deserialize (b.take n) with
  | none => rfl
  | some e' =>
    obtain ⟨h0, h1⟩ := deserialize_complete _ _ hd
    rw [List.length_take] at h0 h1
    have hg : (b.take n).getD 0 0 = b.getD 0 0 := by
      cases n with
      | zero => simp at h0
      | succ n => cases b <;> simp
    rw [hg] at h1
    have hl := serialize_length e b hs
    unfold EndPoint.serialize at hs
    split at hs
    · cases hs
    · split at hs
      · cases hs
      · rename_i h3 h4
        simp only [Option.some.injEq] at hs
        have hb0 : b.getD 0 0 = e.host.length * 4 + (if e.typ = .domain ∨ e.host.length > 16 then 2 else 0)
            + (if e.port ≠ defaultPort then 1 else 0) := by
          rw [← hs]; rfl
        rw [hb0] at h1
        unfold EndPoint.length at hl
        by_cases hp : e.port ≠ defaultPort
        · simp only [if_pos hp] at h1 hl
          by_cases ht : e.typ = .domain ∨ e.host.length > 16
          · rw [if_pos ht] at h1
            rw [show (e.host.length * 4 + 2 + 1) % 2 = 1 by omega] at h1
            simp only [if_true] at h1
            omega
          · rw [if_neg ht] at h1
            rw [show (e.host.length * 4 + 0 + 1) % 2 = 1 by omega] at h1
            simp only [if_true] at h1
            omega
        · simp only [if_neg hp] at h1 hl
          by_cases ht : e.typ = .domain ∨ e.host.length > 16
          · rw [if_pos ht] at h1; omega
          · rw [if_neg ht] at h1; omega

theorem receive_takes (count : Nat) (parts : List (List EndPoint × Bool)) (received : Nat) :
    ∃ k, k ≤ parts.length ∧ receive count received parts = ((parts.take k).map Prod.fst).flatten
      ∧ (∀ j, 0 < j → j < k → received + ((parts.take j).map Prod.fst).flatten.length < count
          ∧ ∀ p ∈ parts.take j, p.2 = false)
      ∧ (k < parts.length → (0 < k ∧ (count ≤ received + ((parts.take k).map Prod.fst).flatten.length
          ∨ ∃ p ∈ parts.take k, p.2 = true))) := by
  induction parts generalizing received with
  | nil => exact ⟨0, by simp, by simp [receive], by omega, by simp⟩
  | cons p rest ih =>
    obtain ⟨eps, last⟩ := p
    by_cases hc : count ≤ received + eps.length ∨ last = true
    · refine ⟨1, by simp, by simp [receive, hc], by omega, ?_⟩
      intro _
      refine ⟨by omega, ?_⟩
      simpa using hc
    · obtain ⟨k, h1, h2, h3, h4⟩ := ih (received + eps.length)
      simp only [not_or, Nat.not_le, Bool.not_eq_true] at hc
      refine ⟨k + 1, by simp; omega, ?_, ?_, ?_⟩
      · simp only [receive, List.take_succ_cons, List.map_cons, List.flatten_cons]
        rw [if_neg (by simp only [not_or, Nat.not_le, Bool.not_eq_true]; exact hc), h2]
      · intro j hj hjk
        obtain ⟨j, rfl⟩ : ∃ i, j = i + 1 := ⟨j - 1, by omega⟩
        simp only [List.take_succ_cons, List.map_cons, List.flatten_cons, List.length_append, List.mem_cons]
        by_cases h0 : j = 0
        · subst h0
          simp [hc.1, hc.2]
        · obtain ⟨h5, h6⟩ := h3 j (by omega) (by omega)
          refine ⟨by omega, ?_⟩
          rintro x (rfl | hx)
          · exact hc.2
          · exact h6 x hx
      · intro hk
        simp only [List.length_cons] at hk
        obtain ⟨h5, h6⟩ := h4 (by omega)
        refine ⟨by omega, ?_⟩
        simp only [List.take_succ_cons, List.map_cons, List.flatten_cons, List.length_append, List.mem_cons]
        rcases h6 with h6 | ⟨x, hx, hx2⟩
        · left; omega
        · exact Or.inr ⟨x, Or.inr hx, hx2⟩

/-- **C111 (no more than asked for, up to a packet).** What is received of an
answer, whatever its packets and their order, is the end points of its first
packets: up to the first one with which the number asked for is reached, or that
says it is the last. -/
theorem received_first_packets (count : Nat) (parts : List (List EndPoint × Bool)) :
    ∃ k, k ≤ parts.length ∧ receive count 0 parts = ((parts.take k).map Prod.fst).flatten
      ∧ (∀ j, 0 < j → j < k → ((parts.take j).map Prod.fst).flatten.length < count ∧ ∀ p ∈ parts.take j, p.2 = false)
      ∧ (k < parts.length → (0 < k ∧ (count ≤ ((parts.take k).map Prod.fst).flatten.length
          ∨ ∃ p ∈ parts.take k, p.2 = true))) := by
  have := receive_takes count parts 0
  simpa only [Nat.zero_add] using this

/-- 130 IPv4 nodes on another port: two packets of which the second begins with
the 115th node. -/
example : (sendNodes (List.replicate 130 (⟨[10, 0, 0, 1], 80, .ipv4⟩ : EndPoint))).map
    (fun p => (p.1.length, p.2)) = [(114, false), (16, true)] := by decide +kernel

example : (⟨[10, 0, 0, 1], 80, .ipv4⟩ : EndPoint).Valid :=
  ⟨by decide, by decide, by decide, by decide, by decide⟩

example : (⟨[118, 105, 116, 101], 8483, .domain⟩ : EndPoint).serialize = some [18, 118, 105, 116, 101] := by
  decide

end Verif.Disc
