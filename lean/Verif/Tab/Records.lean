import Verif.Tab.Comparer

/-!
# Versions of keys in a table of the database

A table of the database holds records: a user key, a sequence number, whether the record is a value or a
deletion, and the value.  `key.go:75-99`, `version.go:173-210`.
-/

namespace Verif.Tab
open Verif.Bytes Verif.Store

/-! ### Specification -/

/-- A record: what was written for a key at a sequence number; `del` for a deletion. -/
structure Rec where
  key : Bytes
  seq : Nat
  del : Bool
  val : Bytes
  deriving DecidableEq

/-- The order of records in a table: by key, and for one key the newest first. -/
def Rec.before (a b : Rec) : Prop := bytesOrd a.key < bytesOrd b.key ∨ (a.key = b.key ∧ b.seq < a.seq)

/-- What a reader that sees everything up to `s` gets for a key from records in this order: the newest
record of the key among those it sees. -/
def newest (rs : List Rec) (u : Bytes) (s : Nat) : Option Rec := rs.find? (fun r => decide (r.key = u ∧ r.seq ≤ s))

/-- Of the records in order, `newest` is the one with the greatest sequence number. -/
theorem newest_is_greatest {rs : List Rec} (hs : rs.Pairwise Rec.before) {u : Bytes} {s : Nat} {r : Rec} (h : newest rs u s = some r) :
    r ∈ rs ∧ r.key = u ∧ r.seq ≤ s ∧ ∀ r' ∈ rs, r'.key = u → r'.seq ≤ s → r'.seq ≤ r.seq := by
  unfold newest at h
  induction rs with
  | nil => cases h
  | cons a rs ih =>
    obtain ⟨h1, h2⟩ := List.pairwise_cons.1 hs
    rw [List.find?_cons] at h
    by_cases ha : a.key = u ∧ a.seq ≤ s
    · rw [decide_eq_true ha] at h
      have := Option.some.inj h
      subst this
      refine ⟨List.mem_cons_self, ha.1, ha.2, ?_⟩
      intro r' hr' hk _
      rcases List.mem_cons.1 hr' with rfl | hr'
      · exact le_refl _
      · rcases h1 r' hr' with hlt | ⟨_, hlt⟩
        · rw [ha.1, hk] at hlt; exact absurd hlt (lt_irrefl _)
        · exact le_of_lt hlt
    · rw [decide_eq_false ha] at h
      obtain ⟨q1, q2, q3, q4⟩ := ih h2 h
      refine ⟨List.mem_cons_of_mem _ q1, q2, q3, ?_⟩
      intro r' hr' hk hle
      rcases List.mem_cons.1 hr' with rfl | hr'
      · exact absurd ⟨hk, hle⟩ ha
      · exact q4 r' hr' hk hle

/-! ### The program's side -/

/-- The type of a record.  `key.go:45-48`. -/
def typeOf (d : Bool) : Nat := if d then 0 else 1

/-- `key.go:75-86` (`MakeInternalKey`). -/
def makeKey (u : Bytes) (s kt : Nat) : Bytes := u ++ put8 (s * 256 + kt)

/-- A record as an entry of a table. -/
def Rec.entry (r : Rec) : Bytes × Bytes := (makeKey r.key r.seq (typeOf r.del), r.val)

/-- `key.go:88-99` (`ParseInternalKey`) of a found entry, and the test of the user key.
`version.go:176`, `188-189`: a search with the filter; the key sought is that of `DB.get`, with the type
for seeking.  `none` for an error. -/
def versionIn (o : Opts IOrd) (r : TR) (u : Bytes) (s : Nat) : Option (Option Rec) :=
  match r.find o (makeKey u s 1) true with
  | .err => none
  | .none => some none
  | .some e =>
    if e.1.length < 8 then some none
    else if num e.1 % 256 > 1 then some none
    else if ukey e.1 = u then some (some ⟨ukey e.1, num e.1 / 256, decide (num e.1 % 256 = 0), e.2⟩)
    else some none

theorem icmp_makeKey (u : Bytes) {s kt : Nat} (hs : s < 2 ^ 56) (hkt : kt ≤ 1) :
    icmpOrd (makeKey u s kt) = toLex (bytesOrd u, OrderDual.toDual (s * 256 + kt)) := by
  unfold icmpOrd makeKey
  rw [ukey_append, num_append _ (by omega)]

theorem typeOf_le (d : Bool) : typeOf d ≤ 1 := by cases d <;> decide

theorem seek_le {u : Bytes} {s : Nat} (hs : s < 2 ^ 56) {r : Rec} (hr : r.seq < 2 ^ 56) :
    icmpOrd (makeKey u s 1) ≤ icmpOrd r.entry.1 ↔ (bytesOrd u < bytesOrd r.key ∨ (r.key = u ∧ r.seq ≤ s)) := by
  unfold Rec.entry
  dsimp only
  rw [icmp_makeKey u hs (le_refl _), icmp_makeKey _ hr (typeOf_le _), Prod.Lex.toLex_le_toLex]
  have ht := typeOf_le r.del
  constructor
  · rintro (h | ⟨h, h'⟩)
    · exact Or.inl h
    · have h'' : r.seq * 256 + typeOf r.del ≤ s * 256 + 1 := h'
      exact Or.inr ⟨(bytesOrd_inj h).symm, by omega⟩
  · rintro (h | ⟨h, h'⟩)
    · exact Or.inl h
    · refine Or.inr ⟨by rw [h], ?_⟩
      show r.seq * 256 + typeOf r.del ≤ s * 256 + 1
      omega

theorem entries_sorted {rs : List Rec} (hs : rs.Pairwise Rec.before) (hq : ∀ r ∈ rs, r.seq < 2 ^ 56) :
    (rs.map Rec.entry).Pairwise (fun x y => icmpOrd x.1 < icmpOrd y.1) := by
  rw [List.pairwise_map]
  refine hs.imp_of_mem ?_
  intro a b ha hb hab
  unfold Rec.entry
  dsimp only
  rw [icmp_makeKey _ (hq a ha) (typeOf_le _), icmp_makeKey _ (hq b hb) (typeOf_le _), Prod.Lex.toLex_lt_toLex]
  rcases hab with h | ⟨h, h'⟩
  · exact Or.inl h
  · refine Or.inr ⟨by rw [h], ?_⟩
    show b.seq * 256 + typeOf b.del < a.seq * 256 + typeOf a.del
    have := typeOf_le b.del
    omega

/-- What stands at or after the key sought. -/
theorem at_or_after {rs : List Rec} (hs : rs.Pairwise Rec.before) (hq : ∀ r ∈ rs, r.seq < 2 ^ 56) {u : Bytes} {s : Nat} (hsq : s < 2 ^ 56) :
    (∃ r, newest rs u s = some r ∧ atOrAfter icmpOrd (rs.map Rec.entry) (makeKey u s 1) = some r.entry ∧ r.key = u ∧ r.seq < 2 ^ 56) ∨
    (newest rs u s = none ∧ ∀ e, atOrAfter icmpOrd (rs.map Rec.entry) (makeKey u s 1) = some e → ukey e.1 ≠ u) := by
  induction rs with
  | nil => exact Or.inr ⟨rfl, by intro e he; cases he⟩
  | cons a rs ih =>
    obtain ⟨h1, h2⟩ := List.pairwise_cons.1 hs
    have ha := seek_le (u := u) hsq (hq a List.mem_cons_self)
    unfold newest atOrAfter at ih ⊢
    rw [List.map_cons, List.find?_cons, List.find?_cons]
    by_cases hc : a.key = u ∧ a.seq ≤ s
    · rw [decide_eq_true hc, decide_eq_true (ha.2 (Or.inr hc))]
      exact Or.inl ⟨a, rfl, rfl, hc.1, hq a List.mem_cons_self⟩
    · rw [decide_eq_false hc]
      dsimp only
      by_cases hlt : bytesOrd u < bytesOrd a.key
      · rw [decide_eq_true (ha.2 (Or.inl hlt))]
        refine Or.inr ⟨?_, ?_⟩
        · rw [List.find?_eq_none]
          intro r hr
          simp only [decide_eq_true_eq]
          intro hr'
          rcases h1 r hr with hh | ⟨hh, _⟩
          · rw [hr'.1] at hh; exact lt_asymm hlt hh
          · rw [hh, hr'.1] at hlt; exact lt_irrefl _ hlt
        · intro e he
          have := Option.some.inj he
          subst this
          unfold Rec.entry makeKey
          dsimp only
          rw [ukey_append]
          intro hh
          rw [hh] at hlt; exact lt_irrefl _ hlt
      · rw [decide_eq_false (fun h => by rcases ha.1 h with h | h; exact hlt h; exact hc h)]
        exact ih h2 (fun r hr => hq r (List.mem_cons_of_mem _ hr))

/-- **A reader of a table gets the newest record that it may see**, a value or a deletion, with or
without a bloom filter and whatever the hash, and gets none only if there is none. -/
theorem table_gives_newest {interval blockSize : Nat} {codec : Option Codec} {crc : Bytes → Nat} {verify : Bool} (hI : 0 < interval)
    (hcrc : ∀ d, crc d < 2 ^ 32) (hc : ∀ c, codec = some c → ∀ d, c.dec (c.enc d) = some d ∧ c.enc d ≠ [])
    {filter : Option Filt} (hf : filter = none ∨ ∃ hash n name, filter = some (iFilter hash n name))
    {rs : List Rec} (hne : rs ≠ []) (hs : rs.Pairwise Rec.before) (hq : ∀ r ∈ rs, r.seq < 2 ^ 56) :
    ∃ w, tableOf (dbOpts interval blockSize codec crc filter verify) (rs.map Rec.entry) = some w ∧
      ((∀ d ∈ w.log, d.length < 2 ^ 32) → w.file.length < 2 ^ 63 →
        ∃ r, openT (dbOpts interval blockSize codec crc filter verify) w.file = some r ∧
          ∀ u s, s < 2 ^ 56 → versionIn (dbOpts interval blockSize codec crc filter verify) r u s = some (newest rs u s)) := by
  have g := dbOpts_good (interval := interval) (blockSize := blockSize) (codec := codec) (crc := crc) (verify := verify) hI hcrc hc hf
  have hkn : ∀ e ∈ rs.map Rec.entry, e.1 ≠ [] := by
    intro e he
    obtain ⟨r, _, rfl⟩ := List.mem_map.1 he
    intro h
    have := congrArg List.length h
    unfold Rec.entry makeKey at this
    dsimp only at this
    rw [List.length_append, put8_length] at this
    simp at this
  obtain ⟨w, hw, hrest⟩ := table_answers g (es := rs.map Rec.entry) (by simpa using hne) hkn (entries_sorted hs hq)
  refine ⟨w, hw, ?_⟩
  intro hlog hsz
  obtain ⟨r, hr, _, _, hfind, hor⟩ := hrest hlog hsz
  refine ⟨r, hr, ?_⟩
  intro u s hsq
  have hku : ukey (makeKey u s 1) = u := ukey_append u _
  rcases at_or_after hs hq (u := u) hsq with ⟨x, hx1, hx2, hx3, hx4⟩ | ⟨hx1, hx2⟩
  · have huk : ukey x.entry.1 = x.key := ukey_append x.key _
    have hnum : num x.entry.1 = x.seq * 256 + typeOf x.del := num_append x.key (by have := typeOf_le x.del; omega)
    have hlen : ¬ x.entry.1.length < 8 := by
      unfold Rec.entry makeKey
      dsimp only
      rw [List.length_append, put8_length]; omega
    have hres := hfind (makeKey u s 1) x.entry hx2 (by rw [hku, huk, hx3])
    unfold versionIn
    rw [hres, hx1]
    dsimp only
    have ht := typeOf_le x.del
    have hmod : (x.seq * 256 + typeOf x.del) % 256 = typeOf x.del := by omega
    have hdiv : (x.seq * 256 + typeOf x.del) / 256 = x.seq := by omega
    rw [if_neg hlen, hnum, hmod, hdiv, if_neg (by omega), if_pos (by rw [huk, hx3]), huk]
    have hd : decide (typeOf x.del = 0) = x.del := by cases x.del <;> rfl
    rw [hd]
    rfl
  · rw [hx1]
    unfold versionIn
    rcases hor (makeKey u s 1) with h | h
    · rw [h]
      cases ha : atOrAfter (dbOpts interval blockSize codec crc filter verify).ord (rs.map Rec.entry) (makeKey u s 1) with
      | none => rfl
      | some e =>
        show (if e.1.length < 8 then some none else if num e.1 % 256 > 1 then some none
          else if ukey e.1 = u then some (some _) else some none) = _
        rw [if_neg (hx2 e ha)]
        split
        · rfl
        · split <;> rfl
    · rw [h]

end Verif.Tab
