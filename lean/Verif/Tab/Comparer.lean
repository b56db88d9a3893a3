import Verif.Tab.TableProps
import Mathlib.Data.List.Lex
import Mathlib.Data.Prod.Lex
import Mathlib.Order.OrderDual

/-!
# The comparers and the filter of the database

`common/db/xleveldb/comparer/bytes_comparer.go`, `comparer.go`, `key.go`, `filter.go`,
`filter/bloom.go`.
-/

namespace Verif.Tab
open Verif.Bytes Verif.Store

/-! ### Keys compared byte by byte -/

/-- `bytes.Compare` is the lexicographic order of the bytes.  `bytes_comparer.go:13-15`. -/
def bytesOrd (k : Bytes) : List Nat := k.map UInt8.toNat

/-- The loop of `Separator`: how far both agree.  `bytes_comparer.go:22-27`. -/
def agree : Bytes → Bytes → Nat
  | x :: a, y :: b => if x = y then agree a b + 1 else 0
  | _, _ => 0

/-- `bytes_comparer.go:21-36` (`Separator`). -/
def bytesSep (a b : Bytes) : Option Bytes :=
  if agree a b < a.length ∧ agree a b < b.length then
    if (a.getD (agree a b) 0).toNat < 255 ∧ (a.getD (agree a b) 0).toNat + 1 < (b.getD (agree a b) 0).toNat then
      some (a.take (agree a b) ++ [UInt8.ofNat ((a.getD (agree a b) 0).toNat + 1)])
    else none
  else none

/-- `bytes_comparer.go:38-47` (`Successor`). -/
def bytesSucc : Bytes → Option Bytes
  | [] => none
  | c :: b => if c.toNat ≠ 255 then some [UInt8.ofNat (c.toNat + 1)] else (bytesSucc b).map (fun s => c :: s)

theorem bytesOrd_inj {a b : Bytes} (h : bytesOrd a = bytesOrd b) : a = b := by
  unfold bytesOrd at h
  exact List.map_injective_iff.2 (fun x y hxy => UInt8.toNat_inj.1 hxy) h

theorem bytesOrd_cons_lt {x y : UInt8} (a b : Bytes) (h : x.toNat < y.toNat) : bytesOrd (x :: a) < bytesOrd (y :: b) := by
  unfold bytesOrd
  rw [List.map_cons, List.map_cons]
  exact List.Lex.rel h

theorem bytesOrd_cons {x : UInt8} {a b : Bytes} (h : bytesOrd a < bytesOrd b) : bytesOrd (x :: a) < bytesOrd (x :: b) := by
  unfold bytesOrd at h ⊢
  rw [List.map_cons, List.map_cons]
  exact List.Lex.cons h

theorem ofNat_toNat {n : Nat} (h : n < 256) : (UInt8.ofNat n).toNat = n := by
  rw [UInt8.toNat_ofNat']; omega

theorem bytesSep_spec : ∀ (a b s : Bytes), bytesSep a b = some s → bytesOrd a < bytesOrd s ∧ bytesOrd s < bytesOrd b := by
  intro a
  induction a with
  | nil => intro b s h; unfold bytesSep agree at h; simp at h
  | cons x a ih =>
    intro b s h
    cases b with
    | nil => unfold bytesSep agree at h; simp at h
    | cons y b =>
      by_cases hxy : x = y
      · have hag : agree (x :: a) (y :: b) = agree a b + 1 := by
          show (if x = y then agree a b + 1 else 0) = _
          rw [if_pos hxy]
        have hd1 : (x :: a).getD (agree a b + 1) 0 = a.getD (agree a b) 0 := rfl
        have hd2 : (y :: b).getD (agree a b + 1) 0 = b.getD (agree a b) 0 := rfl
        have ht : (x :: a).take (agree a b + 1) = x :: a.take (agree a b) := rfl
        unfold bytesSep at h
        rw [hag, hd1, hd2, ht, List.length_cons, List.length_cons] at h
        obtain ⟨s', hs', rfl⟩ : ∃ s', bytesSep a b = some s' ∧ s = x :: s' := by
          unfold bytesSep
          by_cases h1 : agree a b < a.length ∧ agree a b < b.length
          · rw [if_pos (by omega)] at h
            rw [if_pos h1]
            by_cases h2 : (a.getD (agree a b) 0).toNat < 255 ∧ (a.getD (agree a b) 0).toNat + 1 < (b.getD (agree a b) 0).toNat
            · rw [if_pos h2] at h
              rw [if_pos h2]
              exact ⟨_, rfl, (Option.some.inj h).symm⟩
            · rw [if_neg h2] at h; cases h
          · rw [if_neg (by omega)] at h; cases h
        obtain ⟨p1, p2⟩ := ih b s' hs'
        subst hxy
        exact ⟨bytesOrd_cons p1, bytesOrd_cons p2⟩
      · have hag : agree (x :: a) (y :: b) = 0 := by
          show (if x = y then agree a b + 1 else 0) = _
          rw [if_neg hxy]
        unfold bytesSep at h
        rw [hag, if_pos ⟨by simp, by simp⟩] at h
        by_cases h2 : ((x :: a).getD 0 0).toNat < 255 ∧ ((x :: a).getD 0 0).toNat + 1 < ((y :: b).getD 0 0).toNat
        · rw [if_pos h2] at h
          have hx : (x :: a).getD 0 0 = x := rfl
          have hy : (y :: b).getD 0 0 = y := rfl
          rw [hx, hy] at h2
          rw [hx] at h
          have := Option.some.inj h
          subst this
          show bytesOrd (x :: a) < bytesOrd (UInt8.ofNat (x.toNat + 1) :: []) ∧ bytesOrd (UInt8.ofNat (x.toNat + 1) :: []) < _
          have e : (UInt8.ofNat (x.toNat + 1)).toNat = x.toNat + 1 := ofNat_toNat (by omega)
          exact ⟨bytesOrd_cons_lt _ _ (by omega), bytesOrd_cons_lt _ _ (by omega)⟩
        · rw [if_neg h2] at h; cases h

theorem bytesSucc_spec : ∀ (a s : Bytes), bytesSucc a = some s → bytesOrd a < bytesOrd s := by
  intro a
  induction a with
  | nil => intro s h; cases h
  | cons x a ih =>
    intro s h
    unfold bytesSucc at h
    by_cases hx : x.toNat ≠ 255
    · rw [if_pos hx] at h
      have := Option.some.inj h
      subst this
      have hlt : x.toNat < 256 := x.toNat_lt
      exact bytesOrd_cons_lt _ _ (by rw [ofNat_toNat (by omega)]; omega)
    · rw [if_neg hx] at h
      cases hs : bytesSucc a with
      | none => rw [hs] at h; cases h
      | some s' =>
        rw [hs] at h
        have := Option.some.inj h
        subst this
        exact bytesOrd_cons (ih s' hs)

/-! ### Internal keys -/

/-- Eight bytes, the low ones first. -/
def put8 (n : Nat) : Bytes := put4 (n % 2 ^ 32) ++ put4 (n / 2 ^ 32)

def get8 (l : Bytes) : Nat := get4 l + 2 ^ 32 * get4 (l.drop 4)

/-- `key.go:115-118` (`ukey`); for keys shorter than eight bytes the program panics. -/
def ukey (k : Bytes) : Bytes := k.take (k.length - 8)

/-- `key.go:120-123` (`num`). -/
def num (k : Bytes) : Nat := get8 (k.drop (k.length - 8))

/-- `comparer.go:43-53` (`Compare`): by user key, then the greater number first. -/
abbrev IOrd := Lex (List Nat × Natᵒᵈ)

def icmpOrd (k : Bytes) : IOrd := toLex (bytesOrd (ukey k), OrderDual.toDual (num k))

/-- `key.go:57-71`. -/
def keyMaxNum : Nat := (2 ^ 56 - 1) * 256 + 1

/-- `comparer.go:55-63` (`Separator`). -/
def icmpSep (a b : Bytes) : Option Bytes :=
  match bytesSep (ukey a) (ukey b) with
  | none => none
  | some d => if d.length < (ukey a).length ∧ bytesOrd (ukey a) < bytesOrd d then some (d ++ put8 keyMaxNum) else none

/-- `comparer.go:65-73` (`Successor`). -/
def icmpSucc (a : Bytes) : Option Bytes :=
  match bytesSucc (ukey a) with
  | none => none
  | some d => if d.length < (ukey a).length ∧ bytesOrd (ukey a) < bytesOrd d then some (d ++ put8 keyMaxNum) else none

theorem put8_length (n : Nat) : (put8 n).length = 8 := by
  unfold put8; rw [List.length_append, put4_length, put4_length]

theorem get8_put8 {n : Nat} (h : n < 2 ^ 64) : get8 (put8 n) = n := by
  unfold get8 put8
  have h1 := get4_put4 (n % 2 ^ 32) (Nat.mod_lt _ (by norm_num)) (put4 (n / 2 ^ 32))
  have h2 := get4_put4 (n / 2 ^ 32) (by omega) []
  rw [List.append_nil] at h2
  have h3 : (put4 (n % 2 ^ 32) ++ put4 (n / 2 ^ 32)).drop 4 = put4 (n / 2 ^ 32) := List.drop_left' (put4_length _)
  rw [h3, h1, h2]
  omega

theorem ukey_append (d : Bytes) (n : Nat) : ukey (d ++ put8 n) = d := by
  unfold ukey
  rw [List.length_append, put8_length, Nat.add_sub_cancel, List.take_left]

theorem num_append (d : Bytes) {n : Nat} (h : n < 2 ^ 64) : num (d ++ put8 n) = n := by
  unfold num
  rw [List.length_append, put8_length, Nat.add_sub_cancel, List.drop_left, get8_put8 h]

theorem icmp_lt {a b : Bytes} (h : bytesOrd (ukey a) < bytesOrd (ukey b)) : icmpOrd a < icmpOrd b := by
  unfold icmpOrd
  rw [Prod.Lex.toLex_lt_toLex]
  exact Or.inl h

theorem icmp_le_ukey {a b : Bytes} (h : icmpOrd a ≤ icmpOrd b) : bytesOrd (ukey a) ≤ bytesOrd (ukey b) := by
  unfold icmpOrd at h
  rw [Prod.Lex.toLex_le_toLex] at h
  rcases h with h | ⟨h, _⟩
  · exact le_of_lt h
  · exact le_of_eq h

/-! ### The bloom filter -/

/-- A bit is set.  `bloom.go:46`. -/
def bitAt (d : Bytes) (p : Nat) : Bool := (d.getD (p / 8) 0).toNat.testBit (p % 8)

/-- Set a bit.  `bloom.go:98`. -/
def setBit (d : Bytes) (p : Nat) : Bytes := d.set (p / 8) (UInt8.ofNat ((d.getD (p / 8) 0).toNat ||| 2 ^ (p % 8)))

/-- The hashes that are tried for a key: `kh`, then `delta` more each time.  `bloom.go:42-50`, `95-100`. -/
def probes (delta : UInt32) : UInt32 → Nat → List UInt32
  | _, 0 => []
  | kh, j + 1 => kh :: probes delta (kh + delta) j

/-- `bloom.go:43`, `95`. -/
def rotate (kh : UInt32) : UInt32 := (kh >>> 17) ||| (kh <<< 15)

/-- How many hashes for a key.  `bloom.go:54-61`. -/
def bloomK (n : Nat) : Nat :=
  let k := (n * 69 / 100) % 256
  if k < 1 then 1 else if k > 30 then 30 else k

/-- How many bytes.  `bloom.go:83-90`; the number of bits is taken not to wrap around at `2^32`. -/
def bloomBytes (n m : Nat) : Nat := ((if m * n < 64 then 64 else m * n) + 7) / 8

/-- `bloom.go:81-104` (`Generate`) for the keys added. -/
def bloomGen (hash : Bytes → UInt32) (n : Nat) (ks : List Bytes) : Bytes :=
  let nb := bloomBytes n ks.length
  (ks.foldl (fun d key => (probes (rotate (hash key)) (hash key) (bloomK n)).foldl (fun d h => setBit d (h.toNat % (nb * 8))) d)
    (List.replicate nb 0)) ++ [UInt8.ofNat (bloomK n)]

/-- `bloom.go:26-52` (`Contains`). -/
def bloomHas (hash : Bytes → UInt32) (f key : Bytes) : Bool :=
  if f.length - 1 < 1 then false
  else if (f.getD (f.length - 1) 0).toNat > 30 then true
  else (probes (rotate (hash key)) (hash key) (f.getD (f.length - 1) 0).toNat).all (fun h => bitAt f (h.toNat % ((f.length - 1) * 8)))

/-- The filter of the database: the bloom filter of the user keys.  `filter.go:13-31`. -/
def iFilter (hash : Bytes → UInt32) (n : Nat) (name : Bytes) : Filt :=
  ⟨name, fun ks => bloomGen hash n (ks.map ukey), fun f k => bloomHas hash f (ukey k)⟩

theorem setBit_length (d : Bytes) (p : Nat) : (setBit d p).length = d.length := by unfold setBit; rw [List.length_set]

theorem setBit_self {d : Bytes} {p : Nat} (h : p / 8 < d.length) : bitAt (setBit d p) p = true := by
  unfold bitAt setBit
  rw [List.getD_eq_getElem?_getD, List.getElem?_set_self h]
  show (UInt8.ofNat _).toNat.testBit _ = true
  have h1 : (d.getD (p / 8) 0).toNat < 2 ^ 8 := UInt8.toNat_lt _
  have h2 : 2 ^ (p % 8) < 2 ^ 8 := Nat.pow_lt_pow_right (by omega) (by omega)
  have h3 := Nat.or_lt_two_pow h1 h2
  rw [ofNat_toNat (by simpa using h3), Nat.testBit_or, Nat.testBit_two_pow_self]
  simp

theorem setBit_keep {d : Bytes} {p q : Nat} (hq : bitAt d q = true) : bitAt (setBit d p) q = true := by
  unfold bitAt setBit at *
  by_cases h : p / 8 = q / 8
  · by_cases hl : q / 8 < d.length
    · rw [h, List.getD_eq_getElem?_getD, List.getElem?_set_self hl]
      show (UInt8.ofNat _).toNat.testBit _ = true
      have h1 : (d.getD (q / 8) 0).toNat < 2 ^ 8 := UInt8.toNat_lt _
      have h2 : 2 ^ (p % 8) < 2 ^ 8 := Nat.pow_lt_pow_right (by omega) (by omega)
      have h3 := Nat.or_lt_two_pow h1 h2
      rw [ofNat_toNat (by simpa using h3), Nat.testBit_or, hq]
      rfl
    · rw [List.getD_eq_getElem?_getD, List.getElem?_eq_none (by omega)] at hq
      simp at hq
  · rw [List.getD_eq_getElem?_getD, List.getElem?_set_ne h, ← List.getD_eq_getElem?_getD]
    exact hq

theorem fold_probes (nb : Nat) : ∀ (hs : List UInt32) (d : Bytes), d.length = nb → 0 < nb →
    (hs.foldl (fun d h => setBit d (h.toNat % (nb * 8))) d).length = nb ∧
    (∀ q, bitAt d q = true → bitAt (hs.foldl (fun d h => setBit d (h.toNat % (nb * 8))) d) q = true) ∧
    (∀ h ∈ hs, bitAt (hs.foldl (fun d h => setBit d (h.toNat % (nb * 8))) d) (h.toNat % (nb * 8)) = true) := by
  intro hs
  induction hs with
  | nil => intro d hd hn; exact ⟨hd, fun q h => h, fun h hh => nomatch hh⟩
  | cons a hs ih =>
    intro d hd hn
    obtain ⟨i1, i2, i3⟩ := ih (setBit d (a.toNat % (nb * 8))) (by rw [setBit_length, hd]) hn
    refine ⟨i1, fun q h => i2 q (setBit_keep h), ?_⟩
    intro h hh
    rcases List.mem_cons.1 hh with rfl | hh
    · refine i2 _ (setBit_self ?_)
      rw [hd]
      have := Nat.mod_lt h.toNat (show nb * 8 > 0 by omega)
      omega
    · exact i3 h hh

theorem fold_keys (hash : Bytes → UInt32) (k nb : Nat) : ∀ (ks : List Bytes) (d : Bytes), d.length = nb → 0 < nb →
    (ks.foldl (fun d key => (probes (rotate (hash key)) (hash key) k).foldl (fun d h => setBit d (h.toNat % (nb * 8))) d) d).length = nb ∧
    (∀ q, bitAt d q = true →
      bitAt (ks.foldl (fun d key => (probes (rotate (hash key)) (hash key) k).foldl (fun d h => setBit d (h.toNat % (nb * 8))) d) d) q = true) ∧
    (∀ key ∈ ks, ∀ h ∈ probes (rotate (hash key)) (hash key) k,
      bitAt (ks.foldl (fun d key => (probes (rotate (hash key)) (hash key) k).foldl (fun d h => setBit d (h.toNat % (nb * 8))) d) d)
        (h.toNat % (nb * 8)) = true) := by
  intro ks
  induction ks with
  | nil => intro d hd hn; exact ⟨hd, fun q h => h, fun h hh => nomatch hh⟩
  | cons a ks ih =>
    intro d hd hn
    obtain ⟨p1, p2, p3⟩ := fold_probes nb (probes (rotate (hash a)) (hash a) k) d hd hn
    obtain ⟨i1, i2, i3⟩ := ih _ p1 hn
    refine ⟨i1, fun q h => i2 q (p2 q h), ?_⟩
    intro key hk h hh
    rcases List.mem_cons.1 hk with rfl | hk
    · exact i2 _ (p3 h hh)
    · exact i3 key hk h hh

theorem bloomK_le (n : Nat) : bloomK n ≤ 30 := by
  unfold bloomK
  dsimp only
  split
  · omega
  · split <;> omega

theorem bloomHas_of (hash : Bytes → UInt32) (n nb : Nat) (d k : Bytes) (hpos : 0 < nb) (i1 : d.length = nb)
    (i3 : ∀ h ∈ probes (rotate (hash k)) (hash k) (bloomK n), bitAt d (h.toNat % (nb * 8)) = true) :
    bloomHas hash (d ++ [UInt8.ofNat (bloomK n)]) k = true := by
  unfold bloomHas
  have hl : (d ++ [UInt8.ofNat (bloomK n)]).length - 1 = nb := by rw [List.length_append, i1]; rfl
  have hk : ((d ++ [UInt8.ofNat (bloomK n)]).getD nb 0).toNat = bloomK n := by
    rw [List.getD_eq_getElem?_getD, List.getElem?_append_right (by omega), i1, Nat.sub_self]
    show (UInt8.ofNat (bloomK n)).toNat = _
    exact ofNat_toNat (by have := bloomK_le n; omega)
  rw [hl, hk, if_neg (by omega), if_neg (by have := bloomK_le n; omega), List.all_eq_true]
  intro x hx
  have := i3 x hx
  unfold bitAt at this ⊢
  have hlt := Nat.mod_lt x.toNat (show nb * 8 > 0 by omega)
  rw [List.getD_eq_getElem?_getD, List.getElem?_append_left (by rw [i1]; omega), ← List.getD_eq_getElem?_getD]
  exact this

/-- **A bloom filter has no false negatives**, whatever the hash. -/
theorem bloom_no_false_negative (hash : Bytes → UInt32) (n : Nat) (ks : List Bytes) (k : Bytes) (h : k ∈ ks) :
    bloomHas hash (bloomGen hash n ks) k = true := by
  have hpos : 0 < bloomBytes n ks.length := by
    unfold bloomBytes
    split <;> omega
  obtain ⟨i1, i2, i3⟩ := fold_keys hash (bloomK n) (bloomBytes n ks.length) ks (List.replicate (bloomBytes n ks.length) 0) List.length_replicate hpos
  exact bloomHas_of hash n _ _ k hpos i1 (i3 k h)

/-! ### The database's options are good -/

/-- The options with which the database writes and reads tables.  `options.go:22-43`. -/
def dbOpts (interval blockSize : Nat) (codec : Option Codec) (crc : Bytes → Nat) (filter : Option Filt) (verify : Bool) : Opts IOrd :=
  ⟨icmpOrd, icmpSep, icmpSucc, interval, blockSize, codec, crc, filter, verify⟩

/-- **The comparer and the filter of the database do what a table needs of them.** -/
theorem dbOpts_good {interval blockSize : Nat} {codec : Option Codec} {crc : Bytes → Nat} {verify : Bool} (hI : 0 < interval)
    (hcrc : ∀ d, crc d < 2 ^ 32) (hc : ∀ c, codec = some c → ∀ d, c.dec (c.enc d) = some d ∧ c.enc d ≠ [])
    {filter : Option Filt} (hf : filter = none ∨ ∃ hash n name, filter = some (iFilter hash n name)) :
    Good (dbOpts interval blockSize codec crc filter verify) ukey := by
  refine ⟨hI, hcrc, hc, ?_, ?_, ?_, ?_⟩
  · intro a b s hs hab
    replace hs : icmpSep a b = some s := hs
    unfold icmpSep at hs
    cases hu : bytesSep (ukey a) (ukey b) with
    | none => rw [hu] at hs; cases hs
    | some d =>
      rw [hu] at hs
      dsimp only at hs
      by_cases hd : d.length < (ukey a).length ∧ bytesOrd (ukey a) < bytesOrd d
      · rw [if_pos hd] at hs
        have := Option.some.inj hs
        subst this
        obtain ⟨_, h2⟩ := bytesSep_spec _ _ _ hu
        have hus : ukey (d ++ put8 keyMaxNum) = d := ukey_append d _
        refine ⟨le_of_lt (icmp_lt (by rw [hus]; exact hd.2)), icmp_lt (by rw [hus]; exact h2), ?_⟩
        intro k x hk hx heq
        have h3 := icmp_le_ukey hk
        have h4 := icmp_le_ukey hx
        rw [hus] at h3
        have h5 := lt_of_le_of_lt h3 (lt_of_lt_of_le h2 h4)
        rw [heq] at h5
        exact lt_irrefl _ h5
      · rw [if_neg hd] at hs; cases hs
  · intro a s hs
    replace hs : icmpSucc a = some s := hs
    unfold icmpSucc at hs
    cases hu : bytesSucc (ukey a) with
    | none => rw [hu] at hs; cases hs
    | some d =>
      rw [hu] at hs
      dsimp only at hs
      by_cases hd : d.length < (ukey a).length ∧ bytesOrd (ukey a) < bytesOrd d
      · rw [if_pos hd] at hs
        have := Option.some.inj hs
        subst this
        exact le_of_lt (icmp_lt (by rw [ukey_append]; exact hd.2))
      · rw [if_neg hd] at hs; cases hs
  · intro k a x h1 h2 h3
    have h4 := icmp_le_ukey h1
    have h5 := icmp_le_ukey h2
    rw [← h3] at h5
    exact bytesOrd_inj (le_antisymm h5 h4)
  · intro f hff
    replace hff : filter = some f := hff
    rcases hf with hf | ⟨hash, n, name, hf⟩
    · rw [hf] at hff; cases hff
    · rw [hf] at hff
      have := Option.some.inj hff
      subst this
      refine ⟨?_, ?_⟩
      · intro ks k k' hk hkk
        show bloomHas hash (bloomGen hash n (ks.map ukey)) (ukey k) = true
        exact bloom_no_false_negative hash n _ _ (List.mem_map.2 ⟨k', hk, hkk⟩)
      · intro ks _
        show bloomGen hash n (ks.map ukey) ≠ []
        unfold bloomGen
        simp

/-- **So do keys compared byte by byte.** -/
theorem bytes_good {interval blockSize : Nat} {codec : Option Codec} {crc : Bytes → Nat} {verify : Bool} (hI : 0 < interval)
    (hcrc : ∀ d, crc d < 2 ^ 32) (hc : ∀ c, codec = some c → ∀ d, c.dec (c.enc d) = some d ∧ c.enc d ≠ []) :
    Good ⟨bytesOrd, bytesSep, bytesSucc, interval, blockSize, codec, crc, none, verify⟩ id := by
  refine ⟨hI, hcrc, hc, ?_, ?_, ?_, ?_⟩
  · intro a b s hs hab
    obtain ⟨h1, h2⟩ := bytesSep_spec a b s hs
    refine ⟨le_of_lt h1, h2, ?_⟩
    intro k x hk hx heq
    have h5 := lt_of_le_of_lt hk (lt_of_lt_of_le h2 hx)
    rw [show k = x from heq] at h5
    exact lt_irrefl _ h5
  · intro a s hs
    exact le_of_lt (bytesSucc_spec a s hs)
  · intro k a x h1 h2 h3
    have h3' : k = x := h3
    subst h3'
    exact bytesOrd_inj (le_antisymm h2 h1)
  · intro f hff; cases hff

end Verif.Tab
