import Verif.Block.BlockLemmas

/-! # What the hash of a snapshot block fixes (C74) and what the hash of logs fixes (C76) -/

namespace Verif.Block
open Verif.Bytes Spec

/-! ### The order of the content -/

theorem bytesLe_trans (a b c : Bytes) (h1 : bytesLe a b = true) (h2 : bytesLe b c = true) : bytesLe a c = true := by
  simp only [bytesLe, decide_eq_true_eq] at *
  exact Consensus.bcmp_trans h1 h2

theorem bytesLe_total (a b : Bytes) : (bytesLe a b || bytesLe b a) = true := by
  simp only [bytesLe, Bool.or_eq_true, decide_eq_true_eq]
  by_cases h : bcmp a b = .gt
  · right
    rw [Consensus.bcmp_swap b a, h]
    decide
  · exact .inl h

theorem bytesLe_antisymm {a b : Bytes} (h1 : bytesLe a b = true) (h2 : bytesLe b a = true) : a = b := by
  simp only [bytesLe, decide_eq_true_eq] at h1 h2
  apply Consensus.eq_of_bcmp
  rw [Consensus.bcmp_swap b a] at h2
  cases h : bcmp a b with
  | eq => rfl
  | lt => rw [h] at h2; simp at h2
  | gt => exact absurd h h1

theorem bytesList_perm (c : List Item) : (bytesList c).Perm (c.map Item.bytes) := Consensus.sortBy_perm _ _

theorem bytesList_sorted (c : List Item) : (bytesList c).Pairwise (fun a b => bytesLe a b = true) := Consensus.sortBy_sorted bytesLe_trans bytesLe_total _

/-- **C74.** Whatever order the map gives its entries in, and whatever way they are sorted, the list that is hashed is the same. -/
theorem content_order {c d : List Item} (h : c.Perm d) {l : List Bytes} (hl : l.Perm (c.map Item.bytes)) (hs : l.Pairwise (fun a b => bytesLe a b = true)) :
    l = bytesList d :=
  List.Perm.eq_of_pairwise (fun _ _ _ _ h1 h2 => bytesLe_antisymm h1 h2) hs (bytesList_sorted d) (hl.trans ((h.map _).trans (bytesList_perm d).symm))

theorem item_length {x : Item} (h : x.addr.length = 21 ∧ x.hash.length = 32 ∧ x.height < 2 ^ 64) : x.bytes.length = 61 := by
  simp [Item.bytes, h.1, h.2.1]

theorem item_inj {x y : Item} (hx : x.addr.length = 21 ∧ x.hash.length = 32 ∧ x.height < 2 ^ 64) (hy : y.addr.length = 21 ∧ y.hash.length = 32 ∧ y.height < 2 ^ 64)
    (h : x.bytes = y.bytes) : x = y := by
  unfold Item.bytes at h
  obtain ⟨h, h3⟩ := List.append_inj h (by simp [hx.1, hy.1, hx.2.1, hy.2.1])
  obtain ⟨h1, h2⟩ := List.append_inj h (by simp [hx.1, hy.1])
  have := be8_inj hx.2.2 hy.2.2 h3
  cases x; cases y; simp_all

theorem be64_inj {x y : Int} (hx : -2 ^ 63 ≤ x ∧ x < 2 ^ 63) (hy : -2 ^ 63 ≤ y ∧ y < 2 ^ 63) (h : be64 x = be64 y) : x = y := by
  simp only [be64] at h
  have hx1 : (x % 2 ^ 64).toNat < 2 ^ 64 := by omega
  have hy1 : (y % 2 ^ 64).toNat < 2 ^ 64 := by omega
  have := be8_inj hx1 hy1 h
  omega

theorem seedHash_length {b : SnapshotBlock} (f : FitsSnapshot b) : (b.seedHash.getD zeroHash).length = 32 := by
  cases h : b.seedHash with
  | none => rfl
  | some x => exact f.seedHash x h

theorem unix_range {b : SnapshotBlock} (f : FitsSnapshot b) : -2 ^ 63 ≤ b.unix ∧ b.unix < 2 ^ 63 := by
  have := f.time
  unfold SnapshotBlock.unix
  omega

theorem content_bytes_length {c : List Item} (h : ∀ x ∈ c, x.addr.length = 21 ∧ x.hash.length = 32 ∧ x.height < 2 ^ 64) : ∀ x ∈ bytesList c, x.length = 61 := by
  intro x hx
  obtain ⟨y, hy, rfl⟩ := List.mem_map.mp ((bytesList_perm c).mem_iff.mp hx)
  exact item_length (h y hy)

/-- **C74.** Two snapshot blocks have one hash exactly if they agree on the previous block, the height, the time in seconds, the seed, the committed seed hash, the content
and, from the leaf upgrade on, the version. -/
theorem snapshot_hash_iff {H : Bytes → Hash} {P : Points} {b c : SnapshotBlock} (fb : FitsSnapshot b) (fc : FitsSnapshot c) (hn : NoClash H [b.source P, c.source P]) :
    b.computeHash H P = c.computeHash H P ↔ SameSnapshot P b c := by
  constructor
  · intro h
    have hs := hn _ (by simp) _ (by simp) h
    unfold SnapshotBlock.source at hs
    have l1 : (b.prevHash ++ be 8 b.height ++ be64 b.unix ++ be 8 b.seed ++ b.seedHash.getD zeroHash).length =
        (c.prevHash ++ be 8 c.height ++ be64 c.unix ++ be 8 c.seed ++ c.seedHash.getD zeroHash).length := by
      simp only [List.length_append, fb.prevHash, fc.prevHash, be_length, be64, seedHash_length fb, seedHash_length fc]
    obtain ⟨h1, h2⟩ := List.append_inj hs l1
    obtain ⟨h1, hsh⟩ := List.append_inj h1 (by simp only [List.length_append, fb.prevHash, fc.prevHash, be_length, be64])
    obtain ⟨h1, hsd⟩ := List.append_inj h1 (by simp only [List.length_append, fb.prevHash, fc.prevHash, be_length, be64])
    obtain ⟨h1, htm⟩ := List.append_inj h1 (by simp only [List.length_append, fb.prevHash, fc.prevHash, be_length])
    obtain ⟨hprev, hhei⟩ := List.append_inj h1 (by rw [fb.prevHash, fc.prevHash])
    have hh := be8_inj fb.height fc.height hhei
    rw [hh] at h2
    have h3 : (bytesList b.content).flatten = (bytesList c.content).flatten ∧
        (if P.leaf c.height then be 4 b.version else []) = (if P.leaf c.height then be 4 c.version else []) := by
      obtain ⟨h4, h5⟩ := List.append_inj' h2 (by split <;> simp)
      exact ⟨(List.append_inj' h4 rfl).1, h5⟩
    have h6 := flatten_inj (n := 61) (by decide) (content_bytes_length fb.item) (content_bytes_length fc.item) h3.1
    have h7 : (b.content.map Item.bytes).Perm (c.content.map Item.bytes) := (bytesList_perm _).symm.trans ((List.Perm.of_eq h6).trans (bytesList_perm _))
    refine ⟨hprev, hh, be64_inj (unix_range fb) (unix_range fc) htm, be8_inj fb.seed fc.seed hsd, hsh, fun x => ⟨fun hx => ?_, fun hx => ?_⟩, fun hl => ?_⟩
    · obtain ⟨y, hy, e⟩ := List.mem_map.mp (h7.mem_iff.mp (List.mem_map.mpr ⟨x, hx, rfl⟩))
      rw [← item_inj (fc.item y hy) (fb.item x hx) e]
      exact hy
    · obtain ⟨y, hy, e⟩ := List.mem_map.mp (h7.mem_iff.mpr (List.mem_map.mpr ⟨x, hx, rfl⟩))
      rw [← item_inj (fb.item y hy) (fc.item x hx) e]
      exact hy
    · rw [hh] at hl
      simp only [hl, if_true] at h3
      exact be4_inj fb.version fc.version h3.2
  · intro s
    have hp : b.content.Perm c.content := (List.perm_ext_iff_of_nodup (List.Nodup.of_map _ fb.nodup) (List.Nodup.of_map _ fc.nodup)).mpr s.content
    have hb : bytesList b.content = bytesList c.content := content_order hp (bytesList_perm _) (bytesList_sorted _)
    unfold SnapshotBlock.computeHash SnapshotBlock.source
    have hu : b.unix = c.unix := s.seconds
    have hsh : b.seedHash.getD zeroHash = c.seedHash.getD zeroHash := s.seedHash
    rw [s.prevHash, ← s.height, hu, s.seed, hsh, hb]
    cases hl : P.leaf b.height with
    | true => rw [s.version hl]
    | false => simp

/-- **C74**, limit. Nothing of this is hashed: the part of the time below a second, the public key, the signature, and before the leaf upgrade the version. -/
theorem snapshot_hash_ignores (H : Bytes → Hash) (P : Points) (b : SnapshotBlock) (pk sig : Bytes) (hash : Hash) (ns : Int) (hns : 0 ≤ ns ∧ ns < 1000000000) (v : Nat)
    (hv : P.leaf b.height = true → v = b.version) :
    SnapshotBlock.computeHash H P { b with publicKey := pk, signature := sig, hash := hash, time := b.time / 1000000000 * 1000000000 + ns, version := v } =
      b.computeHash H P := by
  have : (b.time / 1000000000 * 1000000000 + ns) / 1000000000 = b.time / 1000000000 := by omega
  simp only [SnapshotBlock.computeHash, SnapshotBlock.source, SnapshotBlock.unix, this]
  cases hl : P.leaf b.height with
  | true => rw [hv hl]
  | false => rfl

/-- **C74.** A seed hash commits to the seed, to the block before the committing one and to its time. -/
theorem seed_hash_fixes {H : Bytes → Hash} {s t : Nat} {p q : Hash} {u v : Int} (hs : s < 2 ^ 64) (ht : t < 2 ^ 64) (hp : p.length = 32) (hq : q.length = 32)
    (hu : -2 ^ 63 ≤ u ∧ u < 2 ^ 63) (hv : -2 ^ 63 ≤ v ∧ v < 2 ^ 63) (hn : NoClash H [be 8 s ++ p ++ be64 u, be 8 t ++ q ++ be64 v])
    (h : computeSeedHash H s p u = computeSeedHash H t q v) : s = t ∧ p = q ∧ u = v := by
  have := hn _ (by simp) _ (by simp) h
  obtain ⟨h1, h3⟩ := List.append_inj this (by simp [hp, hq])
  obtain ⟨h1, h2⟩ := List.append_inj h1 (by simp)
  exact ⟨be8_inj hs ht h1, h2, be64_inj hu hv h3⟩

/-! ### Logs -/

/-- **C76.** The hash of logs fixes their bytes, one after the other; from the seed upgrade on also the account and the block before. -/
theorem log_hash_fixes_bytes {H : Bytes → Hash} {l m : List VmLog} {seed : Bool} {a c : Addr} {p q : Hash} (ha : a.length = 21) (hc : c.length = 21) (hp : p.length = 32)
    (hq : q.length = 32) (hl : l ≠ []) (hn : NoClash H [logSource l seed a p, logSource m seed c q]) (h : logListHash H l seed a p = logListHash H m seed c q) :
    m ≠ [] ∧ allBytes l = allBytes m ∧ (seed = true → a = c ∧ p = q) := by
  unfold logListHash at h
  have h0 : l.length ≠ 0 := fun e => hl (List.length_eq_zero_iff.mp e)
  rw [if_neg h0] at h
  by_cases hm : m.length = 0
  · rw [if_pos hm] at h; cases h
  rw [if_neg hm] at h
  simp only [Option.some.injEq] at h
  have hs := hn _ (by simp) _ (by simp) h
  refine ⟨fun e => hm (by rw [e]; rfl), ?_⟩
  cases seed with
  | false =>
    simp only [logSource, Bool.false_eq_true, if_false, List.append_nil] at hs
    exact ⟨hs, by simp⟩
  | true =>
    simp only [logSource, if_true] at hs
    obtain ⟨h1, h2⟩ := List.append_inj' hs (by simp [ha, hc, hp, hq])
    exact ⟨h1, fun _ => List.append_inj h2 (by rw [ha, hc])⟩

theorem logs_inj : ∀ {l m : List VmLog}, (∀ x ∈ l, ∀ t ∈ x.topics, t.length = 32) → (∀ x ∈ m, ∀ t ∈ x.topics, t.length = 32) → SameLogShape l m →
    allBytes l = allBytes m → l = m := by
  intro l
  induction l with
  | nil =>
    intro m _ _ hs _
    cases m with
    | nil => rfl
    | cons y m => simp [SameLogShape] at hs
  | cons x l ih =>
    intro m hl hm hs h
    cases m with
    | nil => simp [SameLogShape] at hs
    | cons y m =>
      simp only [SameLogShape, List.map_cons, List.cons.injEq, Prod.mk.injEq] at hs
      obtain ⟨⟨h1, h2⟩, h3⟩ := hs
      have e1 := flatten_length (hl x (List.mem_cons_self ..))
      have e2 := flatten_length (hm y (List.mem_cons_self ..))
      simp only [allBytes, List.map_cons, List.flatten_cons] at h
      obtain ⟨h4, h5⟩ := List.append_inj h (by simp only [List.length_append]; rw [e1, e2, h1, h2])
      obtain ⟨h6, h7⟩ := List.append_inj h4 (by rw [e1, e2, h1])
      have h8 := flatten_inj (n := 32) (by decide) (hl x (List.mem_cons_self ..)) (hm y (List.mem_cons_self ..)) h6
      have h9 := ih (fun z hz => hl z (List.mem_cons_of_mem _ hz)) (fun z hz => hm z (List.mem_cons_of_mem _ hz)) h3 h5
      cases x; cases y; simp_all

/-- **C76.** With the same numbers of topics and lengths of data the hash fixes the logs.

Missing: the full statement, that the hash fixes the logs, is false (`logs_one_hash`). -/
theorem log_hash_fixes_partial {H : Bytes → Hash} {l m : List VmLog} {seed : Bool} {a c : Addr} {p q : Hash} (ha : a.length = 21) (hc : c.length = 21) (hp : p.length = 32)
    (hq : q.length = 32) (hl : l ≠ []) (hn : NoClash H [logSource l seed a p, logSource m seed c q]) (tl : ∀ x ∈ l, ∀ t ∈ x.topics, t.length = 32)
    (tm : ∀ x ∈ m, ∀ t ∈ x.topics, t.length = 32) (hs : SameLogShape l m) (h : logListHash H l seed a p = logListHash H m seed c q) : l = m :=
  logs_inj tl tm hs (log_hash_fixes_bytes ha hc hp hq hl hn h).2.1

/-- **C76** is false, whatever the hash function, before and after the upgrade: a topic counts like the first 32 bytes of the data, and a log like a part of the one before.
So a contract can make a log that says one thing and hashes like another. -/
theorem logs_one_hash (H : Bytes → Hash) (seed : Bool) (a : Addr) (p : Hash) (t : Hash) (d e : Bytes) (l : List VmLog) :
    logListHash H (⟨[t], d⟩ :: l) seed a p = logListHash H (⟨[], t ++ d⟩ :: l) seed a p ∧
    logListHash H (⟨[t], d⟩ :: ⟨[], e⟩ :: l) seed a p = logListHash H (⟨[t], d ++ e⟩ :: l) seed a p := by
  constructor <;> simp [logListHash, logSource]

end Verif.Block
