import Verif.Wallet.StoreModel
import Verif.Wallet.DeriveProps

/-!
# Files of a wallet

C114: a stored mnemonic is given back for its passphrase; a file opens to no
other account than the one it names; no other passphrase opens it; a crash while
it is written leaves the old file or the new one.
-/

namespace Verif.Wallet
open Verif.Bytes

/-- What is assumed of the libraries: decryption undoes encryption, checksums
have their length, and addresses of keys are addresses. -/
structure Lib.Sound (L : Lib) : Prop where
  dec_enc : ∀ key nonce e, L.dec key nonce (L.enc key nonce e) = some e
  sized : Text.Sized L.digest
  addr : ∀ p, Text.IsAddr (L.addr p)

/-- A mnemonic as `NewMnemonic` writes it. -/
def Canonical (L : Lib) (m e : Bytes) : Prop := L.entropy m = some e ∧ L.mnemonic e = some m

theorem primaryAddress_eq (L : Lib) (seed : Bytes) :
    primaryAddress L seed = some ((account L seed 0).address L) := by
  rw [primaryAddress, derive_index L 0 (by decide) seed, if_pos (by decide)]; rfl

theorem parse_encrypt {L : Lib} (hL : L.Sound) (e pass salt nonce : Bytes) {a : Bytes} (ha : Text.IsAddr a) {f : File}
    (h : encryptEntropy L e a pass salt nonce = some f) :
    ∃ key, L.scrypt pass salt (2 ^ 18) 8 1 = some key ∧ f.parse L = some (a, L.enc key nonce e, nonce, salt)
      ∧ f.n = 2 ^ 18 ∧ f.r = 8 ∧ f.p = 1 ∧ f.keyLen = 32 := by
  unfold encryptEntropy at h
  cases hk : L.scrypt pass salt (2 ^ 18) 8 1 with
  | none => rw [hk] at h; cases h
  | some key =>
    rw [hk] at h
    simp only [Option.some.injEq] at h
    subst h
    refine ⟨key, rfl, ?_, rfl, rfl, rfl, rfl⟩
    simp [File.parse, Text.address_roundtrip L.digest hL.sized ha, Text.decode_encode]

theorem decrypt_encrypt {L : Lib} (hL : L.Sound) (e pass pass' salt nonce : Bytes) {a : Bytes} (ha : Text.IsAddr a)
    (hn : nonce.length = 12) {f : File} (h : encryptEntropy L e a pass salt nonce = some f) :
    ∃ key, L.scrypt pass salt (2 ^ 18) 8 1 = some key ∧
      decryptEntropy L f pass' =
        match L.scrypt pass' salt (2 ^ 18) 8 1 with
        | none => .err
        | some key' =>
          match L.dec key' nonce (L.enc key nonce e) with
          | none => .badPass
          | some e' =>
            match L.mnemonic e' with
            | none => .err
            | some m => if (account L (L.seed m) 0).address L ≠ a then .err else .ok e' := by
  obtain ⟨key, hk, hp, h1, h2, h3, h4⟩ := parse_encrypt hL e pass salt nonce ha h
  refine ⟨key, hk, ?_⟩
  unfold decryptEntropy
  simp only [hp, h1, h2, h3, h4, hn]
  cases L.scrypt pass' salt (2 ^ 18) 8 1 with
  | none => rfl
  | some key' =>
    simp only [show ¬ ((32 : Int) ≤ 0) by decide, if_false, ne_eq, not_true_eq_false]
    cases L.dec key' nonce (L.enc key nonce e) with
    | none => rfl
    | some e' =>
      simp only
      cases L.mnemonic e' with
      | none => rfl
      | some m => simp only [primaryAddress_eq]

/-- **C114 (round trip).** A mnemonic that was stored is given back for its
passphrase, and the wallet is unlocked with its seed. -/
theorem stored_opens {L : Lib} (hL : L.Sound) (m e pass salt nonce : Bytes) (hm : Canonical L m e)
    (hn : nonce.length = 12) {f : File} {a : Bytes} (h : storeNewEntropy L m pass salt nonce = some (f, a)) :
    a = (account L (L.seed m) 0).address L
      ∧ extractMnemonic L (some f) pass = .ok m ∧ extractSeed L (some f) pass = .ok (L.seed m) := by
  unfold storeNewEntropy at h
  simp only [hm.1, primaryAddress_eq] at h
  cases hf : encryptEntropy L e ((account L (L.seed m) 0).address L) pass salt nonce with
  | none => rw [hf] at h; cases h
  | some f' =>
    rw [hf] at h
    simp only [Option.map_some, Option.some.injEq, Prod.mk.injEq] at h
    obtain ⟨rfl, rfl⟩ := h
    obtain ⟨key, hk, hd⟩ := decrypt_encrypt hL e pass pass salt nonce (hL.addr _) hn hf
    have : decryptEntropy L f' pass = .ok e := by
      rw [hd, hk]
      simp [hL.dec_enc, hm.2, Key.address]
    refine ⟨rfl, ?_, ?_⟩
    · simp [extractMnemonic, this, hm.2]
    · simp [extractSeed, this, hm.2]

/-- **C114 (the key file can be made).** Storing fails only if the mnemonic is
refused or `scrypt` fails. -/
theorem store_succeeds (L : Lib) (m e pass salt nonce key : Bytes) (hm : L.entropy m = some e)
    (hk : L.scrypt pass salt (2 ^ 18) 8 1 = some key) : ∃ f, storeNewEntropy L m pass salt nonce
      = some (f, (account L (L.seed m) 0).address L) := by
  simp only [storeNewEntropy, hm, primaryAddress_eq, encryptEntropy, hk, Option.map_some]
  exact ⟨_, rfl⟩

/-- **C114 (the account it names).** Whatever is in a file and whatever the
passphrase: what opens is an entropy whose primary account is the one that the
file names. -/
theorem opened_is_named (L : Lib) (f : File) (pass seed : Bytes) (h : extractSeed L (some f) pass = .ok seed) :
    Text.hexAddr L.digest f.address = some ((account L seed 0).address L) := by
  have key : ∀ e, decryptEntropy L f pass = .ok e → ∃ m, L.mnemonic e = some m
      ∧ Text.hexAddr L.digest f.address = some ((account L (L.seed m) 0).address L) := by
    intro e he
    unfold decryptEntropy File.parse at he
    split at he
    · cases he
    · rename_i a c n s hp
      split at hp
      · cases hp
      · split at hp
        · cases hp
        · rename_i a' ha'
          split at hp
          · cases hp
          · split at hp
            · cases hp
            · split at hp
              · simp only [Option.some.injEq, Prod.mk.injEq] at hp
                obtain ⟨rfl, _⟩ := hp
                split at he
                · cases he
                · split at he
                  · cases he
                  · split at he
                    · cases he
                    · split at he
                      · cases he
                      · split at he
                        · cases he
                        · rename_i m hm
                          rw [primaryAddress_eq] at he
                          simp only at he
                          split at he
                          · cases he
                          · rename_i hg
                            cases he
                            exact ⟨m, hm, by rw [ha']; simpa using (Classical.not_not.1 hg).symm⟩
              · cases hp
  unfold extractSeed at h
  simp only at h
  split at h
  · rename_i e he
    obtain ⟨m, hm, ha⟩ := key e he
    rw [hm] at h
    simp only [Res.ok.injEq] at h
    rw [← h]; exact ha
  all_goals cases h

/-- **C114 (no other passphrase).** If the cipher tells a wrong key, a stored
wallet opens only for a passphrase that gives the same key. -/
theorem other_passphrase {L : Lib} (hL : L.Sound)
    (auth : ∀ k k' nonce e, k ≠ k' → L.dec k' nonce (L.enc k nonce e) = none)
    (m pass pass' salt nonce : Bytes) (hn : nonce.length = 12) {f : File} {a r : Bytes}
    (h : storeNewEntropy L m pass salt nonce = some (f, a)) (ho : extractMnemonic L (some f) pass' = .ok r) :
    L.scrypt pass' salt (2 ^ 18) 8 1 = L.scrypt pass salt (2 ^ 18) 8 1 := by
  unfold storeNewEntropy at h
  cases hm : L.entropy m with
  | none => rw [hm] at h; cases h
  | some e =>
    simp only [hm, primaryAddress_eq] at h
    cases hf : encryptEntropy L e ((account L (L.seed m) 0).address L) pass salt nonce with
    | none => rw [hf] at h; cases h
    | some f' =>
      rw [hf] at h
      simp only [Option.map_some, Option.some.injEq, Prod.mk.injEq] at h
      obtain ⟨rfl, rfl⟩ := h
      obtain ⟨key, hk, hd⟩ := decrypt_encrypt hL e pass pass' salt nonce (hL.addr _) hn hf
      rw [hk]
      cases hk' : L.scrypt pass' salt (2 ^ 18) 8 1 with
      | none => rw [hk'] at hd; simp [extractMnemonic, hd] at ho
      | some key' =>
        by_cases he : key = key'
        · rw [he]
        · rw [hk'] at hd
          simp only [auth key key' nonce e he] at hd
          simp [extractMnemonic, hd] at ho

/-- **What can be lost.** A mnemonic that is accepted but not written as
`NewMnemonic` writes it (more spaces, say) gives another seed: the file is
written without an error under an address that it does not open to, and no
passphrase opens it. -/
theorem noncanonical_never_opens {L : Lib} (hL : L.Sound)
    (auth : ∀ k k' nonce e, k ≠ k' → L.dec k' nonce (L.enc k nonce e) = none)
    (m m' e pass salt nonce : Bytes)
    (h1 : L.entropy m = some e) (h2 : L.mnemonic e = some m')
    (hne : (account L (L.seed m') 0).address L ≠ (account L (L.seed m) 0).address L)
    (hn : nonce.length = 12) {f : File} {a : Bytes} (h : storeNewEntropy L m pass salt nonce = some (f, a)) :
    ∀ pass' r, extractMnemonic L (some f) pass' ≠ .ok r := by
  intro pass' r ho
  have hs := other_passphrase hL auth m pass pass' salt nonce hn h ho
  unfold storeNewEntropy at h
  simp only [h1, primaryAddress_eq] at h
  cases hf : encryptEntropy L e ((account L (L.seed m) 0).address L) pass salt nonce with
  | none => rw [hf] at h; cases h
  | some f' =>
    rw [hf] at h
    simp only [Option.map_some, Option.some.injEq, Prod.mk.injEq] at h
    obtain ⟨rfl, rfl⟩ := h
    obtain ⟨key, hk, hd⟩ := decrypt_encrypt hL e pass pass' salt nonce (hL.addr _) hn hf
    have : decryptEntropy L f' pass' = .err := by
      rw [hd, hs, hk]
      simp only [hL.dec_enc, h2]
      exact if_pos hne
    simp [extractMnemonic, this] at ho

/-- **A file can stop the caller.** A file that passes all tests, with a nonce of
another length, makes the decryption panic, for every passphrase. -/
theorem file_can_panic (L : Lib) (f : File) (a c n s pass key : Bytes) (hp : f.parse L = some (a, c, n, s))
    (hk : L.scrypt pass s f.n f.r f.p = some key) (hl : n.length ≠ 12) : decryptEntropy L f pass = .panic := by
  simp [decryptEntropy, hp, hk, hl]

/-- **C114 (a crash while the file is written).** At every moment the file holds
what it held before or the whole new content, and all other files that the
wallet looks at are as they were. -/
theorem write_atomic {α : Type} (d : Dir α) (file tmp : Nat) (content : List α) :
    (∀ s ∈ writeKeyFile d file tmp content,
      (s (.plain file) = d (.plain file) ∨ s (.plain file) = some content)
      ∧ ∀ n, n ≠ file → s (.plain n) = d (.plain n))
    ∧ ∃ s, (writeKeyFile d file tmp content).getLast? = some s ∧ s (.plain file) = some content
      ∧ s (.dot tmp) = none := by
  constructor
  · intro s hs
    simp only [writeKeyFile, List.cons_append, List.mem_cons, List.mem_append, List.mem_map, List.mem_range,
      List.not_mem_nil, or_false] at hs
    rcases hs with rfl | ⟨k, _, rfl⟩ | rfl
    · exact ⟨Or.inl rfl, fun _ _ => rfl⟩
    · exact ⟨Or.inl (by simp [Dir.set]), fun n _ => by simp [Dir.set]⟩
    · refine ⟨Or.inr (by simp [Dir.set]), fun n hn => ?_⟩
      simp [Dir.set, hn]
  · exact ⟨(d.set (.dot tmp) none).set (.plain file) (some content),
      by rw [writeKeyFile, List.getLast?_append]; simp, by simp [Dir.set], by simp [Dir.set]⟩

/-- Libraries for an example: a cipher that appends the key, a checksum, and a
mnemonic that is the entropy with a mark, which is also accepted with a space in
front. -/
def exLib : Lib where
  hmac k d := (k ++ d).foldl (fun x y => x * 3 + y) 1 :: List.replicate 31 0 ++ (k ++ d).foldl (fun x y => x * 5 + y) 1 :: List.replicate 31 0
  pub := id
  addr p := List.replicate 20 (p.headD 0) ++ [0]
  scrypt p s _ _ _ := some (p ++ s)
  enc k _ e := e ++ 0 :: k
  dec k _ c := if (0 :: k).isSuffixOf c then some (c.take (c.length - (k.length + 1))) else none
  mnemonic e := some (109 :: e)
  entropy m := match m with
    | 109 :: e => some e
    | 32 :: 109 :: e => some e
    | _ => none
  seed m := m
  digest := Text.exDigest

theorem exLib_sound : exLib.Sound := by
  refine ⟨?_, Text.exDigest_sized, ?_⟩
  · intro key nonce e
    have : (0 :: key).isSuffixOf (e ++ 0 :: key) = true := by simp
    simp [exLib]
  · intro p
    refine ⟨by simp [exLib], Or.inl ?_⟩
    simp only [exLib]
    rw [List.getElem?_append_right (by simp)]
    simp

/-- A wallet is stored and opened. -/
example : ∃ f a, storeNewEntropy exLib (109 :: [1, 2, 3, 4]) [7] [8] (List.replicate 12 9) = some (f, a)
    ∧ extractMnemonic exLib (some f) [7] = .ok (109 :: [1, 2, 3, 4]) := by
  obtain ⟨f, hf⟩ := store_succeeds exLib (109 :: [1, 2, 3, 4]) [1, 2, 3, 4] [7] [8] (List.replicate 12 9) ([7] ++ [8]) rfl rfl
  exact ⟨f, _, hf, (stored_opens exLib_sound _ [1, 2, 3, 4] _ _ _ ⟨rfl, rfl⟩ rfl hf).2.1⟩

/-- The mnemonic with a space in front has another account. -/
example : (account exLib (exLib.seed (109 :: [1, 2, 3, 4])) 0).address exLib
    ≠ (account exLib (exLib.seed (32 :: 109 :: [1, 2, 3, 4])) 0).address exLib := by decide +kernel

/-- The path `m/44'/666666'/3'` leads to a key, and the search finds the account
with index 3. -/
example : (∃ k, deriveForPath exLib (pathText [['4', '4'], ['6', '6', '6', '6', '6', '6'], ['3']]) [1, 2] = some k)
    ∧ ∃ k i, findAddrFromSeed exLib [1, 2] ((account exLib [1, 2] 3).address exLib) 10 = .ok (k, i) := by
  refine ⟨⟨_, (derive_path _ _ _ _).2 ⟨_, by simp, ?_, rfl, rfl⟩⟩, ?_⟩
  · intro s hs
    simp only [List.mem_cons, List.not_mem_nil, or_false] at hs
    rcases hs with rfl | rfl | rfl <;> exact ⟨by simp, by decide, by decide⟩
  · cases h : findAddrFromSeed exLib [1, 2] ((account exLib [1, 2] 3).address exLib) 10 with
    | ok x => exact ⟨x.1, x.2, rfl⟩
    | notFound => exact absurd rfl ((find_address_none _ _ _ _ (by decide)).1 h 3 (by decide))
    | _ =>
      rw [findAddrFromSeed, findLoop_spec _ _ _ _ _ (by decide)] at h
      split at h <;> cases h

end Verif.Wallet
