import Verif.Wallet.DeriveModel

/-!
# Model of the files that hold a wallet's entropy

`wallet/entropystore/crypto_store.go`, `models.go`, and `StoreNewEntropy`,
`ExtractMnemonic` of `manager.go`.

What is simplified: the JSON text of a file is the record of its fields.
`scrypt.Key` gives at least 32 bytes when the length asked for is positive, of
which the code takes the first 32: the parameter `scrypt` is these 32.
-/

namespace Verif.Wallet
open Verif.Bytes

/-- models.go:7-28: `entropyJSON` with the records in it; the time is left
out. -/
structure File where
  address : Bytes
  version : Int
  cipherName : Bytes
  cipherText : Bytes
  nonce : Bytes
  kdf : Bytes
  n : Int
  r : Int
  p : Int
  keyLen : Int
  salt : Bytes
deriving DecidableEq, Repr

/-- crypto_store.go:34 "aes-256-gcm". -/
def aesMode : Bytes := [97, 101, 115, 45, 50, 53, 54, 45, 103, 99, 109]
/-- crypto_store.go:35 "scrypt". -/
def scryptName : Bytes := [115, 99, 114, 121, 112, 116]

/-- crypto_store.go:83-125 `parseJson`: the address, the cipher text, the nonce
and the salt. -/
def File.parse (L : Lib) (f : File) : Option (Bytes × Bytes × Bytes × Bytes) :=
  if f.version ≠ 1 then none
  else match Text.hexAddr L.digest f.address with
    | none => none
    | some a =>
      if f.cipherName ≠ aesMode then none
      else if f.kdf ≠ scryptName then none
      else match Text.decode f.cipherText, Text.decode f.nonce, Text.decode f.salt with
        | some c, some n, some s => some (a, c, n, s)
        | _, _, _ => none

/-- crypto_store.go:127-162 `DecryptEntropy`.  `derivedKey[:32]` panics for an
empty key (`:140`), and GCM panics for a nonce that is not 12 bytes long
(crypto/crypto.go:138, `cipher.AEAD.Open`). -/
def decryptEntropy (L : Lib) (f : File) (pass : Bytes) : Res Bytes :=
  match f.parse L with
  | none => .err
  | some (a, c, n, s) =>
    match L.scrypt pass s f.n f.r f.p with
    | none => .err
    | some key =>
      if f.keyLen ≤ 0 then .panic
      else if n.length ≠ 12 then .panic
      else match L.dec key n c with
        | none => .badPass
        | some e =>
          match L.mnemonic e with
          | none => .err
          | some m =>
            match primaryAddress L (L.seed m) with
            | none => .err
            | some g => if g ≠ a then .err else .ok e

/-- crypto_store.go:164-205 `EncryptEntropy`; `salt` and `nonce` are random. -/
def encryptEntropy (L : Lib) (e a pass salt nonce : Bytes) : Option File :=
  match L.scrypt pass salt (2 ^ 18) 8 1 with
  | none => none
  | some key =>
    some {
      address := Text.addrHex L.digest a, version := 1,
      cipherName := aesMode, cipherText := Text.encode (L.enc key nonce e), nonce := Text.encode nonce,
      kdf := scryptName, n := 2 ^ 18, r := 8, p := 1, keyLen := 32, salt := Text.encode salt }

/-- manager.go:227-242 `StoreNewEntropy`: the content of the new file, and the
primary address, which is its name.  The error of `MnemonicToPrimaryAddr` is
not looked at; it does not occur. -/
def storeNewEntropy (L : Lib) (mnemonic pass salt nonce : Bytes) : Option (File × Bytes) :=
  match L.entropy mnemonic with
  | none => none
  | some e =>
    match primaryAddress L (L.seed mnemonic) with
    | none => none
    | some a => (encryptEntropy L e a pass salt nonce).map fun f => (f, a)

/-- crypto_store.go:42-54 `ExtractSeed`, of the file's content (`none`: it
cannot be read). -/
def extractSeed (L : Lib) (f : Option File) (pass : Bytes) : Res Bytes :=
  match f with
  | none => .err
  | some f =>
    match decryptEntropy L f pass with
    | .ok e =>
      match L.mnemonic e with
      | none => .err
      | some m => .ok (L.seed m)
    | .notFound => .notFound
    | .locked => .locked
    | .badPass => .badPass
    | .noStore => .noStore
    | .err => .err
    | .panic => .panic

/-- manager.go:219-225 `ExtractMnemonic`. -/
def extractMnemonic (L : Lib) (f : Option File) (pass : Bytes) : Res Bytes :=
  match f with
  | none => .err
  | some f =>
    match decryptEntropy L f pass with
    | .ok e =>
      match L.mnemonic e with
      | none => .err
      | some m => .ok m
    | .notFound => .notFound
    | .locked => .locked
    | .badPass => .badPass
    | .noStore => .noStore
    | .err => .err
    | .panic => .panic

/-- The names of files: those that a wallet looks at, and those of temporary
files, which begin with a dot (crypto_store.go:213, wallet/manager.go:206). -/
inductive Name where
  | plain (n : Nat)
  | dot (n : Nat)
deriving DecidableEq, Repr

/-- A directory, as the contents of its files. -/
abbrev Dir (α : Type) := Name → Option (List α)

def Dir.set {α : Type} (d : Dir α) (n : Name) (c : Option (List α)) : Dir α := fun m => if m = n then c else d m

/-- crypto_store.go:207-225 `writeKeyFile`: the states of the directory one
after the other: before, with the empty temporary file, with each first part of
the content in it, and after the renaming.  (A crash of the machine, with
writes that the system had not done, is not modelled; the code does not call
`Sync`.) -/
def writeKeyFile {α : Type} (d : Dir α) (file : Nat) (tmp : Nat) (content : List α) : List (Dir α) :=
  d :: ((List.range (content.length + 1)).map fun k => d.set (.dot tmp) (some (content.take k)))
    ++ [(d.set (.dot tmp) none).set (.plain file) (some content)]

end Verif.Wallet
