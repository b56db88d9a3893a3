import Verif.Text.TextProps

/-!
# Model of the derivation of keys from a seed

`wallet/hd-bip/derivation/main.go` and `FindAddrFromSeed` of
`wallet/entropystore/manager.go`.

HMAC-SHA512, the public key of a secret and the address of a public key are
parameters (`Lib`, the other fields of which belong to `StoreModel`).  A path is
a list of characters.
-/

namespace Verif.Wallet
open Verif.Bytes

/-- The libraries that the wallet uses. -/
structure Lib where
  /-- HMAC-SHA512 of a message under a key -/
  hmac : Bytes → Bytes → Bytes
  /-- `ed25519.GenerateKey` from a reader of the given bytes: the public key -/
  pub : Bytes → Bytes
  /-- `types.PubkeyToAddress` -/
  addr : Bytes → Bytes
  /-- `scrypt.Key`: passphrase, salt, N, r, p -/
  scrypt : Bytes → Bytes → Int → Int → Int → Option Bytes
  /-- AES-256-GCM: key, nonce, text -/
  enc : Bytes → Bytes → Bytes → Bytes
  dec : Bytes → Bytes → Bytes → Option Bytes
  /-- `bip39.NewMnemonic` of an entropy -/
  mnemonic : Bytes → Option Bytes
  /-- `bip39.EntropyFromMnemonic` -/
  entropy : Bytes → Option Bytes
  /-- `bip39.NewSeed` of a mnemonic and the empty passphrase -/
  seed : Bytes → Bytes
  /-- the checksum in the text of an address -/
  digest : Text.Digest

/-- `[0-9]` of the regular expression, and the digits of `strconv`. -/
def isDigit (c : Char) : Bool := 48 ≤ c.toNat && c.toNat ≤ 57

/-- derivation/main.go:31 `pathRegex` after the `m`: what the automaton of
`(\/[0-9]+')+$` accepts, from the state before a slash (0), after a slash (1),
after a digit (2) and after a quote (3). -/
def accepts : Nat → List Char → Bool
  | 3, [] => true
  | _, [] => false
  | 0, c :: cs => c == '/' && accepts 1 cs
  | 1, c :: cs => isDigit c && accepts 2 cs
  | 2, c :: cs => if isDigit c then accepts 2 cs else c == '\'' && accepts 3 cs
  | _, c :: cs => c == '/' && accepts 1 cs

/-- derivation/main.go:31: `^m(\/[0-9]+')+$`. -/
def matchesPath : List Char → Bool
  | c :: cs => c == 'm' && accepts 0 cs
  | [] => false

/-- `strings.Split(path, "/")`: the current piece is given back first. -/
def splitSlash : List Char → List (List Char)
  | [] => [[]]
  | c :: cs =>
    if c = '/' then [] :: splitSlash cs
    else match splitSlash cs with
      | [] => [[c]]
      | p :: ps => (c :: p) :: ps

/-- `strings.TrimRight(segment, "'")`. -/
def trimQuote (s : List Char) : List Char := (s.reverse.dropWhile (· == '\'')).reverse

/-- The loop of `strconv.ParseUint(s, 10, 32)`. -/
def parseLoop : Nat → List Char → Option Nat
  | n, [] => some n
  | n, c :: cs =>
    if isDigit c = false then none
    else if 2 ^ 32 ≤ n * 10 + (c.toNat - 48) then none
    else parseLoop (n * 10 + (c.toNat - 48)) cs

/-- `strconv.ParseUint(s, 10, 32)`. -/
def parseUint (s : List Char) : Option Nat := if s = [] then none else parseLoop 0 s

/-- derivation/main.go:172-187 `isValidPath`. -/
def isValidPath (path : List Char) : Bool :=
  matchesPath path && (splitSlash path).tail.all fun s => (parseUint (trimQuote s)).isSome

/-- derivation/main.go:34-37 `Key`. -/
structure Key where
  key : Bytes
  chain : Bytes
deriving DecidableEq, Repr

/-- A hash of 64 bytes as a key. -/
def Key.ofSum (sum : Bytes) : Key := ⟨sum.take 32, sum.drop 32⟩

/-- derivation/main.go:24 `seedModifier`: "ed25519 blake2b seed". -/
def seedModifier : Bytes :=
  [101, 100, 50, 53, 53, 49, 57, 32, 98, 108, 97, 107, 101, 50, 98, 32, 115, 101, 101, 100]

/-- derivation/main.go:102-114 `NewMasterKey`. -/
def newMasterKey (L : Lib) (seed : Bytes) : Key := Key.ofSum (L.hmac seedModifier seed)

/-- `binary.BigEndian.PutUint32`. -/
def be32 (i : Nat) : Bytes :=
  [UInt8.ofNat (i / 2 ^ 24), UInt8.ofNat (i / 2 ^ 16), UInt8.ofNat (i / 2 ^ 8), UInt8.ofNat i]

/-- derivation/main.go:116-138 `Derive`: only for hardened indices. -/
def Key.derive (L : Lib) (k : Key) (i : Nat) : Option Key :=
  if i < 2 ^ 31 then none
  else some (Key.ofSum (L.hmac k.chain (0 :: k.key ++ be32 i)))

/-- derivation/main.go:79: `uint32(i64) + FirstHardenedIndex`; the sum of two
`uint32` wraps around. -/
def harden (n : Nat) : Nat := (n + 2 ^ 31) % 2 ^ 32

/-- derivation/main.go:73-84: the loop over the segments. -/
def deriveLoop (L : Lib) : List (List Char) → Key → Option Key
  | [], k => some k
  | s :: ss, k =>
    (parseUint (trimQuote s)).bind fun n => (k.derive L (harden n)).bind fun k' => deriveLoop L ss k'

/-- derivation/main.go:62-87 `DeriveForPath`. -/
def deriveForPath (L : Lib) (path : List Char) (seed : Bytes) : Option Key :=
  if isValidPath path = false then none
  else deriveLoop L (splitSlash path).tail (newMasterKey L seed)

/-- The digit of a number below ten. -/
def digitChar (n : Nat) : Char := Char.ofNat (48 + n)

/-- `%d` of a `uint32`: ten digits are enough. -/
def decimalLoop : Nat → Nat → List Char
  | 0, _ => []
  | fuel + 1, n => if n < 10 then [digitChar n] else decimalLoop fuel (n / 10) ++ [digitChar (n % 10)]

/-- derivation/main.go:22 `ViteAccountPathFormat` with an index: `m/44'/666666'/%d'`. -/
def indexPath (i : Nat) : List Char :=
  ['m', '/', '4', '4', '\'', '/', '6', '6', '6', '6', '6', '6', '\'', '/'] ++ decimalLoop 10 i ++ ['\'']

/-- derivation/main.go:89-92 `DeriveWithIndex`. -/
def deriveWithIndex (L : Lib) (i : Nat) (seed : Bytes) : Option Key := deriveForPath L (indexPath i) seed

/-- derivation/main.go:39-47 `Address`, :140-147 `PublicKey`. -/
def Key.address (L : Lib) (k : Key) : Bytes := L.addr (L.pub k.key)

/-- derivation/main.go:94-100 `GetPrimaryAddress`. -/
def primaryAddress (L : Lib) (seed : Bytes) : Option Bytes :=
  (deriveWithIndex L 0 seed).map (Key.address L)

/-- What the functions of the wallet return: a result, or one of the errors
that callers distinguish, or a panic. -/
inductive Res (α : Type) where
  | ok (a : α)
  | notFound
  | locked
  | badPass
  | noStore
  | err
  | panic
deriving DecidableEq, Repr

/-- entropystore/manager.go:266-281, the loop of `FindAddrFromSeed`: `left`
indices from `i` on. -/
def findLoop (L : Lib) (seed a : Bytes) : Nat → Nat → Res (Key × Nat)
  | 0, _ => .notFound
  | left + 1, i =>
    match deriveWithIndex L i seed with
    | none => .err
    | some k => if a = k.address L then .ok (k, i) else findLoop L seed a left (i + 1)

/-- entropystore/manager.go:266-281 `FindAddrFromSeed`. -/
def findAddrFromSeed (L : Lib) (seed a : Bytes) (max : Nat) : Res (Key × Nat) := findLoop L seed a max 0

end Verif.Wallet
