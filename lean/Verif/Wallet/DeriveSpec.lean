import Verif.Wallet.DeriveModel

/-!
# What paths and indices mean

A path is `m` followed by one or more numbers, each after a slash and before a
quote.  It leads from the key of the seed over one child per number.
-/

namespace Verif.Wallet
open Verif.Bytes

/-- The number that decimal digits denote. -/
def number (ds : List Char) : Nat := ds.foldl (fun n c => n * 10 + (c.toNat - 48)) 0

/-- The text of a path with these numbers, as they are written. -/
def pathText (segs : List (List Char)) : List Char := 'm' :: segs.flatMap fun s => '/' :: s ++ ['\'']

/-- A number that a path may have: some digits, and below 2^31. -/
def GoodNumber (s : List Char) : Prop := s ≠ [] ∧ (∀ c ∈ s, isDigit c = true) ∧ number s < 2 ^ 31

/-- Of 64 bytes, the first half is a key and the second its chain code. -/
def halves (sum : Bytes) : Key := { key := sum.take 32, chain := sum.drop 32 }

/-- The four bytes of a number, the highest first. -/
def fourBytes (n : Nat) : Bytes := [n / 256 / 256 / 256, n / 256 / 256, n / 256, n].map UInt8.ofNat

/-- The hardened child of a key with a number (SLIP-10 for ed25519). -/
def child (L : Lib) (k : Key) (n : Nat) : Key :=
  halves (L.hmac k.chain (0 :: k.key ++ fourBytes (2 ^ 31 + n)))

/-- The text "ed25519 blake2b seed". -/
def seedText : Bytes :=
  ['e', 'd', '2', '5', '5', '1', '9', ' ', 'b', 'l', 'a', 'k', 'e', '2', 'b', ' ', 's', 'e', 'e', 'd'].map fun c => UInt8.ofNat c.toNat

/-- The key of a seed: the seed as a message under the key `seedText`. -/
def master (L : Lib) (seed : Bytes) : Key := halves (L.hmac seedText seed)

/-- The key at the end of a way. -/
def keyAt (L : Lib) (seed : Bytes) (ns : List Nat) : Key := ns.foldl (child L) (master L seed)

/-- The account with an index. -/
def account (L : Lib) (seed : Bytes) (i : Nat) : Key := keyAt L seed [44, 666666, i]

end Verif.Wallet
