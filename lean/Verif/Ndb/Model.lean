import Verif.Tab.BlockRep
import Mathlib.Data.List.Sort

/-!
# The database of known nodes

`net/database/database.go`.  The store is a list of keys with values, each key once; the order in which an
iterator goes through them is left as it is in the list, and the iterator sees the store as it was when it was
made.  Errors of the store, the file it is in and its version are left out.  How a node is put into bytes is a
parameter.  Times are whole numbers, differences do not wrap around.
-/

namespace Verif.Ndb
open Verif.Bytes Verif.Store

abbrev Store := List (Bytes × Bytes)

/-- `Get`, `Delete` and `Put` of the store (`database.go:189`, `:218`, `:209`), seen from outside. -/
def get (s : Store) (k : Bytes) : Option Bytes := (s.find? (fun e => e.1 = k)).map Prod.snd
def del (s : Store) (k : Bytes) : Store := s.filter (fun e => e.1 ≠ k)
def put (s : Store) (k v : Bytes) : Store := (k, v) :: del s k

/-- `node:data:`, `node:active:`, `node:check:`, `node:mark:`.  `database.go:45-48`. -/
def dataPrefix : Bytes := [110, 111, 100, 101, 58, 100, 97, 116, 97, 58]
def activePrefix : Bytes := [110, 111, 100, 101, 58, 97, 99, 116, 105, 118, 101, 58]
def checkPrefix : Bytes := [110, 111, 100, 101, 58, 99, 104, 101, 99, 107, 58]
def markPrefix : Bytes := [110, 111, 100, 101, 58, 109, 97, 114, 107, 58]

/-- `binary.PutVarint`. -/
def zigzag (i : Int) : Nat := if 0 ≤ i then (2 * i).toNat else (-(2 * i) - 1).toNat
def unzigzag (n : Nat) : Int := if n % 2 = 0 then ((n / 2 : Nat) : Int) else -((n / 2 : Nat) : Int) - 1

/-- `database.go:130-134` (`encodeVarint`), `:274-279` (`StoreInt64`). -/
def encodeVarint (i : Int) : Bytes := uvarint (zigzag i)

/-- `database.go:122-128` (`decodeVarint`): zero for what cannot be read. -/
def decodeVarint (b : Bytes) : Int := match readUvarint 0 0 b with | some (n, _) => unzigzag n | none => 0

/-- `database.go:265-272` (`RetrieveInt64`). -/
def retrieveInt (s : Store) (k : Bytes) : Int := match get s k with | some b => decodeVarint b | none => 0

/-- `database.go:136-154` (`RetrieveActiveAt`, `StoreActiveAt`; `RetrieveCheckAt`, `StoreCheckAt` are alike). -/
def activeAt (s : Store) (id : Bytes) : Int := retrieveInt s (activePrefix ++ id)
def storeActive (s : Store) (id : Bytes) (t : Int) : Store := put s (activePrefix ++ id) (encodeVarint t)
def checkAt (s : Store) (id : Bytes) : Int := retrieveInt s (checkPrefix ++ id)
def storeCheck (s : Store) (id : Bytes) (t : Int) : Store := put s (checkPrefix ++ id) (encodeVarint t)

/-- `database.go:156-159` (`RetrieveMark`). -/
def retrieveMark (s : Store) (id : Bytes) : Int := retrieveInt s (markPrefix ++ id)

/-- A number of 64 bits with a sign. -/
def signed (n : Nat) : Int := if n < 2 ^ 63 then n else (n : Int) - 2 ^ 64

/-- `database.go:162-170` (`StoreMark`): the mark and the time, eight bytes each. -/
def storeMark (s : Store) (id : Bytes) (v : Int) (now : Int) : Store :=
  put s (markPrefix ++ id) (be 8 (v % 2 ^ 64).toNat ++ be 8 (now % 2 ^ 64).toNat)

/-- How nodes are put into bytes (`vnode.Node.Serialize`, `Deserialize`). -/
structure Codec (N : Type) where
  ser : N → Bytes
  de : Bytes → Option N
  id : N → Bytes

variable {N : Type} (C : Codec N)

/-- `database.go:183-195` (`RetrieveNode`). -/
def retrieveNode (s : Store) (id : Bytes) : Option N := (get s (dataPrefix ++ id)).bind C.de

/-- `database.go:199-211` (`StoreNode`). -/
def storeNode (s : Store) (n : N) : Store := put s (dataPrefix ++ C.id n) (C.ser n)

/-- `database.go:214-228` (`RemoveNode`). -/
def removeNode (s : Store) (id : Bytes) : Store := del (del (del (del s (dataPrefix ++ id)) (activePrefix ++ id)) (checkPrefix ++ id)) (markPrefix ++ id)

/-- The entries an iterator over a prefix goes through. -/
def entries (s : Store) (p : Bytes) : List (Bytes × Bytes) := s.filter (fun e => p.isPrefixOf e.1)

/-- One round of `ReadNodes`.  `database.go:238-260`. -/
def readStep (now expiration : Int) (acc : List N × Store) (e : Bytes × Bytes) : List N × Store :=
  let id := e.1.drop activePrefix.length
  if id.length ≠ 32 then (acc.1, del acc.2 e.1)
  else if now - decodeVarint e.2 > expiration then (acc.1, removeNode acc.2 id)
  else
    match retrieveNode C acc.2 id with
    | none => (acc.1, removeNode acc.2 id)
    | some n => (acc.1 ++ [n], acc.2)

/-- `database.go:231-263` (`ReadNodes`). -/
def readNodes (s : Store) (now expiration : Int) : List N × Store := (entries s activePrefix).foldl (readStep C now expiration) ([], s)

/-- One round of `Clean`.  `database.go:289-302`. -/
def cleanStep (now expiration : Int) (s : Store) (e : Bytes × Bytes) : Store :=
  let id := e.1.drop activePrefix.length
  if id.length ≠ 32 then del s e.1 else if now - decodeVarint e.2 > expiration then removeNode s id else s

/-- `database.go:282-303` (`Clean`). -/
def clean (s : Store) (now expiration : Int) : Store := (entries s activePrefix).foldl (cleanStep now expiration) s

/-- `database.go:305-308` (`mark`). -/
structure Mark where
  id : Bytes
  weight : Int
deriving DecidableEq

/-- One round of the first loop of `ReadMarkNodes`.  `database.go:333-356`. -/
def markStep (now : Int) (acc : List Mark × Store) (e : Bytes × Bytes) : List Mark × Store :=
  let id := e.1.drop markPrefix.length
  if id.length ≠ 32 then (acc.1, del acc.2 e.1)
  else if e.2.length < 16 then (acc.1, del acc.2 e.1)
  else if now - signed (num ((e.2.drop 8).take 8)) > 24 * 3600 * 7 then (acc.1, del acc.2 e.1)
  else (acc.1 ++ [⟨id, signed (num (e.2.take 8))⟩], acc.2)

/-- One round of the second.  `database.go:366-374`. -/
def pickStep (acc : List N × Store) (m : Mark) : List N × Store :=
  match retrieveNode C acc.2 m.id with
  | none => (acc.1, removeNode acc.2 m.id)
  | some n => (acc.1 ++ [n], acc.2)

/-- `database.go:324-377` (`ReadMarkNodes`).  The sorting leaves open which of equal marks comes first; here it
is the one that came first. -/
def readMarkNodes (s : Store) (now : Int) (n : Nat) : List N × Store :=
  let ms := (entries s markPrefix).foldl (markStep now) ([], s)
  ((ms.1.insertionSort (fun a b => a.weight ≥ b.weight)).take n).foldl (pickStep C) ([], ms.2)

end Verif.Ndb
