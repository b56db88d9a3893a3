import Verif.Wallet.StoreModel

/-!
# Model of the wallet manager

`wallet/manager.go` with `wallet/entropystore/manager.go` and the callers in
`rpcapi/api/wallet.go` and `wallet_v2.go`.

What is simplified: paths are numbers; the content of the files is an argument
of each operation, so that files may change in between.  The map of stores is a
list of pairs with different keys; where the code iterates over it, the order is
an argument.  Calls are atomic (the code has no lock here).  After `Stop` the
map is `nil`, and adding a store before the next `Start` panics; the model has
an empty list there.  Stores are reached only through the wallet: a pointer to
one that was replaced or removed is not followed.
-/

namespace Verif.Wallet
open Verif.Bytes

/-- The name of a file as a caller gives it: absolute, or relative to the
directory of the wallet. -/
inductive Ref where
  | abs (p : Nat)
  | rel (p : Nat)
deriving DecidableEq, Repr

/-- The surroundings: where relative names lead (`filepath.Join(DataDir, …)`),
the name of the file for an address (entropystore/utils.go:45-47), and
`MaxSearchIndex` of the configuration (manager.go:36-38). -/
structure Env where
  join : Nat → Nat
  nameOf : Bytes → Nat
  maxIndex : Nat

/-- manager.go:228-231: the absolute path. -/
def Ref.path (E : Env) : Ref → Nat
  | .abs p => p
  | .rel p => E.join p

/-- The key that the text itself is, if it is one: a relative path is none. -/
def Ref.raw : Ref → Option Nat
  | .abs p => some p
  | .rel _ => none

/-- entropystore/manager.go:37-48 `Manager`: `seed` is `unlockedSeed`, `told`
whether it has the listener that the wallet gave it. -/
structure Store where
  primary : Bytes
  max : Nat
  seed : Option Bytes
  told : Bool
deriving DecidableEq, Repr

/-- manager.go:21-29 `Manager`: the stores, the listeners with their numbers, and
`unlockChangedIndex`. -/
structure Wallet where
  stores : List (Nat × Store)
  lis : List (Nat × Nat)
  index : Nat
deriving DecidableEq, Repr

/-- manager.go:31-47 `New`. -/
def Wallet.new : Wallet := ⟨[], [], 0⟩

/-- Assignment to one key of a map. -/
def setKey {α : Type} (m : List (Nat × α)) (k : Nat) (v : α) : List (Nat × α) :=
  m.filter (fun e => e.1 ≠ k) ++ [(k, v)]

/-- Deletion of one key. -/
def delKey {α : Type} (m : List (Nat × α)) (k : Nat) : List (Nat × α) := m.filter fun e => e.1 ≠ k

/-- manager.go:227-236 `GetEntropyStoreManager`. -/
def Wallet.get (E : Env) (w : Wallet) (r : Ref) : Option Store := w.stores.lookup (r.path E)

/-- What listeners hear: who, of which file, whether it was unlocked. -/
structure Event where
  listener : Nat
  path : Nat
  unlocked : Bool
deriving DecidableEq, Repr

/-- manager.go:256-262: the function given to each store, at the time it is
called. -/
def Wallet.tell (w : Wallet) (s : Store) (p : Nat) (u : Bool) : List Event :=
  if s.told then w.lis.map fun l => ⟨l.2, p, u⟩ else []

/-- entropystore/manager.go:100-115 `Unlock`, manager.go:57-64. -/
def Wallet.unlock (L : Lib) (E : Env) (fs : Nat → Option File) (w : Wallet) (r : Ref) (pass : Bytes) :
    Wallet × Res Unit × List Event :=
  match w.get E r with
  | none => (w, .noStore, [])
  | some s =>
    match extractSeed L (fs (r.path E)) pass with
    | .ok seed =>
      ({ w with stores := setKey w.stores (r.path E) { s with seed := some seed } }, .ok (), w.tell s (r.path E) true)
    | .notFound => (w, .notFound, [])
    | .locked => (w, .locked, [])
    | .badPass => (w, .badPass, [])
    | .noStore => (w, .noStore, [])
    | .err => (w, .err, [])
    | .panic => (w, .panic, [])

/-- entropystore/manager.go:117-126 `Lock`, manager.go:74-81. -/
def Wallet.lock (E : Env) (w : Wallet) (r : Ref) : Wallet × List Event :=
  match w.get E r with
  | none => (w, [])
  | some s =>
    ({ w with stores := setKey w.stores (r.path E) { s with seed := none } }, w.tell s (r.path E) false)

/-- manager.go:239-264 `AddEntropyStore`. -/
def Wallet.add (L : Lib) (E : Env) (fs : Nat → Option File) (w : Wallet) (r : Ref) : Wallet :=
  match fs (r.path E) with
  | none => w
  | some f =>
    match f.parse L with
    | none => w
    | some (a, _) =>
      match w.get E r with
      | some _ => w
      | none => { w with stores := setKey w.stores (r.path E) ⟨a, E.maxIndex, none, true⟩ }

/-- manager.go:266-277 `RemoveEntropyStore`: the store is looked up by its
absolute path and deleted by the name as it was given. -/
def Wallet.remove (E : Env) (w : Wallet) (r : Ref) : Wallet × List Event :=
  match w.get E r with
  | none => (w, [])
  | some _ =>
    match r.raw with
    | none => w.lock E r
    | some p => ({ (w.lock E r).1 with stores := delKey (w.lock E r).1.stores p }, (w.lock E r).2)

/-- manager.go:88-99 `RefreshCache`: stores whose file is gone are locked and
removed.  `order` is the order of the iteration. -/
def Wallet.refresh (fs : Nat → Option File) (w : Wallet) (order : List (Nat × Store)) : Wallet × List Event :=
  ({ w with stores := w.stores.filter fun e => (fs e.1).isSome },
    (order.filter fun e => (fs e.1).isNone).flatMap fun e => w.tell e.2 e.1 false)

/-- manager.go:279-293 `RecoverEntropyStoreFromMnemonic`, and :295-310
`NewMnemonicAndEntropyStore`, which calls it with a new mnemonic.  The limit of
the search is `DefaultMaxIndex` (100), not that of the configuration. -/
def Wallet.recover (L : Lib) (E : Env) (w : Wallet) (mnemonic pass salt nonce : Bytes) : Wallet :=
  match storeNewEntropy L mnemonic pass salt nonce with
  | none => w
  | some (_, a) => { w with stores := setKey w.stores (E.nameOf a) ⟨a, 100, none, true⟩ }

/-- manager.go:316-330 `Start`: the files of the directory, one after the
other. -/
def Wallet.start (L : Lib) (E : Env) (fs : Nat → Option File) (files : List Nat) (w : Wallet) : Wallet :=
  files.foldl (fun w p => w.add L E fs (.abs p)) { w with stores := [] }

/-- manager.go:332-338 `Stop`. -/
def Wallet.stop (w : Wallet) : Wallet := { w with stores := [] }

/-- manager.go:340-347 `AddLockEventListener`.  The receiver is a copy of the
manager: the counter is raised in the copy, the map is shared. -/
def Wallet.addListener (w : Wallet) (l : Nat) : Wallet × Nat :=
  ({ w with lis := setKey w.lis (w.index + 1) l }, w.index + 1)

/-- manager.go:349-353 `RemoveUnlockChangeChannel`. -/
def Wallet.removeListener (w : Wallet) (id : Nat) : Wallet := { w with lis := delKey w.lis id }

/-- entropystore/manager.go:136-142 `FindAddr`. -/
def Store.find (L : Lib) (s : Store) (a : Bytes) : Res (Key × Nat) :=
  match s.seed with
  | none => .locked
  | some seed => findAddrFromSeed L seed a s.max

/-- manager.go:101-116 `Account`, :160-175 `GlobalFindAddr`: over the stores in
some order.  `newAccount` (account.go:17-27) panics if the key is not that of
the address. -/
def accountIn (L : Lib) (a : Bytes) : List (Nat × Store) → Res (Nat × Key × Nat)
  | [] => .notFound
  | (p, s) :: rest =>
    match s.seed with
    | none => accountIn L a rest
    | some seed =>
      match findAddrFromSeed L seed a s.max with
      | .ok (k, i) => if k.address L = a then .ok (p, k, i) else .panic
      | .notFound => accountIn L a rest
      | .locked => .locked
      | .badPass => .badPass
      | .noStore => .noStore
      | .err => .err
      | .panic => .panic

/-- manager.go:178-191 `GlobalFindAddrWithPassphrase`: every error but "not
found" ends the search. -/
def findWithPassphrase (L : Lib) (fs : Nat → Option File) (a pass : Bytes) :
    List (Nat × Store) → Res (Nat × Key × Nat)
  | [] => .notFound
  | (p, s) :: rest =>
    match extractSeed L (fs p) pass with
    | .ok seed =>
      match findAddrFromSeed L seed a s.max with
      | .ok (k, i) => .ok (p, k, i)
      | .notFound => findWithPassphrase L fs a pass rest
      | .locked => .locked
      | .badPass => .badPass
      | .noStore => .noStore
      | .err => .err
      | .panic => .panic
    | .notFound => findWithPassphrase L fs a pass rest
    | .locked => .locked
    | .badPass => .badPass
    | .noStore => .noStore
    | .err => .err
    | .panic => .panic

/-- manager.go:145-157, `AccountSearch` with a file: the store is unlocked, and
stays so. -/
def Wallet.search (L : Lib) (E : Env) (fs : Nat → Option File) (w : Wallet) (r : Ref) (a pass : Bytes) :
    Wallet × Res (Key × Nat) × List Event :=
  match w.unlock L E fs r pass with
  | (w', .ok _, ev) =>
    match w'.get E r with
    | none => (w', .panic, ev)
    | some s => (w', s.find L a, ev)
  | (w', .notFound, ev) => (w', .notFound, ev)
  | (w', .locked, ev) => (w', .locked, ev)
  | (w', .badPass, ev) => (w', .badPass, ev)
  | (w', .noStore, ev) => (w', .noStore, ev)
  | (w', .err, ev) => (w', .err, ev)
  | (w', .panic, ev) => (w', .panic, ev)

/-- entropystore/manager.go:155-161 `GetPrivateKey`: it does not ask whether the
store is unlocked; the seed of a locked store is `nil`. -/
def Store.privateKey (L : Lib) (s : Store) (a : Bytes) : Res (Key × Nat) :=
  match findAddrFromSeed L (s.seed.getD []) a s.max with
  | .ok x => .ok x
  | _ => .notFound

/-- entropystore/manager.go:189-191 `DeriveForIndexPath`, and manager.go:117-135
`AccountAtIndex`, :354-371 `MatchAddress`, which compare with an address. -/
def Store.atIndex (L : Lib) (s : Store) (i : Nat) (a : Bytes) : Res Key :=
  match s.seed with
  | none => .locked
  | some seed =>
    match deriveWithIndex L i seed with
    | none => .err
    | some k => if k.address L ≠ a then .err else .ok k

/-- rpcapi/api/wallet.go:211-221 `FindAddr`, wallet_v2.go:151-161
`FindAddressInEntropyFile`: the error is dropped. -/
def rpcFindAddr (L : Lib) (E : Env) (w : Wallet) (r : Ref) (a : Bytes) : Res (Nat × Nat) :=
  match w.get E r with
  | none => .noStore
  | some s =>
    match s.find L a with
    | .ok (_, i) => .ok (r.path E, i)
    | _ => .ok (r.path E, 0)

/-- The operations on a wallet, each with the files as they are then. -/
inductive Op where
  | unlock (fs : Nat → Option File) (r : Ref) (pass : Bytes)
  | search (fs : Nat → Option File) (r : Ref) (a pass : Bytes)
  | lock (r : Ref)
  | add (fs : Nat → Option File) (r : Ref)
  | remove (r : Ref)
  | refresh (fs : Nat → Option File) (order : List (Nat × Store))
  | recover (m pass salt nonce : Bytes)
  | start (fs : Nat → Option File) (files : List Nat)
  | stop
  | addListener (l : Nat)
  | removeListener (id : Nat)

/-- One operation: the wallet and what was told. -/
def Wallet.step (L : Lib) (E : Env) (w : Wallet) : Op → Wallet × List Event
  | .unlock fs r pass => ((w.unlock L E fs r pass).1, (w.unlock L E fs r pass).2.2)
  | .search fs r a pass => ((w.search L E fs r a pass).1, (w.search L E fs r a pass).2.2)
  | .lock r => w.lock E r
  | .add fs r => (w.add L E fs r, [])
  | .remove r => w.remove E r
  | .refresh fs order => w.refresh fs order
  | .recover m pass salt nonce => (w.recover L E m pass salt nonce, [])
  | .start fs files => (w.start L E fs files, [])
  | .stop => (w.stop, w.stores.flatMap fun e => w.tell e.2 e.1 false)
  | .addListener l => ((w.addListener l).1, [])
  | .removeListener id => (w.removeListener id, [])

/-- A history. -/
def Wallet.run (L : Lib) (E : Env) (ops : List Op) : Wallet := ops.foldl (fun w op => (w.step L E op).1) Wallet.new

end Verif.Wallet
