import Verif.Tactics

/-!
# A batch of blocks that is to be inserted

Models `ledger/pool/batch`: `batchSnapshot` (`batch_impl.go`), its levels (`level.go`, `level_account.go`, `level_snapshot.go`) and its buckets (`bucket.go`). Hashes and
addresses are numbers. Not modelled: the version and the number of the batch, the hash of the snapshot block a level was made for (it is only used to put that block on the
black list), the mark `done`, and printing. -/

namespace Verif.Batch

/-- `Item` (`batch.go:66-75`): an account block (`owner` is its account) or a snapshot block (`owner` is `none`); `keys`, `refs` and `sref` are what `ReferHashes` gives: the
hashes by which others refer to it, the account blocks it refers to and the snapshot block it refers to. -/
structure Item where
  owner : Option Nat
  hash : Nat
  prev : Nat
  keys : List Nat
  refs : List Nat
  sref : Option Nat
deriving Repr, DecidableEq

/-- `accountLevel` (`level_account.go:9-13`) and `snapshotLevel` (`level_snapshot.go:9-12`): the buckets by owner. A bucket is its list of items: `last` (`bucket.go:11`) is
always the index of the last one. A snapshot level has one bucket, whose owner is `none`. -/
structure Level where
  snap : Bool
  closed : Bool
  bs : List (Option Nat × List Item)
deriving Repr, DecidableEq

/-- `newLevel` (`level.go:34-40`), `newAccountLevel` (`level_account.go:22-24`), `newSnapshotLevel` (`level_snapshot.go:14-16`). -/
def newLevel (snap : Bool) : Level := ⟨snap, false, if snap then [(none, [])] else []⟩

/-- `bucket.add` (`bucket.go:23-40`): the item must follow the last one. -/
def bucketAdd (b : List Item) (x : Item) : Option (List Item) :=
  match b.getLast? with
  | some y => if y.hash = x.prev then some (b ++ [x]) else none
  | none => some (b ++ [x])

/-- The buckets with one more item in the bucket of its owner, which is made when there is none (`level_account.go:38-43`, `level_snapshot.go:22`). -/
def bucketsAdd : List (Option Nat × List Item) → Item → Option (List (Option Nat × List Item))
  | [], x => (bucketAdd [] x).map fun b => [(x.owner, b)]
  | (o, b) :: bs, x =>
    if o = x.owner then (bucketAdd b x).map fun b => (o, b) :: bs
    else (bucketsAdd bs x).map fun bs => (o, b) :: bs

/-- What adding an item to a batch comes to: it was added, there is no level left for it (`ErrorArrivedToMax`), a block it refers to does not exist (`ErrorReference`), it does
not follow the last block of its bucket, or the program panics. `hole` stands for a level beyond the next free one; the Go array would get a gap there. -/
inductive Out where
  | ok
  | full
  | noRef
  | badLink
  | panic
  | hole
deriving Repr, DecidableEq

/-- `batchSnapshot` (`batch_impl.go:14-25`): the number of levels there can be, the levels made (`current` is the index of the last one), one more than the index of the last
snapshot level, and for every key the owner and the level of its item, newest first. -/
structure St where
  cap : Nat
  ls : List Level
  last : Nat
  all : List (Nat × (Option Nat × Nat))
deriving Repr, DecidableEq

/-- `NewBatch` (`batch_impl.go:76-83`). -/
def newBatch (cap : Nat) : St := ⟨cap, [], 0, []⟩

/-- `self.all[r]`. -/
def St.find (s : St) (r : Nat) : Option (Option Nat × Nat) := (s.all.find? (fun e => decide (e.1 = r))).map (·.2)

/-- What the ledger has: `accountExistsF` and `snapshotExistsF` (`batch_impl.go:71-74`). -/
structure Ledger where
  acc : Nat → Bool
  snap : Nat → Bool

/-- Whether every account block referred to is in the batch or in the ledger (`batch_impl.go:118-126`). -/
def St.known (L : Ledger) (s : St) (rs : List Nat) : Bool := rs.all fun r => (s.find r).isSome || L.acc r

/-- Whether the snapshot block referred to is in the batch or in the ledger (`batch_impl.go:127-135`). -/
def St.knownS (L : Ledger) (s : St) : Option Nat → Bool
  | none => true
  | some r => (s.find r).isSome || L.snap r

/-- `level.Add` on the level with that index (`level_account.go:34-44`, `level_snapshot.go:18-23`): an item is not added to a closed level. Then the item is entered in `all`
(`batch_impl.go:154-158`, `:233-237`). -/
def St.put (s : St) (i : Nat) (x : Item) : St × Out :=
  match s.ls[i]? with
  | none => (s, .panic)
  | some l =>
    if l.closed then (s, .panic)
    else match bucketsAdd l.bs x with
      | none => (s, .badLink)
      | some bs => ({ s with ls := s.ls.set i { l with bs := bs }, all := x.keys.map (fun k => (k, (x.owner, i))) ++ s.all }, .ok)

/-- Closing the levels from the `n`th on that lie below the `m`th (`batch_impl.go:162-164`); `none` is the panic of a level that is closed already (`level.go:15-20`). -/
def closeFrom : Nat → Nat → List Level → Option (List Level)
  | _, _, [] => some []
  | n, m, l :: ls =>
    if n = 0 then
      if m = 0 then some (l :: ls)
      else if l.closed then none
      else (closeFrom 0 (m - 1) ls).map fun ls => { l with closed := true } :: ls
    else (closeFrom (n - 1) (m - 1) ls).map fun ls => l :: ls

/-- What follows `Add` in `addSnapshotItem` (`batch_impl.go:159-166`): the levels between the last snapshot level and this one are closed, and this one is the last one. -/
def closeUp (r : St × Out) (i : Nat) : St × Out :=
  if r.2 = .panic then r
  else match closeFrom r.1.last i r.1.ls with
    | none => (r.1, .panic)
    | some ls => ({ r.1 with ls := ls, last := i + 1 }, r.2)

/-- `addSnapshotItem` (`batch_impl.go:114-167`). With `cap = 0` the first write of a level is out of range. -/
def St.addS (L : Ledger) (s : St) (x : Item) : St × Out :=
  if !s.known L x.refs then (s, .noRef)
  else if !s.knownS L x.sref then (s, .noRef)
  else
    match s.ls.getLast? with
    | none =>
      if s.cap = 0 then (s, .panic)
      else closeUp (St.put { s with ls := s.ls ++ [newLevel true] } 0 x) 0
    | some l =>
      if l.snap then closeUp (s.put (s.ls.length - 1) x) (s.ls.length - 1)
      else if s.ls.length + 1 > s.cap then (s, .full)
      else closeUp (St.put { s with ls := s.ls ++ [newLevel true] } s.ls.length x) s.ls.length

/-- The loop over the blocks an account block refers to (`batch_impl.go:174-200`): it gives one more than the lowest level the block can go to, 0 when no block asks for a
level. A block in a closed level asks for none. Comparing the owner of a snapshot block is a nil pointer (`:192`). -/
def St.lowest (L : Ledger) (s : St) (o : Option Nat) : List Nat → Nat → Nat × Out
  | [], m => (m, .ok)
  | r :: rs, m =>
    match s.find r with
    | none => if L.acc r then s.lowest L o rs m else (m, .noRef)
    | some (o', i) =>
      match s.ls[i]? with
      | none => (m, .panic)
      | some l =>
        if l.closed then s.lowest L o rs m
        else
          if i + 1 ≥ m then
            match o' with
            | none => (m, .panic)
            | some _ =>
              let m := if o' = o then i + 1 else i + 2
              if m > s.cap then (m, .full) else s.lowest L o rs m
          else
            if m > s.cap then (m, .full) else s.lowest L o rs m

/-- A new account level at that index (`batch_impl.go:209-211`, `:219-220`, `:229-230`) with the item in it. -/
def St.putNew (s : St) (i : Nat) (x : Item) : St × Out :=
  if i = s.ls.length then St.put { s with ls := s.ls ++ [newLevel false] } i x else (s, .hole)

/-- The choice of the level (`batch_impl.go:201-232`); `m` is one more than the lowest level. -/
def St.place (s : St) (x : Item) (m : Nat) : St × Out :=
  let m := if m = 0 then s.last + 1 else m
  if m > s.cap then (s, .full)
  else if m > s.ls.length then s.putNew (m - 1) x
  else match s.ls.getLast? with
    | none => s.putNew 0 x
    | some l =>
      if l.snap then
        if s.ls.length + 1 > s.cap then (s, .full) else s.putNew s.ls.length x
      else s.put (m - 1) x

/-- `addAccountItem` (`batch_impl.go:169-243`). -/
def St.addA (L : Ledger) (s : St) (x : Item) : St × Out :=
  match s.lowest L x.owner x.refs 0 with
  | (m, .ok) => s.place x m
  | (_, o) => (s, o)

/-- `AddAItem` and `AddSItem` (`batch_impl.go:98-112`). -/
def St.add (L : Ledger) (s : St) (x : Item) : St × Out :=
  match x.owner with
  | none => s.addS L x
  | some _ => s.addA L x

/-- Adding items one after the other, going on after an error; the batch, the items that were added, and whether the program panicked, which ends it. -/
def addAll (L : Ledger) : St → List Item → St × List Item × Bool
  | s, [] => (s, [], false)
  | s, x :: xs =>
    match s.add L x with
    | (s', .ok) => let r := addAll L s' xs; (r.1, x :: r.2.1, r.2.2)
    | (s', .panic) => (s', [], true)
    | (s', _) => addAll L s' xs

end Verif.Batch
