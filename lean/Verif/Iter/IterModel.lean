import Verif.Base.Bytes
import Verif.State.DbModel

/-!
# Iterators over contract storage

Models `common/db/merged_iterator.go`, `ledger/chain/state/iteration.go`, `vm_db/storage_iterator.go`, `vm_db/storage.go` and the storage part
of `vm_db/unsaved.go`.

Not modelled: the internals of the skip list (`xleveldb/memdb`) and of the database's own iterator. Both are represented by `Cursor`: a
position in the ordered list of the entries of the iterator's range. Read errors are not modelled (`MergedIterator.err` stays `nil`), nor
is `Release`. -/

namespace Verif.Iter

open Verif.Bytes

/-- A key with its value. -/
abbrev Entry := Bytes × Bytes

/-- `bytes.Compare(a, b) < 0`, the order of `comparer.DefaultComparer`. -/
def lt (a b : Bytes) : Bool := bcmp a b == .lt

/-- An iterator of the database or of the skip list over the entries `items` of its range (`xleveldb/memdb/memdb.go:29-161`,
`xleveldb/db_iter.go:205-386`): position `0` is before the first entry, `i` is on entry number `i`, `items.length + 1` is past the last. -/
structure Cursor where
  items : List Entry
  pos : Nat
deriving Repr, DecidableEq

namespace Cursor

/-- A new iterator stands before the first entry (`memdb.go:480-482`). -/
def new (items : List Entry) : Cursor := ⟨items, 0⟩

/-- Whether the iterator stands on an entry. -/
def valid (c : Cursor) : Bool := decide (1 ≤ c.pos) && decide (c.pos ≤ c.items.length)

/-- The entry the iterator stands on; `Key()` and `Value()` return its parts, or `nil` when there is none (`memdb.go:153-159`). -/
def entry (c : Cursor) : Option Entry := if 1 ≤ c.pos then c.items[c.pos - 1]? else none

/-- `Next` (`memdb.go:115-132`). -/
def next (c : Cursor) : Cursor := { c with pos := min (c.pos + 1) (c.items.length + 1) }

/-- `Prev` (`memdb.go:134-151`): past the end it goes to the last entry. -/
def prev (c : Cursor) : Cursor := { c with pos := c.pos - 1 }

/-- `Last` (`memdb.go:82-97`). -/
def last (c : Cursor) : Cursor := { c with pos := c.items.length }

/-- `Seek` (`memdb.go:99-113`): the first entry of the range whose key is not below `k`; past the end if there is none. -/
def seek (k : Bytes) (c : Cursor) : Cursor := { c with pos := (c.items.takeWhile (fun e => lt e.1 k)).length + 1 }

end Cursor

/-! ## The merged iterator -/

/-- `iterPointHead`, `iterPointerMiddle`, `iterPointTail` (`merged_iterator.go:12-16`). -/
inductive Status
  | head | middle | tail
deriving Repr, DecidableEq

/-- What a merged iterator keeps for one of its iterators: the iterator, `iterStatus[i]` and `keys[i]` (`none` is `nil`)
(`merged_iterator.go:22-28`). -/
structure Slot where
  cur : Cursor
  status : Status
  key : Option Bytes
deriving Repr, DecidableEq

/-- `MergedIterator` (`merged_iterator.go:18-35`); `index` is `none` for `-1`, `prevKey` is `[]` for `nil`, `forward` is `directionToNext`. -/
structure Merged where
  slots : List Slot
  index : Option Nat
  prevKey : Bytes
  forward : Bool
deriving Repr, DecidableEq

/-- `NewMergedIterator` (`merged_iterator.go:37-46`). -/
def Merged.new (cs : List Cursor) : Merged :=
  { slots := cs.map (fun c => ⟨c, .head, none⟩), index := some 0, prevKey := [], forward := true }

/-- `reset` (`merged_iterator.go:48-58`). -/
def Merged.reset (m : Merged) : Merged :=
  { m with slots := m.slots.map (fun s => { s with status := .middle, key := none }), index := none, prevKey := [] }

/-- `iter.Next()` or `iter.Prev()` (`merged_iterator.go:191-192`). -/
def Cursor.move (d : Bool) (c : Cursor) : Cursor := if d then c.next else c.prev

/-- The status of an iterator that has no entry left in direction `d` (`merged_iterator.go:199-203`). -/
def endStatus (d : Bool) : Status := if d then .tail else .head

/-- The part of one round of the loop of `step` that fetches a key if none is kept (`merged_iterator.go:190-209`). -/
def Slot.fill (d : Bool) (s : Slot) : Slot :=
  match s.key with
  | some _ => s
  | none =>
    match (s.cur.move d).entry with
    | none => { s with cur := s.cur.move d, status := endStatus d }
    | some e => { s with cur := s.cur.move d, key := some e.1 }

/-- The loop of `step` over one iterator: skip deleted keys and the key emitted last (`merged_iterator.go:189-217`). The first argument
bounds the rounds; one more than the entries of the iterator is enough, see `fetch_spec`. -/
def Slot.fetch (d : Bool) (del : Bytes → Bool) (prevKey : Bytes) : Nat → Slot → Slot
  | 0, s => s
  | n + 1, s =>
    let s := s.fill d
    match s.key with
    | none => s
    | some k => if del k || decide (k = prevKey) then Slot.fetch d del prevKey n { s with key := none } else s

/-- One iterator's turn in the loop of `step`: an iterator at its end is passed over, with whatever key it keeps
(`merged_iterator.go:184-217`). The second part is the key it offers. -/
def Slot.turn (d : Bool) (del : Bytes → Bool) (prevKey : Bytes) (s : Slot) : Slot × Option Bytes :=
  if s.status = endStatus d then (s, none)
  else
    let s := s.fetch d del prevKey (s.cur.items.length + 2)
    (s, s.key)

/-- Whether `a` comes before `b` in direction `d` (`merged_iterator.go:221`). -/
def before (d : Bool) (a b : Bytes) : Bool := if d then lt a b else lt b a

/-- The choice among the offered keys (`merged_iterator.go:219-225`, `119-123`): the result is the index chosen and its key. -/
def pick (d : Bool) : Nat → Option Nat × Bytes → List (Option Bytes) → Option Nat × Bytes
  | _, best, [] => best
  | i, best, none :: l => pick d (i + 1) best l
  | i, best, some k :: l =>
    pick d (i + 1) (if before d k best.2 || decide (best.2 = []) then (some i, k) else best) l

/-- `keys[i] = nil` (`merged_iterator.go:173-176`). -/
def clearAt : Option Nat → List Slot → List Slot
  | none, l => l
  | some i, l => l.modify i (fun s => { s with key := none })

/-- `step` (`merged_iterator.go:164-237`). `directionToNext` is read and never written here. -/
def Merged.step (d : Bool) (del : Bytes → Bool) (m : Merged) : Merged × Bool :=
  let m := if m.forward ≠ d then m.reset else m
  let turns := (clearAt m.index m.slots).map (Slot.turn d del m.prevKey)
  match pick d 0 (none, []) (turns.map (·.2)) with
  | (none, _) => ({ m with slots := turns.map (·.1), index := none, prevKey := [] }, false)
  | (some i, k) => ({ m with slots := turns.map (·.1), index := some i, prevKey := k }, true)

/-- `Next` (`merged_iterator.go:83-85`). -/
def Merged.next (del : Bytes → Bool) (m : Merged) : Merged × Bool := m.step true del

/-- `Prev` (`merged_iterator.go:80-82`). -/
def Merged.prev (del : Bytes → Bool) (m : Merged) : Merged × Bool := m.step false del

/-- One iterator's turn in `Last` (`merged_iterator.go:65-76`). -/
def Slot.toLast (s : Slot) : Slot :=
  match s.cur.last.entry with
  | none => { cur := s.cur.last, status := .head, key := none }
  | some e => { cur := s.cur.last, status := .tail, key := some e.1 }

/-- `Last` (`merged_iterator.go:60-79`). -/
def Merged.last (del : Bytes → Bool) (m : Merged) : Merged × Bool :=
  let m := m.reset
  { m with slots := m.slots.map Slot.toLast, forward := false : Merged }.prev del

/-- The loop of `Seek` that skips deleted keys (`merged_iterator.go:104-109`); the first argument bounds the rounds. -/
def Cursor.skip (del : Bytes → Bool) : Nat → Cursor → Cursor
  | 0, c => c
  | n + 1, c =>
    match c.entry with
    | none => c
    | some e => if del e.1 then Cursor.skip del n c.next else c

/-- One iterator's turn in `Seek` (`merged_iterator.go:97-117`). -/
def Slot.seek (del : Bytes → Bool) (k : Bytes) (s : Slot) : Slot :=
  let c := (s.cur.seek k).skip del (s.cur.items.length + 2)
  match c.entry with
  | none => { cur := c, status := .tail, key := none }
  | some e => { cur := c, status := .middle, key := some e.1 }

/-- `Seek` (`merged_iterator.go:88-137`). -/
def Merged.seek (del : Bytes → Bool) (k : Bytes) (m : Merged) : Merged × Bool :=
  let m := m.reset
  let slots := m.slots.map (Slot.seek del k)
  match pick true 0 (none, []) (slots.map (·.key)) with
  | (none, _) => ({ slots := slots, index := none, prevKey := [], forward := true }, false)
  | (some i, k) => ({ slots := slots, index := some i, prevKey := k, forward := true }, true)

/-- `Key` (`merged_iterator.go:139-144`). -/
def Merged.key (m : Merged) : Bytes :=
  match m.index with
  | none => []
  | some i => ((m.slots[i]?).bind (·.key)).getD []

/-- `Value` (`merged_iterator.go:146-152`). -/
def Merged.value (m : Merged) : Bytes :=
  match m.index with
  | none => []
  | some i =>
    match m.slots[i]? with
    | none => []
    | some s => if s.key.getD [] = [] then [] else (s.cur.entry.map (·.2)).getD []

/-! ## The iterators a block's database hands out -/

/-- `BytesPrefix` (`xleveldb/util/range.go:20-32`): the keys from the prefix up to its successor. The successor is `none` when the prefix
is all `0xff`, that is, the range is open. -/
def successor (p : Bytes) : Option Bytes :=
  match p.reverse.dropWhile (fun b => b == 255) with
  | [] => none
  | b :: r => some (r.reverse ++ [b + 1])

/-- Whether a key is in the range of `BytesPrefix(p)`: not below `p`, and below the limit if there is one. -/
def inRange (p k : Bytes) : Bool :=
  !lt k p && match successor p with
    | none => true
    | some s => lt k s

/-- The storage written by the block being executed: `storage` is the skip list, in key order, `deleted` is `deletedKeys`
(`vm_db/unsaved.go:15-47`). -/
structure Unsaved where
  storage : List Entry
  deleted : List Bytes
deriving Repr, DecidableEq

/-- `NewUnsaved` (`unsaved.go:34-47`). -/
def Unsaved.new : Unsaved := ⟨[], []⟩

/-- `Put` of the skip list (`xleveldb/memdb/memdb.go:354-390`): replace the value of the key, or insert it in its place. -/
def put (k v : Bytes) : List Entry → List Entry
  | [] => [(k, v)]
  | e :: l => if lt k e.1 then (k, v) :: e :: l else if e.1 = k then (k, v) :: l else e :: put k v l

/-- `SetValue` of the unsaved part (`unsaved.go:95-107`). -/
def Unsaved.setValue (k v : Bytes) (u : Unsaved) : Unsaved :=
  { storage := put k v u.storage
    deleted := if v = [] then k :: u.deleted else u.deleted.filter (fun x => decide (x ≠ k)) }

/-- `IsDelete` (`unsaved.go:90-93`). -/
def Unsaved.isDelete (u : Unsaved) (k : Bytes) : Bool := u.deleted.contains k

/-- `GetValue` of the unsaved part (`unsaved.go:109-119`); `none` is "not found". -/
def Unsaved.getValue (u : Unsaved) (k : Bytes) : Option Bytes :=
  match u.storage.find? (fun e => decide (e.1 = k)) with
  | some e => some e.2
  | none => if u.deleted.contains k then some [] else none

/-- `NewStorageIterator` of the unsaved part (`unsaved.go:150-152`). -/
def Unsaved.newIterator (u : Unsaved) (p : Bytes) : Cursor := Cursor.new (u.storage.filter (fun e => inRange p e.1))

/-- The key of a stored slot (`chain/utils/generate_key.go:95-106`): the table's byte, the address, the key padded to 32 bytes, its length. -/
def rawKey (addr k : Bytes) : Bytes := 1 :: addr ++ State.keyBytes k

/-- The prefix an iterator over stored slots is opened with (`generate_key.go:85-93`). -/
def rawPrefix (addr p : Bytes) : Bytes := 1 :: addr ++ p

/-- The key read off a raw key (`state/iteration.go:81-90`): the byte at `1 + 21 + 32` is the length. -/
def decodeKey (r : Bytes) : Bytes := (r.drop 22).take ((r[54]?).getD 0).toNat

/-- The storage of contracts in the database, in the order of the raw keys. -/
abbrev Store := List Entry

/-- `NewStorageIterator` of the chain (`state/iteration.go:16-19`): the iterator over the raw entries of the range. -/
def newRaw (db : Store) (addr p : Bytes) : Cursor := Cursor.new (db.filter (fun e => inRange (rawPrefix addr p) e.1))

/-- `stateStorageIterator` (`iteration.go:45-105`): the same iterator seen through `Key()`, which strips the raw key. -/
def decoded (c : Cursor) : Cursor := { c with items := c.items.map (fun e => (decodeKey e.1, e.2)) }

/-- The value of a stored slot; the empty value if there is none (`state/state_db.go:128-134`). -/
def storeValue (db : Store) (addr k : Bytes) : Bytes := ((db.find? (fun e => decide (e.1 = rawKey addr k))).map (·.2)).getD []

/-- `SetValue` (`vm_db/storage.go:15-21`); `none` is the error. -/
def setValue (k v : Bytes) (u : Unsaved) : Option Unsaved := if 32 < k.length then none else some (u.setValue k v)

/-- `GetValue` (`vm_db/storage.go:5-13`). -/
def getValue (db : Store) (addr : Bytes) (u : Unsaved) (k : Bytes) : Bytes :=
  match u.getValue k with
  | some v => v
  | none => storeValue db addr k

/-- `NewStorageIterator` (`vm_db/storage_iterator.go:9-21`): the unsaved part first, the chain second. -/
def newIterator (db : Store) (addr : Bytes) (u : Unsaved) (p : Bytes) : Merged :=
  Merged.new [u.newIterator p, decoded (newRaw db addr p)]

/-- Reading an iterator to its end in direction `d` with `Next` or `Prev` (the loop of every caller, for example
`vm/contracts/abi/abi_gonvernance.go:408-437`); the first argument bounds the rounds. -/
def drain (d : Bool) (del : Bytes → Bool) : Nat → Merged → List Entry
  | 0, _ => []
  | n + 1, m =>
    let r := m.step d del
    if r.2 then (r.1.key, r.1.value) :: drain d del n r.1 else []

/-! ## The iterator over the storage at a snapshot -/

/-- `snapshotStorageIterator` (`iteration.go:107-114`). -/
structure Snap where
  cur : Cursor
  ok : Bool
  height : Nat
  lastKey : Bytes
deriving Repr, DecidableEq

/-- `newSnapshotStorageIterator` (`iteration.go:116-125`). -/
def Snap.new (c : Cursor) (h : Nat) : Snap := ⟨c, true, h, []⟩

/-- `key[:len(key)-8]`. -/
def trunk (r : Bytes) : Bytes := r.take (r.length - 8)

/-- `binary.BigEndian.Uint64(key[len(key)-8:])`. -/
def stamp (r : Bytes) : Nat := num (r.drop (r.length - 8))

/-- `iter.Key()`. -/
def Cursor.key (c : Cursor) : Bytes := (c.entry.map (·.1)).getD []

/-- `setCorrectPointer` (`iteration.go:217-245`). The `append` writes the height into the array of `lastKey`. -/
def Snap.correct (s : Snap) : Snap × Bool :=
  let t := trunk s.lastKey
  let c := s.cur.seek (t ++ be 8 s.height)
  let s := { s with lastKey := t ++ be 8 s.height }
  if c.valid then
    if decide (trunk c.key = t) && decide (stamp c.key ≤ s.height) then ({ s with cur := c }, true)
    else
      let c := c.prev
      ({ s with cur := c }, c.valid && decide (trunk c.key = t))
  else
    let c := c.last
    ({ s with cur := c }, c.valid && decide (trunk c.key = t))

/-- The movement at the start of a round of `step` (`iteration.go:184-201`). -/
def Snap.advance (d : Bool) (s : Snap) : Snap :=
  if s.lastKey = [] then
    let c := s.cur.move d
    { s with cur := c, ok := c.valid }
  else if d then
    let k := trunk s.lastKey ++ be 8 (2 ^ 64 - 1)
    let c := s.cur.seek k
    { s with cur := c, ok := c.valid, lastKey := k }
  else
    let k := trunk s.lastKey ++ be 8 0
    let c := s.cur.seek k
    if c.valid then { s with cur := c.prev, ok := c.prev.valid, lastKey := k } else { s with cur := c, ok := false, lastKey := k }

/-- `step` (`iteration.go:180-215`); the first argument bounds the rounds: a round per entry is enough, see `snap_step`. -/
def Snap.step (d : Bool) : Nat → Snap → Snap
  | 0, s => s
  | n + 1, s =>
    if s.ok then
      let s := s.advance d
      if s.ok then
        let r := { s with lastKey := s.cur.key : Snap }.correct
        if r.2 then r.1 else Snap.step d n r.1
      else s
    else s

/-- A bound on the rounds of `step`. -/
def Snap.bound (s : Snap) : Nat := s.cur.items.length + 1

/-- `Next` (`iteration.go:147-149`). -/
def Snap.next (s : Snap) : Snap := s.step true s.bound

/-- `Prev` (`iteration.go:143-145`). -/
def Snap.prev (s : Snap) : Snap := s.step false s.bound

/-- `Last` (`iteration.go:127-141`). -/
def Snap.last (s : Snap) : Snap :=
  let c := s.cur.last
  let s := { s with cur := c, ok := c.valid }
  if s.ok then
    let r := { s with lastKey := s.cur.key : Snap }.correct
    if r.2 then r.1 else r.1.prev
  else s

/-- `Seek` (`iteration.go:150-164`). -/
def Snap.seek (k : Bytes) (s : Snap) : Snap :=
  let c := s.cur.seek k
  let s := { s with cur := c, ok := c.valid }
  if s.ok then
    let r := { s with lastKey := s.cur.key : Snap }.correct
    if r.2 then r.1 else r.1.next
  else s

/-- The raw key of a slot's value at a snapshot height (`generate_key.go:118-133`). -/
def histKey (addr k : Bytes) (h : Nat) : Bytes := 2 :: addr ++ State.keyBytes k ++ be 8 h

/-- The prefix an iterator over such values is opened with (`generate_key.go:108-116`). -/
def histPrefix (addr p : Bytes) : Bytes := 2 :: addr ++ p

/-- `NewRawSnapshotStorageIteratorByHeight` (`iteration.go:39-43`). -/
def newSnap (db : Store) (addr p : Bytes) (h : Nat) : Snap :=
  Snap.new (Cursor.new (db.filter (fun e => inRange (histPrefix addr p) e.1))) h

/-- Reading the iterator to its end with `Next` (`d`) or `Prev`; keys are read through `stateStorageIterator.Key`
(`iteration.go:21-23`, `81-90`). -/
def Snap.drain (d : Bool) : Nat → Snap → List Entry
  | 0, _ => []
  | n + 1, s =>
    let s := s.step d s.bound
    if s.ok then (decodeKey s.cur.key, (s.cur.entry.map (·.2)).getD []) :: Snap.drain d n s else []

end Verif.Iter
