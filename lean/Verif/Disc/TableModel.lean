import Verif.Disc.DistModel

/-!
# Model of the table of known nodes

`net/discovery/table.go`, and the parts of `net/discovery/discovery.go` that
change the table.

What is simplified: the times `addAt`, `activeAt`, `checkAt`, `findAt` are left
out, and where a decision depends on them (`needCheck`) the decision is an
argument of the operation.  The observers (`Sub`, `notify`) are left out.  A
node is a value; the pointers of the code matter in one place only
(`Op.update`), see there.
-/

namespace Verif.Disc

/-- net/vnode/node.go:196-201 `Node`: `addr` stands for the end point, `info`
for the network and the extra data. -/
structure Node where
  id : Id
  addr : Nat
  info : Nat
deriving DecidableEq, Repr

/-- net/discovery/table.go:109-120 `listBucket`.  `list` are the elements that
are reached from `head.next`.  `tail` is the place of the element `tail` points
to: 0 is `head`, `k + 1` the element with index `k`.  A write to `tail.next`
cuts off whatever came after that place. -/
structure Bkt where
  list : List Node
  tail : Nat
  count : Nat
deriving DecidableEq, Repr

/-- net/discovery/table.go:123-133 `newListBucket`, and :143-147 `reset`. -/
def Bkt.empty : Bkt := ⟨[], 0, 0⟩

/-- table.go:260-268 `resolve`. -/
def Bkt.resolve (b : Bkt) (id : Id) : Option Node := b.list.find? fun n => n.id = id

/-- The loop of `replace` (table.go:150-155). -/
def replaceFirst (id : Id) (n : Node) : List Node → List Node
  | [] => []
  | m :: ms => if m.id = id then n :: ms else m :: replaceFirst id n ms

/-- table.go:149-158 `replace`. -/
def Bkt.replace (b : Bkt) (id : Id) (n : Node) : Bkt × Bool :=
  ({ b with list := replaceFirst id n b.list }, (b.resolve id).isSome)

/-- The place of a node in the bucket. -/
def Bkt.index (b : Bkt) (id : Id) : Option Nat := b.list.findIdx? fun n => n.id = id

/-- table.go:161-184 `bubble`: taken out of its place and hung after the tail. -/
def Bkt.bubble (b : Bkt) (id : Id) : Bkt × Bool :=
  if b.count = 0 then (b, false)
  else if (b.list[b.tail - 1]?).map Node.id = some id then (b, true)
  else
    match b.index id with
    | none => (b, false)
    | some k =>
      ({ b with list := (b.list.eraseIdx k).take (b.tail - 1) ++ (b.list[k]?).toList }, true)

/-- table.go:252-258 `oldest`. -/
def Bkt.oldest (b : Bkt) : Option Node := b.list.head?

/-- table.go:189-211 `add`: the node to be checked, if the given one was not
added. -/
def Bkt.add (cap : Nat) (b : Bkt) (n : Node) : Bkt × Option Node :=
  match b.resolve n.id with
  | some m => (b, some m)
  | none =>
    if b.count < cap then (⟨b.list.take b.tail ++ [n], b.tail + 1, b.count + 1⟩, none)
    else (b, b.oldest)

/-- table.go:213-229 `remove`. -/
def Bkt.remove (b : Bkt) (id : Id) : Bkt × Option Node :=
  match b.index id with
  | none => (b, none)
  | some k =>
    (⟨b.list.eraseIdx k, if b.tail = k + 1 then k else if k + 1 < b.tail then b.tail - 1 else b.tail,
      b.count - 1⟩, b.list[k]?)

/-- table.go:233-250 `nodes`: the last `count` nodes, all if `count` is 0 or
there are fewer. -/
def Bkt.nodes (b : Bkt) (count : Nat) : List Node :=
  b.list.drop (if count = 0 ∨ b.count < count then 0 else b.count - count)

/-- table.go:302-321 `newTable`: the length of identities, the own identity,
the number of buckets and the size of a bucket. -/
structure Cfg where
  N : Nat
  self : Id
  num : Nat
  cap : Nat

/-- table.go:308 `minDistance`. -/
def Cfg.minDistance (c : Cfg) : Nat := 8 * c.N - c.num + 1

/-- table.go:474-480 `getBucket`: the number of the bucket. -/
def Cfg.slot (c : Cfg) (id : Id) : Nat :=
  if distance c.N c.self id < c.minDistance then 0
  else distance c.N c.self id - c.minDistance

/-- table.go:282-300 `table`: the buckets and the index by address. -/
structure Tab where
  bkts : Nat → Bkt
  map : Nat → Option Node

def Tab.empty : Tab := ⟨fun _ => Bkt.empty, fun _ => none⟩

/-- Assignment to one bucket. -/
def Tab.setBkt (t : Tab) (i : Nat) (b : Bkt) : Tab :=
  { t with bkts := fun j => if j = i then b else t.bkts j }

/-- Assignment to, or deletion of, one key of `nodeMap`. -/
def Tab.setMap (t : Tab) (a : Nat) (v : Option Node) : Tab :=
  { t with map := fun x => if x = a then v else t.map x }

/-- table.go:591-598 `resolve`. -/
def Tab.resolve (c : Cfg) (t : Tab) (id : Id) : Option Node := (t.bkts (c.slot id)).resolve id

/-- table.go:600-605 `resolveAddr`. -/
def Tab.resolveAddr (t : Tab) (a : Nat) : Option Node := t.map a

/-- table.go:575-585 `size`. -/
def Tab.size (c : Cfg) (t : Tab) : Nat := ((List.range c.num).map fun i => (t.bkts i).count).sum

/-- table.go:482-498 `remove`, `removeLocked`. -/
def Tab.remove (c : Cfg) (t : Tab) (id : Id) : Tab :=
  match (t.bkts (c.slot id)).remove id with
  | (_, none) => t
  | (b, some n) => (t.setBkt (c.slot id) b).setMap n.addr none

/-- table.go:500-507 `bubble`. -/
def Tab.bubble (c : Cfg) (t : Tab) (id : Id) : Tab :=
  t.setBkt (c.slot id) ((t.bkts (c.slot id)).bubble id).1

/-- table.go:329-338 `reset`. -/
def Tab.reset (_ : Tab) : Tab := Tab.empty

/-- table.go:399-407: what `add` looks up before it takes the lock for
writing. -/
def Tab.known (c : Cfg) (t : Tab) (n : Node) : Option Node :=
  match t.resolve c n.id with
  | some m => some m
  | none => t.map n.addr

/-- table.go:428-442, the second part of `add`: the table, and the node to be
pinged before it may be replaced. -/
def Tab.commit (c : Cfg) (t : Tab) (n : Node) : Tab × Option Node :=
  match (t.bkts (c.slot n.id)).add c.cap n with
  | (b, none) => ((t.setBkt (c.slot n.id) b).setMap n.addr (some n), none)
  | (_, some m) => (t, some m)

/-- table.go:454-466 `checkReplace`, after the ping failed; `slot` is the
bucket `bkt`. -/
def Tab.replaced (t : Tab) (slot : Nat) (old new : Node) : Tab :=
  match (t.bkts slot).replace old.id new with
  | (b, true) => ((t.setBkt slot b).setMap old.addr none).setMap new.addr (some new)
  | (_, false) => t

/-- table.go:393-395: the own node, and nodes without identity, are not
taken. -/
def Cfg.foreign (c : Cfg) (n : Node) : Bool :=
  decide (n.id ≠ c.self ∧ n.id ≠ List.replicate c.N 0)

/-- The table, the calls of `add` that are past their look-up, and the calls of
`checkReplace` that wait for their ping (old and new node). -/
structure Sys where
  tab : Tab
  adding : List Node
  checking : List (Node × Node)

def Sys.init : Sys := ⟨Tab.empty, [], []⟩

/-- What happens to the table, one step at a time. -/
inductive Op where
  /-- the first part of `add`, up to its decision (table.go:392-426) -/
  | beginAdd (n : Node)
  /-- the second part of the `k`-th of the calls in flight (table.go:428-442);
  `check` is the answer of `needCheck` -/
  | endAdd (k : Nat) (check : Bool)
  /-- both parts, without anything in between -/
  | add (n : Node) (check : Bool)
  /-- the ping of the `k`-th waiting `checkReplace` failed -/
  | pingFailed (k : Nat)
  /-- ... or was answered -/
  | pingAnswered (k : Nat)
  /-- `remove`: called by `Discovery.Delete`, and by `checkRemove` and
  `pingDelete` when their ping failed (table.go:445-452, discovery.go:173-181,
  :340-346) -/
  | remove (id : Id)
  /-- `bubble`: every packet that arrives (discovery.go:420) -/
  | bubble (id : Id)
  /-- `reset` -/
  | reset
  /-- `Discovery.ping` got an answer and wrote what it says into the node it
  had pinged, by `n.update(node)` (discovery.go:289, :322, node.go:43-48).
  The node may be in the table, and is changed there, in its bucket and in the
  index, under the pointer they hold.  Here the value `old` is replaced by
  `new` in both -/
  | update (old new : Node)

/-- The second part of `add`, with the ping it may start. -/
def Sys.tryAdd (c : Cfg) (s : Sys) (n : Node) (check : Bool) : Sys :=
  match s.tab.commit c n with
  | (t, none) => { s with tab := t }
  | (t, some m) => { s with tab := t, checking := if check then s.checking ++ [(m, n)] else s.checking }

/-- One step. -/
def Sys.step (c : Cfg) (s : Sys) : Op → Sys
  | .beginAdd n =>
    if c.foreign n = false then s
    else
      match s.tab.known c n with
      | some m => if m = n then { s with tab := s.tab.bubble c n.id } else s
      | none => { s with adding := s.adding ++ [n] }
  | .endAdd k check =>
    match s.adding[k]? with
    | none => s
    | some n => { s with adding := s.adding.eraseIdx k }.tryAdd c n check
  | .add n check =>
    if c.foreign n = false then s
    else
      match s.tab.known c n with
      | some m => if m = n then { s with tab := s.tab.bubble c n.id } else s
      | none => s.tryAdd c n check
  | .pingFailed k =>
    match s.checking[k]? with
    | none => s
    | some (old, new) =>
      { s with tab := s.tab.replaced (c.slot new.id) old new, checking := s.checking.eraseIdx k }
  | .pingAnswered k => { s with checking := s.checking.eraseIdx k }
  | .remove id => { s with tab := s.tab.remove c id }
  | .bubble id => { s with tab := s.tab.bubble c id }
  | .reset => { s with tab := s.tab.reset }
  | .update old new =>
    { s with tab :=
        ⟨fun i => { s.tab.bkts i with list := (s.tab.bkts i).list.map fun n => if n = old then new else n },
         fun a => (s.tab.map a).map fun n => if n = old then new else n⟩ }

/-- Some steps. -/
def Sys.run (c : Cfg) (s : Sys) (ops : List Op) : Sys := ops.foldl (Sys.step c) s

/-- table.go:341-362 `nodes`: `perm` is the random order of the buckets. -/
def gather (t : Tab) : List Nat → Nat → List Node
  | [], _ => []
  | i :: is, count =>
    (t.bkts i).nodes count
      ++ (if count ≤ ((t.bkts i).nodes count).length then []
          else gather t is (count - ((t.bkts i).nodes count).length))

/-- table.go:341-362 `nodes`. -/
def Tab.nodes (c : Cfg) (t : Tab) (perm : List Nat) (count : Nat) : List Node :=
  gather t perm (if count = 0 then c.num * c.cap else count)

/-- `sort.Search` of the standard library, as it is written: the loop `for i <
j` halves the range, so that `n` rounds are enough. -/
def searchLoop (f : Nat → Bool) : Nat → Nat → Nat → Nat
  | 0, i, _ => i
  | fuel + 1, i, j =>
    if i < j then
      if f ((i + j) / 2) = false then searchLoop f fuel ((i + j) / 2 + 1) j
      else searchLoop f fuel i ((i + j) / 2)
    else i

/-- table.go:658-661: the place to which a node with distance `d` belongs. -/
def further (N : Nat) (pivot : Id) (d : Nat) (l : List Node) : Nat :=
  searchLoop (fun i => match l[i]? with
    | some m => decide (distance N pivot m.id > d)
    | none => true) l.length 0 l.length

/-- table.go:650-676 `closet.push`; `cap` is the capacity. -/
def push (N cap : Nat) (pivot : Id) (l : List Node) (n : Node) : List Node :=
  let f := further N pivot (distance N pivot n.id) l
  if cap ≤ l.length then (if f < l.length then l.set f n else l)
  else l.take f ++ n :: l.drop f

/-- table.go:509-529 `findNeighbors`. -/
def Tab.findNeighbors (c : Cfg) (t : Tab) (target : Id) (count : Nat) : List Node :=
  (((List.range c.num).flatMap fun i => (t.bkts i).list).filter fun n => n.id ≠ target).foldl
    (push c.N count target) []

/-- table.go:629-642 `subTreeToFind`: the first bucket of a random order with
less than half of its nodes. -/
def Tab.subTreeToFind (c : Cfg) (t : Tab) (perm : List Nat) : Nat :=
  match perm.find? fun i => (t.bkts i).count < c.cap / 2 with
  | some i => i + c.minDistance
  | none => 0

end Verif.Disc
