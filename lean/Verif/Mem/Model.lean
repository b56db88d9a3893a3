import Mathlib.Order.Basic
import Verif.Tactics

/-!
# The memory table: a skip list

`common/db/xleveldb/memdb/memdb.go`.  A node is a number; node 0 is the head.  The slice of integers
in which the nodes lie is a set of functions here: the key, value, height and following nodes of a
node; where a node lies in the slice, and where its key and value lie in the buffer of bytes, is not
modelled.  The comparer is a linear order.  Heights, drawn at random in the code, are given.
-/

namespace Verif.Mem

variable {K V : Type} [LinearOrder K]

/-- The greatest height.  `memdb.go:26`. -/
def maxH : Nat := 12

/-- `memdb.go:181-199` (`DB`); `used` is the number of nodes made. -/
structure DB (K V : Type) where
  key : Nat → Option K
  val : Nat → Option V
  height : Nat → Nat
  next : Nat → Nat → Nat
  used : Nat
  maxHeight : Nat
  n : Nat
  size : Int

/-- `memdb.go:542-552` (`New`). -/
def DB.new : DB K V :=
  { key := fun _ => none, val := fun _ => none, height := fun i => if i = 0 then maxH else 0,
    next := fun _ _ => 0, used := 1, maxHeight := 1, n := 0, size := 0 }

/-- How the key of a node compares: less than `k`. -/
def DB.lt (p : DB K V) (node : Nat) (k : K) : Bool :=
  match p.key node with
  | some x => decide (x < k)
  | none => false

/-- How the key of a node compares: equal to `k`. -/
def DB.eq (p : DB K V) (node : Nat) (k : K) : Bool :=
  match p.key node with
  | some x => decide (x = k)
  | none => false

/-- Search for the first node not below `k`; `prevs` says whether the nodes passed are noted, in
`prev`.  `memdb.go:211-236` (`findGE`).  The loop is unbounded in the code; here it gives up after
`fuel` turns, which is shown never to happen. -/
def DB.goGE (p : DB K V) (k : K) (prevs : Bool) :
    Nat → Nat → Nat → (Nat → Nat) → Option ((Nat × Bool) × (Nat → Nat))
  | 0, _, _, _ => none
  | fuel + 1, node, h, prev =>
    if p.next node h ≠ 0 ∧ p.lt (p.next node h) k = true then
      p.goGE k prevs fuel (p.next node h) h prev
    else if !prevs && (decide (p.next node h ≠ 0) && p.eq (p.next node h) k) then
      some ((p.next node h, true), prev)
    else
      match h with
      | 0 => some ((p.next node 0, decide (p.next node 0 ≠ 0) && p.eq (p.next node 0) k),
          if prevs then fun i => if i = 0 then node else prev i else prev)
      | h' + 1 =>
        p.goGE k prevs fuel node h'
          (if prevs then fun i => if i = h' + 1 then node else prev i else prev)

/-- More turns than any search takes. -/
def DB.fuel (p : DB K V) : Nat := p.used + maxH + 1

/-- `memdb.go:211-236`. -/
def DB.findGE (p : DB K V) (k : K) (prevs : Bool) : Option ((Nat × Bool) × (Nat → Nat)) :=
  p.goGE k prevs p.fuel 0 (p.maxHeight - 1) (fun _ => 0)

/-- `memdb.go:238-254` (`findLT`). -/
def DB.goLT (p : DB K V) (k : K) : Nat → Nat → Nat → Option Nat
  | 0, _, _ => none
  | fuel + 1, node, h =>
    if p.next node h = 0 ∨ p.lt (p.next node h) k = false then
      match h with
      | 0 => some node
      | h' + 1 => p.goLT k fuel node h'
    else p.goLT k fuel (p.next node h) h

/-- `memdb.go:256-271` (`findLast`). -/
def DB.goLast (p : DB K V) : Nat → Nat → Nat → Option Nat
  | 0, _, _ => none
  | fuel + 1, node, h =>
    if p.next node h = 0 then
      match h with
      | 0 => some node
      | h' + 1 => p.goLast fuel node h'
    else p.goLast fuel (p.next node h) h

/-- Put a new node into the lists of the levels below `h`: it takes the next node of the one before
it, and that one points to it.  `memdb.go:384-388`. -/
def link (prev : Nat → Nat) (node : Nat) : Nat → (Nat → Nat → Nat) → (Nat → Nat → Nat)
  | 0, next => next
  | i + 1, next =>
    let nx := link prev node i next
    fun a l => if l = i then (if a = prev i then node else if a = node then nx (prev i) i else nx a l)
      else nx a l

/-- `memdb.go:354-393` (`Put`); `h` is what `randHeight` gives, `klen` and `vlen` are the lengths of
keys and values. -/
def DB.put (klen : K → Nat) (vlen : V → Nat) (p : DB K V) (k : K) (v : V) (h : Nat) : Option (DB K V) :=
  match p.findGE k true with
  | none => none
  | some ((node, exact), prev) =>
    if exact then
      some { p with
        val := fun i => if i = node then some v else p.val i
        size := p.size + (vlen v : Int) - (match p.val node with | some w => (vlen w : Int) | none => 0) }
    else
      let prev' := fun i => if p.maxHeight ≤ i then 0 else prev i
      some { key := fun i => if i = p.used then some k else p.key i
             val := fun i => if i = p.used then some v else p.val i
             height := fun i => if i = p.used then h else p.height i
             next := link prev' p.used h p.next
             used := p.used + 1
             maxHeight := if p.maxHeight < h then h else p.maxHeight
             n := p.n + 1
             size := p.size + (klen k : Int) + (vlen v : Int) }

/-- Take a node out of the lists of the levels below its height.  `memdb.go:407-411`. -/
def unlink (prev : Nat → Nat) : Nat → (Nat → Nat → Nat) → (Nat → Nat → Nat)
  | 0, next => next
  | i + 1, next =>
    let nx := unlink prev i next
    fun a l => if l = i ∧ a = prev i then nx (nx (prev i) i) i else nx a l

/-- `memdb.go:398-416` (`Delete`); the flag is false for `ErrNotFound`. -/
def DB.delete (klen : K → Nat) (vlen : V → Nat) (p : DB K V) (k : K) : Option (DB K V × Bool) :=
  match p.findGE k true with
  | none => none
  | some ((node, exact), prev) =>
    if exact then
      some ({ p with
        next := unlink prev (p.height node) p.next
        n := p.n - 1
        size := p.size - (match p.key node with | some x => (klen x : Int) | none => 0) -
          (match p.val node with | some w => (vlen w : Int) | none => 0) }, true)
    else some (p, false)

/-- `memdb.go:433-444` (`Get`); the outer `none` is the search that gives up. -/
def DB.get (p : DB K V) (k : K) : Option (Option V) :=
  (p.findGE k false).map (fun r => if r.1.2 then p.val r.1.1 else none)

/-- `memdb.go:421-426` (`Contains`). -/
def DB.contains (p : DB K V) (k : K) : Option Bool := (p.findGE k false).map (fun r => r.1.2)

/-- The key and value of a node. -/
def DB.pair (p : DB K V) (node : Nat) : Option (K × V) :=
  (p.key node).bind (fun k => (p.val node).map (fun v => (k, v)))

/-- `memdb.go:451-466` (`Find`). -/
def DB.find (p : DB K V) (k : K) : Option (Option (K × V)) :=
  (p.findGE k false).map (fun r => if r.1.1 ≠ 0 then p.pair r.1.1 else none)

/-! ### The iterator -/

/-- `memdb.go:28-36` (`dbIter`): the bounds, the node it stands on (0: none) with its key, and the
direction of the last move. -/
structure It (K : Type) where
  start : Option K
  limit : Option K
  node : Nat
  key : Option K
  forward : Bool

/-- `memdb.go:481` (`NewIterator`). -/
def It.new (start limit : Option K) : It K := ⟨start, limit, 0, none, false⟩

/-- Below a bound, if there is one. -/
def below (k : Option K) (b : Option K) : Bool :=
  match k, b with
  | some k, some b => decide (k < b)
  | _, _ => false

/-- At a bound or above, if there is one. -/
def atLeast (k : Option K) (b : Option K) : Bool :=
  match k, b with
  | some k, some b => decide (b ≤ k)
  | _, _ => false

/-- Stand on a node, unless it is outside of the bounds.  `memdb.go:38-59` (`fill`). -/
def It.fill (p : DB K V) (i : It K) (checkStart checkLimit : Bool) : It K × Option (K × V) :=
  if i.node ≠ 0 then
    if (checkLimit && atLeast (p.key i.node) i.limit) || (checkStart && below (p.key i.node) i.start) then
      ({ i with node := 0, key := none }, none)
    else ({ i with key := p.key i.node }, p.pair i.node)
  else ({ i with key := none }, none)

/-- `memdb.go:65-80` (`First`). -/
def It.first (p : DB K V) (i : It K) : Option (It K × Option (K × V)) :=
  match i.start with
  | some s => (p.findGE s false).map (fun r => It.fill p { i with forward := true, node := r.1.1 } false true)
  | none => some (It.fill p { i with forward := true, node := p.next 0 0 } false true)

/-- `memdb.go:82-97` (`Last`). -/
def It.last (p : DB K V) (i : It K) : Option (It K × Option (K × V)) :=
  match i.limit with
  | some l => (p.goLT l p.fuel 0 (p.maxHeight - 1)).map
      (fun r => It.fill p { i with forward := false, node := r } true false)
  | none => (p.goLast p.fuel 0 (p.maxHeight - 1)).map
      (fun r => It.fill p { i with forward := false, node := r } true false)

/-- Where a seek starts.  `memdb.go:108-110`. -/
def seekKey (start : Option K) (k : K) : K :=
  match start with
  | some s => if k < s then s else k
  | none => k

/-- `memdb.go:99-113` (`Seek`). -/
def It.seek (p : DB K V) (i : It K) (k : K) : Option (It K × Option (K × V)) :=
  (p.findGE (seekKey i.start k) false).map
    (fun r => It.fill p { i with forward := true, node := r.1.1 } false true)

/-- `memdb.go:115-132` (`Next`). -/
def It.next (p : DB K V) (i : It K) : Option (It K × Option (K × V)) :=
  if i.node = 0 then (if i.forward then some (i, none) else i.first p)
  else some (It.fill p { i with forward := true, node := p.next i.node 0 } false true)

/-- `memdb.go:134-151` (`Prev`). -/
def It.prev (p : DB K V) (i : It K) : Option (It K × Option (K × V)) :=
  if i.node = 0 then (if i.forward then i.last p else some (i, none))
  else i.key.bind (fun k => (p.goLT k p.fuel 0 (p.maxHeight - 1)).map
    (fun r => It.fill p { i with forward := false, node := r } true false))

end Verif.Mem
