import Verif.Tactics

/-!
The fork tree of the pool (ledger/pool/tree): the blocks a node has heard of and not written to its chain, as branches
that stem from each other; the main branch continues the chain on disk.

Simplifications: hashes are numbers; a branch is named by a number instead of a string; the chain on disk starts with an
empty block of height 0 (ledger/pool/tools_chain.go:96-98); the set of hashes for `Exists`, times and log output are left
out; the check for rings (checker.go:86-110) is left out; operations are atomic (the pool holds its locks). `none` is a
panic.
-/

namespace Verif.Fork

/-- ledger/pool/tree/tree.go:16-20. -/
structure Knot where
  height : Nat
  hash : Nat
  prev : Nat
deriving DecidableEq, Repr

/-- A branch (branch_base.go:11-22, branch.go:13-20). `root`: the branch it stems from, `none` is the chain on disk. -/
@[ext] structure Br where
  tail : Nat
  tailHash : Nat
  head : Nat
  headHash : Nat
  knots : Nat → Option Knot
  root : Option Nat

/-- The tree (tree_impl.go:14-26). `br` are the branch objects, `live` is branchList, `kids` are the pairs of a branch and
a child of it (branch.go:18-19), `disk` is the chain the tree stands on (index = height). -/
structure Tree where
  br : Nat → Br
  live : List Nat
  kids : List (Nat × Nat)
  main : Nat
  next : Nat
  disk : List Knot

def put (f : Nat → Option Knot) (h : Nat) (v : Option Knot) : Nat → Option Knot := fun x => if x = h then v else f x

/-! ### Branches by themselves -/

/-- branch_base.go:77-86. -/
def Br.addHead (b : Br) (w : Knot) : Option Br :=
  if b.headHash ≠ w.prev then none
  else some { b with headHash := w.hash, head := w.height, knots := put b.knots w.height (some w) }

/-- branch_base.go:95-107. -/
def Br.removeTail (b : Br) (w : Knot) : Option Br :=
  if b.tailHash ≠ w.prev then none
  else if b.head < w.height then none
  else some { b with tailHash := w.hash, tail := w.height, knots := put b.knots w.height none }

/-- branch_base.go:109-121. -/
def Br.removeHead (b : Br) (w : Knot) : Option Br :=
  if b.headHash ≠ w.hash then none
  else if w.height ≤ b.tail then none
  else some { b with headHash := w.prev, head := w.height - 1, knots := put b.knots w.height none }

/-- branch_base.go:123-132. -/
def Br.addTail (b : Br) (w : Knot) : Option Br :=
  if b.tailHash ≠ w.hash then none
  else some { b with tailHash := w.prev, tail := w.height - 1, knots := put b.knots w.height (some w) }

/-- branch_base.go:24-26: size. -/
def Br.size (b : Br) : Nat := b.head - b.tail

/-- branch.go:322-333: localContains. -/
def Br.has (b : Br) (h x : Nat) : Bool := b.tail < h && h ≤ b.head && (b.knots h).any (fun k => k.hash = x)

/-! ### Reading -/

/-- branch.go:235-255, 267-287: the loop over the roots. The code stops when it meets a branch again. -/
def Tree.walk (t : Tree) : Nat → Option Nat → Nat → Option (Knot × Option Nat)
  | _, none, h => (t.disk[h]?).map (fun k => (k, none))
  | 0, some _, _ => none
  | f + 1, some r, h =>
    match (t.br r).knots h with
    | some k => some (k, some r)
    | none => t.walk f (t.br r).root h

/-- branch.go:227-256: getKnotAndBranch. -/
def Tree.find (t : Tree) (i h : Nat) : Option (Knot × Option Nat) :=
  if (t.br i).head < h then none
  else match (t.br i).knots h with
    | some k => some (k, some i)
    | none => t.walk t.next (t.br i).root h

/-- branch.go:294-304: getKnot. -/
def Tree.knot (t : Tree) (i h : Nat) (full : Bool) : Option Knot :=
  ((t.br i).knots h).or (if full then (t.find i h).map (·.1) else none)

/-- GetKnotAndBranch of a branch or of the disk (ledger/pool/branch_chain.go:47-49). -/
def Tree.findAt (t : Tree) : Option Nat → Nat → Option (Knot × Option Nat)
  | none, h => (t.disk[h]?).map (fun k => (k, none))
  | some r, h => t.find r h

/-- GetKnot(height, true) of a branch or of the disk. -/
def Tree.knotAt (t : Tree) : Option Nat → Nat → Option Knot
  | none, h => t.disk[h]?
  | some r, h => t.knot r h true

/-- branch.go:306-320: contains with flag. -/
def Tree.contains (t : Tree) (i h x : Nat) : Bool :=
  (t.br i).has h x || (t.knotAt (t.br i).root h).any (fun k => k.hash = x)

/-! ### Changing roots -/

def Tree.set (t : Tree) (i : Nat) (b : Br) : Tree := { t with br := fun j => if j = i then b else t.br j }

/-- branch.go:349-354: removeChild. -/
def Tree.unkid (t : Tree) (p : Option Nat) (c : Nat) : Tree :=
  match p with
  | none => t
  | some p => { t with kids := t.kids.filter (fun x => x ≠ (p, c)) }

/-- branch.go:357-362: addChild. -/
def Tree.addKid (t : Tree) (p : Option Nat) (c : Nat) : Tree :=
  match p with
  | none => t
  | some p => if (p, c) ∈ t.kids then t else { t with kids := (p, c) :: t.kids }

/-- branch.go:365-372: allChildren. -/
def Tree.kidsOf (t : Tree) (p : Nat) : List Nat := (t.kids.filter (fun x => x.1 = p)).map (·.2)

/-- branch.go:191-200: updateRootSimple. -/
def Tree.reroot (t : Tree) (i : Nat) (old new : Option Nat) : Tree :=
  let t := t.unkid old i
  let t := t.set i { t.br i with root := new }
  t.addKid new i

/-- branch.go:207-224: the children loop of updateRoot; a branch on disk can not be asked (branch_chain.go:77-80). -/
def Tree.moveKids (i : Nat) (old : Option Nat) (new : Nat) : List Nat → Tree → Option Tree
  | [], t => some t
  | v :: vs, t =>
    if (t.br i).has (t.br v).tail (t.br v).tailHash then moveKids i old new vs t
    else if t.contains new (t.br v).tail (t.br v).tailHash then moveKids i old new vs (t.reroot v (some i) (some new))
    else match old with
      | none => none
      | some o =>
        if t.contains o (t.br v).tail (t.br v).tailHash then moveKids i old new vs (t.reroot v (some i) (some o))
        else none

/-- branch.go:201-225: updateRoot. -/
def Tree.updateRoot (t : Tree) (i : Nat) (old : Option Nat) (new : Nat) : Option Tree :=
  let t := t.set i { t.br i with root := some new }
  let t := t.addKid (some new) i
  Tree.moveKids i old new (t.kidsOf i) t

/-! ### Pruning -/

/-- branch.go:85-99: the loop of prune: `n` heights from `h` on. -/
def Tree.pruneLoop (i : Nat) : Nat → Nat → Tree → Option (Tree × Bool)
  | 0, _, t => some (t, false)
  | n + 1, h, t =>
    match t.findAt (t.br i).root h with
    | none => some (t, false)
    | some (k, _) =>
      match (t.br i).knots h with
      | none => none
      | some s =>
        if k.hash = s.hash then
          match (t.br i).removeTail k with
          | none => none
          | some b => (pruneLoop i n (h + 1) (t.set i b)).map (fun p => (p.1, true))
        else some (t, false)

/-- branch.go:112-131: updateChildrenForRemoveTail. -/
def Tree.shiftKids (i r : Nat) : List Nat → Tree → Option Tree
  | [], t => some t
  | v :: vs, t =>
    if (t.br i).has (t.br v).tail (t.br v).tailHash then shiftKids i r vs t
    else if t.contains r (t.br v).tail (t.br v).tailHash then shiftKids i r vs (t.reroot v (some i) (some r))
    else none

/-- branch.go:408-421: destroy: `n` heights below the head. -/
def Br.destroy : Nat → Br → Option Br
  | 0, b => some b
  | n + 1, b =>
    match b.knots b.head with
    | none => none
    | some k => (b.removeHead k).bind (Br.destroy n)

/-- branch.go:400-407: isLeafBranch. -/
def Tree.leaf (t : Tree) (i : Nat) : Bool := (t.kidsOf i).isEmpty

/-- tree_impl.go:338-362: removeBranch. An error leaves the tree, but for an empty branch with children. -/
def Tree.removeBranch (t : Tree) (i : Nat) : Option Tree :=
  if i = t.main then some t
  else match (t.br i).root with
    | none => some t
    | some r =>
      if t.leaf i then
        let t1 := { t.unkid (some r) i with live := t.live.filter (fun j => j ≠ i) }
        ((t1.br i).destroy (t1.br i).size).map (fun b => t1.set i b)
      else if (t.br i).size = 0 then
        let t1 := { t.unkid (some r) i with live := t.live.filter (fun j => j ≠ i) }
        some ((t1.kidsOf i).foldl (fun t v => t.addKid (some r) v) t1)
      else some t

/-- branch.go:80-110: prune. -/
def Tree.prune : Nat → Nat → Tree → Option Tree
  | 0, _, t => some t
  | f + 1, i, t =>
    let up : Option Tree := match (t.br i).root with
      | none => some t
      | some r => prune f r t
    up.bind (fun t =>
      (Tree.pruneLoop i (t.br i).size ((t.br i).tail + 1) t).bind (fun p =>
        if p.2 then
          let moved : Option Tree := match (p.1.br i).root with
            | none => some p.1
            | some r => Tree.shiftKids i r (p.1.kidsOf i) p.1
          moved.bind (fun t => if i ≠ t.main ∧ (t.br i).size = 0 then t.removeBranch i else some t)
        else some p.1))

/-! ### Exchanging roots -/

/-- branch.go:167-172: blocks of the root become blocks of the branch; `n` heights from `h` down. -/
def Tree.takeOver (i r : Nat) : Nat → Nat → Tree → Option Tree
  | 0, _, t => some t
  | n + 1, h, t =>
    match (t.br r).knots h with
    | none => takeOver i r n (h - 1) t
    | some w => ((t.br i).addTail w).bind (fun b => takeOver i r n (h - 1) (t.set i b))

/-- branch.go:147-189: exchangeRoot. The loop that was to remove these blocks from the root (lines 173-178) runs from
`rootTailHeight + 1` to `rootTailHeight`, so never. -/
def Tree.exchange (t : Tree) (i r : Nat) : Option (Tree × Bool) :=
  let rr := (t.br r).root
  let t1 := t.unkid rr r
  if (t1.br r).tail = (t1.br i).tail ∧ (t1.br r).tailHash = (t1.br i).tailHash then
    ((t1.reroot i (some r) rr).updateRoot r rr i).map (fun t => (t, true))
  else if (t1.br r).tail ≤ (t1.br i).tail ∧ (t1.br i).tail ≤ (t1.br r).head then
    (Tree.takeOver i r ((t1.br i).tail - (t1.br r).tail) (t1.br i).tail t1).bind (fun t2 =>
      ((t2.reroot i (some r) rr).updateRoot r rr i).map (fun t => (t, true)))
  else some (t1, false)

/-- branch.go:133-145: exchangeAllRoot. -/
def Tree.exchangeAll (i : Nat) : Nat → Tree → Option (Tree × Bool)
  | 0, t => some (t, false)
  | f + 1, t =>
    match (t.br i).root with
    | none => some (t, true)
    | some r =>
      (t.exchange i r).bind (fun p => if p.2 then exchangeAll i f p.1 else some (p.1, false))

/-- The head of the chain on disk. -/
def Tree.top (t : Tree) : Option Knot := t.disk.getLast?

/-- branch.go:375-382: Linked, with the disk. -/
def Tree.linked (t : Tree) (i : Nat) : Bool := t.top.any (fun k => (t.br i).tail = k.height && (t.br i).tailHash = k.hash)

/-- tree_impl.go:182-207: SwitchMainTo; `false` is an error. -/
def Tree.switchTo (t : Tree) (i : Nat) : Option (Tree × Bool) :=
  if i = t.main then some (t, true)
  else
    (Tree.prune (t.next + 1) i t).bind (fun t1 =>
      (Tree.exchangeAll i (t1.next + 1) t1).bind (fun p =>
        if p.2 then (if p.1.linked i then some ({ p.1 with main := i }, true) else none) else some p))

/-! ### Growing -/

/-- branch_base.go:134-146, branch.go:423-429: an empty branch at a block. -/
def Br.new (k : Knot) (root : Option Nat) : Br := ⟨k.height, k.hash, k.height, k.hash, fun _ => none, root⟩

/-- tree_impl.go:57-64: Init. -/
def start (disk : List Knot) : Tree :=
  { br := fun _ => Br.new ((disk.getLast?).getD ⟨0, 0, 0⟩) none, live := [1], kids := [], main := 1, next := 2, disk := disk }

/-- tree_impl.go:78-91: ForkBranch. -/
def Tree.fork (t : Tree) (b h : Nat) : Option Tree :=
  match t.knot b h true with
  | none => none
  | some k =>
    let t1 := { t.set t.next (Br.new k (some b)) with next := t.next + 1 }
    let t2 := t1.addKid (some b) t.next
    some { t2 with live := t2.live ++ [t.next] }

/-- chain_pool.go:199-219 and tree_impl.go:138-146: a block continues a branch, or is refused. -/
def Tree.extend (t : Tree) (i : Nat) (w : Knot) : Option Tree :=
  if w.height = (t.br i).head + 1 ∧ (t.br i).headHash = w.prev then ((t.br i).addHead w).map (fun b => t.set i b)
  else some t

/-- chain_pool.go:30-40, 70-175 (fork2): a piece of chain is attached where its tail is found: branch `c` is asked for
the block at this height; it is found in a branch, or on disk, and then the main branch is forked. -/
def Tree.attach (t : Tree) (c h : Nat) : Option Tree :=
  match t.find c h with
  | none => some t
  | some (_, none) => t.fork t.main h
  | some (_, some b) => t.fork b h

/-- tree_impl.go:93-127: RootHeadAdd. -/
def Tree.rootAdd (t : Tree) (k : Knot) : Option Tree :=
  let m := t.main
  if k.prev ≠ (t.br m).tailHash then none
  else if (t.br m).headHash = k.prev then
    (((t.br m).addHead k).bind (fun b => b.removeTail k)).map (fun b => t.set m b)
  else if (t.br m).has k.height k.hash then ((t.br m).removeTail k).map (fun b => t.set m b)
  else
    (t.fork m (k.height - 1)).bind (fun t1 =>
      let n := t.next
      (((t1.br n).addHead k).bind (fun b => b.removeTail k)).bind (fun b =>
        let t2 := (t1.set n b).reroot n (some m) none
        (t2.updateRoot m (t2.br m).root n).map (fun t3 => { t3 with main := n })))

/-- chain_pool.go:228-237: a block is written to the chain. The chain takes it only if it continues it. -/
def Tree.confirm (t : Tree) (k : Knot) : Option Tree :=
  if t.top.any (fun p => k.height = p.height + 1 ∧ k.prev = p.hash) then
    Tree.rootAdd { t with disk := t.disk ++ [k] } k
  else some t

/-- bc_pool.go:207-213: the blocks taken from the chain, last first, become blocks of the main branch. -/
def Tree.addTails (m : Nat) : List Knot → Tree → Option Tree
  | [], t => some t
  | w :: ws, t => ((t.br m).addTail w).bind (fun b => addTails m ws (t.set m b))

/-- bc_pool.go:163-220: the chain is rolled back to below height `h`. -/
def Tree.rollback (t : Tree) (h : Nat) : Option Tree :=
  if 0 < h then Tree.addTails t.main (t.disk.drop h).reverse { t with disk := t.disk.take h } else some t

/-- tree_impl.go:209-220, 264-273: SwitchMainToEmpty; `order` is the order in which the branches are met. -/
def Tree.toEmpty (t : Tree) (order : List Nat) : Option (Tree × Bool) :=
  if (t.br t.main).size = 0 then some (t, true)
  else match t.top with
    | none => none
    | some k =>
      match order.find? (fun c => (t.br c).size = 0 && (t.br c).headHash = k.hash && (t.br c).head = k.height) with
      | some c => t.switchTo c
      | none => (t.fork t.main k.height).bind (fun t1 => t1.switchTo t.next)

/-- tree_impl.go:312-318: the first loop of PruneTree; branches deleted meanwhile are not met. -/
def Tree.pruneAll : List Nat → Tree → Option Tree
  | [], t => some t
  | i :: is, t =>
    if i = t.main ∨ i ∉ t.live then pruneAll is t
    else (Tree.prune (t.next + 1) i t).bind (pruneAll is)

/-- tree_impl.go:320-335 and branch.go:384-398: garbage: leaves that are empty, or old. -/
def Tree.sweep (old : Nat → Bool) : List Nat → Tree → Option Tree
  | [], t => some t
  | i :: is, t =>
    if i = t.main ∨ i ∉ t.live then sweep old is t
    else if t.leaf i ∧ (old i ∨ (t.br i).size = 0) then (t.removeBranch i).bind (sweep old is)
    else sweep old is t

/-- tree_impl.go:302-336: PruneTree. -/
def Tree.pruneTree (t : Tree) (old : Nat → Bool) (o1 o2 : List Nat) : Option Tree :=
  (Tree.pruneAll o1 t).bind (Tree.sweep old o2)

/-! ### Queries and checks -/

/-- tree_impl.go:233-253: the loop of FindForkPointFromMain: `n` heights from `n - 1` down. -/
def Tree.forkLoop (t : Tree) (longer shorter : Nat) : Nat → Option (Option Knot × Knot)
  | 0 => none
  | n + 1 =>
    match t.knot longer n true, t.knot shorter n true with
    | some a, some b => if a.hash = b.hash then some (t.knot longer (n + 1) true, a) else forkLoop t longer shorter n
    | _, _ => none

/-- tree_impl.go:223-262: FindForkPointFromMain: key point and fork point; `none` is an error. -/
def Tree.forkPoint (t : Tree) (i : Nat) : Option (Option Knot × Knot) :=
  let p := if (t.br t.main).head < (t.br i).head then (i, t.main) else (t.main, i)
  t.forkLoop p.1 p.2 ((t.br p.2).head + 1)

/-- tree_impl.go:275-289: Brothers. -/
def Tree.brothers (t : Tree) (i : Nat) : List Nat :=
  (t.kidsOf i).filter (fun v => (t.br v).tail = (t.br i).tail && (t.br v).tailHash = (t.br i).tailHash)

/-- checker.go:11-59: CheckTree; the pool panics if it fails (bc_pool.go:613-626). -/
def Tree.check (t : Tree) : Bool :=
  t.live.all (fun c =>
    match (t.br c).root with
    | none => c = t.main && t.linked c
    | some r => (t.knot r (t.br c).tail (r = t.main)).any (fun k => k.hash = (t.br c).tailHash))

/-- bc_pool.go:613-620: the first half of the pool's check. -/
def Tree.checkTail (t : Tree) : Bool := t.linked t.main

/-! ### Operations -/

inductive Op
  | extend (i : Nat) (w : Knot)
  | attach (c h : Nat)
  | confirm (k : Knot)
  | rollback (h : Nat)
  | switch (i : Nat)
  | toEmpty (order : List Nat)
  | prune (old : Nat → Bool) (o1 o2 : List Nat)

/-- One operation; `none`: a panic. An error of a switch is one too (account_pool.go:174-178, pool.go:770-778). -/
def Tree.step (t : Tree) : Op → Option Tree
  | .extend i w => t.extend i w
  | .attach c h => t.attach c h
  | .confirm k => t.confirm k
  | .rollback h => t.rollback h
  | .switch i => (t.switchTo i).bind (fun p => if p.2 then some p.1 else none)
  | .toEmpty o => (t.toEmpty o).bind (fun p => if p.2 then some p.1 else none)
  | .prune old o1 o2 => t.pruneTree old o1 o2

end Verif.Fork
