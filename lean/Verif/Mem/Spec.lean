import Verif.Mem.Model

/-! # What a memory table is: a sorted list of entries -/

namespace Verif.Mem

variable {K V : Type} [LinearOrder K]

/-- What can be asked of a table; `h` is the height drawn for a new entry. -/
inductive Op (K V : Type) where
  | put (k : K) (v : V) (h : Nat)
  | del (k : K)
  | get (k : K)
  | has (k : K)
  | find (k : K)
  | len
  | size

/-- What it answers. -/
inductive Out (K V : Type) where
  | ok
  | found (b : Bool)
  | value (v : Option V)
  | entry (e : Option (K × V))
  | count (n : Nat)
  | bytes (n : Int)
  deriving DecidableEq

/-- The bytes of the entries. -/
def total (klen : K → Nat) (vlen : V → Nat) : List (K × V) → Int
  | [] => 0
  | e :: m => (klen e.1 : Int) + (vlen e.2 : Int) + total klen vlen m

/-- One question to a sorted list of entries. -/
def specStep (klen : K → Nat) (vlen : V → Nat) (m : List (K × V)) : Op K V → List (K × V) × Out K V
  | .put k v _ => (m.filter (fun e => decide (e.1 < k)) ++ (k, v) :: m.filter (fun e => decide (k < e.1)), .ok)
  | .del k => (m.filter (fun e => decide (e.1 ≠ k)), .found (m.any (fun e => decide (e.1 = k))))
  | .get k => (m, .value ((m.find? (fun e => decide (e.1 = k))).map Prod.snd))
  | .has k => (m, .found (m.any (fun e => decide (e.1 = k))))
  | .find k => (m, .entry (m.find? (fun e => decide (k ≤ e.1))))
  | .len => (m, .count m.length)
  | .size => (m, .bytes (total klen vlen m))

/-- A list of questions. -/
def specRun (klen : K → Nat) (vlen : V → Nat) : List (K × V) → List (Op K V) → List (Out K V)
  | _, [] => []
  | m, o :: ops => (specStep klen vlen m o).2 :: specRun klen vlen (specStep klen vlen m o).1 ops

/-- The entries after a list of questions. -/
def specEnd (klen : K → Nat) (vlen : V → Nat) : List (K × V) → List (Op K V) → List (K × V)
  | m, [] => m
  | m, o :: ops => specEnd klen vlen (specStep klen vlen m o).1 ops

/-- One question to the table; none is a search that does not end. -/
def step (klen : K → Nat) (vlen : V → Nat) (p : DB K V) : Op K V → Option (DB K V × Out K V)
  | .put k v h => (p.put klen vlen k v h).map (fun q => (q, .ok))
  | .del k => (p.delete klen vlen k).map (fun q => (q.1, .found q.2))
  | .get k => (p.get k).map (fun v => (p, .value v))
  | .has k => (p.contains k).map (fun b => (p, .found b))
  | .find k => (p.find k).map (fun e => (p, .entry e))
  | .len => some (p, .count p.n)
  | .size => some (p, .bytes p.size)

/-- A list of questions. -/
def run (klen : K → Nat) (vlen : V → Nat) : DB K V → List (Op K V) → Option (DB K V × List (Out K V))
  | p, [] => some (p, [])
  | p, o :: ops => (step klen vlen p o).bind (fun q =>
      (run klen vlen q.1 ops).map (fun r => (r.1, q.2 :: r.2)))

/-- The heights are those `randHeight` gives.  `memdb.go:201-208`. -/
def Op.fine : Op K V → Prop
  | .put _ _ h => 1 ≤ h ∧ h ≤ 12
  | _ => True

/-! ### The iterator: a cursor -/

/-- Where a cursor stands. -/
inductive Pos (K : Type) where
  | before
  | on (k : K)
  | after

/-- In the range. -/
def within (start limit : Option K) (e : K × V) : Bool :=
  (match start with | some s => decide (s ≤ e.1) | none => true) &&
  (match limit with | some l => decide (e.1 < l) | none => true)

/-- Forward, to the first of some entries. -/
def up (l : List (K × V)) : Pos K × Option (K × V) :=
  match l.head? with
  | some e => (.on e.1, some e)
  | none => (.after, none)

/-- Backward, to the last of some entries. -/
def down (l : List (K × V)) : Pos K × Option (K × V) :=
  match l.getLast? with
  | some e => (.on e.1, some e)
  | none => (.before, none)

/-- The moves, and puts between them. -/
inductive Move (K V : Type) where
  | put (k : K) (v : V) (h : Nat)
  | first
  | last
  | seek (k : K)
  | next
  | prev

/-- A move of a cursor over the entries `r` of the range. -/
def cursor (r : List (K × V)) : Pos K → Move K V → Pos K × Option (K × V)
  | pos, .put .. => (pos, none)
  | _, .first => up r
  | _, .last => down r
  | _, .seek k => up (r.filter (fun e => decide (k ≤ e.1)))
  | .before, .next => up r
  | .on k, .next => up (r.filter (fun e => decide (k < e.1)))
  | .after, .next => (.after, none)
  | .before, .prev => (.before, none)
  | .on k, .prev => down (r.filter (fun e => decide (e.1 < k)))
  | .after, .prev => down r

/-- The entries after a move: a put changes them. -/
def entriesAfter (m : List (K × V)) : Move K V → List (K × V)
  | .put k v _ => m.filter (fun e => decide (e.1 < k)) ++ (k, v) :: m.filter (fun e => decide (k < e.1))
  | _ => m

/-- A list of moves over what is in the table at each time. -/
def cursorRun (start limit : Option K) : List (K × V) → Pos K → List (Move K V) → List (Option (K × V))
  | _, _, [] => []
  | m, pos, o :: ops =>
    (cursor (m.filter (within start limit)) pos o).2 ::
      cursorRun start limit (entriesAfter m o) (cursor (m.filter (within start limit)) pos o).1 ops

/-- The same moves of the iterator of the code. -/
def move (klen : K → Nat) (vlen : V → Nat) (p : DB K V) (i : It K) :
    Move K V → Option (DB K V × (It K × Option (K × V)))
  | .put k v h => (p.put klen vlen k v h).map (fun q => (q, (i, none)))
  | .first => (i.first p).map (fun r => (p, r))
  | .last => (i.last p).map (fun r => (p, r))
  | .seek k => (i.seek p k).map (fun r => (p, r))
  | .next => (i.next p).map (fun r => (p, r))
  | .prev => (i.prev p).map (fun r => (p, r))

/-- A list of moves. -/
def moves (klen : K → Nat) (vlen : V → Nat) :
    DB K V → It K → List (Move K V) → Option (List (Option (K × V)))
  | _, _, [] => some []
  | p, i, o :: ops => (move klen vlen p i o).bind (fun q =>
      (moves klen vlen q.1 q.2.1 ops).map (fun l => q.2.2 :: l))

/-- The heights are those `randHeight` gives. -/
def Move.fine : Move K V → Prop
  | .put _ _ h => 1 ≤ h ∧ h ≤ 12
  | _ => True

end Verif.Mem
