import Mathlib.Data.List.Sort

/-!
# The heights at which new rules begin

`common/upgrade`.  Names are lists of characters.  The variable that holds the box of the node is left out.  A
panic is `none`.
-/

namespace Verif.Upgrade

/-- `face.go:12-16` (`UpgradePoint`).  The name goes into the hash of snapshot blocks. -/
structure Point where
  name : List Char
  height : Nat
  version : Nat
  deriving DecidableEq

/-- `upgrade.go:8-12` (`upgradeBox`).  The map by version is a list with each version once. -/
structure Box where
  points : List Point
  heights : List Nat
  sorted : List Point
  deriving DecidableEq

/-- To put into a map. -/
def put (m : List Point) (p : Point) : List Point := p :: m.filter (fun q => q.version ≠ p.version)

/-- To look up in it. -/
def get (m : List Point) (v : Nat) : Option Point := m.find? (fun q => q.version = v)

/-- `upgrade.go:114-126` (`sortPoints`): the versions differ, so that the way of sorting does not matter. -/
def sortPoints (m : List Point) : List Point := m.insertionSort (fun a b => a.version ≤ b.version)

/-- `upgrade.go:29-31`: the version in decimal for a name that is not there. -/
def named (p : Point) : Point := if p.name = [] then { p with name := Nat.toDigits 10 p.version } else p

/-- `upgrade.go:27-36` (`initFromArray`). -/
def initFromArray (ps : List Point) : Box :=
  let m := (ps.map named).foldl put []
  ⟨m, ps.map Point.height, sortPoints m⟩

/-- `upgrade.go:14-25` (`checkBox`); `false` for a panic. -/
def checkFrom : Nat → Nat → List Point → Bool
  | _, _, [] => true
  | i, h, p :: ps => if i + 1 ≠ p.version then false else if p.height < h then false else checkFrom (i + 1) p.height ps

/-- `upgrade.go:103-112` (`newUpgradeBox`), `upgrade_init.go:136-145` (`NewCustomUpgradeBox`). -/
def newBox (ps : List Point) : Option Box :=
  let b := initFromArray ps
  if checkFrom 0 0 b.sorted then some b else none

/-- `upgrade.go:38-46` (`AddPoint`).  Versions are 32 bits wide: before version 0 comes the greatest. -/
def Box.addPoint (b : Box) (version height : Nat) : Option Box :=
  if 0 < b.points.length ∧ get b.points ((version + (2 ^ 32 - 1)) % 2 ^ 32) = none then none
  else
    let m := put b.points ⟨[], height, version⟩
    some ⟨m, height :: b.heights, sortPoints m⟩

/-- `face.go:29`. -/
def endless : Nat := 1000000000

/-- The loop of `currentPoint` and `latestPoint`. -/
def lastWhile (f : Point → Bool) : Option Point → List Point → Option Point
  | r, [] => r
  | r, p :: ps => if f p then lastWhile f (some p) ps else r

/-- `upgrade.go:48-58` (`latestPoint`). -/
def Box.latestPoint (b : Box) : Option Point := lastWhile (fun p => p.height < endless) none b.sorted

/-- `upgrade.go:60-70` (`currentPoint`). -/
def Box.currentPoint (b : Box) (height : Nat) : Option Point := lastWhile (fun p => p.height ≤ height) none b.sorted

/-- `upgrade.go:72-80` (`activePoints`). -/
def Box.activePoints (b : Box) (height : Nat) : List Point := b.sorted.filter (fun p => p.height ≤ height)

/-- `upgrade.go:86-92` (`isActive`). -/
def Box.isActive (b : Box) (version height : Nat) : Bool :=
  match get b.points version with
  | none => false
  | some p => p.height ≤ height

/-- `upgrade.go:95-97` (`isPoint`). -/
def Box.isPoint (b : Box) (height : Nat) : Bool := b.heights.contains height

/-- `face.go:48-56` (`InitUpgradeBox`): the node makes a box of the points of the one it is given. -/
def initNode (b : Box) : Option Box := newBox b.sorted

/-- `upgrade_init.go:67-134` (`NewMainnetUpgradeBox`). -/
def mainnet : List Point :=
  [⟨['S', 'e', 'e', 'd', 'F', 'o', 'r', 'k'], 3488471, 1⟩,
   ⟨['D', 'e', 'x', 'F', 'o', 'r', 'k'], 5442723, 2⟩,
   ⟨['D', 'e', 'x', 'F', 'e', 'e', 'F', 'o', 'r', 'k'], 8013367, 3⟩,
   ⟨['S', 't', 'e', 'm', 'F', 'o', 'r', 'k'], 8403110, 4⟩,
   ⟨['L', 'e', 'a', 'f', 'F', 'o', 'r', 'k'], 9413600, 5⟩,
   ⟨['E', 'a', 'r', 't', 'h', 'F', 'o', 'r', 'k'], 16634530, 6⟩,
   ⟨['D', 'e', 'x', 'M', 'i', 'n', 'i', 'n', 'g', 'F', 'o', 'r', 'k'], 17142720, 7⟩,
   ⟨['D', 'e', 'x', 'R', 'o', 'b', 'o', 't', 'F', 'o', 'r', 'k'], 31305900, 8⟩,
   ⟨['D', 'e', 'x', 'S', 't', 'a', 'b', 'l', 'e', 'M', 'a', 'r', 'k', 'e', 't', 'F', 'o', 'r', 'k'], 39694000, 9⟩,
   ⟨['V', 'e', 'r', 's', 'i', 'o', 'n', '1', '0'], 77106666, 10⟩,
   ⟨['V', 'e', 'r', 's', 'i', 'o', 'n', '1', '1'], 101320000, 11⟩,
   ⟨['V', 'e', 'r', 's', 'i', 'o', 'n', '1', '2'], 116480000, 12⟩,
   ⟨['V', 'e', 'r', 's', 'i', 'o', 'n', '1', '3'], 166869900, 13⟩,
   ⟨['V', 'e', 'r', 's', 'i', 'o', 'n', 'X'], endless, 14⟩]

/-- `upgrade_init.go:4-65` (`NewLatestUpgradeBox`). -/
def allActive : List Point := (List.range' 1 14).map (fun v => ⟨[], 1, v⟩)

end Verif.Upgrade
