import Verif.Tactics

/-!
# Reading a downloaded chunk

Models `Chunk` (`net/interface.go:93-227`) and `cacheReader.read` (`net/sync_cache_reader.go:623-699`): the blocks of a cached file are checked and collected into the chunk that
goes to the pool. Hashes and addresses are numbers, heights do not wrap. What the file's reader gives (`sync_cache/reader.go:63-123`) is a list of frames; the end of the
list is `io.EOF`. The verifier is a pair of functions. -/

namespace Verif.Sync

/-- A snapshot block. -/
structure SBlk where
  height : Nat
  hash : Nat
  prev : Nat
deriving Repr, DecidableEq

/-- An account block. -/
structure ABlk where
  addr : Nat
  height : Nat
  hash : Nat
  prev : Nat
deriving Repr, DecidableEq

/-- What `Reader.Read` gives: a block, or an error. `halt` is the loop finding that the reader has been stopped or paused (`sync_cache_reader.go:639-648`). -/
inductive Frame where
  | acc (b : ABlk)
  | snap (b : SBlk)
  | bad
  | halt
deriving Repr, DecidableEq

/-- `SnapshotChunk`: account blocks and the snapshot block that confirms them. -/
structure Slot where
  accs : List ABlk
  snap : Option SBlk
deriving Repr, DecidableEq

/-- `Chunk` (`net/interface.go:93-100`): the slots, the block before (height, hash) and the last block (height, hash), the last block of every account in it, and the hashes. -/
structure Chunk where
  slots : List Slot
  first : Nat × Nat
  last : Nat × Nat
  accts : List (Nat × (Nat × Nat))
  hashes : List Nat
deriving Repr, DecidableEq

/-- `newChunk` (`net/interface.go:144-158`). -/
def newChunk (first last : Nat × Nat) : Chunk := ⟨[⟨[], none⟩], first, last, [], []⟩

/-- `cap(c.SnapshotChunks)` (`net/interface.go:147`). -/
def Chunk.cap (c : Chunk) : Nat := c.last.1 - c.first.1

/-- The block before (`net/interface.go:161-170`); at index `chunkLength - 2` there is always a block, so the missing block is not reached. -/
def Chunk.before (c : Chunk) : Nat × Nat :=
  if c.slots.length < 2 then c.first
  else match c.slots[c.slots.length - 2]? with
    | some ⟨_, some b⟩ => (b.height, b.hash)
    | _ => (0, 0)

/-- `addSnapshotBlock` (`net/interface.go:160-187`). -/
def Chunk.addS (c : Chunk) (b : SBlk) : Option Chunk :=
  if b.prev ≠ c.before.2 ∨ b.height ≠ c.before.1 + 1 then none
  else if b.height > c.last.1 then none
  else
    let slots := c.slots.dropLast ++ [{ c.slots.getLastD ⟨[], none⟩ with snap := some b }]
    let slots := if c.slots.length < c.cap then slots ++ [⟨[], none⟩] else slots
    some { c with slots := slots, hashes := b.hash :: c.hashes }

/-- The last block of an account in the chunk. -/
def Chunk.acct (c : Chunk) (a : Nat) : Option (Nat × Nat) := (c.accts.find? (fun x => decide (x.1 = a))).map (·.2)

/-- `addAccountBlock` (`net/interface.go:189-209`). -/
def Chunk.addA (c : Chunk) (b : ABlk) : Option Chunk :=
  let ok := match c.acct b.addr with
    | some (h, x) => decide (x = b.prev ∧ h + 1 = b.height)
    | none => true
  if ok then
    some { c with
      slots := c.slots.dropLast ++ [{ c.slots.getLastD ⟨[], none⟩ with accs := (c.slots.getLastD ⟨[], none⟩).accs ++ [b] }]
      accts := (b.addr, (b.height, b.hash)) :: c.accts, hashes := b.hash :: c.hashes }
  else none

/-- `done` (`net/interface.go:211-227`). -/
def Chunk.isDone (c : Chunk) : Bool :=
  match (c.slots.getLastD ⟨[], none⟩).snap with
  | none => false
  | some b => decide (c.last.2 = b.hash ∧ c.last.1 = b.height)

/-- What the node has to judge blocks by: whether the chunk was verified before, the verifier, and the black list. -/
structure Judge where
  verified : Bool
  okA : ABlk → Bool
  okS : SBlk → Bool
  black : Nat → Bool

/-- What `read` gives: a chunk, which is then marked as verified, or an error; `stop` is the error of a reader that was stopped, after which the chunk stays. -/
inductive Got where
  | chunk (c : Chunk)
  | fail
  | stop
deriving Repr, DecidableEq

/-- The loop of `read` and what follows it (`sync_cache_reader.go:638-698`). A block on the black list ends the loop without an error (`:654-657`, `:670-673`). -/
def readChunk (j : Judge) : Chunk → List Frame → Got
  | c, [] => if c.isDone then .chunk c else .fail
  | _, .halt :: _ => .stop
  | _, .bad :: _ => .fail
  | c, .acc b :: l =>
    if j.black b.hash then .chunk c
    else if !j.verified && !j.okA b then .fail
    else match c.addA b with
      | some c => readChunk j c l
      | none => .fail
  | c, .snap b :: l =>
    if j.black b.hash then .chunk c
    else if !j.verified && !j.okS b then .fail
    else match c.addS b with
      | some c => readChunk j c l
      | none => .fail

end Verif.Sync
