import Verif.Tab.BlockModel

/-!
# Tables: writer and reader

`common/db/xleveldb/table/writer.go`, `reader.go` and `table.go`.  The file is a list of bytes.
Compression and the checksum are given as functions; the filter is given by what it generates from a
list of keys and by its test.  Caches, buffer pools, releasers and locks are left out, as are the
alternative filters of the reader.
-/

namespace Verif.Tab
open Verif.Bytes Verif.Store

variable {O : Type} [LinearOrder O]

/-- A compression.  `snappy.Encode` and `snappy.Decode`. -/
structure Codec where
  enc : Bytes → Bytes
  dec : Bytes → Option Bytes

/-- A filter: its name, what it generates from keys, and its test.  `filter/filter.go`. -/
structure Filt where
  name : Bytes
  gen : List Bytes → Bytes
  has : Bytes → Bytes → Bool

/-- The options of writer and reader.  `writer.go:353-375`: the comparer is `ord` with `sep` and `succ`. -/
structure Opts (O : Type) where
  ord : Bytes → O
  sep : Bytes → Bytes → Option Bytes
  succ : Bytes → Option Bytes
  interval : Nat
  blockSize : Nat
  codec : Option Codec
  crc : Bytes → Nat
  filter : Option Filt
  verify : Bool

/-- Where a block lies: offset and length.  `table.go:160-162`. -/
abbrev Handle := Nat × Nat

/-- `table.go:173-177` (`encodeBlockHandle`). -/
def encH (h : Handle) : Bytes := uvarint h.1 ++ uvarint h.2

/-- `table.go:164-171` (`decodeBlockHandle`), with what follows the handle. -/
def decH (l : Bytes) : Option (Handle × Bytes) :=
  match readUvarint 0 0 l with
  | none => none
  | some (o, r) =>
    match readUvarint 0 0 r with
    | none => none
    | some (n, r') => some ((o, n), r')

/-! ### The filter block -/

/-- `writer.go:87-92` (`filterWriter`); the keys that the generator holds stand for it and for
`nKeys`. -/
structure FW where
  buf : Bytes
  keys : List Bytes
  offsets : List Nat

/-- `writer.go:128-136` (`generate`). -/
def FW.generate (f : Filt) (w : FW) : FW :=
  { buf := if w.keys.length > 0 then w.buf ++ f.gen w.keys else w.buf, keys := [], offsets := w.offsets ++ [w.buf.length] }

/-- `writer.go:102-109` (`flush`): `x` filters are wanted; `n` bounds the turns. -/
def FW.flushTo (f : Filt) (x : Nat) : Nat → FW → FW
  | 0, w => w
  | n + 1, w => if w.offsets.length < x then FW.flushTo f x n (w.generate f) else w

/-- `writer.go:106`: one filter for each 2 KB. -/
def FW.flush (f : Option Filt) (w : FW) (offset : Nat) : FW :=
  match f with
  | none => w
  | some f => FW.flushTo f (offset / 2048) (offset / 2048) w

/-- `writer.go:94-100` (`add`). -/
def FW.add (f : Option Filt) (w : FW) (k : Bytes) : FW :=
  match f with
  | none => w
  | some _ => { w with keys := w.keys ++ [k] }

/-- What `finish` writes.  `writer.go:111-126`. -/
def FW.finish (f : Option Filt) (w : FW) : Bytes :=
  match f with
  | none => w.buf
  | some f =>
    let w' := if w.keys.length > 0 then w.generate f else w
    w'.buf ++ (((w'.offsets ++ [w'.buf.length]).map put4).flatten ++ [11])

/-- `reader.go:456-462` (`filterBlock`). -/
structure FB where
  data : Bytes
  oOffset : Nat
  baseLg : Nat
  num : Nat

/-- `reader.go:657-672`, in `readFilterBlock`. -/
def FB.ofBytes (d : Bytes) : Option FB :=
  if d.length < 5 then none
  else
    let m := d.length - 5
    let o := get4 (d.drop m)
    if m < o then none
    else some ⟨d, o, (d.getD (d.length - 1) 0).toNat, (m - o) / 4⟩

/-- `reader.go:464-477` (`contains`). -/
def FB.contains (f : Filt) (b : FB) (offset : Nat) (k : Bytes) : Bool :=
  let i := offset / 2 ^ b.baseLg
  if i < b.num then
    let n := get4 (b.data.drop (b.oOffset + i * 4))
    let m := get4 (b.data.drop (b.oOffset + i * 4 + 4))
    if n < m ∧ m ≤ b.oOffset then f.has ((b.data.drop n).take (m - n)) k
    else if n = m then false
    else true
  else true

/-! ### Writing -/

/-- `writer.go:139-160` (`Writer`).  `log` is not in the code: it lists the blocks written, so that one
can speak of their sizes.  The offset of the code is the length of the file. -/
structure TW where
  file : Bytes
  bw : BW
  iw : BW
  fw : FW
  pend : Handle
  n : Nat
  log : List Bytes

/-- `writer.go:353-375` (`NewWriter`). -/
def TW.new (o : Opts O) : TW :=
  ⟨[], BW.new o.interval, BW.new 1, FW.flush o.filter ⟨[], [], []⟩ 0, (0, 0), 0, []⟩

/-- A block with its type and checksum.  `writer.go:162-183`. -/
def packed (o : Opts O) (compress : Bool) (d : Bytes) : Bytes :=
  match if compress then o.codec else none with
  | some c => c.enc d ++ [1]
  | none => d ++ [0]

/-- `writer.go:162-193` (`writeBlock`): the file grows, and the handle. -/
def TW.writeBlock (o : Opts O) (w : TW) (d : Bytes) (compress : Bool) : TW × Handle :=
  let p := packed o compress d
  ({ w with file := w.file ++ (p ++ put4 (o.crc p)), log := w.log ++ [d] }, (w.file.length, p.length - 1))

/-- `writer.go:195-217` (`flushPendingBH`); `key` is empty for none. -/
def TW.flushPending (o : Opts O) (w : TW) (key : Bytes) : TW :=
  if w.pend.2 = 0 then w
  else
    let s := (if key.length = 0 then o.succ w.bw.prev else o.sep w.bw.prev key).getD w.bw.prev
    { w with iw := w.iw.append (s, encH w.pend), bw := { w.bw with prev := [] }, pend := (0, 0) }

/-- `writer.go:73-77` (`reset`): the key before is kept. -/
def BW.reset (w : BW) : BW := { w with buf := [], n := 0, restarts := [] }

/-- `writer.go:219-231` (`finishBlock`). -/
def TW.finishBlock (o : Opts O) (w : TW) : TW :=
  let r := w.writeBlock o w.bw.finish true
  { r.1 with pend := r.2, bw := w.bw.reset, fw := w.fw.flush o.filter r.1.file.length }

/-- `writer.go:237-261` (`Append`): `none` when the keys are not in order. -/
def TW.append (o : Opts O) (w : TW) (e : Bytes × Bytes) : Option TW :=
  if w.n > 0 ∧ o.ord e.1 ≤ o.ord w.bw.prev then none
  else
    let w1 := w.flushPending o e.1
    let w2 := { w1 with bw := w1.bw.append e, fw := w1.fw.add o.filter e.1 }
    let w3 := if o.blockSize ≤ w2.bw.bytesLen then w2.finishBlock o else w2
    some { w3 with n := w3.n + 1 }

/-- All entries. -/
def TW.appends (o : Opts O) : TW → List (Bytes × Bytes) → Option TW
  | w, [] => some w
  | w, e :: es =>
    match w.append o e with
    | none => none
    | some w' => TW.appends o w' es

/-- `table.go:148`. -/
def magic : Bytes := [0x57, 0xfb, 0x80, 0x8b, 0x24, 0x75, 0x47, 0xdb]

/-- The name under which the filter is found.  `writer.go:313`. -/
def filterKey (f : Filt) : Bytes := [102, 105, 108, 116, 101, 114, 46] ++ f.name

/-- The footer: two handles, then zeros, then the magic.  `writer.go:333-339`. -/
def footer (m i : Handle) : Bytes :=
  (encH m ++ encH i) ++ (List.replicate (40 - (encH m ++ encH i).length) 0 ++ magic)

/-- The metaindex: the filter, if one was written.  `writer.go:312-317`. -/
def metaBlock (o : Opts O) (w : BW) (h : Handle) : Bytes :=
  match o.filter with
  | some f => if h.2 > 0 then (w.append (filterKey f, encH h)).finish else w.finish
  | none => w.finish

/-- The last data block.  `writer.go:293-299`. -/
def TW.lastBlock (o : Opts O) (w : TW) : TW :=
  (if w.bw.n > 0 ∨ w.n = 0 then w.finishBlock o else w).flushPending o []

/-- The filter block, if there is any.  `writer.go:302-309`. -/
def TW.writeFilter (o : Opts O) (w : TW) : TW × Handle :=
  if (w.fw.finish o.filter).length > 0 then w.writeBlock o (w.fw.finish o.filter) false else (w, (0, 0))

/-- `writer.go:286-348` (`Close`). -/
def TW.close (o : Opts O) (w : TW) : TW :=
  let w1 := w.lastBlock o
  let w2 := w1.writeFilter o
  let w3 := w2.1.writeBlock o (metaBlock o w2.1.bw w2.2) true
  let w4 := w3.1.writeBlock o w3.1.iw.finish true
  { w4.1 with file := w4.1.file ++ footer w3.2 w4.2 }

/-! ### Reading -/

/-- `reader.go:562-600` (`readRawBlock`).  A read past the end of the file is an error here; the code
lets it pass. -/
def readRaw (o : Opts O) (verify : Bool) (file : Bytes) (h : Handle) : Option Bytes :=
  let d := (file.drop h.1).take (h.2 + 5)
  if d.length < h.2 + 5 then none
  else if verify = true ∧ get4 (d.drop (h.2 + 1)) ≠ o.crc (d.take (h.2 + 1)) then none
  else
    match d[h.2]? with
    | some 0 => some (d.take h.2)
    | some 1 => match o.codec with | some c => c.dec (d.take h.2) | none => none
    | _ => none

/-- `reader.go:511-528` (`Reader`). -/
structure TR where
  file : Bytes
  metaH : Handle
  indexH : Handle
  filter : Option (Filt × Handle)

/-- The loop over the metaindex.  `reader.go:1081-1107`. -/
def metaLoop (f : Option Filt) (b : Block) : Nat → BI → Option (Filt × Handle)
  | 0, _ => none
  | n + 1, i =>
    if (BI.next b i).2 = true then
      match f with
      | none => metaLoop f b n (BI.next b i).1
      | some f' =>
        if (BI.next b i).1.key = filterKey f' then
          match decH (BI.next b i).1.value with
          | some (h, _) => some (f', h)
          | none => metaLoop f b n (BI.next b i).1
        else metaLoop f b n (BI.next b i).1
    else none

/-- `reader.go:1021-1109` (`NewReader`). -/
def openT (o : Opts O) (file : Bytes) : Option TR :=
  if file.length < 48 then none
  else
    let ft := file.drop (file.length - 48)
    if ft.drop 40 ≠ magic then none
    else
      match decH ft with
      | none => none
      | some (m, r) =>
        match decH r with
        | none => none
        | some (i, _) =>
          match readRaw o true file m with
          | none => none
          | some d => some ⟨file, m, i, metaLoop o.filter (Block.ofBytes d) (Block.ofBytes d).fuel (BI.whole (Block.ofBytes d))⟩

/-- What a search gives. -/
inductive Found where
  | err
  | none
  | some (e : Bytes × Bytes)

/-- The data block of a handle.  `reader.go:764-770`. -/
def TR.dataBlock (o : Opts O) (r : TR) (h : Handle) : Option Block := (readRaw o o.verify r.file h).map Block.ofBytes

/-- The filter says no.  `reader.go:848-859`; a filter block that cannot be read is passed over. -/
def TR.refuses (o : Opts O) (r : TR) (filtered : Bool) (h : Handle) (k : Bytes) : Bool :=
  match r.filter with
  | none => false
  | some (f, fh) =>
    if filtered = true then
      match (readRaw o true r.file fh).bind FB.ofBytes with
      | none => false
      | some b => !(b.contains f h.1 k)
    else false

/-- The first entry of the next block.  `reader.go:868-890`. -/
def TR.findNext (o : Opts O) (r : TR) (ib : Block) (i : BI) : Found :=
  let j := BI.next ib i
  if j.2 = false then (if j.1.bad then .err else .none)
  else
    match decH j.1.value with
    | none => .err
    | some (h, _) =>
      match r.dataBlock o h with
      | none => .err
      | some b =>
        let d := BI.next b (BI.whole b)
        if d.2 = false then (if d.1.bad then .err else .none)
        else .some (d.1.key, d.1.value)

/-- `reader.go:816-905` (`find`). -/
def TR.find (o : Opts O) (r : TR) (k : Bytes) (filtered : Bool) : Found :=
  match readRaw o true r.file r.indexH with
  | none => .err
  | some id =>
    let ib := Block.ofBytes id
    let i := (BI.whole ib).seek o.ord ib k
    if i.2 = false then (if i.1.bad then .err else .none)
    else
      match decH i.1.value with
      | none => .err
      | some (h, _) =>
        if r.refuses o filtered h k = true then .none
        else
          match r.dataBlock o h with
          | none => .err
          | some b =>
            let d := (BI.whole b).seek o.ord b k
            if d.2 = true then .some (d.1.key, d.1.value)
            else if d.1.bad then .err
            else r.findNext o ib i.1

/-- `reader.go:941-956` (`Get`). -/
def TR.get (o : Opts O) (r : TR) (k : Bytes) : Found :=
  match r.find o k false with
  | .some e => if o.ord e.1 = o.ord k then .some e else .none
  | x => x

end Verif.Tab
