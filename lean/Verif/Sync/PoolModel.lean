import Verif.Tactics

/-!
# The connections that chunks are downloaded over

Models `net/sync_conn.go:548-712` (`downloadConnPool`) and the use of it by `createConn` (`net/sync_downloader.go:434-483`). Peers are numbers, maps are functions. Each operation holds the lock of the
pool. Time is in seconds. Orders of maps and the order of connections of the same speed are arguments. -/

namespace Verif.Sync

/-- `syncConn` (`sync_conn.go:306-317`), as far as the pool looks at it: the peer and its height, whether a download is running, and a number for the connection itself. -/
structure Conn where
  peer : Nat
  height : Nat
  busy : Bool
  uid : Nat
deriving Repr, DecidableEq

/-- `mi` and `l` of `downloadConnPool` (`sync_conn.go:548-554`). -/
structure Pool where
  mi : Nat → Option Nat
  l : List Conn

/-- `newDownloadConnPool` (`sync_conn.go:556-562`). -/
def Pool.empty : Pool := ⟨fun _ => none, []⟩

/-- `connections.del` (`sync_conn.go:533-541`). -/
def delAt (l : List Conn) (i : Nat) : List Conn := if i < l.length then l.eraseIdx i else l

/-- `delConn`, `delConnLocked` (`sync_conn.go:606-629`). Closing the connection is left out. -/
def delConn (p : Pool) (peer : Nat) : Pool :=
  match p.mi peer with
  | some i => ⟨fun q => if q = peer then none else p.mi q, delAt p.l i⟩
  | none => p

/-- `addConn` (`sync_conn.go:631-642`). -/
def addConn (p : Pool) (c : Conn) : Pool × Bool :=
  match p.mi c.peer with
  | some _ => (p, false)
  | none => (⟨fun q => if q = c.peer then some p.l.length else p.mi q, p.l ++ [c]⟩, true)

/-- The loop of `sortLocked` over the sorted list from an index on (`sync_conn.go:653-656`). -/
def reindex : List Conn → Nat → (Nat → Option Nat) → Nat → Option Nat
  | [], _, mi => mi
  | c :: l, i, mi => reindex l (i + 1) (fun q => if q = c.peer then some i else mi q)

/-- `sortLocked` (`sync_conn.go:652-657`). -/
def sortPool (ord : List Conn → List Conn) (p : Pool) : Pool := ⟨reindex (ord p.l) 0 p.mi, ord p.l⟩

/-- The end of `createConn` (`sync_downloader.go:475-480`): a connection that cannot be added is deleted. -/
def created (p : Pool) (c : Conn) : Pool :=
  let x := addConn p c
  if x.2 then x.1 else delConn x.1 c.peer

/-- What `chooseSource` returns. -/
inductive Choice
  | noPeer
  | peer (id : Nat)
  | conn (c : Conn)
  | nothing
deriving Repr, DecidableEq

/-- The loop of `chooseSource` over the connections (`sync_conn.go:686-704`); `n` is their number, `m` the peers without one in the order of the map. -/
def chooseLoop (upTo n : Nat) (createNew : Bool) (m : List Nat) : List Conn → Nat → Option Choice
  | [], _ => none
  | c :: l, i =>
    if c.busy || decide (c.height < upTo) then chooseLoop upTo n createNew m l (i + 1)
    else if n + 1 > 3 * (i + 1) then some (.conn c)
    else if createNew then
      match m with
      | p :: _ => some (.peer p)
      | [] => chooseLoop upTo n createNew m l (i + 1)
    else some (.conn c)

/-- The peers that a new connection may be made to (`sync_conn.go:661-680`): tall enough, without a connection, and not removed because of the black list. -/
def freshPeers (black : Nat → Option Nat) (now : Nat) (conns : List Conn) (peers : List (Nat × Nat)) (upTo : Nat) : List Nat :=
  (((peers.filter (fun p => decide (upTo ≤ p.2))).map (·.1)).filter (fun p => !conns.any (fun c => decide (c.peer = p)))).filter
    (fun p => match black p with | some t => !decide (t < now) | none => true)

/-- `chooseSource` (`sync_conn.go:660-712`) with all peers and their heights, the throw of the dice (`coin`) and the orders. -/
def choose (black : Nat → Option Nat) (now : Nat) (conns : List Conn) (peers : List (Nat × Nat)) (upTo : Nat) (coin : Bool) (ord : List Conn → List Conn) (ordm : List Nat → List Nat) : Choice :=
  if (peers.filter (fun p => decide (upTo ≤ p.2))).isEmpty then .noPeer
  else
    let m := ordm (freshPeers black now conns peers upTo)
    match chooseLoop upTo conns.length (!m.isEmpty && coin) m (ord conns) 0 with
    | some x => x
    | none => match m with | p :: _ => .peer p | [] => .nothing

/-- `blocked` (`sync_conn.go:571-587`). -/
def blockedAt (black : Nat → Option Nat) (id now : Nat) : Bool × (Nat → Option Nat) :=
  match black id with
  | none => (false, black)
  | some t => if now < t then (true, black) else (false, fun q => if q = id then none else black q)

/-- What happens to the black list: a choice, after which a peer to connect to is looked up (`sync_downloader.go:440-442`), or a peer is put on it (`sync_conn.go:564-569`). -/
inductive BEv
  | pick (now : Nat) (conns : List Conn) (peers : List (Nat × Nat)) (upTo : Nat) (coin : Bool) (ord : List Conn → List Conn) (ordm : List Nat → List Nat)
  | ban (id till : Nat)

/-- One of these. -/
def bstep (black : Nat → Option Nat) : BEv → Nat → Option Nat
  | .pick now conns peers upTo coin ord ordm =>
    match choose black now conns peers upTo coin ord ordm with
    | .peer p => (blockedAt black p now).2
    | _ => black
  | .ban id till => fun q => if q = id then some till else black q

/-- The peer that a connection is dialled to in an event, if any. -/
def dialled (black : Nat → Option Nat) : BEv → Option Nat
  | .pick now conns peers upTo coin ord ordm =>
    match choose black now conns peers upTo coin ord ordm with
    | .peer p => if (blockedAt black p now).1 then none else some p
    | _ => none
  | .ban _ _ => none

end Verif.Sync
