import Verif.Tactics

/-!
# Model of end points and of the answer to a request for nodes

`net/vnode/endpoint.go` (`Serialize`, `Deserialize`, `Length`),
`net/discovery/socket.go` (`sendNodes`, `splitEndPoints`),
`net/discovery/pool.go` (`findNodeRequest.handle`).

Bytes are natural numbers.  Of the packet only its length is modelled
(`packetLength`); the protocol buffer library, the signature and the socket are
not.
-/

namespace Verif.Disc

/-- net/vnode/host.go:5-10 `HostType`. -/
inductive HostType where
  | ipv4
  | ipv6
  | domain
deriving DecidableEq, Repr

/-- net/vnode/endpoint.go:18-22 `EndPoint`. -/
structure EndPoint where
  host : List Nat
  port : Nat
  typ : HostType
deriving DecidableEq, Repr

/-- net/vnode/node.go:32 `DefaultPort`. -/
def defaultPort : Nat := 8483

/-- net/vnode/endpoint.go:11: the bytes of "localhost". -/
def loopback : List Nat := [108, 111, 99, 97, 108, 104, 111, 115, 116]

/-- net/vnode/endpoint.go:159-172 `Length`. -/
def EndPoint.length (e : EndPoint) : Nat :=
  1 + e.host.length + if e.port ≠ defaultPort then 2 else 0

/-- net/vnode/endpoint.go:77-106 `Serialize`; `none` is an error. -/
def EndPoint.serialize (e : EndPoint) : Option (List Nat) :=
  if e.host.length = 0 then none
  else if e.host.length > 63 then none
  else
    some ((e.host.length * 4
        + (if e.typ = .domain ∨ e.host.length > 16 then 2 else 0)
        + (if e.port ≠ defaultPort then 1 else 0))
      :: e.host
      ++ (if e.port ≠ defaultPort then [e.port / 256 % 256, e.port % 256] else []))

/-- net/vnode/endpoint.go:109-156 `Deserialize`.  The port is taken from the
last two bytes of what was given, wherever the host ends. -/
def deserialize (buf : List Nat) : Option EndPoint :=
  if buf.length = 0 then none
  else
    let meta_ := buf.getD 0 0
    let hLen := meta_ / 4
    let hasPort := meta_ % 2 = 1
    if hLen = 0 then none
    else if buf.length < hLen + 1 + (if hasPort then 2 else 0) then none
    else
      let host := (buf.drop 1).take hLen
      let port := if hasPort then buf.getD (buf.length - 1) 0 + buf.getD (buf.length - 2) 0 * 256 else defaultPort
      if meta_ / 2 % 2 = 1 then
        if host = loopback then some ⟨[127, 0, 0, 1], port, .ipv4⟩ else some ⟨host, port, .domain⟩
      else if hLen > 4 then some ⟨host, port, .ipv6⟩
      else some ⟨host, port, .ipv4⟩

/-- net/discovery/socket.go:259-277 `splitEndPoints`: `cur` is
`eps[sent:i]`, `bytes` the counter.  It is set to 0 where a new part begins, so
that the first end point of the part is not counted.
`maxPayloadLength` is 1102 (message.go:42). -/
def splitLoop : List EndPoint → List EndPoint → Nat → List (List EndPoint)
  | [], cur, _ => if cur = [] then [] else [cur]
  | e :: es, cur, bytes =>
    if bytes + e.length + 300 > 1102 then cur :: splitLoop es [e] 0
    else splitLoop es (cur ++ [e]) (bytes + e.length)

/-- net/discovery/socket.go:259-277 `splitEndPoints`. -/
def splitEndPoints (eps : List EndPoint) : List (List EndPoint) := splitLoop eps [] 0

/-- The packets that `sendNodes` writes (net/discovery/socket.go:232-257): the
end points, and whether it is the last packet. -/
def sendNodes (eps : List EndPoint) : List (List EndPoint × Bool) :=
  (splitEndPoints eps).zipIdx.map fun p =>
    (p.1, decide (p.2 = (splitEndPoints eps).length - 1))

/-- The number of bytes of an unsigned number in protocol buffers: seven bits to
a byte. -/
def varint : Nat → Nat → Nat
  | 0, _ => 1
  | fuel + 1, v => if v < 128 then 1 else 1 + varint fuel (v / 128)

/-- The length of a packet with these end points (message.go:286-303 and
:336-358): the head of 34 bytes, the payload, the signature of 64.  In the
payload each end point that can be serialized takes its bytes, a tag and their
number, `last` a tag and a byte if it is set, and the time a tag and its own
bytes. -/
def packetLength (eps : List EndPoint) (last : Bool) (time : Nat) : Nat :=
  34 + ((eps.filterMap EndPoint.serialize).map fun b => 1 + varint 9 b.length + b.length).sum
    + (if last then 2 else 0) + (1 + varint 9 time) + 64

/-- net/discovery/pool.go:237-255 `findNodeRequest.handle`, over the packets in
the order in which they arrive: what goes to the channel. -/
def receive (count : Nat) : Nat → List (List EndPoint × Bool) → List EndPoint
  | _, [] => []
  | received, (eps, last) :: rest =>
    eps ++ (if count ≤ received + eps.length ∨ last = true then []
      else receive count (received + eps.length) rest)

end Verif.Disc
