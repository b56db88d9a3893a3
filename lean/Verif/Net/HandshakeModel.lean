import Verif.Base.Bytes

/-!
# The handshake of two nodes

Models `net/handshaker.go` and `net.authorize` (`net/net.go:177-238`): the messages with which two nodes tell each other who they are, and what
makes a node accept the other as a peer. The cryptographic functions are parameters. The bytes of a handshake message on the connection
(protobuf) are not modelled; how they are carried is in `CodecModel.lean`. Bans of addresses, which only delay a new try, are not modelled. -/

namespace Verif.Net

open Verif.Bytes

/-- The cryptographic functions: `crypto.Hash256`; the public id of a peer key (`vnode`, an ed25519 key); `getSecret` of a peer key and an id
(`handshaker.go:198-209`); the public key of a signing key (`PubByte`); `ed25519.Sign`; `ed25519.Verify` for a key of 32 bytes. -/
structure Crypto where
  hash : Bytes → Bytes
  idOf : Bytes → Bytes
  secret : Bytes → Bytes → Bytes
  keyOf : Bytes → Bytes
  sign : Bytes → Bytes → Bytes
  verify : Bytes → Bytes → Bytes → Bool

/-- `HandshakeMsg` (`handshaker.go:40-61`) without version, name and addresses, which no test looks at. The timestamp is the unsigned value of its
8 bytes; a missing key is an empty key. -/
structure Hello where
  netId : Int
  id : Bytes
  ts : Nat
  height : Nat
  head : Bytes
  genesis : Bytes
  key : Bytes
  token : Bytes
deriving Repr, DecidableEq

/-- What `authorize` reads of the node (`net.go:177-238`): its own id, the ids of its peers, the lists of denied and allowed keys (the code
compares hexadecimal texts), the addresses in use as producers as a test of their keys, the numbers of peers and of inbound peers that are not
producers, the limits, and whether access is for anyone. The ratio is not 0. -/
structure Gate where
  self : Bytes
  peers : List Bytes
  deny : List Bytes
  allow : List Bytes
  isSBP : Bytes → Bool
  count : Nat
  inbound : Nat
  maxPeers : Nat
  ratio : Nat
  any : Bool

/-- The errors of `net/peer_error.go` that a handshake ends with. -/
inductive PeerError
  | connectSelf
  | alreadyConnected
  | noPermission
  | tooManyPeers
  | tooManyInbound
  | invalidSignature
  | invalidToken
  | differentNetwork
  | differentGenesis
deriving Repr, DecidableEq

/-- The outcome of a test: an error, a value, or the panic of the program. -/
inductive Res (α : Type)
  | panic
  | err (e : PeerError)
  | ok (a : α)
deriving Repr, DecidableEq

/-- A node that takes part in handshakes (`handshaker.go:113-135`): network, genesis hash, peer key, signing key if it is a producer, and its latest
snapshot block. -/
structure Node where
  netId : Int
  genesis : Bytes
  peerKey : Bytes
  key : Option Bytes
  height : Nat
  head : Bytes
  gate : Gate

/-- `xor` (`sync_conn.go:729-735`) of two values of the same length. -/
def xor (a b : Bytes) : Bytes := List.zipWith (· ^^^ ·) a b

/-- The value that a token is made of (`handshaker.go:212-215`, `248-252`). -/
def rawToken (c : Crypto) (ts : Nat) (secret : Bytes) : Bytes := xor (c.hash (be 8 ts)) secret

/-- `verifyHandshake` (`handshaker.go:211-229`). `ed25519.Verify` panics unless the key has 32 bytes (`crypto/ed25519/ed25519.go:272-275`). -/
def verifyHello (c : Crypto) (m : Hello) (secret : Bytes) : Res Unit :=
  if m.key.length ≠ 0 then
    if m.key.length ≠ 32 then .panic
    else if c.verify m.key (rawToken c m.ts secret) m.token then .ok () else .err .invalidSignature
  else if rawToken c m.ts secret = m.token then .ok () else .err .invalidToken

/-- `makeHandshake` (`handshaker.go:231-259`) at the time `now`. -/
def makeHello (c : Crypto) (n : Node) (now : Nat) (secret : Bytes) : Hello :=
  let raw := rawToken c now secret
  { netId := n.netId, id := c.idOf n.peerKey, ts := now, height := n.height, head := n.head, genesis := n.genesis
    key := match n.key with | some k => c.keyOf k | none => []
    token := match n.key with | some k => c.sign k raw | none => raw }

/-- `doHandshake` (`handshaker.go:369-381`). -/
def checkChain (n : Node) (m : Hello) : Res Unit :=
  if m.netId ≠ n.netId then .err .differentNetwork else if m.genesis ≠ n.genesis then .err .differentGenesis else .ok ()

/-- `authorize` (`net.go:177-238`): an error, or whether the peer is a superior one. -/
def authorize (g : Gate) (m : Hello) : Res Bool :=
  if m.id = g.self then .err .connectSelf
  else if m.id ∈ g.peers then .err .alreadyConnected
  else if g.deny.any (fun k => k = m.id ∨ k = m.key) then .err .noPermission
  else
    let superior := decide (m.key ≠ []) && g.isSBP m.key
    if g.allow.any (fun k => k = m.id ∨ k = m.key) then .ok superior
    else if superior then .ok superior
    else if g.count ≥ g.maxPeers then .err .tooManyPeers
    else if g.inbound ≥ g.maxPeers / g.ratio then .err .tooManyInbound
    else if g.any then .ok superior
    else .err .noPermission

/-- The tests that a message goes through, with the secret that the node uses (`handshaker.go:301-317`, `345-363`). -/
def judge (c : Crypto) (n : Node) (m : Hello) (secret : Bytes) : Res Bool :=
  match verifyHello c m secret with
  | .panic => .panic
  | .err e => .err e
  | .ok _ =>
    match checkChain n m with
    | .panic => .panic
    | .err e => .err e
    | .ok _ => authorize n.gate m

/-- `ReceiveHandshake` (`handshaker.go:282-324`) of a message at the time `now`: who the peer is, whether it is superior, and the answer. -/
def receive (c : Crypto) (n : Node) (now : Nat) (m : Hello) : Res (Bytes × Bool × Hello) :=
  match judge c n m (c.secret n.peerKey m.id) with
  | .panic => .panic
  | .err e => .err e
  | .ok sup => .ok (m.id, sup, makeHello c n now (c.secret n.peerKey m.id))

/-- The message that `InitiateHandshake` sends to the node `id` that it calls (`handshaker.go:326-343`). -/
def opening (c : Crypto) (n : Node) (now : Nat) (id : Bytes) : Hello := makeHello c n now (c.secret n.peerKey id)

/-- The second half of `InitiateHandshake` (`handshaker.go:345-366`), with the answer of the other side: who the peer is (`newPeer` takes the id of
the answer, `net.go:169`) and whether it is superior. -/
def finish (c : Crypto) (n : Node) (id : Bytes) (m : Hello) : Res (Bytes × Bool) :=
  match judge c n m (c.secret n.peerKey id) with
  | .panic => .panic
  | .err e => .err e
  | .ok sup => .ok (m.id, sup)

end Verif.Net
