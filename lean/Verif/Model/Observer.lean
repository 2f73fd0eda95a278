import Verif.Model.Crpc

/-! # What the server is given of a message

The way of a message from the client to the server: `crpc`, /repo/zkclient/msg.go:365-418, `Encrypt`,
/repo/ratchet/ratchet.go:240-284, `cacheCRPC`, /repo/zkclient/msg.go:437-519, and `writeMessage`,
/repo/zkclient/zkclient.go:1843-1877. The session between client and server is left out, since the server decrypts it: what
is modelled are the bytes that the server reads from it.

`secretbox.Seal` (not in the repository) is an exclusive or with a stream, preceded by an authenticator of the result. The
stream and the key of the authenticator come from the key and the nonce; here they are random, as they are for whoever does
not know the key. That the server does not is C70, and that no key is used twice C14. -/

namespace Verif.Observer

open Verif Xdr Crpc

/-- Exclusive or, byte by byte. -/
def xor (a b : Bytes) : Bytes := a.zipWith (· ^^^ ·) b

/-- An authenticator: of 16 bytes, whatever the key and the text. -/
structure Mac where
  Key : Type
  tag : Key → Bytes → Bytes
  size : ∀ k b, (tag k b).length = 16

/-- What a key and a nonce give. -/
structure Pad (M : Mac) where
  key : M.Key
  stream : Bytes

/-- `secretbox.Seal`. -/
def seal_ (M : Mac) (p : Pad M) (m : Bytes) : Bytes := M.tag p.key (xor m p.stream) ++ xor m p.stream

/-- What is random in one `Encrypt`: the nonce of the header, which is sent as it is, and what the keys and nonces of header
and message give. -/
structure Coins (M : Mac) where
  nonce : { b : Bytes // b.length = 24 }
  head : Pad M
  body : Pad M

/-- `Encrypt`, lines 269-283: the header has two counts, a public key, and the nonce of the message. -/
def encrypt (M : Mac) (c : Coins M) (header : { b : Bytes // b.length = 64 }) (msg : Bytes) : Bytes :=
  c.nonce.1 ++ seal_ M c.head header.1 ++ seal_ M c.body msg

/-- "cache", /repo/rpc/rpc.go:58. -/
def cmdCache : Bytes := ascii ['c', 'a', 'c', 'h', 'e']

/-- One message that is sent: to whom, the tag, the time of `writeMessage`, what the ratchet puts into the header, the time
of `crpc`, and the payload. -/
structure Out where
  to_ : { b : Bytes // b.length = 32 }
  tag : Nat
  time : Int
  header : { b : Bytes // b.length = 64 }
  now : Int
  payload : Payload

/-- `cacheCRPC` and `writeMessage`: what the server reads. Nothing is sent of a payload that is none. -/
def wire (z : Zlib) (M : Mac) (o : Out) (c : Coins M) : Option Bytes :=
  match crpc z o.now o.payload with
  | none => none
  | some m => some (enc Xdr.message (cmdCache, o.time, false, o.tag) ++ enc Xdr.cache (o.to_, encrypt M c o.header m))

/-- What the server reads of several messages. -/
def view (z : Zlib) (M : Mac) (os : List Out) (cs : List (Coins M)) : List (Option Bytes) := os.zipWith (wire z M) cs

/-- A message to a group, /repo/zkclient/groupchat.go:515-528: one to each member other than oneself, all with the same
contents. `f` is what is decided when each of them is sent. -/
def groupOuts (me : { b : Bytes // b.length = 32 }) (members : List { b : Bytes // b.length = 32 })
    (f : { b : Bytes // b.length = 32 } → Nat × Int × { b : Bytes // b.length = 64 } × Int) (v : Val groupMessage) :
    List Out :=
  (members.filter (· ≠ me)).map fun m => ⟨m, (f m).1, (f m).2.1, (f m).2.2.1, (f m).2.2.2, .groupMessage v⟩

end Verif.Observer
