import Verif.Model.Sizes
import Verif.Model.Rendezvous
import Verif.Model.Hex

/-! # What the server answers in a session, and how long it is

`handleSession`, /repo/zkserver/zkserver.go:403-590, handles one request after the other and puts the answers into a channel;
`sessionWriter`, lines 216-257, writes them in this order, and ends the session with the first that cannot be written
(`KX.Write`, see `Sizes.fits`).

Modelled: the answers to all requests, byte for byte. What the rest of the server holds at the time of a request is a `World`:
other sessions may change it at any time. Left out: acknowledgements, which are not answered; notifications (`Sizes`);
requests that were read and are not answered because the session ended. -/

namespace Verif.Replies

open Verif Xdr Crpc Sizes Observer

abbrev Id := { b : Bytes // b.length = 32 }
abbrev Pub := Val publicIdentity

/-- What a client asks for. -/
inductive Req where
  | ping
  | rendezvous (blob exp : Bytes)
  | pull (token : Bytes)
  | cache (to_ : Id) (payload : Bytes)
  | proxy (to_ : Id) (payload : Bytes)
  | find (nick : Bytes)

/-- The frame of a request, as a client writes it: /repo/rpc/rpc.go:53-66 for the names of the commands. -/
def Req.frame (time : Int) (tag : Nat) : Req → Bytes
  | .ping => enc message (ascii "ping".toList, time, false, tag) ++ enc Xdr.ping ()
  | .rendezvous b e => enc message (ascii "rendezvous".toList, time, false, tag) ++ enc Xdr.rendezvous (b, e)
  | .pull t => enc message (ascii "rendezvouspull".toList, time, false, tag) ++ enc rendezvousPull t
  | .cache i p => upFrame false time tag i p
  | .proxy i p => upFrame true time tag i p
  | .find n => enc message (ascii "identityfind".toList, time, false, tag) ++ enc identityFind n

/-- What becomes of a message that is to be stored, /repo/zkserver/account/account.go:310-400. -/
inductive Fate where
  | stored
  | failed
  | disabled
  deriving DecidableEq

/-- What the server has at the time of a request: what storing gives, the PINs, the random numbers, and the directory. -/
structure World where
  fate : Id → Fate
  db : Rendezvous.DB
  rand : Nat → Option Nat
  found : Bytes → Option Pub

/-- The answers, with the fields of the structures. -/
inductive Rep where
  | pong
  | pin (token error : Bytes)
  | blob (error token blob : Bytes)
  | ack (error : Bytes) (code : Int)
  | proxied (to_ : Id) (error : Bytes)
  | found (nick error : Bytes) (pub : Pub)

/-- The identity of which nothing was set. -/
def zeros (n : Nat) : { b : Bytes // b.length = n } := ⟨List.replicate n 0, List.length_replicate⟩

def noIdentity : Pub := ([], [], zeros 32, zeros 1218, zeros 32, zeros 32, zeros 64)

/-- The handlers: zkserver.go:445-458 (ping); /repo/zkserver/rendezvous.go:57-117 and 119-214; /repo/zkserver/cache.go:18-64
and 77-121; /repo/zkserver/account.go:82-101. -/
def answer (limit : Nat) (w : World) : Req → Rep
  | .ping => .pong
  | .rendezvous b e =>
    if b.length > 4096 then .pin [] (ascii "invalid blob size".toList)
    else if Rendezvous.refused b e then .pin [] (ascii "invalid expiration".toList)
    else match Rendezvous.pick w.db w.rand 25 0 with
      | none => .pin [] (ascii "internal error, contact server administrator".toList)
      | some t => .pin t []
  | .pull t =>
    match w.db.get t with
    | none => .blob (ascii "invalid PIN".toList) [] []
    | some v =>
      match Base64.decode v with
      | none => .blob (ascii "internal error base64decode".toList) [] []
      | some x =>
        match dec limit Xdr.rendezvous x with
        | .ok r _ => .blob [] t r.1
        | _ => .blob (ascii "internal error unmarshal".toList) [] []
  | .cache i _ =>
    match w.fate i with
    | .stored => .ack [] 0
    | .failed => .ack (ascii "internal error".toList) 0
    | .disabled => .ack (ascii "identity disabled ".toList ++ Hex.encode i.1) 1
  | .proxy i _ =>
    match w.fate i with
    | .stored => .proxied i []
    | _ => .proxied i (ascii "proxy delivery failed to: ".toList ++ Hex.encode i.1)
  | .find n =>
    match w.found n with
    | none => .found n (ascii "nick not found: ".toList ++ n) noIdentity
    | some p => .found n [] p

/-- What `writeMessage`, zkserver.go:101-114, writes for an answer: the tag is that of the request, and there is no time. -/
def Rep.frame (tag : Nat) : Rep → Bytes
  | .pong => enc message (ascii "pong".toList, 0, false, tag) ++ enc Xdr.ping ()
  | .pin t e => enc message (ascii "rendezvousreply".toList, 0, false, tag) ++ enc rendezvousReply (t, e)
  | .blob e t b => enc message (ascii "rendezvouspullreply".toList, 0, false, tag) ++ enc rendezvousPullReply (e, t, b)
  | .ack e c => enc message (ascii "ack".toList, 0, false, tag) ++ enc acknowledge (e, c)
  | .proxied i e => enc message (ascii "proxyreply".toList, 0, false, tag) ++ enc proxyReply (i, e)
  | .found n e p => enc message (ascii "identityfindreply".toList, 0, false, tag) ++ enc identityFindReply (n, e, p)

/-- A session: the requests that are read, each with its tag and with what the server has then, and the frames that are
written. -/
def serve (max : Nat) : List (Nat × World × Req) → List Bytes
  | [] => []
  | (tag, w, r) :: rest =>
    let f := (answer max w r).frame tag
    if fits max f then f :: serve max rest else []

end Verif.Replies
