import Verif.Model.GoMap

/-! # Who gets into the address book of a client

zkclient/identity.go, zkclient/push.go 54-446, zkclient/kxwindow.go, zkclient/kxacceptwindow.go,
zkclient/acceptclientfingerprint.go, zkclient/reset.go, zkclient/addressbook.go and zkclient/zkclient.go 1053-1115.

One client; what others and the server send is arbitrary.

Simplifications.

* Of a public identity there are the KEM key and the field `Identity`, which is what users are shown as a fingerprint and
  what everything is filed under. It should be the SHA-256 of the key. Identities are numbers; 0 is the empty one.
* Of a ratchet there is the key it was made with: only who has the private part can take part in it (C10).
* Every blob key is a number of its own. Cryptography is ideal: a payload names the key it was sealed under, and whether
  the key exchange in it completes.
* The disk does not fail. Nicks do not collide. A deletion happens when the server has confirmed the notice to the
  other, in one step. -/

namespace Verif.Intro

open Verif

structure Pid where
  ident : Nat
  key : Nat
  deriving DecidableEq, Repr

/-- What a message holds, other than for a ratchet. -/
inductive Payload
  /-- `IdentityKX` sealed under blob key `k` -/
  | idkx (k : Nat) (p : Pid) (fits : Bool)
  /-- `IdentityKX` of the directory kind, encapsulated to this client -/
  | idkxDir (p : Pid) (fits : Bool)
  /-- `KX` sealed under blob key `k` -/
  | kx (k : Nat) (fits : Bool)
  /-- the cleartext command to reset, upon which the client offers a key exchange with new blob key `k` -/
  | reset (k : Nat)
  deriving DecidableEq, Repr

structure Z where
  /-- publicidentity.xdr of the directories of inboundDir -/
  files : GoMap Nat Pid := []
  /-- halfratchet.xdr of them -/
  half : GoMap Nat Nat := []
  /-- ratchet.xdr of them -/
  full : GoMap Nat Nat := []
  /-- blob keys -/
  keys : List Nat := []
  /-- the address book, which is in memory -/
  book : GoMap Nat Pid := []
  /-- the window that asks about a fingerprint, with the blob key -/
  asking : Option (Nat × Pid) := none
  deriving DecidableEq, Repr

/-- `identityExists`, /repo/zkclient/identity.go:31-49. -/
def Z.exists_ (z : Z) (i : Nat) : Bool :=
  (z.files.get i).isSome && ((z.half.get i).isSome || (z.full.get i).isSome)

/-- `addressBookAdd`, /repo/zkclient/addressbook.go:60-72, and `Add`, which refuses an identity that it has,
/repo/zkclient/addressbook/addressbook.go:44-53. -/
def addBook (me : Nat) (b : GoMap Nat Pid) (p : Pid) : GoMap Nat Pid :=
  if p.ident = me ∨ (b.get p.ident).isSome then b else b.set p.ident p

/-- What is common to `step1IDKX` (/repo/zkclient/zkclient.go:1097-1112) and "yes" to the fingerprint
(/repo/zkclient/acceptclientfingerprint.go:178-203), after the offer was sent. -/
def offer (z : Z) (k : Nat) (p : Pid) : Z :=
  if z.exists_ p.ident then z
  else { z with files := z.files.set p.ident p, keys := z.keys ++ [k], half := z.half.set p.ident p.key }

/-- What is common to `step2IDKX` (/repo/zkclient/push.go:207-281) and `step2IDKX2` (:327-396). The sender of the message
does not come into it. -/
def answer (me : Nat) (z : Z) (p : Pid) (fits : Bool) : Z :=
  if p.ident = me ∨ fits = false ∨ z.exists_ p.ident = true then z
  else { z with files := z.files.set p.ident p, full := z.full.set p.ident p.key, book := addBook me z.book p }

/-- `step3IDKX`, /repo/zkclient/push.go:54-160. -/
def finish (me : Nat) (z : Z) (from_ k : Nat) (fits : Bool) : Z :=
  if k ∈ z.keys ∧ fits = true then
    match z.half.get from_, z.files.get from_ with
    | some key, some p =>
      { z with full := z.full.set p.ident key, half := z.half.del from_, book := addBook me z.book p }
    | _, _ => z
  else z

/-- `handlePush`, /repo/zkclient/push.go:399-447. -/
def push (dir : Bool) (me : Nat) (z : Z) (from_ : Nat) (pl : Payload) : Z :=
  if from_ = 0 then z
  else
    match pl with
    | .reset k =>
      match z.files.get from_ with
      | none => z
      | some p => offer { z with half := z.half.del from_, full := z.full.del from_ } k p
    | pl =>
      if z.exists_ from_ = false then
        match dir, pl with
        | false, .idkx k p fits => if k ∈ z.keys then answer me z p fits else z
        | true, .idkxDir p fits => answer me z p fits
        | _, _ => z
      else if z.full.get from_ = none then
        match pl with
        | .kx k fits => finish me z from_ k fits
        | _ => z
      else z

/-- What can happen. -/
inductive Ev
  /-- a PIN is made, /repo/zkclient/kxwindow.go:94-163 -/
  | pin (k : Nat)
  /-- a blob is fetched and opened with a password, /repo/zkclient/kxacceptwindow.go:111-176 -/
  | fetch (k : Nat) (p : Pid)
  /-- "yes" to the fingerprint -/
  | yes
  /-- anything else -/
  | no
  /-- the answer of the directory, /repo/zkclient/zkclient.go:1480-1512: nothing is asked. It is acted on whether or not
  the server said that it has a directory. -/
  | found (k : Nat) (p : Pid)
  /-- a message comes -/
  | push (from_ : Nat) (pl : Payload)
  /-- the user resets, /repo/zkclient/zkclient.go:1768-1840 -/
  | reset (i : Nat)
  /-- the user deletes, /repo/zkclient/addressbook.go:23-56 -/
  | del (i : Nat)
  /-- the client is started, which reads the address book from the files, /repo/zkclient/addressbook.go:108-138 -/
  | restart
  deriving DecidableEq, Repr

def step (dir : Bool) (me : Nat) (z : Z) : Ev → Z
  | .pin k => { z with keys := z.keys ++ [k] }
  | .fetch k p => if p.ident = me ∨ z.exists_ p.ident = true then z else { z with asking := some (k, p) }
  | .yes =>
    match z.asking with
    | none => z
    | some (k, p) => { offer z k p with asking := none }
  | .no => { z with asking := none }
  | .found k p => offer z k p
  | .push from_ pl => push dir me z from_ pl
  | .reset i =>
    if (z.book.get i).isSome then { z with half := z.half.del i, full := z.full.del i } else z
  | .del i =>
    if (z.book.get i).isSome ∧ (z.full.get i).isSome then
      { z with book := z.book.del i, files := z.files.del i, half := z.half.del i, full := z.full.del i }
    else z
  | .restart => { z with book := z.files.foldr (fun e b => addBook me b e.2) [], asking := none }

/-- After these events, the first one first. -/
def after (dir : Bool) (me : Nat) (evs : List Ev) : Z := evs.foldl (step dir me) {}

end Verif.Intro
