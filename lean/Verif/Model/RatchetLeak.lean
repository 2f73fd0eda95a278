import Verif.Model.RatchetConv

/-!
# What somebody who steals a ratchet can compute

The ratchet of a contact is kept on disk (/repo/zkclient/identity.go, `Marshal` in
/repo/ratchet/ratchet.go:531-570) and in memory. Here an outsider gets hold of such a state, or of
none, and computes with it. Keys are the terms of Verif.Model.Ratchet; ciphertexts contain no keys
and public DH values are taken as known to everybody, so what matters is which keys, DH privates,
KEM private keys and KEM random values the outsider has.
-/

namespace Verif.Ratchet

open Verif

/-- What an outsider has to begin with. -/
structure Know where
  /-- symmetric keys -/
  keys : Key → Prop
  /-- private values of curve25519 -/
  dh : Nat → Prop
  /-- random values it made KEM session keys from -/
  rand : Nat → Prop
  /-- KEM private keys -/
  dec : Nat → Prop

/-- The keys an outsider can compute: hashes of what it has, DH with a private value it has and any
public value, and KEM session keys it made itself or can decapsulate. -/
inductive Deduce (A : Know) : Key → Prop
  | known {k} : A.keys k → Deduce A k
  | zero : Deduce A .zero
  | rnd {n} : Deduce A (.rnd n)
  | make {pk r} : A.rand r → Deduce A (.kem pk r)
  | decap {pk r} : A.dec pk → Deduce A (.kem pk r)
  | sha {a b} : Deduce A a → Deduce A b → Deduce A (.sha a b)
  | hmac {l k} : Deduce A k → Deduce A (.hmac l k)
  | mix {root x y} : Deduce A root → A.dh x ∨ A.dh y → Deduce A (.mix root x y)

/-- The symmetric keys in a ratchet: every field of that type of `Ratchet`,
/repo/ratchet/ratchet.go:45-78, which are also those `Marshal` writes, :531-570. -/
def stateKeys (R : Ratchet) : List Key :=
  [R.rootKey, R.sendHeaderKey, R.recvHeaderKey, R.nextSendHeaderKey, R.nextRecvHeaderKey,
    R.sendChainKey, R.recvChainKey] ++ R.myHalf.toList ++ R.theirHalf.toList ++
  R.saved.flatMap fun e => e.1 :: e.2.map fun x => x.2.key

/-- An outsider who copied a ratchet and the KEM private key that goes with it. -/
def Know.steal (A : Know) (R : Ratchet) : Know where
  keys k := A.keys k ∨ k ∈ stateKeys R
  dh x := A.dh x ∨ x = R.sendPriv ∨ R.kxPrivate = some x
  rand := A.rand
  dec pk := A.dec pk ∨ pk = R.kemSk

/-- A ratchet whose owner erased the two halves of the shared key after the key exchange, which
the code does not do: `CompleteKeyExchange`, /repo/ratchet/ratchet.go:180-238, leaves them in place
and `Marshal` writes them, :547-548. -/
def eraseHalves (R : Ratchet) : Ratchet := { R with myHalf := none, theirHalf := none }

/-- An outsider with keys, private values and random values of its own only. -/
structure Outside (A : Know) (ka kb ra rb : Nat) : Prop where
  keys : ∀ k, ¬ A.keys k
  randA : ¬ A.rand ra
  randB : ¬ A.rand rb
  decA : ¬ A.dec ka
  decB : ¬ A.dec kb
  differ : ka ≠ kb

/-- The ciphertexts an outsider can put together: parts seen on the wire, parts sealed under keys
it can compute, and junk. -/
def Sendable (A : Know) (wire : List Sent) : Ct → Prop
  | .short => True
  | .mk _ h m =>
    (match h with
     | .junk _ => True
     | .sealed k n x =>
       (∃ e ∈ wire, ∃ hn m', e.ct = .mk hn (.sealed k n x) m') ∨ Deduce A k) ∧
    (match m with
     | .junk _ => True
     | .sealed k n x =>
       (∃ e ∈ wire, ∃ hn h', e.ct = .mk hn h' (.sealed k n x)) ∨ Deduce A k)

/-- Conversations during which an outsider, who has `A` to begin with, copies the ratchet of one
party or the other, as often as it likes; the last argument is what it has collected. It does not
use what it stole to take part in the conversation. -/
inductive Robbed (ka kb pa pb ra rb : Nat) (A : Know) : Conv → Know → Prop
  | start : Robbed ka kb pa pb ra rb A (start ka kb pa pb ra rb) A
  | step {c B ev} : Robbed ka kb pa pb ra rb A c B → Legal (sharedKey ka kb ra rb) c ev →
      Robbed ka kb pa pb ra rb A (step c ev) B
  | rob {c B} (w : Bool) : Robbed ka kb pa pb ra rb A c B →
      Robbed ka kb pa pb ra rb A c (B.steal (c.st w))

/-- The DH private value behind the public value in a ciphertext's header. -/
def dhOf : Ct → Option Nat
  | .mk _ (.sealed _ _ h) _ =>
    match h.pub with
    | .of x => some x
    | .low => none
  | _ => none

end Verif.Ratchet
