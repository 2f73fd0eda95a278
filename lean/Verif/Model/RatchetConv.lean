import Verif.Model.Ratchet

/-!
# Two ratchets talking over an attacker's network

Two parties (`true` is the one that took the alice role) that completed the key exchange of
/repo/ratchet/ratchet.go:110-238 with each other. They encrypt whatever they like whenever
they like, save and reload their ratchets (as the client does, /repo/zkclient/identity.go), and
the network hands them any ciphertext an attacker can assemble, in any order, any number of
times. `wire`, `acc` and `lost` are a record of what happened; no function of the ratchet reads
them.
-/

namespace Verif.Ratchet

open Verif

/-- Point update. -/
def upd {α : Type} (f : Bool → α) (w : Bool) (x : α) : Bool → α := fun v => if v = w then x else f v

/-- One successful call of `Encrypt`. `chain` counts the ratchet steps of the conversation: 1 is
the chain bob starts with, and every message that begins a new chain gets the next number.
`num` is the number of messages already sent on the chain. -/
structure Sent where
  who : Bool
  chain : Nat
  num : Nat
  msg : Bytes
  ct : Ct
  deriving DecidableEq, Repr

/-- The conversation: both ratchets, and the record. -/
structure Conv where
  st : Bool → Ratchet
  /-- everything encrypted so far -/
  wire : List Sent
  /-- chain each party last sent on -/
  chain : Bool → Nat
  /-- ciphertexts each party has decrypted successfully -/
  acc : Bool → List Ct
  /-- message keys each party discarded as too old when saving its state -/
  lost : Bool → List Key

/-- What can happen. -/
inductive Ev
  | send (who : Bool) (priv hn mn : Nat) (msg : Bytes)
  | recv (who : Bool) (now : Int) (ct : Ct)
  | reload (who : Bool) (now lifetime : Int)

/-- Number of messages sent on a chain. -/
def sentOn (wire : List Sent) (j : Nat) : Nat := (wire.filter fun e => e.chain = j).length

/-- Keys that saving at `now` discards. -/
def expired (r : Ratchet) (now lifetime : Int) : List Key :=
  r.saved.flatMap fun e => (e.2.filter fun x => !keep now lifetime x.2).map fun x => x.2.key

/-- One event. -/
def step (c : Conv) : Ev → Conv
  | .send who priv hn mn msg =>
    let j := if (c.st who).ratchet then c.chain (!who) + 1 else c.chain who
    match encrypt (c.st who) priv hn mn msg with
    | (.ok ct, r) =>
      { c with
        st := upd c.st who r
        wire := c.wire ++ [⟨who, j, sentOn c.wire j, msg, ct⟩]
        chain := upd c.chain who j }
    | (_, r) => { c with st := upd c.st who r }
  | .recv who now ct =>
    match decrypt (c.st who) now ct with
    | (.ok _, r) => { c with st := upd c.st who r, acc := upd c.acc who (c.acc who ++ [ct]) }
    | (_, r) => { c with st := upd c.st who r }
  | .reload who now lifetime =>
    match unmarshal (new (c.st who).kemSk (c.st who).theirKem 0)
        (marshal (c.st who) now lifetime) with
    | .ok r =>
      { c with
        st := upd c.st who r
        lost := upd c.lost who (c.lost who ++ expired (c.st who) now lifetime) }
    | _ => c

/-- The secret both parties compute. -/
def sharedKey (ka kb ra rb : Nat) : Key := .sha (.kem kb ra) (.kem ka rb)

/-- Both parties run the key exchange with each other: KEM key pairs `ka`, `kb`, private DH
values `pa`, `pb`, KEM randomness `ra`, `rb`. -/
def start (ka kb pa pb ra rb : Nat) : Conv :=
  let (kxA, a) := fillKeyExchange (new ka kb pa) ra
  let (kxB, b) := fillKeyExchange (new kb ka pb) rb
  { st := fun w =>
      match kxA, kxB with
      | .ok xA, .ok xB =>
        if w then (completeKeyExchange a xB true).2 else (completeKeyExchange b xA false).2
      | _, _ => if w then a else b
    wire := []
    chain := fun w => if w then 0 else 1
    acc := fun _ => []
    lost := fun _ => [] }

/-- Keys computed from the shared secret. The attacker has none of them. -/
inductive Derived (sk : Key) : Key → Prop
  | base : Derived sk sk
  | hmac {l k} : Derived sk k → Derived sk (.hmac l k)
  | mix {k x y} : Derived sk k → Derived sk (.mix k x y)

/-- A sealed header the attacker can have: taken from the wire, sealed by itself under a key of
its own, or junk. -/
def headerOk (sk : Key) (wire : List Sent) : HBox → Prop
  | .junk _ => True
  | .sealed k n h =>
    (∃ e ∈ wire, ∃ hn m, e.ct = .mk hn (.sealed k n h) m) ∨ ¬ Derived sk k

/-- A sealed message the attacker can have. -/
def bodyOk (sk : Key) (wire : List Sent) : MBox → Prop
  | .junk _ => True
  | .sealed k n m =>
    (∃ e ∈ wire, ∃ hn h, e.ct = .mk hn h (.sealed k n m)) ∨ ¬ Derived sk k

/-- A ciphertext the attacker can assemble; header and message may come from different
ciphertexts, and the nonce in the clear is the attacker's choice. -/
def CanAssemble (sk : Key) (wire : List Sent) : Ct → Prop
  | .short => True
  | .mk _ h m => headerOk sk wire h ∧ bodyOk sk wire m

/-- Events the attacker can bring about. -/
def Legal (sk : Key) (c : Conv) : Ev → Prop
  | .recv _ _ ct => CanAssemble sk c.wire ct
  | _ => True

/-- States a conversation can be in. -/
inductive Reach (ka kb pa pb ra rb : Nat) : Conv → Prop
  | start : Reach ka kb pa pb ra rb (start ka kb pa pb ra rb)
  | step {c ev} : Reach ka kb pa pb ra rb c → Legal (sharedKey ka kb ra rb) c ev →
      Reach ka kb pa pb ra rb (step c ev)

end Verif.Ratchet
