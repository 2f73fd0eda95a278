import Verif.Model.RatchetConv

/-!
# zkclient/msg.go: a sender that dies

`cacheCRPC` (msg.go:437-519) loads the ratchet from disk (447), encrypts with it (459), writes the message to the
server (489) and only then stores the ratchet (512).  The conversation of `Verif.Model.RatchetConv` is extended by
a client that dies on the way.  What dies with it is only memory: the next message starts from the file.  That the
file is replaced in one step is `Verif.Store.C57_killed`.
-/

namespace Verif.Ratchet

/-- Where the client dies, or fails to store the ratchet (msg.go:513-516; the message is then scheduled again). -/
inductive Death
  /-- before the message is written, msg.go:447-488 -/
  | unsent (who : Bool) (priv hn mn : Nat) (msg : Bytes)
  /-- after the message is written and before the file is replaced, msg.go:490-512 -/
  | unsaved (who : Bool) (priv hn mn : Nat) (msg : Bytes)

/-- The effect: in the second case the message is on its way, but the ratchet is that of before. -/
def die (c : Conv) : Death → Conv
  | .unsent .. => c
  | .unsaved who priv hn mn msg =>
    let j := if (c.st who).ratchet then c.chain (!who) + 1 else c.chain who
    match encrypt (c.st who) priv hn mn msg with
    | (.ok ct, _) => { c with wire := c.wire ++ [⟨who, j, sentOn c.wire j, msg, ct⟩] }
    | (_, _) => c

/-- States of conversations in which clients die, with the number of deaths between the write and the update of
the file. -/
inductive ReachD (ka kb pa pb ra rb : Nat) : Nat → Conv → Prop
  | start : ReachD ka kb pa pb ra rb 0 (start ka kb pa pb ra rb)
  | step {n c ev} : ReachD ka kb pa pb ra rb n c → Legal (sharedKey ka kb ra rb) c ev →
      ReachD ka kb pa pb ra rb n (step c ev)
  | unsent {n c who priv hn mn msg} : ReachD ka kb pa pb ra rb n c →
      ReachD ka kb pa pb ra rb n (die c (.unsent who priv hn mn msg))
  | unsaved {n c who priv hn mn msg} : ReachD ka kb pa pb ra rb n c →
      ReachD ka kb pa pb ra rb (n + 1) (die c (.unsaved who priv hn mn msg))

end Verif.Ratchet
