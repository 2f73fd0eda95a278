import Verif.Props.KX

/-! # C154: the key exchange is that of doc/session.txt -/

set_option linter.unusedSimpArgs false

namespace Verif.Document

open Verif.KX

variable {P : Prims}

/-! ## Specification: doc/session.txt, with its names

The document says of `E(p, k)` only how it is encrypted; the nonce is the number of the message on its way, with the unencrypted
one not counted (session/kx.go:418-429). -/

/-- The private keys of the client and the server, and the randomness of the ciphertexts. -/
structure Exchange (P : Prims) where
  client : P.SK
  clientEphemeral : P.SK
  server : P.SK
  serverEphemeral : P.SK
  (r1 r2 r3 r4 : P.Rnd)

namespace Exchange

variable (x : Exchange P)

def I_s : P.PK := P.pub x.server
def I_c : P.PK := P.pub x.client
def I_se : P.PK := P.pub x.serverEphemeral
def I_ce : P.PK := P.pub x.clientEphemeral

def c1 : P.CT := (P.encap x.I_s x.r1).1
def k1 : P.Key := (P.encap x.I_s x.r1).2
def c2 : P.CT := (P.encap x.I_ce x.r2).1
def k2 : P.Key := (P.encap x.I_ce x.r2).2
def c3 : P.CT := (P.encap x.I_se x.r3).1
def k3 : P.Key := (P.encap x.I_se x.r3).2
def c4 : P.CT := (P.encap x.I_c x.r4).1
def k4 : P.Key := (P.encap x.I_c x.r4).2

end Exchange

/-- The three values `H(…)`. -/
structure Proofs (P : Prims) where
  (h1 h2 h3 : P.Mac)

/-- Those of the document. -/
def documented (x : Exchange P) : Proofs P :=
  ⟨P.hmac x.k1 [.pk x.I_ce, .pk x.I_se], P.hmac x.k2 [.pk x.I_c, .pk x.I_ce, .pk x.I_se],
    P.hmac x.k3 [.pk x.I_s, .pk x.I_c, .pk x.I_ce, .pk x.I_se]⟩

/-- Those of the code: each contains the one before. -/
def chained (x : Exchange P) : Proofs P :=
  let h1 := P.hmac x.k1 [.pk x.I_ce, .pk x.I_se]
  let h2 := P.hmac x.k2 [.mac h1, .pk x.I_c]
  ⟨h1, h2, P.hmac x.k3 [.mac h2, .pk x.I_s]⟩

/-- `E(p, k)`, message number `n`. -/
def E (n : Nat) (p : Payload P.PK P.CT P.Mac) (k : P.Key) : Msg P := .frame (P.sealF k n p)

/-- The four lines of the document. -/
def line1 (x : Exchange P) : List (Msg P) := [.raw x.c1, E 0 (.pk x.I_ce) x.k1]
def line2 (x : Exchange P) (p : Proofs P) : List (Msg P) := [E 0 (.ct x.c2) x.k1, E 1 (.pk x.I_se) x.k2, E 2 (.mac p.h1) x.k2]
def line3 (x : Exchange P) (p : Proofs P) : List (Msg P) := [E 1 (.ct x.c3) x.k2, E 2 (.pk x.I_c) x.k3, E 3 (.mac p.h2) x.k3]
def line4 (x : Exchange P) (p : Proofs P) : List (Msg P) := [E 3 (.ct x.c4) x.k3, E 4 (.mac p.h3) x.k4]

/-- `sha512(k1 || k2 || k3 || k4)`, lower half -/
def lower (x : Exchange P) : P.Key := (P.kdf x.k1 x.k2 x.k3 x.k4).1

/-- upper half -/
def upper (x : Exchange P) : P.Key := (P.kdf x.k1 x.k2 x.k3 x.k4).2

/-- The client of an exchange. -/
def clientOf (x : Exchange P) : Proc P := initiate x.client x.clientEphemeral x.I_s x.r1 x.r3

/-- The server of an exchange. -/
def serverOf (x : Exchange P) : Proc P := respond x.server x.serverEphemeral x.r2 x.r4

/-! ## Theorems -/

/-- **C154** The client sends the first line of the document, and the third one after it has got the second, up to what is in the
proofs. After the fourth it has the keys of the document, the lower half for reading.
Partial: the second and third proof are others than those of the document (`C154_client_violated`, `C154_server_violated`). -/
theorem C154_client_partial (x : Exchange P) :
    (runAlone (clientOf x) []).1 = line1 x ∧
    (runAlone (clientOf x) (line2 x (chained x))).1 = line1 x ++ line3 x (chained x) ∧
    runAlone (clientOf x) (line2 x (chained x) ++ line4 x (chained x)) =
      (line1 x ++ line3 x (chained x), .done ⟨lower x, upper x, x.I_s, 4, 5⟩) ∧
    (chained x).h1 = (documented x).h1 := by
  refine ⟨?_, ?_, ?_, rfl⟩ <;>
    simp [clientOf, initiate, genKeyAndSendCipher, writeWithKey, runAlone, recvCipherAndGetKey, readWithKey,
      recvEncryptedIdentity, recvProof, sendProof, line1, line2, line3, line4, E, chained, lower, upper, P.open_seal,
      P.decap_encap, Exchange.I_s, Exchange.I_c, Exchange.I_se, Exchange.I_ce, Exchange.c1, Exchange.k1, Exchange.c2, Exchange.k2,
      Exchange.c3, Exchange.k3, Exchange.c4, Exchange.k4]

/-- **C154** The server sends nothing before the first line, then the second, and the fourth after the third. It then has the keys
of the document, the lower half for writing. Partial: as above. -/
theorem C154_server_partial (x : Exchange P) :
    (runAlone (serverOf x) []).1 = [] ∧
    (runAlone (serverOf x) (line1 x)).1 = line2 x (documented x) ∧
    runAlone (serverOf x) (line1 x ++ line3 x (chained x)) =
      (line2 x (documented x) ++ line4 x (chained x), .done ⟨upper x, lower x, x.I_c, 5, 4⟩) := by
  refine ⟨?_, ?_, ?_⟩ <;>
    simp [serverOf, respond, genKeyAndSendCipher, writeWithKey, runAlone, recvCipherAndGetKey, readWithKey,
      recvEncryptedIdentity, recvProof, sendProof, line1, line2, line3, line4, E, chained, documented, lower, upper, P.open_seal,
      P.decap_encap, Exchange.I_s, Exchange.I_c, Exchange.I_se, Exchange.I_ce, Exchange.c1, Exchange.k1, Exchange.c2, Exchange.k2,
      Exchange.c3, Exchange.k3, Exchange.c4, Exchange.k4]

/-- **C154** The proofs of the code vouch for the same as those of the document: the last one is the same only for the same four
public keys and the same three keys. -/
theorem C154_bound (hc : HmacCollisionFree P) (x y : Exchange P) (h : (chained x).h3 = (chained y).h3) :
    x.I_s = y.I_s ∧ x.I_c = y.I_c ∧ x.I_ce = y.I_ce ∧ x.I_se = y.I_se ∧ x.k1 = y.k1 ∧ x.k2 = y.k2 ∧ x.k3 = y.k3 := by
  obtain ⟨e3, h⟩ := hc _ _ _ _ h
  simp only [List.cons.injEq, Part.mac.injEq, Part.pk.injEq, and_true] at h
  obtain ⟨h2, es⟩ := h
  obtain ⟨e2, h⟩ := hc _ _ _ _ h2
  simp only [List.cons.injEq, Part.mac.injEq, Part.pk.injEq, and_true] at h
  obtain ⟨h1, ec⟩ := h
  obtain ⟨e1, h⟩ := hc _ _ _ _ h1
  simp only [List.cons.injEq, Part.pk.injEq, and_true] at h
  exact ⟨es, ec, h.1, h.2, e1, e2, e3⟩

/-- **C154** A client that completes the exchange was sent lines of the document, by whomever: ciphertexts for its two keys and an
ephemeral key, and proofs over both ephemeral keys and over everything. It sent what the document says it sends then. -/
theorem C154_client_accepts_partial (x : Exchange P) (ins outs : List (Msg P)) (r : Result P)
    (h : runAlone (clientOf x) ins = (outs, .done r)) :
    ∃ (f1 f2 f3 f4 f5 : P.Frame) (rest : List (Msg P)) (c2 c4 : P.CT) (k2 k4 : P.Key) (I_se : P.PK),
      ins = [.frame f1, .frame f2, .frame f3, .frame f4, .frame f5] ++ rest ∧
      P.openF x.k1 0 f1 = some (.ct c2) ∧ P.decap c2 x.clientEphemeral = some k2 ∧
      P.openF k2 1 f2 = some (.pk I_se) ∧
      P.openF k2 2 f3 = some (.mac (P.hmac x.k1 [.pk x.I_ce, .pk I_se])) ∧
      P.openF (P.encap I_se x.r3).2 3 f4 = some (.ct c4) ∧ P.decap c4 x.client = some k4 ∧
      P.openF k4 4 f5 = some (.mac (P.hmac (P.encap I_se x.r3).2
        [.mac (P.hmac k2 [.mac (P.hmac x.k1 [.pk x.I_ce, .pk I_se]), .pk x.I_c]), .pk x.I_s])) ∧
      outs = line1 x ++ [E 1 (.ct (P.encap I_se x.r3).1) k2, E 2 (.pk x.I_c) (P.encap I_se x.r3).2,
        E 3 (.mac (P.hmac k2 [.mac (P.hmac x.k1 [.pk x.I_ce, .pk I_se]), .pk x.I_c])) (P.encap I_se x.r3).2] ∧
      r.readKey = (P.kdf x.k1 k2 (P.encap I_se x.r3).2 k4).1 ∧ r.writeKey = (P.kdf x.k1 k2 (P.encap I_se x.r3).2 k4).2 := by
  unfold clientOf initiate genKeyAndSendCipher at h
  simp only at h
  obtain ⟨o1, rfl, h1⟩ := runAlone_send_done h
  obtain ⟨o2, rfl, h2⟩ := runAlone_send_done h1
  obtain ⟨f0, c2, k2, i1, rfl, ho0, hd0, h3⟩ := recvCipher_done h2
  obtain ⟨f1, epB, i2, rfl, ho1, h4⟩ := recvIdentity_done h3
  obtain ⟨f2, i3, rfl, ho2, h5⟩ := recvProof_done h4
  obtain ⟨o3, rfl, h6⟩ := runAlone_send_done h5
  obtain ⟨o4, rfl, h7⟩ := runAlone_send_done h6
  obtain ⟨o5, rfl, h8⟩ := runAlone_send_done h7
  obtain ⟨f3, c4, k4, i4, rfl, ho3, hd3, h9⟩ := recvCipher_done h8
  obtain ⟨f4, i5, rfl, ho4, h10⟩ := recvProof_done h9
  simp only [runAlone, Prod.mk.injEq, Proc.done.injEq] at h10
  obtain ⟨rfl, h10⟩ := h10
  refine ⟨f0, f1, f2, f3, f4, i5, c2, c4, k2, k4, epB, rfl, ho0, hd0, ho1, ho2, ho3, hd3, ho4, rfl, ?_, ?_⟩ <;> rw [← h10] <;> rfl

/-- **C154** The same for a server. -/
theorem C154_server_accepts_partial (x : Exchange P) (ins outs : List (Msg P)) (r : Result P)
    (h : runAlone (serverOf x) ins = (outs, .done r)) :
    ∃ (c1 c3 : P.CT) (f2 f3 f4 f5 : P.Frame) (rest : List (Msg P)) (k1 k3 : P.Key) (I_ce I_c : P.PK),
      ins = [.raw c1, .frame f2, .frame f3, .frame f4, .frame f5] ++ rest ∧
      P.decap c1 x.server = some k1 ∧ P.openF k1 0 f2 = some (.pk I_ce) ∧
      P.openF (P.encap I_ce x.r2).2 1 f3 = some (.ct c3) ∧ P.decap c3 x.serverEphemeral = some k3 ∧
      P.openF k3 2 f4 = some (.pk I_c) ∧
      P.openF k3 3 f5 = some (.mac (P.hmac (P.encap I_ce x.r2).2 [.mac (P.hmac k1 [.pk I_ce, .pk x.I_se]), .pk I_c])) ∧
      outs = [E 0 (.ct (P.encap I_ce x.r2).1) k1, E 1 (.pk x.I_se) (P.encap I_ce x.r2).2,
        E 2 (.mac (P.hmac k1 [.pk I_ce, .pk x.I_se])) (P.encap I_ce x.r2).2, E 3 (.ct (P.encap I_c x.r4).1) k3,
        E 4 (.mac (P.hmac k3 [.mac (P.hmac (P.encap I_ce x.r2).2 [.mac (P.hmac k1 [.pk I_ce, .pk x.I_se]), .pk I_c]), .pk x.I_s]))
          (P.encap I_c x.r4).2] ∧
      r.writeKey = (P.kdf k1 (P.encap I_ce x.r2).2 k3 (P.encap I_c x.r4).2).1 ∧
      r.readKey = (P.kdf k1 (P.encap I_ce x.r2).2 k3 (P.encap I_c x.r4).2).2 ∧ r.theirPK = I_c := by
  unfold serverOf respond at h
  obtain ⟨c1, k1, i1, rfl, hd1, h1⟩ := recvCipherRaw_done h
  obtain ⟨f1, epA, i2, rfl, ho1, h2⟩ := recvIdentity_done h1
  unfold genKeyAndSendCipher at h2
  simp only at h2
  obtain ⟨o1, rfl, h3⟩ := runAlone_send_done h2
  obtain ⟨o2, rfl, h4⟩ := runAlone_send_done h3
  obtain ⟨o3, rfl, h5⟩ := runAlone_send_done h4
  obtain ⟨f2, c3, k3, i3, rfl, ho2, hd3, h6⟩ := recvCipher_done h5
  obtain ⟨f3, pkA, i4, rfl, ho3, h7⟩ := recvIdentity_done h6
  obtain ⟨f4, i5, rfl, ho4, h8⟩ := recvProof_done h7
  obtain ⟨o4, rfl, h9⟩ := runAlone_send_done h8
  obtain ⟨o5, rfl, h10⟩ := runAlone_send_done h9
  simp only [runAlone, Prod.mk.injEq, Proc.done.injEq] at h10
  obtain ⟨rfl, h10⟩ := h10
  refine ⟨c1, c3, f1, f2, f3, f4, i5, k1, k3, epA, pkA, rfl, hd1, ho1, ho2, hd3, ho3, ho4, rfl, ?_, ?_, ?_⟩ <;> rw [← h10]

/-- **C154 violated**: a client that is made after the document is refused by every server, at its proof. -/
theorem C154_server_violated (hc : HmacCollisionFree P) (x : Exchange P) :
    (runAlone (serverOf x) (line1 x ++ line3 x (documented x))).2 = .fail := by
  have hne : ¬ P.hmac x.k2 [.mac (P.hmac x.k1 [.pk x.I_ce, .pk x.I_se]), .pk x.I_c] =
      P.hmac x.k2 [.pk x.I_c, .pk x.I_ce, .pk x.I_se] := fun h => by
    have := (hc _ _ _ _ h).2
    simp at this
  simp only [Exchange.I_s, Exchange.I_c, Exchange.I_se, Exchange.I_ce, Exchange.k1, Exchange.k2] at hne
  simp [serverOf, respond, genKeyAndSendCipher, writeWithKey, runAlone, recvCipherAndGetKey, readWithKey,
      recvEncryptedIdentity, recvProof, sendProof, line1, line3, E, documented, P.open_seal,
      P.decap_encap, Exchange.I_s, Exchange.I_c, Exchange.I_se, Exchange.I_ce, Exchange.c1, Exchange.k1, Exchange.c2, Exchange.k2,
      Exchange.c3, Exchange.k3, hne]

/-- **C154 violated**: a server that is made after the document is refused by every client, at its last proof. -/
theorem C154_client_violated (hc : HmacCollisionFree P) (x : Exchange P) :
    (runAlone (clientOf x) (line2 x (documented x) ++ line4 x (documented x))).2 = .fail := by
  have hne : ¬ P.hmac x.k3 [.mac (P.hmac x.k2 [.mac (P.hmac x.k1 [.pk x.I_ce, .pk x.I_se]), .pk x.I_c]), .pk x.I_s] =
      P.hmac x.k3 [.pk x.I_s, .pk x.I_c, .pk x.I_ce, .pk x.I_se] := fun h => by
    have := (hc _ _ _ _ h).2
    simp at this
  simp only [Exchange.I_s, Exchange.I_c, Exchange.I_se, Exchange.I_ce, Exchange.k1, Exchange.k2, Exchange.k3] at hne
  simp [clientOf, initiate, genKeyAndSendCipher, writeWithKey, runAlone, recvCipherAndGetKey, readWithKey,
      recvEncryptedIdentity, recvProof, sendProof, line2, line4, E, documented, P.open_seal,
      P.decap_encap, Exchange.I_s, Exchange.I_c, Exchange.I_se, Exchange.I_ce, Exchange.c1, Exchange.k1, Exchange.c2, Exchange.k2,
      Exchange.c3, Exchange.k3, Exchange.c4, Exchange.k4, hne]

/-- An exchange with symbolic primitives, for which all hypotheses hold. -/
def sample : Exchange symbolic := ⟨(10 : Nat), (11 : Nat), (20 : Nat), (21 : Nat), (1 : Nat), (2 : Nat), (3 : Nat), (4 : Nat)⟩

example : (runAlone (serverOf sample) (line1 sample ++ line3 sample (chained sample))).2 =
      .done ⟨upper sample, lower sample, (10 : Nat), 5, 4⟩ ∧
    (runAlone (serverOf sample) (line1 sample ++ line3 sample (documented sample))).2 = .fail ∧
    (runAlone (clientOf sample) (line2 sample (documented sample) ++ line4 sample (documented sample))).2 = .fail ∧
    upper sample ≠ lower sample :=
  ⟨by rw [(C154_server_partial sample).2.2]; rfl, C154_server_violated symbolic_hmac sample, C154_client_violated symbolic_hmac sample,
    by simp [upper, lower]⟩

end Verif.Document
