import Verif.Proofs.KX

/-!
# C07, C08: key exchange of a session
-/

namespace Verif.KX

variable {P : Prims}

/-! ## C07 -/

/-- Both sides have completed and agree: each reads with the key the other writes with,
the frame counters correspond, each knows the other's public key (hence identity), and
nothing is left on the connection. -/
def Agree (skA skB : P.SK) (c : Config P) : Prop :=
  ∃ ra rb : Result P, c = ⟨.done ra, .done rb, [], []⟩ ∧
    ra.readKey = rb.writeKey ∧ ra.writeKey = rb.readKey ∧
    ra.wseq = rb.rseq ∧ ra.rseq = rb.wseq ∧
    ra.theirPK = P.pub skB ∧ rb.theirPK = P.pub skA ∧
    P.sha256 rb.theirPK = P.sha256 (P.pub skA)

/-- C07: for all long-term and ephemeral keys and all randomness, in every interleaving of
an initiator and a responder over an undisturbed connection: nobody ever fails, every
partial execution can be continued to agreement, and when neither side can move both have completed and
agree. -/
theorem C07_honest_agreement (skA eA skB eB : P.SK) (r1 r2 r3 r4 : P.Rnd) (n : Nat)
    (c : Config P)
    (h : Steps n ⟨initiate skA eA (P.pub skB) r1 r3, respond skB eB r2 r4, [], []⟩ c) :
    c.a ≠ .fail ∧ c.b ≠ .fail ∧
    (∃ l t, Steps l c t ∧ Agree skA skB t) ∧
    ((∀ d, ¬ Step c d) → Agree skA skB c) := by
  obtain ⟨m, hle, hm⟩ := exec_steps 20
    (⟨initiate skA eA (P.pub skB) r1 r3, respond skB eB r2 r4, [], []⟩ : Config P)
  rw [honest_exec] at hm
  have hterm : ∀ (ra rb : Result P) (e : Config P), ¬ Step ⟨.done ra, .done rb, [], []⟩ e := by
    intro ra rb e he; cases he
  obtain ⟨l, rfl, hl⟩ := steps_all hm (hterm _ _) h
  refine ⟨?_, ?_, ⟨l, _, hl, ⟨_, _, rfl, rfl, rfl, rfl, rfl, rfl, rfl, rfl⟩⟩, ?_⟩
  · intro hf; have := (steps_fail hl).1 hf; simp at this
  · intro hf; have := (steps_fail hl).2 hf; simp at this
  · intro hstuck
    cases hl with
    | refl => exact ⟨_, _, rfl, rfl, rfl, rfl, rfl, rfl, rfl, rfl⟩
    | head hs _ => exact absurd hs (hstuck _)

/-- C07: the exchange terminates after at most 20 steps, whatever the schedule. -/
theorem C07_honest_termination (skA eA skB eB : P.SK) (r1 r2 r3 r4 : P.Rnd) (n : Nat)
    (c : Config P)
    (h : Steps n ⟨initiate skA eA (P.pub skB) r1 r3, respond skB eB r2 r4, [], []⟩ c) :
    n ≤ 20 := by
  obtain ⟨m, hle, hm⟩ := exec_steps 20
    (⟨initiate skA eA (P.pub skB) r1 r3, respond skB eB r2 r4, [], []⟩ : Config P)
  rw [honest_exec] at hm
  have hterm : ∀ (ra rb : Result P) (e : Config P), ¬ Step ⟨.done ra, .done rb, [], []⟩ e := by
    intro ra rb e he; cases he
  obtain ⟨l, hl, _⟩ := steps_all hm (hterm _ _) h
  omega

/-! ## C08 -/

/-- HMAC is collision free. -/
def HmacCollisionFree (P : Prims) : Prop :=
  ∀ k k' (l l' : List (Part P.PK P.Mac)), P.hmac k l = P.hmac k' l' → k = k' ∧ l = l'

/-- A sealed frame opens only under its own key, to its own contents. -/
def FrameCommits (P : Prims) : Prop :=
  ∀ k n k' n' p p', P.openF k n (P.sealF k' n' p') = some p → k = k' ∧ p = p'

/-- C08: take any initiator and any responder run that complete, each fed with arbitrary
messages by the network. If the initiator's final confirmation (fifth message received) is
the responder's final message (fifth message sent), then the two sides hold the same keys
in opposite roles, each has the other's true public key, and the responder runs with the
key the initiator meant to talk to. -/
theorem C08_no_disagreement (hc : HmacCollisionFree P) (hf : FrameCommits P)
    (skA eA skB eB : P.SK) (pkB : P.PK) (r1 r2 r3 r4 : P.Rnd)
    (insI outsI insR outsR : List (Msg P)) (rI rR : Result P)
    (hI : runAlone (initiate skA eA pkB r1 r3) insI = (outsI, .done rI))
    (hR : runAlone (respond skB eB r2 r4) insR = (outsR, .done rR))
    (hconf : insI[4]? = outsR[4]?) :
    rI.readKey = rR.writeKey ∧ rI.writeKey = rR.readKey ∧
    rI.theirPK = P.pub skB ∧ rR.theirPK = P.pub skA ∧ pkB = P.pub skB := by
  obtain ⟨k2, k4, epB, f4, h1, h2, _, rfl⟩ := initiate_done hI
  obtain ⟨k1', k3', epA, pkA, f4', _, _, h3, rfl⟩ := respond_done hR
  rw [h1, h3] at hconf
  simp only [Option.some.injEq, Msg.frame.injEq] at hconf
  subst hconf
  obtain ⟨hk4, hm⟩ := hf _ _ _ _ _ _ h2
  simp only [Payload.mac.injEq] at hm
  obtain ⟨hk3, hl⟩ := hc _ _ _ _ hm
  simp only [List.cons.injEq, Part.mac.injEq, Part.pk.injEq, and_true] at hl
  obtain ⟨hcp, hpk⟩ := hl
  obtain ⟨hk2, hl⟩ := hc _ _ _ _ hcp
  simp only [List.cons.injEq, Part.mac.injEq, Part.pk.injEq, and_true] at hl
  obtain ⟨hsp, hpkA⟩ := hl
  obtain ⟨hk1, hl⟩ := hc _ _ _ _ hsp
  subst hpk
  subst hpkA
  simp only [hk1, hk2, hk3, hk4, and_self]

/-- C08, responder's side: if the client proof a responder accepted (fifth message
received) is the one an initiator sent, then the initiator has the public key the
responder believes in and both derived the same first three keys from it: in particular
the proof binds the initiator's identity. -/
theorem C08_client_authenticated (hc : HmacCollisionFree P) (hf : FrameCommits P)
    (skA eA skB eB : P.SK) (pkB : P.PK) (r1 r2 r3 r4 : P.Rnd)
    (insI outsI insR outsR : List (Msg P)) (rI rR : Result P)
    (hI : runAlone (initiate skA eA pkB r1 r3) insI = (outsI, .done rI))
    (hR : runAlone (respond skB eB r2 r4) insR = (outsR, .done rR))
    (hconf : insR[4]? = outsI[4]?) :
    rR.theirPK = P.pub skA ∧
    ∃ k1 k2 k3 kI kR,
      (rI.readKey, rI.writeKey) = P.kdf k1 k2 k3 kI ∧
      (rR.writeKey, rR.readKey) = P.kdf k1 k2 k3 kR := by
  obtain ⟨k2, k4, epB, f4, _, _, h1, rfl⟩ := initiate_done hI
  obtain ⟨k1', k3', epA, pkA, f4', h2, h3, _, rfl⟩ := respond_done hR
  rw [h1, h2] at hconf
  simp only [Option.some.injEq, Msg.frame.injEq] at hconf
  subst hconf
  obtain ⟨hk3, hm⟩ := hf _ _ _ _ _ _ h3
  simp only [Payload.mac.injEq] at hm
  obtain ⟨hk2, hl⟩ := hc _ _ _ _ hm
  simp only [List.cons.injEq, Part.mac.injEq, Part.pk.injEq, and_true] at hl
  obtain ⟨hsp, hpkA⟩ := hl
  obtain ⟨hk1, hl⟩ := hc _ _ _ _ hsp
  refine ⟨hpkA, _, _, _, k4, (P.encap pkA r4).2, rfl, ?_⟩
  simp only [hk1, hk2, ← hk3]

/-! ## The assumptions are satisfiable: a symbolic instance -/

/-- Symbolic keys. -/
inductive SKey where
  | kem (pk rnd : Nat)
  | kdf (side : Bool) (k1 k2 k3 k4 : SKey)
  deriving DecidableEq, Repr

/-- Symbolic HMAC values. -/
inductive SMac where
  | key (k : SKey)
  | consPk (p : Nat) (rest : SMac)
  | consMac (m rest : SMac)
  deriving DecidableEq, Repr

def SMac.of (k : SKey) : List (Part Nat SMac) → SMac
  | [] => .key k
  | .pk p :: l => .consPk p (SMac.of k l)
  | .mac m :: l => .consMac m (SMac.of k l)

/-- Free (symbolic) primitives. -/
@[reducible] def symbolic : Prims where
  PK := Nat
  SK := Nat
  CT := Nat × Nat
  Mac := SMac
  Key := SKey
  Rnd := Nat
  Frame := SKey × Nat × Payload Nat (Nat × Nat) SMac
  Id := Nat
  pub sk := sk
  encap pk r := ((pk, r), .kem pk r)
  decap c sk := if c.1 = sk then some (.kem c.1 c.2) else none
  decap_encap := by intro sk r; simp
  hmac := SMac.of
  decMac := inferInstance
  sealF k n p := (k, n, p)
  openF k n f := if f.1 = k ∧ f.2.1 = n then some f.2.2 else none
  open_seal := by intro k n p; simp
  kdf k1 k2 k3 k4 := (.kdf false k1 k2 k3 k4, .kdf true k1 k2 k3 k4)
  sha256 p := p

theorem symbolic_hmac : HmacCollisionFree symbolic := by
  intro k k' l
  show ∀ l', SMac.of k l = SMac.of k' l' → _
  induction l with
  | nil =>
    intro l' h
    match l' with
    | [] => simp [SMac.of] at h; exact ⟨h, rfl⟩
    | .pk _ :: _ => simp [SMac.of] at h
    | .mac _ :: _ => simp [SMac.of] at h
  | cons a l ih =>
    intro l' h
    match a, l' with
    | .pk _, [] => simp [SMac.of] at h
    | .mac _, [] => simp [SMac.of] at h
    | .pk p, .pk q :: l' =>
      simp [SMac.of] at h
      obtain ⟨h1, h2⟩ := ih l' h.2
      exact ⟨h1, by rw [h.1, h2]⟩
    | .mac p, .mac q :: l' =>
      simp [SMac.of] at h
      obtain ⟨h1, h2⟩ := ih l' h.2
      exact ⟨h1, by rw [h.1, h2]⟩
    | .pk p, .mac q :: l' => simp [SMac.of] at h
    | .mac p, .pk q :: l' => simp [SMac.of] at h

theorem symbolic_commits : FrameCommits symbolic := by
  intro k n k' n' p p' h
  simp only at h
  split at h
  · rename_i hh; simp at h; exact ⟨hh.1.symm, h.symm⟩
  · simp at h

/-- Non-triviality of C08: an undisturbed symbolic run satisfies all hypotheses; the two
sides end with the keys `kdf false ..`, `kdf true ..` in opposite roles. -/
example :
    let A : Proc symbolic := initiate (P := symbolic) (10 : Nat) (11 : Nat) (20 : Nat) (1 : Nat) (3 : Nat)
    let B : Proc symbolic := respond (P := symbolic) (20 : Nat) (21 : Nat) (2 : Nat) (4 : Nat)
    let toB := (runAlone A []).1                        -- c1, ephemeral key
    let toA := (runAlone B toB).1                       -- c2, ephemeral key, proof
    let toB' := (runAlone A toA).1
    let toA' := (runAlone B toB').1
    ∃ rI rR, runAlone A toA' = (toB', .done rI) ∧ runAlone B toB' = (toA', .done rR) ∧
      toA'[4]? = toA'[4]? ∧ toA'.length = 5 ∧ toB'.length = 5 ∧
      rI.readKey = rR.writeKey ∧ rI.readKey ≠ rI.writeKey := by
  refine ⟨_, _, rfl, rfl, rfl, rfl, rfl, rfl, ?_⟩
  intro h
  cases h

end Verif.KX
