import Verif.Model.Enrol
import Mathlib.Tactic.ByContra

/-! # Making an account, and which server the client talks to: C80 and C81 -/

namespace Verif.Enrol

open Verif

theorem runs_inv {ok : Z → Ev → Prop} {P : Z → Prop} {z z' : Z} (h : Runs ok z z') (h0 : P z)
    (hs : ∀ z ev, P z → ok z ev → P (step z ev)) : P z' := by
  induction h with
  | refl => exact h0
  | step _ hok ih => exact hs _ _ ih hok

/-- Events one after the other, each of them allowed. -/
def execIf (ok : Z → Ev → Prop) [∀ z e, Decidable (ok z e)] (z : Z) : List Ev → Option Z
  | [] => some z
  | e :: es => if ok z e then execIf ok (step z e) es else none

theorem runs_exec {ok : Z → Ev → Prop} [∀ z e, Decidable (ok z e)] {z0 z z' : Z} (h : Runs ok z0 z) :
    ∀ {evs : List Ev}, execIf ok z evs = some z' → Runs ok z0 z' := by
  intro evs
  induction evs generalizing z with
  | nil =>
    intro he
    injection he with he
    subst he
    exact h
  | cons e es ih =>
    intro he
    unfold execIf at he
    split at he
    · rename_i hok
      exact ih (.step h hok) he
    · cases he

/-! ## What the steps do -/

theorem start_none {z : Z} (h : z.disk = none) (fresh : Nat) : step z (.start fresh) =
    { z with id := fresh, srv := none, addr := [], cert := [], prov := none, online := false, screen := .welcome } := by
  simp [step, start, h]

theorem start_new {z : Z} {r : Rec} (h : z.disk = some r) (hm : r.mine = none) (fresh : Nat) : step z (.start fresh) =
    { z with id := fresh, srv := some r.sid, addr := r.addr, cert := r.cert, prov := none, online := false,
             screen := .welcome } := by
  simp [step, start, h, hm]

theorem start_known {z : Z} {r : Rec} {i : Nat} (h : z.disk = some r) (hm : r.mine = some i) (fresh : Nat) :
    step z (.start fresh) =
    { z with id := i, srv := some r.sid, addr := r.addr, cert := r.cert, prov := none, online := false, screen := .main } := by
  simp [step, start, h, hm]

/-- Everything about `finalize` that is independent of the result. -/
theorem finalize_cases (z : Z) (conn : Conn) (pid : SrvId) (token : Bytes) (res : Res) :
    ∃ ss acc, (finalize z conn pid token res).sent = z.sent ++ [.create conn.cert z.id token] ++ ss ∧
      (∀ s ∈ ss, s = .session conn.cert pid.key) ∧
      (finalize z conn pid token res).accounts = z.accounts ++ acc ∧
      acc = (if res.made then [(conn.key, z.id)] else []) ∧
      (finalize z conn pid token res).id = z.id ∧ (finalize z conn pid token res).addr = z.addr ∧
      (finalize z conn pid token res).prov = z.prov ∧
      (finalize z conn pid token res).accepted = z.accepted ∧ (finalize z conn pid token res).certs = z.certs ∧
      ((res ≠ .done ∧ (finalize z conn pid token res).screen = z.screen ∧ (finalize z conn pid token res).disk = z.disk ∧
        ((finalize z conn pid token res).srv = z.srv ∧ (finalize z conn pid token res).cert = z.cert ∨
          (finalize z conn pid token res).srv = some pid ∧ (finalize z conn pid token res).cert = conn.cert)) ∨
       (res = .done ∧ (finalize z conn pid token res).screen = .main ∧ (finalize z conn pid token res).srv = some pid ∧
        (finalize z conn pid token res).cert = conn.cert ∧
        (finalize z conn pid token res).disk = some ⟨z.addr, pid, conn.cert, some z.id⟩)) := by
  cases res with
  | lost made =>
    refine ⟨[], if made then [(conn.key, z.id)] else [], ?_⟩
    cases made <;> simp [finalize, Res.made]
  | refused => exact ⟨[], [], by simp [finalize, Res.made]⟩
  | noSession => exact ⟨[.session conn.cert pid.key], [(conn.key, z.id)], by simp [finalize, Res.made]⟩
  | noSave => exact ⟨[.session conn.cert pid.key], [(conn.key, z.id)], by simp [finalize, Res.made]⟩
  | done => exact ⟨[.session conn.cert pid.key], [(conn.key, z.id)], by simp [finalize, Res.made, saveServerRecord]⟩

/-- The client has a record of its own exactly when the main window is on the screen. -/
def Own (z : Z) : Prop := (z.screen = .main ↔ z.disk.bind (·.mine) ≠ none) ∧ ∀ i, z.disk.bind (·.mine) = some i → z.id = i

theorem own_finalize {z : Z} {conn : Conn} {pid : SrvId} {token : Bytes} {res : Res} (h : Own z) (hm : z.screen ≠ .main) :
    Own (finalize z conn pid token res) ∧ ∀ i, z.disk.bind (·.mine) = some i → False := by
  obtain ⟨ss, acc, h1, h2, h3, h4, h5, h6, h7, h8, h9, h10⟩ := finalize_cases z conn pid token res
  have hn : z.disk.bind (·.mine) = none := by
    by_contra hc
    exact hm (h.1.2 hc)
  refine ⟨?_, fun i hi => by rw [hn] at hi; cases hi⟩
  rcases h10 with ⟨-, g1, g2, -⟩ | ⟨-, g1, -, -, g2⟩
  · unfold Own
    rw [g1, g2, h5]
    exact h
  · unfold Own
    rw [g1, g2, h5]
    simp

theorem own_step (z : Z) (ev : Ev) (h : Own z) : Own (step z ev) := by
  obtain ⟨ho, hid⟩ := h
  cases ev with
  | start fresh =>
    cases hd : z.disk with
    | none => rw [start_none hd]; simp [Own, hd]
    | some r =>
      cases hm : r.mine with
      | none => rw [start_new hd hm]; simp [Own, hd, hm]
      | some i => rw [start_known hd hm]; simp [Own, hd, hm]
  | dial addr token conn pid res =>
    unfold step
    dsimp only
    split
    · rename_i hc
      cases hs : z.srv with
      | none =>
        have hn : z.disk.bind (·.mine) = none := by
          by_contra hx
          rw [ho.2 hx] at hc
          simp at hc
        exact ⟨by simp [hn], by simp [hn]⟩
      | some sid =>
        refine (own_finalize (z := { z with addr := addr, srv := some sid }) ⟨ho, hid⟩ ?_).1
        rw [hc.1]
        nofun
    · exact ⟨ho, hid⟩
  | no =>
    unfold step
    dsimp only
    split
    · rename_i hs
      rw [hs] at ho
      have hn : z.disk.bind (·.mine) = none := by
        by_contra hx
        have := ho.2 hx
        cases this
      exact ⟨by simp [hn], by simp [hn]⟩
    · exact ⟨ho, hid⟩
  | yes res =>
    unfold step
    dsimp only
    split
    · rename_i conn pid token hs
      exact (own_finalize (z := { z with accepted := z.accepted ++ [(pid, conn.cert)], certs := z.certs ++ [conn.cert] })
        ⟨ho, hid⟩ (by rw [hs]; nofun)).1
    · exact ⟨ho, hid⟩
  | online conn ok =>
    unfold step
    dsimp only
    split
    · split
      · exact ⟨ho, hid⟩
      · split
        · exact ⟨ho, hid⟩
        · exact ⟨ho, hid⟩
    · exact ⟨ho, hid⟩
  | offline => exact ⟨ho, hid⟩
  | acceptCert ok =>
    unfold step
    dsimp only
    split
    · rename_i hs _ _ _
      split
      · exact ⟨by simp [saveServerRecord, hs], by simp [saveServerRecord]⟩
      · exact ⟨ho, hid⟩
    · exact ⟨ho, hid⟩
  | importServer addr sid cert force =>
    unfold step
    dsimp only
    split
    · exact ⟨ho, hid⟩
    · refine ⟨?_, ?_⟩
      · simpa using ho
      · simpa using hid

theorem own_init (fresh : Nat) : Own (init fresh) := by simp [Own, init]

theorem own_reach {ok : Z → Ev → Prop} {fresh : Nat} {z : Z} (h : Runs ok (init fresh) z) : Own z :=
  runs_inv h (own_init fresh) fun z ev hz _ => own_step z ev hz

/-! ## C80: the client deals with servers that the user has accepted -/

/-- Servers in memory and on disk, and those of sessions, were accepted. -/
def KeyInv (z : Z) : Prop :=
  (∀ s, z.srv = some s → ∃ c, (s, c) ∈ z.accepted) ∧ (∀ r, z.disk = some r → ∃ c, (r.sid, c) ∈ z.accepted) ∧
    ∀ c k, .session c k ∈ z.sent → ∃ p ∈ z.accepted, p.1.key = k

theorem keyInv_finalize {z : Z} {conn : Conn} {pid : SrvId} {token : Bytes} {res : Res} (h : KeyInv z)
    (hp : ∃ c, (pid, c) ∈ z.accepted) : KeyInv (finalize z conn pid token res) := by
  obtain ⟨ss, acc, h1, h2, h3, h4, h5, h6, h7, h8, h9, h10⟩ := finalize_cases z conn pid token res
  obtain ⟨i1, i2, i3⟩ := h
  obtain ⟨c0, hp⟩ := hp
  refine ⟨?_, ?_, ?_⟩
  · intro s hs
    rw [h8]
    rcases h10 with ⟨-, -, -, ⟨g, -⟩ | ⟨g, -⟩⟩ | ⟨-, -, g, -⟩
    · rw [g] at hs
      exact i1 s hs
    · rw [g] at hs
      injection hs with hs
      subst hs
      exact ⟨_, hp⟩
    · rw [g] at hs
      injection hs with hs
      subst hs
      exact ⟨_, hp⟩
  · intro r hr
    rw [h8]
    rcases h10 with ⟨-, -, g, -⟩ | ⟨-, -, -, -, g⟩
    · rw [g] at hr
      exact i2 r hr
    · rw [g] at hr
      injection hr with hr
      subst hr
      exact ⟨_, hp⟩
  · intro c k hk
    rw [h8]
    rw [h1] at hk
    simp only [List.mem_append, List.mem_singleton] at hk
    rcases hk with (hk | hk) | hk
    · exact i3 c k hk
    · cases hk
    · have := h2 _ hk
      injection this with e1 e2
      exact ⟨(pid, c0), hp, e2.symm⟩

theorem keyInv_mono {z : Z} (h : KeyInv z) (ps : List (SrvId × Bytes)) (cs : List Bytes) (a : Bytes) (sc : Screen) (o : Bool)
    (p : Option Bytes) : KeyInv { z with accepted := z.accepted ++ ps, certs := cs, addr := a, screen := sc, online := o,
                                         prov := p } := by
  obtain ⟨i1, i2, i3⟩ := h
  refine ⟨fun s hs => ?_, fun r hr => ?_, fun c k hk => ?_⟩
  · obtain ⟨c, hc⟩ := i1 s hs
    exact ⟨c, List.mem_append_left _ hc⟩
  · obtain ⟨c, hc⟩ := i2 r hr
    exact ⟨c, List.mem_append_left _ hc⟩
  · obtain ⟨p, hp, he⟩ := i3 c k hk
    exact ⟨p, List.mem_append_left _ hp, he⟩

theorem keyInv_step (z : Z) (ev : Ev) (h : KeyInv z) : KeyInv (step z ev) := by
  cases ev with
  | start fresh =>
    obtain ⟨i1, i2, i3⟩ := h
    cases hd : z.disk with
    | none => rw [start_none hd]; exact ⟨nofun, i2, i3⟩
    | some r =>
      have hr := i2 r hd
      cases hm : r.mine with
      | none => rw [start_new hd hm]; exact ⟨fun s hs => by injection hs with hs; subst hs; exact hr, i2, i3⟩
      | some i => rw [start_known hd hm]; exact ⟨fun s hs => by injection hs with hs; subst hs; exact hr, i2, i3⟩
  | dial addr token conn pid res =>
    unfold step
    dsimp only
    split
    · cases hs : z.srv with
      | none =>
        have := keyInv_mono h [] z.certs addr (.ask conn pid token) z.online z.prov
        simpa [hs] using this
      | some sid =>
        refine keyInv_finalize ?_ (h.1 sid hs)
        have := keyInv_mono h [] z.certs addr z.screen z.online z.prov
        simpa [hs] using this
    · exact h
  | no =>
    unfold step
    dsimp only
    split
    · have := keyInv_mono h [] z.certs z.addr .welcome z.online z.prov
      simpa using this
    · exact h
  | yes res =>
    unfold step
    dsimp only
    split
    · rename_i conn pid token hs
      refine keyInv_finalize ?_ ⟨conn.cert, by simp⟩
      exact keyInv_mono h [(pid, conn.cert)] (z.certs ++ [conn.cert]) z.addr z.screen z.online z.prov
    · exact h
  | online conn ok =>
    unfold step
    dsimp only
    split
    · split
      · have := keyInv_mono h [] z.certs z.addr z.screen z.online (some conn.cert)
        simpa using this
      · split
        · exact h
        · rename_i sid hs
          obtain ⟨i1, i2, i3⟩ := h
          refine ⟨i1, i2, fun c k hk => ?_⟩
          simp only [List.mem_append, List.mem_singleton, Sent.session.injEq] at hk
          rcases hk with hk | ⟨-, rfl⟩
          · exact i3 c k hk
          · obtain ⟨c', hc'⟩ := i1 sid hs
            exact ⟨_, hc', rfl⟩
    · exact h
  | offline =>
    have := keyInv_mono h [] z.certs z.addr z.screen false z.prov
    simpa [step] using this
  | acceptCert ok =>
    unfold step
    dsimp only
    split
    · rename_i c sid _ _ _ hs
      obtain ⟨i1, i2, i3⟩ := h
      split
      · refine ⟨i1, fun r hr => ?_, i3⟩
        simp only [saveServerRecord, Option.some.injEq] at hr
        subst hr
        exact i1 sid hs
      · exact ⟨i1, i2, i3⟩
    · exact h
  | importServer addr sid cert force =>
    unfold step
    dsimp only
    split
    · exact h
    · obtain ⟨i1, -, i3⟩ := keyInv_mono h [(sid, cert)] (z.certs ++ [cert]) z.addr z.screen z.online z.prov
      refine ⟨i1, fun r hr => ?_, i3⟩
      simp only [Option.some.injEq] at hr
      subst hr
      exact ⟨cert, by simp⟩

/-- Every key exchange is for the key of a server that the user has accepted, or imported; so that if what they were shown
as the fingerprint of that server was the hash of its key, nobody without that key can complete it (C04). Missing for the full
claim: nothing makes sure of that (next theorem). -/
theorem C80_key_partial {fresh : Nat} {z : Z} (h : Reach fresh z) (c k : Bytes) (hs : .session c k ∈ z.sent) :
    ∃ p ∈ z.accepted, p.1.key = k := by
  have hi : KeyInv (init fresh) := ⟨nofun, nofun, nofun⟩
  exact (runs_inv h hi fun z ev hz _ => keyInv_step z ev hz).2.2 c k hs

/-- **Violated.** Somebody on the wire answers with the fingerprint of the true server and a key of their own. The user,
who compares the fingerprint, accepts; the client makes its account with the key of the attacker and saves it. -/
theorem C80_fingerprint_violated (sha : Bytes → Bytes) (k k' : Bytes) (fresh : Nat) :
    ∃ z, Reach fresh z ∧ (∀ p ∈ z.accepted, p.1.ident = sha k) ∧ z.accepted ≠ [] ∧ .session [1] k' ∈ z.sent ∧
      z.screen = .main ∧ z.online = true ∧ z.disk.map (·.sid) = some ⟨k', sha k⟩ := by
  refine ⟨step (step (init fresh) (.dial [97] [] ⟨[1], k'⟩ ⟨k', sha k⟩ .done)) (.yes .done),
    .step (.step .refl trivial) trivial, ?_⟩
  simp [step, init, finalize, saveServerRecord, Res.made]

/-- Accounts are requested only when no server is known, so that the user is asked. -/
def Asks (z : Z) : Ev → Prop
  | .dial .. => z.srv = none
  | _ => True

instance (z : Z) (e : Ev) : Decidable (Asks z e) := by cases e <;> unfold Asks <;> infer_instance

/-- The certificate of the connection to which something was written. -/
def Sent.cert : Sent → Bytes
  | .create c _ _ => c
  | .session c _ => c

/-- Certificates in use were accepted. -/
def CertInv (z : Z) : Prop :=
  (z.screen = .main → z.cert ∈ z.certs) ∧ (∀ r, z.disk = some r → r.cert ∈ z.certs) ∧ ∀ s ∈ z.sent, s.cert ∈ z.certs

theorem certInv_finalize {z : Z} {conn : Conn} {pid : SrvId} {token : Bytes} {res : Res} (h : CertInv z)
    (hm : z.screen ≠ .main) (hp : conn.cert ∈ z.certs) : CertInv (finalize z conn pid token res) := by
  obtain ⟨ss, acc, h1, h2, h3, h4, h5, h6, h7, h8, h9, h10⟩ := finalize_cases z conn pid token res
  obtain ⟨i1, i2, i3⟩ := h
  refine ⟨?_, ?_, ?_⟩
  · intro hs
    rw [h9]
    rcases h10 with ⟨-, g, -, -⟩ | ⟨-, -, -, g, -⟩
    · rw [g] at hs
      exact absurd hs hm
    · rw [g]
      exact hp
  · intro r hr
    rw [h9]
    rcases h10 with ⟨-, -, g, -⟩ | ⟨-, -, -, -, g⟩
    · rw [g] at hr
      exact i2 r hr
    · rw [g] at hr
      injection hr with hr
      subst hr
      exact hp
  · intro s hs
    rw [h9]
    rw [h1] at hs
    simp only [List.mem_append, List.mem_singleton] at hs
    rcases hs with (hs | rfl) | hs
    · exact i3 s hs
    · exact hp
    · rw [h2 _ hs]
      exact hp

theorem certInv_step (z : Z) (ev : Ev) (h : CertInv z) (ha : Asks z ev) : CertInv (step z ev) := by
  cases ev with
  | start fresh =>
    obtain ⟨i1, i2, i3⟩ := h
    cases hd : z.disk with
    | none => rw [start_none hd]; exact ⟨nofun, i2, i3⟩
    | some r =>
      have hr := i2 r hd
      cases hm : r.mine with
      | none => rw [start_new hd hm]; exact ⟨nofun, i2, i3⟩
      | some i => rw [start_known hd hm]; exact ⟨fun _ => hr, i2, i3⟩
  | dial addr token conn pid res =>
    unfold step
    dsimp only
    have hs : z.srv = none := ha
    split
    · rw [hs]
      exact ⟨nofun, h.2⟩
    · exact h
  | no =>
    unfold step
    dsimp only
    split
    · exact ⟨nofun, h.2⟩
    · exact h
  | yes res =>
    unfold step
    dsimp only
    split
    · rename_i conn pid token hs
      obtain ⟨i1, i2, i3⟩ := h
      refine certInv_finalize ⟨?_, ?_, ?_⟩ ?_ ?_
      · exact fun hm => List.mem_append_left _ (i1 hm)
      · exact fun r hr => List.mem_append_left _ (i2 r hr)
      · exact fun s hs => List.mem_append_left _ (i3 s hs)
      · rw [hs]
        nofun
      · simp
    · exact h
  | online conn ok =>
    unfold step
    dsimp only
    split
    · rename_i hc
      split
      · exact h
      · rename_i he
        split
        · exact h
        · obtain ⟨i1, i2, i3⟩ := h
          refine ⟨i1, i2, fun s hs => ?_⟩
          simp only [List.mem_append, List.mem_singleton] at hs
          rcases hs with hs | rfl
          · exact i3 s hs
          · simp only [ne_eq, not_not] at he
            change conn.cert ∈ z.certs
            rw [he]
            exact i1 hc.1
    · exact h
  | offline => exact h
  | acceptCert ok =>
    unfold step
    dsimp only
    split
    · rename_i c sid _ _ _ _
      obtain ⟨i1, i2, i3⟩ := h
      split
      · refine ⟨fun _ => by simp [saveServerRecord], fun r hr => ?_, fun s hs => List.mem_append_left _ (i3 s hs)⟩
        simp only [saveServerRecord, Option.some.injEq] at hr
        subst hr
        simp [saveServerRecord]
      · exact ⟨fun hm => List.mem_append_left _ (i1 hm), fun r hr => List.mem_append_left _ (i2 r hr),
          fun s hs => List.mem_append_left _ (i3 s hs)⟩
    · exact h
  | importServer addr sid cert force =>
    unfold step
    dsimp only
    split
    · exact h
    · obtain ⟨i1, i2, i3⟩ := h
      refine ⟨fun hm => List.mem_append_left _ (i1 hm), fun r hr => ?_, fun s hs => List.mem_append_left _ (i3 s hs)⟩
      simp only [Option.some.injEq] at hr
      subst hr
      simp

/-- Nothing is ever written to a connection with a certificate that the user was not shown and has not accepted, if accounts
are requested only by clients that know no server. Missing for the full claim: an account requested with a server imported, or
left over from a failed attempt (next theorems). -/
theorem C80_cert_partial {fresh : Nat} {z : Z} (h : Runs Asks (init fresh) z) (s : Sent) (hs : s ∈ z.sent) :
    s.cert ∈ z.certs := by
  have hi : CertInv (init fresh) := ⟨nofun, nofun, nofun⟩
  exact (runs_inv h hi certInv_step).2.2 s hs

/-- **Violated.** The session with a server that the user had accepted fails. They try another one. This time they are not
asked: request and token are sent to whoever answers. -/
theorem C80_retry_violated (fresh : Nat) (k k' : Bytes) (sid sid' : SrvId) (token : Bytes) :
    ∃ z, Reach fresh z ∧ z.certs = [[1]] ∧ .create [2] fresh token ∈ z.sent :=
  ⟨step (step (step (step (init fresh) (.dial [97] [] ⟨[1], k⟩ sid .done)) (.yes .noSession)) .no)
      (.dial [98] token ⟨[2], k'⟩ sid' .refused),
    .step (.step (.step (.step .refl trivial) trivial) trivial) trivial, by
      simp [step, init, finalize, Res.made]⟩

/-- **Violated.** The user has imported a server with its certificate. When they make their account, another certificate is
presented. Request and token are sent there, and after a session with the true server, which somebody in between passes on, that
certificate takes the place of the imported one. -/
theorem C80_import_violated (fresh : Nat) (sid : SrvId) (token : Bytes) :
    ∃ z, Reach fresh z ∧ z.certs = [[1]] ∧ .create [2] fresh token ∈ z.sent ∧ .session [2] sid.key ∈ z.sent ∧
      z.disk.map (·.cert) = some [2] ∧ z.cert = [2] :=
  ⟨step (step (step (init fresh) (.importServer [97] sid [1] false)) (.start fresh)) (.dial [97] token ⟨[2], sid.key⟩ sid .done),
    .step (.step (.step .refl trivial) trivial) trivial, by
      simp [step, init, finalize, Res.made, start, saveServerRecord]⟩

/-- Servers are imported only before there is an account. -/
def NoSwap (z : Z) : Ev → Prop
  | .importServer .. => z.disk.bind (·.mine) = none
  | _ => True

instance (z : Z) (e : Ev) : Decidable (NoSwap z e) := by cases e <;> unfold NoSwap <;> infer_instance

/-- A client with an account has in memory what is on disk. -/
def Pinned (z : Z) : Prop :=
  z.screen = .main → ∃ s, z.srv = some s ∧ z.disk = some ⟨z.addr, s, z.cert, some z.id⟩

theorem pinned_finalize {z : Z} {conn : Conn} {pid : SrvId} {token : Bytes} {res : Res} (hm : z.screen ≠ .main) :
    Pinned (finalize z conn pid token res) := by
  obtain ⟨ss, acc, h1, h2, h3, h4, h5, h6, h7, h8, h9, h10⟩ := finalize_cases z conn pid token res
  intro hs
  rcases h10 with ⟨-, g, -, -⟩ | ⟨-, -, g1, g2, g3⟩
  · rw [g] at hs
    exact absurd hs hm
  · exact ⟨pid, g1, by rw [g3, h6, g2, h5]⟩

theorem pinned_step (z : Z) (ev : Ev) (h : Own z ∧ Pinned z) (hn : NoSwap z ev) : Own (step z ev) ∧ Pinned (step z ev) := by
  obtain ⟨ho, h⟩ := h
  refine ⟨own_step z ev ho, ?_⟩
  cases ev with
  | start fresh =>
    cases hd : z.disk with
    | none => rw [start_none hd]; exact nofun
    | some r =>
      cases hm : r.mine with
      | none => rw [start_new hd hm]; exact nofun
      | some i =>
        rw [start_known hd hm]
        intro _
        refine ⟨r.sid, rfl, ?_⟩
        change z.disk = _
        rw [hd, ← hm]
  | dial addr token conn pid res =>
    unfold step
    dsimp only
    split
    · rename_i hc
      cases hs : z.srv with
      | none => exact nofun
      | some sid => exact pinned_finalize (by change z.screen ≠ _; rw [hc.1]; nofun)
    · exact h
  | no =>
    unfold step
    dsimp only
    split
    · exact nofun
    · exact h
  | yes res =>
    unfold step
    dsimp only
    split
    · rename_i hs
      exact pinned_finalize (by change z.screen ≠ _; rw [hs]; nofun)
    · exact h
  | online conn ok =>
    unfold step
    dsimp only
    split
    · split
      · exact h
      · split
        · exact h
        · exact h
    · exact h
  | offline => exact h
  | acceptCert ok =>
    unfold step
    dsimp only
    split
    · rename_i c sid _ _ _ hs
      split
      · exact fun _ => ⟨sid, hs, rfl⟩
      · exact h
    · exact h
  | importServer addr sid cert force =>
    unfold step
    dsimp only
    split
    · exact h
    · intro hs
      exact absurd hn (ho.1.1 hs)

theorem pinned_runs {fresh : Nat} {z : Z} (h : Runs NoSwap (init fresh) z) : Own z ∧ Pinned z :=
  runs_inv h ⟨own_init fresh, nofun⟩ pinned_step

/-- A client with an account, whatever the network does: its server is never replaced, not even by a restart; its certificate
only if the user accepts the one whose fingerprint they were shown last; and all it ever writes are key exchanges for the key of
its server, to connections with its certificate. Missing for the full claim: importing another server. -/
theorem C80_pin_partial {fresh : Nat} {z : Z} (h : Runs NoSwap (init fresh) z) (hm : z.screen = .main) (ev : Ev)
    (hn : NoSwap z ev) : ∃ s, z.srv = some s ∧ (step z ev).srv = some s ∧ (step z ev).screen = .main ∧
      ((step z ev).cert = z.cert ∨ (ev = .acceptCert true ∧ z.prov = some (step z ev).cert)) ∧
      ∃ ss, (step z ev).sent = z.sent ++ ss ∧ ∀ x ∈ ss, x = .session z.cert s.key := by
  obtain ⟨ho, hp⟩ := pinned_runs h
  obtain ⟨s, h1, h2⟩ := hp hm
  refine ⟨s, h1, ?_⟩
  have stay : ∀ z' : Z, z'.srv = z.srv → z'.screen = z.screen → z'.cert = z.cert → z'.sent = z.sent →
      z'.srv = some s ∧ z'.screen = .main ∧ (z'.cert = z.cert ∨ (ev = .acceptCert true ∧ z.prov = some z'.cert)) ∧
      ∃ ss, z'.sent = z.sent ++ ss ∧ ∀ x ∈ ss, x = .session z.cert s.key := by
    intro z' e1 e2 e3 e4
    exact ⟨by rw [e1, h1], by rw [e2, hm], .inl e3, [], by simp [e4], nofun⟩
  cases ev with
  | start f =>
    rw [start_known h2 rfl]
    exact ⟨rfl, rfl, .inl rfl, [], by simp, nofun⟩
  | dial addr token conn pid res =>
    unfold step
    dsimp only
    rw [if_neg (by rw [hm]; simp)]
    exact stay z rfl rfl rfl rfl
  | no =>
    unfold step
    dsimp only
    rw [hm]
    exact stay z rfl rfl rfl rfl
  | yes res =>
    unfold step
    dsimp only
    rw [hm]
    exact stay z rfl rfl rfl rfl
  | online conn ok =>
    unfold step
    dsimp only
    split
    · split
      · exact stay _ rfl rfl rfl rfl
      · rename_i he
        rw [h1]
        refine ⟨rfl, hm, .inl rfl, [.session conn.cert s.key], rfl, ?_⟩
        simp only [ne_eq, not_not] at he
        simp [he]
    · exact stay _ rfl rfl rfl rfl
  | offline => exact stay _ rfl rfl rfl rfl
  | acceptCert ok =>
    unfold step
    dsimp only
    split
    · rename_i c sid _ _ hpr hs
      split
      · rename_i hok
        refine ⟨h1, hm, .inr ⟨by rw [hok], ?_⟩, [], by simp [saveServerRecord], nofun⟩
        exact hpr
      · exact stay _ rfl rfl rfl rfl
    · exact stay _ rfl rfl rfl rfl
  | importServer addr sid cert force =>
    unfold step
    dsimp only
    split
    · exact stay _ rfl rfl rfl rfl
    · exact absurd hn (ho.1.1 hm)

/-- The certificate that `/acceptnewcert` would accept is one that was presented in this run of the client: it is set by `/online`
only, when the user is shown its fingerprint. -/
theorem C80_shown (z : Z) (ev : Ev) (c : Bytes) (h : (step z ev).prov = some c) (hn : z.prov ≠ some c) :
    ∃ conn ok, ev = .online conn ok ∧ conn.cert = c := by
  cases ev with
  | start f =>
    exfalso
    revert h
    unfold step start
    dsimp only
    split
    · nofun
    · split <;> nofun
  | dial addr token conn pid res =>
    exfalso
    revert h
    unfold step
    dsimp only
    split
    · split
      · exact hn
      · obtain ⟨ss, acc, h1, h2, h3, h4, h5, h6, h7, -⟩ := finalize_cases { z with addr := addr } conn _ token res
        rw [h7]
        exact hn
    · exact hn
  | no =>
    exfalso
    revert h
    unfold step
    dsimp only
    split <;> exact hn
  | yes res =>
    exfalso
    revert h
    unfold step
    dsimp only
    split
    · rename_i conn pid token _
      obtain ⟨ss, acc, h1, h2, h3, h4, h5, h6, h7, -⟩ := finalize_cases
        { z with accepted := z.accepted ++ [(pid, conn.cert)], certs := z.certs ++ [conn.cert] } conn pid token res
      rw [h7]
      exact hn
    · exact hn
  | online conn ok =>
    refine ⟨conn, ok, rfl, ?_⟩
    revert h
    unfold step
    dsimp only
    split
    · split
      · intro h
        injection h
      · split <;> exact fun h => absurd h hn
    · exact fun h => absurd h hn
  | offline => exact absurd h hn
  | acceptCert ok =>
    exfalso
    revert h
    unfold step
    dsimp only
    split
    · split
      · nofun
      · exact hn
    · exact hn
  | importServer addr sid cert force =>
    exfalso
    revert h
    unfold step
    dsimp only
    split <;> exact hn

/-- An instance of `C80_pin_partial` and `C80_cert_partial`: another certificate is shown, accepted and used. -/
example : let sid : SrvId := ⟨[7], [8]⟩
    (execIf (fun z e => NoSwap z e ∧ Asks z e) (init 5) [.dial [97] [] ⟨[1], [7]⟩ sid .done, .yes .done, .offline,
      .online ⟨[2], [7]⟩ true, .acceptCert true, .online ⟨[2], [7]⟩ true]).map
      (fun z => (z.screen, z.cert, z.certs, z.sent)) =
    some (.main, [2], [[1], [2]], [.create [1] 5 [], .session [1] [7], .session [2] [7]]) := by decide +kernel

/-! ## C81: an account that was made can be used -/

/-- Servers stick to the protocol. -/
def Fair (z : Z) : Ev → Prop
  | .dial _ _ conn _ res => ∀ s, z.srv = some s → res.fair z conn s = true
  | .yes res => ∀ conn pid token, z.screen = .ask conn pid token → res.fair z conn pid = true
  | .online conn ok => ok = true → ∀ s, z.srv = some s → conn.key = s.key ∧ (s.key, z.id) ∈ z.accounts
  | _ => True

theorem Res.fair_addr (z : Z) (a : Bytes) (conn : Conn) (pid : SrvId) (res : Res) :
    Res.fair { z with addr := a } conn pid res = Res.fair z conn pid res := by
  cases res <;> rfl

/-- Once saved, the identity stays saved, and the client has it after every start. -/
theorem C81_kept {fresh : Nat} {z z' : Z} (h0 : Reach fresh z) (h : Runs (fun _ _ => True) z z') (i : Nat)
    (hi : z.disk.bind (·.mine) = some i) : z'.disk.bind (·.mine) = some i ∧ z'.id = i ∧ z'.screen = .main := by
  have key : Own z' ∧ z'.disk.bind (·.mine) = some i := by
    refine runs_inv h (P := fun z => Own z ∧ z.disk.bind (·.mine) = some i) ⟨own_reach h0, hi⟩ ?_
    intro z ev ⟨ho, hz⟩ _
    refine ⟨own_step z ev ho, ?_⟩
    have hm : z.screen = .main := ho.1.2 (by rw [hz]; nofun)
    have hid : z.id = i := ho.2 i hz
    cases ev with
    | start f =>
      cases hd : z.disk with
      | none => rw [hd] at hz; cases hz
      | some r =>
        cases hr : r.mine with
        | none => rw [start_new hd hr]; exact hz
        | some j => rw [start_known hd hr]; exact hz
    | dial addr token conn pid res =>
      unfold step
      dsimp only
      rw [if_neg (by rw [hm]; simp)]
      exact hz
    | no =>
      unfold step
      dsimp only
      rw [hm]
      exact hz
    | yes res =>
      unfold step
      dsimp only
      rw [hm]
      exact hz
    | online conn ok =>
      unfold step
      dsimp only
      split
      · split
        · exact hz
        · split <;> exact hz
      · exact hz
    | offline => exact hz
    | acceptCert ok =>
      unfold step
      dsimp only
      split
      · split
        · change some z.id = _
          rw [hid]
        · exact hz
      · exact hz
    | importServer addr sid cert force =>
      unfold step
      dsimp only
      split
      · exact hz
      · exact hz
  exact ⟨key.2, key.1.2 i key.2, key.1.1.2 (by rw [key.2]; nofun)⟩

/-- What is saved is an account. -/
def Account (z : Z) : Prop := ∀ r i, z.disk = some r → r.mine = some i → (r.sid.key, i) ∈ z.accounts

theorem account_finalize {z : Z} {conn : Conn} {pid : SrvId} {token : Bytes} {res : Res} (h : Account z)
    (hf : res.fair z conn pid = true) : Account (finalize z conn pid token res) := by
  obtain ⟨ss, acc, h1, h2, h3, h4, h5, h6, h7, h8, h9, h10⟩ := finalize_cases z conn pid token res
  intro r i hr hi
  rw [h3]
  rcases h10 with ⟨-, -, g, -⟩ | ⟨rfl, -, -, -, g⟩
  · rw [g] at hr
    exact List.mem_append_left _ (h r i hr hi)
  · rw [g] at hr
    injection hr with hr
    subst hr
    simp only [Option.some.injEq] at hi
    subst hi
    simp only [Res.fair, Bool.and_eq_true, decide_eq_true_eq] at hf
    rw [h4, ← hf.2]
    simp [Res.made]

theorem account_step (z : Z) (ev : Ev) (h : (Own z ∧ Pinned z) ∧ Account z) (hn : NoSwap z ev ∧ Fair z ev) :
    (Own (step z ev) ∧ Pinned (step z ev)) ∧ Account (step z ev) := by
  obtain ⟨hp, h⟩ := h
  refine ⟨pinned_step z ev hp hn.1, ?_⟩
  have hf := hn.2
  cases ev with
  | start fresh =>
    cases hd : z.disk with
    | none => rw [start_none hd]; exact h
    | some r =>
      cases hm : r.mine with
      | none => rw [start_new hd hm]; exact h
      | some i => rw [start_known hd hm]; exact h
  | dial addr token conn pid res =>
    unfold step
    dsimp only
    split
    · cases hs : z.srv with
      | none => exact h
      | some sid =>
        refine account_finalize h ?_
        have := hf sid hs
        cases res <;> exact this
    · exact h
  | no =>
    unfold step
    dsimp only
    split <;> exact h
  | yes res =>
    unfold step
    dsimp only
    split
    · rename_i conn pid token hs
      refine account_finalize h ?_
      have := hf conn pid token hs
      cases res <;> exact this
    · exact h
  | online conn ok =>
    unfold step
    dsimp only
    split
    · split
      · exact h
      · split <;> exact h
    · exact h
  | offline => exact h
  | acceptCert ok =>
    unfold step
    dsimp only
    split
    · rename_i c sid hs _ _ hsrv
      split
      · obtain ⟨s, e1, e2⟩ := hp.2 hs
        have := h _ _ e2 rfl
        rw [hsrv] at e1
        injection e1 with e1
        subst e1
        intro r i hr hi
        simp only [saveServerRecord, Option.some.injEq] at hr
        subst hr
        simp only [Option.some.injEq] at hi
        subst hi
        exact this
      · exact h
    · exact h
  | importServer addr sid cert force =>
    unfold step
    dsimp only
    split
    · exact h
    · intro r i hr hi
      simp only [Option.some.injEq] at hr
      subst hr
      have : z.disk.bind (·.mine) = none := hn.1
      rw [this] at hi
      cases hi

/-- With servers that stick to the protocol, the identity on disk has an account at the server on disk: every start ends in
the main window with an identity the server knows. Missing for the full claim: accounts that were made but not saved, and
importing another server later (next theorems). -/
theorem C81_saved_partial {fresh : Nat} {z : Z} (h : Runs (fun z ev => NoSwap z ev ∧ Fair z ev) (init fresh) z)
    (hm : z.screen = .main) : ∃ s, z.srv = some s ∧ (s.key, z.id) ∈ z.accounts ∧ z.disk = some ⟨z.addr, s, z.cert, some z.id⟩ := by
  obtain ⟨⟨-, hp⟩, ha⟩ := runs_inv h (P := fun z => (Own z ∧ Pinned z) ∧ Account z) ⟨⟨own_init fresh, nofun⟩, nofun⟩ account_step
  obtain ⟨s, h1, h2⟩ := hp hm
  exact ⟨s, h1, ha _ _ h2 rfl, h2⟩

/-- Client `i` is gone. -/
def Gone (i : Nat) (z : Z) : Prop := z.id ≠ i ∧ z.disk.bind (·.mine) ≠ some i

theorem gone_finalize {i : Nat} {z : Z} {conn : Conn} {pid : SrvId} {token : Bytes} {res : Res} (h : Gone i z) :
    Gone i (finalize z conn pid token res) := by
  obtain ⟨ss, acc, h1, h2, h3, h4, h5, h6, h7, h8, h9, h10⟩ := finalize_cases z conn pid token res
  refine ⟨by rw [h5]; exact h.1, ?_⟩
  rcases h10 with ⟨-, -, g, -⟩ | ⟨-, -, -, -, g⟩
  · rw [g]
    exact h.2
  · rw [g]
    simpa using h.1

theorem gone_step {i : Nat} (z : Z) (ev : Ev) (h : Gone i z) (hs : ev ≠ .start i) : Gone i (step z ev) := by
  cases ev with
  | start fresh =>
    have hne : fresh ≠ i := fun he => hs (by rw [he])
    cases hd : z.disk with
    | none => rw [start_none hd]; exact ⟨hne, h.2⟩
    | some r =>
      cases hm : r.mine with
      | none => rw [start_new hd hm]; exact ⟨hne, h.2⟩
      | some j =>
        rw [start_known hd hm]
        refine ⟨?_, h.2⟩
        intro he
        apply h.2
        rw [hd]
        change r.mine = _
        rw [hm]
        exact congrArg some he
  | dial addr token conn pid res =>
    unfold step
    dsimp only
    split
    · cases hs : z.srv with
      | none => exact h
      | some sid => exact gone_finalize h
    · exact h
  | no =>
    unfold step
    dsimp only
    split <;> exact h
  | yes res =>
    unfold step
    dsimp only
    split
    · exact gone_finalize h
    · exact h
  | online conn ok =>
    unfold step
    dsimp only
    split
    · split
      · exact h
      · split <;> exact h
    · exact h
  | offline => exact h
  | acceptCert ok =>
    unfold step
    dsimp only
    split
    · split
      · refine ⟨h.1, ?_⟩
        change some z.id ≠ _
        simpa using h.1
      · exact h
    · exact h
  | importServer addr sid cert force =>
    unfold step
    dsimp only
    split
    · exact h
    · exact h

/-- **Violated.** The server makes the account, which may use up a token, and the client is killed, or the connection lost,
before the record is saved. The identity, with its private key, is gone: whatever happens afterwards, the client never has it
again. -/
theorem C81_lost_violated (i j : Nat) (hij : j ≠ i) (k : Bytes) (sid : SrvId) :
    ∃ z, Runs Fair (init i) z ∧ (k, i) ∈ z.accounts ∧
      ∀ z', Runs (fun _ ev => ev ≠ .start i) z z' → z'.id ≠ i ∧ z'.disk.bind (·.mine) ≠ some i := by
  refine ⟨step (step (step (init i) (.dial [97] [] ⟨[1], k⟩ sid .done)) (.yes .noSession)) (.start j),
    .step (.step (.step .refl ?_) ?_) trivial, ?_, ?_⟩
  · simp [Fair, init]
  · simp [Fair, init, step, Res.fair]
  · simp [step, init, finalize, Res.made, start]
  · intro z' h
    refine runs_inv h (P := Gone i) ⟨?_, ?_⟩ (fun z ev hz hok => gone_step z ev hz hok)
    · simp [step, init, finalize, Res.made, start, hij]
    · simp [step, init, finalize, Res.made, start]

/-- The user stays with the server of key `k` and does not start the client again. -/
def Stays (k : Bytes) (_ : Z) : Ev → Prop
  | .dial _ _ conn _ _ => conn.key = k
  | .start _ => False
  | _ => True

/-- There is an account, and the client does not know. -/
def Stuck (k : Bytes) (z : Z) : Prop :=
  (k, z.id) ∈ z.accounts ∧ z.disk.bind (·.mine) = none ∧ z.screen ≠ .main ∧
    ∀ conn pid token, z.screen = .ask conn pid token → conn.key = k

theorem stuck_finalize {k : Bytes} {z : Z} {conn : Conn} {pid : SrvId} {token : Bytes} {res : Res} (h : Stuck k z)
    (hk : conn.key = k) (hf : res.fair z conn pid = true) : Stuck k (finalize z conn pid token res) := by
  obtain ⟨ss, acc, h1, h2, h3, h4, h5, h6, h7, h8, h9, h10⟩ := finalize_cases z conn pid token res
  obtain ⟨i1, i2, i3, i4⟩ := h
  refine ⟨by rw [h3, h5]; exact List.mem_append_left _ i1, ?_⟩
  rcases h10 with ⟨-, g1, g2, -⟩ | ⟨rfl, -⟩
  · rw [g1, g2]
    exact ⟨i2, i3, i4⟩
  · simp only [Res.fair, Bool.and_eq_true, decide_eq_true_eq] at hf
    rw [hk] at hf
    exact absurd i1 hf.1

theorem stuck_step {k : Bytes} (z : Z) (ev : Ev) (h : Stuck k z) (hs : Stays k z ev ∧ Fair z ev) : Stuck k (step z ev) := by
  obtain ⟨hs, hf⟩ := hs
  obtain ⟨i1, i2, i3, i4⟩ := h
  cases ev with
  | start fresh => exact hs.elim
  | dial addr token conn pid res =>
    unfold step
    dsimp only
    split
    · cases hsrv : z.srv with
      | none =>
        refine ⟨i1, i2, nofun, ?_⟩
        intro conn' pid' token' he
        injection he with e1
        rw [← e1]
        exact hs
      | some sid =>
        refine stuck_finalize ⟨i1, i2, i3, i4⟩ hs ?_
        have := hf sid hsrv
        cases res <;> exact this
    · exact ⟨i1, i2, i3, i4⟩
  | no =>
    unfold step
    dsimp only
    split
    · exact ⟨i1, i2, nofun, nofun⟩
    · exact ⟨i1, i2, i3, i4⟩
  | yes res =>
    unfold step
    dsimp only
    split
    · rename_i conn pid token hsc
      refine stuck_finalize ⟨i1, i2, i3, i4⟩ (i4 conn pid token hsc) ?_
      have := hf conn pid token hsc
      cases res <;> exact this
    · exact ⟨i1, i2, i3, i4⟩
  | online conn ok =>
    unfold step
    dsimp only
    rw [if_neg (by intro hc; exact i3 hc.1)]
    exact ⟨i1, i2, i3, i4⟩
  | offline => exact ⟨i1, i2, i3, i4⟩
  | acceptCert ok =>
    unfold step
    dsimp only
    split
    · rename_i hm _ _ _
      exact absurd hm i3
    · exact ⟨i1, i2, i3, i4⟩
  | importServer addr sid cert force =>
    unfold step
    dsimp only
    split
    · exact ⟨i1, i2, i3, i4⟩
    · exact ⟨i1, i2, i3, i4⟩

/-- **Violated.** The account is made, the session fails, and the user tries again without leaving the client. However often
they try, with however many tokens: the server refuses, because the identity has an account, and the client never saves it. -/
theorem C81_stuck_violated (i : Nat) (k : Bytes) (sid : SrvId) :
    ∃ z, Runs Fair (init i) z ∧ (k, i) ∈ z.accounts ∧ z.id = i ∧
      ∀ z', Runs (fun z ev => Stays k z ev ∧ Fair z ev) z z' → z'.screen ≠ .main ∧ z'.disk.bind (·.mine) = none := by
  refine ⟨step (step (init i) (.dial [97] [] ⟨[1], k⟩ sid .done)) (.yes .noSession),
    .step (.step .refl ?_) ?_, ?_, ?_, ?_⟩
  · simp [Fair, init]
  · simp [Fair, init, step, Res.fair]
  · simp [step, init, finalize, Res.made]
  · simp [step, init, finalize, Res.made]
  · intro z' h
    have := runs_inv h (P := Stuck k) (by
      simp only [Stuck, step, init, finalize, Res.made]
      refine ⟨by simp, by simp, by simp, ?_⟩
      rintro conn pid token he
      simp at he
      rw [← he.1]) (fun z ev hz hok => stuck_step z ev hz hok)
    exact ⟨this.2.2.1, this.2.1⟩

/-- The requests for accounts. -/
def creates (z : Z) : List Sent := z.sent.filter fun | .create .. => true | _ => false

theorem quiet {fresh : Nat} {z z' : Z} (h0 : Reach fresh z) (h : Runs (fun _ _ => True) z z') (i : Nat)
    (hi : z.disk.bind (·.mine) = some i) : creates z' = creates z ∧ z'.accounts = z.accounts := by
  induction h with
  | refl => exact ⟨rfl, rfl⟩
  | @step z1 ev h1 _ ih =>
    rw [← ih.1, ← ih.2]
    have hm := (C81_kept h0 h1 i hi).2.2
    cases ev with
    | start f =>
      unfold step start
      dsimp only
      split
      · exact ⟨rfl, rfl⟩
      · split <;> exact ⟨rfl, rfl⟩
    | dial addr token conn pid res =>
      unfold step
      dsimp only
      rw [if_neg (by rw [hm]; simp)]
      exact ⟨rfl, rfl⟩
    | no =>
      unfold step
      dsimp only
      rw [hm]
      exact ⟨rfl, rfl⟩
    | yes res =>
      unfold step
      dsimp only
      rw [hm]
      exact ⟨rfl, rfl⟩
    | online conn ok =>
      unfold step
      dsimp only
      split
      · split
        · exact ⟨rfl, rfl⟩
        · split
          · exact ⟨rfl, rfl⟩
          · simp [creates]
      · exact ⟨rfl, rfl⟩
    | offline => exact ⟨rfl, rfl⟩
    | acceptCert ok =>
      unfold step
      dsimp only
      split
      · split <;> exact ⟨rfl, rfl⟩
      · exact ⟨rfl, rfl⟩
    | importServer addr sid cert force =>
      unfold step
      dsimp only
      split <;> exact ⟨rfl, rfl⟩

/-- **Violated.** A user with an account imports another server, with `-f`. The old identity stays in the record, so that
the client takes it for one of the new server. Whatever happens afterwards, it never asks for an account there. -/
theorem C81_import_violated (i : Nat) (sid sid' : SrvId) (hk : sid.key ≠ sid'.key) :
    ∃ z, Runs Fair (init i) z ∧ z.srv = some sid' ∧ z.screen = .main ∧ (sid'.key, i) ∉ z.accounts ∧
      ∀ z', Runs (fun _ _ => True) z z' → creates z' = creates z ∧ z'.accounts = z.accounts ∧ z'.screen = .main ∧ z'.id = i := by
  have hr : Runs Fair (init i) (step (step (step (step (init i) (.dial [97] [] ⟨[1], sid.key⟩ sid .done)) (.yes .done))
      (.importServer [98] sid' [2] true)) (.start 0)) := by
    refine .step (.step (.step (.step .refl ?_) ?_) trivial) trivial
    · simp [Fair, init]
    · intro conn pid token he
      simp [init, step] at he
      obtain ⟨rfl, rfl, -⟩ := he
      simp [init, step, Res.fair]
  have hr' : ∀ {a b : Z}, Runs Fair a b → Runs (fun _ _ => True) a b := by
    intro a b h
    induction h with
    | refl => exact .refl
    | step _ _ ih => exact .step ih trivial
  refine ⟨_, hr, ?_, ?_, ?_, ?_⟩
  · simp [step, init, finalize, Res.made, start, saveServerRecord]
  · simp [step, init, finalize, Res.made, start, saveServerRecord]
  · simp [step, init, finalize, Res.made, start, saveServerRecord, Ne.symm hk]
  · intro z' h
    have h0 := hr' hr
    have hmine : (step (step (step (step (init i) (.dial [97] [] ⟨[1], sid.key⟩ sid .done)) (.yes .done))
        (.importServer [98] sid' [2] true)) (.start 0)).disk.bind (·.mine) = some i := by
      simp [step, init, finalize, Res.made, start, saveServerRecord]
    have hk := C81_kept h0 h i hmine
    refine ⟨?_, ?_, hk.2.2, hk.2.1⟩
    · exact (quiet h0 h i hmine).1
    · exact (quiet h0 h i hmine).2

/-- An instance of `C81_saved_partial` and `C81_kept`: an account after one that was refused, and a restart. -/
example : let sid : SrvId := ⟨[7], [8]⟩
    ((step (step (step (step (step (init 5) (.dial [97] [] ⟨[1], [7]⟩ sid .done)) (.yes .refused)) (.yes .done)) (.start 9))
      (.online ⟨[1], [7]⟩ true))).disk = some ⟨[97], sid, [1], some 5⟩ ∧
    Res.fair (init 5) ⟨[1], [7]⟩ sid .done = true := by decide +kernel

/-- Importing a server without being forced to never replaces a record, and an import never takes away the account. -/
theorem C81_import (z : Z) (addr : Bytes) (sid : SrvId) (cert : Bytes) :
    (z.disk.isSome → (step z (.importServer addr sid cert false)).disk = z.disk) ∧
    (z.disk = none → (step z (.importServer addr sid cert false)).disk = some ⟨addr, sid, cert, none⟩) ∧
    ∀ force, (step z (.importServer addr sid cert force)).disk.bind (·.mine) = z.disk.bind (·.mine) := by
  refine ⟨fun h => by simp [step, h], fun h => by simp [step, h], ?_⟩
  intro force
  simp only [step]
  split
  · rfl
  · rfl

example : ∃ z : Z, z.disk.isSome ∧ z.disk.bind (·.mine) = some 3 :=
  ⟨{ init 3 with disk := some ⟨[97], ⟨[1], [2]⟩, [3], some 3⟩ }, rfl, rfl⟩

end Verif.Enrol
