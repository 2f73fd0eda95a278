import Verif.Proofs.RatchetLeak
import Verif.Props.RatchetState

/-!
# What a stolen ratchet gives away (C68, C69, C70)

Confidentiality against the network, forward secrecy and recovery from a theft, for
conversations of any length and in any order of events (`Reach`).
-/

namespace Verif.Ratchet

open Verif

/-! ## Following the DH values through a conversation -/

/-- The latest chain of a conversation. -/
def topChain (c : Conv) : Nat := max (c.chain true) (c.chain false)

theorem inv_step {sk c p r k} (h : Inv sk c p r k) (hlen : (step c ev).wire.length + 1 < u32)
    (hl : Legal sk c ev) : ∃ p' r' k', Inv sk (step c ev) p' r' k' ∧
      (∀ i, i ≤ topChain c → p' i = p i) ∧ topChain c ≤ topChain (step c ev) := by
  have h1 := step_wire_len c ev
  cases ev with
  | send w priv hn mn msg =>
    obtain ⟨⟨ct, R, he⟩, p', hp, h'⟩ := inv_send h (by omega) w priv hn mn msg
    refine ⟨p', r, k, h', fun i hi => hp i (by unfold topChain at hi; omega), ?_⟩
    have hv := (h.pi w).pv
    have hpe := h.peer w
    simp only [step, he, topChain]
    by_cases hfl : (c.st w).ratchet = true
    · have := hv.flag.mp hfl
      simp only [hfl, if_true]
      cases w <;> simp [upd] at hpe this ⊢ <;> omega
    · simp only [hfl]
      cases w <;> simp [upd]
  | recv w now ct =>
    obtain ⟨r', k', h'⟩ := inv_recv h (by omega) w now hl
    refine ⟨p, r', k', h', fun _ _ => rfl, ?_⟩
    simp only [step]
    rcases decrypt (c.st w) now ct with ⟨x, R⟩
    cases x <;> exact Nat.le_refl _
  | reload w now lifetime =>
    refine ⟨p, r, k, inv_reload h w now lifetime, fun _ _ => rfl, ?_⟩
    simp only [step]
    split <;> exact Nat.le_refl _

theorem inv_reach_pb {ka kb pa pb ra rb c} (h : Reach ka kb pa pb ra rb c)
    (hlen : c.wire.length + 1 < u32) :
    ∃ p r k, Inv (sharedKey ka kb ra rb) c p r k ∧ p 1 = pb ∧ 1 ≤ topChain c := by
  induction h with
  | start => exact ⟨_, _, _, inv_start ka kb pa pb ra rb, rfl, by simp [topChain, start]⟩
  | @step c ev _ hl ih =>
    have h1 := step_wire_len c ev
    obtain ⟨p, r, k, hI, hp, ht⟩ := ih (by omega)
    obtain ⟨p', r', k', hI', hp', ht'⟩ := inv_step hI hlen hl
    exact ⟨p', r', k', hI', by rw [hp' 1 ht, hp], by omega⟩

theorem later_wire_len {sk c c'} (h : Later sk c c') : c.wire.length ≤ c'.wire.length := by
  induction h with
  | refl => exact Nat.le_refl _
  | step _ _ ih => exact Nat.le_trans ih (step_wire_len _ _)

theorem inv_later {sk c c' p r k} (h : Inv sk c p r k) (hL : Later sk c c')
    (hlen : c'.wire.length + 1 < u32) : ∃ p' r' k', Inv sk c' p' r' k' ∧
      (∀ i, i ≤ topChain c → p' i = p i) ∧ topChain c ≤ topChain c' := by
  induction hL with
  | refl => exact ⟨p, r, k, h, fun _ _ => rfl, Nat.le_refl _⟩
  | @step c' ev _ hl ih =>
    have h1 := step_wire_len c' ev
    obtain ⟨p', r', k', hI, hp, ht⟩ := ih (by omega)
    obtain ⟨p'', r'', k'', hI', hp', ht'⟩ := inv_step hI hlen hl
    exact ⟨p'', r'', k'', hI', fun i hi => by rw [hp' i (by omega), hp i hi], by omega⟩

/-- The recipient chain is no later than the latest chain. -/
theorem inv_le_top {sk c p r k} (h : Inv sk c p r k) (w : Bool) :
    c.chain w ≤ topChain c ∧ r w ≤ topChain c := by
  have hpe := h.peer w
  unfold topChain
  cases w <;> simp at hpe ⊢ <;> omega

theorem chain_pos {sk c p r k} (h : Inv sk c p r k) : r w = 0 → k w = 0 := by
  intro h0
  have := (h.pi w).pv.kle
  rw [h0, sentOn_zero h.wi] at this
  omega

/-! ## C70: the network learns and forges nothing -/

theorem outside_shared {A : Know} {ka kb ra rb : Nat} (hA : Outside A ka kb ra rb) :
    ¬ Deduce A (sharedKey ka kb ra rb) := by
  intro h
  rcases Deduce.sha_inv h with h | ⟨h, _⟩
  · exact hA.keys _ h
  · rcases h.kem_inv with h | h | h
    · exact hA.keys _ h
    · exact hA.randA h
    · exact hA.decB h

theorem outside_derived {A : Know} {ka kb ra rb : Nat} (hA : Outside A ka kb ra rb) {k : Key}
    (hk : Derived (sharedKey ka kb ra rb) k) : ¬ Deduce A k := by
  induction hk with
  | base => exact outside_shared hA
  | hmac _ ih =>
    intro h
    rcases h.hmac_inv with h | h
    · exact hA.keys _ h
    · exact ih h
  | mix _ ih =>
    intro h
    rcases h.mix_inv with h | h
    · exact hA.keys _ h
    · exact ih h.1

/-- Somebody who saw the whole conversation on the wire, knows any DH private values whatever
(even those the two parties use), and has KEM keys and randomness of its own, can compute the key of
no message and no key that seals a header. -/
theorem C70_confidential {ka kb pa pb ra rb c} (h : Reach ka kb pa pb ra rb c)
    (hlen : c.wire.length + 1 < u32) {A : Know} (hA : Outside A ka kb ra rb) (e : Sent)
    (he : e ∈ c.wire) : ∃ hn hkey hnonce hdr mkey mnonce,
      e.ct = .mk hn (.sealed hkey hnonce hdr) (.sealed mkey mnonce e.msg) ∧
      ¬ Deduce A hkey ∧ ¬ Deduce A mkey := by
  obtain ⟨p, r, k, hI⟩ := inv_reach h hlen
  obtain ⟨h1, _, _, hn, mn, hct⟩ := hI.wi.shape e he
  exact ⟨hn, _, _, _, _, _, hct, outside_derived hA (derived_hk h1),
    outside_derived hA (derived_mk h1)⟩

/-- Whatever such an outsider puts together is what the conversations of this model allow the
network to deliver, so that C09 to C16 hold against it. -/
theorem sendable_assemble {A : Know} {ka kb ra rb : Nat} (hA : Outside A ka kb ra rb)
    {wire : List Sent} {ct : Ct} (hs : Sendable A wire ct) :
    CanAssemble (sharedKey ka kb ra rb) wire ct := by
  cases ct with
  | short => trivial
  | mk hn h m =>
    obtain ⟨h1, h2⟩ := hs
    constructor
    · cases h with
      | junk i => trivial
      | sealed k n x => exact h1.imp id fun hd hk => outside_derived hA hk hd
    · cases m with
      | junk i => trivial
      | sealed k n x => exact h2.imp id fun hd hk => outside_derived hA hk hd

/-- A ciphertext such an outsider put together is accepted only if it is, bit by bit, one the peer
sent and that was not accepted before, and it decrypts to what the peer wrote. -/
theorem C70_no_forgery {ka kb pa pb ra rb c} (h : Reach ka kb pa pb ra rb c)
    (hlen : c.wire.length + 1 < u32) {A : Know} (hA : Outside A ka kb ra rb) (w : Bool) (ct : Ct)
    (hs : Sendable A c.wire ct) (now : Int) (m : Bytes)
    (hd : (decrypt (c.st w) now ct).1 = .ok m) :
    ∃ e ∈ c.wire, e.who = (!w) ∧ e.ct = ct ∧ e.msg = m ∧ ct ∉ c.acc w :=
  C10_only_what_was_sent h hlen w ct (sendable_assemble hA hs) now m hd

/-! ## C68: forward secrecy -/

/-- A message `w` is done with: one it sent, or one it decrypted. -/
def DoneWith (c : Conv) (w : Bool) (e : Sent) : Prop :=
  e ∈ c.wire ∧ (e.who = w ∨ e.ct ∈ c.acc w)

/-- The state of `w` does not hold the key of a message it is done with, nor anything of the
chain the key comes from that still leads to it. -/
theorem done_gone {H sk c p r k} (h : Inv sk c p r k) {w : Bool} {e : Sent} (hd : DoneWith c w e) :
    e.chain ≤ max (c.chain w) (r w) ∧
    ¬ Held H sk p c.wire (c.chain w) (r w) (k w) (c.acc w) (mk sk p e.chain e.num) ∧
    ∀ m, m ≤ e.num →
      ¬ Held H sk p c.wire (c.chain w) (r w) (k w) (c.acc w) (ck sk p e.chain m) := by
  obtain ⟨he, hd⟩ := hd
  obtain ⟨hs1, hs2, hnum, _⟩ := h.wi.shape e he
  have hpar := (h.pi w).par
  have hadj := (h.pi w).pv.adj
  have hk0 : r w = 0 → k w = 0 := chain_pos h
  have h0 := sentOn_zero h.wi
  rcases hd with hw | hacc
  · have htop := h.top e he
    rw [hw] at htop
    have hp : e.chain % 2 ≠ r w % 2 := by
      rw [hw] at hs2
      cases w <;> simp at hs2 hpar <;> omega
    refine ⟨by omega, ?_, ?_⟩
    · intro hh
      exact hp (held_mk hs1 hh).2.1
    · intro m hm hh
      rcases held_ck hs1 h0 hk0 hh with ⟨a, b⟩ | ⟨a, b⟩
      · rw [a] at hnum; omega
      · exact hp (by rw [a])
  · obtain ⟨hw, hle, hlim⟩ := (h.pi w).accOk e he hacc
    have hp : e.chain % 2 = r w % 2 := by
      rw [hw] at hs2
      cases w <;> simp at hs2 hpar <;> omega
    refine ⟨by omega, ?_, ?_⟩
    · intro hh
      exact (held_mk hs1 hh).2.2 e he rfl rfl hacc
    · intro m hm hh
      rcases held_ck hs1 h0 hk0 hh with ⟨a, b⟩ | ⟨a, b⟩
      · omega
      · unfold lim at hlim
        rw [if_pos a] at hlim
        omega

/-- The keys somebody who stole the ratchet of `w` starts from. -/
theorem stolen_held {ka kb ra rb p r k} {c : Conv} (hI : Inv (sharedKey ka kb ra rb) c p r k)
    (hF : FixedConv ka kb ra rb c) {A : Know} (hA : Outside A ka kb ra rb) (w : Bool) {x : Key}
    (hx : (A.steal (c.st w)).keys x) :
    Held (fun _ => True) (sharedKey ka kb ra rb) p c.wire (c.chain w) (r w) (k w) (c.acc w) x := by
  rcases hx with hx | hx
  · exact absurd hx (hA.keys x)
  · refine held_state (hI.pi w) (hF w).rhk (hF w).nrhk (hF w).heads ?_ ?_ hx
    · rw [(hF w).mine]
      rintro _ ⟨⟩
      cases w <;> exact ⟨trivial, _, _, rfl⟩
    · rw [(hF w).theirs]
      rintro _ ⟨⟩
      cases w <;> exact ⟨trivial, _, _, rfl⟩

/-- The same if the halves had been erased. -/
theorem erased_held {ka kb ra rb p r k} {c : Conv} (hI : Inv (sharedKey ka kb ra rb) c p r k)
    (hF : FixedConv ka kb ra rb c) {A : Know} (hA : Outside A ka kb ra rb) (w : Bool) {x : Key}
    (hx : (A.steal (eraseHalves (c.st w))).keys x) :
    Held (fun _ => False) (sharedKey ka kb ra rb) p c.wire (c.chain w) (r w) (k w) (c.acc w) x := by
  rcases hx with hx | hx
  · exact absurd hx (hA.keys x)
  · exact held_state (pi_erase (hI.pi w)) (hF w).rhk (hF w).nrhk (hF w).heads
      (by simp [eraseHalves]) (by simp [eraseHalves]) hx

/-- Forward secrecy, had the two halves of the shared key been erased when the key exchange was
over: from a ratchet stolen at any time, and all DH private values of the whole conversation, the
key of no message that its owner sent or decrypted before can be computed. Missing for the full
claim: the code keeps the halves, see `C68_violated`. -/
theorem C68_erased_partial {ka kb pa pb ra rb c} (h : Reach ka kb pa pb ra rb c)
    (hlen : c.wire.length + 1 < u32) {A : Know} (hA : Outside A ka kb ra rb) (w : Bool) (e : Sent)
    (hd : DoneWith c w e) :
    ∃ x, bodyKey e.ct = some x ∧ ¬ Deduce (A.steal (eraseHalves (c.st w))) x := by
  obtain ⟨p, r, k, hI⟩ := inv_reach h hlen
  have hF := fixed_reach h
  obtain ⟨hs1, _, _, hn, mn, hct⟩ := hI.wi.shape e hd.1
  refine ⟨mk (sharedKey ka kb ra rb) p e.chain e.num, by rw [hct]; rfl, ?_⟩
  intro hded
  have hH := fun {x} (hx : (A.steal (eraseHalves (c.st w))).keys x) => erased_held hI hF hA w hx
  obtain ⟨htop, g1, g2⟩ := done_gone (H := fun _ => False) hI hd
  have hm := deduce_mk hs1 (fun hx => g1 (hH hx)) (fun m hm hx => g2 m hm (hH hx)) hded
  have hsk : Deduce (A.steal (eraseHalves (c.st w))) (sharedKey ka kb ra rb) := by
    have := deduce_down (A := A.steal (eraseHalves (c.st w))) (sk := sharedKey ka kb ra rb) (p := p)
      (i := 1) (Nat.le_refl _) (e.chain - 1) (fun j a b hx => held_mat (by omega) (hH hx))
      (fun j a b hx => by have := held_root a (hH hx); omega)
      (by rw [show 1 + (e.chain - 1) = e.chain by omega]; exact hm)
    exact this
  rcases Deduce.sha_inv hsk with hx | ⟨h1, h2⟩
  · exact held_sha (hH hx)
  · have hks : (eraseHalves (c.st w)).kemSk = if w then ka else kb := (hF w).sk
    have hne := hA.differ
    cases w with
    | true =>
      rcases h1.kem_inv with hx | hx | hx
      · exact held_kem (hH hx)
      · exact hA.randA hx
      · rcases hx with hx | hx
        · exact hA.decB hx
        · rw [hks] at hx; exact hne hx.symm
    | false =>
      rcases h2.kem_inv with hx | hx | hx
      · exact held_kem (hH hx)
      · exact hA.randB hx
      · rcases hx with hx | hx
        · exact hA.decA hx
        · rw [hks] at hx; exact hne hx

/-- Forward secrecy of the code as it is: from a stolen ratchet the key of no message that its
owner sent or decrypted on the second or a later chain can be computed, provided the thief has
neither of the two DH private values that begin the second chain. (The owner's ratchet holds one of
them until it hears of a later chain.) Missing for the full claim: the messages of the first chain,
see `C68_violated`. -/
theorem C68_partial {ka kb pa pb ra rb c} (h : Reach ka kb pa pb ra rb c)
    (hlen : c.wire.length + 1 < u32) {A : Know} (hA : Outside A ka kb ra rb) (w : Bool) (e : Sent)
    (hd : DoneWith c w e) (h2 : 2 ≤ e.chain) (e2 : Sent) (he2 : e2 ∈ c.wire) (hc2 : e2.chain = 2)
    (hpb : ¬ (A.steal (c.st w)).dh pb)
    (hp2 : ∀ x, dhOf e2.ct = some x → ¬ (A.steal (c.st w)).dh x) :
    ∃ x, bodyKey e.ct = some x ∧ ¬ Deduce (A.steal (c.st w)) x := by
  obtain ⟨p, r, k, hI, hp1, _⟩ := inv_reach_pb h hlen
  have hF := fixed_reach h
  obtain ⟨hs1, _, _, hn, mn, hct⟩ := hI.wi.shape e hd.1
  refine ⟨mk (sharedKey ka kb ra rb) p e.chain e.num, by rw [hct]; rfl, ?_⟩
  intro hded
  have hH := fun {x} (hx : (A.steal (c.st w)).keys x) => stolen_held hI hF hA w hx
  obtain ⟨htop, g1, g2⟩ := done_gone (H := fun _ => True) hI hd
  have hm := deduce_mk hs1 (fun hx => g1 (hH hx)) (fun m hm hx => g2 m hm (hH hx)) hded
  have hm2 := deduce_down (A := A.steal (c.st w)) (sk := sharedKey ka kb ra rb) (p := p)
    (i := 2) (by omega) (e.chain - 2) (fun j a b hx => held_mat (by omega) (hH hx))
    (fun j a b hx => by have := held_root (by omega) (hH hx); omega)
    (by rw [show 2 + (e.chain - 2) = e.chain by omega]; exact hm)
  obtain ⟨_, _, _, hn', mn', hct2⟩ := hI.wi.shape e2 he2
  have hx2 := hp2 (p 2) (by rw [hct2, hc2]; rfl)
  obtain ⟨_, hdh⟩ := deduce_mat (j := 1) (Nat.le_refl _) (fun hx => held_mat (by omega) (hH hx))
    (fun hx => by have := held_root (by omega) (hH hx); omega) hm2
  rw [hp1] at hdh
  exact hdh.elim hpb hx2

/-- The code keeps both halves of the shared key for ever, in memory and on disk: `Marshal` writes
them. From the ratchet of either party, stolen at any later time, the key of every message of the
first chain can be computed. -/
theorem C68_first_chain_violated {ka kb pa pb ra rb c} (h : Reach ka kb pa pb ra rb c)
    (hlen : c.wire.length + 1 < u32) (A : Know) (w : Bool) (e : Sent) (he : e ∈ c.wire)
    (h1 : e.chain = 1) : ∃ x, bodyKey e.ct = some x ∧ Deduce (A.steal (c.st w)) x := by
  obtain ⟨p, r, k, hI⟩ := inv_reach h hlen
  have hF := fixed_reach h w
  obtain ⟨_, _, _, hn, mn, hct⟩ := hI.wi.shape e he
  refine ⟨mk (sharedKey ka kb ra rb) p e.chain e.num, by rw [hct]; rfl, ?_⟩
  have ha : ∀ x, x = mineOf ka kb ra rb w ∨ x = mineOf ka kb ra rb (!w) →
      Deduce (A.steal (c.st w)) x := by
    intro x hx
    refine .known (.inr ?_)
    unfold stateKeys
    rw [hF.mine, hF.theirs]
    rcases hx with rfl | rfl <;> simp
  have hs : Deduce (A.steal (c.st w)) (sharedKey ka kb ra rb) := by
    refine .sha (ha _ ?_) (ha _ ?_) <;> cases w <;> simp [mineOf]
  rw [h1]
  refine .hmac ?_
  generalize e.num = n
  induction n with
  | zero => exact .hmac hs
  | succ n ih => exact .hmac ih

/-- Bob writes, alice answers, and so on for six messages, each decrypted as it arrives; then both
save and reload. -/
def talk : Conv := [Do.send false [1], .deliver true 0, .send true [2], .deliver false 1,
  .send false [3], .deliver true 2, .send true [4], .deliver false 3, .send false [5],
  .deliver true 4, .send true [6], .deliver false 5, .reload true 100 1,
  .reload false 100 1].foldl doStep ex0

/-- Nothing. -/
def nobody : Know := ⟨fun _ => False, fun _ => False, fun _ => False, fun _ => False⟩

theorem nobody_outside : Outside nobody 1 2 5 6 :=
  ⟨fun _ h => h, fun h => h, fun h => h, fun h => h, fun h => h, by decide⟩

theorem talk_reach : Reach 1 2 3 4 5 6 talk := reach_do .start _

/-- After six messages, all decrypted, and a restart of both clients, a thief who knew nothing
before reads bob's first message from alice's stored ratchet. -/
theorem C68_violated : ∃ (c : Conv) (w : Bool) (e : Sent) (A : Know) (x : Key),
    Reach 1 2 3 4 5 6 c ∧ c.wire.length + 1 < u32 ∧ Outside A 1 2 5 6 ∧ DoneWith c w e ∧
    e.chain + 4 < topChain c ∧ bodyKey e.ct = some x ∧ Deduce (A.steal (c.st w)) x := by
  have hw : talk.wire.length + 1 < u32 := by decide
  have he : ∃ e ∈ talk.wire, e.chain = 1 ∧ e.ct ∈ talk.acc true :=
    ⟨_, List.mem_cons_self, by decide, by decide⟩
  obtain ⟨e, he, h1, h2⟩ := he
  obtain ⟨x, hx, hd⟩ := C68_first_chain_violated talk_reach hw nobody true e he h1
  exact ⟨talk, true, e, nobody, x, talk_reach, hw, nobody_outside, ⟨he, .inr h2⟩, by rw [h1]; decide,
    hx, hd⟩

theorem nobody_dh {R : Ratchet} {x : Nat} (h1 : x ≠ R.sendPriv) (h2 : R.kxPrivate ≠ some x) :
    ¬ (nobody.steal R).dh x := by
  rintro (h | h | h)
  · exact h
  · exact h1 h
  · exact h2 h

/-- The hypotheses of `C68_partial` are met there by the last message, whoever is robbed. -/
example : ∃ e ∈ talk.wire, ∃ e2 ∈ talk.wire, DoneWith talk true e ∧ DoneWith talk false e ∧
    e.chain = 6 ∧ e2.chain = 2 ∧ dhOf e2.ct = some 17 ∧
    ¬ (nobody.steal (talk.st true)).dh 4 ∧ ¬ (nobody.steal (talk.st true)).dh 17 ∧
    ¬ (nobody.steal (talk.st false)).dh 4 ∧ ¬ (nobody.steal (talk.st false)).dh 17 := by
  have h6 : ∃ e ∈ talk.wire, e.chain = 6 ∧ e.who = true ∧ e.ct ∈ talk.acc false := by decide
  have h2 : ∃ e ∈ talk.wire, e.chain = 2 ∧ dhOf e.ct = some 17 := by decide
  obtain ⟨e, he, a1, a2, a3⟩ := h6
  obtain ⟨e2, he2, b1, b2⟩ := h2
  exact ⟨e, he, e2, he2, ⟨he, .inl a2⟩, ⟨he, .inr a3⟩, a1, b1, b2, nobody_dh (by decide) (by decide),
    nobody_dh (by decide) (by decide), nobody_dh (by decide) (by decide),
    nobody_dh (by decide) (by decide)⟩

/-- `C68_erased_partial` speaks of all six messages, for both parties; and the ratchets do hold
something: the key of the next message, for instance, can be computed from the stolen ratchet. -/
example : (∀ e ∈ talk.wire, (e.who = true ∨ e.ct ∈ talk.acc true) ∧
      (e.who = false ∨ e.ct ∈ talk.acc false)) ∧ talk.wire.length = 6 ∧
    ∃ e ∈ (doStep talk (.send true [7])).wire, ∃ x, e ∉ talk.wire ∧ bodyKey e.ct = some x ∧
      Deduce (nobody.steal (eraseHalves (talk.st true))) x := by
  refine ⟨by decide, by decide, ?_⟩
  have : ∃ e ∈ (doStep talk (.send true [7])).wire, e ∉ talk.wire ∧
      bodyKey e.ct = some (.hmac .messageKey (talk.st true).sendChainKey) := by decide
  obtain ⟨e, he, h1, h2⟩ := this
  refine ⟨e, he, _, h1, h2, .hmac (.known (.inr ?_))⟩
  simp [stateKeys, eraseHalves]

/-- `C70` speaks of all six messages as well. -/
example : Reach 1 2 3 4 5 6 talk ∧ talk.wire.length = 6 ∧ Outside nobody 1 2 5 6 ∧
    (∀ e ∈ talk.wire, Sendable nobody talk.wire e.ct) := by
  refine ⟨talk_reach, by decide, nobody_outside, ?_⟩
  intro e he
  obtain ⟨hn, a, b, d, f, g, hct, _, _⟩ :=
    C70_confidential talk_reach (by decide) nobody_outside e he
  rw [hct]
  exact ⟨.inl ⟨e, he, hn, _, hct⟩, .inl ⟨e, he, hn, _, hct⟩⟩

/-! ## C69: recovery from a theft -/

/-- What a thief can have taken out of ratchets while chain `T` was the latest. -/
inductive Old (sk : Key) (p : Nat → Nat) (T : Nat) : Key → Prop
  | root {j} : 1 ≤ j → j ≤ T → Old sk p T (rootOf sk p j)
  | head {x} : HKey x → Old sk p T x
  | chain {j n} : 1 ≤ j → j ≤ T → Old sk p T (ck sk p j n)
  | skipped {j n} : 1 ≤ j → j ≤ T → Old sk p T (mk sk p j n)
  | half {a b} : Old sk p T (.kem a b)

theorem old_congr {sk p q T T' x} (h : Old sk p T x) (hpq : ∀ i, i ≤ T → q i = p i)
    (hT : T ≤ T') : Old sk q T' x := by
  have hpq' : ∀ j, j ≤ T → ∀ i, i ≤ j → p i = q i := fun j hj i hi => (hpq i (by omega)).symm
  cases h with
  | root h1 h2 => rw [rootOf_congr (hpq' _ h2)]; exact .root h1 (by omega)
  | head h => exact .head h
  | chain h1 h2 => rw [ck_congr (hpq' _ h2)]; exact .chain h1 (by omega)
  | skipped h1 h2 => rw [mk_congr (hpq' _ h2)]; exact .skipped h1 (by omega)
  | half => exact .half

theorem old_of_held {ka kb ra rb p r k} {c : Conv} (hI : Inv (sharedKey ka kb ra rb) c p r k)
    {H x w} (hx : Held H (sharedKey ka kb ra rb) p c.wire (c.chain w) (r w) (k w) (c.acc w) x) :
    Old (sharedKey ka kb ra rb) p (topChain c) x := by
  obtain ⟨t1, t2⟩ := inv_le_top hI w
  have hadj := (hI.pi w).pv.adj
  have h0 := sentOn_zero hI.wi
  have hk0 : r w = 0 → k w = 0 := chain_pos hI
  cases hx with
  | root => exact .root (by omega) (by omega)
  | head h => exact .head h
  | send =>
    by_cases hs : c.chain w = 0
    · rw [hs, h0]; exact .head (.inl rfl)
    · exact .chain (by omega) t1
  | recv =>
    by_cases hs : r w = 0
    · rw [hs, hk0 hs]; exact .head (.inl rfl)
    · exact .chain (by omega) t2
  | skipped h1 h2 => exact .skipped h1 (by omega)
  | half => exact .half

theorem robbed_reach {ka kb pa pb ra rb A c B} (h : Robbed ka kb pa pb ra rb A c B) :
    Reach ka kb pa pb ra rb c := by
  induction h with
  | start => exact .start
  | step _ hl ih => exact .step ih hl
  | rob _ _ ih => exact ih

theorem robbed_inv {ka kb pa pb ra rb A c B} (h : Robbed ka kb pa pb ra rb A c B)
    (hA : ∀ k, ¬ A.keys k) (hlen : c.wire.length + 1 < u32) :
    ∃ p r k, Inv (sharedKey ka kb ra rb) c p r k ∧
      ∀ x, B.keys x → Old (sharedKey ka kb ra rb) p (topChain c) x := by
  induction h with
  | start => exact ⟨_, _, _, inv_start ka kb pa pb ra rb, fun x hx => absurd hx (hA x)⟩
  | @step c B ev _ hl ih =>
    have h1 := step_wire_len c ev
    obtain ⟨p, r, k, hI, ho⟩ := ih (by omega)
    obtain ⟨p', r', k', hI', hp', ht'⟩ := inv_step hI hlen hl
    exact ⟨p', r', k', hI', fun x hx => old_congr (ho x hx) hp' ht'⟩
  | @rob c B w hr ih =>
    obtain ⟨p, r, k, hI, ho⟩ := ih hlen
    refine ⟨p, r, k, hI, ?_⟩
    rintro x (hx | hx)
    · exact ho x hx
    · have hF := fixed_reach (robbed_reach hr)
      refine old_of_held (H := fun _ => True) (w := w) hI
        (held_state (hI.pi w) (hF w).rhk (hF w).nrhk (hF w).heads ?_ ?_ hx)
      · rw [(hF w).mine]
        rintro _ ⟨⟩
        cases w <;> exact ⟨trivial, _, _, rfl⟩
      · rw [(hF w).theirs]
        rintro _ ⟨⟩
        cases w <;> exact ⟨trivial, _, _, rfl⟩

theorem old_mat {sk p T i} (hi : 2 ≤ i) : ¬ Old sk p T (mat sk p i) := by
  obtain ⟨d, rfl⟩ : ∃ d, i = d + 2 := ⟨i - 2, by omega⟩
  intro h
  generalize hx : mat sk p (d + 2) = x at h
  cases h with
  | root => simp [mat, rootOf] at hx
  | head h => rw [← hx] at h; simp [mat, HKey] at h
  | chain => exact ck_ne_mat (by omega) hx.symm
  | skipped => simp [mat, mk] at hx
  | half => simp [mat] at hx

theorem old_root {sk p T i} (hi : 1 ≤ i) (h : Old sk p T (rootOf sk p i)) : i ≤ T := by
  generalize hx : rootOf sk p i = x at h
  cases h with
  | root h1 h2 =>
    simp only [rootOf, Key.hmac.injEq, true_and] at hx
    rw [mat_inj hi h1 hx]; exact h2
  | head h => rw [← hx] at h; exact absurd h HKey.ne_root
  | chain => exact absurd hx.symm ck_ne_root
  | skipped => simp [rootOf, mk] at hx
  | half => simp [rootOf] at hx

theorem old_ck {sk p T i n} (hi : 1 ≤ i) (h : Old sk p T (ck sk p i n)) : i ≤ T := by
  generalize hx : ck sk p i n = x at h
  cases h with
  | root => exact absurd hx ck_ne_root
  | head h => rw [← hx] at h; exact absurd h (HKey.ne_ck hi)
  | chain h1 h2 => rw [(ck_inj hi h1 hx).1]; exact h2
  | skipped => exact absurd hx ck_ne_mk
  | half => have : i ≠ 0 := by omega
            cases n <;> simp [ck, this] at hx

theorem old_mk {sk p T i n} (hi : 1 ≤ i) (h : Old sk p T (mk sk p i n)) : i ≤ T := by
  generalize hx : mk sk p i n = x at h
  cases h with
  | root => simp [rootOf, mk] at hx
  | head h => rw [← hx] at h; exact absurd h HKey.ne_mk
  | chain => exact absurd hx.symm ck_ne_mk
  | skipped h1 h2 => rw [(mk_inj hi h1 hx).1]; exact h2
  | half => simp [mk] at hx

/-- Recovery. An outsider collects copies of the ratchets of both parties, as often as it likes, up
to some moment. Afterwards two successive chains are begun (`e1` and `e2` are messages of them;
the first may have been begun before), of which the second is new, with DH private values the
outsider has not got. Then it can compute the key of no message of the second or any later
chain. -/
theorem C69_heals {ka kb pa pb ra rb A c0 B c} (h : Robbed ka kb pa pb ra rb A c0 B)
    (hA : ∀ k, ¬ A.keys k) (hL : Later (sharedKey ka kb ra rb) c0 c)
    (hlen : c.wire.length + 1 < u32) (e1 e2 e : Sent) (he1 : e1 ∈ c.wire) (he2 : e2 ∈ c.wire)
    (he : e ∈ c.wire) (hc : e2.chain = e1.chain + 1) (hnew : topChain c0 < e2.chain)
    (hd1 : ∀ x, dhOf e1.ct = some x → ¬ B.dh x) (hd2 : ∀ x, dhOf e2.ct = some x → ¬ B.dh x)
    (hle : e2.chain ≤ e.chain) : ∃ x, bodyKey e.ct = some x ∧ ¬ Deduce B x := by
  have hlen0 := later_wire_len hL
  obtain ⟨p0, r0, k0, hI0, ho0⟩ := robbed_inv h hA (by omega)
  obtain ⟨p, r, k, hI, hp, ht⟩ := inv_later hI0 hL hlen
  have ho : ∀ x, B.keys x → Old (sharedKey ka kb ra rb) p (topChain c0) x :=
    fun x hx => old_congr (ho0 x hx) hp (Nat.le_refl _)
  obtain ⟨hs1, _, _, hn, mn, hct⟩ := hI.wi.shape e he
  obtain ⟨a1, _, _, hn1, mn1, hct1⟩ := hI.wi.shape e1 he1
  obtain ⟨a2, _, _, hn2, mn2, hct2⟩ := hI.wi.shape e2 he2
  refine ⟨mk (sharedKey ka kb ra rb) p e.chain e.num, by rw [hct]; rfl, ?_⟩
  intro hded
  have hm := deduce_mk hs1 (fun hx => by have := old_mk hs1 (ho _ hx); omega)
    (fun m _ hx => by have := old_ck hs1 (ho _ hx); omega) hded
  have hm2 := deduce_down (A := B) (sk := sharedKey ka kb ra rb) (p := p) (i := e2.chain) a2
    (e.chain - e2.chain) (fun j a b hx => old_mat (by omega) (ho _ hx))
    (fun j a b hx => by have := old_root (by omega) (ho _ hx); omega)
    (by rw [show e2.chain + (e.chain - e2.chain) = e.chain by omega]; exact hm)
  have hno : ¬ B.keys (mat (sharedKey ka kb ra rb) p e2.chain) :=
    fun hx => old_mat (by omega) (ho _ hx)
  have hx1 := hd1 (p e1.chain) (by rw [hct1]; rfl)
  have hx2 := hd2 (p e2.chain) (by rw [hct2]; rfl)
  rw [hc] at hm2 hno hx2
  rw [mat_succ a1] at hm2 hno
  rcases hm2.mix_inv with hx | ⟨_, hy⟩
  · exact hno hx
  · rcases Nat.le_total (p e1.chain) (p (e1.chain + 1)) with hle | hle
    · rw [Nat.min_eq_left hle, Nat.max_eq_right hle] at hy; tauto
    · rw [Nat.min_eq_right hle, Nat.max_eq_left hle] at hy; tauto

/-- `talk` up to its fourth message, when both are robbed. -/
def talk4 : Conv := [Do.send false [1], .deliver true 0, .send true [2], .deliver false 1,
  .send false [3], .deliver true 2, .send true [4], .deliver false 3].foldl doStep ex0

theorem talk4_robbed : Robbed 1 2 3 4 5 6 nobody talk4
    ((nobody.steal (talk4.st true)).steal (talk4.st false)) := by
  have h : ∀ {c}, Reach 1 2 3 4 5 6 c → Robbed 1 2 3 4 5 6 nobody c nobody := by
    intro c hc
    induction hc with
    | start => exact .start
    | step _ hl ih => exact .step ih hl
  exact .rob false (.rob true (h (reach_do .start _)))

/-- The rest of the talk. -/
def rest : List Do := [.send false [5], .deliver true 4, .send true [6], .deliver false 5]

theorem later_do {ka kb ra rb : Nat} {c c0 : Conv} (ds : List Do)
    (h : Later (sharedKey ka kb ra rb) c0 c) :
    Later (sharedKey ka kb ra rb) c0 (ds.foldl doStep c) := by
  induction ds generalizing c with
  | nil => exact h
  | cons d ds ih =>
    apply ih
    cases d with
    | send w m => exact .step (ev := .send w _ _ _ m) h trivial
    | deliver w i => exact .step (ev := .recv w 0 (wireCt c i)) h (canAssemble_wireCt _ c i)
    | reload w now l => exact .step (ev := .reload w now l) h trivial

/-- Both are robbed after four messages. The fifth, the first of the next chain, can be read with
what was stolen; the sixth cannot, by `C69_heals`. So what is taken is enough to go on by until both have
contributed something new, and no longer. -/
theorem C69_window : ∃ B, Robbed 1 2 3 4 5 6 nobody talk4 B ∧
    (∃ e ∈ (rest.foldl doStep talk4).wire, e.chain = 5 ∧ ∃ x, bodyKey e.ct = some x ∧
      Deduce B x) ∧
    (∃ e ∈ (rest.foldl doStep talk4).wire, e.chain = 6 ∧ ∃ x, bodyKey e.ct = some x ∧
      ¬ Deduce B x) := by
  refine ⟨_, talk4_robbed, ?_, ?_⟩
  · have : ∃ e ∈ (rest.foldl doStep talk4).wire, e.chain = 5 ∧ bodyKey e.ct =
        some (.hmac .messageKey (.hmac .chainKey (.mix (talk4.st true).rootKey 37 47))) := by decide
    obtain ⟨e, he, h1, h2⟩ := this
    refine ⟨e, he, h1, _, h2, .hmac (.hmac (.mix (.known (.inl (.inr ?_))) (.inl (.inl (.inr (.inl ?_))))))⟩
    · simp [stateKeys]
    · decide
  · have h5 : ∃ e ∈ (rest.foldl doStep talk4).wire, e.chain = 5 ∧ dhOf e.ct = some 47 := by decide
    have h6 : ∃ e ∈ (rest.foldl doStep talk4).wire, e.chain = 6 ∧ dhOf e.ct = some 57 := by decide
    obtain ⟨e5, he5, a5, b5⟩ := h5
    obtain ⟨e6, he6, a6, b6⟩ := h6
    have hdh : ∀ x, x = 47 ∨ x = 57 →
        ¬ ((nobody.steal (talk4.st true)).steal (talk4.st false)).dh x := by
      rintro x hx (h | h | h)
      · exact nobody_dh (by rcases hx with rfl | rfl <;> decide)
          (by rcases hx with rfl | rfl <;> decide) h
      · rcases hx with rfl | rfl <;> exact absurd h (by decide)
      · rcases hx with rfl | rfl <;> exact absurd h (by decide)
    obtain ⟨x, h1, h2⟩ := C69_heals talk4_robbed (fun _ h => h)
      (later_do (ka := 1) (kb := 2) (ra := 5) (rb := 6) rest .refl) (by decide)
      e5 e6 e6 he5 he6 he6 (by omega) (by rw [a6]; decide)
      (fun x hx => hdh x (by rw [b5] at hx; simp at hx; exact .inl hx.symm))
      (fun x hx => hdh x (by rw [b6] at hx; simp at hx; exact .inr hx.symm)) (Nat.le_refl _)
    exact ⟨e6, he6, a6, x, h1, h2⟩

end Verif.Ratchet
