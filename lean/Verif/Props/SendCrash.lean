import Verif.Model.SendCrash
import Verif.Props.Ratchet

/-!
# C18: a crashing sender does not lose later messages

The claim is `Readable` for all conversations in which clients die. It holds as long as nobody dies between
writing a message and replacing the ratchet file (`C18_outside_partial`). One such death is enough to lose a
message (`C18_lost_violated`) and, if the message began a new chain, to end the conversation in both directions for
good (`C18_dead_violated`).
-/

namespace Verif.Ratchet

/-- Every message that arrives in the order of sending is decrypted: `e` is on the wire and new to its receiver, all
messages the sender sent before it have been decrypted and none it sent later. -/
def Readable (c : Conv) : Prop :=
  ∀ w e, e ∈ c.wire → e.who = (!w) → e.ct ∉ c.acc w →
    (∀ e' ∈ c.wire, e'.who = (!w) →
      (e'.chain < e.chain ∨ (e'.chain = e.chain ∧ e'.num < e.num)) → e'.ct ∈ c.acc w) →
    ¬ Overtaken c w e → ∀ now, (decrypt (c.st w) now e.ct).1 = .ok e.msg

theorem reach_of_reachD {ka kb pa pb ra rb n c} (h : ReachD ka kb pa pb ra rb n c) (hn : n = 0) :
    Reach ka kb pa pb ra rb c := by
  induction h with
  | start => exact .start
  | step _ hl ih => exact .step (ih hn) hl
  | unsent _ ih => exact ih hn
  | unsaved => cases hn

/-- **C18, part that holds.** If clients die only before a message is written or after the ratchet file has been
replaced, all messages on the wire can be decrypted. -/
theorem C18_outside_partial {ka kb pa pb ra rb c} (h : ReachD ka kb pa pb ra rb 0 c)
    (hlen : c.wire.length + 1 < u32) : Readable c :=
  fun w e he hw hnew hbefore hafter now =>
    C09_in_order (reach_of_reachD h rfl) hlen w e he hw hnew hbefore hafter now

/-! ## A message is lost -/

/-- The ciphertext of the `i`-th message. -/
def ctAt (c : Conv) (i : Nat) : Ct := ((c.wire[i]?).map Sent.ct).getD .short

/-- Bob dies after writing "1" and sends "2" after the restart; alice gets "1". -/
def lost : Conv :=
  let c := die (start 1 2 3 4 5 6) (.unsaved false 100 1 1 [1])
  let c := step c (.send false 101 2 2 [2])
  step c (.recv true 0 (ctAt c 0))

theorem canAssemble_wire {sk : Key} {c : Conv} {e : Sent} (h : e ∈ c.wire) : CanAssemble sk c.wire e.ct := by
  rcases hc : e.ct with _ | ⟨hn, hb, mb⟩
  · trivial
  · refine ⟨?_, ?_⟩
    · cases hb with
      | junk => trivial
      | sealed k n x => exact .inl ⟨e, h, hn, mb, hc⟩
    · cases mb with
      | junk => trivial
      | sealed k n x => exact .inl ⟨e, h, hn, hb, hc⟩

theorem canAssemble_ctAt {sk : Key} {c : Conv} {i : Nat} : CanAssemble sk c.wire (ctAt c i) := by
  unfold ctAt
  cases h : c.wire[i]? with
  | none => trivial
  | some e => exact canAssemble_wire (List.mem_of_getElem? h)

theorem reach_lost : ReachD 1 2 3 4 5 6 1 lost := by
  have h1 : ReachD 1 2 3 4 5 6 1 (die (start 1 2 3 4 5 6) (.unsaved false 100 1 1 [1])) := .unsaved .start
  have h2 := ReachD.step (ev := .send false 101 2 2 [2]) h1 trivial
  exact ReachD.step (ev := .recv true 0 (ctAt _ 0)) h2 canAssemble_ctAt

/-- **C18, negation.** After one death the next message arrives in order and cannot be decrypted. -/
theorem C18_lost_violated : ∃ c, ReachD 1 2 3 4 5 6 1 c ∧ ¬ Readable c := by
  refine ⟨lost, reach_lost, fun h => ?_⟩
  have hw : lost.wire = [⟨false, 1, 0, [1], ctAt lost 0⟩, ⟨false, 1, 1, [2], ctAt lost 1⟩] := by decide +kernel
  have ha : lost.acc true = [ctAt lost 0] := by decide +kernel
  have := h true ⟨false, 1, 1, [2], ctAt lost 1⟩ (by rw [hw]; simp) rfl (by decide +kernel)
    (by
      intro e' he' _ hlt
      rw [hw] at he'
      simp only [List.mem_cons, List.not_mem_nil, or_false] at he'
      rcases he' with rfl | rfl
      · rw [ha]; simp
      · simp at hlt)
    (by
      rintro ⟨e', he', _, hlt⟩
      rw [hw] at he'
      simp only [List.mem_cons, List.not_mem_nil, or_false] at he'
      rcases he' with rfl | rfl <;> simp at hlt)
    0
  have hd : (decrypt (lost.st true) 0 (ctAt lost 1)).1 = .err := by decide +kernel
  rw [hd] at this
  cases this

/-! ## The conversation is over -/

/-- `n` steps of a chain. -/
def iter : Nat → Key → Key
  | 0, k => k
  | n + 1, k => .hmac .chainKeyStep (iter n k)

theorem iter_succ' (n : Nat) (k : Key) : iter n (.hmac .chainKeyStep k) = iter (n + 1) k := by
  induction n with
  | zero => rfl
  | succ n ih => simp only [iter, ih]

/-- Chains with different first keys have nothing in common. -/
theorem iter_inj {a b : Key} : ∀ {m n : Nat}, iter m (.hmac .chainKey a) = iter n (.hmac .chainKey b) → m = n ∧ a = b
  | 0, 0, h => by simp only [iter, Key.hmac.injEq] at h; exact ⟨rfl, h.2⟩
  | 0, n + 1, h => by simp only [iter, Key.hmac.injEq] at h; exact absurd h.1 (by decide)
  | m + 1, 0, h => by simp only [iter, Key.hmac.injEq] at h; exact absurd h.1 (by decide)
  | m + 1, n + 1, h => by
    simp only [iter, Key.hmac.injEq, true_and] at h
    have := iter_inj h
    exact ⟨by omega, this.2⟩

theorem advance_key (ck : Key) (now : Int) : ∀ (missing n : Nat),
    (advance ck n now missing).2.1 = .hmac .messageKey (iter missing ck) := by
  intro missing
  induction missing generalizing ck with
  | zero => intro n; rfl
  | succ m ih =>
    intro n
    simp only [advance]
    rw [ih, iter_succ']

theorem saveKeys_key {hk ck : Key} {num cnt : Nat} {now : Int} {ck' mk : Key} {sv}
    (h : saveKeys hk ck num cnt now = .ok (ck', mk, sv)) : ∃ j, mk = .hmac .messageKey (iter j ck) := by
  unfold saveKeys at h
  split at h
  · cases h
  · simp only at h
    split at h
    · cases h
    · split at h
      · split at h <;> cases h
      · have := advance_key ck now (num - cnt) cnt
        generalize hA : advance ck cnt now (num - cnt) = A at h this
        obtain ⟨a, b, c⟩ := A
        simp only [Res.ok.injEq, Prod.mk.injEq] at h
        exact ⟨num - cnt, by rw [← h.2.1]; exact this⟩

/-- Without a fitting message key nothing is decrypted and nothing changes. -/
theorem decrypt_fails {r : Ratchet} (hs : r.saved = []) {m : MBox}
    (h1 : ∀ j n, openM (.hmac .messageKey (iter j r.recvChainKey)) n m = none)
    (h2 : r.ratchet = false → ∀ pub km j n, mixDH r.rootKey r.sendPriv pub = some km →
      openM (.hmac .messageKey (iter j (.hmac .chainKey km))) n m = none)
    (now : Int) (hn : Nat) (h : HBox) : ∃ x, decrypt r now (.mk hn h m) = (x, r) ∧ ∀ b, x ≠ .ok b := by
  simp only [decrypt, hs, tryLoop]
  unfold decryptNew
  split
  · next hdr _ =>
    split
    · exact ⟨_, rfl, fun _ h => nomatch h⟩
    · exact ⟨_, rfl, fun _ h => nomatch h⟩
    · exact ⟨_, rfl, fun _ h => nomatch h⟩
    · next ck mk sv hk =>
      obtain ⟨j, rfl⟩ := saveKeys_key hk
      rw [h1]
      exact ⟨_, rfl, fun _ h => nomatch h⟩
  · split
    · exact ⟨_, rfl, fun _ h => nomatch h⟩
    · next hdr _ =>
      split
      · exact ⟨_, rfl, fun _ h => nomatch h⟩
      · next hr =>
        split
        · exact ⟨_, rfl, fun _ h => nomatch h⟩
        · exact ⟨_, rfl, fun _ h => nomatch h⟩
        · exact ⟨_, rfl, fun _ h => nomatch h⟩
        · split
          · exact ⟨_, rfl, fun _ h => nomatch h⟩
          · next km hkm =>
            split
            · exact ⟨_, rfl, fun _ h => nomatch h⟩
            · exact ⟨_, rfl, fun _ h => nomatch h⟩
            · exact ⟨_, rfl, fun _ h => nomatch h⟩
            · next ck mk sv hk =>
              obtain ⟨j, rfl⟩ := saveKeys_key hk
              rw [h2 (by simpa using hr) _ _ _ _ hkm]
              exact ⟨_, rfl, fun _ h => nomatch h⟩

/-- The secret of the example. -/
def sk0 : Key := sharedKey 1 2 5 6

/-- Alice dies after writing "1", which began a new chain with the private value 100; after the restart she sends
"2", beginning the chain again with 101. Bob gets "1". -/
def dead : Conv :=
  let c := die (start 1 2 3 4 5 6) (.unsaved true 100 1 1 [1])
  let c := step c (.send true 101 2 2 [2])
  step c (.recv false 0 (ctAt c 0))

theorem reach_dead : ReachD 1 2 3 4 5 6 1 dead := by
  have h1 : ReachD 1 2 3 4 5 6 1 (die (start 1 2 3 4 5 6) (.unsaved true 100 1 1 [1])) := .unsaved .start
  have h2 := ReachD.step (ev := .send true 101 2 2 [2]) h1 trivial
  exact ReachD.step (ev := .recv false 0 (ctAt _ 0)) h2 canAssemble_ctAt

/-- Root key after the key exchange. -/
def root0 : Key := .hmac .rootKey sk0

/-- What alice mixes for "1". -/
def mix1 : Key := .mix root0 4 100

/-- What alice mixes for "2". -/
def mix2 : Key := .mix root0 4 101

/-- Alice's ratchet once the conversation is dead. -/
def deadA (n x : Nat) : Ratchet :=
  { dead.st true with sendChainKey := iter n (.hmac .chainKey mix2), sendCount := x }

/-- Bob's ratchet after he answered with the private value `q`. -/
def deadB (q n x : Nat) : Ratchet :=
  { (ratchetStep (dead.st false) q).2 with
    sendChainKey := iter n (.hmac .chainKey (.mix (.hmac .rootKey mix1) (min q 100) (max q 100))), sendCount := x }

/-- Message keys used in the dead conversation. -/
def Used (k : Key) : Prop :=
  k = .hmac .messageKey (.hmac .chainKey mix1) ∨ (∃ n, k = .hmac .messageKey (iter n (.hmac .chainKey mix2))) ∨
  ∃ n x y, k = .hmac .messageKey (iter n (.hmac .chainKey (.mix (.hmac .rootKey mix1) x y)))

/-- What stays true. -/
structure Dead (c : Conv) : Prop where
  alice : ∃ n x, c.st true = deadA n x
  bob : c.st false = dead.st false ∨ ∃ q n x, c.st false = deadB q n x
  wire : ∀ e ∈ c.wire, ∃ hn h k mn m, e.ct = .mk hn h (.sealed k mn m) ∧ Used k
  acc : c.acc = dead.acc

theorem dead_recvChain_true : (dead.st true).recvChainKey = .hmac .chainKey sk0 := by decide +kernel
theorem dead_root_true : (dead.st true).rootKey = .hmac .rootKey mix2 := by decide +kernel
theorem dead_saved (w : Bool) : (dead.st w).saved = [] := by cases w <;> decide +kernel
theorem dead_recvChain_false : (dead.st false).recvChainKey = iter 1 (.hmac .chainKey mix1) := by decide +kernel
theorem dead_root_false : (dead.st false).rootKey = .hmac .rootKey mix1 := by decide +kernel
theorem dead_ratchet_false : (dead.st false).ratchet = true := by decide +kernel
theorem dead_ratchet_true : (dead.st true).ratchet = false := by decide +kernel
theorem dead_pub_false : (dead.st false).recvPub = .of 100 := by decide +kernel

theorem mixDH_shape {root km : Key} {priv : Nat} {pub : Pub} (h : mixDH root priv pub = some km) :
    ∃ x y, km = .mix root x y := by
  cases pub with
  | of q => simp only [mixDH, Option.some.injEq] at h; exact ⟨_, _, h.symm⟩
  | low => cases h

theorem derived_iter {sk k : Key} (h : Derived sk k) : ∀ n, Derived sk (iter n k)
  | 0 => h
  | n + 1 => .hmac (derived_iter h n)

/-- A body the attacker has does not open under a derived key that was not used. -/
theorem open_none {c : Conv} (hw : ∀ e ∈ c.wire, ∃ hn h k mn m, e.ct = .mk hn h (.sealed k mn m) ∧ Used k) {m : MBox}
    (hb : bodyOk sk0 c.wire m) {k : Key} (hd : Derived sk0 k) (hu : ¬ Used k) (n : Nat) : openM k n m = none := by
  cases m with
  | junk i => rfl
  | sealed k' n' x =>
    simp only [openM]
    rw [if_neg]
    rintro ⟨rfl, _⟩
    rcases hb with ⟨e, he, hn, h, hc⟩ | hb
    · obtain ⟨hn', h', k2, mn, m2, hc', hu'⟩ := hw e he
      rw [hc] at hc'
      simp only [Ct.mk.injEq, MBox.sealed.injEq] at hc'
      rw [← hc'.2.2.1] at hu'
      exact hu hu'
    · exact hb hd

theorem derived_mix1 : Derived sk0 mix1 := .mix (.hmac .base)
theorem derived_mix2 : Derived sk0 mix2 := .mix (.hmac .base)

theorem not_used {j : Nat} {a : Key} (h1 : ¬ (j = 0 ∧ a = mix1)) (h2 : a ≠ mix2)
    (h3 : ∀ x y, a ≠ .mix (.hmac .rootKey mix1) x y) : ¬ Used (.hmac .messageKey (iter j (.hmac .chainKey a))) := by
  rintro (h | ⟨n, h⟩ | ⟨n, x, y, h⟩)
  · simp only [Key.hmac.injEq, true_and] at h
    exact h1 (iter_inj (n := 0) h)
  · simp only [Key.hmac.injEq, true_and] at h
    exact h2 (iter_inj h).2
  · simp only [Key.hmac.injEq, true_and] at h
    exact h3 x y (iter_inj h).2

/-- Alice decrypts nothing. -/
theorem dead_alice {c : Conv} (h : Dead c) {m : MBox} (hb : bodyOk sk0 c.wire m) (now : Int) (hn : Nat) (hx : HBox) :
    ∃ x, decrypt (c.st true) now (.mk hn hx m) = (x, c.st true) ∧ ∀ b, x ≠ .ok b := by
  obtain ⟨n, x, ha⟩ := h.alice
  apply decrypt_fails
  · rw [ha]; exact dead_saved true
  · intro j n'
    have : (c.st true).recvChainKey = .hmac .chainKey sk0 := by rw [ha]; exact dead_recvChain_true
    rw [this]
    refine open_none h.wire hb (.hmac (derived_iter (.hmac .base) j)) (not_used ?_ ?_ ?_) n'
    · rintro ⟨_, h⟩; cases h
    · intro h; cases h
    · intro x y h; cases h
  · intro _ pub km j n' hkm
    have : (c.st true).rootKey = .hmac .rootKey mix2 := by rw [ha]; exact dead_root_true
    rw [this] at hkm
    obtain ⟨x, y, rfl⟩ := mixDH_shape hkm
    refine open_none h.wire hb (.hmac (derived_iter (.hmac (.mix (.hmac derived_mix2))) j)) (not_used ?_ ?_ ?_) n'
    · rintro ⟨_, h⟩; simp [mix1, mix2, root0, sk0, sharedKey] at h
    · intro h; simp [mix2, root0, sk0, sharedKey] at h
    · intro x y h; simp [mix1, mix2] at h

/-- Bob decrypts nothing. -/
theorem dead_bob {c : Conv} (h : Dead c) {m : MBox} (hb : bodyOk sk0 c.wire m) (now : Int) (hn : Nat) (hx : HBox) :
    ∃ x, decrypt (c.st false) now (.mk hn hx m) = (x, c.st false) ∧ ∀ b, x ≠ .ok b := by
  have hsaved : (c.st false).saved = [] := by
    rcases h.bob with h | ⟨q, n, x, h⟩
    · rw [h]; exact dead_saved false
    · rw [h]; simp only [deadB, ratchetStep, dead_pub_false, mixDH, dead_saved]
  have hck : (c.st false).recvChainKey = iter 1 (.hmac .chainKey mix1) := by
    rcases h.bob with h | ⟨q, n, x, h⟩
    · rw [h]; exact dead_recvChain_false
    · rw [h]; simp only [deadB, ratchetStep, dead_pub_false, mixDH, dead_recvChain_false]
  apply decrypt_fails hsaved
  · intro j n'
    rw [hck]
    have : iter j (iter 1 (.hmac .chainKey mix1)) = iter (j + 1) (.hmac .chainKey mix1) := by
      simp only [iter, iter_succ']
    rw [this]
    refine open_none h.wire hb (.hmac (derived_iter (.hmac derived_mix1) _)) (not_used ?_ ?_ ?_) n'
    · rintro ⟨h, _⟩; omega
    · decide
    · intro x y h; simp [mix1, root0, sk0, sharedKey] at h
  · intro hr pub km j n' hkm
    rcases h.bob with hB | ⟨q, n, x, hB⟩
    · rw [hB, dead_ratchet_false] at hr; cases hr
    · have : (c.st false).rootKey = .hmac .rootKey (.mix (.hmac .rootKey mix1) (min q 100) (max q 100)) := by
        rw [hB]; simp only [deadB, ratchetStep, dead_pub_false, mixDH, dead_root_false]
      rw [this] at hkm
      obtain ⟨a, b, rfl⟩ := mixDH_shape hkm
      refine open_none h.wire hb (.hmac (derived_iter (.hmac (.mix (.hmac (.mix (.hmac derived_mix1))))) j))
        (not_used ?_ ?_ ?_) n'
      · rintro ⟨_, h⟩; simp [mix1, root0, sk0, sharedKey] at h
      · intro h; simp [mix2, root0, sk0, sharedKey] at h
      · intro x y h; simp [mix1, root0, sk0, sharedKey] at h

theorem upd_same (f : Bool → Ratchet) (w : Bool) : upd f w (f w) = f := by
  funext v; unfold upd; split
  · next h => rw [h]
  · rfl

theorem reload_self {r : Ratchet} (h : r.saved = []) (now lifetime : Int) :
    unmarshal (new r.kemSk r.theirKem 0) (marshal r now lifetime) = .ok r := by
  rw [unmarshal_marshal r (new r.kemSk r.theirKem 0) now lifetime rfl rfl rfl rfl, h]
  cases r
  simp only [reloadSaved] at h ⊢
  simp [h]

theorem dead_saved' {c : Conv} (h : Dead c) (w : Bool) : (c.st w).saved = [] := by
  cases w with
  | true => obtain ⟨n, x, ha⟩ := h.alice; rw [ha]; exact dead_saved true
  | false =>
    rcases h.bob with h | ⟨q, n, x, h⟩
    · rw [h]; exact dead_saved false
    · rw [h]; simp only [deadB, ratchetStep, dead_pub_false, mixDH, dead_saved]

theorem dead_step {c : Conv} (h : Dead c) {ev : Ev} (hl : Legal sk0 c ev) : Dead (step c ev) := by
  cases ev with
  | recv w now ct =>
    cases ct with
    | short =>
      simp only [step, decrypt]
      rw [upd_same]; exact h
    | mk hn hb mb =>
      have : ∃ x, decrypt (c.st w) now (.mk hn hb mb) = (x, c.st w) ∧ ∀ b, x ≠ .ok b := by
        cases w with
        | true => exact dead_alice h hl.2 now hn hb
        | false => exact dead_bob h hl.2 now hn hb
      obtain ⟨x, hx, hne⟩ := this
      simp only [step, hx]
      cases x with
      | ok b => exact absurd rfl (hne b)
      | _ => rw [upd_same]; exact h
  | reload w now lifetime =>
    simp only [step, reload_self (dead_saved' h w)]
    rw [upd_same]
    exact ⟨h.alice, h.bob, h.wire, h.acc⟩
  | send w priv hn mn msg =>
    cases w with
    | true =>
      obtain ⟨n, x, ha⟩ := h.alice
      have hr : (c.st true).ratchet = false := by rw [ha]; exact dead_ratchet_true
      have hck : (c.st true).sendChainKey = iter n (.hmac .chainKey mix2) := by rw [ha]; rfl
      simp only [step, encrypt, hr, Bool.false_eq_true, if_false, sealMsg]
      refine ⟨⟨n + 1, ((c.st true).sendCount + 1) % u32, ?_⟩, ?_, ?_, h.acc⟩
      · simp only [upd, if_true, ha, deadA, iter, dead_ratchet_true]
      · simp only [upd, Bool.false_eq_true, if_false]; exact h.bob
      · intro e he
        rcases List.mem_append.mp he with he | he
        · exact h.wire e he
        · rw [List.mem_singleton] at he
          subst he
          exact ⟨_, _, _, _, _, rfl, .inr (.inl ⟨n, by rw [hck]⟩)⟩
    | false =>
      rcases h.bob with hB | ⟨q, n, x, hB⟩
      · have hr : (c.st false).ratchet = true := by rw [hB]; exact dead_ratchet_false
        have hst : ratchetStep (c.st false) priv = (true, (ratchetStep (dead.st false) priv).2) := by
          rw [hB]; simp only [ratchetStep, dead_pub_false, mixDH]
        have hck : (ratchetStep (dead.st false) priv).2.sendChainKey =
            .hmac .chainKey (.mix (.hmac .rootKey mix1) (min priv 100) (max priv 100)) := by
          simp only [ratchetStep, dead_pub_false, mixDH, dead_root_false]
        simp only [step, encrypt, hr, if_true, hst, sealMsg]
        refine ⟨?_, .inr ⟨priv, 1, ((ratchetStep (dead.st false) priv).2.sendCount + 1) % u32, ?_⟩, ?_, h.acc⟩
        · simp only [upd, Bool.true_eq_false, if_false]; exact h.alice
        · simp only [upd, if_true, hck, deadB, iter]
        · intro e he
          rcases List.mem_append.mp he with he | he
          · exact h.wire e he
          · rw [List.mem_singleton] at he
            subst he
            exact ⟨_, _, _, _, _, rfl, .inr (.inr ⟨0, _, _, by rw [hck]; rfl⟩)⟩
      · have hr : (c.st false).ratchet = false := by
          rw [hB]; simp only [deadB, ratchetStep, dead_pub_false, mixDH]
        have hck : (c.st false).sendChainKey =
            iter n (.hmac .chainKey (.mix (.hmac .rootKey mix1) (min q 100) (max q 100))) := by rw [hB]; rfl
        simp only [step, encrypt, hr, Bool.false_eq_true, if_false, sealMsg]
        refine ⟨?_, .inr ⟨q, n + 1, ((c.st false).sendCount + 1) % u32, ?_⟩, ?_, h.acc⟩
        · simp only [upd, Bool.true_eq_false, if_false]; exact h.alice
        · have hq : (ratchetStep (dead.st false) q).2.ratchet = false := by
            simp only [ratchetStep, dead_pub_false, mixDH]
          simp only [upd, if_true, hB, deadB, iter, hq]
        · intro e he
          rcases List.mem_append.mp he with he | he
          · exact h.wire e he
          · rw [List.mem_singleton] at he
            subst he
            exact ⟨_, _, _, _, _, rfl, .inr (.inr ⟨n, _, _, by rw [hck]⟩)⟩

theorem dead_dead : Dead dead := by
  refine ⟨⟨1, 1, by decide +kernel⟩, .inl rfl, ?_, rfl⟩
  have hw : dead.wire = [⟨true, 2, 0, [1], ctAt dead 0⟩, ⟨true, 2, 1, [2], ctAt dead 1⟩] := by decide +kernel
  intro e he
  rw [hw] at he
  simp only [List.mem_cons, List.not_mem_nil, or_false] at he
  rcases he with rfl | rfl
  · exact ⟨_, _, _, _, _, rfl, .inl (by decide +kernel)⟩
  · exact ⟨_, _, _, _, _, rfl, .inr (.inl ⟨0, by decide +kernel⟩)⟩

/-- **C18, negation.** A single death, and nothing that is sent afterwards by either side, however often and in
whatever order it is delivered, is ever decrypted: what both have accepted remains the message written before the
death. -/
theorem C18_dead_violated : ∃ c, ReachD 1 2 3 4 5 6 1 c ∧ (c.acc false).length = 1 ∧ c.acc true = [] ∧
    ∀ c', Later (sharedKey 1 2 5 6) c c' → c'.acc = c.acc := by
  refine ⟨dead, reach_dead, by decide +kernel, by decide +kernel, ?_⟩
  intro c' h
  have : Dead c' := by
    induction h with
    | refl => exact dead_dead
    | step _ hl ih => exact dead_step ih hl
  exact this.acc

/-! ## Examples -/

/-- A death before the write: the message is sent again after the restart and decrypted. -/
def retry : Conv :=
  let c := die (start 1 2 3 4 5 6) (.unsent false 100 1 1 [1])
  step c (.send false 101 2 2 [1])

example : ReachD 1 2 3 4 5 6 0 retry ∧ retry.wire.length = 1 ∧
    (decrypt (retry.st true) 0 (ctAt retry 0)).1 = .ok [1] :=
  ⟨.step (ev := .send false 101 2 2 [1]) (.unsent .start) trivial, by decide +kernel, by decide +kernel⟩

/-- Later messages exist: alice sends, bob answers, and nobody can read anything. -/
example : ∃ c', Later (sharedKey 1 2 5 6) dead c' ∧ c'.wire.length = 4 := by
  refine ⟨_, .step (ev := .send false 200 8 8 [4]) (.step (ev := .send true 201 7 7 [3]) .refl trivial) trivial, ?_⟩
  decide +kernel

end Verif.Ratchet
