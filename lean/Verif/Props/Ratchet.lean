import Verif.Proofs.RatchetSend

/-!
# Properties of the double ratchet (C09 to C16)

Everything here is about conversations (`Reach`): two parties that ran the key exchange with each
other, encrypt in any interleaving, are handed any ciphertexts an attacker can assemble, and
save and reload their state at any time. The only standing bound is that fewer than 2^32 - 1
messages are encrypted in all, the range of the code's message counters.
-/

namespace Verif.Ratchet

open Verif

/-! ## Specification vocabulary -/

/-- One more than the highest message number a party has decrypted on a chain; 0 if none. -/
def nextOn (c : Conv) (w : Bool) (j : Nat) : Nat :=
  ((c.wire.filter fun e => e.chain = j ∧ e.ct ∈ c.acc w).map fun e => e.num + 1).foldr max 0

/-- No more than 80 messages would be skipped at once by decrypting `e` now: neither on its own
chain nor at the end of the sender's previous chain. -/
def InWindow (c : Conv) (w : Bool) (e : Sent) : Prop :=
  e.num ≤ nextOn c w e.chain + 80 ∧
  sentOn c.wire (e.chain - 2) ≤ nextOn c w (e.chain - 2) + 80

/-- The receiver has already decrypted a later message of the same sender. -/
def Overtaken (c : Conv) (w : Bool) (e : Sent) : Prop :=
  ∃ e' ∈ c.wire, e'.ct ∈ c.acc w ∧
    (e.chain < e'.chain ∨ (e.chain = e'.chain ∧ e.num < e'.num))

/-- Key a ciphertext's message is sealed under. -/
def bodyKey : Ct → Option Key
  | .mk _ _ (.sealed k _ _) => some k
  | _ => none

/-- The receiver has not thrown the message's key away for being too old. -/
def KeyKept (c : Conv) (w : Bool) (e : Sent) : Prop := ∀ k, bodyKey e.ct = some k → k ∉ c.lost w

theorem foldr_max_le {l : List Nat} {b : Nat} (h : ∀ x ∈ l, x ≤ b) : l.foldr max 0 ≤ b := by
  induction l with
  | nil => exact Nat.zero_le _
  | cons a l ih =>
    simp only [List.foldr_cons]
    have := h a List.mem_cons_self
    have := ih (fun x hx => h x (List.mem_cons_of_mem _ hx))
    omega

theorem le_foldr_max {l : List Nat} {x : Nat} (h : x ∈ l) : x ≤ l.foldr max 0 := by
  induction l with
  | nil => simp at h
  | cons a l ih =>
    simp only [List.foldr_cons]
    rcases List.mem_cons.mp h with rfl | h
    · omega
    · have := ih h; omega

theorem nextOn_le_k {sk c p r k} (h : Inv sk c p r k) (w : Bool) : nextOn c w (r w) ≤ k w := by
  apply foldr_max_le
  intro x hx
  obtain ⟨e, he, rfl⟩ := List.mem_map.mp hx
  obtain ⟨h1, h2⟩ := List.mem_filter.mp he
  simp only [decide_eq_true_eq] at h2
  have := ((h.pi w).accOk e h1 h2.2).2.2
  unfold lim at this
  rw [if_pos h2.1] at this
  omega

theorem nextOn_beyond {sk c p r k} (h : Inv sk c p r k) (w : Bool) {j : Nat} (hj : r w < j) :
    nextOn c w j = 0 := by
  apply Nat.le_zero.mp
  apply foldr_max_le
  intro x hx
  obtain ⟨e, he, rfl⟩ := List.mem_map.mp hx
  obtain ⟨h1, h2⟩ := List.mem_filter.mp he
  simp only [decide_eq_true_eq] at h2
  have := ((h.pi w).accOk e h1 h2.2).2.1
  omega

theorem late_overtaken {sk c p r k} (h : Inv sk c p r k) {w : Bool} {e : Sent} (he : e ∈ c.wire)
    (hw : e.who = !w) (hle : e.chain ≤ r w) (hacc : e.ct ∉ c.acc w)
    (hl : e.num < lim (sentOn c.wire) (r w) (k w) e.chain) : Overtaken c w e := by
  have hpar : e.chain % 2 = r w % 2 := by
    have x1 := (h.wi.shape e he).2.1
    have x2 := (h.pi w).par
    rw [hw] at x1
    cases w <;> simp at x1 x2 <;> omega
  have h1 := (h.wi.shape e he).1
  unfold lim at hl
  rcases (h.pi w).last with ⟨h0, h2⟩ | ⟨e', he', b1, b2, b3⟩
  · by_cases hj : e.chain = r w
    · rw [if_pos hj] at hl; omega
    · omega
  · refine ⟨e', he', b3, ?_⟩
    by_cases hj : e.chain = r w
    · rw [if_pos hj] at hl
      right
      refine ⟨by omega, ?_⟩
      by_contra hcon
      have : e.num = e'.num := by omega
      have := h.wi.uniq e he e' he' (by omega) this
      subst this
      exact hacc b3
    · left; omega

/-- Delivery, under the invariant. -/
theorem deliver {sk c p r k} (h : Inv sk c p r k) (hlen : c.wire.length + 1 < u32) {w : Bool}
    {e : Sent} (he : e ∈ c.wire) (hw : e.who = !w) (hacc : e.ct ∉ c.acc w)
    (hmsg : e.msg ≠ [] ∨ ¬ Overtaken c w e) (hkept : KeyKept c w e) (hwin : InWindow c w e)
    (now : Int) : (decrypt (c.st w) now e.ct).1 = .ok e.msg := by
  have hP := h.pi w
  obtain ⟨hs1, hs2, hnum, hn, mn, hct⟩ := h.wi.shape e he
  have hu : e.num + 1 < u32 := by have := sentOn_le c.wire e.chain; omega
  have hmk : mk sk p e.chain e.num ∉ c.lost w := hkept _ (by rw [hct]; rfl)
  have hopen : openM (mk sk p e.chain e.num) mn (.sealed (mk sk p e.chain e.num) mn e.msg)
      = some e.msg := by simp [openM]
  rw [hct]
  rcases h.toTop w e he hw with hle | ⟨hj, hs⟩
  · by_cases hl : e.num < lim (sentOn c.wire) (r w) (k w) e.chain
    · have hov := late_overtaken h he hw hle hacc hl
      have hne : e.msg ≠ [] := by
        rcases hmsg with h1 | h1
        · exact h1
        · exact absurd hov h1
      obtain ⟨v, hv⟩ := hP.complete e he hw hle hl hne hacc hmk
      obtain ⟨j, _, _, _, a4, _, a6, _⟩ := hP.sound _ _ _ hv
      have := hk_inj a4
      subst this
      simp only [decrypt]
      rw [try_entry]
      simp only [hv, a6, hopen]
      rcases hg : GoMap.get (c.st w).saved (hk sk p e.chain) with _ | keys
      · rw [get2, hg] at hv; simp at hv
      · simp only []
        rw [if_neg hne]
    · have hj : e.chain = r w := by
        by_contra hne
        unfold lim at hl
        rw [if_neg hne] at hl
        exact hl hnum
      have hkn : k w ≤ e.num := by
        unfold lim at hl; rw [if_pos hj] at hl; omega
      have hg : get2 (c.st w).saved (hk sk p e.chain) e.num = none := by
        rcases hg : get2 (c.st w).saved (hk sk p e.chain) e.num with _ | v
        · rfl
        · obtain ⟨j, _, _, _, a4, a5, _⟩ := hP.sound _ _ _ hg
          have := hk_inj a4
          subst this
          exact absurd a5 hl
      simp only [decrypt]
      rw [try_entry]
      simp only [hg]
      rw [decryptNew_cur hP now hs1 hj hkn hu]
      have hw1 := hwin.1
      rw [hj] at hw1
      have := nextOn_le_k h w
      rw [if_pos (by unfold maxMissing; omega), hopen]
  · have hg : get2 (c.st w).saved (hk sk p e.chain) e.num = none := by
      rcases hg : get2 (c.st w).saved (hk sk p e.chain) e.num with _ | v
      · rfl
      · obtain ⟨j, _, a2, _, a4, _⟩ := hP.sound _ _ _ hg
        have := hk_inj a4
        omega
    have hu' : sentOn c.wire (r w) + 1 < u32 := by have := sentOn_le c.wire (r w); omega
    simp only [decrypt]
    rw [try_entry]
    simp only [hg]
    rw [decryptNew_next hP now hj hs hu hu']
    have hw1 := hwin.1
    have hw2 := hwin.2
    rw [nextOn_beyond h w (by omega)] at hw1
    have e2 : e.chain - 2 = r w := by omega
    rw [e2] at hw2
    have := nextOn_le_k h w
    rw [if_pos (by unfold maxMissing; omega), hopen]

/-! ## C09: delivery in any order -/

/-- A message of the peer that was not decrypted before decrypts to what was encrypted, however
late and out of order it comes, as long as at most 80 messages are skipped at once and its key was
not discarded as too old. Missing for the full claim: an empty message that was overtaken by a
later one (see the next theorem). -/
theorem C09_any_order_partial {ka kb pa pb ra rb c} (h : Reach ka kb pa pb ra rb c)
    (hlen : c.wire.length + 1 < u32) (w : Bool) (e : Sent) (he : e ∈ c.wire) (hw : e.who = !w)
    (hnew : e.ct ∉ c.acc w) (hwin : InWindow c w e) (hkept : KeyKept c w e)
    (hmsg : e.msg ≠ [] ∨ ¬ Overtaken c w e) (now : Int) :
    (decrypt (c.st w) now e.ct).1 = .ok e.msg := by
  obtain ⟨p, r, k, hI⟩ := inv_reach h hlen
  exact deliver hI hlen he hw hnew hmsg hkept hwin now

/-- Without loss and reordering there is no limit at all: if everything the peer sent before has
been decrypted, and nothing sent after, the message decrypts, empty or not. -/
theorem C09_in_order {ka kb pa pb ra rb c} (h : Reach ka kb pa pb ra rb c)
    (hlen : c.wire.length + 1 < u32) (w : Bool) (e : Sent) (he : e ∈ c.wire) (hw : e.who = !w)
    (hnew : e.ct ∉ c.acc w)
    (hbefore : ∀ e' ∈ c.wire, e'.who = (!w) →
      (e'.chain < e.chain ∨ (e'.chain = e.chain ∧ e'.num < e.num)) → e'.ct ∈ c.acc w)
    (hafter : ¬ Overtaken c w e) (now : Int) :
    (decrypt (c.st w) now e.ct).1 = .ok e.msg := by
  obtain ⟨p, r, k, hI⟩ := inv_reach h hlen
  have hP := hI.pi w
  obtain ⟨hs1, hs2, hnum, hn, mn, hct⟩ := hI.wi.shape e he
  have hall : ∀ j, (j < e.chain ∨ j = e.chain) → j % 2 = e.chain % 2 → ∀ n, n < sentOn c.wire j →
      (j = e.chain → n < e.num) → n + 1 ≤ nextOn c w j := by
    intro j hj hp n hnj hlt
    obtain ⟨e', he', b1, b2⟩ := hI.wi.full j n hnj
    have hw' : e'.who = !w := by
      have x1 := (hI.wi.shape e' he').2.1
      rw [b1, hp, ← hs2, hw] at x1
      cases hh : e'.who <;> cases w <;> simp_all
    have hm := hbefore e' he' hw' (by
      rcases hj with hj | hj
      · left; omega
      · right; exact ⟨by omega, by rw [b2]; exact hlt hj⟩)
    apply le_foldr_max
    rw [List.mem_map]
    exact ⟨e', List.mem_filter.mpr ⟨he', by simp [b1, hm]⟩, by omega⟩
  have hwin : InWindow c w e := by
    constructor
    · by_cases h0 : e.num = 0
      · omega
      · have := hall e.chain (.inr rfl) rfl (e.num - 1) (by omega) (by omega)
        omega
    · by_cases h0 : sentOn c.wire (e.chain - 2) = 0
      · omega
      · by_cases h2 : e.chain ≤ 2
        · have : e.chain - 2 = 0 := by omega
          rw [this, sentOn_zero hI.wi] at h0
          exact absurd rfl h0
        · have := hall (e.chain - 2) (.inl (by omega)) (by omega)
            (sentOn c.wire (e.chain - 2) - 1) (by omega) (by omega)
          omega
  -- nothing was skipped, so no saved key is needed
  have hnl : ¬ (e.chain ≤ r w ∧ e.num < lim (sentOn c.wire) (r w) (k w) e.chain) := by
    rintro ⟨h1, h2⟩
    exact hafter (late_overtaken hI he hw h1 hnew h2)
  -- delivery does not depend on the discarded keys then
  have hI' : Inv (sharedKey ka kb ra rb) { c with lost := fun v => if v = w then [] else c.lost v }
      p r k := by
    refine ⟨hI.wi, ?_, hI.peer, hI.top, hI.accW⟩
    intro v
    have hv := hI.pi v
    rcases bool_cases w v with rfl | rfl
    · refine ⟨hv.pv, hv.par, hv.wfs, hv.sound, ?_, hv.accOk, hv.last⟩
      intro e' he' hw' hle' hl' hm' ha' _
      exfalso
      -- every skipped message was decrypted
      have hlast := hv.last
      have hov := late_overtaken hI he' hw' hle' ha' hl'
      obtain ⟨e'', he'', c1, c2⟩ := hov
      have hord : ¬ (e'.chain < e.chain ∨ (e'.chain = e.chain ∧ e'.num < e.num)) :=
        fun hh => ha' (hbefore e' he' hw' hh)
      have hov2 : ¬ (e.chain < e''.chain ∨ (e.chain = e''.chain ∧ e.num < e''.num)) :=
        fun hh => hafter ⟨e'', he'', c1, hh⟩
      omega
    · have : (!w) ≠ w := by cases w <;> decide
      simp only [if_neg this]
      exact hv
  have := deliver hI' hlen he hw hnew (.inr hafter) (by intro k _; simp) hwin now
  exact this

/-! ## C10, C11: authenticity and replay -/

/-- Whatever the attacker assembles: if `Decrypt` succeeds, the result is the plaintext the peer
encrypted into exactly that ciphertext, and it had not been decrypted before. -/
theorem C10_only_what_was_sent {ka kb pa pb ra rb c} (h : Reach ka kb pa pb ra rb c)
    (hlen : c.wire.length + 1 < u32) (w : Bool) (ct : Ct)
    (hl : CanAssemble (sharedKey ka kb ra rb) c.wire ct) (now : Int) (m : Bytes)
    (hd : (decrypt (c.st w) now ct).1 = .ok m) :
    ∃ e ∈ c.wire, e.who = (!w) ∧ e.ct = ct ∧ e.msg = m ∧ ct ∉ c.acc w := by
  obtain ⟨p, r, k, hI⟩ := inv_reach h hlen
  rcases recv_party (hI.pi w) hI.wi (hI.toTop w) hlen now hl with
    ⟨e, he, hct, hw, hacc, R', r', k', hd', _⟩ | ⟨res, R', hd', hres, _⟩
  · rw [hd'] at hd
    simp only [Res.ok.injEq] at hd
    exact ⟨e, he, hw, hct, hd, hacc⟩
  · rw [hd'] at hd
    exact absurd hd (hres m)

/-- What the attacker can assemble stays assemblable. -/
inductive Later (sk : Key) : Conv → Conv → Prop
  | refl {c} : Later sk c c
  | step {c c' ev} : Later sk c c' → Legal sk c' ev → Later sk c (step c' ev)

theorem acc_mono {c : Conv} {w : Bool} {ct : Ct} (ev : Ev) (h : ct ∈ c.acc w) :
    ct ∈ (step c ev).acc w := by
  cases ev with
  | send v priv hn mn msg =>
    simp only [step]
    rcases encrypt (c.st v) priv hn mn msg with ⟨x, R⟩
    cases x <;> simpa using h
  | recv v now ct' =>
    simp only [step]
    rcases decrypt (c.st v) now ct' with ⟨x, R⟩
    cases x <;> simp only []
    · simp only [upd]
      split
      · rename_i hh; subst hh; exact List.mem_append_left _ h
      · exact h
    all_goals exact h
  | reload v now lifetime =>
    simp only [step]
    split <;> simpa using h

/-- A ciphertext that was decrypted once is refused forever after by the same party, whatever is
sent, received, saved and reloaded in between. -/
theorem C11_no_replay {ka kb pa pb ra rb c c'} (h : Reach ka kb pa pb ra rb c) (w : Bool) (ct : Ct)
    (hl : CanAssemble (sharedKey ka kb ra rb) c.wire ct) (now : Int) (m : Bytes)
    (hd : (decrypt (c.st w) now ct).1 = .ok m)
    (hlater : Later (sharedKey ka kb ra rb) (step c (.recv w now ct)) c')
    (hlen : c'.wire.length + 1 < u32) (now' : Int) (m' : Bytes) :
    (decrypt (c'.st w) now' ct).1 ≠ .ok m' := by
  have h1 : Reach ka kb pa pb ra rb (step c (.recv w now ct)) := .step h hl
  have hin : ct ∈ (step c (.recv w now ct)).acc w := by
    simp only [step]
    rcases hx : decrypt (c.st w) now ct with ⟨x, R⟩
    rw [hx] at hd
    simp only [] at hd
    subst hd
    simp [upd]
  have key : ∀ {c''}, Later (sharedKey ka kb ra rb) (step c (.recv w now ct)) c'' →
      Reach ka kb pa pb ra rb c'' ∧ ct ∈ c''.acc w := by
    intro c'' hL
    induction hL with
    | refl => exact ⟨h1, hin⟩
    | step _ hleg ih => exact ⟨.step ih.1 hleg, acc_mono _ ih.2⟩
  obtain ⟨hr, ha⟩ := key hlater
  intro hd'
  obtain ⟨p, r, k, hI⟩ := inv_reach hr hlen
  obtain ⟨e, he, hct⟩ := hI.accW w ct ha
  have hl' : CanAssemble (sharedKey ka kb ra rb) c'.wire ct := by
    obtain ⟨_, _, _, hn, mn, hs⟩ := hI.wi.shape e he
    rw [← hct, hs]
    exact ⟨.inl ⟨e, he, hn, _, hs⟩, .inl ⟨e, he, hn, _, hs⟩⟩
  obtain ⟨_, _, _, _, _, hna⟩ := C10_only_what_was_sent hr hlen w ct hl' now' m' hd'
  exact hna ha

/-! ## C14: message keys -/

/-- All messages of a conversation, by both parties, are sealed, and under pairwise different
keys. -/
theorem C14_keys_never_reused {ka kb pa pb ra rb c} (h : Reach ka kb pa pb ra rb c)
    (hlen : c.wire.length + 1 < u32) :
    (∀ e ∈ c.wire, (bodyKey e.ct).isSome) ∧ (c.wire.map fun e => bodyKey e.ct).Nodup := by
  obtain ⟨p, r, k, hI⟩ := inv_reach h hlen
  have hb : ∀ e ∈ c.wire, bodyKey e.ct = some (mk (sharedKey ka kb ra rb) p e.chain e.num) := by
    intro e he
    obtain ⟨_, _, _, hn, mn, hs⟩ := hI.wi.shape e he
    rw [hs]; rfl
  refine ⟨fun e he => by rw [hb e he]; rfl, ?_⟩
  unfold List.Nodup
  rw [List.pairwise_map]
  refine List.Pairwise.imp_of_mem ?_ hI.wi.nodup
  intro e e' he he' hne heq
  rw [hb e he, hb e' he'] at heq
  simp only [Option.some.injEq] at heq
  exact hne (mk_inj (hI.wi.shape e he).1 (hI.wi.shape e' he').1 heq)

end Verif.Ratchet
