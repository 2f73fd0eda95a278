import Verif.Proofs.RatchetOps

/-! The invariant of a ratchet conversation and its preservation by `Decrypt`. -/

namespace Verif.Ratchet

open Verif

/-- A ratchet that sends on chain `s` and has received the first `k` keys of chain `r`. -/
structure PV (sk : Key) (p sent : Nat → Nat) (R : Ratchet) (s r k : Nat) : Prop where
  adj : s = r + 1 ∨ s + 1 = r
  root : R.rootKey = rootOf sk p (max s r)
  shk : R.sendHeaderKey = hk sk p s
  sck : R.sendChainKey = ck sk p s (sent s)
  scnt : R.sendCount = sent s
  prev : R.prevSendCount = sent (s - 2)
  nshk : R.nextSendHeaderKey = hk sk p (s + 2)
  rhk : R.recvHeaderKey = hk sk p r
  rck : R.recvChainKey = ck sk p r k
  rcnt : R.recvCount = k
  nrhk : R.nextRecvHeaderKey = hk sk p (r + 2)
  rpub : 1 ≤ r → R.recvPub = .of (p r)
  flag : R.ratchet = true ↔ s + 1 = r
  priv : s = r + 1 → R.sendPriv = p s
  kle : k ≤ sent r

/-- How many keys of chain `j` the receiver has passed. -/
def lim (sent : Nat → Nat) (r k j : Nat) : Nat := if j = r then k else sent j

/-- A wire entry is what `Encrypt` makes. -/
def Shape (sk : Key) (p sent : Nat → Nat) (e : Sent) : Prop :=
  1 ≤ e.chain ∧ (e.who = true ↔ e.chain % 2 = 0) ∧ e.num < sent e.chain ∧
  ∃ hn mn, e.ct = .mk hn
    (.sealed (hk sk p e.chain) hn ⟨e.num, sent (e.chain - 2), .of (p e.chain), mn⟩)
    (.sealed (mk sk p e.chain e.num) mn e.msg)

/-- The wire. -/
structure WI (sk : Key) (p : Nat → Nat) (wire : List Sent) : Prop where
  shape : ∀ e ∈ wire, Shape sk p (sentOn wire) e
  uniq : ∀ e ∈ wire, ∀ e' ∈ wire, e.chain = e'.chain → e.num = e'.num → e = e'
  nodup : wire.Pairwise fun e e' => ¬ (e.chain = e'.chain ∧ e.num = e'.num)
  full : ∀ j n, n < sentOn wire j → ∃ e ∈ wire, e.chain = j ∧ e.num = n

/-- Everything about one party. -/
structure PI (sk : Key) (p : Nat → Nat) (wire : List Sent) (w : Bool) (R : Ratchet) (s r k : Nat)
    (acc : List Ct) (lost : List Key) : Prop where
  pv : PV sk p (sentOn wire) R s r k
  par : r % 2 = if w then 1 else 0
  wfs : WFS R.saved
  sound : ∀ h n v, get2 R.saved h n = some v → ∃ j, 1 ≤ j ∧ j ≤ r ∧ j % 2 = r % 2 ∧
    h = hk sk p j ∧ n < lim (sentOn wire) r k j ∧ v.key = mk sk p j n ∧
    ∀ e ∈ wire, e.chain = j → e.num = n → e.ct ∉ acc
  complete : ∀ e ∈ wire, e.who = !w → e.chain ≤ r → e.num < lim (sentOn wire) r k e.chain →
    e.msg ≠ [] → e.ct ∉ acc → mk sk p e.chain e.num ∉ lost →
    ∃ v, get2 R.saved (hk sk p e.chain) e.num = some v
  accOk : ∀ e ∈ wire, e.ct ∈ acc → e.who = (!w) ∧ e.chain ≤ r ∧
    e.num < lim (sentOn wire) r k e.chain
  last : (k = 0 ∧ r ≤ 1) ∨ ∃ e ∈ wire, e.chain = r ∧ e.num + 1 = k ∧ e.ct ∈ acc

theorem sentOn_zero {sk p wire} (h : WI sk p wire) : sentOn wire 0 = 0 := by
  unfold sentOn
  rw [List.length_eq_zero_iff, List.filter_eq_nil_iff]
  intro e he
  have := (h.shape e he).1
  simp; omega

theorem sentOn_le (wire : List Sent) (j : Nat) : sentOn wire j ≤ wire.length :=
  List.length_filter_le _ _

/-- Ciphertexts identify messages. -/
theorem ct_inj {sk p wire} (h : WI sk p wire) {e e' : Sent} (he : e ∈ wire) (he' : e' ∈ wire)
    (hc : e.ct = e'.ct) : e = e' := by
  obtain ⟨_, _, _, hn, mn, h1⟩ := h.shape e he
  obtain ⟨_, _, _, hn', mn', h2⟩ := h.shape e' he'
  rw [h1, h2] at hc
  simp only [Ct.mk.injEq, HBox.sealed.injEq, Header.mk.injEq] at hc
  exact h.uniq e he e' he' (hk_inj hc.2.1.1) hc.2.1.2.2.1

/-- A message that opens under a message key of the session is the one sealed under it. -/
theorem body_from_wire {sk p wire} (h : WI sk p wire) {e : Sent} (he : e ∈ wire) {m : MBox}
    (hb : bodyOk sk wire m) {n : Nat} {msg : Bytes}
    (ho : openM (mk sk p e.chain e.num) n m = some msg) :
    msg = e.msg ∧ ∃ hn h, e.ct = .mk hn h m ∧ m = .sealed (mk sk p e.chain e.num) n msg := by
  cases m with
  | junk i => simp [openM] at ho
  | sealed k' n' m' =>
    simp only [openM] at ho
    split at ho
    · rename_i hkn
      obtain ⟨rfl, rfl⟩ := hkn
      simp only [Option.some.injEq] at ho
      subst ho
      have h1 := (h.shape e he).1
      rcases hb with ⟨e', he', hn, hh, hct⟩ | hnd
      · obtain ⟨h1', _, _, hn', mn', h2⟩ := h.shape e' he'
        rw [hct] at h2
        simp only [Ct.mk.injEq, MBox.sealed.injEq] at h2
        obtain ⟨hj, hnum⟩ := mk_inj h1 h1' h2.2.2.1
        have := h.uniq e he e' he' hj hnum
        subst this
        exact ⟨h2.2.2.2.2, hn, hh, hct, rfl⟩
      · exact absurd (derived_mk h1) hnd
    · simp at ho

/-- An admissible header either opens under no header key of the session, or is the header of
a message on the wire. -/
theorem header_cases {sk p wire} (h : WI sk p wire) {hb : HBox} (hl : headerOk sk wire hb)
    (hn : Nat) :
    (∀ j, 1 ≤ j → openH (hk sk p j) hn hb = none) ∨
    ∃ e ∈ wire, ∃ mn, e.ct = .mk hn hb (.sealed (mk sk p e.chain e.num) mn e.msg) ∧
      hb = .sealed (hk sk p e.chain) hn
        ⟨e.num, sentOn wire (e.chain - 2), .of (p e.chain), mn⟩ := by
  cases hb with
  | junk i => left; intro j _; rfl
  | sealed k n hdr =>
    rcases hl with ⟨e, he, hn', m, hct⟩ | hnd
    · obtain ⟨_, _, _, hn'', mn, h1⟩ := h.shape e he
      have h1' := h1
      rw [hct] at h1'
      simp only [Ct.mk.injEq, HBox.sealed.injEq] at h1'
      obtain ⟨e1, ⟨e2, e3, e4⟩, e5⟩ := h1'
      by_cases hnn : n = hn
      · right
        refine ⟨e, he, mn, ?_, ?_⟩
        · rw [hct, e5]; subst hnn; rw [e1, e3]
        · subst hnn; rw [e2, e4]
      · left; intro j _; simp [openH, hnn]
    · left
      intro j hj
      have : k ≠ hk sk p j := by rintro rfl; exact hnd (derived_hk hj)
      simp [openH, this]

theorem openH_self {k : Key} {n : Nat} {h : Header} : openH k n (.sealed k n h) = some h := by
  simp [openH]

theorem openH_ne {k k' : Key} {n n' : Nat} {h : Header} (hne : k' ≠ k) :
    openH k n (.sealed k' n' h) = none := by simp [openH, hne]

/-- A header that is not for us is refused. -/
theorem decrypt_foreign {sk p wire w R s r k acc lost} (hP : PI sk p wire w R s r k acc lost)
    {hn : Nat} {hb : HBox} {m : MBox} (now : Int)
    (hf : ∀ j, 1 ≤ j → j % 2 = r % 2 → openH (hk sk p j) hn hb = none) :
    decrypt R now (.mk hn hb m) = (.err, R) := by
  have htry : tryLoop R.saved hn hb m R.saved = .nothing := by
    cases hb with
    | junk i => exact tryLoop_junk ..
    | sealed k' n hdr =>
      by_cases hnn : n = hn
      · subst hnn
        rw [tryLoop_sealed]
        rcases hg : GoMap.get R.saved k' with _ | keys
        · rfl
        · simp only []
          rcases hg2 : GoMap.get keys hdr.num with _ | v
          · rfl
          · exfalso
            obtain ⟨j, h1, _, h3, h4, _⟩ := hP.sound k' hdr.num v (by simp [get2, hg, hg2])
            have := hf j h1 h3
            rw [← h4, openH_self] at this
            simp at this
      · exact tryLoop_nonce _ _ hnn _
  have h1 : (if R.recvHeaderKey = .zero then none else openH R.recvHeaderKey hn hb) = none := by
    rw [hP.pv.rhk]
    by_cases hr : r = 0
    · subst hr; rfl
    · rw [hf r (by omega) rfl]; split <;> rfl
  have h2 : openH R.nextRecvHeaderKey hn hb = none := by
    rw [hP.pv.nrhk]
    exact hf (r + 2) (by omega) (by omega)
  simp only [decrypt, htry, decryptNew, h1, h2]

/-- The saved-key lookup for a header of chain `j`. -/
theorem try_entry {sk p : _} {all : Saved} {hn : Nat} {j : Nat} {hdr : Header} {m : MBox} :
    tryLoop all hn (.sealed (hk sk p j) hn hdr) m all =
      match get2 all (hk sk p j) hdr.num with
      | none => .nothing
      | some v =>
        match openM v.key hdr.nonce m with
        | none => .failed
        | some msg =>
          match GoMap.get all (hk sk p j) with
          | none => .failed
          | some keys =>
            .opened msg (if keys.del hdr.num = [] then all.del (hk sk p j)
              else all.set (hk sk p j) (keys.del hdr.num)) := by
  rw [tryLoop_sealed]
  unfold get2
  rcases hg : GoMap.get all (hk sk p j) with _ | keys
  · rfl
  · simp only [Option.bind_some]
    rcases GoMap.get keys hdr.num with _ | v
    · rfl
    · simp only []
      rcases openM v.key hdr.nonce m with _ | _ <;> rfl

/-- `decryptNew` refuses a message number that was passed already. -/
theorem decryptNew_late {sk p wire w R s r k acc lost} (hP : PI sk p wire w R s r k acc lost)
    {e : Sent} {hn mn pc : Nat} {pub : Pub} {m : MBox} (now : Int) (sv : Saved)
    (h1 : 1 ≤ e.chain) (hle : e.chain ≤ r) (hlim : e.num < lim (sentOn wire) r k e.chain) :
    decryptNew { R with saved := sv } now hn
      (.sealed (hk sk p e.chain) hn ⟨e.num, pc, pub, mn⟩) m = (.err, { R with saved := sv }) := by
  unfold decryptNew
  simp only [hP.pv.rhk, hP.pv.nrhk, hP.pv.rck, hP.pv.rcnt]
  by_cases hj : e.chain = r
  · rw [hj, if_neg (hk_ne_zero (by omega)), openH_self]
    simp only []
    rw [saveKeys_err]
    unfold lim at hlim
    rw [if_pos hj] at hlim
    exact hlim
  · have e1 : openH (hk sk p r) hn (.sealed (hk sk p e.chain) hn ⟨e.num, pc, pub, mn⟩) = none :=
      openH_ne (fun hh => hj (hk_inj hh))
    have e2 : openH (hk sk p (r + 2)) hn (.sealed (hk sk p e.chain) hn ⟨e.num, pc, pub, mn⟩)
        = none := openH_ne (fun hh => by have := hk_inj hh; omega)
    rw [e1, e2]
    split <;> simp_all

/-- State of the current chain after receiving message `n` of it. -/
def afterCur (R : Ratchet) (now : Int) (n : Nat) : Ratchet :=
  { R with
    recvChainKey := (advance R.recvChainKey R.recvCount now (n - R.recvCount)).1
    saved := mergeSavedKeys R.saved (if n - R.recvCount = 0 then none else
      some (R.recvHeaderKey, (advance R.recvChainKey R.recvCount now (n - R.recvCount)).2.2))
    recvCount := (n + 1) % u32 }

/-- State after receiving message `n` of the next chain. -/
def afterNext (R : Ratchet) (km : Key) (now : Int) (n pc : Nat) (pub : Pub) : Ratchet :=
  { R with
    rootKey := .hmac .rootKey km
    recvChainKey := (advance (.hmac .chainKey km) 0 now (n - 0)).1
    recvHeaderKey := R.nextRecvHeaderKey
    nextRecvHeaderKey := .hmac .sendHeaderKey km
    sendPriv := 0
    recvPub := pub
    recvCount := (n + 1) % u32
    saved := mergeSavedKeys (mergeSavedKeys R.saved (if pc - R.recvCount = 0 then none else
        some (R.recvHeaderKey, (advance R.recvChainKey R.recvCount now (pc - R.recvCount)).2.2)))
      (if n - 0 = 0 then none else
        some (R.nextRecvHeaderKey, (advance (.hmac .chainKey km) 0 now (n - 0)).2.2))
    ratchet := true }

/-- `decryptNew` on a message of the current chain. -/
theorem decryptNew_cur {sk p wire w R s r k acc lost} (hP : PI sk p wire w R s r k acc lost)
    {e : Sent} {hn mn pc : Nat} {pub : Pub} {m : MBox} (now : Int)
    (h1 : 1 ≤ e.chain) (hj : e.chain = r) (hkn : k ≤ e.num) (hu : e.num + 1 < u32) :
    decryptNew R now hn (.sealed (hk sk p e.chain) hn ⟨e.num, pc, pub, mn⟩) m =
      if e.num - k ≤ maxMissing then
        match openM (mk sk p e.chain e.num) mn m with
        | none => (.err, R)
        | some msg => (.ok msg, afterCur R now e.num)
      else (.err, R) := by
  unfold decryptNew
  have hz : R.recvHeaderKey ≠ .zero := by
    rw [hP.pv.rhk]; exact hk_ne_zero (by omega)
  rw [if_neg hz]
  have ho : openH R.recvHeaderKey hn (.sealed (hk sk p e.chain) hn ⟨e.num, pc, pub, mn⟩)
      = some ⟨e.num, pc, pub, mn⟩ := by
    rw [hP.pv.rhk, hj]; exact openH_self
  rw [ho]
  simp only []
  by_cases hw : e.num - k ≤ maxMissing
  · rw [if_pos hw, saveKeys_ok (by rw [hP.pv.rcnt]; exact hkn) (by rw [hP.pv.rcnt]; exact hw) hu]
    simp only []
    have hmk : (advance R.recvChainKey R.recvCount now (e.num - R.recvCount)).2.1
        = mk sk p e.chain e.num := by
      rw [hP.pv.rck, hP.pv.rcnt, (advance_spec sk p r now _ _).2.1, hj]
      congr 1; omega
    rw [hmk]
    rcases openM (mk sk p e.chain e.num) mn m with _ | msg <;> rfl
  · rw [if_neg hw]
    have : saveKeys R.recvHeaderKey R.recvChainKey e.num R.recvCount now = .err := by
      unfold saveKeys
      rw [hP.pv.rcnt, if_neg (by omega)]
      simp only []
      rw [if_pos (by omega)]
    rw [this]

/-- Key material computed by the receiver of the first message of a new chain. -/
theorem mix_next {sk : Key} {p : Nat → Nat} {r : Nat} :
    mixDH (rootOf sk p (r + 1)) (p (r + 1)) (.of (p (r + 2))) = some (mat sk p (r + 2)) := by
  simp only [mixDH]
  rw [mat_succ (by omega)]

/-- `decryptNew` on a message of the next chain. -/
theorem decryptNew_next {sk p wire w R s r k acc lost} (hP : PI sk p wire w R s r k acc lost)
    {e : Sent} {hn mn : Nat} {m : MBox} (now : Int)
    (hj : e.chain = r + 2) (hs : s = r + 1) (hu : e.num + 1 < u32)
    (hu' : sentOn wire r + 1 < u32) :
    decryptNew R now hn (.sealed (hk sk p e.chain) hn
        ⟨e.num, sentOn wire (e.chain - 2), .of (p e.chain), mn⟩) m =
      if sentOn wire r - k ≤ maxMissing ∧ e.num ≤ maxMissing then
        match openM (mk sk p e.chain e.num) mn m with
        | none => (.err, R)
        | some msg => (.ok msg, afterNext R (mat sk p (r + 2)) now e.num (sentOn wire r)
            (.of (p (r + 2))))
      else (.err, R) := by
  have hpc : e.chain - 2 = r := by omega
  rw [hpc]
  unfold decryptNew
  have h1 : (if R.recvHeaderKey = .zero then none else
      openH R.recvHeaderKey hn (.sealed (hk sk p e.chain) hn
        ⟨e.num, sentOn wire r, .of (p e.chain), mn⟩)) = none := by
    rw [hP.pv.rhk, openH_ne (fun hh => by have := hk_inj hh; omega)]
    split <;> rfl
  rw [h1]
  simp only []
  have h2 : openH R.nextRecvHeaderKey hn (.sealed (hk sk p e.chain) hn
        ⟨e.num, sentOn wire r, .of (p e.chain), mn⟩) =
        some ⟨e.num, sentOn wire r, .of (p e.chain), mn⟩ := by
    rw [hP.pv.nrhk, hj]; exact openH_self
  rw [h2]
  simp only []
  have hfl : R.ratchet = false := by
    have := hP.pv.flag
    rcases hR : R.ratchet with _ | _
    · rfl
    · rw [hR] at this; have := this.mp rfl; omega
  rw [hfl]
  simp only [Bool.false_eq_true, if_false]
  have hkle := hP.pv.kle
  by_cases hw1 : sentOn wire r - k ≤ maxMissing
  · rw [saveKeys_ok (by rw [hP.pv.rcnt]; exact hkle) (by rw [hP.pv.rcnt]; exact hw1) hu']
    simp only []
    have hmx : mixDH R.rootKey R.sendPriv (.of (p e.chain)) = some (mat sk p (r + 2)) := by
      rw [hP.pv.root, hP.pv.priv hs, hs, hj]
      have : max (r + 1) r = r + 1 := by omega
      rw [this]
      exact mix_next
    rw [hmx]
    simp only []
    by_cases hw2 : e.num ≤ maxMissing
    · have hw12 : sentOn wire r - k ≤ maxMissing ∧ e.num ≤ maxMissing := ⟨hw1, hw2⟩
      rw [if_pos hw12, saveKeys_ok (by omega) (by omega) hu]
      simp only []
      have hmk : (advance (.hmac .chainKey (mat sk p (r + 2))) 0 now (e.num - 0)).2.1
          = mk sk p e.chain e.num := by
        have hck : Key.hmac .chainKey (mat sk p (r + 2)) = ck sk p (r + 2) 0 := by
          simp [ck]
        rw [hck, (advance_spec sk p (r + 2) now _ _).2.1, hj]
        congr 1; omega
      rw [hmk]
      rcases openM (mk sk p e.chain e.num) mn m with _ | msg
      · rfl
      · simp only [afterNext, hj]
    · have hw12 : ¬ (sentOn wire r - k ≤ maxMissing ∧ e.num ≤ maxMissing) := by
        rintro ⟨_, h⟩; exact hw2 h
      rw [if_neg hw12]
      have : saveKeys R.nextRecvHeaderKey (.hmac .chainKey (mat sk p (r + 2))) e.num 0 now
          = .err := by
        unfold saveKeys
        rw [if_neg (by omega)]
        simp only []
        rw [if_pos (by omega)]
      rw [this]
  · have hw12 : ¬ (sentOn wire r - k ≤ maxMissing ∧ e.num ≤ maxMissing) := by
      rintro ⟨h, _⟩; exact hw1 h
    rw [if_neg hw12]
    have : saveKeys R.recvHeaderKey R.recvChainKey (sentOn wire r) R.recvCount now = .err := by
      unfold saveKeys
      rw [hP.pv.rcnt, if_neg (by omega)]
      simp only []
      rw [if_pos (by omega)]
    rw [this]

end Verif.Ratchet
