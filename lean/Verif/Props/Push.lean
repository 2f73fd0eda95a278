import Verif.Model.Push
import Verif.Props.Crpc
import Verif.Props.Blob
import Verif.Proofs.GoMap

/-! # C55: packets from strangers -/

namespace Verif.Push

open Verif Verif.Identity

variable {R K : Type}

/-! ## Specification -/

/-- The client has never heard of `id`. -/
def Stranger (s : State R) (id : Bytes) : Prop := s.ids.get id = none

/-- Opening a packet of a stranger gives `d`: with one of the blob keys, or in directory mode with the
key encapsulated to us in front of it. -/
def Opens (E : Env R K) (payload d : Bytes) : Prop :=
  (E.directory = false ∧ ∃ nonce ct k, payload = nonce ++ ct ∧ nonce.length = 24 ∧ some k ∈ E.keys ∧
    E.box.openB k nonce ct = some d) ∨
  (E.directory = true ∧ ∃ c nonce ct k, payload = c ++ (nonce ++ ct) ∧ c.length = 1047 ∧
    nonce.length = 24 ∧ E.decap c = some k ∧ E.box.openB k nonce ct = some d)

/-- Payloads on which slicing off the nonce goes beyond the end. -/
def TooShort (E : Env R K) (payload : Bytes) : Prop :=
  (E.directory = false ∧ payload ≠ [] ∧ payload.length < 24) ∨
  (E.directory = true ∧ 1047 ≤ payload.length ∧ payload.length < 1071 ∧
    (E.decap (payload.take 1047)).isSome)

/-- The contact `pid`, and nothing else, has been added. -/
def Added (s s' : State R) (pid : PublicIdentity) (r : R) : Prop :=
  s'.ids.get pid.identity = some pid ∧ s'.ratchets.get pid.identity = some r ∧
  (∀ id, id ≠ pid.identity → s'.ids.get id = s.ids.get id ∧ s'.ratchets.get id = s.ratchets.get id) ∧
  s'.halves = s.halves

/-- The full claim. -/
def C55_full : Prop :=
  ∀ (R K : Type) (P : Prims) (E : Env R K) (s : State R) (p : Packet),
    (handlePush E s p).1 ≠ .panic ∧
    (Stranger s p.from_ →
      (∃ pid r, (handlePush E s p).1 = .ok .contact ∧ Added s (handlePush E s p).2 pid r ∧
        pid.identity = p.from_ ∧ verify P pid = true) ∨
      (∃ e, (handlePush E s p).1 = .err e ∧ (handlePush E s p).2 = s))

/-! ## Lemmas -/

theorem tryKeys_some {E : Env R K} {nonce ct d : Bytes} {ks : List (Option Bytes)}
    (h : tryKeys E nonce ct ks = some d) : ∃ k, some k ∈ ks ∧ E.box.openB k nonce ct = some d := by
  induction ks with
  | nil => simp [tryKeys] at h
  | cons x xs ih =>
    cases x with
    | none => obtain ⟨k, hk, ho⟩ := ih h; exact ⟨k, List.mem_cons_of_mem _ hk, ho⟩
    | some k =>
      simp only [tryKeys, Blob.decrypt] at h
      split at h
      case h_1 d' hd => exact ⟨k, by simp, by rw [hd, ← h]⟩
      case h_2 hd => obtain ⟨k', hk, ho⟩ := ih h; exact ⟨k', List.mem_cons_of_mem _ hk, ho⟩

/-- There is an identity on file, with a ratchet or the half of one. -/
def Usable (s : State R) (id : Bytes) : Prop :=
  s.ids.get id ≠ none ∧ (s.ratchets.get id ≠ none ∨ s.halves.get id ≠ none)

theorem exists_iff (s : State R) (id : Bytes) : identityExists s id = true ↔ Usable s id := by
  simp only [identityExists, Usable, Bool.and_eq_true, Bool.or_eq_true, Option.isSome_iff_ne_none]

theorem not_exists_iff (s : State R) (id : Bytes) : identityExists s id = false ↔ ¬ Usable s id := by
  rw [← exists_iff, Bool.not_eq_true]

/-- What comes of a decrypted IdentityKX. -/
theorem acceptIDKX_cases (E : Env R K) (s : State R) (d : Bytes) :
    (∃ e, acceptIDKX E s d = (.err e, s)) ∨
    ∃ pid kx r, E.decodeIDKX d = some (pid, kx) ∧ E.accept pid kx = some r ∧ pid.identity ≠ E.me ∧
      identityExists s pid.identity = false ∧
      ((E.canSend = true ∧ acceptIDKX E s d = (.ok .contact,
          ⟨s.ids.set pid.identity pid, s.ratchets.set pid.identity r, s.halves, s.book ++ [pid],
            s.sent ++ [pid.identity]⟩)) ∨
       (E.canSend = false ∧ acceptIDKX E s d = (.err .offline,
          ⟨s.ids.set pid.identity pid, s.ratchets.set pid.identity r, s.halves, s.book, s.sent⟩))) := by
  unfold acceptIDKX
  rcases h1 : E.decodeIDKX d with _ | ⟨pid, kx⟩
  · exact Or.inl ⟨_, rfl⟩
  simp only
  by_cases h2 : pid.identity = E.me
  · exact Or.inl ⟨.self, by rw [if_pos h2]⟩
  rw [if_neg h2]
  rcases h3 : E.accept pid kx with _ | r
  · exact Or.inl ⟨_, rfl⟩
  simp only
  by_cases h4 : identityExists s pid.identity = true
  · exact Or.inl ⟨.exists_, by rw [if_pos h4]⟩
  rw [if_neg h4]
  right
  refine ⟨pid, kx, r, rfl, h3, h2, by simpa using h4, ?_⟩
  by_cases h5 : E.canSend = true
  · left; refine ⟨h5, ?_⟩
    rw [if_pos h5, addressBookAdd, if_neg (fun h => h2 h.symm)]
  · right; refine ⟨by simpa using h5, ?_⟩
    rw [if_neg h5]

/-- What a packet of someone without usable contact leads to. -/
theorem step_cases (E : Env R K) (s : State R) (payload : Bytes) :
    let r := if E.directory then step2dir E s payload else step2 E s payload
    (r = (.panic, s) ∧ TooShort E payload) ∨ (¬ TooShort E payload ∧
      ((∃ e, r = (.err e, s)) ∨ ∃ d, Opens E payload d ∧ r = acceptIDKX E s d)) := by
  intro r
  by_cases hd : E.directory = true
  · have hr : r = step2dir E s payload := by simp [r, hd]
    rw [hr]
    unfold step2dir
    by_cases h0 : payload = []
    · right; exact ⟨by simp [TooShort, hd, h0], Or.inl ⟨_, if_pos h0⟩⟩
    rw [if_neg h0]
    by_cases h1 : payload.length < ciphertextSize
    · right; exact ⟨by simp [TooShort, hd]; unfold ciphertextSize at h1; omega, Or.inl ⟨_, if_pos h1⟩⟩
    rw [if_neg h1]
    unfold ciphertextSize at h1 ⊢
    rcases h2 : E.decap (payload.take 1047) with _ | k
    · right; exact ⟨by simp [TooShort, hd, h2], Or.inl ⟨_, rfl⟩⟩
    simp only [Blob.unpackNonce]
    by_cases h3 : (payload.drop 1047).length < 24
    · left
      rw [if_pos h3]
      refine ⟨rfl, Or.inr ⟨hd, by omega, ?_, by simp [h2]⟩⟩
      simp at h3; omega
    · right
      rw [if_neg h3]
      simp only [List.length_drop] at h3
      refine ⟨by simp [TooShort, hd]; omega, ?_⟩
      simp only [Blob.decrypt]
      rcases h4 : E.box.openB k ((payload.drop 1047).take 24) ((payload.drop 1047).drop 24) with _ | d
      · exact Or.inl ⟨_, rfl⟩
      · refine Or.inr ⟨d, Or.inr ⟨hd, payload.take 1047, (payload.drop 1047).take 24,
          (payload.drop 1047).drop 24, k, ?_, ?_, ?_, h2, h4⟩, rfl⟩
        · rw [List.take_append_drop, List.take_append_drop]
        · simp; omega
        · simp; omega
  · have hd' : E.directory = false := by simpa using hd
    have hr : r = step2 E s payload := by simp [r, hd]
    rw [hr]
    unfold step2
    by_cases h0 : payload = []
    · right; exact ⟨by simp [TooShort, h0], Or.inl ⟨_, if_pos h0⟩⟩
    rw [if_neg h0]
    simp only [Blob.unpackNonce]
    by_cases h3 : payload.length < 24
    · left; rw [if_pos h3]; exact ⟨rfl, Or.inl ⟨hd', h0, h3⟩⟩
    · right
      rw [if_neg h3]
      refine ⟨by simp [TooShort, hd']; omega, ?_⟩
      simp only
      rcases h4 : tryKeys E (payload.take 24) (payload.drop 24) E.keys with _ | d
      · exact Or.inl ⟨_, rfl⟩
      · obtain ⟨k, hk, ho⟩ := tryKeys_some h4
        refine Or.inr ⟨d, Or.inl ⟨hd', payload.take 24, payload.drop 24, k, ?_, ?_, hk, ho⟩, rfl⟩
        · rw [List.take_append_drop]
        · simp; omega

theorem loadRatchet_id {s : State R} {id : Bytes} {h : Bool} {r : R} {pid : PublicIdentity}
    (hl : loadRatchet s id h = some (r, pid)) : s.ids.get id = some pid := by
  unfold loadRatchet at hl
  split at hl
  · next r' p' _ hg =>
    simp only [Option.some.injEq, Prod.mk.injEq] at hl
    rw [hg, hl.2]
  · cases hl

/-! ## C55 -/

/-- **C55** (partial): every packet of a stranger either crashes the client (exactly if it is too short to
contain the nonce), or is refused without effect, or adds exactly one contact: the one named in a key
exchange message that opens under one of our blob keys (or, in directory mode, under a key encapsulated to
us), that is not ourselves and for which there was no usable contact; in the last case the answer can only
be an error if we are offline. Missing for the full claim: the crash, and that the new contact is the sender
of the packet and authentic. -/
theorem C55_stranger_partial (E : Env R K) (s : State R) (p : Packet) (hs : Stranger s p.from_) :
    ((handlePush E s p).1 = .panic ↔
      p.from_ ≠ List.replicate 32 0 ∧ p.cleartext = false ∧ TooShort E p.payload) ∧
    ((handlePush E s p).2 = s ∧ (∀ x, (handlePush E s p).1 ≠ .ok x) ∨
      ∃ d pid kx r, Opens E p.payload d ∧ E.decodeIDKX d = some (pid, kx) ∧ E.accept pid kx = some r ∧
        pid.identity ≠ E.me ∧ ¬ Usable s pid.identity ∧
        Added s (handlePush E s p).2 pid r ∧
        ((handlePush E s p).1 = .ok .contact ∧ (handlePush E s p).2.book = s.book ++ [pid] ∨
         (handlePush E s p).1 = .err .offline ∧ E.canSend = false)) := by
  unfold Stranger at hs
  by_cases h0 : p.from_ = List.replicate 32 0
  · have e : handlePush E s p = (.err .invalidIdentity, s) := if_pos h0
    rw [e]; simp [h0]
  by_cases h1 : p.cleartext = true
  · have e : ∃ x, handlePush E s p = (.err x, s) := by
      unfold handlePush
      rw [if_neg h0, if_pos h1, handleCleartext]
      rcases E.decodeProxy p.payload with _ | _ | _
      · exact ⟨_, rfl⟩
      · exact ⟨_, rfl⟩
      · exact ⟨.unknownIdentity, by simp [handleReset, hs]⟩
    obtain ⟨x, e⟩ := e
    rw [e]; simp [h1]
  have h2 : identityExists s p.from_ = false := by simp [identityExists, hs]
  have e : handlePush E s p = if E.directory then step2dir E s p.payload else step2 E s p.payload := by
    unfold handlePush
    rw [if_neg h0, if_neg h1, if_pos h2]
  rw [e]
  have h1' : p.cleartext = false := by simpa using h1
  rcases step_cases E s p.payload with ⟨hr, ht⟩ | ⟨ht, ⟨x, hr⟩ | ⟨d, ho, hr⟩⟩
  · rw [hr]
    exact ⟨⟨fun _ => ⟨h0, h1', ht⟩, fun _ => rfl⟩, Or.inl ⟨rfl, by simp⟩⟩
  · rw [hr]; simp [ht]
  · rw [hr]
    rcases acceptIDKX_cases E s d with ⟨x, ha⟩ | ⟨pid, kx, r, hd, hx, hm, hi, ha⟩
    · rw [ha]; simp [ht]
    · have key : ∀ b t, Added s ⟨s.ids.set pid.identity pid, s.ratchets.set pid.identity r, s.halves, b, t⟩ pid r :=
        fun b t => ⟨GoMap.get_set_self _ _ _, GoMap.get_set_self _ _ _,
          fun id hid => ⟨GoMap.get_set_ne _ _ (Ne.symm hid), GoMap.get_set_ne _ _ (Ne.symm hid)⟩, rfl⟩
      rcases ha with ⟨hc, ha⟩ | ⟨hc, ha⟩
      · rw [ha]
        exact ⟨by simp [ht], Or.inr ⟨d, pid, kx, r, ho, hd, hx, hm, (not_exists_iff s _).1 hi, key _ _, Or.inl ⟨rfl, rfl⟩⟩⟩
      · rw [ha]
        exact ⟨by simp [ht], Or.inr ⟨d, pid, kx, r, ho, hd, hx, hm, (not_exists_iff s _).1 hi, key _ _, Or.inr ⟨rfl, hc⟩⟩⟩

/-- Every identity file lies in the directory named after the identity in it. -/
def Filed (s : State R) : Prop := ∀ id pid, s.ids.get id = some pid → pid.identity = id

theorem filed_set {s : State R} (h : Filed s) (pid : PublicIdentity) (x : State R)
    (hx : x.ids = s.ids.set pid.identity pid) : Filed x := by
  intro id q hq
  rw [hx, GoMap.get_set] at hq
  split at hq
  · case isTrue e => simp only [Option.some.injEq] at hq; rw [← hq]; exact e
  · exact h id q hq

/-- **C55** (partial): no packet, whoever sends it, changes anything about a usable contact other than the
authenticated sender; and it never replaces the identity of the sender if that is a usable contact. -/
theorem contacts_kept (E : Env R K) (s : State R) (p : Packet) (hf : Filed s) :
    Filed (handlePush E s p).2 ∧
    ∀ id, identityExists s id = true →
      (handlePush E s p).2.ids.get id = s.ids.get id ∧
      (id ≠ p.from_ → (handlePush E s p).2.ratchets.get id = s.ratchets.get id ∧
        (handlePush E s p).2.halves.get id = s.halves.get id) := by
  have triv : Filed s ∧ ∀ id, identityExists s id = true → s.ids.get id = s.ids.get id ∧
      (id ≠ p.from_ → s.ratchets.get id = s.ratchets.get id ∧ s.halves.get id = s.halves.get id) :=
    ⟨hf, fun _ _ => ⟨rfl, fun _ => ⟨rfl, rfl⟩⟩⟩
  by_cases h0 : p.from_ = List.replicate 32 0
  · have e : handlePush E s p = (.err .invalidIdentity, s) := if_pos h0
    rw [e]; exact triv
  by_cases h1 : p.cleartext = true
  · have e : handlePush E s p = handleCleartext E s p := by
      unfold handlePush
      rw [if_neg h0, if_pos h1]
    rw [e, handleCleartext]
    rcases E.decodeProxy p.payload with _ | _ | _
    · exact triv
    · exact triv
    simp only [handleReset]
    rcases hg : s.ids.get p.from_ with _ | pid
    · exact triv
    have hpid := hf _ _ hg
    simp only
    have hb : ∀ (x : State R), x.ids = s.ids → x.ratchets = s.ratchets.del p.from_ →
        x.halves = s.halves.del p.from_ → Filed x ∧ ∀ id, identityExists s id = true →
          x.ids.get id = s.ids.get id ∧ (id ≠ p.from_ → x.ratchets.get id = s.ratchets.get id ∧
            x.halves.get id = s.halves.get id) := by
      intro x hx1 hx2 hx3
      refine ⟨fun id q hq => hf id q (by rw [← hx1]; exact hq), fun id _ => ⟨by rw [hx1], fun hne => ?_⟩⟩
      rw [hx2, hx3]
      exact ⟨GoMap.get_del_ne _ (Ne.symm hne), GoMap.get_del_ne _ (Ne.symm hne)⟩
    split
    · split
      · exact hb _ rfl rfl rfl
      · refine ⟨filed_set hf pid _ rfl, fun id hid => ⟨?_, fun hne => ?_⟩⟩
        · show GoMap.get (s.ids.set pid.identity pid) id = _
          rw [GoMap.get_set]
          split
          · next e' => rw [← e', hpid, hg]
          · rfl
        · refine ⟨GoMap.get_del_ne _ (Ne.symm hne), ?_⟩
          show GoMap.get (GoMap.set (s.halves.del p.from_) pid.identity _) id = _
          rw [hpid, GoMap.get_set_ne _ _ (Ne.symm hne), GoMap.get_del_ne _ (Ne.symm hne)]
    · exact hb _ rfl rfl rfl
  by_cases h2 : identityExists s p.from_ = false
  · have e : handlePush E s p = if E.directory then step2dir E s p.payload else step2 E s p.payload := by
      unfold handlePush
      rw [if_neg h0, if_neg h1, if_pos h2]
    rw [e]
    rcases step_cases E s p.payload with ⟨hr, ht⟩ | ⟨ht, ⟨x, hr⟩ | ⟨d, ho, hr⟩⟩
    · rw [hr]; exact triv
    · rw [hr]; exact triv
    · rw [hr]
      rcases acceptIDKX_cases E s d with ⟨x, ha⟩ | ⟨pid, kx, r, hd, hx, hm, hi, ha⟩
      · rw [ha]; exact triv
      · have hb : ∀ b t, let x : State R := ⟨s.ids.set pid.identity pid, s.ratchets.set pid.identity r, s.halves, b, t⟩
            Filed x ∧ ∀ id, identityExists s id = true →
          x.ids.get id = s.ids.get id ∧ (id ≠ p.from_ → x.ratchets.get id = s.ratchets.get id ∧
            x.halves.get id = s.halves.get id) := by
          intro b t x
          refine ⟨filed_set hf pid _ rfl, fun id hid => ?_⟩
          have hne : pid.identity ≠ id := by rintro rfl; rw [hi] at hid; cases hid
          exact ⟨GoMap.get_set_ne _ _ hne, fun _ => ⟨GoMap.get_set_ne _ _ hne, rfl⟩⟩
        rcases ha with ⟨hc, ha⟩ | ⟨hc, ha⟩ <;> · rw [ha]; exact hb _ _
  have hset : ∀ (x : State R) r, x.ids = s.ids → x.ratchets = s.ratchets.set p.from_ r →
      (x.halves = s.halves ∨ x.halves = s.halves.del p.from_) →
      Filed x ∧ ∀ id, identityExists s id = true →
        x.ids.get id = s.ids.get id ∧ (id ≠ p.from_ → x.ratchets.get id = s.ratchets.get id ∧
          x.halves.get id = s.halves.get id) := by
    intro x r hx1 hx2 hx3
    refine ⟨fun id q hq => hf id q (by rw [← hx1]; exact hq), fun id _ => ⟨by rw [hx1], fun hne => ⟨?_, ?_⟩⟩⟩
    · rw [hx2]; exact GoMap.get_set_ne _ _ (Ne.symm hne)
    · rcases hx3 with hx3 | hx3
      · rw [hx3]
      · rw [hx3]; exact GoMap.get_del_ne _ (Ne.symm hne)
  by_cases h3 : ratchetExists s p.from_ = false
  · have e : handlePush E s p = step3 E s p.from_ p.payload := by
      unfold handlePush
      rw [if_neg h0, if_neg h1, if_neg h2, if_pos h3]
    rw [e]
    unfold step3
    simp only [Blob.unpackNonce]
    by_cases h4 : p.payload.length < 24
    · rw [if_pos h4]; exact triv
    rw [if_neg h4]
    simp only
    rcases tryKeys E (p.payload.take 24) (p.payload.drop 24) E.keys with _ | d
    · exact triv
    simp only
    rcases E.decodeKX d with _ | kx
    · exact triv
    simp only
    rcases hl : loadRatchet s p.from_ true with _ | ⟨r, pid⟩
    · exact triv
    have hpid := hf _ _ (loadRatchet_id hl)
    simp only
    rcases E.complete r kx with _ | r'
    · exact triv
    simp only [hpid, ne_eq, not_true_eq_false, if_false, addressBookAdd]
    split
    · exact hset _ r' rfl rfl (Or.inr rfl)
    · exact hset _ r' rfl rfl (Or.inr rfl)
  · have e : handlePush E s p = handleFull E s p := by
      unfold handlePush
      rw [if_neg h0, if_neg h1, if_neg h2, if_neg h3]
    rw [e, handleFull]
    rcases hl : loadRatchet s p.from_ false with _ | ⟨r, pid⟩
    · exact triv
    have hpid := hf _ _ (loadRatchet_id hl)
    simp only
    rcases E.decrypt r p.payload with _ | ⟨plain, r'⟩
    · exact triv
    simp only
    rw [hpid]
    rcases Crpc.receive E.zlib plain with c | x | _ <;> exact hset _ r' rfl rfl (Or.inl rfl)

/-- **C55** (partial): no packet, whoever sends it, changes anything about a usable contact other than the
authenticated sender; and it never replaces the identity of the sender if that is a usable contact. -/
theorem C55_contacts_kept_partial (E : Env R K) (s : State R) (p : Packet) (hf : Filed s) :
    Filed (handlePush E s p).2 ∧
    ∀ id, Usable s id →
      (handlePush E s p).2.ids.get id = s.ids.get id ∧
      (id ≠ p.from_ → (handlePush E s p).2.ratchets.get id = s.ratchets.get id ∧
        (handlePush E s p).2.halves.get id = s.halves.get id) :=
  ⟨(contacts_kept E s p hf).1, fun id h => (contacts_kept E s p hf).2 id ((exists_iff s id).2 h)⟩

/-- A key that fits is found, if no other does. -/
theorem tryKeys_hit (E : Env R K) {nonce d k : Bytes} (hk : some k ∈ E.keys)
    (hothers : ∀ k', some k' ∈ E.keys → k' ≠ k → E.box.openB k' nonce (E.box.sealB k nonce d) = none) :
    tryKeys E nonce (E.box.sealB k nonce d) E.keys = some d := by
  have : ∀ ks : List (Option Bytes), some k ∈ ks → (∀ k', some k' ∈ ks → some k' ∈ E.keys) →
      tryKeys E nonce (E.box.sealB k nonce d) ks = some d := by
    intro ks
    induction ks with
    | nil => simp
    | cons x xs ih =>
      intro hmem hsub
      cases x with
      | none =>
        exact ih (by simpa using hmem) (fun k' h => hsub k' (List.mem_cons_of_mem _ h))
      | some k' =>
        simp only [tryKeys, Blob.decrypt]
        by_cases hkk : k' = k
        · rw [hkk, E.box.open_seal]
        · rw [hothers k' (hsub k' (by simp)) hkk]
          refine ih ?_ (fun k' h => hsub k' (List.mem_cons_of_mem _ h))
          rcases List.mem_cons.1 hmem with h | h
          · exact absurd (Option.some.inj h).symm hkk
          · exact h
  exact this E.keys hk (fun _ h => h)

/-- **C55**: the answer to a key exchange that we began, of somebody we only have the half of a ratchet with, completes it
and makes a contact, in directory mode too. -/
theorem C55_answer (E : Env R K) (s : State R) (from_ nonce d k : Bytes) (pid : PublicIdentity) (kx : K) (r r' : R)
    (h0 : from_ ≠ List.replicate 32 0) (hi : s.ids.get from_ = some pid) (hp : pid.identity = from_) (hme : from_ ≠ E.me)
    (hr : s.ratchets.get from_ = none) (hh : s.halves.get from_ = some r) (hn : nonce.length = 24) (hk : some k ∈ E.keys)
    (hothers : ∀ k', some k' ∈ E.keys → k' ≠ k → E.box.openB k' nonce (E.box.sealB k nonce d) = none)
    (hdec : E.decodeKX d = some kx) (hc : E.complete r kx = some r') :
    let res := handlePush E s ⟨from_, nonce ++ E.box.sealB k nonce d, false⟩
    res.1 = .ok .contact ∧ res.2.ratchets.get from_ = some r' ∧ res.2.halves.get from_ = none ∧
      res.2.ids = s.ids ∧ res.2.book = s.book ++ [pid] := by
  have h2 : identityExists s from_ = true := (exists_iff s from_).2 ⟨by rw [hi]; simp, .inr (by rw [hh]; simp)⟩
  have h3 : ratchetExists s from_ = false := by simp [ratchetExists, hr]
  have hl : (nonce ++ E.box.sealB k nonce d).length = 24 + (d.length + 16) := by
    simp [hn, E.box.seal_length]
  have e1 : (nonce ++ E.box.sealB k nonce d).take 24 = nonce := by rw [← hn, List.take_left]
  have e2 : (nonce ++ E.box.sealB k nonce d).drop 24 = E.box.sealB k nonce d := by rw [← hn, List.drop_left]
  have e : handlePush E s ⟨from_, nonce ++ E.box.sealB k nonce d, false⟩ =
      (.ok .contact, { s with ratchets := s.ratchets.set from_ r', halves := s.halves.del from_,
                              book := s.book ++ [pid] }) := by
    unfold handlePush
    simp only [h0, h2, h3, if_true, if_false, Bool.false_eq_true, Bool.true_eq_false]
    unfold step3
    simp only [Blob.unpackNonce]
    rw [if_neg (by omega)]
    simp only [e1, e2, tryKeys_hit E hk hothers, hdec, loadRatchet, hh, hi, hc, if_true, hp, addressBookAdd,
      if_neg (Ne.symm hme)]
    simp
  intro res
  show (handlePush E s _).1 = _ ∧ (handlePush E s _).2.ratchets.get from_ = _ ∧ (handlePush E s _).2.halves.get from_ = _ ∧
    (handlePush E s _).2.ids = _ ∧ (handlePush E s _).2.book = _
  rw [e]
  exact ⟨rfl, GoMap.get_set_self _ _ _, GoMap.get_del_self _ _, rfl, rfl⟩

/-! ## What goes wrong -/

/-- **C55 is violated**: for every client that is not in directory mode, any non-empty packet of fewer than
24 bytes from a stranger crashes it. -/
theorem C55_crash_violated (E : Env R K) (s : State R) (from_ payload : Bytes) (hd : E.directory = false)
    (hs : Stranger s from_) (h0 : from_ ≠ List.replicate 32 0) (h1 : payload ≠ [])
    (h2 : payload.length < 24) : (handlePush E s ⟨from_, payload, false⟩).1 = .panic :=
  (C55_stranger_partial E s ⟨from_, payload, false⟩ hs).1.2 ⟨h0, rfl, Or.inl ⟨hd, h1, h2⟩⟩

/-- **C55 is violated**: whoever holds one of our blob keys can send, under any sender identity, a key
exchange message that names any identity we have no usable contact with, signed or not; we file it as that
identity's contact. -/
theorem C55_planted_violated (E : Env R K) (s : State R) (from_ nonce d k : Bytes) (pid : PublicIdentity)
    (kx : K) (r : R) (hd : E.directory = false) (hs : Stranger s from_) (h0 : from_ ≠ List.replicate 32 0)
    (hn : nonce.length = 24) (hk : some k ∈ E.keys)
    (hothers : ∀ k', some k' ∈ E.keys → k' ≠ k → E.box.openB k' nonce (E.box.sealB k nonce d) = none)
    (hdec : E.decodeIDKX d = some (pid, kx)) (hacc : E.accept pid kx = some r) (hme : pid.identity ≠ E.me)
    (hnew' : ¬ Usable s pid.identity) (hon : E.canSend = true) :
    (handlePush E s ⟨from_, nonce ++ E.box.sealB k nonce d, false⟩).1 = .ok .contact ∧
    Added s (handlePush E s ⟨from_, nonce ++ E.box.sealB k nonce d, false⟩).2 pid r := by
  have hnew := (not_exists_iff s _).2 hnew'
  unfold Stranger at hs
  have h2 : identityExists s from_ = false := by simp [identityExists, hs]
  have hl : (nonce ++ E.box.sealB k nonce d).length = 24 + (d.length + 16) := by
    simp [hn, E.box.seal_length]
  have ht := tryKeys_hit E (d := d) (nonce := nonce) hk hothers
  have e : handlePush E s ⟨from_, nonce ++ E.box.sealB k nonce d, false⟩ = acceptIDKX E s d := by
    unfold handlePush
    simp only [h0, h2, hd, if_true, if_false, Bool.false_eq_true]
    unfold step2
    rw [if_neg (by rw [← List.length_eq_zero_iff]; omega)]
    simp only [Blob.unpackNonce]
    rw [if_neg (by omega)]
    have e1 : (nonce ++ E.box.sealB k nonce d).take 24 = nonce := by rw [← hn, List.take_left]
    have e2 : (nonce ++ E.box.sealB k nonce d).drop 24 = E.box.sealB k nonce d := by rw [← hn, List.drop_left]
    simp only [e1, e2, ht]
  rw [e]
  unfold acceptIDKX
  simp only [hdec, hme, hacc, hnew, hon, if_true, if_false, Bool.false_eq_true, addressBookAdd,
    if_neg (Ne.symm hme)]
  exact ⟨trivial, GoMap.get_set_self _ _ _, GoMap.get_set_self _ _ _,
    fun id hid => ⟨GoMap.get_set_ne _ _ (Ne.symm hid), GoMap.get_set_ne _ _ (Ne.symm hid)⟩, rfl⟩

/-- **C55 is violated**: a contact crashes the client with a message that announces zlib compression and is
not a zlib stream, for every kind of message. -/
theorem C55_zlib_crash_violated (E : Env R K) (s : State R) (p : Packet) (r r' : R) (pid : PublicIdentity)
    (plain rest : Bytes) (ts : Int) (cmd : Bytes) (h0 : p.from_ ≠ List.replicate 32 0)
    (hc : p.cleartext = false) (hi : s.ids.get p.from_ = some pid) (hr : s.ratchets.get p.from_ = some r)
    (hdec : E.decrypt r p.payload = some (plain, r'))
    (hp : Xdr.dec 0 Xdr.crpc plain = .ok (ts, cmd, Crpc.compZlib) rest) (hcmd : cmd ∈ Crpc.commands)
    (hz : E.zlib.inflate rest = none) : (handlePush E s p).1 = .panic := by
  have h2 : identityExists s p.from_ = true := by simp [identityExists, hi, hr]
  have h3 : ratchetExists s p.from_ = true := by simp [ratchetExists, hr]
  have hrec : Crpc.receive E.zlib plain = .panic := by
    simp only [Crpc.receive, hp, Crpc.reader]
    rw [if_neg (by decide), if_pos trivial, hz]
    simp only [Crpc.commands, List.mem_cons, List.not_mem_nil, or_false] at hcmd
    simp only [Crpc.dispatch, Crpc.decodeCall]
    rcases hcmd with h | h | h | h | h | h | h | h | h | h | h | h <;> subst h <;> rfl
  unfold handlePush
  rw [if_neg h0]
  simp [hc, h2, h3, handleFull, loadRatchet, hr, hi, hdec, hrec]

/-- A client with one blob key and no contacts; the decoder accepts every byte string as a key exchange
naming itself, and nothing decodes to a proxy command. -/
def toyEnv : Env Unit Unit where
  directory := false
  me := [1]
  keys := [none, some [9], some [5]]
  box := Blob.toyBox
  decap _ := none
  decodeIDKX d := some (⟨[], [], [], [], d, [], []⟩, ())
  decodeKX _ := some ()
  decodeProxy _ := none
  accept _ _ := some ()
  complete r _ := some r
  half _ := ()
  decrypt r c := some (c, r)
  zlib := Crpc.toy
  canSend := true

/-- Signatures that are never valid except those made with the key; enough to see that an unsigned
identity is taken. -/
def toyPrims : Prims where
  SK := Unit
  sha256 _ := List.replicate 32 0
  sha_len _ := by simp
  pub _ := List.replicate 32 0
  pub_len _ := by simp
  sign _ _ := [1]
  verify _ _ sig := sig = [1]
  verify_sign _ _ := by simp

/-- The full claim does not hold. -/
theorem C55_full_violated : ¬ C55_full := by
  intro h
  have := (h Unit Unit toyPrims toyEnv ⟨[], [], [], [], []⟩ ⟨[2], [0], false⟩).1
  exact this (C55_crash_violated toyEnv ⟨[], [], [], [], []⟩ [2] [0] rfl rfl (by decide) (by simp) (by decide))

/-- Contact 3 answers. -/
example : (handlePush toyEnv ⟨[([3], ⟨[], [], [], [], [3], [], []⟩)], [], [([3], ())], [], []⟩
      ⟨[3], List.replicate 24 0 ++ Blob.toyBox.sealB [5] (List.replicate 24 0) [7], false⟩).1 = .ok .contact :=
  (C55_answer toyEnv _ [3] (List.replicate 24 0) [7] [5] _ () () () (by decide) rfl rfl (by decide) rfl rfl (by decide)
    (by decide) (by
      intro k' hk hne
      simp only [toyEnv, List.mem_cons, List.not_mem_nil, or_false, Option.some.injEq, reduceCtorEq, false_or] at hk
      rcases hk with rfl | rfl
      · rfl
      · exact absurd rfl hne) rfl rfl).1

/-- Non-trivial instance: sender 2 plants identity 3, unsigned. -/
example : ∃ s, handlePush toyEnv ⟨[], [], [], [], []⟩
      ⟨[2], List.replicate 24 0 ++ Blob.toyBox.sealB [5] (List.replicate 24 0) [3], false⟩ =
        (.ok .contact, s) ∧
    s.ids.get [3] = some ⟨[], [], [], [], [3], [], []⟩ ∧ s.sent = [[3]] ∧
    verify toyPrims ⟨[], [], [], [], [3], [], []⟩ = false := ⟨_, rfl, rfl, rfl, by decide⟩

end Verif.Push
