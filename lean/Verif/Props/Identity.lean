import Verif.Model.Identity
import Mathlib.Tactic.Common

/-! C19: a verified identity is what its owner signed. Model: Verif.Model.Identity
(/repo/zkidentity/zkidentity.go). -/

namespace Verif.Identity

open Verif

/-- A fresh identity is created, verifies, and has the requested name, nick, keys, and identity. -/
theorem C19_fresh_verifies (P : Prims) (sk : P.SK) (ntruPub name nick : Bytes) :
    ∃ p, new P sk ntruPub name nick = some p ∧ verify P p = true ∧ p.name = name ∧ p.nick = nick ∧
      p.sigKey = P.pub sk ∧ p.key = ntruPub ∧ p.identity = P.sha256 ntruPub := by
  have hv : verify P
      { name := name, nick := nick, sigKey := P.pub sk, key := ntruPub, identity := P.sha256 ntruPub
        digest := P.sha256 (name ++ nick ++ P.pub sk ++ ntruPub ++ P.sha256 ntruPub)
        signature := P.sign sk
          (P.sha256 (name ++ nick ++ P.pub sk ++ ntruPub ++ P.sha256 ntruPub)) } = true := by
    simp [verify, hashed, P.verify_sign]
  refine ⟨_, ?_, hv, rfl, rfl, rfl, rfl, rfl⟩
  unfold new recalculateDigest
  exact if_pos hv

/-- The signature on an identity is not a forgery: if it verifies, the holder of the signing key signed
that digest, for one of the identities `made` by them. -/
def notForged (P : Prims) (made : List PublicIdentity) (p : PublicIdentity) : Prop :=
  P.verify p.sigKey p.digest p.signature = true →
    ∃ q ∈ made, q.sigKey = p.sigKey ∧ p.digest = P.sha256 (hashed q)

/-- The hash does not collide on the inputs that occur. -/
def noCollision (P : Prims) (a b : PublicIdentity) : Prop :=
  P.sha256 (hashed a) = P.sha256 (hashed b) → hashed a = hashed b

theorem hashed_inj {a b : PublicIdentity} (ha : a.Sized) (hb : b.Sized) (h : hashed a = hashed b) :
    a.name ++ a.nick = b.name ++ b.nick ∧ a.sigKey = b.sigKey ∧ a.key = b.key ∧
      a.identity = b.identity := by
  unfold hashed at h
  have hl := congrArg List.length h
  simp only [List.length_append] at hl
  obtain ⟨h1, h4⟩ := List.append_inj' h (by rw [ha.2.2, hb.2.2])
  obtain ⟨h2, h3⟩ := List.append_inj' h1 (by rw [ha.2.1, hb.2.1])
  obtain ⟨h5, h6⟩ := List.append_inj' h2 (by rw [ha.1, hb.1])
  exact ⟨h5, h6, h3, h4⟩

/-- With an unforgeable signature and a hash that does not collide on them, an identity that verifies
under the owner's key agrees with one the owner signed, in both keys, the identity, and the
concatenation of name and nick. Missing for the full claim: name and nick separately (next
theorem). -/
theorem C19_verified_is_signed_partial (P : Prims) (made : List PublicIdentity) (p : PublicIdentity)
    (hp : p.Sized) (hm : ∀ q ∈ made, q.Sized) (hs : notForged P made p)
    (hc : ∀ q ∈ made, noCollision P p q) (hv : verify P p = true) :
    ∃ q ∈ made, q.sigKey = p.sigKey ∧ p.key = q.key ∧ p.identity = q.identity ∧
      p.name ++ p.nick = q.name ++ q.nick ∧ (p.nick.length = q.nick.length →
        p.name = q.name ∧ p.nick = q.nick) := by
  unfold verify at hv
  split at hv
  · simp at hv
  · rename_i hd
    simp only [ne_eq, Decidable.not_not] at hd
    obtain ⟨q, hq, hk, he⟩ := hs hv
    have h1 := hc q hq (hd.symm.trans he)
    obtain ⟨e1, e2, e3, e4⟩ := hashed_inj hp (hm q hq) h1
    refine ⟨q, hq, hk, e3, e4, e1, ?_⟩
    intro hl
    exact List.append_inj' e1 hl

/-- The code breaks C19, for every hash and signature scheme: moving a byte from the end of the name
to the front of the nick gives a different identity that verifies with the same signature. -/
theorem C19_name_nick_violated (P : Prims) (sk : P.SK) (ntruPub name nick : Bytes) (c : UInt8) :
    ∃ p q, new P sk ntruPub (name ++ [c]) nick = some p ∧ q = { p with name := name, nick := c :: nick } ∧
      verify P p = true ∧ verify P q = true ∧ p.name ≠ q.name ∧ p.nick ≠ q.nick := by
  obtain ⟨p, h1, h2, h3, h4, _⟩ := C19_fresh_verifies P sk ntruPub (name ++ [c]) nick
  refine ⟨p, _, h1, rfl, h2, ?_, ?_, ?_⟩
  · have : hashed { p with name := name, nick := c :: nick } = hashed p := by
      simp [hashed, h3, h4]
    unfold verify at h2 ⊢
    rw [this]
    exact h2
  · simp [h3]
  · intro h
    have h := congrArg List.length h
    rw [h4] at h
    simp at h

/-- Any change of keys, identity, or of the text of name and nick taken together changes what is
hashed, so a verified change needs a hash collision or a new signature. -/
theorem C19_tamper (P : Prims) (p q : PublicIdentity) (hp : p.Sized) (hq : q.Sized)
    (hv : verify P p = true) (hv' : verify P q = true) (hd : p.digest = q.digest)
    (hne : p.name ++ p.nick ≠ q.name ++ q.nick ∨ p.sigKey ≠ q.sigKey ∨ p.key ≠ q.key ∨
      p.identity ≠ q.identity) :
    hashed p ≠ hashed q ∧ P.sha256 (hashed p) = P.sha256 (hashed q) := by
  constructor
  · intro h
    obtain ⟨e1, e2, e3, e4⟩ := hashed_inj hp hq h
    rcases hne with h | h | h | h
    · exact h e1
    · exact h e2
    · exact h e3
    · exact h e4
  · have h1 : ∀ r, verify P r = true → r.digest = P.sha256 (hashed r) := by
      intro r hr
      unfold verify at hr
      split at hr
      · simp at hr
      · rename_i h; simpa using h
    rw [← h1 p hv, ← h1 q hv', hd]

/-- A toy scheme. -/
def toy : Prims where
  SK := Unit
  sha256 m := List.replicate 31 0 ++ [UInt8.ofNat m.length]
  sha_len := by simp
  pub _ := List.replicate 32 1
  pub_len := by simp
  sign _ m := m
  verify k m s := k == List.replicate 32 1 && m == s
  verify_sign := by simp

/-- The hypotheses of the partial theorem are met by an identity and the one it came from, and the
witness of the violation is concrete: "ab" "c" and "a" "bc". -/
example : ∃ p, new toy () (List.replicate 1218 7) [97, 98] [99] = some p ∧ p.Sized ∧
    notForged toy [p] p ∧ noCollision toy p p ∧ verify toy p = true ∧
    verify toy { p with name := [97], nick := [98, 99] } = true := by
  obtain ⟨p, q, h1, rfl, h2, h3, _⟩ :=
    C19_name_nick_violated toy () (List.replicate 1218 7) [97] [99] 98
  obtain ⟨p', g1, g2, g3, g4, g5, g6, g7⟩ :=
    C19_fresh_verifies toy () (List.replicate 1218 7) [97, 98] [99]
  have hpp : p = p' := by
    have := h1.symm.trans g1
    simpa using this
  subst hpp
  refine ⟨p, h1, ⟨by rw [g5]; rfl, by rw [g6]; exact List.length_replicate, by rw [g7]; exact toy.sha_len _⟩, ?_,
    fun _ => rfl, h2, h3⟩
  intro _
  refine ⟨p, List.mem_singleton.mpr rfl, rfl, ?_⟩
  unfold verify at h2
  split at h2
  · simp at h2
  · rename_i h; simpa using h

end Verif.Identity
