import Verif.Model.Blob
import Mathlib.Tactic.Common

/-! C21, C22: packed and encrypted blobs. Model: Verif.Model.Blob
(/repo/blobshare/blobshare.go). -/

namespace Verif.Blob

open Verif

theorem copyAt_len (dst : Bytes) (off : Nat) (src : Bytes) (h : off + src.length ≤ dst.length) :
    copyAt dst off src = dst.take off ++ src ++ dst.drop (off + src.length) := by
  unfold copyAt
  rw [List.take_of_length_le (l := src) (by omega), Nat.min_eq_left (by omega)]

theorem packSaltNonce_eq (salt nonce data : Bytes) (hs : salt.length = 32) (hn : nonce.length = 24) :
    packSaltNonce salt nonce data = salt ++ nonce ++ data := by
  unfold packSaltNonce
  simp only []
  rw [copyAt_len _ 0 salt (by simp; omega)]
  simp only [List.take_zero, List.nil_append, List.drop_replicate]
  rw [copyAt_len _ 32 nonce (by simp; omega)]
  rw [copyAt_len _ (32 + 24) data (by simp; omega)]
  have e1 : List.take 56 salt = salt := List.take_of_length_le (by omega)
  have e2 : List.drop (56 + data.length) salt = [] := List.drop_eq_nil_of_le (by omega)
  have e3 : List.drop (56 + data.length - 32) nonce = [] := List.drop_eq_nil_of_le (by omega)
  have e4 : ∀ k, List.drop (56 + k) salt = [] := fun k => List.drop_eq_nil_of_le (by omega)
  simp [List.take_append, List.drop_append, hs, hn, e1, e2, e3, e4]

theorem packNonce_eq (nonce data : Bytes) (hn : nonce.length = 24) :
    packNonce nonce data = nonce ++ data := by
  unfold packNonce
  simp only []
  rw [copyAt_len _ 0 nonce (by simp; omega)]
  simp only [List.take_zero, List.nil_append, List.drop_replicate]
  rw [copyAt_len _ 24 data (by simp; omega)]
  simp [List.take_append, List.drop_append, hn]

/-- Unpacking what was packed returns salt, nonce and data. -/
theorem C21_roundtrip (salt nonce data : Bytes) (hs : salt.length = 32) (hn : nonce.length = 24) :
    unpackSaltNonce (packSaltNonce salt nonce data) = .ok (salt, nonce, data) ∧
    unpackNonce (packNonce nonce data) = .ok (nonce, data) := by
  rw [packSaltNonce_eq _ _ _ hs hn, packNonce_eq _ _ hn]
  unfold unpackSaltNonce unpackNonce
  rw [if_neg (by simp; omega), if_neg (by simp; omega), if_neg (by simp; omega)]
  simp [List.take_append, List.drop_append, hs, hn]

/-- Conversely, a packed string long enough is the packing of what is unpacked. -/
theorem C21_unpack_exact (p : Bytes) :
    (∀ r, unpackSaltNonce p = .ok r → p = packSaltNonce r.1 r.2.1 r.2.2 ∧ r.1.length = 32 ∧
      r.2.1.length = 24) ∧
    (∀ r, unpackNonce p = .ok r → p = packNonce r.1 r.2 ∧ r.1.length = 24) := by
  constructor
  · rintro ⟨s, n, d⟩ h
    unfold unpackSaltNonce at h
    split at h
    · simp at h
    · split at h
      · simp at h
      · rename_i h1 h2
        simp only [Outcome.ok.injEq, Prod.mk.injEq] at h
        obtain ⟨rfl, rfl, rfl⟩ := h
        have a1 : (p.take 32).length = 32 := by simp; omega
        have a2 : ((p.drop 32).take 24).length = 24 := by simp; omega
        refine ⟨?_, a1, a2⟩
        simp only []
        rw [packSaltNonce_eq _ _ _ a1 a2, List.append_assoc, ← List.drop_drop, List.take_append_drop,
          List.take_append_drop]
  · rintro ⟨n, d⟩ h
    unfold unpackNonce at h
    split at h
    · simp at h
    · simp only [Outcome.ok.injEq, Prod.mk.injEq] at h
      obtain ⟨rfl, rfl⟩ := h
      have a1 : (p.take 24).length = 24 := by simp; omega
      refine ⟨?_, a1⟩
      simp only []
      rw [packNonce_eq _ _ a1, List.take_append_drop]

/-- The reader does not crash on strings of at least 56 (24) bytes. Missing for the full claim: shorter
strings (next theorem). -/
theorem C21_no_crash_partial (p : Bytes) :
    (56 ≤ p.length → unpackSaltNonce p ≠ .panic) ∧ (24 ≤ p.length → unpackNonce p ≠ .panic) := by
  unfold unpackSaltNonce unpackNonce
  constructor
  · intro h; rw [if_neg (by omega), if_neg (by omega)]; simp
  · intro h; rw [if_neg (by omega)]; simp

/-- The code breaks C21: every string shorter than that crashes the reader. -/
theorem C21_short_violated (p : Bytes) :
    (p.length < 56 → unpackSaltNonce p = .panic) ∧ (p.length < 24 → unpackNonce p = .panic) := by
  unfold unpackSaltNonce unpackNonce
  constructor
  · intro h; split
    · rfl
    · rfl
  · intro h; rw [if_pos h]

example : unpackNonce [1, 2, 3] = .panic ∧
    unpackNonce (List.replicate 24 7 ++ [1]) = .ok (List.replicate 24 7, [1]) := by decide

/-! ## C22 -/

/-- Whatever is shared under a password is recovered with that password, for every scrypt and every
secretbox, salt, nonce and data. -/
theorem C22_roundtrip (B : Session.SecretBox Bytes) (scrypt : Bytes → Bytes → Bytes)
    (password salt nonce data : Bytes) (hs : salt.length = 32) (hn : nonce.length = 24) :
    unshare B scrypt password (share B scrypt password salt nonce data) = .ok data := by
  unfold unshare share newKey encrypt
  simp only []
  rw [(C21_roundtrip salt nonce _ hs hn).1]
  simp only [decrypt, deriveKey, B.open_seal]

/-- A blob opens under a key and nonce exactly if it is the sealing of the result under that key and
nonce. -/
theorem C22_opens_exactly (B : Session.SecretBox Bytes) (key nonce data c : Bytes) :
    decrypt B key nonce c = some data ↔ c = (encrypt B data key nonce).1 :=
  ⟨fun h => B.open_eq key nonce c data h, fun h => by rw [h]; exact B.open_seal ..⟩

/-- A modified ciphertext never opens to the original: it gives an error, or it is a genuine sealing
of something else made with the same key. -/
theorem C22_modified (B : Session.SecretBox Bytes) (key nonce data c : Bytes)
    (hc : c ≠ (encrypt B data key nonce).1) :
    decrypt B key nonce c = none ∨
    ∃ d, d ≠ data ∧ decrypt B key nonce c = some d ∧ c = (encrypt B d key nonce).1 := by
  rcases h : decrypt B key nonce c with _ | d
  · exact .inl rfl
  · refine .inr ⟨d, ?_, rfl, B.open_eq key nonce c d h⟩
    rintro rfl
    exact hc (B.open_eq key nonce c d h)

/-- Shorter than the authenticator: never opens. -/
theorem C22_too_short (B : Session.SecretBox Bytes) (key nonce c : Bytes) (h : c.length < 16) :
    decrypt B key nonce c = none := by
  rcases hd : decrypt B key nonce c with _ | d
  · rfl
  · have := congrArg List.length (B.open_eq key nonce c d hd)
    rw [B.seal_length] at this
    omega

/-- A ciphertext is not a forgery: whenever it opens under the key, the holder of the key sealed
exactly that (`made` lists everything sealed: nonce and data). Security of the authenticator says that
attackers only come up with such ciphertexts. -/
def NotForged (B : Session.SecretBox Bytes) (made : List (Bytes × Bytes)) (key c : Bytes) : Prop :=
  ∀ nonce d, decrypt B key nonce c = some d → (nonce, d) ∈ made

/-- If one blob was sealed under a key, any other ciphertext or nonce that is not a forgery is an
error. -/
theorem C22_wrong_nonce_or_modified (B : Session.SecretBox Bytes) (key nonce data n c : Bytes)
    (hA : NotForged B [(nonce, data)] key c)
    (hne : (n, c) ≠ (nonce, (encrypt B data key nonce).1)) : decrypt B key n c = none := by
  rcases hd : decrypt B key n c with _ | d
  · rfl
  · have := hA _ _ hd
    simp only [List.mem_singleton, Prod.mk.injEq] at this
    obtain ⟨rfl, rfl⟩ := this
    exact absurd (by rw [B.open_eq key n c d hd]; rfl) hne

/-- A key under which nothing was sealed opens nothing that is not a forgery; in particular not the
sealing under another key. -/
theorem C22_wrong_key (B : Session.SecretBox Bytes) (key key' nonce data n : Bytes)
    (hA : NotForged B [] key' (encrypt B data key nonce).1) :
    decrypt B key' n (encrypt B data key nonce).1 = none := by
  rcases hd : decrypt B key' n (encrypt B data key nonce).1 with _ | d
  · rfl
  · exact absurd (hA _ _ hd) (by simp)

/-- A secretbox that satisfies the functional laws; used to run the pipeline on concrete data. -/
def toyBox : Session.SecretBox Bytes where
  sealB k _ m := List.replicate 16 (k.headD 0) ++ m
  openB k _ c := if c.take 16 = List.replicate 16 (k.headD 0) then some (c.drop 16) else none
  open_seal := by intro k n m; simp
  seal_length := by intro k n m; simp
  open_eq := by
    intro k n c m h
    split at h
    · rename_i hc
      simp only [Option.some.injEq] at h
      rw [← hc, ← h, List.take_append_drop]
    · simp at h

/-- The hypotheses on forgery are satisfiable. -/
example : NotForged toyBox [] [6] (encrypt toyBox [1, 2] [5] []).1 := by
  intro n d h
  simp [toyBox, encrypt, decrypt] at h

set_option maxRecDepth 4000 in
example : unshare toyBox (fun p s => p ++ s) [5] (share toyBox (fun p s => p ++ s) [5]
      (List.replicate 32 1) (List.replicate 24 2) [1, 2, 3]) = .ok [1, 2, 3] ∧
    unshare toyBox (fun p s => p ++ s) [6] (share toyBox (fun p s => p ++ s) [5]
      (List.replicate 32 1) (List.replicate 24 2) [1, 2, 3]) = .err () := by decide

end Verif.Blob
