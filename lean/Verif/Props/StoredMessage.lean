import Verif.Model.StoredMessage
import Verif.Props.Xdr

/-! # C24: stored messages -/

namespace Verif.Stored

open Verif Verif.Xdr

/-- Messages that `Deliver` is given: a 32-byte sender, a time that is an `int64`, and a payload that
fits. -/
def DiskMessage.Sized (m : DiskMessage) : Prop :=
  m.from_.length = 32 ∧ (-2 ^ 63 ≤ m.received ∧ m.received < 2 ^ 63) ∧ m.payload.length + 3 < 2 ^ 31

/-- Length of a payload with its padding. -/
def padded (m : DiskMessage) : Nat := m.payload.length + padLen m.payload.length

theorem readFull_take {a : Bytes} {k : Nat} (h : a.length = k) (h0 : k ≠ 0) (b : Bytes) (n : Nat) :
    readFull k ((a ++ b).take n) =
      if n = 0 then .eof else if n < k then .unexpected else .ok a (b.take (n - k)) := by
  unfold readFull
  rw [if_neg h0]
  have hane : a ≠ [] := by rintro rfl; simp at h; omega
  by_cases hn : n = 0
  · simp [hn]
  · have hne : (a ++ b).take n ≠ [] := by
      simp [hn, hane]
    rw [if_neg hne, if_neg hn]
    by_cases hk : n < k
    · rw [if_pos (by simp; omega), if_pos hk]
    · rw [if_neg (by simp; omega), if_neg hk]
      rw [List.take_append, List.take_of_length_le (by omega : a.length ≤ n), h]
      subst h
      simp

theorem readU32_take {v : Nat} (h : v < 2 ^ 32) (b : Bytes) (n : Nat) :
    readU32 ((be32 v ++ b).take n) =
      if n = 0 then .eof else if n < 4 then .unexpected else .ok v (b.take (n - 4)) := by
  rw [readU32, readFull_take (be32_length v) (by decide)]
  split
  · rfl
  · split
    · rfl
    · simp [Res.bind, beVal_be32 h]

theorem readU64_take {v : Nat} (h : v < 2 ^ 64) (b : Bytes) (n : Nat) :
    readU64 ((be64 v ++ b).take n) =
      if n = 0 then .eof else if n < 8 then .unexpected else .ok v (b.take (n - 8)) := by
  rw [readU64, readFull_take (be64_length v) (by decide)]
  split
  · rfl
  · split
    · rfl
    · simp [Res.bind, beVal_be64 h]

theorem encFixed_length (b : Bytes) : (encFixed b).length = b.length + padLen b.length := by
  simp [encFixed]

theorem readFixed_take (x : Bytes) (h : x.length ≠ 0) (b : Bytes) (n : Nat) :
    readFixed x.length ((encFixed x ++ b).take n) =
      if n = 0 then .eof
      else if n < x.length + padLen x.length then .unexpected
      else .ok x (b.take (n - (x.length + padLen x.length))) := by
  rw [readFixed, if_neg h, readFull_take (encFixed_length x) (by omega)]
  split
  · rfl
  · split
    · rfl
    · simp [Res.bind, encFixed]

theorem readFixed_zero (buf : Bytes) : readFixed 0 buf = .ok [] buf := by
  simp [readFixed, readFull, Res.bind]

/-- What is read from the first `n` bytes of a stored message. -/
theorem unmarshal_take (m : DiskMessage) (h : m.Sized) (n : Nat) :
    unmarshal ((marshal m).take n) =
      if n = 0 then some zero
      else if n < 32 then none
      else if n = 32 then some { zero with from_ := m.from_ }
      else if n < 40 then none
      else if n = 40 then some { zero with from_ := m.from_, received := m.received }
      else if n < 44 then none
      else if n = 44 then some { zero with from_ := m.from_, received := m.received }
      else if n < 44 + padded m then none
      else if n = 44 + padded m then some { m with cleartext := false }
      else if n < 48 + padded m then none
      else some m := by
  obtain ⟨h1, h2, h3⟩ := h
  obtain ⟨from_, received, payload, cleartext⟩ := m
  simp only at h1 h2 h3
  have e : marshal ⟨from_, received, payload, cleartext⟩ =
      encFixed from_ ++ (be64 (received % 2 ^ 64).toNat ++ (be32 payload.length ++ (encFixed payload ++
        (be32 (if cleartext then 1 else 0) ++ [])))) := by
    simp [marshal, marshalOld]
  have h64 : (received % 2 ^ 64).toNat < 2 ^ 64 := by omega
  have hl : payload.length < 2 ^ 32 := by omega
  have hc : (if cleartext then 1 else 0) < 2 ^ 32 := by split <;> omega
  have hF := readFixed_take from_ (by omega)
  rw [h1] at hF
  have hp32 : padLen 32 = 0 := rfl
  rw [hp32] at hF
  rw [e, unmarshal, hF]
  simp only [padded]
  by_cases n0 : n = 0
  · simp [n0]
  simp only [n0, if_false]
  by_cases n32 : n < 32
  · simp [n32]
  simp only [n32, Nat.add_zero, if_false]
  rw [readU64_take h64]
  by_cases n32' : n = 32
  · simp [n32']
  simp only [n32', show n - 32 ≠ 0 by omega, if_false]
  by_cases n40 : n < 40
  · simp [n40, show n - 32 < 8 by omega]
  simp only [n40, show ¬ n - 32 < 8 by omega, if_false]
  rw [signed_mod (Or.inr rfl) h2, readU32_take hl]
  by_cases n40' : n = 40
  · simp [n40']
  simp only [n40', show n - 32 - 8 ≠ 0 by omega, if_false]
  by_cases n44 : n < 44
  · simp [n44, show n - 32 - 8 < 4 by omega]
  simp only [n44, show ¬ n - 32 - 8 < 4 by omega, if_false]
  rw [not_tooLong (by omega) (by simp)]
  simp only [Bool.false_eq_true, if_false]
  have hsub : n - 32 - 8 - 4 = n - 44 := by omega
  rw [hsub]
  have hbool : ∀ k, (match readU32 ((be32 (if cleartext then 1 else 0) ++ []).take k) with
      | .eof => some ({ from_ := from_, received := received, payload := payload, cleartext := false } : DiskMessage)
      | .unexpected | .bad => none
      | .ok c _ =>
        if c = 0 then some { from_ := from_, received := received, payload := payload, cleartext := false }
        else if c = 1 then some { from_ := from_, received := received, payload := payload, cleartext := true }
        else none) =
      if k = 0 then some { from_ := from_, received := received, payload := payload, cleartext := false }
      else if k < 4 then none
      else some { from_ := from_, received := received, payload := payload, cleartext := cleartext } := by
    intro k
    rw [readU32_take hc]
    by_cases k0 : k = 0
    · simp [k0]
    · by_cases k4 : k < 4
      · simp [k0, k4]
      · cases cleartext <;> simp [k0, k4]
  by_cases hp : payload.length = 0
  · have hp' : payload = [] := List.length_eq_zero_iff.1 hp
    subst hp'
    have : encFixed [] = [] := rfl
    simp only [List.length_nil, this, List.nil_append, readFixed_zero, padLen_zero, Nat.add_zero]
    simp only [zero] at hbool ⊢
    refine (hbool _).trans ?_
    by_cases n44' : n = 44
    · simp [n44']
    · simp only [n44', n44, show n - 44 ≠ 0 by omega, if_false]
      by_cases n48 : n < 48
      · simp [n48, show n - 44 < 4 by omega]
      · simp [n48, show ¬ n - 44 < 4 by omega]
  · rw [readFixed_take payload hp]
    by_cases n44' : n = 44
    · simp [n44']
    · simp only [n44', show n - 44 ≠ 0 by omega, if_false]
      by_cases nq : n < 44 + (payload.length + padLen payload.length)
      · simp [nq, show n - 44 < payload.length + padLen payload.length by omega]
      · simp only [nq, show ¬ n - 44 < payload.length + padLen payload.length by omega, if_false]
        simp only [zero]
        refine (hbool _).trans ?_
        by_cases nq' : n = 44 + (payload.length + padLen payload.length)
        · simp [nq']
        · simp only [nq', show n - 44 - (payload.length + padLen payload.length) ≠ 0 by omega, if_false]
          by_cases n48 : n < 48 + (payload.length + padLen payload.length)
          · simp [n48, show n - 44 - (payload.length + padLen payload.length) < 4 by omega]
          · simp [n48, show ¬ n - 44 - (payload.length + padLen payload.length) < 4 by omega]

theorem marshalOld_length (m : DiskMessage) (h : m.Sized) : (marshalOld m).length = 44 + padded m := by
  have hp32 : padLen 32 = 0 := rfl
  simp only [marshalOld, List.length_append, encFixed_length, be64_length, be32_length, h.1, hp32, padded]
  omega

theorem marshal_length (m : DiskMessage) (h : m.Sized) : (marshal m).length = 48 + padded m := by
  rw [marshal, List.length_append, marshalOld_length m h, be32_length]; omega

/-- **C24**: a stored message is read back equal. -/
theorem C24_roundtrip (m : DiskMessage) (h : m.Sized) : unmarshal (marshal m) = some m := by
  have := unmarshal_take m h (48 + padded m)
  rw [← marshal_length m h, List.take_length] at this
  rw [this, marshal_length m h]
  iterate 10 rw [if_neg (by omega)]

/-- **C24**: a message stored in the old format, without the Cleartext field, is read as the same message
with Cleartext off. -/
theorem C24_old_format (m : DiskMessage) (h : m.Sized) :
    unmarshal (marshalOld m) = some { m with cleartext := false } := by
  have := unmarshal_take m h (44 + padded m)
  have e : (marshal m).take (44 + padded m) = marshalOld m := by
    rw [marshal, List.take_append_of_le_length (Nat.le_of_eq (marshalOld_length m h).symm), ← marshalOld_length m h,
      List.take_length]
  rw [e] at this
  rw [this]
  by_cases h0 : padded m = 0
  · have hp : m.payload = [] := List.length_eq_zero_iff.1 (by unfold padded at h0; omega)
    iterate 6 rw [if_neg (by omega)]
    rw [if_pos (by omega)]
    simp [zero, hp]
  · iterate 8 rw [if_neg (by omega)]
    rw [if_pos rfl]

/-- Full statement of the last part of C24: a truncation other than the removal of the Cleartext field is
an error. -/
def C24_truncation_full : Prop :=
  ∀ m : DiskMessage, m.Sized → ∀ n, n < (marshal m).length → n ≠ (marshalOld m).length →
    unmarshal ((marshal m).take n) = none

/-- **C24** (partial): exactly which truncations are accepted. A truncated file is reported unless it ends
where one of the encoded items (sender, time, length word, payload, flag) begins. What is missing for the
full claim: only the truncation before the flag should be accepted. -/
theorem C24_truncation_partial (m : DiskMessage) (h : m.Sized) (n : Nat) (hn : n < (marshal m).length) :
    unmarshal ((marshal m).take n) ≠ none ↔ n = 0 ∨ n = 32 ∨ n = 40 ∨ n = 44 ∨ n = 44 + padded m := by
  rw [marshal_length m h] at hn
  rw [unmarshal_take m h n]
  constructor
  · intro hne
    by_contra hcon
    simp only [not_or] at hcon
    obtain ⟨h0, h32, h40, h44, hq⟩ := hcon
    apply hne
    simp only [h0, h32, h40, h44, hq, hn, if_false, if_true]
    split <;> simp
  · rintro (rfl | rfl | rfl | rfl | rfl)
    · simp
    · simp
    · simp
    · simp
    · by_cases h0 : padded m = 0
      · simp [h0]
      · iterate 8 rw [if_neg (by omega)]
        rw [if_pos rfl]; simp

/-- A message for the witness. -/
def witness : DiskMessage := ⟨List.replicate 32 7, 5, [1, 2, 3, 4], true⟩

theorem witness_sized : witness.Sized := by unfold DiskMessage.Sized; decide

/-- **C24 is violated**: the empty file is delivered as an empty message from the zero identity, and a
file cut after the length word is delivered as an empty message of the real sender. -/
theorem C24_truncated_delivered_violated :
    (∃ n, n < (marshal witness).length ∧ n ≠ (marshalOld witness).length ∧
      unmarshal ((marshal witness).take n) = some ⟨List.replicate 32 7, 5, [], false⟩) ∧
    unmarshal [] = some ⟨List.replicate 32 0, 0, [], false⟩ ∧ ¬ C24_truncation_full := by
  have h : unmarshal ((marshal witness).take 44) = some ⟨List.replicate 32 7, 5, [], false⟩ := by
    rw [unmarshal_take witness witness_sized]; rfl
  refine ⟨⟨44, by decide, by decide, h⟩, rfl, fun hf => ?_⟩
  have := hf witness witness_sized 44 (by decide) (by decide)
  rw [h] at this
  exact absurd this (by simp)

/-- Non-trivial instances: a cleartext message with padding read back, the same without its last field,
and a cut in the middle of the payload. -/
example : unmarshal (marshal witness) = some witness ∧
    unmarshal (marshalOld witness) = some { witness with cleartext := false } ∧
    unmarshal ((marshal witness).take 46) = none :=
  ⟨C24_roundtrip _ witness_sized, C24_old_format _ witness_sized, by
    rw [unmarshal_take witness witness_sized]; rfl⟩

end Verif.Stored
