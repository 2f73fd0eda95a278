import Verif.Model.Hex
import Mathlib.Tactic.Common

/-! C20: identity strings parse back exactly. Model: Verif.Model.Hex. -/

namespace Verif.Hex

open Verif

/-- Specification: hexadecimal digits of either case. -/
def isHex (c : UInt8) : Prop :=
  c ∈ [48, 49, 50, 51, 52, 53, 54, 55, 56, 57, 97, 98, 99, 100, 101, 102, 65, 66, 67, 68, 69, 70]

instance (c : UInt8) : Decidable (isHex c) := inferInstanceAs (Decidable (c ∈ _))

set_option maxRecDepth 4000 in
theorem fromHexChar_isSome (c : UInt8) : (fromHexChar c).isSome ↔ isHex c := by
  have : ∀ n : Fin 256, (fromHexChar (UInt8.ofNat n)).isSome ↔ isHex (UInt8.ofNat n) := by decide
  have h := this ⟨c.toNat, c.toNat_lt⟩
  simpa using h

theorem fromHexChar_digit : ∀ n : Fin 16, fromHexChar (digit n) = some n.val := by decide

theorem decode_encode (b : Bytes) : decode (encode b) = some b := by
  induction b with
  | nil => rfl
  | cons b bs ih =>
    have h1 := fromHexChar_digit ⟨b.toNat / 16, by have := b.toNat_lt; omega⟩
    have h2 := fromHexChar_digit ⟨b.toNat % 16, by omega⟩
    have : 16 * (b.toNat / 16) + b.toNat % 16 = b.toNat := Nat.div_add_mod _ _
    simp [encode, decode, h1, h2, ih, this]

theorem decode_some_iff (s : Bytes) :
    (decode s).isSome ↔ s.length % 2 = 0 ∧ ∀ c ∈ s, isHex c := by
  induction s using decode.induct with
  | case1 => simp [decode]
  | case2 => simp [decode]
  | case3 a b rest x y hy hx ih =>
    have ha : isHex a := (fromHexChar_isSome a).mp (by rw [hx]; rfl)
    have hb : isHex b := (fromHexChar_isSome b).mp (by rw [hy]; rfl)
    simp only [decode, hx, hy, Option.isSome_map, ih, List.length_cons, List.mem_cons]
    constructor
    · rintro ⟨h1, h2⟩
      refine ⟨by omega, ?_⟩
      rintro c (rfl | rfl | h)
      · exact ha
      · exact hb
      · exact h2 c h
    · rintro ⟨h1, h2⟩
      exact ⟨by omega, fun c h => h2 c (.inr (.inr h))⟩
  | case4 a b rest h =>
    have hd : decode (a :: b :: rest) = none := by
      rw [decode]
      split
      · rename_i hx hy; exact (h _ _ hx hy).elim
      · rfl
    rw [hd]
    simp only [Option.isSome_none, Bool.false_eq_true, List.length_cons, List.mem_cons, false_iff]
    rintro ⟨_, h2⟩
    have ha := (fromHexChar_isSome a).mpr (h2 a (.inl rfl))
    have hb := (fromHexChar_isSome b).mpr (h2 b (.inr (.inl rfl)))
    obtain ⟨x, hx⟩ := Option.isSome_iff_exists.mp ha
    obtain ⟨y, hy⟩ := Option.isSome_iff_exists.mp hb
    exact h x y hx hy

theorem decode_length {s b : Bytes} (h : decode s = some b) : s.length = 2 * b.length := by
  induction s using decode.induct generalizing b with
  | case1 => simp [decode] at h; simp [h]
  | case2 => simp [decode] at h
  | case3 a c rest x y hy hx ih =>
    simp only [decode, hx, hy, Option.map_eq_some_iff] at h
    obtain ⟨b', hb', rfl⟩ := h
    have := ih hb'
    simp [this]; omega
  | case4 a c rest hn =>
    rw [decode] at h
    split at h
    · rename_i hx hy; exact (hn _ _ hx hy).elim
    · simp at h

/-- Any 32-byte identity parses back from its rendering. -/
theorem C20_roundtrip (id : Bytes) (h : id.length = 32) : string2ID (fingerprint id) = some id := by
  simp [string2ID, fingerprint, decode_encode, h]

/-- Different identities have different renderings (of any length). -/
theorem C20_injective (a b : Bytes) (h : fingerprint a = fingerprint b) : a = b := by
  have := congrArg decode h
  simpa [fingerprint, decode_encode] using this

/-- A string is accepted exactly if it consists of 64 hexadecimal digits. -/
theorem C20_accepts_exactly (s : Bytes) :
    (string2ID s).isSome ↔ s.length = 64 ∧ ∀ c ∈ s, isHex c := by
  unfold string2ID
  constructor
  · intro h
    rcases hd : decode s with _ | b
    · simp [hd] at h
    · rw [hd] at h
      have h2 := (decode_some_iff s).mp (by simp [hd])
      have h3 := decode_length hd
      by_cases hl : b.length = 32
      · exact ⟨by omega, h2.2⟩
      · simp [hl] at h
  · rintro ⟨h1, h2⟩
    have := (decode_some_iff s).mpr ⟨by omega, h2⟩
    obtain ⟨b, hb⟩ := Option.isSome_iff_exists.mp this
    have h3 := decode_length hb
    rw [hb]
    simp only []
    rw [if_neg (by omega)]
    rfl

/-- What is accepted is always a 32-byte identity, and rendering it gives the string back up to the
case of the letters: the rendering parses to the same identity. -/
theorem C20_accepted_is_identity (s id : Bytes) (h : string2ID s = some id) :
    id.length = 32 ∧ string2ID (fingerprint id) = some id := by
  have : id.length = 32 := by
    unfold string2ID at h
    split at h
    · simp at h
    · split at h
      · simp at h
      · rename_i hl; simp only [Option.some.injEq] at h; subst h; simpa using hl
  exact ⟨this, C20_roundtrip id this⟩

/-- Upper case is accepted too; 63 digits and a foreign letter are not. -/
example : string2ID (List.replicate 64 65) = some (List.replicate 32 170) ∧
    string2ID (List.replicate 63 65) = none ∧ string2ID (103 :: List.replicate 63 65) = none ∧
    fingerprint [0, 255, 26] = [48, 48, 102, 102, 49, 97] := by decide

end Verif.Hex
