import Verif.Model.Base64
import Mathlib.Tactic.Common

/-! # base64 -/

namespace Verif.Base64

open Verif

theorem val_chr {n : Nat} (h : n < 64) : val (chr n) = some n := by
  have : ∀ i : Fin 64, val (chr i.1) = some i.1 := by decide
  exact this ⟨n, h⟩

theorem chr_safe {n : Nat} (h : n < 64) : chr n ≠ 61 ∧ chr n ≠ 10 ∧ chr n ≠ 13 ∧ 43 ≤ (chr n).toNat ∧ (chr n).toNat ≤ 122 := by
  have : ∀ i : Fin 64, chr i.1 ≠ 61 ∧ chr i.1 ≠ 10 ∧ chr i.1 ≠ 13 ∧ 43 ≤ (chr i.1).toNat ∧ (chr i.1).toNat ≤ 122 := by
    decide
  exact this ⟨n, h⟩

/-- Only characters from `+` to `z` are written. -/
theorem encode_safe (s : Bytes) : ∀ c ∈ encode s, 43 ≤ c.toNat ∧ c.toNat ≤ 122 := by
  induction s using encode.induct with
  | case1 => simp [encode]
  | case2 a =>
    have ha := a.toNat_lt
    have h1 := (chr_safe (n := a.toNat / 4) (by omega)).2.2.2
    have h2 := (chr_safe (n := a.toNat % 4 * 16) (by omega)).2.2.2
    simp only [encode, List.mem_cons, List.not_mem_nil, or_false]
    rintro c (rfl | rfl | rfl | rfl)
    · exact h1
    · exact h2
    · decide
    · decide
  | case3 a b =>
    have ha := a.toNat_lt
    have hb := b.toNat_lt
    have h1 := (chr_safe (n := a.toNat / 4) (by omega)).2.2.2
    have h2 := (chr_safe (n := a.toNat % 4 * 16 + b.toNat / 16) (by omega)).2.2.2
    have h3 := (chr_safe (n := b.toNat % 16 * 4) (by omega)).2.2.2
    simp only [encode, List.mem_cons, List.not_mem_nil, or_false]
    rintro c (rfl | rfl | rfl | rfl)
    · exact h1
    · exact h2
    · exact h3
    · decide
  | case4 a b c r ih =>
    have ha := a.toNat_lt
    have hb := b.toNat_lt
    have hc := c.toNat_lt
    have h1 := (chr_safe (n := a.toNat / 4) (by omega)).2.2.2
    have h2 := (chr_safe (n := a.toNat % 4 * 16 + b.toNat / 16) (by omega)).2.2.2
    have h3 := (chr_safe (n := b.toNat % 16 * 4 + c.toNat / 64) (by omega)).2.2.2
    have h4 := (chr_safe (n := c.toNat % 64) (by omega)).2.2.2
    simp only [encode, List.mem_cons]
    rintro x (rfl | rfl | rfl | rfl | h)
    · exact h1
    · exact h2
    · exact h3
    · exact h4
    · exact ih x h

theorem byte_ext {a : UInt8} {n : Nat} (h : n = a.toNat) : UInt8.ofNat n = a := by
  subst h; simp

theorem decodeGroups_encode (s : Bytes) : decodeGroups (encode s) = some s := by
  induction s using encode.induct with
  | case1 => rfl
  | case2 a =>
    have ha := a.toNat_lt
    simp only [encode, decodeGroups, val_chr (n := a.toNat / 4) (by omega),
      val_chr (n := a.toNat % 4 * 16) (by omega), if_true, and_self]
    rw [byte_ext (a := a) (by omega)]
  | case3 a b =>
    have ha := a.toNat_lt
    have hb := b.toNat_lt
    have h3 := chr_safe (n := b.toNat % 16 * 4) (by omega)
    simp only [encode, decodeGroups, val_chr (n := a.toNat / 4) (by omega),
      val_chr (n := a.toNat % 4 * 16 + b.toNat / 16) (by omega),
      val_chr (n := b.toNat % 16 * 4) (by omega), if_neg h3.1, if_true]
    rw [byte_ext (a := a) (by omega), byte_ext (a := b) (by omega)]
  | case4 a b c r ih =>
    have ha := a.toNat_lt
    have hb := b.toNat_lt
    have hc := c.toNat_lt
    have h3 := chr_safe (n := b.toNat % 16 * 4 + c.toNat / 64) (by omega)
    have h4 := chr_safe (n := c.toNat % 64) (by omega)
    simp only [encode, decodeGroups, val_chr (n := a.toNat / 4) (by omega),
      val_chr (n := a.toNat % 4 * 16 + b.toNat / 16) (by omega),
      val_chr (n := b.toNat % 16 * 4 + c.toNat / 64) (by omega),
      val_chr (n := c.toNat % 64) (by omega), if_neg h3.1, if_neg h4.1, ih, Option.map_some]
    rw [byte_ext (a := a) (by omega), byte_ext (a := b) (by omega), byte_ext (a := c) (by omega)]

/-- What was encoded decodes to itself. -/
theorem decode_encode (s : Bytes) : decode (encode s) = some s := by
  have : (encode s).filter (fun c => c != 10 && c != 13) = encode s := by
    rw [List.filter_eq_self]
    intro c hc
    have := encode_safe s c hc
    have h1 : c ≠ 10 := by rintro rfl; revert this; decide
    have h2 : c ≠ 13 := by rintro rfl; revert this; decide
    simp [h1, h2]
  rw [decode, this, decodeGroups_encode]

theorem encode_injective {s t : Bytes} (h : encode s = encode t) : s = t := by
  have := decode_encode s
  rw [h, decode_encode] at this
  exact (Option.some.inj this).symm

/-- "any carnal pleas" -/
example : encode [97, 110, 121, 32, 99, 97, 114, 110, 97, 108, 32, 112, 108, 101, 97, 115] =
    [89, 87, 53, 53, 73, 71, 78, 104, 99, 109, 53, 104, 98, 67, 66, 119, 98, 71, 86, 104, 99, 119, 61, 61] := by decide
/-- A missing pad, and text after a pad. -/
example : decode [89, 119] = none ∧ decode [89, 119, 61, 61, 89, 119, 61, 61] = none ∧
    decode [89, 10, 119, 61, 61] = some [99] := by decide

/-- Only text as long as the encoding of the result is accepted. -/
theorem decode_length : ∀ (s b : Bytes), decodeGroups s = some b → (encode b).length = s.length
  | [], b, h => by simp only [decodeGroups, Option.some.injEq] at h; subst h; rfl
  | [_], b, h => by simp [decodeGroups] at h
  | [_, _], b, h => by simp [decodeGroups] at h
  | [_, _, _], b, h => by simp [decodeGroups] at h
  | a :: b :: c :: d :: r, t, h => by
    simp only [decodeGroups] at h
    split at h
    · split at h
      · split at h
        · next hr => cases h; rw [hr.2]; rfl
        · cases h
      · split at h
        · cases h
        · split at h
          · split at h
            · next hr => cases h; rw [hr]; rfl
            · cases h
          · split at h
            · cases h
            · rcases hx : decodeGroups r with _ | t'
              · rw [hx] at h; cases h
              · rw [hx] at h
                cases h
                have := decode_length r t' hx
                simp [encode, this]
    · cases h

end Verif.Base64
