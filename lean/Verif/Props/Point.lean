import Verif.Model.Point
import Verif.Model.Ratchet
import Mathlib.Tactic.Common

/-! C17: weak public values are refused. Model: Verif.Model.Point
(/repo/ratchet/ratchet.go:161-176, 520-529). -/

namespace Verif.Point

open Verif

/-- Specification: the little-endian value of a byte string. -/
def leValue : Bytes → Nat
  | [] => 0
  | b :: bs => b.toNat + 256 * leValue bs

theorem setBytes_append (a : Bytes) (b : UInt8) : setBytes (a ++ [b]) = 256 * setBytes a + b.toNat := by
  simp [setBytes]

theorem setBytes_reverse (a : Bytes) : setBytes a.reverse = leValue a := by
  induction a with
  | nil => rfl
  | cons b a ih => rw [List.reverse_cons, setBytes_append, ih, leValue]; omega

theorem inv32_eq {p : Bytes} (h : p.length = 32) : inv32 p = p.reverse := by
  apply List.ext_getElem
  · simp [inv32, h]
  · intro i h1 h2
    simp only [inv32, List.getElem_map, List.getElem_range, List.getElem_reverse]
    rw [List.getD_eq_getElem?_getD, List.getElem?_eq_getElem (by simp [inv32] at h1; omega)]
    simp only [Option.getD_some]
    congr 1
    omega

/-- Accepted exactly when 32 bytes long with a little-endian value in [3, 2^255 - 19). -/
theorem C17_accepts_exactly (p : Bytes) :
    validateECDHpoint p = true ↔ p.length = 32 ∧ 3 ≤ leValue p ∧ leValue p < 2 ^ 255 - 19 := by
  unfold validateECDHpoint
  by_cases h : p.length = 32
  · rw [if_neg (by simp [h]), inv32_eq h, setBytes_reverse]
    by_cases h1 : leValue p < 3
    · rw [if_pos h1]
      constructor
      · simp
      · rintro ⟨_, h2, _⟩; omega
    · rw [if_neg h1]
      by_cases h2 : leValue p < 2 ^ 255 - 19
      · rw [if_neg (by simpa using h2)]
        exact ⟨fun _ => ⟨h, by omega, h2⟩, fun _ => rfl⟩
      · rw [if_pos h2]
        constructor
        · simp
        · rintro ⟨_, _, h3⟩; exact absurd h3 h2
  · rw [if_pos h]
    constructor
    · simp
    · rintro ⟨h1, _⟩; exact absurd h1 h

/-- The base point 9 is accepted; 0, 1 and 2, the prime itself and a wrong length are refused. -/
example : validateECDHpoint (9 :: List.replicate 31 0) = true ∧
    validateECDHpoint (List.replicate 32 0) = false ∧
    validateECDHpoint (2 :: List.replicate 31 0) = false ∧
    validateECDHpoint (237 :: List.replicate 30 255 ++ [127]) = false ∧
    validateECDHpoint (236 :: List.replicate 30 255 ++ [127]) = true ∧
    validateECDHpoint (List.replicate 31 9) = false := by decide

/-- `CompleteKeyExchange` acts on the check: a KeyExchange whose public value fails it is refused
and no key, counter or flag of the ratchet is set (only the decapsulated half is stored). -/
theorem C17_key_exchange_refuses (r : Ratchet.Ratchet) (c : Ratchet.KemCt) (k : Ratchet.Key)
    (p : Ratchet.Pub) (alice : Bool) :
    (Ratchet.completeKeyExchange r ⟨c, .sealed k p false⟩ alice).1 = .err ∧
    ∃ h, (Ratchet.completeKeyExchange r ⟨c, .sealed k p false⟩ alice).2 = { r with theirHalf := h } := by
  unfold Ratchet.completeKeyExchange
  cases c with
  | junk => exact ⟨rfl, r.theirHalf, rfl⟩
  | enc pk rnd =>
    simp only []
    by_cases h : pk = r.kemSk
    · rw [if_pos h]
      by_cases h2 : k = Ratchet.Key.kem pk rnd
      · rw [if_pos h2]; exact ⟨rfl, _, rfl⟩
      · rw [if_neg h2]; exact ⟨rfl, _, rfl⟩
    · rw [if_neg h]; exact ⟨rfl, r.theirHalf, rfl⟩

/-- The same exchange with a value that passes is completed. -/
example : (Ratchet.completeKeyExchange (Ratchet.fillKeyExchange (Ratchet.new 1 2 3) 5).2
      ⟨.enc 1 6, .sealed (.kem 1 6) (.of 4) true⟩ true).1 = .ok () ∧
    (Ratchet.completeKeyExchange (Ratchet.fillKeyExchange (Ratchet.new 1 2 3) 5).2
      ⟨.enc 1 6, .sealed (.kem 1 6) (.of 4) false⟩ true).1 = .err := by decide

end Verif.Point
