import Verif.Model.RatchetConv
import Verif.Proofs.GoMap
import Mathlib.Tactic.Common
import Mathlib.Order.Basic

/-! The key schedule of a ratchet conversation in closed form, and its injectivity. -/

namespace Verif.Ratchet

open Verif

/-- Size of a key term. -/
def Key.size : Key → Nat
  | .zero => 0
  | .rnd _ => 0
  | .kem _ _ => 0
  | .sha a b => a.size + b.size + 1
  | .hmac _ k => k.size + 1
  | .mix k _ _ => k.size + 1

/-- Key material of chain `j`; `p j` is the DH private value of chain `j`. -/
def mat (sk : Key) (p : Nat → Nat) : Nat → Key
  | 0 => .zero
  | 1 => sk
  | j + 2 => .mix (.hmac .rootKey (mat sk p (j + 1))) (min (p (j + 1)) (p (j + 2)))
      (max (p (j + 1)) (p (j + 2)))

def rootOf (sk : Key) (p : Nat → Nat) (j : Nat) : Key := .hmac .rootKey (mat sk p j)

/-- Header key of chain `j`; chain 0 stands for "no chain yet". -/
def hk (sk : Key) (p : Nat → Nat) : Nat → Key
  | 0 => .zero
  | 1 => .hmac .headerKey sk
  | 2 => .hmac .sendHeaderKey sk
  | 3 => .hmac .nextRecvHeaderKey sk
  | j + 4 => .hmac .sendHeaderKey (mat sk p (j + 2))

/-- Chain key of chain `j` after `n` messages. -/
def ck (sk : Key) (p : Nat → Nat) (j : Nat) : Nat → Key
  | 0 => if j = 0 then .zero else .hmac .chainKey (mat sk p j)
  | n + 1 => .hmac .chainKeyStep (ck sk p j n)

/-- Message key `n` of chain `j`. -/
def mk (sk : Key) (p : Nat → Nat) (j n : Nat) : Key := .hmac .messageKey (ck sk p j n)

theorem derived_mat {sk : Key} {p : Nat → Nat} : ∀ {j : Nat}, 1 ≤ j → Derived sk (mat sk p j)
  | 0, h => absurd h (by decide)
  | 1, _ => .base
  | j + 2, _ => .mix (.hmac (derived_mat (j := j + 1) (by omega)))

theorem derived_hk {sk : Key} {p : Nat → Nat} : ∀ {j : Nat}, 1 ≤ j → Derived sk (hk sk p j)
  | 0, h => absurd h (by decide)
  | 1, _ => .hmac .base
  | 2, _ => .hmac .base
  | 3, _ => .hmac .base
  | j + 4, _ => .hmac (derived_mat (by omega))

theorem derived_ck {sk : Key} {p : Nat → Nat} {j : Nat} (h : 1 ≤ j) :
    ∀ n, Derived sk (ck sk p j n)
  | 0 => by
    have : j ≠ 0 := by omega
    simp only [ck, if_neg this]
    exact .hmac (derived_mat h)
  | n + 1 => .hmac (derived_ck h n)

theorem derived_mk {sk : Key} {p : Nat → Nat} {j n : Nat} (h : 1 ≤ j) :
    Derived sk (mk sk p j n) := .hmac (derived_ck h n)

theorem mat_size {sk : Key} {p : Nat → Nat} : ∀ j, 1 ≤ j →
    (mat sk p j).size = sk.size + 2 * (j - 1)
  | 0, h => absurd h (by decide)
  | 1, _ => by simp [mat]
  | j + 2, _ => by
    simp only [mat, Key.size]
    rw [mat_size (j + 1) (by omega)]
    omega

theorem mat_inj {sk : Key} {p : Nat → Nat} {i j : Nat} (hi : 1 ≤ i) (hj : 1 ≤ j)
    (h : mat sk p i = mat sk p j) : i = j := by
  have := congrArg Key.size h
  rw [mat_size i hi, mat_size j hj] at this
  omega

theorem hk_ne_zero {sk : Key} {p : Nat → Nat} : ∀ {j : Nat}, 1 ≤ j → hk sk p j ≠ .zero
  | 0, h => absurd h (by decide)
  | 1, _ => by simp [hk]
  | 2, _ => by simp [hk]
  | 3, _ => by simp [hk]
  | j + 4, _ => by simp [hk]

theorem hk_inj {sk : Key} {p : Nat → Nat} : ∀ {i j : Nat}, hk sk p i = hk sk p j → i = j := by
  have key : ∀ j, sk ≠ mat sk p (j + 2) := by
    intro j h
    have := mat_inj (sk := sk) (p := p) (i := 1) (j := j + 2) (by omega) (by omega) h
    omega
  intro i j h
  match i, j, h with
  | 0, 0, _ => rfl
  | 0, j + 1, h => exact absurd h.symm (hk_ne_zero (by omega))
  | i + 1, 0, h => exact absurd h (hk_ne_zero (by omega))
  | 1, 1, _ => rfl
  | 1, 2, h => simp [hk] at h
  | 1, 3, h => simp [hk] at h
  | 1, j + 4, h => simp [hk] at h
  | 2, 1, h => simp [hk] at h
  | 2, 2, _ => rfl
  | 2, 3, h => simp [hk] at h
  | 2, j + 4, h => simp only [hk, Key.hmac.injEq, true_and] at h; exact absurd h (key j)
  | 3, 1, h => simp [hk] at h
  | 3, 2, h => simp [hk] at h
  | 3, 3, _ => rfl
  | 3, j + 4, h => simp [hk] at h
  | i + 4, 1, h => simp [hk] at h
  | i + 4, 2, h => simp only [hk, Key.hmac.injEq, true_and] at h; exact absurd h.symm (key i)
  | i + 4, 3, h => simp [hk] at h
  | i + 4, j + 4, h =>
    simp only [hk, Key.hmac.injEq, true_and] at h
    have := mat_inj (by omega) (by omega) h
    omega

theorem ck_inj {sk : Key} {p : Nat → Nat} {i j : Nat} (hi : 1 ≤ i) (hj : 1 ≤ j) :
    ∀ {n m : Nat}, ck sk p i n = ck sk p j m → i = j ∧ n = m
  | 0, 0, h => by
    have h1 : i ≠ 0 := by omega
    have h2 : j ≠ 0 := by omega
    simp only [ck, if_neg h1, if_neg h2, Key.hmac.injEq, true_and] at h
    exact ⟨mat_inj hi hj h, rfl⟩
  | 0, m + 1, h => by
    have h1 : i ≠ 0 := by omega
    simp [ck, if_neg h1] at h
  | n + 1, 0, h => by
    have h1 : j ≠ 0 := by omega
    simp [ck, if_neg h1] at h
  | n + 1, m + 1, h => by
    simp only [ck, Key.hmac.injEq, true_and] at h
    obtain ⟨h1, h2⟩ := ck_inj hi hj h
    exact ⟨h1, by rw [h2]⟩

theorem mk_inj {sk : Key} {p : Nat → Nat} {i j n m : Nat} (hi : 1 ≤ i) (hj : 1 ≤ j)
    (h : mk sk p i n = mk sk p j m) : i = j ∧ n = m := by
  simp only [mk, Key.hmac.injEq, true_and] at h
  exact ck_inj hi hj h

/-! The keys of a chain depend only on the private values up to that chain. -/

theorem mat_congr {sk : Key} {p q : Nat → Nat} : ∀ {j : Nat}, (∀ i, i ≤ j → p i = q i) →
    mat sk p j = mat sk q j
  | 0, _ => rfl
  | 1, _ => rfl
  | j + 2, h => by
    simp only [mat]
    rw [mat_congr (j := j + 1) (fun i hi => h i (by omega)), h (j + 1) (by omega),
      h (j + 2) (by omega)]

theorem hk_congr {sk : Key} {p q : Nat → Nat} : ∀ {j : Nat}, (∀ i, i + 2 ≤ j → p i = q i) →
    hk sk p j = hk sk q j
  | 0, _ => rfl
  | 1, _ => rfl
  | 2, _ => rfl
  | 3, _ => rfl
  | j + 4, h => by
    simp only [hk]
    rw [mat_congr (j := j + 2) (fun i hi => h i (by omega))]

theorem ck_congr {sk : Key} {p q : Nat → Nat} {j : Nat} (h : ∀ i, i ≤ j → p i = q i) :
    ∀ n, ck sk p j n = ck sk q j n
  | 0 => by simp only [ck]; rw [mat_congr h]
  | n + 1 => by simp only [ck]; rw [ck_congr h n]

theorem mk_congr {sk : Key} {p q : Nat → Nat} {j n : Nat} (h : ∀ i, i ≤ j → p i = q i) :
    mk sk p j n = mk sk q j n := by simp only [mk]; rw [ck_congr h]

theorem rootOf_congr {sk : Key} {p q : Nat → Nat} {j : Nat} (h : ∀ i, i ≤ j → p i = q i) :
    rootOf sk p j = rootOf sk q j := by simp only [rootOf]; rw [mat_congr h]

/-- Derived header key after a ratchet step. -/
theorem hk_next {sk : Key} {p : Nat → Nat} {j : Nat} (h : 2 ≤ j) :
    hk sk p (j + 2) = .hmac .sendHeaderKey (mat sk p j) := by
  obtain ⟨i, rfl⟩ : ∃ i, j = i + 2 := ⟨j - 2, by omega⟩
  rfl

theorem mat_succ {sk : Key} {p : Nat → Nat} {j : Nat} (h : 1 ≤ j) :
    mat sk p (j + 1) = .mix (rootOf sk p j) (min (p j) (p (j + 1))) (max (p j) (p (j + 1))) := by
  obtain ⟨i, rfl⟩ : ∃ i, j = i + 1 := ⟨j - 1, by omega⟩
  rfl

end Verif.Ratchet
