import Verif.Model.Completion
import Mathlib.Tactic.Common

/-! C54: tab completion. Model: Verif.Model.Completion (/repo/zkclient/completion.go). -/

namespace Verif.Completion

open Verif

/-- The position is inside the list. -/
def Ok (c : Completion) : Prop := c.all ≠ [] → 0 ≤ c.at_ ∧ c.at_ < c.all.length

theorem idx_nat (l : List Bytes) (i : Nat) (h : i < l.length) : idx l (i : Int) = some l[i] := by
  simp [idx, h]

theorem idx_some (l : List Bytes) (i : Int) (h0 : 0 ≤ i) (h : i < l.length) :
    ∃ v, idx l i = some v := by
  obtain ⟨n, rfl⟩ := Int.eq_ofNat_of_zero_le h0
  exact ⟨_, idx_nat l n (by omega)⟩

theorem findFrom_spec (s : Bytes) (l : List Bytes) (i : Nat) :
    (∃ j v, findFrom s l i = some (i + j, v) ∧ l[j]? = some v ∧ s <+: v ∧
      ∀ k < j, ∀ w, l[k]? = some w → ¬ s <+: w) ∨
    (findFrom s l i = none ∧ ∀ w ∈ l, ¬ s <+: w) := by
  induction l generalizing i with
  | nil => right; simp [findFrom]
  | cons v l ih =>
    by_cases h : s <+: v
    · left
      refine ⟨0, v, by simp [findFrom, h], rfl, h, ?_⟩
      intro k hk; omega
    · rcases ih (i + 1) with ⟨j, w, h1, h2, h3, h4⟩ | ⟨h1, h2⟩
      · left
        refine ⟨j + 1, w, by simp only [findFrom, h, if_false, h1]; congr 2; omega, by simpa using h2,
          h3, ?_⟩
        intro k hk x hx
        cases k with
        | zero => simp at hx; subst hx; exact h
        | succ k => exact h4 k (by omega) x (by simpa using hx)
      · right
        refine ⟨by simp [findFrom, h, h1], ?_⟩
        intro w hw
        rcases List.mem_cons.mp hw with rfl | hw
        · exact h
        · exact h2 w hw

theorem search_ok (c : Completion) (s : Bytes) :
    (search c s).1 ≠ .panic ∧ Ok (search c s).2 ∧ (search c s).2.all = c.all := by
  unfold search
  rcases findFrom_spec s c.all 0 with ⟨j, v, h1, h2, _, _⟩ | ⟨h1, _⟩
  · rw [h1]
    have : j < c.all.length := by
      by_contra hj
      rw [List.getElem?_eq_none (by omega)] at h2
      simp at h2
    exact ⟨by simp, fun _ => ⟨by simp, by simp; omega⟩, rfl⟩
  · rw [h1]
    refine ⟨by simp, fun hne => ⟨by simp, ?_⟩, rfl⟩
    have : 0 < c.all.length := List.length_pos_iff.mpr hne
    show (0 : Int) < (c.all.length : Int)
    omega

theorem next_ok (c : Completion) (s : Bytes) (h : Ok c) :
    (next c s).1 ≠ .panic ∧ Ok (next c s).2 ∧ (next c s).2.all = c.all := by
  unfold next
  by_cases h0 : c.all.length = 0
  · rw [if_pos h0]
    refine ⟨by simp, fun hne => ?_, rfl⟩
    exact absurd (List.length_eq_zero_iff.mp h0) hne
  · rw [if_neg h0]
    have hne : c.all ≠ [] := fun e => h0 (by simp [e])
    obtain ⟨ha, hb⟩ := h hne
    have hpos := List.length_pos_iff.mpr hne
    obtain ⟨v0, hv0⟩ := idx_some c.all 0 (by omega) (by omega)
    by_cases hs : s = []
    · rw [if_pos hs, hv0]
      exact ⟨by simp, fun _ => ⟨by simp, by simp only []; omega⟩, rfl⟩
    · rw [if_neg hs]
      by_cases hp : c.at_ = c.previous
      · rw [if_pos hp]
        obtain ⟨v, hv⟩ := idx_some c.all c.at_ ha hb
        rw [hv]
        simp only []
        by_cases he : v = s
        · rw [if_pos he]
          by_cases hl : c.at_ + 1 < c.all.length
          · rw [if_pos hl]
            obtain ⟨w, hw⟩ := idx_some c.all (c.at_ + 1) (by omega) hl
            rw [hw]
            exact ⟨by simp, fun _ => ⟨by simp only []; omega, by simp only []; omega⟩, rfl⟩
          · rw [if_neg hl, hv0]
            exact ⟨by simp, fun _ => ⟨by simp, by simp only []; omega⟩, rfl⟩
        · rw [if_neg he]; exact search_ok c s
      · rw [if_neg hp]; exact search_ok c s

/-- The states a context can be in: fresh, or after some inputs. -/
def after (all : List Bytes) (inputs : List Bytes) : Completion :=
  inputs.foldl (fun c s => (next c s).2) (fresh all)

theorem after_ok (all inputs : List Bytes) : Ok (after all inputs) ∧ (after all inputs).all = all := by
  suffices H : ∀ c : Completion, Ok c → c.all = all →
      Ok (inputs.foldl (fun c s => (next c s).2) c) ∧
      (inputs.foldl (fun c s => (next c s).2) c).all = all by
    apply H
    · intro hne
      have := List.length_pos_iff.mpr hne
      refine ⟨by simp [fresh], ?_⟩
      show (0 : Int) < ((fresh all).all.length : Int)
      omega
    · rfl
  induction inputs with
  | nil => intro c h1 h2; exact ⟨h1, h2⟩
  | cons s inputs ih =>
    intro c h1 h2
    have := next_ok c s h1
    exact ih _ this.2.1 (by rw [this.2.2, h2])

/-- Whatever the candidates and whatever was typed before, completion never crashes. -/
theorem C54_never_crashes (all inputs : List Bytes) (s : Bytes) :
    (next (after all inputs) s).1 ≠ .panic :=
  (next_ok _ s (after_ok all inputs).1).1

/-- Specification: the first candidate with the given prefix. -/
def firstWith (all : List Bytes) (s : Bytes) : Option Nat := all.findIdx? (fun v => decide (s <+: v))

theorem next_at (all : List Bytes) (hall : ∀ v ∈ all, v ≠ []) (i : Nat) (hi : i < all.length) :
    next ⟨all, i, i⟩ all[i] =
      (.ok (all[(i + 1) % all.length]'(Nat.mod_lt _ (by omega))),
        ⟨all, ((i + 1) % all.length : Nat), ((i + 1) % all.length : Nat)⟩) := by
  have hne : all[i] ≠ [] := hall _ (List.getElem_mem hi)
  unfold next
  rw [if_neg (by simp only []; omega), if_neg hne]
  simp only [if_true]
  rw [idx_nat all i hi]
  simp only [if_true]
  by_cases hl : i + 1 < all.length
  · have hm : (i + 1) % all.length = i + 1 := Nat.mod_eq_of_lt hl
    rw [if_pos (by omega)]
    have := idx_nat all (i + 1) hl
    push_cast at this
    rw [this]
    simp [hm]
  · have he : i + 1 = all.length := by omega
    have hm : (i + 1) % all.length = 0 := by rw [he]; exact Nat.mod_self _
    rw [if_neg (by omega)]
    have := idx_nat all 0 (by omega)
    push_cast at this
    rw [this]
    simp [hm]

theorem presses_at (all : List Bytes) (hall : ∀ v ∈ all, v ≠ []) (n i : Nat) (hi : i < all.length) :
    presses ⟨all, i, i⟩ all[i] n =
      (List.range n).map fun k =>
        .ok (all[(i + 1 + k) % all.length]'(Nat.mod_lt _ (by omega))) := by
  induction n generalizing i with
  | zero => rfl
  | succ n ih =>
    rw [presses, next_at all hall i hi]
    simp only []
    rw [ih _ (Nat.mod_lt _ (by omega)), List.range_succ_eq_map, List.map_cons, List.map_map]
    congr 1
    apply List.map_congr_left
    intro k _
    simp only [Function.comp]
    congr 2
    rw [Nat.add_assoc, Nat.mod_add_mod]
    congr 1
    omega

theorem search_fresh (all : List Bytes) (s : Bytes) (c : Completion) (hc : c.all = all) (i : Nat)
    (hf : firstWith all s = some i) :
    ∃ h : i < all.length, search c s = (.ok all[i], ⟨all, i, i⟩) := by
  unfold firstWith at hf
  rw [List.findIdx?_eq_some_iff_getElem] at hf
  obtain ⟨h, h1, h2⟩ := hf
  refine ⟨h, ?_⟩
  unfold search
  rw [hc]
  rcases findFrom_spec s all 0 with ⟨j, v, g1, g2, g3, g4⟩ | ⟨g1, g2⟩
  · have hj : j = i := by
      rcases Nat.lt_trichotomy j i with hlt | heq | hgt
      · have := h2 j hlt
        have hjl : j < all.length := by omega
        rw [List.getElem?_eq_getElem hjl] at g2
        simp only [Option.some.injEq] at g2
        rw [g2] at this
        simp [g3] at this
      · exact heq
      · have := g4 i hgt all[i] (List.getElem?_eq_getElem h)
        simp at h1
        exact absurd h1 this
    subst hj
    rw [List.getElem?_eq_getElem h] at g2
    simp only [Option.some.injEq] at g2
    rw [g1, g2]
    simp
  · have := g2 all[i] (List.getElem_mem h)
    simp at h1
    exact absurd h1 this

/-- From a fresh context: the first press completes to the first candidate with the typed prefix, and
further presses go through the whole list in order from there, wrapping around. Missing for the full
claim: only candidates with the prefix should be visited (the next theorem shows that this fails). -/
theorem C54_cycle_partial (all : List Bytes) (hall : ∀ v ∈ all, v ≠ []) (s : Bytes) (i n : Nat)
    (hf : firstWith all s = some i) :
    ∃ h : 0 < all.length, presses (fresh all) s n =
      (List.range n).map fun k => .ok (all[(i + k) % all.length]'(Nat.mod_lt _ h)) := by
  obtain ⟨hi, hs⟩ := search_fresh all s (fresh all) rfl i hf
  refine ⟨by omega, ?_⟩
  cases n with
  | zero => rfl
  | succ n =>
    have h1 : next (fresh all) s = (.ok all[i], ⟨all, i, i⟩) := by
      unfold next
      rw [if_neg (by simp only [fresh]; omega)]
      by_cases he : s = []
      · have h0 : i = 0 := by
          unfold firstWith at hf
          rw [List.findIdx?_eq_some_iff_getElem] at hf
          obtain ⟨_, _, h2⟩ := hf
          by_contra hne
          have := h2 0 (by omega)
          simp [he] at this
        subst h0
        rw [if_pos he]
        have := idx_nat all 0 hi
        push_cast at this
        simp only [fresh] at this ⊢
        rw [this]
        rfl
      · rw [if_neg he, if_neg (by simp [fresh])]
        exact hs
    rw [presses, h1]
    simp only []
    rw [presses_at all hall n i hi, List.range_succ_eq_map, List.map_cons, List.map_map]
    have h0 : (i + 0) % all.length = i := Nat.mod_eq_of_lt hi
    simp only [h0]
    congr 1
    apply List.map_congr_left
    intro k _
    simp only [Function.comp]
    congr 2
    congr 1
    omega

/-- If every candidate has the prefix, the claim holds in full: the presses are the candidates in
order, starting with the first, wrapping around. -/
theorem C54_cycle_common_prefix (all : List Bytes) (hall : ∀ v ∈ all, v ≠ []) (s : Bytes)
    (h : 0 < all.length) (hp : ∀ v ∈ all, s <+: v) (n : Nat) :
    presses (fresh all) s n =
      (List.range n).map fun k => .ok (all[k % all.length]'(Nat.mod_lt _ h)) := by
  have hf : firstWith all s = some 0 := by
    unfold firstWith
    rw [List.findIdx?_eq_some_iff_getElem]
    exact ⟨h, by simpa using hp _ (List.getElem_mem h), fun j hj => by omega⟩
  obtain ⟨_, h2⟩ := C54_cycle_partial all hall s 0 n hf
  simpa using h2

/-- If no candidate has the prefix, what was typed stays, in every reachable context in which it is
not itself the last completion. -/
theorem C54_no_candidate (all inputs : List Bytes) (s : Bytes)
    (hn : ∀ v ∈ all, ¬ s <+: v) : (next (after all inputs) s).1 = .ok s := by
  obtain ⟨hok, hall⟩ := after_ok all inputs
  generalize after all inputs = c at hok hall
  have hsearch : (search c s).1 = .ok s := by
    unfold search
    rw [hall]
    rcases findFrom_spec s all 0 with ⟨j, v, h1, h2, h3, _⟩ | ⟨h1, _⟩
    · exact absurd h3 (hn v (List.mem_of_getElem? h2))
    · rw [h1]
  unfold next
  rw [hall]
  by_cases h0 : all.length = 0
  · rw [if_pos h0]
  · rw [if_neg h0]
    have hne : all ≠ [] := fun e => h0 (by simp [e])
    have hs : s ≠ [] := by
      rintro rfl
      obtain ⟨v, hv⟩ := List.exists_mem_of_ne_nil all hne
      exact hn v hv List.nil_prefix
    rw [if_neg hs]
    by_cases hp : c.at_ = c.previous
    · rw [if_pos hp]
      have := hok (by rw [hall]; exact hne)
      rw [hall] at this
      obtain ⟨v, hv⟩ := idx_some all c.at_ this.1 this.2
      rw [hv]
      simp only []
      have hvm : v ∈ all := by
        unfold idx at hv
        split at hv
        · exact List.mem_of_getElem? hv
        · simp at hv
      rw [if_neg (by rintro rfl; exact hn v hvm List.prefix_rfl)]
      exact hsearch
    · rw [if_neg hp]; exact hsearch

/-- The code breaks C54: with candidates "ab" and "b" and typed prefix "a", the second press offers
"b", which does not start with "a". -/
theorem C54_cycle_violated :
    ∃ (all : List Bytes) (s v : Bytes), Outcome.ok v ∈ presses (fresh all) s 2 ∧ ¬ s <+: v ∧
      firstWith all s = some 0 :=
  ⟨[[97, 98], [98]], [97], [98], by decide, by decide, by decide⟩

/-- What is on the line when something was offered. -/
theorem next_last (c : Completion) (s r : Bytes) (h : c.all = [] → c.previous ≠ 0)
    (hr : (next c s).1 = .ok r) (he : (next c s).2.at_ = (next c s).2.previous) :
    idx c.all (next c s).2.at_ = some r ∧ (s ≠ [] → (∀ v ∈ c.all, ¬ s <+: v) → False) := by
  have hsearch : (search c s).1 = .ok r → (search c s).2.at_ = (search c s).2.previous →
      idx c.all (search c s).2.at_ = some r ∧ (s ≠ [] → (∀ v ∈ c.all, ¬ s <+: v) → False) := by
    unfold search
    rcases findFrom_spec s c.all 0 with ⟨j, v, g1, g2, g3, g4⟩ | ⟨g1, g2⟩
    · rw [g1]
      intro hr _
      cases hr
      refine ⟨?_, fun _ h => h _ (List.mem_of_getElem? g2) g3⟩
      simp only [idx, Nat.zero_add]
      rw [if_pos (by omega)]
      simpa using g2
    · rw [g1]
      intro _ he
      simp only [] at he
      omega
  unfold next at hr he ⊢
  by_cases h0 : c.all.length = 0
  · rw [if_pos h0] at he
    exact absurd he.symm (h (List.length_eq_zero_iff.mp h0))
  · rw [if_neg h0] at hr he ⊢
    by_cases hs : s = []
    · rw [if_pos hs] at hr he ⊢
      refine ⟨?_, fun h => absurd hs h⟩
      cases hv : idx c.all 0 with
      | none => rw [hv] at hr; cases hr
      | some v => rw [hv] at hr; cases hr; simp [hv]
    · rw [if_neg hs] at hr he ⊢
      by_cases hp : c.at_ = c.previous
      · rw [if_pos hp] at hr he ⊢
        cases hv : idx c.all c.at_ with
        | none => rw [hv] at hr; cases hr
        | some v =>
          rw [hv] at hr he
          simp only [] at hr he ⊢
          by_cases e : v = s
          · rw [if_pos e] at hr he ⊢
            have hm : v ∈ c.all := by
              unfold idx at hv
              split at hv
              · exact List.mem_of_getElem? hv
              · cases hv
            refine ⟨?_, fun _ h => h v hm (by rw [e]; exact List.prefix_rfl)⟩
            by_cases hl : c.at_ + 1 < c.all.length
            · rw [if_pos hl] at hr he ⊢
              cases hw : idx c.all (c.at_ + 1) with
              | none => rw [hw] at hr; cases hr
              | some w => rw [hw] at hr; cases hr; simp [hw]
            · rw [if_neg hl] at hr he ⊢
              cases hw : idx c.all 0 with
              | none => rw [hw] at hr; cases hr
              | some w => rw [hw] at hr; cases hr; simp [hw]
          · rw [if_neg e] at hr he ⊢
            exact hsearch hr he
      · rw [if_neg hp] at hr he ⊢
        exact hsearch hr he

theorem after_snoc (all inputs : List Bytes) (s : Bytes) :
    after all (inputs ++ [s]) = (next (after all inputs) s).2 := by
  simp [after]

theorem after_nil (inputs : List Bytes) : (after [] inputs).previous ≠ 0 := by
  suffices H : ∀ c : Completion, c.all = [] → c.previous ≠ 0 →
      (inputs.foldl (fun c s => (next c s).2) c).previous ≠ 0 from H _ rfl (by decide)
  induction inputs with
  | nil => intro c _ h; exact h
  | cons s inputs ih =>
    intro c h1 h2
    have hn : next c s = (.ok s, { c with at_ := 0 }) := by unfold next; rw [if_pos (by simp [h1])]
    simp only [List.foldl_cons, hn]
    exact ih _ h1 h2

/-- Specification: what a text is completed to by itself. -/
def alone (all : List Bytes) (t : Bytes) : Bytes := (all.find? (fun v => decide (t <+: v))).getD t

theorem search_alone (c : Completion) (t : Bytes) : (search c t).1 = .ok (alone c.all t) := by
  have H : ∀ (l : List Bytes) (i : Nat), (findFrom t l i).map (·.2) = l.find? (fun v => decide (t <+: v)) := by
    intro l
    induction l with
    | nil => intro i; rfl
    | cons v vs ih =>
      intro i
      by_cases hp : t <+: v
      · simp [findFrom, hp]
      · simp only [findFrom, hp, if_false, List.find?_cons, decide_false]
        exact ih (i + 1)
  unfold search alone
  rw [← H c.all 0]
  cases findFrom t c.all 0 with
  | none => rfl
  | some e => rfl

/-- Whatever was pressed before: if the line is not what the last press left there, or if nothing fitted then, it is
completed as if nothing had been pressed. -/
theorem C54_afresh (all inputs : List Bytes) (s t : Bytes) (ht : t ≠ [])
    (h : (next (after all inputs) s).1 ≠ .ok t ∨ (s ≠ [] ∧ ∀ v ∈ all, ¬ s <+: v)) :
    (next (after all (inputs ++ [s])) t).1 = .ok (alone all t) := by
  obtain ⟨hok, hall⟩ := after_ok all inputs
  obtain ⟨hok', hall'⟩ := after_ok all (inputs ++ [s])
  have hlast := next_last (after all inputs) s
  have hnp := (next_ok (after all inputs) s hok).1
  have hnil : (after all inputs).all = [] → (after all inputs).previous ≠ 0 := by
    intro e
    rw [hall] at e
    subst e
    exact after_nil inputs
  rw [after_snoc] at hok' hall' ⊢
  generalize hc : (next (after all inputs) s).2 = c at *
  generalize (next (after all inputs) s).1 = o at *
  rw [hall] at hlast hnil
  unfold next
  by_cases h0 : c.all.length = 0
  · rw [if_pos h0]
    have : all = [] := by rw [← hall']; exact List.length_eq_zero_iff.mp h0
    simp [alone, this]
  · rw [if_neg h0, if_neg ht]
    by_cases hp : c.at_ = c.previous
    · rw [if_pos hp]
      obtain ⟨ha, hb⟩ := hok' (fun e => h0 (by simp [e]))
      obtain ⟨v, hv⟩ := idx_some c.all c.at_ ha hb
      rw [hv]
      simp only []
      by_cases e : v = t
      · exfalso
        cases o with
        | ok r =>
          obtain ⟨h1, h2⟩ := hlast r hnil rfl hp
          rw [hall'] at hv
          rw [h1] at hv
          cases hv
          rcases h with h | ⟨h, h'⟩
          · exact h (by rw [e])
          · exact h2 h h'
        | err x => cases x
        | panic => exact hnp rfl
      · rw [if_neg e, search_alone, hall']
    · rw [if_neg hp, search_alone, hall']

/-- The line was emptied and something typed that was the last offer but one; and something that fitted nothing was
typed in between. -/
example : let all : List Bytes := [[97, 98], [97, 99]]
    (next (after all [[97], [97, 98]]) [97, 98]).1 = .ok [97, 98] ∧
    (next (after all [[97], [120]]) [97, 98]).1 = .ok [97, 98] ∧
    (next (after all [[97]]) [97, 98]).1 = .ok [97, 99] := by decide

/-- A list with two matching candidates: both are offered in turn. -/
example : presses (fresh [[97], [98, 97], [98, 98]]) [98] 4 =
    [.ok [98, 97], .ok [98, 98], .ok [97], .ok [98, 97]] := by decide

end Verif.Completion
