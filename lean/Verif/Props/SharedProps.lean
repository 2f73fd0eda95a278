import Verif.Model.SharedProps
import Verif.Props.Welcome
import Mathlib.Data.List.Induction

/-! # What one client is told is not disturbed by the logins of others: C128 -/

namespace Verif.SharedProps

open Verif

/-- The login has begun. -/
def Logged (s : State) (j : Nat) : Prop := s.pc j ≠ .idle

/-- The pointer at place `k` has been stored by a login that is at `p`. -/
def pastPtr : Pc → Nat → Bool
  | .idle, _ => false
  | .store k none, i => i < k
  | .store k (some b), i => i < k || (i = k && b)
  | .load _ _ _, i => i < places
  | .done, i => i < places

/-- The same for the length. -/
def pastLen : Pc → Nat → Bool
  | .idle, _ => false
  | .store k none, i => i < k
  | .store k (some b), i => i < k || (i = k && !b)
  | .load _ _ _, i => i < places
  | .done, i => i < places

/-- How much has been marshalled at `p`. -/
def count : Pc → Nat → Prop
  | .load k none none, n => n = k ∧ k ≤ places
  | .load k _ _, n => n = k ∧ k < places
  | .done, n => n = places
  | .store k none, n => n = 0 ∧ k ≤ places
  | .store k _, n => n = 0 ∧ k < places
  | .idle, n => n = 0

structure Inv (val : Nat → Nat → Bytes) (s : State) : Prop where
  zero : s.pc 0 = .idle
  ptr : ∀ g k, pastPtr (s.pc g) k = true → Logged s (s.table k).ptr
  len : ∀ g k, pastLen (s.pc g) k = true → ∃ j, Logged s j ∧ (s.table k).len = (val j k).length
  ldp : ∀ g k p n, s.pc g = .load k (some p) n → Logged s p ∧ n = none
  ldl : ∀ g k p n, s.pc g = .load k p (some n) → (∃ j, Logged s j ∧ n = (val j k).length) ∧ p = none
  cnt : ∀ g, count (s.pc g) (s.out g).length
  out : ∀ g k h, (s.out g)[k]? = some h → Logged s h.ptr ∧ ∃ j, Logged s j ∧ h.len = (val j k).length

theorem inv_init (val : Nat → Nat → Bytes) : Inv val (init val) := by
  constructor <;> simp [init, pastPtr, pastLen, count]

theorem upd_self {α} (f : Nat → α) (i : Nat) (a : α) : upd f i a i = a := by simp [upd]

theorem upd_ne {α} (f : Nat → α) {i j : Nat} (a : α) (h : j ≠ i) : upd f i a j = f j := by simp [upd, h]

theorem logged_goto {s : State} {g j : Nat} {p : Pc} (hp : p ≠ .idle) (h : Logged s j) : Logged (s.goto g p) j := by
  unfold Logged State.goto upd
  simp only
  split
  · exact hp
  · exact h

theorem logged_self (s : State) {g : Nat} {p : Pc} (hp : p ≠ .idle) : Logged (s.goto g p) g := by
  unfold Logged State.goto
  simpa [upd] using hp

/-- A step that changes neither table nor output. -/
theorem inv_goto {val : Nat → Nat → Bytes} {s : State} {g : Nat} {p : Pc} (hi : Inv val s) (hg : g ≠ 0) (hp : p ≠ .idle)
    (h1 : ∀ k, pastPtr p k = true → Logged (s.goto g p) (s.table k).ptr)
    (h2 : ∀ k, pastLen p k = true → ∃ j, Logged (s.goto g p) j ∧ (s.table k).len = (val j k).length)
    (h3 : ∀ k q n, p = .load k (some q) n → Logged s q ∧ n = none)
    (h4 : ∀ k q n, p = .load k q (some n) → (∃ j, Logged s j ∧ n = (val j k).length) ∧ q = none)
    (h5 : count p (s.out g).length) : Inv val (s.goto g p) where
  zero := by
    show upd s.pc g p 0 = _
    rw [upd_ne _ _ (Ne.symm hg)]
    exact hi.zero
  ptr := by
    intro g' k h
    change pastPtr (upd s.pc g p g') k = true at h
    by_cases e : g' = g
    · rw [e, upd_self] at h
      exact h1 k h
    · rw [upd_ne _ _ e] at h
      exact logged_goto hp (hi.ptr g' k h)
  len := by
    intro g' k h
    change pastLen (upd s.pc g p g') k = true at h
    by_cases e : g' = g
    · rw [e, upd_self] at h
      exact h2 k h
    · rw [upd_ne _ _ e] at h
      obtain ⟨j, hj, hl⟩ := hi.len g' k h
      exact ⟨j, logged_goto hp hj, hl⟩
  ldp := by
    intro g' k q n h
    change upd s.pc g p g' = _ at h
    by_cases e : g' = g
    · rw [e, upd_self] at h
      exact ⟨logged_goto hp (h3 k q n h).1, (h3 k q n h).2⟩
    · rw [upd_ne _ _ e] at h
      exact ⟨logged_goto hp (hi.ldp g' k q n h).1, (hi.ldp g' k q n h).2⟩
  ldl := by
    intro g' k q n h
    change upd s.pc g p g' = _ at h
    by_cases e : g' = g
    · rw [e, upd_self] at h
      obtain ⟨⟨j, hj, hl⟩, hq⟩ := h4 k q n h
      exact ⟨⟨j, logged_goto hp hj, hl⟩, hq⟩
    · rw [upd_ne _ _ e] at h
      obtain ⟨⟨j, hj, hl⟩, hq⟩ := hi.ldl g' k q n h
      exact ⟨⟨j, logged_goto hp hj, hl⟩, hq⟩
  cnt := by
    intro g'
    show count (upd s.pc g p g') _
    by_cases e : g' = g
    · rw [e, upd_self]
      exact h5
    · rw [upd_ne _ _ e]
      exact hi.cnt g'
  out := by
    intro g' k h hh
    obtain ⟨a, j, hj, hl⟩ := hi.out g' k h hh
    exact ⟨logged_goto hp a, j, logged_goto hp hj, hl⟩

/-- The table is changed by one who has begun. -/
theorem inv_putPtr {val : Nat → Nat → Bytes} {s : State} {g : Nat} (hi : Inv val s) (k : Nat) (hg : Logged s g) :
    Inv val (s.putPtr g k) where
  zero := hi.zero
  ptr := by
    intro g' i h
    show Logged s (upd s.table k _ i).ptr
    by_cases e : i = k
    · rw [e, upd_self]; exact hg
    · rw [upd_ne _ _ e]; exact hi.ptr g' i h
  len := by
    intro g' i h
    show ∃ j, Logged s j ∧ (upd s.table k _ i).len = _
    by_cases e : i = k
    · rw [e, upd_self]; rw [e] at h; exact hi.len g' k h
    · rw [upd_ne _ _ e]; exact hi.len g' i h
  ldp := hi.ldp
  ldl := hi.ldl
  cnt := hi.cnt
  out := hi.out

theorem inv_putLen {val : Nat → Nat → Bytes} {s : State} {g : Nat} (hi : Inv val s) (k : Nat) (hg : Logged s g) :
    Inv val (s.putLen k (val g k).length) where
  zero := hi.zero
  ptr := by
    intro g' i h
    show Logged s (upd s.table k _ i).ptr
    by_cases e : i = k
    · rw [e, upd_self]; rw [e] at h; exact hi.ptr g' k h
    · rw [upd_ne _ _ e]; exact hi.ptr g' i h
  len := by
    intro g' i h
    show ∃ j, Logged s j ∧ (upd s.table k _ i).len = _
    by_cases e : i = k
    · rw [e, upd_self]; exact ⟨g, hg, rfl⟩
    · rw [upd_ne _ _ e]; exact hi.len g' i h
  ldp := hi.ldp
  ldl := hi.ldl
  cnt := hi.cnt
  out := hi.out

/-- Something is marshalled. -/
theorem inv_out {val : Nat → Nat → Bytes} {s : State} {g k : Nat} {p : Pc} {h : Header} (hi : Inv val s) (hg : g ≠ 0)
    (hpc : s.pc g = p) (hpk : ∃ a b, p = .load k a b) (hc : (s.out g).length = k ∧ k < places)
    (h1 : Logged s h.ptr) (h2 : ∃ j, Logged s j ∧ h.len = (val j k).length) :
    Inv val { s.goto g (.load (k + 1) none none) with out := upd s.out g (s.out g ++ [h]) } := by
  obtain ⟨a, b, rfl⟩ := hpk
  have hL : ∀ {j}, Logged s j → Logged (s.goto g (.load (k + 1) none none)) j := fun hj => logged_goto (by simp) hj
  refine ⟨?_, ?_, ?_, ?_, ?_, ?_, ?_⟩
  · show upd s.pc g _ 0 = _
    rw [upd_ne _ _ (Ne.symm hg)]
    exact hi.zero
  · intro g' i hh
    change pastPtr (upd s.pc g _ g') i = true at hh
    by_cases e : g' = g
    · rw [e, upd_self] at hh
      exact hL (hi.ptr g i (by rw [hpc]; exact hh))
    · rw [upd_ne _ _ e] at hh
      exact hL (hi.ptr g' i hh)
  · intro g' i hh
    change pastLen (upd s.pc g _ g') i = true at hh
    by_cases e : g' = g
    · rw [e, upd_self] at hh
      obtain ⟨j, hj, hl⟩ := hi.len g i (by rw [hpc]; exact hh)
      exact ⟨j, hL hj, hl⟩
    · rw [upd_ne _ _ e] at hh
      obtain ⟨j, hj, hl⟩ := hi.len g' i hh
      exact ⟨j, hL hj, hl⟩
  · intro g' i q n hh
    change upd s.pc g _ g' = _ at hh
    by_cases e : g' = g
    · rw [e, upd_self] at hh; cases hh
    · rw [upd_ne _ _ e] at hh
      exact ⟨hL (hi.ldp g' i q n hh).1, (hi.ldp g' i q n hh).2⟩
  · intro g' i q n hh
    change upd s.pc g _ g' = _ at hh
    by_cases e : g' = g
    · rw [e, upd_self] at hh; cases hh
    · rw [upd_ne _ _ e] at hh
      obtain ⟨⟨j, hj, hl⟩, hq⟩ := hi.ldl g' i q n hh
      exact ⟨⟨j, hL hj, hl⟩, hq⟩
  · intro g'
    show count (upd s.pc g _ g') (upd s.out g _ g').length
    by_cases e : g' = g
    · rw [e, upd_self, upd_self]
      simp only [count, List.length_append, List.length_singleton]
      omega
    · rw [upd_ne _ _ e, upd_ne _ _ e]
      exact hi.cnt g'
  · intro g' i x hx
    change (upd s.out g _ g')[i]? = _ at hx
    by_cases e : g' = g
    · rw [e, upd_self] at hx
      rcases Nat.lt_trichotomy i k with h | h | h
      · rw [List.getElem?_append_left (by omega)] at hx
        obtain ⟨a, j, hj, hl⟩ := hi.out g i x hx
        exact ⟨hL a, j, hL hj, hl⟩
      · rw [h, List.getElem?_append_right (by omega), hc.1, Nat.sub_self] at hx
        cases hx
        obtain ⟨j, hj, hl⟩ := h2
        exact ⟨hL h1, j, hL hj, by rw [h]; exact hl⟩
      · rw [List.getElem?_eq_none (by simp; omega)] at hx
        cases hx
    · rw [upd_ne _ _ e] at hx
      obtain ⟨a, j, hj, hl⟩ := hi.out g' i x hx
      exact ⟨hL a, j, hL hj, hl⟩

theorem inv_step {val : Nat → Nat → Bytes} {s : State} (hi : Inv val s) {g : Nat} (hg : g ≠ 0) (b : Bool) :
    Inv val (step val s g b) := by
  have hc := hi.cnt g
  unfold step
  split <;> rename_i hpc <;> rw [hpc] at hc
  · -- idle
    exact inv_goto hi hg (by simp) (by simp [pastPtr]) (by simp [pastLen]) (by simp) (by simp)
      (by simpa [count] using hc)
  · -- store k none
    rename_i k
    have hlog : Logged s g := by unfold Logged; rw [hpc]; simp
    split
    · rename_i hk
      subst hk
      refine inv_goto hi hg (by simp) (fun i h => ?_) (fun i h => ?_) (by simp) (by simp) ?_
      · exact logged_goto (by simp) (hi.ptr g i (by rw [hpc]; exact h))
      · obtain ⟨j, hj, hl⟩ := hi.len g i (by rw [hpc]; exact h)
        exact ⟨j, logged_goto (by simp) hj, hl⟩
      · simp only [count] at hc ⊢; exact ⟨hc.1, by simp⟩
    · rename_i hk
      simp only [count] at hc
      split
      · refine inv_goto (inv_putPtr hi k hlog) hg (by simp) (fun i h => ?_) (fun i h => ?_) (by simp) (by simp) ?_
        · by_cases e : i = k
          · subst e
            show Logged _ (upd s.table i _ i).ptr
            rw [upd_self]
            exact logged_self _ (by simp)
          · show Logged _ (upd s.table k _ i).ptr
            rw [upd_ne _ _ e]
            refine logged_goto (s := s.putPtr g k) (by simp) (hi.ptr g i ?_)
            rw [hpc]
            simpa [pastPtr, e] using h
        · have h' : pastLen (s.pc g) i = true := by rw [hpc]; simpa [pastLen] using h
          obtain ⟨j, hj, hl⟩ := (inv_putPtr hi k hlog).len g i h'
          exact ⟨j, logged_goto (by simp) hj, hl⟩
        · simp only [count]; exact ⟨hc.1, by omega⟩
      · refine inv_goto (inv_putLen hi k hlog) hg (by simp) (fun i h => ?_) (fun i h => ?_) (by simp) (by simp) ?_
        · have h' : pastPtr (s.pc g) i = true := by rw [hpc]; simpa [pastPtr] using h
          exact logged_goto (by simp) ((inv_putLen hi k hlog).ptr g i h')
        · by_cases e : i = k
          · subst e
            refine ⟨g, logged_self _ (by simp), ?_⟩
            show (upd s.table i _ i).len = _
            rw [upd_self]
          · obtain ⟨j, hj, hl⟩ := hi.len g i (by rw [hpc]; simpa [pastLen, e] using h)
            refine ⟨j, logged_goto (s := s.putLen k _) (by simp) hj, ?_⟩
            show (upd s.table k _ i).len = _
            rw [upd_ne _ _ e]
            exact hl
        · simp only [count]; exact ⟨hc.1, by omega⟩
  · -- store k (some true)
    rename_i k
    have hlog : Logged s g := by unfold Logged; rw [hpc]; simp
    simp only [count] at hc
    refine inv_goto (inv_putLen hi k hlog) hg (by simp) (fun i h => ?_) (fun i h => ?_) (by simp) (by simp) ?_
    · have h' : pastPtr (s.pc g) i = true := by rw [hpc]; simp [pastPtr] at h ⊢; omega
      exact logged_goto (by simp) ((inv_putLen hi k hlog).ptr g i h')
    · by_cases e : i = k
      · subst e
        refine ⟨g, logged_self _ (by simp), ?_⟩
        show (upd s.table i _ i).len = _
        rw [upd_self]
      · obtain ⟨j, hj, hl⟩ := hi.len g i (by rw [hpc]; simp [pastLen] at h ⊢; omega)
        refine ⟨j, logged_goto (s := s.putLen k _) (by simp) hj, ?_⟩
        show (upd s.table k _ i).len = _
        rw [upd_ne _ _ e]
        exact hl
    · simp only [count]; exact ⟨hc.1, by omega⟩
  · -- store k (some false)
    rename_i k
    have hlog : Logged s g := by unfold Logged; rw [hpc]; simp
    simp only [count] at hc
    refine inv_goto (inv_putPtr hi k hlog) hg (by simp) (fun i h => ?_) (fun i h => ?_) (by simp) (by simp) ?_
    · by_cases e : i = k
      · subst e
        show Logged _ (upd s.table i _ i).ptr
        rw [upd_self]
        exact logged_self _ (by simp)
      · show Logged _ (upd s.table k _ i).ptr
        rw [upd_ne _ _ e]
        refine logged_goto (s := s.putPtr g k) (by simp) (hi.ptr g i ?_)
        rw [hpc]
        simp [pastPtr] at h ⊢
        omega
    · have h' : pastLen (s.pc g) i = true := by rw [hpc]; simp [pastLen] at h ⊢; omega
      obtain ⟨j, hj, hl⟩ := (inv_putPtr hi k hlog).len g i h'
      exact ⟨j, logged_goto (by simp) hj, hl⟩
    · simp only [count]; exact ⟨hc.1, by omega⟩
  · -- load k none none
    rename_i k
    simp only [count] at hc
    have hp : ∀ i, i < places → Logged s (s.table i).ptr := fun i h => hi.ptr g i (by rw [hpc]; simpa [pastPtr] using h)
    have hl : ∀ i, i < places → ∃ j, Logged s j ∧ (s.table i).len = (val j i).length :=
      fun i h => hi.len g i (by rw [hpc]; simpa [pastLen] using h)
    have hP : ∀ {p : Pc}, p ≠ .idle → ∀ i, i < places → Logged (s.goto g p) (s.table i).ptr :=
      fun hp' i h => logged_goto hp' (hp i h)
    have hQ : ∀ {p : Pc}, p ≠ .idle → ∀ i, i < places →
        ∃ j, Logged (s.goto g p) j ∧ (s.table i).len = (val j i).length := by
      intro p hp' i h
      obtain ⟨j, hj, h⟩ := hl i h
      exact ⟨j, logged_goto hp' hj, h⟩
    split
    · rename_i hk
      refine inv_goto hi hg (by simp) (fun i h => hP (by simp) i (by simpa [pastPtr] using h))
        (fun i h => hQ (by simp) i (by simpa [pastLen] using h)) (by simp) (by simp) ?_
      simp only [count]; omega
    · rename_i hk
      split
      · refine inv_goto hi hg (by simp) (fun i h => hP (by simp) i (by simpa [pastPtr] using h))
          (fun i h => hQ (by simp) i (by simpa [pastLen] using h)) ?_ (by simp) ?_
        · intro k' q n h
          cases h
          exact ⟨hp k (by omega), rfl⟩
        · simp only [count]; omega
      · refine inv_goto hi hg (by simp) (fun i h => hP (by simp) i (by simpa [pastPtr] using h))
          (fun i h => hQ (by simp) i (by simpa [pastLen] using h)) (by simp) ?_ ?_
        · intro k' q n h
          cases h
          exact ⟨hl k (by omega), rfl⟩
        · simp only [count]; omega
  · -- load k (some p) none
    rename_i k p
    simp only [count] at hc
    refine inv_out hi hg hpc ⟨_, _, rfl⟩ hc (hi.ldp g k p _ hpc).1 (hi.len g k ?_)
    rw [hpc]; simpa [pastLen] using hc.2
  · -- load k none (some n)
    rename_i k n
    simp only [count] at hc
    refine inv_out hi hg hpc ⟨_, _, rfl⟩ hc (hi.ptr g k ?_) (hi.ldl g k _ n hpc).1
    rw [hpc]; simpa [pastPtr] using hc.2
  · exact hi
  · exact hi

theorem inv_run {val : Nat → Nat → Bytes} {s : State} (hi : Inv val s) (es : List (Nat × Bool)) : Inv val (run val s es) := by
  induction es generalizing s with
  | nil => exact hi
  | cons e es ih => exact ih (inv_step hi (Nat.succ_ne_zero e.1) e.2)

/-- C128.  Whatever the interleaving: what a client is sent at a place has the pointer of a string that some login put there, and
the length of a string that some login put there; never the default. -/
theorem C128_words (val : Nat → Nat → Bytes) (es : List (Nat × Bool)) (g k : Nat) (h : Header)
    (hh : ((run val (init val) es).out g)[k]? = some h) :
    Logged (run val (init val) es) h.ptr ∧ h.ptr ≠ 0 ∧
    ∃ j, j ≠ 0 ∧ Logged (run val (init val) es) j ∧ h.len = (val j k).length := by
  have hi := inv_run (inv_init val) es
  obtain ⟨h1, j, h2, h3⟩ := hi.out g k h hh
  have h0 : ∀ j, Logged (run val (init val) es) j → j ≠ 0 := by
    rintro j hj rfl
    exact hj hi.zero
  exact ⟨h1, h0 _ h1, j, h0 _ h2, h2, h3⟩

/-- C128.  A login that is done has marshalled each place once. -/
theorem C128_all (val : Nat → Nat → Bytes) (es : List (Nat × Bool)) (g : Nat)
    (h : (run val (init val) es).pc g = .done) : ((run val (init val) es).out g).length = places := by
  have := (inv_run (inv_init val) es).cnt g
  rwa [h] at this

/-- C128.  If all strings for a place are equally long, the client is sent one of them, whole. -/
theorem C128_whole_partial (val : Nat → Nat → Bytes) (es : List (Nat × Bool)) (g k : Nat) (h : Header)
    (hh : ((run val (init val) es).out g)[k]? = some h)
    (hs : ∀ i j, i ≠ 0 → j ≠ 0 → Logged (run val (init val) es) i → Logged (run val (init val) es) j →
      (val i k).length = (val j k).length) :
    ∃ j, j ≠ 0 ∧ Logged (run val (init val) es) j ∧ text val k h = some (val j k) := by
  obtain ⟨h1, h2, j, h3, h4, h5⟩ := C128_words val es g k h hh
  refine ⟨h.ptr, h2, h1, ?_⟩
  have := hs h.ptr j h2 h3 h1 h4
  unfold text
  rw [if_pos (by omega), List.take_of_length_le (by omega)]

/-- As many digits as the number has. -/
theorem formatAux_len : ∀ (d k n : Nat), d < k → 10 ^ d ≤ n → n < 10 ^ (d + 1) → (Rendezvous.formatAux k n).length = d + 1 := by
  intro d
  induction d with
  | zero =>
    intro k n hk h1 h2
    obtain ⟨k, rfl⟩ : ∃ k', k = k' + 1 := ⟨k - 1, by omega⟩
    rw [Rendezvous.formatAux, if_pos (by simpa using h2)]
    rfl
  | succ d ih =>
    intro k n hk h1 h2
    obtain ⟨k, rfl⟩ : ∃ k', k = k' + 1 := ⟨k - 1, by omega⟩
    rw [Nat.pow_succ] at h1 h2
    have hd : 0 < 10 ^ d := Nat.pow_pos (by omega)
    have h3 : 10 ≤ n := by omega
    rw [Rendezvous.formatAux, if_neg (by omega), List.length_append, ih k (n / 10) (by omega) (by omega) (by omega)]
    rfl

/-- From 2001 to 2286 the time has ten digits. -/
theorem formatInt_len {x : Int} (h1 : 1000000000 ≤ x) (h2 : x < 10000000000) : (Welcome.formatInt x).length = 10 := by
  unfold Welcome.formatInt
  rw [if_neg (by omega)]
  exact formatAux_len 9 20 x.natAbs (by omega) (by omega) (by omega)

/-- C128.  The settings of the server, that are all but the time (place 4) and the message of the day (place 6), come as they are,
whatever the interleaving. -/
theorem C128_settings (s : Welcome.Settings) (now : Nat → Int) (motd : Nat → Bytes) (es : List (Nat × Bool)) (g k : Nat) (h : Header)
    (hh : ((run (valOf s now motd) (init (valOf s now motd)) es).out g)[k]? = some h) (h4 : k ≠ 4) (h6 : k ≠ 6) (t : Int) (m : Bytes) :
    text (valOf s now motd) k h = some ((((Welcome.properties s t m)[k]?).map (·.2.1)).getD []) := by
  have hv : ∀ j, valOf s now motd j k = (((Welcome.properties s t m)[k]?).map (·.2.1)).getD [] := by
    intro j
    unfold valOf Welcome.properties
    match k, h4, h6 with
    | 0, _, _ => rfl
    | 1, _, _ => rfl
    | 2, _, _ => rfl
    | 3, _, _ => rfl
    | 5, _, _ => rfl
    | k + 7, _, _ => rfl
  obtain ⟨j, _, _, h3⟩ := C128_whole_partial _ es g k h hh (fun i j _ _ _ _ => by rw [hv, hv])
  rw [h3, hv]

/-- C128.  From 2001 to 2286 the client is sent the time of a login: its own or another. -/
theorem C128_time_partial (s : Welcome.Settings) (now : Nat → Int) (motd : Nat → Bytes) (es : List (Nat × Bool)) (g : Nat) (h : Header)
    (hh : ((run (valOf s now motd) (init (valOf s now motd)) es).out g)[4]? = some h)
    (hn : ∀ j, j ≠ 0 → 1000000000 ≤ now j ∧ now j < 10000000000) :
    ∃ j, j ≠ 0 ∧ Logged (run (valOf s now motd) (init (valOf s now motd)) es) j ∧
      text (valOf s now motd) 4 h = some (Welcome.formatInt (now j)) := by
  refine C128_whole_partial (valOf s now motd) es g 4 h hh (fun i j hi hj _ _ => ?_)
  show (Welcome.formatInt (now i)).length = (Welcome.formatInt (now j)).length
  rw [formatInt_len (hn i hi).1 (hn i hi).2, formatInt_len (hn j hj).1 (hn j hj).2]

/-- C128.  While the file is not changed, all clients are sent what it says. -/
theorem C128_motd_partial (s : Welcome.Settings) (now : Nat → Int) (motd : Nat → Bytes) (es : List (Nat × Bool)) (g : Nat) (h : Header)
    (hh : ((run (valOf s now motd) (init (valOf s now motd)) es).out g)[6]? = some h) (m : Bytes)
    (hm : ∀ j, j ≠ 0 → motd j = m) : text (valOf s now motd) 6 h = some m := by
  obtain ⟨j, hj, _, h3⟩ := C128_whole_partial (valOf s now motd) es g 6 h hh (fun i j hi hj _ _ => by
    show (motd i).length = (motd j).length
    rw [hm i hi, hm j hj])
  rw [h3]
  show some (motd j) = _
  rw [hm j hj]

/-! ## A login that is alone -/

/-- Does it only read, now and later? -/
def Reader (p : Pc) : Prop := (∃ k a b, p = .load k a b) ∨ p = .done

structure Own (val : Nat → Nat → Bytes) (g : Nat) (s : State) : Prop where
  ptr : ∀ k, pastPtr (s.pc g) k = true → (s.table k).ptr = g
  len : ∀ k, pastLen (s.pc g) k = true → (s.table k).len = (val g k).length
  ldp : ∀ k p n, s.pc g = .load k (some p) n → p = g
  ldl : ∀ k p n, s.pc g = .load k p (some n) → n = (val g k).length
  cnt : count (s.pc g) (s.out g).length
  out : ∀ k (h : Header), (s.out g)[k]? = some h → h = ⟨g, (val g k).length⟩

theorem own_goto {val : Nat → Nat → Bytes} {s : State} {g : Nat} {p : Pc} (ho : Own val g s)
    (h1 : ∀ k, pastPtr p k = true → (s.table k).ptr = g)
    (h2 : ∀ k, pastLen p k = true → (s.table k).len = (val g k).length)
    (h3 : ∀ k q n, p = .load k (some q) n → q = g)
    (h4 : ∀ k q n, p = .load k q (some n) → n = (val g k).length)
    (h5 : count p (s.out g).length) : Own val g (s.goto g p) := by
  have e : (s.goto g p).pc g = p := upd_self _ _ _
  exact ⟨by rw [e]; exact h1, by rw [e]; exact h2, by rw [e]; exact h3, by rw [e]; exact h4, by rw [e]; exact h5, ho.out⟩

/-- Another reads. -/
theorem own_other {val : Nat → Nat → Bytes} {s : State} {g j : Nat} {b : Bool} (hne : j ≠ g) (hr : Reader (s.pc j)) :
    (step val s j b).table = s.table ∧ (step val s j b).pc g = s.pc g ∧ (step val s j b).out g = s.out g ∧
    Reader ((step val s j b).pc j) ∧ ∀ i, i ≠ j → (step val s j b).pc i = s.pc i := by
  have hg : g ≠ j := Ne.symm hne
  rcases hr with ⟨k, a, c, hp⟩ | hp
  · unfold step
    rw [hp]
    cases a <;> cases c <;> simp only
    · split
      · exact ⟨rfl, upd_ne _ _ hg, rfl, .inr (upd_self _ _ _), fun i hi => upd_ne _ _ hi⟩
      · split
        · exact ⟨rfl, upd_ne _ _ hg, rfl, .inl ⟨_, _, _, upd_self _ _ _⟩, fun i hi => upd_ne _ _ hi⟩
        · exact ⟨rfl, upd_ne _ _ hg, rfl, .inl ⟨_, _, _, upd_self _ _ _⟩, fun i hi => upd_ne _ _ hi⟩
    · exact ⟨rfl, upd_ne _ _ hg, upd_ne _ _ hg, .inl ⟨_, _, _, upd_self _ _ _⟩, fun i hi => upd_ne _ _ hi⟩
    · exact ⟨rfl, upd_ne _ _ hg, upd_ne _ _ hg, .inl ⟨_, _, _, upd_self _ _ _⟩, fun i hi => upd_ne _ _ hi⟩
    · exact ⟨trivial, trivial, trivial, .inl ⟨_, _, _, hp⟩, fun i hi => trivial⟩
  · unfold step
    rw [hp]
    exact ⟨rfl, rfl, rfl, .inr hp, fun i _ => rfl⟩

theorem own_out {val : Nat → Nat → Bytes} {s : State} {g k : Nat} {h : Header} (ho : Own val g s)
    (hpk : ∃ a b, s.pc g = .load k a b) (hc : (s.out g).length = k ∧ k < places) (hh : h = ⟨g, (val g k).length⟩) :
    Own val g { s.goto g (.load (k + 1) none none) with out := upd s.out g (s.out g ++ [h]) } := by
  obtain ⟨a, b, hpc⟩ := hpk
  have e : ({ s.goto g (.load (k + 1) none none) with out := upd s.out g (s.out g ++ [h]) } : State).pc g =
      .load (k + 1) none none := upd_self _ _ _
  have o : ({ s.goto g (.load (k + 1) none none) with out := upd s.out g (s.out g ++ [h]) } : State).out g =
      s.out g ++ [h] := upd_self _ _ _
  refine ⟨?_, ?_, ?_, ?_, ?_, ?_⟩
  · intro i hi
    rw [e] at hi
    exact ho.ptr i (by rw [hpc]; exact hi)
  · intro i hi
    rw [e] at hi
    exact ho.len i (by rw [hpc]; exact hi)
  · intro i q n hi
    rw [e] at hi; cases hi
  · intro i q n hi
    rw [e] at hi; cases hi
  · rw [e, o]
    simp only [count, List.length_append, List.length_singleton]
    omega
  · intro i x hx
    rw [o] at hx
    rcases Nat.lt_trichotomy i k with h' | h' | h'
    · rw [List.getElem?_append_left (by omega)] at hx
      exact ho.out i x hx
    · rw [h', List.getElem?_append_right (by omega), hc.1, Nat.sub_self] at hx
      cases hx
      rw [h']; exact hh
    · rw [List.getElem?_eq_none (by simp; omega)] at hx
      cases hx

theorem own_putPtr {val : Nat → Nat → Bytes} {s : State} {g : Nat} (ho : Own val g s) (k : Nat) : Own val g (s.putPtr g k) where
  ptr := by
    intro i h
    show (upd s.table k _ i).ptr = g
    by_cases e : i = k
    · rw [e, upd_self]
    · rw [upd_ne _ _ e]; exact ho.ptr i h
  len := by
    intro i h
    show (upd s.table k _ i).len = _
    by_cases e : i = k
    · rw [e, upd_self]; rw [e] at h; exact ho.len k h
    · rw [upd_ne _ _ e]; exact ho.len i h
  ldp := ho.ldp
  ldl := ho.ldl
  cnt := ho.cnt
  out := ho.out

theorem own_putLen {val : Nat → Nat → Bytes} {s : State} {g : Nat} (ho : Own val g s) (k : Nat) :
    Own val g (s.putLen k (val g k).length) where
  ptr := by
    intro i h
    show (upd s.table k _ i).ptr = g
    by_cases e : i = k
    · rw [e, upd_self]; rw [e] at h; exact ho.ptr k h
    · rw [upd_ne _ _ e]; exact ho.ptr i h
  len := by
    intro i h
    show (upd s.table k _ i).len = _
    by_cases e : i = k
    · rw [e, upd_self]
    · rw [upd_ne _ _ e]; exact ho.len i h
  ldp := ho.ldp
  ldl := ho.ldl
  cnt := ho.cnt
  out := ho.out

theorem own_step {val : Nat → Nat → Bytes} {s : State} {g : Nat} (ho : Own val g s) (b : Bool) : Own val g (step val s g b) := by
  have hc := ho.cnt
  unfold step
  split <;> rename_i hpc <;> rw [hpc] at hc
  · exact own_goto ho (by simp [pastPtr]) (by simp [pastLen]) (by simp) (by simp) (by simpa [count] using hc)
  · rename_i k
    simp only [count] at hc
    split
    · rename_i hk
      subst hk
      refine own_goto ho (fun i h => ho.ptr i (by rw [hpc]; exact h)) (fun i h => ho.len i (by rw [hpc]; exact h)) (by simp) (by simp) ?_
      simp only [count]; exact ⟨hc.1, by simp⟩
    · split
      · refine own_goto (own_putPtr ho k) (fun i h => ?_) (fun i h => ?_) (by simp) (by simp) ?_
        · show (upd s.table k _ i).ptr = g
          by_cases e : i = k
          · rw [e, upd_self]
          · rw [upd_ne _ _ e]; exact ho.ptr i (by rw [hpc]; simpa [pastPtr, e] using h)
        · exact (own_putPtr ho k).len i (by show pastLen (s.pc g) i = true; rw [hpc]; simpa [pastLen] using h)
        · simp only [count]; exact ⟨hc.1, by omega⟩
      · refine own_goto (own_putLen ho k) (fun i h => ?_) (fun i h => ?_) (by simp) (by simp) ?_
        · exact (own_putLen ho k).ptr i (by show pastPtr (s.pc g) i = true; rw [hpc]; simpa [pastPtr] using h)
        · show (upd s.table k _ i).len = _
          by_cases e : i = k
          · rw [e, upd_self]
          · rw [upd_ne _ _ e]; exact ho.len i (by rw [hpc]; simpa [pastLen, e] using h)
        · simp only [count]; exact ⟨hc.1, by omega⟩
  · rename_i k
    simp only [count] at hc
    refine own_goto (own_putLen ho k) (fun i h => ?_) (fun i h => ?_) (by simp) (by simp) ?_
    · exact (own_putLen ho k).ptr i (by show pastPtr (s.pc g) i = true; rw [hpc]; simp [pastPtr] at h ⊢; omega)
    · show (upd s.table k _ i).len = _
      by_cases e : i = k
      · rw [e, upd_self]
      · rw [upd_ne _ _ e]; exact ho.len i (by rw [hpc]; simp [pastLen] at h ⊢; omega)
    · simp only [count]; exact ⟨hc.1, by omega⟩
  · rename_i k
    simp only [count] at hc
    refine own_goto (own_putPtr ho k) (fun i h => ?_) (fun i h => ?_) (by simp) (by simp) ?_
    · show (upd s.table k _ i).ptr = g
      by_cases e : i = k
      · rw [e, upd_self]
      · rw [upd_ne _ _ e]; exact ho.ptr i (by rw [hpc]; simp [pastPtr] at h ⊢; omega)
    · exact (own_putPtr ho k).len i (by show pastLen (s.pc g) i = true; rw [hpc]; simp [pastLen] at h ⊢; omega)
    · simp only [count]; exact ⟨hc.1, by omega⟩
  · rename_i k
    simp only [count] at hc
    have hp : ∀ i, i < places → (s.table i).ptr = g := fun i h => ho.ptr i (by rw [hpc]; simpa [pastPtr] using h)
    have hl : ∀ i, i < places → (s.table i).len = (val g i).length :=
      fun i h => ho.len i (by rw [hpc]; simpa [pastLen] using h)
    split
    · refine own_goto ho (fun i h => hp i (by simpa [pastPtr] using h)) (fun i h => hl i (by simpa [pastLen] using h)) (by simp) (by simp) ?_
      simp only [count]; omega
    · split
      · refine own_goto ho (fun i h => hp i (by simpa [pastPtr] using h)) (fun i h => hl i (by simpa [pastLen] using h)) ?_ (by simp) ?_
        · intro k' q n h
          cases h
          exact hp k (by omega)
        · simp only [count]; omega
      · refine own_goto ho (fun i h => hp i (by simpa [pastPtr] using h)) (fun i h => hl i (by simpa [pastLen] using h)) (by simp) ?_ ?_
        · intro k' q n h
          cases h
          exact hl k (by omega)
        · simp only [count]; omega
  · rename_i k p
    simp only [count] at hc
    refine own_out ho ⟨_, _, hpc⟩ hc ?_
    rw [ho.ldp k p _ hpc, ho.len k (by rw [hpc]; simpa [pastLen] using hc.2)]
  · rename_i k n
    simp only [count] at hc
    refine own_out ho ⟨_, _, hpc⟩ hc ?_
    rw [ho.ldl k _ n hpc, ho.ptr k (by rw [hpc]; simpa [pastPtr] using hc.2)]
  · exact ho
  · exact ho

theorem own_run {val : Nat → Nat → Bytes} {g : Nat} (es : List (Nat × Bool)) : ∀ {s : State}, Own val g s →
    (∀ e ∈ es, e.1 + 1 = g ∨ Reader (s.pc (e.1 + 1))) → Own val g (run val s es) := by
  induction es with
  | nil => intro s ho _; exact ho
  | cons e es ih =>
    intro s ho he
    obtain ⟨j, b⟩ := e
    show Own val g (run val (step val s (j + 1) b) es)
    by_cases hj : j + 1 = g
    · refine ih (by rw [hj]; exact own_step ho b) (fun e h => ?_)
      rcases he e (List.mem_cons_of_mem _ h) with h1 | h1
      · exact .inl h1
      · by_cases hx : e.1 + 1 = g
        · exact .inl hx
        · refine .inr ?_
          have : (step val s (j + 1) b).pc (e.1 + 1) = s.pc (e.1 + 1) := by
            rw [hj]
            unfold step
            split <;> (try split) <;> (try split) <;> first | rfl | exact upd_ne _ _ hx
          rw [this]; exact h1
    · have hr := (he _ List.mem_cons_self).resolve_left hj
      obtain ⟨h1, h2, h3, h4, h5⟩ := own_other (val := val) (b := b) hj hr
      refine ih ⟨?_, ?_, ?_, ?_, ?_, ?_⟩ (fun e h => ?_)
      · rw [h1, h2]; exact ho.ptr
      · rw [h1, h2]; exact ho.len
      · rw [h2]; exact ho.ldp
      · rw [h2]; exact ho.ldl
      · rw [h2, h3]; exact ho.cnt
      · rw [h3]; exact ho.out
      · rcases he e (List.mem_cons_of_mem _ h) with h' | h'
        · exact .inl h'
        · refine .inr ?_
          by_cases hx : e.1 + 1 = j + 1
          · rw [hx]; exact h4
          · rw [h5 _ hx]; exact h'

/-- C128.  A login during which no other one stores is sent its own values: after any run `es` in which it has not begun, and while
the others only marshal (`fs`). -/
theorem C128_alone_partial (val : Nat → Nat → Bytes) (es fs : List (Nat × Bool)) (g k : Nat) (h : Header)
    (hg : (run val (init val) es).pc g = .idle)
    (hf : ∀ e ∈ fs, e.1 + 1 = g ∨ Reader ((run val (init val) es).pc (e.1 + 1)))
    (hh : ((run val (run val (init val) es) fs).out g)[k]? = some h) : text val k h = some (val g k) := by
  have hi := inv_run (inv_init val) es
  have hc := hi.cnt g
  rw [hg] at hc
  have h0 : (run val (init val) es).out g = [] := List.eq_nil_of_length_eq_zero hc
  have ho : Own val g (run val (init val) es) := by
    refine ⟨?_, ?_, ?_, ?_, ?_, ?_⟩
    · rw [hg]; simp [pastPtr]
    · rw [hg]; simp [pastLen]
    · rw [hg]; simp
    · rw [hg]; simp
    · rw [hg]; exact hc
    · rw [h0]; simp
  have := (own_run fs ho hf).out k h hh
  subst this
  simp [text]

/-! ## What goes wrong -/

/-- One login, with the pointers first. -/
def whole (g : Nat) : List (Nat × Bool) := List.replicate 31 (g, true)

def motdA : Bytes := [104, 105]                                    -- hi
def motdB : Bytes := [100, 111, 119, 110, 32, 97, 116, 32, 57]      -- down at 9

/-- Two logins, between which the file of the message of the day was changed. -/
def twoVals : Nat → Nat → Bytes := valOf Welcome.Settings.default (fun g => 1500000000 + g) (fun g => if g = 1 then motdA else motdB)

/-- The first login has done all but marshal the length of the message of the day, when the second one stores its values. -/
def runBeyond : List (Nat × Bool) :=
  List.replicate 29 (0, true) ++ List.replicate 15 (1, true) ++ [(0, true)]

/-- The second login loads the new pointer, then the first one stores its length and pointer. -/
def runCut : List (Nat × Bool) :=
  List.replicate 13 (0, true) ++ List.replicate 29 (1, true) ++ List.replicate 2 (0, true) ++ [(1, true)]

/-- C128.  Violated: with a message of the day that was changed between two logins, one client is sent what lies beyond the end
of the text in the memory of the server; with another interleaving one client is sent the first two bytes of the new message. -/
theorem C128_torn_violated :
    (∃ h, ((run twoVals (init twoVals) runBeyond).out 1)[6]? = some h ∧ h.ptr = 1 ∧ h.len = 9 ∧ text twoVals 6 h = none) ∧
    (∃ h, ((run twoVals (init twoVals) runCut).out 2)[6]? = some h ∧ text twoVals 6 h = some [100, 111]) := by
  refine ⟨⟨⟨1, 9⟩, ?_, rfl, rfl, ?_⟩, ⟨⟨2, 2⟩, ?_, ?_⟩⟩ <;> decide +kernel

/-- Two logins of which the first began earlier and was held up; the message of the day is the same. -/
def lateVals : Nat → Nat → Bytes := valOf Welcome.Settings.default (fun g => 1500000000 + 60 * g) (fun _ => motdA)

/-- The second login has stored its time; the first one then stores its own, and the second one marshals. -/
def runLate : List (Nat × Bool) :=
  List.replicate 9 (0, true) ++ List.replicate 16 (1, true) ++ List.replicate 2 (0, true) ++ List.replicate 15 (1, true)

/-- C128.  Violated: a client is told the time of a login that began earlier. -/
theorem C128_late_violated : (run lateVals (init lateVals) runLate).pc 2 = .done ∧
    ∃ h, ((run lateVals (init lateVals) runLate).out 2)[4]? = some h ∧
      text lateVals 4 h = some (Welcome.formatInt 1500000060) ∧ lateVals 2 4 = Welcome.formatInt 1500000120 := by
  refine ⟨?_, ⟨1, 10⟩, ?_, ?_, ?_⟩ <;> decide +kernel

/-- Two whole logins, one after the other: each is sent what is in the file. -/
example : let s := run twoVals (init twoVals) (whole 0 ++ whole 1)
    s.pc 1 = .done ∧ s.pc 2 = .done ∧ ((s.out 1)[6]?).bind (text twoVals 6) = some motdA ∧
    ((s.out 2)[6]?).bind (text twoVals 6) = some motdB ∧ (s.out 2).length = 7 := by decide +kernel

/-- The hypotheses of `C128_alone_partial` hold for it: the first login has stored all when the second begins. -/
example : let s := run twoVals (init twoVals) (List.replicate 20 (0, true))
    s.pc 2 = .idle ∧ s.pc 1 = .load 2 none none ∧
    (((run twoVals s (List.replicate 16 (1, false) ++ List.replicate 15 (0, true) ++ List.replicate 15 (1, true))).out 2)[6]?).bind
      (text twoVals 6) = some motdB := by decide +kernel

end Verif.SharedProps
