import Verif.Model.Text

/-! # Lemmas about the string functions -/

namespace Verif.Text

open Verif

theorem split_ne_nil (s : Bytes) : split s ≠ [] := by
  cases s with
  | nil => simp [split]
  | cons c r =>
    unfold split
    split
    · simp
    · split <;> simp

/-- The first word is everything up to the first space. -/
theorem split_append {w : Bytes} (h : (32 : UInt8) ∉ w) (r : Bytes) : split (w ++ 32 :: r) = w :: split r := by
  induction w with
  | nil => simp [split]
  | cons c w ih =>
    have hc : c ≠ 32 := fun e => h (by simp [e])
    have hw : (32 : UInt8) ∉ w := fun e => h (by simp [e])
    rw [List.cons_append, split, if_neg hc, ih hw]

/-- A string that is not cut has no spaces. -/
theorem split_single {s w : Bytes} (h : split s = [w]) : s = w := by
  induction s generalizing w with
  | nil => simpa [split] using h
  | cons c r ih =>
    unfold split at h
    split at h
    · have := split_ne_nil r
      simp_all
    · split at h
      · rename_i hr
        exact absurd hr (split_ne_nil r)
      · rename_i v vs hr
        simp only [List.cons.injEq] at h
        obtain ⟨h1, h2⟩ := h
        subst h2
        rw [ih hr, h1]

theorem trimPrefix_append (p s : Bytes) : trimPrefix (p ++ s) p = s := by
  simp [trimPrefix]

/-- Words that are not empty. -/
def Solid (ws : List Bytes) : Prop := ∀ w ∈ ws, w ≠ []

theorem find_none {ws : List Bytes} {s : Bytes} :
    ws.find? (fun w => w.isPrefixOf s) = none ↔ ∀ w ∈ ws, ¬ w <+: s := by
  simp [List.find?_eq_none]

theorem find_some {ws : List Bytes} {s w : Bytes} (h : ws.find? (fun w => w.isPrefixOf s) = some w) :
    w ∈ ws ∧ w <+: s := by
  refine ⟨List.mem_of_find?_eq_some h, ?_⟩
  have := List.find?_some h
  simpa using this

/-- Nothing to remove. -/
theorem dropWords_none {ws : List Bytes} {s : Bytes} (h : ∀ w ∈ ws, ¬ w <+: s) (n : Nat) : dropWords ws n s = s := by
  cases n with
  | zero => rfl
  | succ n => rw [dropWords, find_none.2 h]

/-- What `dropWords` does: it removes words, and what is left begins with none. -/
theorem dropWords_spec {ws : List Bytes} (hws : Solid ws) : ∀ (n : Nat) (s : Bytes), s.length ≤ n →
    ∃ l : List Bytes, (∀ w ∈ l, w ∈ ws) ∧ s = l.flatten ++ dropWords ws n s ∧ ∀ w ∈ ws, ¬ w <+: dropWords ws n s := by
  intro n
  induction n with
  | zero =>
    intro s hs
    have : s = [] := List.length_eq_zero_iff.1 (by omega)
    subst this
    refine ⟨[], by simp, by simp [dropWords], ?_⟩
    intro w hw hp
    exact hws w hw (by simpa [dropWords] using hp)
  | succ n ih =>
    intro s hs
    unfold dropWords
    split
    · rename_i hf
      exact ⟨[], by simp, by simp, find_none.1 hf⟩
    · rename_i w hf
      obtain ⟨hw, hp⟩ := find_some hf
      obtain ⟨r, rfl⟩ := hp
      have hpos : 0 < w.length := List.length_pos_iff.2 (hws w hw)
      obtain ⟨l, h1, h2, h3⟩ := ih ((w ++ r).drop w.length) (by simp at hs ⊢; omega)
      refine ⟨w :: l, ?_, ?_, h3⟩
      · intro v hv
        rcases List.mem_cons.1 hv with rfl | hv
        · exact hw
        · exact h1 v hv
      · rw [List.drop_left] at h2 ⊢
        rw [List.flatten_cons, List.append_assoc, ← h2]

/-- The number of rounds does not matter as long as it is large enough. -/
theorem dropWords_fuel {ws : List Bytes} (hws : Solid ws) : ∀ (n m : Nat) (s : Bytes), s.length ≤ n → s.length ≤ m →
    dropWords ws n s = dropWords ws m s := by
  intro n
  induction n with
  | zero =>
    intro m s hn hm
    have : s = [] := List.length_eq_zero_iff.1 (by omega)
    subst this
    rw [dropWords_none, dropWords_none] <;>
    · intro w hw hp
      exact hws w hw (by simpa using hp)
  | succ n ih =>
    intro m s hn hm
    cases m with
    | zero =>
      have : s = [] := List.length_eq_zero_iff.1 (by omega)
      subst this
      rw [dropWords_none, dropWords_none] <;>
      · intro w hw hp
        exact hws w hw (by simpa using hp)
    | succ m =>
      unfold dropWords
      split
      · rfl
      · rename_i w hf
        obtain ⟨hw, hp⟩ := find_some hf
        have hpos : 0 < w.length := List.length_pos_iff.2 (hws w hw)
        exact ih m _ (by simp; omega) (by simp; omega)

/-- If something is left of `t`, then a tail `a` whose first byte occurs only in words of one byte does not
change what is removed. -/
theorem dropWords_append {ws : List Bytes} (hws : Solid ws) {b : UInt8} (hb : ∀ w ∈ ws, b ∈ w → w = [b]) (a : Bytes) :
    ∀ (n : Nat) (t : Bytes), t.length ≤ n → dropWords ws n t ≠ [] →
      dropWords ws n (t ++ b :: a) = dropWords ws n t ++ b :: a := by
  intro n
  induction n with
  | zero =>
    intro t hn h
    have : t = [] := List.length_eq_zero_iff.1 (by omega)
    exact absurd (by subst this; rfl) h
  | succ n ih =>
    intro t hn h
    have ht : t ≠ [] := by
      rintro rfl
      apply h
      rw [dropWords_none]
      intro w hw hp
      exact hws w hw (by simpa using hp)
    have key : ∀ w ∈ ws, w <+: t ++ b :: a → w <+: t := by
      intro w hw hp
      rcases Nat.le_total w.length t.length with hl | hl
      · exact List.prefix_of_prefix_length_le hp (List.prefix_append _ _) hl
      · have h1 : t <+: w := List.prefix_of_prefix_length_le (List.prefix_append _ _) hp hl
        obtain ⟨u, rfl⟩ := h1
        cases u with
        | nil => simp
        | cons x u =>
          obtain ⟨v, hv⟩ := hp
          rw [List.append_assoc, List.append_cancel_left_eq, List.cons_append] at hv
          injection hv with hx _
          subst hx
          have := hb _ hw (by simp)
          have := congrArg List.length this
          have := List.length_pos_iff.2 ht
          simp at *
          omega
    unfold dropWords
    cases hf : ws.find? (fun w => w.isPrefixOf t) with
    | none =>
      have h1 := find_none.1 hf
      have : ws.find? (fun w => w.isPrefixOf (t ++ b :: a)) = none :=
        find_none.2 fun w hw hp => h1 w hw (key w hw hp)
      rw [this]
    | some w =>
      have : ws.find? (fun w => w.isPrefixOf (t ++ b :: a)) = ws.find? (fun w => w.isPrefixOf t) := by
        have hgen : ∀ us : List Bytes, (∀ w ∈ us, w ∈ ws) → us.find? (fun w => w.isPrefixOf (t ++ b :: a)) =
            us.find? (fun w => w.isPrefixOf t) := by
          intro us
          induction us with
          | nil => intro _; rfl
          | cons u us ihu =>
            intro hus
            have he : u.isPrefixOf (t ++ b :: a) = u.isPrefixOf t := by
              rw [Bool.eq_iff_iff, List.isPrefixOf_iff_prefix, List.isPrefixOf_iff_prefix]
              exact ⟨key u (hus u (by simp)), fun hp => hp.trans (List.prefix_append _ _)⟩
            rw [List.find?_cons, List.find?_cons, he, ihu fun w hw => hus w (by simp [hw])]
        exact hgen ws fun _ h => h
      rw [this, hf]
      obtain ⟨hw, hp⟩ := find_some hf
      obtain ⟨r, rfl⟩ := hp
      have hpos : 0 < w.length := List.length_pos_iff.2 (hws w hw)
      rw [dropWords, hf] at h
      simp only [List.append_assoc, List.drop_left] at h ⊢
      exact ih r (by simp at hn; omega) h

theorem spaces_solid : Solid spaces := by unfold Solid; decide

theorem spaces_rev_solid : Solid (spaces.map List.reverse) := by
  unfold Solid
  decide

theorem spaces_blank : ∀ w ∈ spaces, (32 : UInt8) ∈ w → w = [32] := by decide

theorem spaces_rev_blank : ∀ w ∈ spaces.map List.reverse, (32 : UInt8) ∈ w → w = [32] := by decide

theorem spaces_rev_mem {w : Bytes} : w ∈ spaces.map List.reverse ↔ w.reverse ∈ spaces := by
  rw [List.mem_map]
  constructor
  · rintro ⟨v, hv, rfl⟩
    simpa using hv
  · intro h
    exact ⟨w.reverse, h, by simp⟩

/-- `t'` is `t` without white space at the end. -/
def Trimmed (t t' : Bytes) : Prop :=
  ∃ ws : List Bytes, (∀ w ∈ ws, w ∈ spaces) ∧ t = t' ++ ws.flatten ∧ ∀ w ∈ spaces, ¬ w <:+ t'

/-- `t` consists of white space. -/
def Blank (t : Bytes) : Prop := ∃ ws : List Bytes, (∀ w ∈ ws, w ∈ spaces) ∧ t = ws.flatten

theorem trimRightSpace_spec (t : Bytes) : Trimmed t (trimRightSpace t) := by
  obtain ⟨l, h1, h2, h3⟩ := dropWords_spec spaces_rev_solid t.length t.reverse (by simp)
  refine ⟨(l.map List.reverse).reverse, ?_, ?_, ?_⟩
  · intro w hw
    rw [List.mem_reverse, List.mem_map] at hw
    obtain ⟨v, hv, rfl⟩ := hw
    exact spaces_rev_mem.1 (h1 v hv)
  · have := congrArg List.reverse h2
    rw [List.reverse_reverse, List.reverse_append, List.reverse_flatten] at this
    exact this
  · intro w hw hs
    unfold trimRightSpace at hs
    rw [← List.reverse_prefix, List.reverse_reverse] at hs
    exact h3 _ (spaces_rev_mem.2 (by simpa using hw)) hs

/-- Nothing at the end to remove. -/
theorem trimRightSpace_none {t : Bytes} (h : ∀ w ∈ spaces, ¬ w <:+ t) : trimRightSpace t = t := by
  unfold trimRightSpace
  rw [dropWords_none, List.reverse_reverse]
  intro w hw hp
  refine h _ (spaces_rev_mem.1 hw) ?_
  rw [← List.reverse_prefix, List.reverse_reverse]
  exact hp

theorem trimRightSpace_idem (t : Bytes) : trimRightSpace (trimRightSpace t) = trimRightSpace t := by
  obtain ⟨_, _, _, h⟩ := trimRightSpace_spec t
  exact trimRightSpace_none h

/-- Only white space is removed completely. -/
theorem trimRightSpace_eq_nil {t : Bytes} (h : trimRightSpace t = []) : Blank t := by
  obtain ⟨ws, h1, h2, _⟩ := trimRightSpace_spec t
  exact ⟨ws, h1, by simpa [h] using h2⟩

theorem trimRightSpace_append {t : Bytes} (h : trimRightSpace t ≠ []) (a : Bytes) :
    trimRightSpace (a ++ 32 :: t) = a ++ 32 :: trimRightSpace t := by
  unfold trimRightSpace at h ⊢
  have h' : dropWords (spaces.map List.reverse) t.length t.reverse ≠ [] := fun e => h (by rw [e]; rfl)
  have hf := dropWords_fuel spaces_rev_solid t.length (a ++ 32 :: t).length t.reverse (by simp) (by simp; omega)
  have hk := dropWords_append spaces_rev_solid spaces_rev_blank a.reverse (a ++ 32 :: t).length t.reverse
    (by simp; omega) (by rw [← hf]; exact h')
  have hr : (a ++ 32 :: t).reverse = t.reverse ++ 32 :: a.reverse := by simp
  rw [hr, hk, ← hf]
  simp

/-- A string that does not begin with white space keeps its beginning. -/
theorem trimLeftSpace_none {s : Bytes} (h : ∀ w ∈ spaces, ¬ w <+: s) : trimLeftSpace s = s := dropWords_none h _

theorem trimLeftSpace_cons {s : Bytes} (h : ∀ w ∈ spaces, ¬ w <+: s) : trimLeftSpace (32 :: s) = s := by
  unfold trimLeftSpace
  rw [List.length_cons, dropWords]
  have : spaces.find? (fun w => w.isPrefixOf (32 :: s)) = some [32] := by
    simp [spaces]
  rw [this]
  exact dropWords_none h _

/-- What `a` begins with does not change when a space and something else follows. -/
theorem no_space_prefix {a : Bytes} (ha : a ≠ []) (h : ∀ w ∈ spaces, ¬ w <+: a) (t : Bytes) :
    ∀ w ∈ spaces, ¬ w <+: a ++ 32 :: t := by
  intro w hw hp
  rcases Nat.le_total w.length a.length with hl | hl
  · exact h w hw (List.prefix_of_prefix_length_le hp (List.prefix_append _ _) hl)
  · have h1 : a <+: w := List.prefix_of_prefix_length_le (List.prefix_append _ _) hp hl
    obtain ⟨u, rfl⟩ := h1
    cases u with
    | nil => exact h _ hw (by simp)
    | cons x u =>
      obtain ⟨v, hv⟩ := hp
      rw [List.append_assoc, List.append_cancel_left_eq, List.cons_append] at hv
      injection hv with hx _
      subst hx
      have := spaces_blank _ hw (by simp)
      have := congrArg List.length this
      have := List.length_pos_iff.2 ha
      simp at *
      omega

/-- The heart of `/m nick text`. -/
theorem trimSpace_cons {a t : Bytes} (ha : a ≠ []) (h : ∀ w ∈ spaces, ¬ w <+: a) (ht : trimRightSpace t ≠ []) :
    trimSpace (32 :: (a ++ 32 :: t)) = a ++ 32 :: trimRightSpace t := by
  unfold trimSpace
  rw [trimLeftSpace_cons (no_space_prefix ha h t), trimRightSpace_append ht]

theorem trimRightBlank_none {t : Bytes} (h : ¬ [32] <:+ t) : trimRightBlank t = t := by
  unfold trimRightBlank
  cases hr : t.reverse with
  | nil =>
    have : t = [] := by simpa using congrArg List.reverse hr
    subst this
    rfl
  | cons c r =>
    have hc : c ≠ 32 := by
      rintro rfl
      apply h
      have := congrArg List.reverse hr
      rw [List.reverse_reverse] at this
      exact ⟨r.reverse, by rw [this]; simp⟩
    have : (c :: r).dropWhile (fun x => decide (x = 32)) = c :: r := by simp [hc]
    rw [this, ← hr, List.reverse_reverse]

theorem trimRightBlank_trimmed (t : Bytes) : trimRightBlank (trimRightSpace t) = trimRightSpace t := by
  obtain ⟨_, _, _, h⟩ := trimRightSpace_spec t
  exact trimRightBlank_none (h [32] (by decide))

end Verif.Text
