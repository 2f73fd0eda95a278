import Verif.Model.Path
import Verif.Proofs.GoMap
import Mathlib.Data.List.Perm.Subperm

/-! Lemmas about paths and the file system. -/

namespace Verif.Path

open Verif

theorem split_ne_nil (s : Bytes) : split s ≠ [] := by
  cases s with
  | nil => simp [split]
  | cons c r =>
    simp only [split]
    split
    · simp
    · split <;> simp

theorem split_noSlash {s : Bytes} (h : (47 : UInt8) ∉ s) : split s = [s] := by
  induction s with
  | nil => rfl
  | cons c r ih =>
    simp only [List.mem_cons, not_or] at h
    rw [split, if_neg (Ne.symm h.1), ih h.2]

theorem split_cons_ne {c : UInt8} (hc : c ≠ 47) {s w : Bytes} {ws : List Bytes} (h : split s = w :: ws) :
    split (c :: s) = (c :: w) :: ws := by
  rw [split, if_neg hc, h]

theorem split_replicate {c : UInt8} (hc : c ≠ 47) {s w : Bytes} {ws : List Bytes} (h : split s = w :: ws)
    (k : Nat) : split (List.replicate k c ++ s) = (List.replicate k c ++ w) :: ws := by
  induction k with
  | zero => exact h
  | succ k ih => rw [List.replicate_succ, List.cons_append, split_cons_ne hc ih]; rfl

/-- A component that stays. -/
def Normal (c : Bytes) : Prop := c ≠ [] ∧ c ≠ [46] ∧ c ≠ [46, 46]

instance (c : Bytes) : Decidable (Normal c) := by unfold Normal; infer_instance

theorem push_normal {c : Bytes} (h : Normal c) (p : Path) : push p c = p ++ [c] := by
  unfold push
  rw [if_neg (by rintro (h1 | h1); exact h.1 h1; exact h.2.1 h1), if_neg h.2.2]

/-- What follows a component either removes it or is appended to it, whatever the component. -/
theorem foldl_push_dichotomy (p : Path) (ws : List Bytes) :
    ∀ t : Path, (∃ q, ∀ c, ws.foldl push (p ++ [c] ++ t) = q) ∨
      (∃ t', ∀ c, ws.foldl push (p ++ [c] ++ t) = p ++ [c] ++ t') := by
  induction ws with
  | nil => exact fun t => .inr ⟨t, fun _ => rfl⟩
  | cons w ws ih =>
    intro t
    by_cases h1 : w = [] ∨ w = [46]
    · simpa only [List.foldl_cons, push, if_pos h1] using ih t
    · by_cases h2 : w = [46, 46]
      · rcases List.eq_nil_or_concat t with ht | ⟨t', x, ht⟩
        · subst ht
          left
          refine ⟨ws.foldl push p, fun c => ?_⟩
          simp [push, h2]
        · subst ht
          have := ih t'
          simpa only [List.foldl_cons, push, if_neg h1, if_pos h2, List.concat_eq_append, ← List.append_assoc,
            List.dropLast_concat] using this
      · have := ih (t ++ [w])
        simpa only [List.foldl_cons, push, if_neg h1, if_neg h2, ← List.append_assoc] using this

theorem get_mkdirAll_of_some (cs : List Bytes) : ∀ (fs : FS) (p q : Path) (x : Node),
    fs.get q = some x → (mkdirAll fs p cs).get q = some x := by
  induction cs with
  | nil => exact fun fs p q x h => h
  | cons c cs ih =>
    intro fs p q x h
    simp only [mkdirAll]
    split
    · exact h
    · exact ih _ _ _ _ h
    next hn =>
      refine ih _ _ _ _ ?_
      rw [GoMap.get_set, if_neg (by rintro rfl; rw [hn] at h; cases h)]
      exact h

theorem get_mkdirAll (cs : List Bytes) : ∀ (fs : FS) (p q : Path) (x : Node),
    (mkdirAll fs p cs).get q = some x →
      fs.get q = some x ∨ x = .dir ∧ ∃ t, t ≠ [] ∧ t <+: cs ∧ q = p ++ t := by
  induction cs with
  | nil => exact fun fs p q x h => .inl h
  | cons c cs ih =>
    intro fs p q x h
    have lift : (x = Node.dir ∧ ∃ t, t ≠ [] ∧ t <+: cs ∧ q = (p ++ [c]) ++ t) →
        x = .dir ∧ ∃ t, t ≠ [] ∧ t <+: c :: cs ∧ q = p ++ t := by
      rintro ⟨hx, t, h1, h2, h3⟩
      refine ⟨hx, c :: t, by simp, ?_, by simpa using h3⟩
      rw [List.cons_prefix_cons]
      exact ⟨rfl, h2⟩
    simp only [mkdirAll] at h
    split at h
    · exact .inl h
    · exact (ih _ _ _ _ h).imp (fun h => h) lift
    · rcases ih _ _ _ _ h with h1 | h1
      · rw [GoMap.get_set] at h1
        split at h1
        next he =>
          cases h1
          exact .inr ⟨rfl, [c], by simp, by simp, he.symm⟩
        · exact .inl h1
      · exact .inr (lift h1)

theorem mkdirAll_dir (cs : List Bytes) : ∀ (fs : FS) (p : Path),
    (∀ t, t ≠ [] → t <+: cs → ∀ x, fs.get (p ++ t) ≠ some (.file x)) →
    ∀ t, t ≠ [] → t <+: cs → (mkdirAll fs p cs).get (p ++ t) = some .dir := by
  induction cs with
  | nil =>
    intro fs p h t h1 h2
    exact absurd (List.prefix_nil.mp h2) h1
  | cons c cs ih =>
    intro fs p h t h1 h2
    have key : ∀ fs' : FS, fs'.get (p ++ [c]) = some .dir →
        (∀ t, t ≠ [] → t <+: cs → ∀ x, fs'.get (p ++ [c] ++ t) ≠ some (.file x)) →
        (mkdirAll fs' (p ++ [c]) cs).get (p ++ t) = some .dir := by
      intro fs' hd hf
      cases t with
      | nil => exact absurd rfl h1
      | cons c' t =>
        rw [List.cons_prefix_cons] at h2
        obtain ⟨rfl, h2⟩ := h2
        by_cases ht : t = []
        · subst ht
          exact get_mkdirAll_of_some _ _ _ _ _ hd
        · have := ih fs' (p ++ [c']) hf t ht h2
          simpa using this
    have hsub : ∀ t, t ≠ [] → t <+: cs → ∀ x, fs.get (p ++ [c] ++ t) ≠ some (.file x) := by
      intro t ht h2 x
      have := h (c :: t) (by simp) (by rw [List.cons_prefix_cons]; exact ⟨rfl, h2⟩) x
      simpa using this
    simp only [mkdirAll]
    split
    next x hx => exact absurd hx (h [c] (by simp) (by simp) x)
    next hx => exact key fs hx hsub
    next hx =>
      refine key _ (GoMap.get_set_self _ _ _) ?_
      intro t ht h2 x
      rw [GoMap.get_set_ne _ _ (by simp [ht])]
      exact hsub t ht h2 x

theorem create_some {fs fs' : FS} {p : Path} {data : Bytes} (h : create fs p data = some fs') :
    fs' = fs.set p (.file data) := by
  unfold create at h
  split at h
  · cases h; rfl
  · cases h

theorem rename_some {fs fs' : FS} {p q : Path} (h : rename fs p q = some fs') :
    ∃ x, read fs p = some x ∧ fs' = (fs.del p).set q (.file x) := by
  unfold rename at h
  split at h
  · cases h
  next x hx =>
    split at h
    · cases h; exact ⟨x, hx, rfl⟩
    · cases h

theorem read_eq_some {fs : FS} {p : Path} {x : Bytes} : read fs p = some x ↔ fs.get p = some (.file x) := by
  unfold read
  split
  next y hy => rw [hy]; simp
  next h =>
    constructor
    · intro h1; cases h1
    · intro h1; exact absurd h1 (h x)

end Verif.Path
