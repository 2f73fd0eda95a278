import Verif.Model.GoMap
import Mathlib.Tactic.Common
import Mathlib.Data.List.Nodup

/-! Lemmas about Go maps. -/

namespace Verif.GoMap

variable {α β : Type} [DecidableEq α]

@[simp] theorem get_nil (k : α) : get ([] : GoMap α β) k = none := rfl

theorem get_cons (k' : α) (v : β) (m : GoMap α β) (k : α) :
    get ((k', v) :: m) k = if k' = k then some v else get m k := rfl

theorem get_del (m : GoMap α β) (k k' : α) :
    get (del m k) k' = if k = k' then none else get m k' := by
  induction m with
  | nil => simp [del]
  | cons a m ih =>
    obtain ⟨x, v⟩ := a
    simp only [del]
    by_cases h : x = k
    · subst h
      rw [if_pos rfl, ih, get_cons]
      split <;> rfl
    · rw [if_neg h, get_cons, get_cons, ih]
      by_cases h1 : x = k'
      · subst h1; simp [Ne.symm h]
      · simp [h1]

@[simp] theorem get_del_self (m : GoMap α β) (k : α) : get (del m k) k = none := by
  rw [get_del, if_pos rfl]

theorem get_del_ne (m : GoMap α β) {k k' : α} (h : k ≠ k') : get (del m k) k' = get m k' := by
  rw [get_del, if_neg h]

theorem get_set (m : GoMap α β) (k k' : α) (v : β) :
    get (set m k v) k' = if k = k' then some v else get m k' := by
  unfold set
  rw [get_cons, get_del]
  split <;> rfl

@[simp] theorem get_set_self (m : GoMap α β) (k : α) (v : β) : get (set m k v) k = some v := by
  rw [get_set, if_pos rfl]

theorem get_set_ne (m : GoMap α β) {k k' : α} (v : β) (h : k ≠ k') :
    get (set m k v) k' = get m k' := by
  rw [get_set, if_neg h]

/-- At most one entry per key. -/
def WF (m : GoMap α β) : Prop := (keys m).Nodup

instance (m : GoMap α β) : Decidable (WF m) := inferInstanceAs (Decidable (keys m).Nodup)

omit [DecidableEq α] in
theorem wf_nil : WF ([] : GoMap α β) := List.nodup_nil

theorem mem_keys_iff (m : GoMap α β) (k : α) : k ∈ keys m ↔ (get m k).isSome := by
  induction m with
  | nil => simp [keys]
  | cons a m ih =>
    obtain ⟨x, v⟩ := a
    simp only [keys, List.map_cons, List.mem_cons, get_cons] at ih ⊢
    by_cases h : x = k
    · simp [h]
    · rw [if_neg h, ← ih]
      simp [Ne.symm h]

theorem not_mem_keys_iff (m : GoMap α β) (k : α) : k ∉ keys m ↔ get m k = none := by
  rw [mem_keys_iff]
  cases get m k <;> simp

theorem keys_del_subset (m : GoMap α β) (k : α) : (keys (del m k)).Sublist (keys m) := by
  induction m with
  | nil => exact List.Sublist.refl _
  | cons a m ih =>
    obtain ⟨x, v⟩ := a
    simp only [del]
    split
    · exact ih.trans (List.sublist_cons_self ..)
    · exact ih.cons_cons _

theorem wf_del {m : GoMap α β} (h : WF m) (k : α) : WF (del m k) :=
  (keys_del_subset m k).nodup h

theorem wf_set {m : GoMap α β} (h : WF m) (k : α) (v : β) : WF (set m k v) := by
  unfold WF set
  simp only [keys, List.map_cons, List.nodup_cons]
  exact ⟨by
    have := (not_mem_keys_iff (del m k) k).mpr (get_del_self m k)
    exact this, wf_del h k⟩

theorem get_of_mem {m : GoMap α β} (h : WF m) {k : α} {v : β} (hm : (k, v) ∈ m) :
    get m k = some v := by
  induction m with
  | nil => simp at hm
  | cons a m ih =>
    obtain ⟨x, w⟩ := a
    have hnd : x ∉ keys m ∧ (keys m).Nodup := List.nodup_cons.mp h
    rw [get_cons]
    rcases List.mem_cons.mp hm with heq | hm'
    · cases heq; rw [if_pos rfl]
    · have hx : x ≠ k := by
        rintro rfl
        exact hnd.1 (List.mem_map.mpr ⟨(x, v), hm', rfl⟩)
      rw [if_neg hx]
      exact ih hnd.2 hm'

theorem mem_of_get {m : GoMap α β} {k : α} {v : β} (h : get m k = some v) : (k, v) ∈ m := by
  induction m with
  | nil => simp at h
  | cons a m ih =>
    obtain ⟨x, w⟩ := a
    rw [get_cons] at h
    split at h
    · rename_i hx; subst hx; simp at h; subst h; exact List.mem_cons_self
    · exact List.mem_cons_of_mem _ (ih h)

theorem mem_iff_get {m : GoMap α β} (h : WF m) {k : α} {v : β} : (k, v) ∈ m ↔ get m k = some v :=
  ⟨get_of_mem h, mem_of_get⟩

theorem get_perm {m m' : GoMap α β} (h : WF m) (hp : m.Perm m') (k : α) : get m k = get m' k := by
  have h' : WF m' := (hp.map Prod.fst).nodup_iff.mp h
  rcases hg : get m k with _ | v
  · rcases hg' : get m' k with _ | v'
    · rfl
    · have := get_of_mem h (hp.mem_iff.mpr (mem_of_get hg'))
      rw [hg] at this
      simp at this
  · exact (get_of_mem h' (hp.mem_iff.mp (mem_of_get hg))).symm

theorem del_of_not_mem {m : GoMap α β} {k : α} (h : get m k = none) : del m k = m := by
  induction m with
  | nil => rfl
  | cons a m ih =>
    obtain ⟨x, v⟩ := a
    rw [get_cons] at h
    split at h
    · simp at h
    · rename_i hx
      simp only [del, if_neg hx, ih h]

theorem mem_del_iff {m : GoMap α β} {k x : α} {v : β} :
    (x, v) ∈ del m k ↔ x ≠ k ∧ (x, v) ∈ m := by
  induction m with
  | nil => simp [del]
  | cons a m ih =>
    obtain ⟨y, w⟩ := a
    simp only [del]
    split
    · rename_i hy
      subst hy
      rw [ih, List.mem_cons]
      constructor
      · rintro ⟨h1, h2⟩; exact ⟨h1, .inr h2⟩
      · rintro ⟨h1, h2 | h2⟩
        · cases h2; exact absurd rfl h1
        · exact ⟨h1, h2⟩
    · rename_i hy
      rw [List.mem_cons, ih, List.mem_cons]
      constructor
      · rintro (h | h)
        · cases h; exact ⟨hy, .inl rfl⟩
        · exact ⟨h.1, .inr h.2⟩
      · rintro ⟨h1, h2 | h2⟩
        · exact .inl h2
        · exact .inr ⟨h1, h2⟩

theorem mem_set_iff {m : GoMap α β} {k x : α} {u v : β} :
    (x, v) ∈ set m k u ↔ (x = k ∧ v = u) ∨ (x ≠ k ∧ (x, v) ∈ m) := by
  unfold set
  rw [List.mem_cons, mem_del_iff, Prod.mk.injEq]

end Verif.GoMap
