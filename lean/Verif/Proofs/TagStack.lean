import Verif.Model.TagStack

/-! Helper lemmas for C01, C02. -/

namespace Verif.TagStack

theorem foldlM_inv {σ α : Type} (f : σ → α → Option σ) (I : σ → Prop)
    (hstep : ∀ a op b, I a → f a op = some b → I b) :
    ∀ (ops : List α) (a b : σ), I a → ops.foldlM f a = some b → I b := by
  intro ops
  induction ops with
  | nil => intro a b ha h; simp at h; exact h ▸ ha
  | cons op ops ih =>
    intro a b ha h
    simp only [List.foldlM_cons, Option.bind_eq_bind, Option.bind_eq_some_iff] at h
    obtain ⟨c, hc, h⟩ := h
    exact ih c b (hstep a op c ha hc) h

theorem map_u32_range {d : Nat} (hd : d ≤ 2 ^ 32) : (List.range d).map u32 = List.range d := by
  apply List.ext_getElem
  · simp
  · intro i h1 h2
    simp at h1 ⊢
    unfold u32
    exact Nat.mod_eq_of_lt (by omega)

theorem take_set_succ {l : List Nat} {n x : Nat} (h : n < l.length) :
    (l.set n x).take (n + 1) = l.take n ++ [x] := by
  rw [List.take_add_one, List.take_set_of_le (Nat.le_refl n)]
  simp [h]

theorem take_pred {l : List Nat} {n : Nat} (h : n - 1 < l.length) (h0 : n > 0) :
    l.take n = l.take (n - 1) ++ [l[n - 1]] := by
  obtain ⟨m, rfl⟩ : ∃ m, n = m + 1 := ⟨n - 1, by omega⟩
  simp only [Nat.add_sub_cancel] at h ⊢
  rw [List.take_add_one]
  simp [h]

/-- Invariant of a non-blocking pool with held tags. -/
structure StackInv (d : Nat) (a : Stack × List Nat) : Prop where
  len : a.1.stack.length = d
  le : a.1.at_ ≤ d
  perm : (a.2 ++ a.1.stack.take a.1.at_).Perm (List.range d)

theorem StackInv.conclude {d : Nat} {s : Stack} {held : List Nat} (h : StackInv d (s, held)) :
    held.Nodup ∧ (∀ t ∈ held, t < d) ∧
      (held ++ s.stack.take s.at_).Perm (List.range d) := by
  have hn : (held ++ s.stack.take s.at_).Nodup := h.perm.nodup_iff.mpr List.nodup_range
  refine ⟨(List.nodup_append.mp hn).1, ?_, h.perm⟩
  intro t ht
  have : t ∈ List.range d := h.perm.mem_iff.mp (List.mem_append_left _ ht)
  simpa using this

theorem stackInv_new (d : Nat) (hd : d ≤ 2 ^ 32) : StackInv d (new d, []) := by
  refine ⟨by simp [new], by simp [new], ?_⟩
  simp only [new, map_u32_range hd, List.nil_append]
  rw [List.take_of_length_le (by simp)]

theorem stackInv_pop {d : Nat} {s : Stack} {held : List Nat} (h : StackInv d (s, held)) :
    match s.pop with
    | (.ok t, s') => StackInv d (s', t :: held)
    | (.err _, s') => StackInv d (s', held)
    | (.panic, _) => False := by
  obtain ⟨hl, hle, hp⟩ := h
  simp only at hl hle hp
  unfold Stack.pop
  by_cases h0 : s.at_ > 0
  · have hlt : s.at_ - 1 < s.stack.length := by omega
    simp only [h0, if_true, List.getElem?_eq_getElem hlt]
    refine ⟨hl, by simp only; omega, ?_⟩
    simp only
    have : s.stack.take s.at_ = s.stack.take (s.at_ - 1) ++ [s.stack[s.at_ - 1]] := by
      exact take_pred hlt h0
    rw [this] at hp
    refine List.Perm.trans ?_ hp
    rw [← List.append_assoc]
    refine List.Perm.trans ?_ List.perm_append_comm
    simp
  · simp only [h0, if_false]
    exact ⟨hl, hle, hp⟩

theorem stackInv_push {d : Nat} {s : Stack} {held : List Nat} (h : StackInv d (s, held))
    {x : Nat} (hx : x ∈ held) :
    s.push x = (.ok (), (s.push x).2) ∧ StackInv d ((s.push x).2, held.erase x) := by
  obtain ⟨hl, hle, hp⟩ := h
  simp only at hl hle hp
  have hlen := hp.length_eq
  have hpos : 0 < held.length := List.length_pos_of_mem hx
  simp only [List.length_append, List.length_take, List.length_range, hl] at hlen
  have hlt : s.at_ < s.stack.length := by omega
  unfold Stack.push
  simp only [hlt, if_true, true_and]
  refine ⟨by simp [hl], by simp only; omega, ?_⟩
  simp only [take_set_succ hlt]
  refine List.Perm.trans ?_ hp
  rw [← List.append_assoc]
  refine List.Perm.trans List.perm_append_comm ?_
  rw [← List.append_assoc]
  exact List.Perm.append_right _ (List.perm_cons_erase hx).symm

/-- Invariant of a blocking pool with held tags. -/
structure ChanInv (d : Nat) (a : Chan × List Nat) : Prop where
  cap : a.1.cap = d
  perm : (a.2 ++ a.1.buf).Perm (List.range d)

theorem chanInv_new (d : Nat) (hd : d ≤ 2 ^ 32) : ChanInv d (newBlocking d, []) :=
  ⟨rfl, by simp [newBlocking, map_u32_range hd]⟩

theorem chanInv_pop {d : Nat} {c c' : Chan} {held : List Nat} {t : Nat}
    (h : ChanInv d (c, held)) (hp : c.pop = some (t, c')) : ChanInv d (c', t :: held) := by
  obtain ⟨hc, hpm⟩ := h
  unfold Chan.pop at hp
  split at hp
  · simp at hp
  · rename_i t' r heq
    simp at hp
    obtain ⟨rfl, rfl⟩ := hp
    refine ⟨hc, ?_⟩
    simp only [heq] at hpm
    exact List.Perm.trans List.perm_middle.symm hpm

theorem chanInv_push {d : Nat} {c c' : Chan} {held : List Nat} {x : Nat}
    (h : ChanInv d (c, held)) (hx : x ∈ held) (hp : c.push x = some c') :
    ChanInv d (c', held.erase x) := by
  obtain ⟨hc, hpm⟩ := h
  unfold Chan.push at hp
  split at hp
  · simp at hp
    subst hp
    refine ⟨hc, ?_⟩
    simp only at hpm ⊢
    refine List.Perm.trans ?_ hpm
    rw [← List.append_assoc]
    refine List.Perm.trans List.perm_append_comm ?_
    rw [← List.append_assoc]
    exact List.Perm.append_right _ (List.perm_cons_erase hx).symm
  · simp at hp

theorem ChanInv.conclude {d : Nat} {c : Chan} {held : List Nat} (h : ChanInv d (c, held)) :
    held.Nodup ∧ (∀ t ∈ held, t < d) ∧ (held ++ c.buf).Perm (List.range d) ∧
      (∀ x ∈ held, (c.push x).isSome) := by
  have hn : (held ++ c.buf).Nodup := h.perm.nodup_iff.mpr List.nodup_range
  refine ⟨(List.nodup_append.mp hn).1, ?_, h.perm, ?_⟩
  · intro t ht
    have : t ∈ List.range d := h.perm.mem_iff.mp (List.mem_append_left _ ht)
    simpa using this
  · intro x hx
    have hlen := h.perm.length_eq
    have hpos : 0 < held.length := List.length_pos_of_mem hx
    simp only [List.length_append, List.length_range] at hlen
    have := h.cap
    simp only at this
    unfold Chan.push
    rw [if_pos (by omega)]
    rfl

/-- The array representation `s` stands for the stack `l` (top first). -/
structure Rep (d : Nat) (s : Stack) (l : List Nat) : Prop where
  len : s.stack.length = d
  le : s.at_ ≤ d
  abs : (s.stack.take s.at_).reverse = l

theorem rep_new (d : Nat) (hd : d ≤ 2 ^ 32) : Rep d (new d) (List.range d).reverse := by
  refine ⟨by simp [new], by simp [new], ?_⟩
  simp only [new, map_u32_range hd]
  rw [List.take_of_length_le (by simp)]

theorem Rep.length {d : Nat} {s : Stack} {l : List Nat} (h : Rep d s l) : l.length = s.at_ := by
  rw [← h.abs]
  simp [h.len, h.le]

theorem rep_push {d : Nat} {s : Stack} {l : List Nat} (h : Rep d s l) (x : Nat) :
    if l.length = d then s.push x = (.err .overflow, s)
    else (s.push x).1 = .ok () ∧ Rep d (s.push x).2 (x :: l) := by
  have hl := h.length
  unfold Stack.push
  split
  · rw [if_neg (by have := h.len; omega)]
  · have hlt : s.at_ < s.stack.length := by have := h.len; have := h.le; omega
    simp only [hlt, if_true, true_and]
    refine ⟨by simp [h.len], by have := h.len; simp only; omega, ?_⟩
    simp only [take_set_succ hlt, List.reverse_append, h.abs]
    rfl

theorem rep_pop {d : Nat} {s : Stack} {l : List Nat} (h : Rep d s l) :
    match l with
    | [] => s.pop = (.err .underflow, s)
    | t :: r => s.pop.1 = .ok t ∧ Rep d s.pop.2 r := by
  have hl := h.length
  cases l with
  | nil =>
    simp at hl
    simp [Stack.pop, ← hl]
  | cons t r =>
    simp at hl
    have hlt : s.at_ - 1 < s.stack.length := by have := h.len; have := h.le; omega
    have h0 : s.at_ > 0 := by omega
    have htk : s.stack.take s.at_ = s.stack.take (s.at_ - 1) ++ [s.stack[s.at_ - 1]] := by
      exact take_pred hlt h0
    have habs := h.abs
    rw [htk, List.reverse_append, List.reverse_singleton, List.singleton_append,
      List.cons.injEq] at habs
    simp only [Stack.pop, h0, if_true, List.getElem?_eq_getElem hlt]
    refine ⟨by rw [habs.1], h.len, by have := h.le; simp only; omega, ?_⟩
    exact habs.2

end Verif.TagStack
