import Verif.Model.Deleted

/-! # C158: what was deleted from a table is gone from the disk -/

namespace Verif.Deleted

namespace Spec

/-- Which table. -/
def tab : Ev → Nat
  | .set t _ => t
  | .del t _ => t

/-- Something else is added to the table. -/
def adds (t : Nat) : Ev → Bool
  | .set t' _ => t' == t
  | _ => false

end Spec

/-- **C158** What happens to one table touches no other. -/
theorem C158_apart (d : Disk) (ev : Ev) (t : Nat) (h : t ≠ Spec.tab ev) :
    (step d ev).table t = d.table t ∧ (step d ev).backups t = d.backups t := by
  cases ev with
  | set t' e =>
    have h : t ≠ t' := h
    simp only [step]
    split <;> simp [Disk.save, h]
  | del t' e =>
    have h : t ≠ t' := h
    simp only [step]
    split
    · exact ⟨rfl, rfl⟩
    · split <;> simp [Disk.save, h]

/-- What a call on a table does to it. -/
theorem step_cases (d : Disk) (ev : Ev) (t : Nat) (l : List Nat) (hl : d.table t = some l) :
    (step d ev).table t = some l ∧ (step d ev).backups t = d.backups t ∧ Spec.adds t ev = false ∨
    ∃ new, (step d ev).table t = some new ∧ (step d ev).backups t = (l :: d.backups t).take depth ∧
      ∀ x ∈ new, x ∈ l ∨ ev = .set t x := by
  by_cases h : t = Spec.tab ev
  · cases ev with
    | set t' e =>
      cases h
      simp only [Spec.tab] at hl ⊢
      right
      refine ⟨e :: l.filter (· ≠ e), by simp [step, hl, Disk.save] , by simp [step, hl, Disk.save], fun x hx => ?_⟩
      rcases List.mem_cons.1 hx with rfl | hx
      · exact .inr rfl
      · exact .inl (List.mem_filter.1 hx).1
    | del t' e =>
      cases h
      simp only [Spec.tab] at hl ⊢
      by_cases he : e ∈ l
      · right
        exact ⟨l.filter (· ≠ e), by simp [step, hl, Disk.save, he], by simp [step, hl, Disk.save, he],
          fun x hx => .inl (List.mem_filter.1 hx).1⟩
      · left; simp [step, hl, he, Spec.adds]
  · left
    refine ⟨by rw [(C158_apart d ev t h).1, hl], (C158_apart d ev t h).2, ?_⟩
    cases ev with
    | set t' e => exact beq_eq_false_iff_ne.2 fun h' => h h'.symm
    | del t' e => rfl

/-- **C158** What was deleted is gone from the table, and stays so until it is added again. -/
theorem C158_table (d : Disk) (t e : Nat) (evs : List Ev) (h : .set t e ∉ evs) (l : List Nat)
    (hl : (run (step d (.del t e)) evs).table t = some l) : e ∉ l := by
  have key : ∀ (evs : List Ev) (d : Disk), .set t e ∉ evs → (∀ l, d.table t = some l → e ∉ l) →
      ∀ l, (run d evs).table t = some l → e ∉ l := by
    intro evs
    induction evs with
    | nil => intro d _ hd; exact hd
    | cons ev es ih =>
      intro d hn hd
      refine ih _ (fun h => hn (List.mem_cons_of_mem _ h)) ?_
      intro l' hl'
      cases hf : d.table t with
      | none =>
        by_cases ht : t = Spec.tab ev
        · cases ev with
          | set t' x =>
            cases ht
            simp [step, Spec.tab] at hl' hf
            simp [hf] at hl'
            subst hl'
            intro hx
            simp only [List.mem_singleton] at hx
            subst hx
            exact hn List.mem_cons_self
          | del t' x =>
            cases ht
            simp only [Spec.tab] at hf hl'
            simp [step, hf] at hl'
        · rw [(C158_apart d ev t ht).1, hf] at hl'; cases hl'
      | some l0 =>
        rcases step_cases d ev t l0 hf with ⟨h1, _, _⟩ | ⟨new, h1, _, h3⟩
        · rw [h1] at hl'; cases hl'; exact hd _ hf
        · rw [h1] at hl'; cases hl'
          intro hx
          rcases h3 e hx with hx | rfl
          · exact hd _ hf hx
          · exact hn List.mem_cons_self
  refine key evs _ h ?_ l hl
  intro l hl
  cases hf : d.table t with
  | none => simp [step, hf] at hl
  | some l0 =>
    by_cases he : e ∈ l0
    · simp [step, hf, he, Disk.save] at hl; subst hl; simp
    · simp [step, hf, he] at hl; subst hl; exact he

/-- **C158 partial**: when an entry was deleted, and then ten others were added, nothing on the disk has it any more. Missing: the time
until then, see `C158_backup_violated`. -/
theorem C158_rotated_partial (d : Disk) (t e : Nat) (evs : List Ev) (h : .set t e ∉ evs) (hd : (d.table t).isSome = true)
    (hn : 10 ≤ (evs.filter (Spec.adds t)).length) : ¬ Found (run (step d (.del t e)) evs) t e := by
  have key : ∀ (evs : List Ev) (d : Disk) (k : Nat) (l : List Nat), .set t e ∉ evs → d.table t = some l → e ∉ l →
      (∀ b ∈ (d.backups t).take k, e ∉ b) → (depth ≤ k → (d.backups t).length ≤ depth) →
      depth ≤ k + (evs.filter (Spec.adds t)).length → ∀ b ∈ (run d evs).backups t, e ∉ b := by
    intro evs
    induction evs with
    | nil =>
      intro d k l _ _ _ hb hlen hk b hm
      have hk : depth ≤ k := by simpa using hk
      exact hb b (by rw [List.take_of_length_le (Nat.le_trans (hlen hk) hk)]; exact hm)
    | cons ev es ih =>
      intro d k l hn hl he hb hlen hk
      have hn' : Ev.set t e ∉ es := fun h => hn (List.mem_cons_of_mem _ h)
      rcases step_cases d ev t l hl with ⟨h1, h2, h3⟩ | ⟨new, h1, h2, h3⟩
      · refine ih _ k l hn' h1 he (by rw [h2]; exact hb) (by rw [h2]; exact hlen) ?_
        rw [List.filter_cons_of_neg (by simp [h3])] at hk
        exact hk
      · refine ih _ (k + 1) new hn' h1 ?_ ?_ ?_ ?_
        · intro hx
          rcases h3 e hx with hx | rfl
          · exact he hx
          · exact hn List.mem_cons_self
        · intro b hm
          rw [h2, List.take_take, Nat.min_comm, ← List.take_take] at hm
          have hm := List.mem_of_mem_take hm
          rw [List.take_succ_cons] at hm
          rcases List.mem_cons.1 hm with rfl | hm
          · exact he
          · exact hb b hm
        · intro _; rw [h2]; exact List.length_take_le _ _
        · have : ((ev :: es).filter (Spec.adds t)).length ≤ 1 + (es.filter (Spec.adds t)).length := by
            rw [List.filter_cons]; split <;> simp <;> omega
          omega
  rintro (⟨l, hl, he⟩ | ⟨b, hb, he⟩)
  · exact C158_table d t e evs h l hl he
  · obtain ⟨l0, hl0⟩ := Option.isSome_iff_exists.1 hd
    have h1 : ∃ l, (step d (.del t e)).table t = some l := by
      by_cases hx : e ∈ l0 <;> simp [step, hl0, hx, Disk.save]
    obtain ⟨l, hl⟩ := h1
    exact key evs _ 0 l h hl (C158_table d t e [] (by simp) l hl) (by simp) (by simp [depth]) (by simpa [depth] using hn) b hb he

/-- **C158 violated**: an entry that was used and deleted is in the newest backup, and stays on the disk until the table was changed
ten times more, however long that takes and whatever happens to other tables. -/
theorem C158_backup_violated (d : Disk) (t e : Nat) (l : List Nat) (hl : d.table t = some l) (he : e ∈ l) (evs : List Ev)
    (hn : (evs.filter fun ev => decide (Spec.tab ev = t)).length < 10) : Found (run (step d (.del t e)) evs) t e := by
  have key : ∀ (evs : List Ev) (d : Disk) (j : Nat), (∃ l, d.table t = some l) → (d.backups t)[j]? = some l →
      j + (evs.filter fun ev => decide (Spec.tab ev = t)).length < depth → l ∈ (run d evs).backups t := by
    intro evs
    induction evs with
    | nil => intro d j _ hj _; exact List.mem_of_getElem? hj
    | cons ev es ih =>
      intro d j ⟨l0, h0⟩ hj hk
      by_cases ht : Spec.tab ev = t
      · rw [List.filter_cons_of_pos (by simpa using ht), List.length_cons] at hk
        rcases step_cases d ev t l0 h0 with ⟨h1, h2, _⟩ | ⟨new, h1, h2, _⟩
        · exact ih _ j ⟨_, h1⟩ (by rw [h2]; exact hj) (by omega)
        · exact ih _ (j + 1) ⟨_, h1⟩ (by rw [h2, List.getElem?_take_of_lt (by omega)]; simpa using hj) (by omega)
      · rw [List.filter_cons_of_neg (by simpa using ht)] at hk
        have := C158_apart d ev t (fun h => ht h.symm)
        exact ih _ j ⟨l0, by rw [this.1]; exact h0⟩ (by rw [this.2]; exact hj) hk
  refine .inr ⟨l, key evs _ 0 ?_ ?_ (by simpa [depth] using hn), he⟩
  · simp [step, hl, he, Disk.save]
  · simp [step, hl, he, Disk.save, depth]

/-- **C158** No entry is lost on the way: what was added and not deleted is in the table. -/
theorem C158_kept (d : Disk) (t e : Nat) (evs : List Ev) (h : .del t e ∉ evs) :
    ∃ l, (run (step d (.set t e)) evs).table t = some l ∧ e ∈ l := by
  have key : ∀ (evs : List Ev) (d : Disk), .del t e ∉ evs → (∃ l, d.table t = some l ∧ e ∈ l) →
      ∃ l, (run d evs).table t = some l ∧ e ∈ l := by
    intro evs
    induction evs with
    | nil => intro d _ hd; exact hd
    | cons ev es ih =>
      intro d hn ⟨l, hl, he⟩
      refine ih _ (fun h => hn (List.mem_cons_of_mem _ h)) ?_
      by_cases ht : t = Spec.tab ev
      · cases ev with
        | set t' x =>
          cases ht
          simp only [Spec.tab] at hl ⊢
          refine ⟨x :: l.filter (· ≠ x), by simp [step, hl, Disk.save], ?_⟩
          by_cases hx : e = x <;> simp [hx, he]
        | del t' x =>
          cases ht
          simp only [Spec.tab] at hl hn ⊢
          have hx : e ≠ x := fun h => hn (by rw [h]; exact List.mem_cons_self)
          by_cases hm : x ∈ l
          · exact ⟨l.filter (· ≠ x), by simp [step, hl, Disk.save, hm], by simp [he, hx]⟩
          · exact ⟨l, by simp [step, hl, hm], he⟩
      · exact ⟨l, by rw [(C158_apart d ev t ht).1, hl], he⟩
  refine key evs _ h ?_
  cases hf : d.table t with
  | none => exact ⟨[e], by simp [step, hf], by simp⟩
  | some l => exact ⟨e :: l.filter (· ≠ e), by simp [step, hf, Disk.save], by simp⟩

/-- A token is used: it is in a backup, and gone when ten others were made. -/
example : (run init [.set 1 7, .set 1 8, .del 1 7]).table 1 = some [8] ∧ (run init [.set 1 7, .set 1 8, .del 1 7]).backups 1 = [[8, 7], [7]] ∧
    ¬ Found (run (step (run init [.set 1 7, .set 1 8]) (.del 1 7)) ((List.range 10).map fun i => .set 1 (i + 20))) 1 7 :=
  ⟨by decide, by decide, C158_rotated_partial _ 1 7 _ (by decide) (by decide) (by decide)⟩

end Verif.Deleted
