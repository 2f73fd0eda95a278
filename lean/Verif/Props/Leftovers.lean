import Verif.Model.Leftovers

/-! # C157: past states of a ratchet are gone from the disk -/

namespace Verif.Leftovers

namespace Spec

/-- Whose ratchet it is. -/
def who : Ev → Nat
  | .update id .. => id
  | .removeHalf id _ => id
  | .reset id .. => id
  | .delete id _ => id

/-- The state in use, the last event first: the last that was saved, unless it was removed since. -/
def current (id : Nat) (half : Bool) : List Ev → Option Nat
  | [] => none
  | .update i h v .done :: es => if i = id ∧ h = half then some v else current id half es
  | .removeHalf i true :: es => if i = id ∧ half = true then none else current id half es
  | .reset i h f :: es => if i = id ∧ (if half then h else f) = true then none else current id half es
  | .delete i true :: es => if i = id then none else current id half es
  | _ :: es => current id half es

/-- A temporary file of the contact is left. -/
def leaves (id : Nat) : Ev → Bool
  | .update i _ _ .left => i == id
  | _ => false

/-- The contact is deleted. -/
def deletes (id : Nat) : Ev → Bool
  | .delete i true => i == id
  | _ => false

/-- The half ratchet of the contact is replaced or removed. -/
def dropsHalf (id : Nat) : Ev → Bool
  | .update i true _ .done => i == id
  | .removeHalf i true => i == id
  | .reset i true _ => i == id
  | .delete i true => i == id
  | _ => false

end Spec

theorem run_snoc (d : Disk) (evs : List Ev) (e : Ev) : run d (evs ++ [e]) = step (run d evs) e := by simp [run]

/-- The two files are what is in use. -/
theorem files (es : List Ev) (id : Nat) :
    (run init es.reverse).full id = Spec.current id false es ∧ (run init es.reverse).half id = Spec.current id true es := by
  induction es with
  | nil => exact ⟨rfl, rfl⟩
  | cons e es ih =>
    rw [List.reverse_cons, run_snoc]
    cases e with
    | update i h v fate =>
      cases fate with
      | notMade => exact ih
      | left => exact ih
      | done => cases h <;> by_cases hi : id = i <;> simp_all [step, upd, Spec.current, eq_comm]
    | removeHalf i ok =>
      cases ok with
      | false => exact ih
      | true => by_cases hi : id = i <;> simp_all [step, upd, Spec.current, eq_comm]
    | reset i h f =>
      cases h <;> cases f <;> by_cases hi : id = i <;> simp_all [step, upd, Spec.current, eq_comm]
    | delete i ok =>
      cases ok with
      | false => exact ih
      | true => by_cases hi : id = i <;> simp_all [step, upd, Spec.current, eq_comm]

/-- Temporary files come only from those that were left. -/
theorem temp_none (es : List Ev) (id : Nat) (h : ∀ e ∈ es, Spec.leaves id e = false) (d : Disk) (hd : d.temp id = []) :
    (run d es).temp id = [] := by
  induction es generalizing d with
  | nil => exact hd
  | cons e es ih =>
    refine ih (fun e he => h e (List.mem_cons_of_mem _ he)) _ ?_
    have he := h e List.mem_cons_self
    cases e with
    | update i hf v fate =>
      cases fate with
      | left =>
        simp only [Spec.leaves, beq_eq_false_iff_ne] at he
        simp [step, upd, Ne.symm he, hd]
      | notMade => exact hd
      | done => cases hf <;> exact hd
    | removeHalf i ok => cases ok <;> exact hd
    | reset i a b => exact hd
    | delete i ok =>
      cases ok with
      | false => exact hd
      | true => by_cases hi : id = i <;> simp [step, upd, hi, hd]

/-- **C157 partial**: as long as no temporary file of the contact is left, whoever gets the disk finds the states in use, the full
and the half one, and no past one. Missing: that this holds if a save is interrupted, see `C157_left_violated`. -/
theorem C157_past_partial (es : List Ev) (id : Nat) (h : ∀ e ∈ es, Spec.leaves id e = false) :
    found (run init es.reverse) id = (Spec.current id false es).toList ++ (Spec.current id true es).toList := by
  have ht := temp_none es.reverse id (fun e he => h e (List.mem_reverse.1 he)) init rfl
  simp [found, ht, files]

/-- **C157** With interruptions there are at most as many past states as there were interruptions. -/
theorem C157_bounded (evs : List Ev) (id : Nat) :
    (found (run init evs) id).length ≤ 2 + (evs.filter (Spec.leaves id)).length := by
  have key : ∀ (evs : List Ev) (d : Disk), ((run d evs).temp id).length ≤ (d.temp id).length + (evs.filter (Spec.leaves id)).length := by
    intro evs
    induction evs with
    | nil => intro d; simp [run]
    | cons e es ih =>
      intro d
      have one : ((step d e).temp id).length ≤ (d.temp id).length + if Spec.leaves id e then 1 else 0 := by
        cases e with
        | update i hf v fate =>
          cases fate with
          | left =>
            simp only [step, upd, Spec.leaves, beq_iff_eq]
            by_cases hi : id = i
            · simp [hi]
            · simp [hi, Ne.symm hi]
          | notMade => simp [step]
          | done => cases hf <;> simp [step]
        | removeHalf i ok => cases ok <;> simp [step]
        | reset i a b => simp [step]
        | delete i ok =>
          cases ok with
          | false => simp [step]
          | true => by_cases hi : id = i <;> simp [step, upd, hi]
      have := ih (step d e)
      show ((run (step d e) es).temp id).length ≤ _
      rw [List.filter_cons]
      cases hl : Spec.leaves id e
      · simp only [hl, Bool.false_eq_true, if_false] at one ⊢; omega
      · simp only [hl, if_true, List.length_cons] at one ⊢; omega
  have := key evs init
  have h1 : ∀ o : Option Nat, o.toList.length ≤ 1 := by intro o; cases o <;> simp
  have a := h1 ((run init evs).full id)
  have b := h1 ((run init evs).half id)
  simp only [found, List.length_append]
  have hz : (init.temp id).length = 0 := rfl
  omega

/-- **C157** When a contact is deleted nothing of it is left, whatever was interrupted before. -/
theorem C157_deleted (d : Disk) (id : Nat) : found (step d (.delete id true)) id = [] := by
  simp [found, step, upd]

/-- **C157** What happens to the ratchet of one contact does not touch what there is of another. -/
theorem C157_apart (d : Disk) (e : Ev) (id : Nat) (h : id ≠ Spec.who e) : found (step d e) id = found d id := by
  cases e with
  | update i hf v fate => cases fate <;> cases hf <;> simp_all [found, step, upd, Spec.who]
  | removeHalf i ok => cases ok <;> simp_all [found, step, upd, Spec.who]
  | reset i a b => cases a <;> cases b <;> simp_all [found, step, upd, Spec.who]
  | delete i ok => cases ok <;> simp_all [found, step, upd, Spec.who]

/-- **C157** After a reset that could remove the files, the states that were in use are not in use any more; what is found was left
by an interruption. -/
theorem C157_reset (d : Disk) (id : Nat) : found (step d (.reset id true true)) id = d.temp id := by
  simp [found, step, upd]

/-- **C157 violated**: a state of which the save was interrupted stays on the disk, whatever is saved, removed or reset afterwards,
until the contact is deleted. -/
theorem C157_left_violated (d : Disk) (id v : Nat) (half : Bool) (evs : List Ev) (h : ∀ e ∈ evs, Spec.deletes id e = false) :
    v ∈ found (run (step d (.update id half v .left)) evs) id := by
  have key : ∀ (evs : List Ev) (d : Disk), v ∈ d.temp id → (∀ e ∈ evs, Spec.deletes id e = false) → v ∈ (run d evs).temp id := by
    intro evs
    induction evs with
    | nil => intro d hv _; exact hv
    | cons e es ih =>
      intro d hv h
      refine ih _ ?_ (fun e he => h e (List.mem_cons_of_mem _ he))
      have he := h e List.mem_cons_self
      cases e with
      | update i hf w fate =>
        cases fate with
        | left =>
          simp only [step, upd]
          split
          · rename_i hi; subst hi; exact List.mem_cons_of_mem _ hv
          · exact hv
        | notMade => exact hv
        | done => cases hf <;> exact hv
      | removeHalf i ok => cases ok <;> exact hv
      | reset i a b => exact hv
      | delete i ok =>
        cases ok with
        | false => exact hv
        | true =>
          simp only [Spec.deletes, beq_eq_false_iff_ne] at he
          simp [step, upd, Ne.symm he, hv]
  exact List.mem_append_right _ (key evs _ (by simp [step, upd]) h)

/-- **C157 violated**: if the client dies after the full ratchet is saved and before the half one is removed, the half one, from which
the first keys can be computed, stays, however long the conversation goes on. -/
theorem C157_half_violated (d : Disk) (id v w : Nat) (evs : List Ev) (h : ∀ e ∈ evs, Spec.dropsHalf id e = false) :
    v ∈ found (run (run d [.update id true v .done, .update id false w .done]) evs) id := by
  have key : ∀ (evs : List Ev) (d : Disk), d.half id = some v → (∀ e ∈ evs, Spec.dropsHalf id e = false) → (run d evs).half id = some v := by
    intro evs
    induction evs with
    | nil => intro d hv _; exact hv
    | cons e es ih =>
      intro d hv h
      refine ih _ ?_ (fun e he => h e (List.mem_cons_of_mem _ he))
      have he := h e List.mem_cons_self
      cases e with
      | update i hf w fate =>
        cases fate with
        | left => exact hv
        | notMade => exact hv
        | done =>
          cases hf with
          | false => exact hv
          | true =>
            simp only [Spec.dropsHalf, beq_eq_false_iff_ne] at he
            simp [step, upd, Ne.symm he, hv]
      | removeHalf i ok =>
        cases ok with
        | false => exact hv
        | true =>
          simp only [Spec.dropsHalf, beq_eq_false_iff_ne] at he
          simp [step, upd, Ne.symm he, hv]
      | reset i a b =>
        cases a with
        | false => exact hv
        | true =>
          simp only [Spec.dropsHalf, beq_eq_false_iff_ne] at he
          simp [step, upd, Ne.symm he, hv]
      | delete i ok =>
        cases ok with
        | false => exact hv
        | true =>
          simp only [Spec.dropsHalf, beq_eq_false_iff_ne] at he
          simp [step, upd, Ne.symm he, hv]
  have := key evs (run d [.update id true v .done, .update id false w .done]) (by simp [run, step, upd]) h
  simp [found, this]

/-- An exchange, three messages, a reset, and an exchange that is under way: only the half ratchet is found. -/
example : found (run init [.update 1 true 10 .done, .update 1 false 11 .done, .removeHalf 1 true, .update 2 false 5 .left,
      .update 1 false 12 .done, .update 1 false 13 .notMade, .update 1 false 14 .done]) 1 = [14] ∧
    found (run init [.update 1 true 10 .done, .update 1 false 11 .done, .removeHalf 1 true, .update 1 false 12 .done,
      .reset 1 true true, .update 1 true 20 .done]) 1 = [20] := by
  decide

end Verif.Leftovers
