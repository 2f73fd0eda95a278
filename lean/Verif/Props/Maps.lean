import Verif.Model.Maps

/-! # C152: no map is written while another goroutine uses it -/

namespace Verif.Maps

/-- Go ends the program: one goroutine writes to a map that another one uses. -/
def Fatal (s : State) : Prop :=
  ∃ (i j : Nat) (t u : Thread) (m : Nat) (w w' : Bool), i ≠ j ∧ s[i]? = some t ∧ s[j]? = some u ∧ t.inside = some (m, w) ∧ u.inside = some (m, w') ∧ (w || w') = true

/-! ## Discipline -/

/-- The lock of a map. -/
def guardOf (m : Nat) : Nat := if m = processed then account else m

/-- With these locks a map may be used so. -/
def allows (h : List (Nat × Bool)) (m : Nat) (w : Bool) : Bool :=
  h.contains (guardOf m, true) || (!w && h.contains (guardOf m, false))

/-- Every use is under its lock. -/
def guarded : List (Nat × Bool) → List Op → Bool
  | _, [] => true
  | h, .acq l :: p => guarded ((l, true) :: h) p
  | h, .racq l :: p => guarded ((l, false) :: h) p
  | h, .rel l :: p => guarded (h.filter fun x => x.1 != l) p
  | h, .use m w :: p => allows h m w && guarded h p

/-- The locks that are held after it. -/
def heldAfter : List (Nat × Bool) → List Op → List (Nat × Bool)
  | h, [] => h
  | h, .acq l :: p => heldAfter ((l, true) :: h) p
  | h, .racq l :: p => heldAfter ((l, false) :: h) p
  | h, .rel l :: p => heldAfter (h.filter fun x => x.1 != l) p
  | h, .use _ _ :: p => heldAfter h p

theorem guarded_append (h : List (Nat × Bool)) (p q : List Op) :
    guarded h (p ++ q) = (guarded h p && guarded (heldAfter h p) q) := by
  induction p generalizing h with
  | nil => rfl
  | cons o p ih => cases o <;> simp [guarded, heldAfter, ih, Bool.and_assoc]

theorem heldAfter_append (h : List (Nat × Bool)) (p q : List Op) : heldAfter h (p ++ q) = heldAfter (heldAfter h p) q := by
  induction p generalizing h with
  | nil => rfl
  | cons o p ih => cases o <;> simp [heldAfter, ih]

theorem heldAfter_uses (h : List (Nat × Bool)) {us : List Op} (hu : ∀ o ∈ us, ∃ m w, o = .use m w) : heldAfter h us = h := by
  induction us with
  | nil => rfl
  | cons o us ih =>
    obtain ⟨m, w, rfl⟩ := hu o (List.mem_cons_self ..)
    exact ih fun o ho => hu o (List.mem_cons_of_mem _ ho)

theorem guarded_uses (h : List (Nat × Bool)) {us : List Op} (hu : ∀ o ∈ us, ∃ m w, o = .use m w ∧ allows h m w = true) :
    guarded h us = true := by
  induction us with
  | nil => rfl
  | cons o us ih =>
    obtain ⟨m, w, rfl, ha⟩ := hu o (List.mem_cons_self ..)
    simp only [guarded, ha, Bool.true_and]
    exact ih fun o ho => hu o (List.mem_cons_of_mem _ ho)

/-- A piece of program that keeps to the discipline whatever is held, but for `l`, and leaves the locks as they were. -/
def Piece (l : Nat) (p : List Op) : Prop :=
  ∀ h : List (Nat × Bool), (∀ x ∈ h, x.1 ≠ l) → guarded h p = true ∧ heldAfter h p = h

theorem filter_other {h : List (Nat × Bool)} {l : Nat} (hl : ∀ x ∈ h, x.1 ≠ l) : (h.filter fun x => x.1 != l) = h :=
  List.filter_eq_self.2 fun x hx => by simpa using hl x hx

theorem piece_locked {l : Nat} {us : List Op} (hu : ∀ o ∈ us, ∃ m w, o = .use m w ∧ guardOf m = l) (k : Nat) :
    Piece l (locked l us k) := by
  intro h hl
  have ht : ∀ o ∈ us.take k, ∃ m w, o = .use m w ∧ guardOf m = l := fun o ho => hu o (List.mem_of_mem_take ho)
  have h1 : heldAfter ((l, true) :: h) (us.take k) = (l, true) :: h :=
    heldAfter_uses _ fun o ho => (ht o ho).imp fun m hm => hm.imp fun w hw => hw.1
  constructor
  · show guarded ((l, true) :: h) (us.take k ++ [.rel l]) = true
    rw [guarded_append, h1, Bool.and_eq_true]
    refine ⟨guarded_uses _ fun o ho => ?_, rfl⟩
    obtain ⟨m, w, e, hg⟩ := ht o ho
    exact ⟨m, w, e, by simp [allows, hg]⟩
  · show heldAfter ((l, true) :: h) (us.take k ++ [.rel l]) = h
    rw [heldAfter_append, h1]
    simp only [heldAfter]
    rw [List.filter_cons_of_neg (by simp), filter_other hl]

theorem piece_rlocked {l : Nat} {us : List Op} (hu : ∀ o ∈ us, ∃ m, o = .use m false ∧ guardOf m = l) (k : Nat) :
    Piece l (rlocked l us k) := by
  intro h hl
  have ht : ∀ o ∈ us.take k, ∃ m, o = .use m false ∧ guardOf m = l := fun o ho => hu o (List.mem_of_mem_take ho)
  have h1 : heldAfter ((l, false) :: h) (us.take k) = (l, false) :: h :=
    heldAfter_uses _ fun o ho => (ht o ho).imp fun m hm => ⟨false, hm.1⟩
  constructor
  · show guarded ((l, false) :: h) (us.take k ++ [.rel l]) = true
    rw [guarded_append, h1, Bool.and_eq_true]
    refine ⟨guarded_uses _ fun o ho => ?_, rfl⟩
    obtain ⟨m, e, hg⟩ := ht o ho
    exact ⟨m, false, e, by simp [allows, hg]⟩
  · show heldAfter ((l, false) :: h) (us.take k ++ [.rel l]) = h
    rw [heldAfter_append, h1]
    simp only [heldAfter]
    rw [List.filter_cons_of_neg (by simp), filter_other hl]

theorem Piece.append {l : Nat} {p q : List Op} (hp : Piece l p) (hq : Piece l q) : Piece l (p ++ q) := by
  intro h hl
  have h1 := hp h hl
  have h2 := hq h hl
  rw [guarded_append, heldAfter_append, h1.2]
  exact ⟨by rw [h1.1, h2.1]; rfl, h2.2⟩

theorem piece_nil (l : Nat) : Piece l [] := fun _ _ => ⟨rfl, rfl⟩

/-- The lock of a call, and that of one that is made within others. -/
def Call.lock : Call → Nat
  | .found | .find _ => pendingMtx
  | .knock _ | .begins | .ends | .disable => zks
  | .deliver _ | .delete _ | .offline _ | .login _ | .scan _ => account
  | _ => zkc

def Leaf.lock : Leaf → Nat
  | .log => Maps.log
  | _ => book

theorem piece_call (c : Call) : Piece c.lock c.ops := by
  cases c with
  | gcNew k =>
    refine .append (piece_locked (by simp [guardOf, Call.lock]) k) ?_
    split
    · exact piece_nil _
    · exact piece_locked (by simp [guardOf, Call.lock, gcSaveDisk']) k
  | gcInvite k => exact piece_rlocked (by simp [guardOf, Call.lock]) k
  | gcJoin k => exact piece_locked (by simp [guardOf, Call.lock, gcSaveDisk']) k
  | gcKick k => exact piece_locked (by simp [guardOf, Call.lock]) k
  | kicked k => exact piece_locked (by simp [guardOf, Call.lock, gcSaveDisk']) k
  | gcPartForce k => exact piece_locked (by simp [guardOf, Call.lock, deleteGroup']) k
  | gcPart k => exact piece_rlocked (by simp [guardOf, Call.lock]) k
  | gcKill k => exact piece_locked (by simp [guardOf, Call.lock, deleteGroup']) k
  | gcMessage k => exact .append (piece_rlocked (by simp [guardOf, Call.lock]) 1) (piece_rlocked (by simp [guardOf, Call.lock]) k)
  | handleGroupJoin k => exact piece_locked (by simp [guardOf, Call.lock, gcSaveDisk', addIdGroupchat']) k
  | handleGroupPart k => exact piece_locked (by simp [guardOf, Call.lock, gcSaveDisk']) k
  | handleGroupKick me k =>
    refine piece_locked ?_ k
    cases me <;> simp [guardOf, Call.lock, deleteGroup', updateGroupList', gcSaveDisk']
  | handleGroupKill k => exact piece_locked (by simp [guardOf, Call.lock, deleteGroup']) k
  | handleGroupList k k' =>
    exact .append (.append (piece_rlocked (by simp [guardOf, Call.lock]) k) (piece_rlocked (by simp [guardOf, Call.lock]) 1))
      (piece_locked (by simp [guardOf, Call.lock, updateGroupList', gcSaveDisk']) k')
  | handleGroupMessage k => exact .append (piece_locked (by simp [guardOf, Call.lock]) k) (piece_rlocked (by simp [guardOf, Call.lock]) 1)
  | listGroupchat k => exact piece_rlocked (by simp [guardOf, Call.lock]) k
  | handleDisabledUser n => exact piece_locked (by simp [guardOf, Call.lock, List.mem_replicate]) n
  | loadGroupchat k => exact piece_locked (by simp [guardOf, Call.lock]) k
  | found => exact piece_locked (by simp [guardOf, Call.lock, pendingIds, processed, pendingMtx]) 1
  | find k => exact piece_locked (by simp [guardOf, Call.lock, pendingIds, processed, pendingMtx]) k
  | knock k => exact piece_locked (by simp [guardOf, Call.lock, sessions, processed, zks]) k
  | begins => exact piece_locked (by simp [guardOf, Call.lock, sessions, processed, zks]) 1
  | ends => exact piece_locked (by simp [guardOf, Call.lock, sessions, processed, zks]) 1
  | disable => exact piece_locked (by simp [guardOf, Call.lock, sessions, processed, zks]) 1
  | deliver k => exact piece_locked (by simp [guardOf, Call.lock]) k
  | delete k => exact piece_locked (by simp [guardOf, Call.lock]) k
  | offline k => exact piece_locked (by simp [guardOf, Call.lock]) k
  | login k => exact piece_locked (by simp [guardOf, Call.lock]) k
  | scan k => exact .append (piece_locked (by simp) 0) (piece_locked (by simp [guardOf, Call.lock]) k)

theorem piece_leaf (l : Leaf) : Piece l.lock l.ops := by
  cases l with
  | add n =>
    refine piece_locked ?_ _
    intro o ho
    simp only [List.mem_append, List.mem_replicate, List.mem_singleton] at ho
    rcases ho with ⟨_, rfl⟩ | rfl
    · exact ⟨_, _, rfl, rfl⟩
    · exact ⟨_, _, rfl, rfl⟩
  | del k => exact piece_locked (by simp [guardOf, Leaf.lock, identities, processed]) k
  | findNick => exact piece_rlocked (by intro o ho; cases List.mem_singleton.1 ho; exact ⟨_, rfl, rfl⟩) 1
  | findIdentity => exact piece_rlocked (by intro o ho; cases List.mem_singleton.1 ho; exact ⟨_, rfl, rfl⟩) 1
  | all => exact piece_rlocked (by intro o ho; cases List.mem_singleton.1 ho; exact ⟨_, rfl, rfl⟩) 1
  | log => exact piece_locked (by intro o ho; cases List.mem_singleton.1 ho; exact ⟨_, _, rfl, rfl⟩) 1

/-- Locks of the calls that are made within others. -/
def Inner (l : Nat) : Prop := l = book ∨ l = log

/-- It does not touch them. -/
def Outer (o : Op) : Prop :=
  match o with
  | .acq l | .racq l | .rel l => ¬ Inner l
  | .use _ _ => True

theorem guarded_woven {p t : List Op} (hw : Woven p t) : ∀ h : List (Nat × Bool), (∀ x ∈ h, ¬ Inner x.1) → (∀ o ∈ p, Outer o) →
    guarded h p = true → guarded h t = true := by
  induction hw with
  | nil => intros; rfl
  | op o _ ih =>
    intro h hh ho hg
    have ho' := fun x hx => ho x (List.mem_cons_of_mem _ hx)
    have h0 : Outer o := ho o (List.mem_cons_self ..)
    cases o with
    | acq l =>
      refine ih _ (fun x hx => ?_) ho' hg
      rcases List.mem_cons.1 hx with rfl | hx
      · exact h0
      · exact hh x hx
    | racq l =>
      refine ih _ (fun x hx => ?_) ho' hg
      rcases List.mem_cons.1 hx with rfl | hx
      · exact h0
      · exact hh x hx
    | rel l => exact ih _ (fun x hx => hh x (List.mem_filter.1 hx).1) ho' hg
    | use m w =>
      simp only [guarded, Bool.and_eq_true] at hg ⊢
      exact ⟨hg.1, ih h hh ho' hg.2⟩
  | leaf l _ ih =>
    intro h hh ho hg
    have hl : Inner l.lock := by cases l <;> simp [Leaf.lock, Inner]
    have hp := piece_leaf l h fun x hx e => hh x hx (e ▸ hl)
    rw [guarded_append, hp.1, hp.2, Bool.true_and]
    exact ih h hh ho hg

theorem outer_locked {l : Nat} (hl : ¬ Inner l) {us : List Op} (hu : ∀ o ∈ us, ∃ m w, o = .use m w) (k : Nat) :
    ∀ o ∈ locked l us k, Outer o := by
  intro o ho
  unfold locked at ho
  rw [List.cons_append] at ho
  rcases List.mem_cons.1 ho with rfl | ho
  · exact hl
  · rcases List.mem_append.1 ho with ho | ho
    · obtain ⟨m, w, rfl⟩ := hu o (List.mem_of_mem_take ho)
      trivial
    · cases List.mem_singleton.1 ho
      exact hl

theorem outer_rlocked {l : Nat} (hl : ¬ Inner l) {us : List Op} (hu : ∀ o ∈ us, ∃ m w, o = .use m w) (k : Nat) :
    ∀ o ∈ rlocked l us k, Outer o := by
  intro o ho
  unfold rlocked at ho
  rw [List.cons_append] at ho
  rcases List.mem_cons.1 ho with rfl | ho
  · exact hl
  · rcases List.mem_append.1 ho with ho | ho
    · obtain ⟨m, w, rfl⟩ := hu o (List.mem_of_mem_take ho)
      trivial
    · cases List.mem_singleton.1 ho
      exact hl

theorem outer_append {p q : List Op} (hp : ∀ o ∈ p, Outer o) (hq : ∀ o ∈ q, Outer o) : ∀ o ∈ p ++ q, Outer o := fun o ho =>
  (List.mem_append.1 ho).elim (hp o) (hq o)

theorem outer_call (c : Call) : ∀ o ∈ c.ops, Outer o := by
  have h1 : ∀ {us : List Op} {k : Nat}, (∀ o ∈ us, ∃ m w, o = .use m w) → ∀ o ∈ locked zkc us k, Outer o :=
    fun h => outer_locked (by unfold Inner; decide) h _
  have h2 : ∀ {us : List Op} {k : Nat}, (∀ o ∈ us, ∃ m w, o = .use m w) → ∀ o ∈ rlocked zkc us k, Outer o :=
    fun h => outer_rlocked (by unfold Inner; decide) h _
  cases c with
  | gcNew k =>
    refine outer_append (h1 (by simp)) ?_
    split
    · intro o ho; cases ho
    · exact h1 (by simp [gcSaveDisk'])
  | gcInvite k => exact h2 (by simp)
  | gcJoin k => exact h1 (by simp [gcSaveDisk'])
  | gcKick k => exact h1 (by simp)
  | kicked k => exact h1 (by simp [gcSaveDisk'])
  | gcPartForce k => exact h1 (by simp [deleteGroup'])
  | gcPart k => exact h2 (by simp)
  | gcKill k => exact h1 (by simp [deleteGroup'])
  | gcMessage k => exact outer_append (h2 (by simp)) (h2 (by simp))
  | handleGroupJoin k => exact h1 (by simp [gcSaveDisk', addIdGroupchat'])
  | handleGroupPart k => exact h1 (by simp [gcSaveDisk'])
  | handleGroupKick me k => exact h1 (by cases me <;> simp [deleteGroup', updateGroupList', gcSaveDisk'])
  | handleGroupKill k => exact h1 (by simp [deleteGroup'])
  | handleGroupList k k' =>
    exact outer_append (outer_append (h2 (by simp)) (h2 (by simp))) (h1 (by simp [updateGroupList', gcSaveDisk']))
  | handleGroupMessage k => exact outer_append (h1 (by simp)) (h2 (by simp))
  | listGroupchat k => exact h2 (by simp)
  | handleDisabledUser n => exact h1 (by simp [List.mem_replicate])
  | loadGroupchat k => exact h1 (by simp)
  | found => exact outer_locked (by unfold Inner; decide) (by simp) _
  | find k => exact outer_locked (by unfold Inner; decide) (by simp) _
  | knock k => exact outer_locked (by unfold Inner; decide) (by simp) _
  | begins => exact outer_locked (by unfold Inner; decide) (by simp) _
  | ends => exact outer_locked (by unfold Inner; decide) (by simp) _
  | disable => exact outer_locked (by unfold Inner; decide) (by simp) _
  | deliver k => exact outer_locked (by unfold Inner; decide) (by simp) _
  | delete k => exact outer_locked (by unfold Inner; decide) (by simp) _
  | offline k => exact outer_locked (by unfold Inner; decide) (by simp) _
  | login k => exact outer_locked (by unfold Inner; decide) (by simp) _
  | scan k => exact outer_append (outer_locked (by unfold Inner; decide) (by simp) _) (outer_locked (by unfold Inner; decide) (by simp) _)

theorem guarded_goroutine {t : List Op} (h : Goroutine t) : guarded [] t = true := by
  obtain ⟨cs, hw⟩ := h
  refine guarded_woven hw [] (by simp) (fun o ho => ?_) ?_
  · obtain ⟨c, _, hc⟩ := List.mem_flatMap.1 ho
    exact outer_call c o hc
  · clear hw
    have : guarded [] (cs.flatMap Call.ops) = true ∧ heldAfter [] (cs.flatMap Call.ops) = [] := by
      induction cs with
      | nil => exact ⟨rfl, rfl⟩
      | cons c cs ih =>
        have hp := piece_call c [] (by simp)
        rw [List.flatMap_cons, guarded_append, heldAfter_append, hp.1, hp.2]
        exact ⟨by rw [ih.1]; rfl, ih.2⟩
    exact this.1

/-! ## The invariant -/

structure Inv (s : State) : Prop where
  guarded : ∀ (i : Nat) t, s[i]? = some t → guarded t.held t.prog = true
  inside : ∀ (i : Nat) t m w, s[i]? = some t → t.inside = some (m, w) → ∃ r, t.prog = .use m w :: r
  alone : ∀ (i j : Nat) t u l w, i ≠ j → s[i]? = some t → s[j]? = some u → (l, true) ∈ t.held → (l, w) ∉ u.held

theorem inv_start {gs : List (List Op)} (h : ∀ g ∈ gs, guarded [] g = true) : Inv (start gs) := by
  have key : ∀ (i : Nat) (t : Thread), (start gs)[i]? = some t → t.held = [] ∧ t.inside = none ∧ t.prog ∈ gs := by
    intro i t ht
    simp only [start, List.getElem?_map, Option.map_eq_some_iff] at ht
    obtain ⟨g, hg, rfl⟩ := ht
    exact ⟨rfl, rfl, List.mem_of_getElem? hg⟩
  refine ⟨fun i t ht => ?_, fun i t m w ht hi => ?_, fun i j t u l w _ ht hu hm => ?_⟩
  · rw [(key i t ht).1]; exact h _ (key i t ht).2.2
  · rw [(key i t ht).2.1] at hi; cases hi
  · rw [(key i t ht).1] at hm; cases hm

theorem free_spec {s : State} {l : Nat} (h : free s l = true) {j : Nat} {u : Thread} (hu : s[j]? = some u) (w : Bool) :
    (l, w) ∉ u.held := by
  intro hm
  have h1 := List.all_eq_true.1 h u (List.mem_of_getElem? hu)
  have h2 := List.all_eq_true.1 h1 _ hm
  simp at h2

theorem readable_spec {s : State} {l : Nat} (h : readable s l = true) {j : Nat} {u : Thread} (hu : s[j]? = some u) :
    (l, true) ∉ u.held := by
  intro hm
  have h1 := List.all_eq_true.1 h u (List.mem_of_getElem? hu)
  have h2 := List.all_eq_true.1 h1 _ hm
  simp at h2

theorem inv_step {s s' : State} {i : Nat} (hi : Inv s) (h : step s i = some s') : Inv s' := by
  unfold step at h
  cases ht : s[i]? with
  | none => rw [ht] at h; cases h
  | some t =>
    rw [ht] at h
    simp only [Option.map_eq_some_iff] at h
    obtain ⟨t', ha, rfl⟩ := h
    have hlt : i < s.length := by
      rcases Nat.lt_or_ge i s.length with h | h
      · exact h
      · rw [List.getElem?_eq_none h] at ht; cases ht
    have hget : ∀ j, (s.set i t')[j]? = if i = j then some t' else s[j]? := by
      intro j
      rw [List.getElem?_set]
      by_cases e : i = j
      · subst e; simp [hlt]
      · simp [e]
    have hg := hi.guarded i t ht
    have hin := hi.inside i t
    -- what the step of `t` keeps
    have key : guarded t'.held t'.prog = true ∧ (∀ m w, t'.inside = some (m, w) → ∃ r, t'.prog = .use m w :: r) ∧
        (∀ j u, i ≠ j → s[j]? = some u → (∀ l w, (l, true) ∈ t'.held → (l, w) ∉ u.held) ∧
          ∀ l w, (l, true) ∈ u.held → (l, w) ∉ t'.held) := by
      have old : ∀ j u, i ≠ j → s[j]? = some u → (∀ l w, (l, true) ∈ t.held → (l, w) ∉ u.held) ∧
          ∀ l w, (l, true) ∈ u.held → (l, w) ∉ t.held := fun j u hij hu =>
        ⟨fun l w => hi.alone i j t u l w hij ht hu, fun l w => hi.alone j i u t l w (Ne.symm hij) hu ht⟩
      unfold act at ha
      split at ha
      · cases ha
      · next l r e =>
        split at ha
        · next hf =>
          cases ha
          rw [e] at hg
          refine ⟨hg, fun m w hm => ?_, fun j u hij hu => ⟨fun l' w hm hm' => ?_, fun l' w hm hm' => ?_⟩⟩
          · obtain ⟨r', e'⟩ := hin m w ht hm
            rw [e] at e'; cases e'
          · rcases List.mem_cons.1 hm with x | hm
            · cases x; exact free_spec hf hu w hm'
            · exact (old j u hij hu).1 l' w hm hm'
          · rcases List.mem_cons.1 hm' with x | hm'
            · cases x; exact free_spec hf hu _ hm
            · exact (old j u hij hu).2 l' w hm hm'
        · cases ha
      · next l r e =>
        split at ha
        · next hf =>
          cases ha
          rw [e] at hg
          refine ⟨hg, fun m w hm => ?_, fun j u hij hu => ⟨fun l' w hm hm' => ?_, fun l' w hm hm' => ?_⟩⟩
          · obtain ⟨r', e'⟩ := hin m w ht hm
            rw [e] at e'; cases e'
          · rcases List.mem_cons.1 hm with x | hm
            · cases x
            · exact (old j u hij hu).1 l' w hm hm'
          · rcases List.mem_cons.1 hm' with x | hm'
            · cases x; exact readable_spec hf hu hm
            · exact (old j u hij hu).2 l' w hm hm'
        · cases ha
      · next l r e =>
        cases ha
        rw [e] at hg
        refine ⟨hg, fun m w hm => ?_, fun j u hij hu => ⟨fun l' w hm hm' => ?_, fun l' w hm hm' => ?_⟩⟩
        · obtain ⟨r', e'⟩ := hin m w ht hm
          rw [e] at e'; cases e'
        · exact (old j u hij hu).1 l' w (List.mem_filter.1 hm).1 hm'
        · exact (old j u hij hu).2 l' w hm (List.mem_filter.1 hm').1
      · next m w r e =>
        split at ha
        · cases ha
          refine ⟨hg, fun m' w' hm => ?_, old⟩
          cases hm
          exact ⟨r, e⟩
        · cases ha
          rw [e] at hg
          simp only [Verif.Maps.guarded, Bool.and_eq_true] at hg
          exact ⟨hg.2, (fun m' w' hm => by cases hm), old⟩
    refine ⟨fun j u hu => ?_, fun j u m w hu hm => ?_, fun j k u v l w hjk hu hv hm => ?_⟩
    · rw [hget] at hu
      split at hu
      · cases hu; exact key.1
      · exact hi.guarded j u hu
    · rw [hget] at hu
      split at hu
      · cases hu; exact key.2.1 m w hm
      · exact hi.inside j u m w hu hm
    · rw [hget] at hu hv
      split at hu
      · next e =>
        subst e
        rw [if_neg hjk] at hv
        cases hu
        exact (key.2.2 k v hjk hv).1 l w hm
      · next e =>
        split at hv
        · next e' =>
          subst e'
          cases hv
          exact (key.2.2 j u e hu).2 l w hm
        · exact hi.alone j k u v l w hjk hu hv hm

theorem inv_safe {s : State} (h : Inv s) : ¬ Fatal s := by
  rintro ⟨i, j, t, u, m, w, w', hij, ht, hu, h1, h2, hw⟩
  obtain ⟨r, e⟩ := h.inside i t m w ht h1
  obtain ⟨r', e'⟩ := h.inside j u m w' hu h2
  have g1 := h.guarded i t ht
  have g2 := h.guarded j u hu
  rw [e] at g1
  rw [e'] at g2
  simp only [guarded, Bool.and_eq_true, allows, Bool.or_eq_true, List.contains_iff_mem] at g1 g2
  rcases g1.1 with a | ⟨a1, a2⟩
  · rcases g2.1 with b | ⟨b1, b2⟩
    · exact h.alone i j t u _ _ hij ht hu a b
    · exact h.alone i j t u _ _ hij ht hu a b2
  · rcases g2.1 with b | ⟨b1, b2⟩
    · exact h.alone j i u t _ _ (Ne.symm hij) hu ht b a2
    · cases w
      · cases w'
        · cases hw
        · cases b1
      · cases a1

/-- **C152** Whatever the goroutines of client and server do, in any number and at any pace, none writes to a map that another
one uses. -/
theorem C152_maps {gs : List (List Op)} (hg : ∀ g ∈ gs, Goroutine g) {s : State} (h : Reach gs s) : ¬ Fatal s := by
  have : Inv s := by
    induction h with
    | start => exact inv_start fun g h => guarded_goroutine (hg g h)
    | step i _ hs ih => exact inv_step ih hs
  exact inv_safe this

/-- **C152** The locks are needed, and those for writing: if a command that makes a group did not take the lock, or took it for
reading, the program could end while the groups are listed. -/
theorem C152_needed : (∃ s, Reach [[rd groups, wr groups], (Call.listGroupchat 1).ops] s ∧ Fatal s) ∧
    ∃ s, Reach [rlocked zkc [rd groups, wr groups] 2, (Call.listGroupchat 1).ops] s ∧ Fatal s := by
  constructor
  · refine ⟨_, .step 1 (.step 1 (.step 0 (.step 0 (.step 0 .start rfl) rfl) rfl) rfl) rfl, 0, 1, _, _, 0, true, false, by decide, rfl,
      rfl, rfl, rfl, rfl⟩
  · refine ⟨_, .step 1 (.step 1 (.step 0 (.step 0 (.step 0 (.step 0 .start rfl) rfl) rfl) rfl) rfl) rfl, 0, 1, _, _, 0, true, false,
      by decide, rfl, rfl, rfl, rfl, rfl⟩

/-- Two readers may use a map at once: the statement is not that nothing happens at the same time. -/
example : ∃ s, Reach [(Call.listGroupchat 1).ops, (Call.gcInvite 1).ops] s ∧ (∀ t ∈ s, t.inside = some (groups, false)) :=
  ⟨_, .step 1 (.step 1 (.step 0 (.step 0 .start rfl) rfl) rfl) rfl, by decide⟩

/-- A goroutine that lists a group and looks a member up while it holds the lock. -/
example : Goroutine (.racq zkc :: rd groups :: (Leaf.findIdentity.ops ++ [.rel zkc])) :=
  ⟨[.listGroupchat 1], .op _ (.op _ (.leaf .findIdentity (.op _ .nil)))⟩

end Verif.Maps
