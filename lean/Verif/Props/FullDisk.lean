import Verif.Model.FullDisk
import Verif.Model.IniDB

/-! # C156: a full disk is noticed and destroys nothing -/

namespace Verif.FullDisk

variable {α : Type}

namespace Spec

/-- What an event is about. -/
def obj : Ev α → Obj
  | .table t .. => .table t
  | .ratchet id half .. => .ratchet id half
  | .group n .. => .group n
  | .identity id .. => .identity id
  | .message n .. => .message n
  | .log n .. => .log n

/-- What is meant to be written. -/
def wanted : Ev α → List α
  | .table _ _ parts .. => parts.flatten
  | .ratchet _ _ parts .. => parts.flatten
  | .group _ data .. => data
  | .identity _ data .. => data
  | .message _ data .. => data
  | .log _ line .. => line

/-- Tables and logs. -/
def unchecked : Ev α → Bool
  | .table .. => true
  | .log .. => true
  | _ => false

/-- What was last said to be saved. -/
def lastSaved (o : Obj) : Option (List α) → List (Ev α) → List Bool → Option (List α)
  | c, e :: es, b :: bs => lastSaved o (if obj e = o ∧ b = true then some (wanted e) else c) es bs
  | c, _, _ => c

/-- Nothing goes wrong: there is room for all of it, and files can be made and renamed. -/
def smooth (e : Ev α) : Bool :=
  match e with
  | .table _ _ parts room tmp aside ren => tmp && aside && ren && (room.zip parts).all fun q => decide (q.2.length ≤ q.1)
  | .ratchet _ _ parts room tmp ren => tmp && ren && (room.zip parts).all fun q => decide (q.2.length ≤ q.1)
  | .group _ data room opened => opened && decide (data.length ≤ room)
  | .identity _ data room opened => opened && decide (data.length ≤ room)
  | .message _ data room opened => opened && decide (data.length ≤ room)
  | .log _ line room opened => opened && decide (line.length ≤ room)

end Spec

theorem strict_ok (ps : List (List α)) (room : List Nat) (h : (strict ps room).2 = true) : (strict ps room).1 = ps.flatten := by
  induction ps generalizing room with
  | nil => rfl
  | cons p ps ih =>
    cases room with
    | nil => simp only [strict] at h ⊢; rw [ih _ h]; rfl
    | cons n ns =>
      simp only [strict] at h ⊢
      split at h
      · rename_i hn; rw [if_pos hn]; simp only at h ⊢; rw [ih _ h]; rfl
      · cases h

theorem strict_room (ps : List (List α)) (room : List Nat) (h : ((room.zip ps).all fun q => decide (q.2.length ≤ q.1)) = true) :
    (strict ps room).2 = true := by
  induction ps generalizing room with
  | nil => rfl
  | cons p ps ih =>
    cases room with
    | nil => exact ih [] rfl
    | cons n ns =>
      simp only [List.zip_cons_cons, List.all_cons, Bool.and_eq_true, decide_eq_true_eq] at h
      simp only [strict]; rw [if_pos h.1]; exact ih ns h.2

theorem loose_room (ps : List (List α)) (room : List Nat) (h : ((room.zip ps).all fun q => decide (q.2.length ≤ q.1)) = true) :
    loose ps room = ps.flatten := by
  induction ps generalizing room with
  | nil => rfl
  | cons p ps ih =>
    cases room with
    | nil => simp only [loose]; rw [ih [] rfl]; rfl
    | cons n ns =>
      simp only [List.zip_cons_cons, List.all_cons, Bool.and_eq_true, decide_eq_true_eq] at h
      simp only [loose]; rw [ih ns h.2, List.take_of_length_le h.1]; rfl

theorem writeFile_ok {d : Disk α} {o : Obj} {data : List α} {room : Nat} {opened : Bool}
    (h : (d.writeFile o data room opened).2 = true) : (d.writeFile o data room opened).1.file o = some data := by
  unfold Disk.writeFile at h ⊢
  split at h
  · rename_i ho
    rw [if_pos ho]
    simp only [decide_eq_true_eq] at h
    simp [Disk.put, List.take_of_length_le h]
  · cases h

theorem writeFile_apart {d : Disk α} {o o' : Obj} {data : List α} {room : Nat} {opened : Bool} (h : o' ≠ o) :
    (d.writeFile o data room opened).1.file o' = d.file o' ∧ (d.writeFile o data room opened).1.backups = d.backups := by
  unfold Disk.writeFile
  split
  · exact ⟨if_neg h, rfl⟩
  · exact ⟨rfl, rfl⟩

/-- **C156** Whatever fails, only that is touched which was to be written; of other tables the backups neither. -/
theorem C156_apart (d : Disk α) (e : Ev α) :
    (∀ o, o ≠ Spec.obj e → (step d e).1.file o = d.file o) ∧ ∀ t, .table t ≠ Spec.obj e → (step d e).1.backups t = d.backups t := by
  cases e with
  | table t created parts room tmp aside ren =>
    have nb : ∀ t', Obj.table t' ≠ .table t → ¬ t' = t := fun t' h h' => h (by rw [h'])
    refine ⟨fun o ho => ?_, fun t' ht => ?_⟩ <;> simp only [Spec.obj] at * <;> simp only [step] <;> repeat' split
    all_goals first
      | rfl
      | simp [Disk.put, Disk.backup, ho]
      | simp [Disk.put, Disk.backup, nb t' ht]
  | ratchet id half parts room tmp ren =>
    refine ⟨fun o ho => ?_, fun t' ht => ?_⟩ <;> simp only [Spec.obj] at * <;> simp only [step] <;> repeat' split
    all_goals first
      | rfl
      | simp [Disk.put, ho]
  | group n data room opened =>
    refine ⟨fun o ho => (writeFile_apart ho).1, fun t ht => ?_⟩
    exact congrFun (writeFile_apart (o' := .table t) ht).2 t
  | identity id data room opened =>
    refine ⟨fun o ho => ?_, fun t ht => ?_⟩ <;> simp only [step] <;> split
    · rfl
    · exact (writeFile_apart ho).1
    · rfl
    · exact congrFun (writeFile_apart (o' := .table t) ht).2 t
  | message n data room opened =>
    refine ⟨fun o ho => ?_, fun t ht => ?_⟩ <;> simp only [step] <;> split
    · rfl
    · exact (writeFile_apart ho).1
    · rfl
    · exact congrFun (writeFile_apart (o' := .table t) ht).2 t
  | log n line room opened =>
    refine ⟨fun o ho => ?_, fun t ht => ?_⟩ <;> simp only [Spec.obj] at * <;> simp only [step] <;> split
    all_goals first
      | rfl
      | simp [Disk.put, ho]

/-- **C156 partial**: of ratchets, groups, identities and messages, what is said to be saved is on the disk in full. Missing: tables,
see `C156_table_violated`, and logs, of which nothing is said. -/
theorem C156_reported_partial (d : Disk α) (e : Ev α) (hu : Spec.unchecked e = false) (h : (step d e).2 = true) :
    (step d e).1.file (Spec.obj e) = some (Spec.wanted e) := by
  cases e with
  | table => cases hu
  | log => cases hu
  | ratchet id half parts room tmp ren =>
    simp only [step] at h ⊢
    cases tmp with
    | false => simp at h
    | true =>
      cases hs : (strict parts room).2 with
      | false => simp [hs] at h
      | true =>
        cases ren with
        | false => simp [hs] at h
        | true => simp [Disk.put, Spec.obj, Spec.wanted, strict_ok _ _ hs]
  | group n data room opened => exact writeFile_ok h
  | identity id data room opened =>
    simp only [step] at h ⊢
    split at h
    · cases h
    · rename_i hc; rw [if_neg hc]; exact writeFile_ok h
  | message n data room opened =>
    simp only [step] at h ⊢
    split at h
    · cases h
    · rename_i hc; rw [if_neg hc]; exact writeFile_ok h

/-- A ratchet that could not be saved is as it was. -/
theorem ratchet_failed (d : Disk α) (e : Ev α) (id : Nat) (half : Bool) (he : Spec.obj e = .ratchet id half) (h : (step d e).2 = false) :
    (step d e).1.file (.ratchet id half) = d.file (.ratchet id half) := by
  cases e with
  | ratchet id' half' parts room tmp ren =>
    simp only [step] at h ⊢
    cases tmp with
    | false => rfl
    | true =>
      cases hs : (strict parts room).2 with
      | false => simp
      | true =>
        cases ren with
        | false => simp
        | true => simp [hs] at h
  | _ => cases he

/-- **C156** Through all that goes wrong, the ratchet on the disk is, in full, the last one that was said to be saved. -/
theorem C156_ratchet (d : Disk α) (evs : List (Ev α)) (id : Nat) (half : Bool) :
    (run d evs).file (.ratchet id half) = Spec.lastSaved (.ratchet id half) (d.file (.ratchet id half)) evs (reports d evs) := by
  induction evs generalizing d with
  | nil => rfl
  | cons e es ih =>
    show (run (step d e).1 es).file _ = _
    rw [ih]
    simp only [reports, Spec.lastSaved]
    congr 1
    by_cases ho : Spec.obj e = .ratchet id half
    · cases hr : (step d e).2 with
      | true =>
        rw [if_pos ⟨ho, rfl⟩, ← ho]
        exact C156_reported_partial d e (by cases e <;> first | rfl | cases ho) hr
      | false =>
        rw [if_neg (by simp)]
        exact ratchet_failed d e id half ho hr
    · rw [if_neg (fun h => ho h.1)]
      exact (C156_apart d e).1 _ (fun h => ho h.symm)

/-- What is among the newest backups moves by at most one place. -/
theorem backup_stays (d : Disk α) (e : Ev α) (t j : Nat) (old : List α) (h : (d.backups t)[j]? = some old) (hj : j + 1 < depth) :
    ∃ j', j' ≤ j + 1 ∧ ((step d e).1.backups t)[j']? = some old := by
  by_cases ho : Obj.table t = Spec.obj e
  · cases e with
    | table t' created parts room tmp aside ren =>
      cases ho
      have same : ∃ j', j' ≤ j + 1 ∧ (d.backups t)[j']? = some old := ⟨j, by omega, h⟩
      have more : ∀ x : List α, ∃ j', j' ≤ j + 1 ∧ (x :: d.backups t)[j']? = some old := fun x => ⟨j + 1, by omega, by simpa using h⟩
      have cut : ∀ x : List α, ∃ j', j' ≤ j + 1 ∧ ((x :: d.backups t).take depth)[j']? = some old :=
        fun x => ⟨j + 1, by omega, by rw [List.getElem?_take_of_lt hj]; simpa using h⟩
      simp only [step]
      repeat' split
      all_goals first
        | exact same
        | simpa [Disk.put, Disk.backup] using cut _
        | simpa [Disk.put, Disk.backup] using more _
    | _ => cases ho
  · exact ⟨j, by omega, by rw [(C156_apart d e).2 t ho]; exact h⟩

/-- **C156 partial**: what a table was before it is saved, by whoever opened it and did not create it, is still there afterwards,
whatever goes wrong: in its place or as a backup, and there while the table is saved nine more times. Missing: that it is in its
place if there was no room for the new one. -/
theorem C156_backup_partial (d : Disk α) (t : Nat) (parts : List (List α)) (room : List Nat) (tmp aside ren : Bool) (old : List α)
    (h : d.file (.table t) = some old) :
    (step d (.table t false parts room tmp aside ren)).1.file (.table t) = some old ∨
    ∀ evs : List (Ev α), (evs.filter fun e => decide (Spec.obj e = .table t)).length < 10 →
      old ∈ (run (step d (.table t false parts room tmp aside ren)).1 evs).backups t := by
  have later : ∀ (evs : List (Ev α)) (d : Disk α) (j : Nat), (d.backups t)[j]? = some old →
      j + (evs.filter fun e => decide (Spec.obj e = .table t)).length < depth → old ∈ (run d evs).backups t := by
    intro evs
    induction evs with
    | nil => intro d j hj _; exact List.mem_of_getElem? hj
    | cons e es ih =>
      intro d j hj hl
      by_cases ho : Spec.obj e = .table t
      · rw [List.filter_cons_of_pos (by simpa using ho), List.length_cons] at hl
        obtain ⟨j', hj', hb⟩ := backup_stays d e t j old hj (by omega)
        exact ih _ j' hb (by omega)
      · rw [List.filter_cons_of_neg (by simpa using ho)] at hl
        exact ih _ j (by rw [(C156_apart d e).2 t (fun h => ho h.symm)]; exact hj) hl
  cases tmp with
  | false => exact .inl h
  | true =>
    cases aside with
    | false => left; simp [step, h]
    | true =>
      right
      intro evs hl
      refine later evs _ 0 ?_ (by simpa [depth] using hl)
      cases ren <;> simp [step, h, Disk.put, Disk.backup, depth]

/-- **C156** What is in a log or in the history stays there, whatever goes wrong. -/
theorem C156_log (d : Disk α) (evs : List (Ev α)) (n : Nat) (old : List α) (h : d.file (.log n) = some old) :
    ∃ more, (run d evs).file (.log n) = some (old ++ more) := by
  induction evs generalizing d old with
  | nil => exact ⟨[], by simpa [run] using h⟩
  | cons e es ih =>
    have one : ∃ more, (step d e).1.file (.log n) = some (old ++ more) := by
      by_cases ho : Obj.log n = Spec.obj e
      · cases e with
        | log n' line room opened =>
          cases ho
          cases opened with
          | false => exact ⟨[], by simpa [step] using h⟩
          | true => exact ⟨line.take room, by simp [step, Disk.put, h]⟩
        | _ => cases ho
      · exact ⟨[], by rw [(C156_apart d e).1 _ ho]; simpa using h⟩
    obtain ⟨m, hm⟩ := one
    obtain ⟨m', hm'⟩ := ih _ _ hm
    exact ⟨m ++ m', by rw [← List.append_assoc]; exact hm'⟩

/-- **C156** After a failure one can go on: once there is room again, a save succeeds and stores all of it, whatever the failure left
behind. Of tables this needs one that is there or that is created; of messages and identities, that they may be written. -/
theorem C156_again (d : Disk α) (e : Ev α) (hs : Spec.smooth e = true) :
    match e with
    | .table t created .. =>
      (created = true ∨ (d.file (.table t)).isSome = true) → (step d e).2 = true ∧ (step d e).1.file (.table t) = some (Spec.wanted e)
    | .ratchet id half .. => (step d e).2 = true ∧ (step d e).1.file (.ratchet id half) = some (Spec.wanted e)
    | .group n .. => (step d e).2 = true ∧ (step d e).1.file (.group n) = some (Spec.wanted e)
    | .identity id .. =>
      (d.file (.ratchet id false) = none ∧ d.file (.ratchet id true) = none ∨ d.file (.identity id) = none) →
        (step d e).2 = true ∧ (step d e).1.file (.identity id) = some (Spec.wanted e)
    | .message n .. => d.file (.message n) = none → (step d e).2 = true ∧ (step d e).1.file (.message n) = some (Spec.wanted e)
    | .log n .. => (step d e).1.file (.log n) = some ((d.file (.log n)).getD [] ++ Spec.wanted e) := by
  cases e with
  | table t created parts room tmp aside ren =>
    simp only [Spec.smooth, Bool.and_eq_true] at hs
    obtain ⟨⟨⟨rfl, rfl⟩, rfl⟩, hr⟩ := hs
    intro hc
    cases created with
    | true => simp [step, Disk.put, Spec.wanted, loose_room _ _ hr]
    | false =>
      cases hf : d.file (.table t) with
      | none => simp [hf] at hc
      | some old => simp [step, hf, Disk.put, Spec.wanted, loose_room _ _ hr]
  | ratchet id half parts room tmp ren =>
    simp only [Spec.smooth, Bool.and_eq_true] at hs
    obtain ⟨⟨rfl, rfl⟩, hr⟩ := hs
    have := strict_room _ _ hr
    simp [step, this, Disk.put, Spec.wanted, strict_ok _ _ this]
  | group n data room opened =>
    simp only [Spec.smooth, Bool.and_eq_true, decide_eq_true_eq] at hs
    obtain ⟨rfl, hr⟩ := hs
    simp [step, Disk.writeFile, Disk.put, Spec.wanted, List.take_of_length_le hr, hr]
  | identity id data room opened =>
    simp only [Spec.smooth, Bool.and_eq_true, decide_eq_true_eq] at hs
    obtain ⟨rfl, hr⟩ := hs
    rintro (⟨h1, h2⟩ | h) <;> simp [step, Disk.writeFile, Disk.put, Spec.wanted, List.take_of_length_le hr, *]
  | message n data room opened =>
    simp only [Spec.smooth, Bool.and_eq_true, decide_eq_true_eq] at hs
    obtain ⟨rfl, hr⟩ := hs
    intro h
    simp [step, Disk.writeFile, Disk.put, Spec.wanted, List.take_of_length_le hr, hr, h]
  | log n line room opened =>
    simp only [Spec.smooth, Bool.and_eq_true, decide_eq_true_eq] at hs
    obtain ⟨rfl, hr⟩ := hs
    simp [step, Disk.put, Spec.wanted, List.take_of_length_le hr]

/-! ## Where the code does not do this -/

/-- The writes of `INIDB.Save`, inidb/inidb.go:109-119, one after the other; those of one section are taken together. -/
def iniParts (order : List (IniDB.Str × List (IniDB.Str × IniDB.Str))) : List IniDB.Str :=
  (IniDB.auto ++ ['\n']) :: order.map IniDB.tableText

/-- Together they are the file of C27. -/
theorem iniParts_text (order : List (IniDB.Str × List (IniDB.Str × IniDB.Str))) : (iniParts order).flatten = IniDB.text order := by
  simp [iniParts, IniDB.text, List.flatMap]

/-- **C156 violated**: with room for the first line only, whatever the table holds is replaced by a table with nothing in it, which
can be read without an error, and success is reported. -/
theorem C156_table_violated (d : Disk Char) (t : Nat) (order : List (IniDB.Str × List (IniDB.Str × IniDB.Str))) (old : List Char)
    (h : d.file (.table t) = some old) :
    let r := step d (.table t false (iniParts order) (43 :: order.map fun _ => 0) true true true)
    r.2 = true ∧ r.1.file (.table t) = some (IniDB.auto ++ ['\n']) ∧ IniDB.parse (IniDB.auto ++ ['\n']) = some [] := by
  have z : ∀ l : List (IniDB.Str × List (IniDB.Str × IniDB.Str)), loose (l.map IniDB.tableText) (l.map fun _ => 0) = [] := by
    intro l
    induction l with
    | nil => rfl
    | cons x l ih => simp only [List.map_cons, loose, ih]; rfl
  refine ⟨by simp [step, h], ?_, by decide +kernel⟩
  have : loose (iniParts order) (43 :: order.map fun _ => 0) = IniDB.auto ++ ['\n'] := by
    simp only [iniParts, loose, z]; decide +kernel
  simp [step, h, Disk.put, this]

/-- **C156 violated**: who has created a table makes no backups of it, so that what they saved before is lost if there is no room the
next time, though success is reported. -/
theorem C156_created_violated (d : Disk α) (t : Nat) (ps qs : List (List α)) (h : d.backups t = []) :
    let r := step (step d (.table t true ps [] true true true)).1 (.table t true qs (qs.map fun _ => 0) true true true)
    r.2 = true ∧ r.1.file (.table t) = some [] ∧ r.1.backups t = [] := by
  have z : ∀ l : List (List α), loose l (l.map fun _ => 0) = [] := by
    intro l
    induction l with
    | nil => rfl
    | cons x l ih => simp only [List.map_cons, loose, ih]; rfl
  simp [step, Disk.put, h, z]

/-- **C156 violated**: a group that cannot be written is neither what it was nor what it should be; it is reported, but what was
there is lost. -/
theorem C156_group_violated (d : Disk α) (n : Nat) (data : List α) (room : Nat) (h : room < data.length) :
    (step d (.group n data room true)).2 = false ∧ (step d (.group n data room true)).1.file (.group n) = some (data.take room) := by
  simp [step, Disk.writeFile, Disk.put]; omega

/-- A message of which a part was written has the name that a retry would need only within the same nanosecond; the part stays. -/
example (d : Disk α) (n : Nat) (data : List α) (room : Nat) (h : room < data.length) (hn : d.file (.message n) = none) :
    (step d (.message n data room true)).2 = false ∧ (step d (.message n data room true)).1.file (.message n) = some (data.take room) := by
  simp [step, Disk.writeFile, Disk.put, hn]; omega

/-- A ratchet is saved, then not, then there is room again. -/
example :
    let d : Disk Nat := ⟨fun _ => none, fun _ => []⟩
    let evs : List (Ev Nat) := [.ratchet 1 false [[1, 2], [3]] [] true true, .ratchet 1 false [[4, 5], [6]] [2, 0] true true]
    reports d evs = [true, false] ∧ (run d evs).file (.ratchet 1 false) = some [1, 2, 3] ∧
    (run d (evs ++ [.ratchet 1 false [[7]] [1] true true])).file (.ratchet 1 false) = some [7] := by
  decide

/-- A table is saved without its end; the backup has what was there before. -/
example :
    let d : Disk Nat := ⟨fun _ => some [9], fun _ => []⟩
    let r := step d (.table 1 false [[1, 2], [3, 4]] [2, 1] true true true)
    r.2 = true ∧ r.1.file (.table 1) = some [1, 2, 3] ∧ r.1.backups 1 = [[9]] := by
  decide

end Verif.FullDisk
