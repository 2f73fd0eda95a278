import Verif.Model.GroupFiles
import Verif.Proofs.Path
import Verif.Proofs.Chunks
import Verif.Props.Xdr

/-! # C52 and C61: names of groups, and groups after a restart -/

namespace Verif.GroupFiles

open Verif Verif.Path Verif.Groups

/-! ## C52 -/

theorem noSlash {name : Bytes} (h : validName name = true) : (47 : UInt8) ∉ name := by
  intro hm
  have := List.all_eq_true.mp h 47 hm
  revert this
  decide

theorem plain {name : Bytes} (h : validName name = true) (hn : Normal name) : Chunks.Plain name := ⟨noSlash h, hn⟩

/-- **C52** (partial: the empty name, "." and ".." are accepted too, see `C52_directory_violated`) The file of an
accepted name is directly inside the directory of the groups, and different names have different files. -/
theorem C52_file_partial {name : Bytes} (h : validName name = true) (hn : Normal name) (base : Path) :
    join base name = base ++ [name] ∧
    ∀ other, validName other = true → Normal other → join base other = join base name → other = name := by
  refine ⟨Chunks.join_plain (plain h hn) base, fun other h1 h2 h3 => ?_⟩
  rw [Chunks.join_plain (plain h hn), Chunks.join_plain (plain h1 h2)] at h3
  exact List.cons.inj (List.append_cancel_left h3) |>.1

/-- A letter or a digit of ASCII, or one of `_-@.` -/
def Listed (c : UInt8) : Prop :=
  97 ≤ c ∧ c ≤ 122 ∨ 65 ≤ c ∧ c ≤ 90 ∨ 48 ≤ c ∧ c ≤ 57 ∨ c = 95 ∨ c = 45 ∨ c = 64 ∨ c = 46

instance (c : UInt8) : Decidable (Listed c) := by unfold Listed; infer_instance

theorem letters_iff : ∀ c : UInt8, validLetters.contains c = true ↔ Listed c ∧ c ≠ 120 ∧ c ≠ 88 := by
  have key : ∀ n : Fin 256, validLetters.contains (UInt8.ofFin n) = true ↔
      Listed (UInt8.ofFin n) ∧ UInt8.ofFin n ≠ 120 ∧ UInt8.ofFin n ≠ 88 := by decide +kernel
  intro c
  exact key c.toFin

/-- **C52** (partial: the letters `x` and `X` are missing, see `C52_letter_violated`) A name is accepted exactly if
it consists of letters other than `x` and `X`, digits, and `_-@.` -/
theorem C52_accepted_partial (name : Bytes) :
    validName name = true ↔ ∀ c ∈ name, Listed c ∧ c ≠ 120 ∧ c ≠ 88 := by
  unfold validName
  rw [List.all_eq_true]
  exact forall₂_congr fun c _ => letters_iff c

/-- A name that is accepted: "zk-1". -/
example : validName [122, 107, 45, 49] = true := by decide

/-- **C52, negation.** A name of letters that is not accepted: "x". -/
theorem C52_letter_violated : ∃ name : Bytes, (∀ c ∈ name, Listed c) ∧ validName name = false :=
  ⟨[120], by decide, by decide⟩

/-- The directory of the groups. -/
def dir : Path := [[103]]

/-- A group with no members. -/
def emptyGroup (name : Bytes) : Group := (name, 0, 0, [])

/-- **C52, negation.** The name "." is accepted and denotes the directory itself. If the user accepts an invitation
to such a group and the group is then killed, the directory of the groups is removed if there is no other group;
after that no group can be saved. -/
theorem C52_directory_violated : ∃ name : Bytes, validName name = true ∧ join dir name = dir ∧
    let s := (apply dir (apply dir ⟨[], [(dir, .dir)]⟩ (.change name (emptyGroup name))) (.delete name))
    exist s.fs dir = false ∧ ∀ n g, Normal n → (apply dir s (.new n g)).fs = s.fs := by
  refine ⟨[46], by decide, by decide, by decide, fun n g hn => ?_⟩
  have hs : (apply dir (apply dir ⟨[], [(dir, .dir)]⟩ (.change [46] (emptyGroup [46]))) (.delete [46])) =
      ⟨[], []⟩ := by rfl
  rw [hs]
  simp only [apply, gcNew]
  split
  · rfl
  split
  · rfl
  unfold saveDisk
  split
  next hv =>
    split
    · rfl
    next g' hg =>
      have hc : create [] (join dir n) (Xdr.enc Xdr.groupList g') = none := by
        unfold create
        rw [if_neg]
        rintro ⟨h1, h2, _⟩
        have hns := noSlash hv
        rw [Chunks.join_plain ⟨hns, hn⟩, List.dropLast_concat] at h2
        revert h2
        decide
      rw [hc]
  · rfl

/-- **C52** Whatever a group is called, ending it leaves the directory of the groups in place as long as there is
anything in it. So no name can take away what is saved of another group. -/
theorem C52_kept {base : Path} {s : State} {n : Bytes} (h0 : base ≠ [])
    (hb : isDir s.fs base = true) (hf : (s.fs.get (base ++ [n])).isSome) (name : Bytes) (hn : join base name ≠ base ++ [n]) :
    isDir (apply base s (.delete name)).fs base = true ∧
    (apply base s (.delete name)).fs.get (base ++ [n]) = s.fs.get (base ++ [n]) := by
  simp only [apply, deleteGroup]
  split
  next =>
    have key : remove s.fs (join base name) = none ∨
        (remove s.fs (join base name) = some (s.fs.del (join base name)) ∧ join base name ≠ base) := by
      unfold remove
      by_cases he : join base name = base
      · left
        rw [he]
        have hd : s.fs.get base = some .dir := by
          unfold Path.isDir at hb
          simpa [h0] using hb
        rw [hd]
        dsimp only
        rw [if_pos]
        obtain ⟨v, hv⟩ := Option.isSome_iff_exists.mp hf
        exact List.any_eq_true.mpr ⟨_, GoMap.mem_of_get hv, by simp⟩
      · cases s.fs.get (join base name) with
        | none => exact .inl rfl
        | some x =>
          cases x with
          | file b => exact .inr ⟨rfl, he⟩
          | dir =>
            dsimp only
            split
            · exact .inl rfl
            · exact .inr ⟨rfl, he⟩
    rcases key with h | ⟨h, he⟩
    · rw [h]; exact ⟨hb, rfl⟩
    · rw [h]
      refine ⟨?_, GoMap.get_del_ne _ hn⟩
      unfold Path.isDir at hb ⊢
      rw [Option.getD_some, GoMap.get_del_ne _ he]
      exact hb
  · exact ⟨hb, rfl⟩

/-- With another group saved, the end of the group "." leaves it and the directory. -/
example : let s : State := ⟨[([97], emptyGroup [97])], [(dir, .dir), (dir ++ [[97]], .file [1])]⟩
    join dir [46] = dir ∧ (apply dir s (.delete [46])).fs = s.fs := by
  decide

/-! ## C61 -/

/-- The names of the operations are not the empty one, "." or ".."; the list is that of the group; it exists in
Go. -/
def Fine : Op → Prop
  | .new name g | .change name g => Normal name ∧ nameOf g = name ∧ Xdr.Fits 0 Xdr.groupList g
  | .delete name => Normal name

/-- A listing of a directory, in any order. -/
def Listing (fs : FS) (base : Path) (names : List Bytes) : Prop :=
  names.Nodup ∧ ∀ n, n ∈ names ↔ (fs.get (base ++ [n])).isSome

/-- The disk has what the memory has. -/
structure Inv (base : Path) (s : State) : Prop where
  isDir : isDir s.fs base = true
  file : ∀ n, s.fs.get (base ++ [n]) =
    if validName n then (s.groups.get n).map fun g => .file (Xdr.enc Xdr.groupList g) else none
  name : ∀ n g, s.groups.get n = some g → Normal n ∧ nameOf g = n ∧ Xdr.Fits 0 Xdr.groupList g

theorem isDir_set {fs : FS} {base : Path} (h : isDir fs base = true) (n : Bytes) (x : Node) :
    Path.isDir (fs.set (base ++ [n]) x) base = true := by
  unfold Path.isDir at h ⊢
  rw [GoMap.get_set_ne _ _ (by simp)]
  exact h

theorem isDir_del {fs : FS} {base : Path} (h : isDir fs base = true) (n : Bytes) :
    Path.isDir (fs.del (base ++ [n])) base = true := by
  unfold Path.isDir at h ⊢
  rw [GoMap.get_del_ne _ (by simp)]
  exact h

theorem inv_change {base : Path} {s : State} (h : Inv base s) {name : Bytes} {g : Group} (hn : Normal name)
    (hg : nameOf g = name) (hf : Xdr.Fits 0 Xdr.groupList g) : Inv base (change base s name g) := by
  unfold change saveDisk
  have hname : ∀ n g', (s.groups.set name g).get n = some g' →
      Normal n ∧ nameOf g' = n ∧ Xdr.Fits 0 Xdr.groupList g' := by
    intro n g' h1
    rw [GoMap.get_set] at h1
    split at h1
    next he => cases h1; subst he; exact ⟨hn, hg, hf⟩
    · exact h.name n g' h1
  split
  next hv =>
    rw [GoMap.get_set_self]
    dsimp only
    rw [Chunks.join_plain (plain hv hn)]
    have hc : create s.fs (base ++ [name]) (Xdr.enc Xdr.groupList g) =
        some (s.fs.set (base ++ [name]) (.file (Xdr.enc Xdr.groupList g))) := by
      unfold create
      rw [if_pos]
      refine ⟨by simp, by rw [List.dropLast_concat]; exact h.isDir, ?_⟩
      rw [h.file name, if_pos hv]
      cases s.groups.get name <;> simp
    rw [hc]
    refine ⟨isDir_set h.isDir _ _, fun n => ?_, hname⟩
    dsimp only
    rw [GoMap.get_set, GoMap.get_set]
    by_cases he : name = n
    · subst he
      rw [if_pos rfl, if_pos hv, if_pos rfl]
      rfl
    · rw [if_neg he, if_neg (by simpa using he)]
      exact h.file n
  next hv =>
    refine ⟨h.isDir, fun n => ?_, hname⟩
    dsimp only
    rw [GoMap.get_set]
    by_cases he : name = n
    · subst he
      rw [h.file name, if_neg hv, if_neg hv]
    · rw [if_neg he]
      exact h.file n

theorem inv_apply {base : Path} {s : State} (h : Inv base s) {o : Op} (ho : Fine o) : Inv base (apply base s o) := by
  cases o with
  | change name g => exact inv_change h ho.1 ho.2.1 ho.2.2
  | new name g =>
    simp only [apply, gcNew]
    split
    · exact h
    split
    · exact h
    exact inv_change h ho.1 ho.2.1 ho.2.2
  | delete name =>
    simp only [apply, deleteGroup]
    split
    next hv =>
      rw [Chunks.join_plain (plain hv ho)]
      have hfs : ∃ fs, (remove s.fs (base ++ [name])).getD s.fs = fs ∧ Path.isDir fs base = true ∧
          ∀ n, fs.get (base ++ [n]) = if name = n then none else s.fs.get (base ++ [n]) := by
        refine ⟨_, rfl, ?_⟩
        unfold remove
        rw [h.file name, if_pos hv]
        cases hgn : s.groups.get name with
        | none =>
          refine ⟨h.isDir, fun n => ?_⟩
          by_cases he : name = n
          · subst he
            rw [if_pos rfl]
            dsimp only [Option.map, Option.getD]
            rw [h.file name, if_pos hv, hgn]
            rfl
          · rw [if_neg he]
            rfl
        | some g =>
          refine ⟨isDir_del h.isDir _, fun n => ?_⟩
          dsimp only [Option.map, Option.getD]
          rw [GoMap.get_del]
          by_cases he : name = n
          · subst he; simp
          · rw [if_neg he, if_neg (by simpa using he)]
      obtain ⟨fs, he, hd, hget⟩ := hfs
      rw [he]
      refine ⟨hd, fun n => ?_, fun n g h1 => ?_⟩
      · dsimp only
        rw [hget, GoMap.get_del]
        by_cases he : name = n
        · subst he
          simp
        · rw [if_neg he, if_neg he]
          exact h.file n
      · dsimp only at h1
        rw [GoMap.get_del] at h1
        split at h1
        · cases h1
        · exact h.name n g h1
    · exact h

theorem load_get {base : Path} {s : State} (h : Inv base s) (l : List Bytes)
    (hl : ∀ n ∈ l, (s.fs.get (base ++ [n])).isSome) (hnd : l.Nodup) :
    ∀ n, (load s.fs base l).get n = if n ∈ l then s.groups.get n else none := by
  suffices key : ∀ (l : List Bytes) (m : GoMap Bytes Group), (∀ n ∈ l, (s.fs.get (base ++ [n])).isSome) → l.Nodup →
      (∀ n ∈ l, m.get n = none) → ∀ n, (l.foldl (fun m n =>
        match Path.read s.fs (join base n) with
        | none => m
        | some data =>
          match Xdr.dec 0 Xdr.groupList data with
          | .ok g _ => if (m.get (nameOf g)).isSome then m else m.set (nameOf g) g
          | _ => m) m).get n = if n ∈ l then s.groups.get n else m.get n from
    key l [] hl hnd (fun _ _ => rfl)
  clear hl hnd l
  intro l
  induction l with
  | nil => intro m _ _ _ n; rfl
  | cons a l ih =>
    intro m h1 h2 h3 n
    have ha := h1 a List.mem_cons_self
    rw [h.file a] at ha
    split at ha
    next hv =>
      cases hga : s.groups.get a with
      | none => rw [hga] at ha; cases ha
      | some g =>
        obtain ⟨hn, hname, hfit⟩ := h.name a g hga
        have hread : Path.read s.fs (join base a) = some (Xdr.enc Xdr.groupList g) := by
          unfold Path.read
          rw [Chunks.join_plain (plain hv hn), h.file a, if_pos hv, hga]
          rfl
        have hdec : Xdr.dec 0 Xdr.groupList (Xdr.enc Xdr.groupList g) = .ok g [] := by
          have := Xdr.C23_roundtrip 0 Xdr.groupList g hfit []
          rwa [List.append_nil] at this
        rw [List.foldl_cons, hread]
        dsimp only
        rw [hdec]
        dsimp only
        rw [hname, h3 a List.mem_cons_self]
        rw [if_neg (by simp)]
        rw [List.nodup_cons] at h2
        rw [ih _ (fun x hx => h1 x (List.mem_cons_of_mem _ hx)) h2.2 (fun x hx => ?_)]
        · by_cases hx : n ∈ l
          · rw [if_pos hx, if_pos (List.mem_cons_of_mem _ hx)]
          · rw [if_neg hx, GoMap.get_set]
            by_cases he : a = n
            · subst he
              rw [if_pos rfl, if_pos List.mem_cons_self, hga]
            · rw [if_neg he, if_neg]
              intro h4
              rcases List.mem_cons.mp h4 with h5 | h5
              · exact he h5.symm
              · exact hx h5
        · rw [GoMap.get_set_ne]
          · exact h3 x (List.mem_cons_of_mem _ hx)
          · rintro rfl
            exact h2.1 hx
    · cases ha

/-- **C61** (partial: no crash while a file is being written, see `C61_crash_violated`; the names "", "." and ".."
are left out, see `C52_directory_violated`) However groups are created, changed and deleted, after a restart the
client has exactly the groups it had whose names are accepted, each with the same generation, time and members;
whatever the order in which the directory is read. -/
theorem C61_restart_partial {base : Path} {fs : FS} (hd : isDir fs base = true)
    (he : ∀ n, fs.get (base ++ [n]) = none) (ops : List Op) (ho : ∀ o ∈ ops, Fine o) {names : List Bytes}
    (hl : Listing (ops.foldl (apply base) ⟨[], fs⟩).fs base names) (n : Bytes) :
    (load (ops.foldl (apply base) ⟨[], fs⟩).fs base names).get n =
      if validName n then (ops.foldl (apply base) ⟨[], fs⟩).groups.get n else none := by
  have hinv : Inv base (ops.foldl (apply base) ⟨[], fs⟩) := by
    have h0 : Inv base ⟨[], fs⟩ := ⟨hd, fun n => by rw [he]; simp [GoMap.get_nil], fun n g h => by cases h⟩
    clear hl
    revert h0
    generalize (⟨[], fs⟩ : State) = s
    intro h0
    induction ops generalizing s with
    | nil => exact h0
    | cons o ops ih =>
      rw [List.foldl_cons]
      exact ih (fun x hx => ho x (List.mem_cons_of_mem _ hx)) _ (inv_apply h0 (ho o List.mem_cons_self))
  generalize ops.foldl (apply base) ⟨[], fs⟩ = s at hl hinv
  rw [load_get hinv names (fun n hn => (hl.2 n).mp hn) hl.1]
  by_cases hm : n ∈ names
  · rw [if_pos hm]
    have := (hl.2 n).mp hm
    rw [hinv.file n] at this
    split at this
    next hv => rw [if_pos hv]
    · cases this
  · rw [if_neg hm]
    have := (not_congr (hl.2 n)).mp hm
    rw [hinv.file n] at this
    split at this
    next hv =>
      rw [if_pos hv]
      cases hg : s.groups.get n with
      | none => rfl
      | some g => rw [hg] at this; simp at this
    next hv => rw [if_neg hv]

/-- C61 is not about nothing: two groups, one deleted. -/
example : load (List.foldl (apply dir) ⟨[], [(dir, .dir)]⟩
      [.new [97] (emptyGroup [97]), .new [98] (emptyGroup [98]), .change [98] ([98], 7, 0, []), .delete [97]]).fs dir
      [[98]] = [([98], ([98], 7, 0, []))] := by rfl

/-- **C61, negation.** `ioutil.WriteFile` empties the file and then writes. If the client stops in between, the
group is not there after the restart, although it was saved before. -/
theorem C61_crash_violated : ∃ (fs torn : FS) (g : Group), Path.read fs (dir ++ [[97]]) = some (Xdr.enc Xdr.groupList g) ∧
    (load fs dir [[97]]).get [97] = some g ∧ create fs (dir ++ [[97]]) [] = some torn ∧
    (load torn dir [[97]]).get [97] = none :=
  ⟨[(dir ++ [[97]], .file (Xdr.enc Xdr.groupList (emptyGroup [97]))), (dir, .dir)],
    [(dir ++ [[97]], .file []), (dir, .dir)], emptyGroup [97], rfl, rfl, rfl, rfl⟩

/-- Whatever is on the disk, and whether or not it can be written: a change is in memory afterwards, and so is a new group
unless there is one of that name or something in place of its file. -/
theorem C61_memory (base : Path) (s : State) (n : Bytes) (g : Group) :
    (apply base s (.change n g)).groups = s.groups.set n g ∧
    (exist s.fs (join base n) = false → s.groups.get n = none →
      (apply base s (.new n g)).groups = s.groups.set n g) ∧
    (validName n = true → (apply base s (.delete n)).groups = s.groups.del n) := by
  have h : ∀ s' : State, (saveDisk base s' n).groups = s'.groups := by
    intro s'
    unfold saveDisk
    repeat' split
    all_goals rfl
  refine ⟨h _, fun h1 h2 => ?_, fun hv => ?_⟩
  · simp only [apply, gcNew, h1, h2, Option.isSome_none, Bool.false_eq_true, if_false]
    exact h _
  · simp only [apply, deleteGroup, hv, if_true]

/-- A disk on which nothing can be written: there is no directory. The group is in memory, and gone after a restart. -/
theorem C61_unwritten_violated : let s := apply dir ⟨[], []⟩ (.new [98] (emptyGroup [98]))
    s.groups.get [98] = some (emptyGroup [98]) ∧ s.fs = [] ∧ load s.fs dir [] = [] := by
  refine ⟨by rfl, by rfl, by rfl⟩

end Verif.GroupFiles
