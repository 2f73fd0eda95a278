import Verif.Model.Store
import Verif.Proofs.GoMap

/-!
# C57, C63 and C64: the files of a contact when the client or the machine stops

* C57: the client is killed at any point of `updateRatchet`; the file holds the old or the new state.
* C63: the machine loses power. The file holds some complete state, provided `Sync` succeeded
  (`C63_power_partial`); it may be older than the previous one (`C63_rollback_violated`), and it may be torn when
  `Sync` failed, which is not looked at (`C63_sync_violated`).
* C64: `saveIdentity` writes in place. A reset by the peer stores a known identity again, and if the client
  stops then the contact is lost (`C64_reset_violated`).
-/

namespace Verif.Store

/-! ## Specification -/

/-- The file is in no directory and has no contents. -/
def Fresh (d : Disk) (ino : Nat) : Prop :=
  d.nodes.get ino = none ∧ ∀ D ∈ d.dir :: d.past, ∀ name, D.get name ≠ some ino

/-- The file `rf` is on disk with contents `b`, and nothing else is pending. -/
def Clean (d : Disk) (rf b : Bytes) : Prop :=
  d.past = [] ∧ ∃ i, d.dir.get rf = some i ∧ d.nodes.get i = some ⟨b, true⟩

/-- Disks that come about by updating the file `rf`, being killed in the middle of updates, and losing power,
where every `Sync` that is executed succeeds; with the states that were to be stored. -/
inductive Stored (rf : Bytes) : Disk → List Bytes → Prop
  | first {d b} : Clean d rf b → Stored rf d [b]
  | update {d C suffix ino pieces} (n : Nat) : Stored rf d C → suffix ≠ [] → Fresh d ino →
      Stored rf (d.run ((updateRatchet rf suffix ino pieces true).take n)) (pieces.flatten :: C)
  | power {d C d' b} : Stored rf d C → d.Survives rf (some b) → Clean d' rf b → Stored rf d' C

/-! ## Proofs -/

/-- Calls on an open file only. -/
def OpenOp (ino : Nat) : Op → Prop
  | .write i _ => i = ino
  | .sync i _ => i = ino
  | _ => False

theorem run_append (d : Disk) (a b : List Op) : d.run (a ++ b) = (d.run a).run b := by
  simp [Disk.run, List.foldl_append]

theorem run_open {ino : Nat} : ∀ {ops : List Op} {d : Disk}, (∀ o ∈ ops, OpenOp ino o) →
    (d.run ops).dir = d.dir ∧ (d.run ops).past = d.past ∧
    (∀ j, j ≠ ino → (d.run ops).nodes.get j = d.nodes.get j) ∧
    ((d.nodes.get ino).isSome → ((d.run ops).nodes.get ino).isSome) := by
  intro ops
  induction ops with
  | nil => intro d _; exact ⟨rfl, rfl, fun _ _ => rfl, id⟩
  | cons o ops ih =>
    intro d h
    obtain ⟨h1, h2, h3, h4⟩ := ih (d := d.op o) (fun o ho => h o (List.mem_cons_of_mem _ ho))
    have ho := h o List.mem_cons_self
    have key : (d.op o).dir = d.dir ∧ (d.op o).past = d.past ∧
        (∀ j, j ≠ ino → (d.op o).nodes.get j = d.nodes.get j) ∧
        ((d.nodes.get ino).isSome → ((d.op o).nodes.get ino).isSome) := by
      cases o with
      | write i p =>
        simp only [OpenOp] at ho; subst ho
        simp only [Disk.op]
        cases hn : d.nodes.get i with
        | none => simp [hn]
        | some n =>
          refine ⟨rfl, rfl, ?_, by simp⟩
          intro j hj; exact GoMap.get_set_ne _ _ (fun h => hj h.symm)
      | sync i ok =>
        simp only [OpenOp] at ho; subst ho
        simp only [Disk.op]
        cases hn : d.nodes.get i with
        | none => simp [hn]
        | some n =>
          cases ok with
          | true =>
            refine ⟨rfl, rfl, ?_, by simp⟩
            intro j hj; exact GoMap.get_set_ne _ _ (fun h => hj h.symm)
          | false => simp [hn]
      | _ => exact ho.elim
    change (Disk.run (d.op o) ops).dir = _ ∧ (Disk.run (d.op o) ops).past = _ ∧
      (∀ j, j ≠ ino → (Disk.run (d.op o) ops).nodes.get j = _) ∧ (_ → ((Disk.run (d.op o) ops).nodes.get ino).isSome)
    refine ⟨h1.trans key.1, h2.trans key.2.1, fun j hj => (h3 j hj).trans (key.2.2.1 j hj), fun hs => h4 (key.2.2.2 hs)⟩

theorem run_writes {ino : Nat} : ∀ {pieces : List Bytes} {d : Disk} {b : Bytes},
    d.nodes.get ino = some ⟨b, false⟩ →
    (d.run (pieces.map (.write ino))).nodes.get ino = some ⟨b ++ pieces.flatten, false⟩ := by
  intro pieces
  induction pieces with
  | nil => intro d b h; simpa [Disk.run] using h
  | cons p ps ih =>
    intro d b h
    have : (d.op (.write ino p)).nodes.get ino = some ⟨b ++ p, false⟩ := by
      simp only [Disk.op, h, GoMap.get_set_self]
    have := ih this
    simpa [Disk.run, List.append_assoc] using this

/-- The part of `updateRatchet` before the rename. -/
def before (rf suffix : Bytes) (ino : Nat) (pieces : List Bytes) (ok : Bool) : List Op :=
  [.create (rf ++ suffix) ino] ++ (pieces.map (.write ino) ++ [.sync ino ok])

theorem update_eq (rf suffix : Bytes) (ino : Nat) (pieces : List Bytes) (ok : Bool) :
    updateRatchet rf suffix ino pieces ok = before rf suffix ino pieces ok ++ [.rename (rf ++ suffix) rf] := by
  simp [updateRatchet, before]

/-- Stopping before the rename: nothing, or the temporary file, changed. -/
theorem before_take {d : Disk} {rf suffix : Bytes} {ino : Nat} {pieces : List Bytes} {ok : Bool} (n : Nat) :
    d.run ((before rf suffix ino pieces ok).take n) = d ∨
    let e := d.run ((before rf suffix ino pieces ok).take n)
    e.dir = d.dir.set (rf ++ suffix) ino ∧ e.past = d.dir :: d.past ∧ (∀ j, j ≠ ino → e.nodes.get j = d.nodes.get j) := by
  cases n with
  | zero => exact .inl rfl
  | succ n =>
    right
    simp only [before, List.singleton_append, List.take_succ_cons]
    have ho : ∀ o ∈ ((pieces.map (Op.write ino)) ++ [Op.sync ino ok]).take n, OpenOp ino o := by
      intro o ho
      have := List.mem_of_mem_take ho
      simp only [List.mem_append, List.mem_map, List.mem_singleton] at this
      rcases this with ⟨p, _, rfl⟩ | rfl <;> rfl
    have := run_open (d := d.op (.create (rf ++ suffix) ino)) ho
    change (Disk.run (d.op _) _).dir = _ ∧ (Disk.run (d.op _) _).past = _ ∧
      ∀ j, j ≠ ino → (Disk.run (d.op _) _).nodes.get j = _
    refine ⟨this.1, this.2.1, fun j hj => ?_⟩
    rw [this.2.2.1 j hj]
    simp only [Disk.op, Disk.setDir]
    exact GoMap.get_set_ne _ _ (fun h => hj h.symm)

theorem before_full {d : Disk} {rf suffix : Bytes} {ino : Nat} {pieces : List Bytes} {ok : Bool} :
    let e := d.run (before rf suffix ino pieces ok)
    e.dir = d.dir.set (rf ++ suffix) ino ∧ e.past = d.dir :: d.past ∧
    (∀ j, j ≠ ino → e.nodes.get j = d.nodes.get j) ∧ e.nodes.get ino = some ⟨pieces.flatten, ok⟩ := by
  have ho : ∀ o ∈ pieces.map (Op.write ino) ++ [Op.sync ino ok], OpenOp ino o := by
    intro o ho
    simp only [List.mem_append, List.mem_map, List.mem_singleton] at ho
    rcases ho with ⟨p, _, rfl⟩ | rfl <;> rfl
  have hr := run_open (d := d.op (.create (rf ++ suffix) ino)) ho
  have hc : (d.op (.create (rf ++ suffix) ino)).nodes.get ino = some ⟨[], false⟩ := by
    simp [Disk.op, Disk.setDir]
  have hw := run_writes (pieces := pieces) hc
  rw [List.nil_append] at hw
  simp only [before, List.singleton_append]
  rw [show ∀ l, d.run (Op.create (rf ++ suffix) ino :: l) = (d.op (.create (rf ++ suffix) ino)).run l from fun _ => rfl]
  refine ⟨hr.1, hr.2.1, fun j hj => ?_, ?_⟩
  · rw [hr.2.2.1 j hj]
    simp only [Disk.op, Disk.setDir]
    exact GoMap.get_set_ne _ _ (fun h => hj h.symm)
  · rw [run_append]
    generalize hx : (d.op (.create (rf ++ suffix) ino)).run (pieces.map (Op.write ino)) = e at hw
    simp only [Disk.run, List.foldl_cons, List.foldl_nil, Disk.op, hw]
    cases ok <;> simp [hw]

theorem ne_append {rf suffix : Bytes} (h : suffix ≠ []) : rf ++ suffix ≠ rf := by
  intro he
  have := congrArg List.length he
  simp only [List.length_append] at this
  exact h (List.length_eq_zero_iff.mp (by omega))

/-- The disk after the whole update. -/
theorem update_full {d : Disk} {rf suffix : Bytes} {ino : Nat} {pieces : List Bytes} {ok : Bool} :
    let e := d.run (updateRatchet rf suffix ino pieces ok)
    e.dir = ((d.dir.set (rf ++ suffix) ino).del (rf ++ suffix)).set rf ino ∧
    e.past = d.dir.set (rf ++ suffix) ino :: d.dir :: d.past ∧
    (∀ j, j ≠ ino → e.nodes.get j = d.nodes.get j) ∧ e.nodes.get ino = some ⟨pieces.flatten, ok⟩ := by
  simp only [update_eq, run_append]
  obtain ⟨h1, h2, h3, h4⟩ := before_full (d := d) (rf := rf) (suffix := suffix) (ino := ino) (pieces := pieces) (ok := ok)
  generalize d.run (before rf suffix ino pieces ok) = e at h1 h2 h3 h4
  simp only [Disk.run, List.foldl_cons, List.foldl_nil, Disk.op, h1, GoMap.get_set_self, Disk.setDir]
  exact ⟨trivial, by rw [h2], h3, h4⟩

theorem update_take {rf suffix : Bytes} {ino : Nat} {pieces : List Bytes} {ok : Bool} (n : Nat) :
    (updateRatchet rf suffix ino pieces ok).take n = (before rf suffix ino pieces ok).take n ∨
    (updateRatchet rf suffix ino pieces ok).take n = updateRatchet rf suffix ino pieces ok := by
  by_cases h : n ≤ (before rf suffix ino pieces ok).length
  · left; rw [update_eq, List.take_append_of_le_length h]
  · right
    rw [List.take_of_length_le]
    rw [update_eq, List.length_append, List.length_singleton]
    omega

/-- A file is unchanged if its entry and contents are. -/
theorem look_congr {d e : Disk} {name : Bytes} (h1 : e.dir.get name = d.dir.get name)
    (h2 : ∀ i, d.dir.get name = some i → e.nodes.get i = d.nodes.get i) : e.look name = d.look name := by
  unfold Disk.look
  rw [h1]
  cases hd : d.dir.get name with
  | none => rfl
  | some i => simp only; rw [h2 i hd]

/-- **C57.** The client is killed after any number `n` of the system calls of `updateRatchet`. Then the file holds
the complete old state (or is still absent) or the complete new state; all other files of the contact except the
temporary one are unchanged; and if the function returned the new state is there. -/
theorem C57_killed (d : Disk) (rf suffix : Bytes) (ino : Nat) (pieces : List Bytes) (ok : Bool) (hs : suffix ≠ [])
    (hf : Fresh d ino) (n : Nat) :
    let e := d.run ((updateRatchet rf suffix ino pieces ok).take n)
    (e.look rf = d.look rf ∨ e.look rf = some pieces.flatten) ∧
    (∀ name, name ≠ rf → name ≠ rf ++ suffix → e.look name = d.look name) ∧
    ((updateRatchet rf suffix ino pieces ok).length ≤ n → e.look rf = some pieces.flatten) := by
  have hne : ∀ name i, d.dir.get name = some i → i ≠ ino := by
    rintro name i h rfl
    exact hf.2 d.dir List.mem_cons_self name h
  have hfull : ∀ e, e = d.run (updateRatchet rf suffix ino pieces ok) →
      e.look rf = some pieces.flatten ∧ ∀ name, name ≠ rf → name ≠ rf ++ suffix → e.look name = d.look name := by
    rintro e rfl
    obtain ⟨h1, _, h3, h4⟩ := update_full (d := d) (rf := rf) (suffix := suffix) (ino := ino) (pieces := pieces) (ok := ok)
    constructor
    · unfold Disk.look; rw [h1, GoMap.get_set_self]; simp only; rw [h4]; rfl
    · intro name hn1 hn2
      refine look_congr ?_ (fun i hi => h3 i (hne name i hi))
      rw [h1, GoMap.get_set_ne _ _ (Ne.symm hn1), GoMap.get_del_ne _ (Ne.symm hn2), GoMap.get_set_ne _ _ (Ne.symm hn2)]
  intro e
  by_cases hlen : (updateRatchet rf suffix ino pieces ok).length ≤ n
  · have he : e = d.run (updateRatchet rf suffix ino pieces ok) := by
      simp only [e]; rw [List.take_of_length_le hlen]
    obtain ⟨a, b⟩ := hfull e he
    exact ⟨.inr a, b, fun _ => a⟩
  · have hb : (updateRatchet rf suffix ino pieces ok).take n = (before rf suffix ino pieces ok).take n := by
      rw [update_eq, List.length_append, List.length_singleton] at hlen
      rw [update_eq, List.take_append_of_le_length (by omega)]
    have he : e = d.run ((before rf suffix ino pieces ok).take n) := by simp only [e]; rw [hb]
    refine ⟨.inl ?_, ?_, fun h => absurd h hlen⟩
    · rcases before_take (d := d) (rf := rf) (suffix := suffix) (ino := ino) (pieces := pieces) (ok := ok) n with h | h
      · rw [he, h]
      · rw [he]
        refine look_congr ?_ (fun i hi => h.2.2 i (hne _ i hi))
        rw [h.1, GoMap.get_set_ne _ _ (ne_append hs)]
    · intro name hn1 hn2
      rcases before_take (d := d) (rf := rf) (suffix := suffix) (ino := ino) (pieces := pieces) (ok := ok) n with h | h
      · rw [he, h]
      · rw [he]
        refine look_congr ?_ (fun i hi => h.2.2 i (hne _ i hi))
        rw [h.1, GoMap.get_set_ne _ _ (Ne.symm hn2)]

/-- Every directory the disk may hold has a complete file. -/
def Good (d : Disk) (rf : Bytes) (C : List Bytes) : Prop :=
  ∀ D ∈ d.dir :: d.past, ∃ i b, D.get rf = some i ∧ d.nodes.get i = some ⟨b, true⟩ ∧ b ∈ C

theorem good_update {d : Disk} {rf suffix : Bytes} {ino : Nat} {pieces : List Bytes} {C : List Bytes}
    (h : Good d rf C) (hs : suffix ≠ []) (hf : Fresh d ino) (n : Nat) :
    Good (d.run ((updateRatchet rf suffix ino pieces true).take n)) rf (pieces.flatten :: C) := by
  have keep : ∀ {e : Disk} {D : GoMap Bytes Nat}, (∀ j, j ≠ ino → e.nodes.get j = d.nodes.get j) →
      D ∈ d.dir :: d.past → ∃ i b, D.get rf = some i ∧ e.nodes.get i = some ⟨b, true⟩ ∧ b ∈ pieces.flatten :: C := by
    intro e D he hD
    obtain ⟨i, b, h1, h2, h3⟩ := h D hD
    have hi : i ≠ ino := by rintro rfl; exact hf.2 D hD rf h1
    exact ⟨i, b, h1, (he i hi).trans h2, List.mem_cons_of_mem _ h3⟩
  have tmp : ∀ {e : Disk}, (∀ j, j ≠ ino → e.nodes.get j = d.nodes.get j) →
      ∃ i b, (d.dir.set (rf ++ suffix) ino).get rf = some i ∧ e.nodes.get i = some ⟨b, true⟩ ∧
        b ∈ pieces.flatten :: C := by
    intro e he
    obtain ⟨i, b, h1, h2⟩ := keep he List.mem_cons_self
    exact ⟨i, b, by rw [GoMap.get_set_ne _ _ (ne_append hs), h1], h2⟩
  rcases update_take (rf := rf) (suffix := suffix) (ino := ino) (pieces := pieces) (ok := true) n with hn | hn
  · rw [hn]
    rcases before_take (d := d) (rf := rf) (suffix := suffix) (ino := ino) (pieces := pieces) (ok := true) n with hb | hb
    · rw [hb]
      intro D hD
      exact keep (fun _ _ => rfl) hD
    · obtain ⟨h1, h2, h3⟩ := hb
      intro D hD
      rw [h1, h2] at hD
      rcases List.mem_cons.mp hD with rfl | hD
      · exact tmp h3
      · exact keep h3 hD
  · rw [hn]
    obtain ⟨h1, h2, h3, h4⟩ := update_full (d := d) (rf := rf) (suffix := suffix) (ino := ino) (pieces := pieces) (ok := true)
    intro D hD
    rw [h1, h2] at hD
    rcases List.mem_cons.mp hD with rfl | hD
    · exact ⟨ino, pieces.flatten, GoMap.get_set_self _ _ _, h4, List.mem_cons_self⟩
    · rcases List.mem_cons.mp hD with rfl | hD
      · exact tmp h3
      · exact keep h3 hD

theorem good_clean {d : Disk} {rf b : Bytes} {C : List Bytes} (h : Clean d rf b) (hb : b ∈ C) : Good d rf C := by
  obtain ⟨h1, i, h2, h3⟩ := h
  intro D hD
  rw [h1, List.mem_singleton] at hD
  subst hD
  exact ⟨i, b, h2, h3, hb⟩

theorem good_survives {d : Disk} {rf : Bytes} {C : List Bytes} (h : Good d rf C) {c : Option Bytes}
    (hc : d.Survives rf c) : ∃ b ∈ C, c = some b := by
  obtain ⟨D, hD, hm⟩ := hc
  obtain ⟨i, b, h1, h2, h3⟩ := h D hD
  simp only [h1, h2, if_true] at hm
  exact ⟨b, h3, hm⟩

theorem good_stored {rf : Bytes} {d : Disk} {C : List Bytes} (h : Stored rf d C) : Good d rf C := by
  induction h with
  | first hc => exact good_clean hc List.mem_cons_self
  | update n _ hs hf ih => exact good_update ih hs hf n
  | power _ hv hc ih =>
    obtain ⟨b, hb, he⟩ := good_survives ih hv
    cases he
    exact good_clean hc hb

/-- **C63, part that holds.** After any sequence of updates, each possibly interrupted, and power failures, with
every `Sync` successful, a further loss of power leaves a file with one of the complete states that were to be
stored; so does reading it without a loss of power. -/
theorem C63_power_partial {rf : Bytes} {d : Disk} {C : List Bytes} (h : Stored rf d C) :
    (∀ c, d.Survives rf c → ∃ b ∈ C, c = some b) ∧ ∃ b ∈ C, d.look rf = some b := by
  have hg := good_stored h
  refine ⟨fun c hc => good_survives hg hc, ?_⟩
  obtain ⟨i, b, h1, h2, h3⟩ := hg d.dir List.mem_cons_self
  exact ⟨b, h3, by simp [Disk.look, h1, h2]⟩

/-! ## What goes wrong -/

/-- A disk with the state `[1]` in the ratchet file. -/
def disk1 : Disk := ⟨[(ratchetFile, 1)], [], [(1, ⟨[1], true⟩)]⟩

/-- Two complete updates. -/
def disk3 : Disk :=
  (disk1.run (updateRatchet ratchetFile [55] 2 [[2], [2]] true)).run (updateRatchet ratchetFile [56] 3 [[3]] true)

theorem clean1 : Clean disk1 ratchetFile [1] := ⟨rfl, 1, by decide, by decide⟩

theorem stored3 : Stored ratchetFile disk3 [[3], [2, 2], [1]] := by
  have h1 : Stored ratchetFile disk1 [[1]] := .first clean1
  have f1 : Fresh disk1 2 := by
    refine ⟨by decide, ?_⟩
    intro D hD name
    simp only [disk1, List.mem_cons, List.not_mem_nil, or_false] at hD
    subst hD
    rw [GoMap.get_cons]
    split <;> simp
  have h2 := Stored.update (pieces := [[2], [2]]) 5 h1 (suffix := [55]) (by decide) f1
  have f2 : Fresh (disk1.run ((updateRatchet ratchetFile [55] 2 [[2], [2]] true).take 5)) 3 := by
    refine ⟨by decide +kernel, ?_⟩
    intro D hD name hh
    have hm := GoMap.mem_of_get hh
    have : ∀ D ∈ (disk1.run ((updateRatchet ratchetFile [55] 2 [[2], [2]] true).take 5)).dir ::
        (disk1.run ((updateRatchet ratchetFile [55] 2 [[2], [2]] true).take 5)).past, ∀ e ∈ D, e.2 ≠ 3 := by
      decide +kernel
    exact this D hD _ hm rfl
  exact Stored.update (pieces := [[3]]) 5 h2 (suffix := [56]) (by decide) f2

/-- **C63, negation.** Two updates have completed, every `Sync` succeeded, and a loss of power brings back the
state before both of them: the directory is never synced. -/
theorem C63_rollback_violated : Stored ratchetFile disk3 [[3], [2, 2], [1]] ∧
    disk3.look ratchetFile = some [3] ∧ disk3.Survives ratchetFile (some [1]) :=
  ⟨stored3, by decide +kernel, [(ratchetFile, 1)], by decide +kernel, by
    have h1 : GoMap.get [(ratchetFile, 1)] ratchetFile = some 1 := by decide +kernel
    have h2 : disk3.nodes.get 1 = some ⟨[1], true⟩ := by decide +kernel
    simp only [h1, h2, if_true]⟩

/-- **C63, negation.** `Sync` fails, `updateRatchet` replaces the file nevertheless and returns no error; after a
loss of power the file is empty. -/
theorem C63_sync_violated : Clean disk1 ratchetFile [1] ∧
    (disk1.run (updateRatchet ratchetFile [55] 2 [[2], [2]] false)).look ratchetFile = some [2, 2] ∧
    (disk1.run (updateRatchet ratchetFile [55] 2 [[2], [2]] false)).Survives ratchetFile (some []) := by
  refine ⟨clean1, by decide +kernel, (disk1.run (updateRatchet ratchetFile [55] 2 [[2], [2]] false)).dir,
    List.mem_cons_self, ?_⟩
  have h1 : (disk1.run (updateRatchet ratchetFile [55] 2 [[2], [2]] false)).dir.get ratchetFile = some 2 := by
    decide +kernel
  have h2 : (disk1.run (updateRatchet ratchetFile [55] 2 [[2], [2]] false)).nodes.get 2 = some ⟨[2, 2], false⟩ := by
    decide +kernel
  simp only [h1, h2, Bool.false_eq_true, if_false]
  exact ⟨0, rfl⟩

/-- **C63** A write counts for a loss of power only after the next `Sync`: until then any leading part may be what is left,
also of a file that was synced before. -/
theorem C63_unsynced (d : Disk) (name : Bytes) (ino : Nat) (n : Inode) (piece : Bytes) (k : Nat)
    (hd : d.dir.get name = some ino) (hn : d.nodes.get ino = some n) :
    (d.op (.write ino piece)).Survives name (some ((n.data ++ piece).take k)) := by
  refine ⟨d.dir, ?_, ?_⟩
  · simp only [Disk.op, hn]
    exact List.mem_cons_self
  · have h2 : (d.op (.write ino piece)).nodes.get ino = some ⟨n.data ++ piece, false⟩ := by
      simp only [Disk.op, hn, GoMap.get_set_self]
    simp only [hd, h2, Bool.false_eq_true, if_false]
    exact ⟨k, rfl⟩

/-! ## Identities -/

/-- Writing in place: the file has been emptied and some of the pieces written. -/
theorem trunc_take {d : Disk} {name : Bytes} {i : Nat} {pieces : List Bytes}
    (hd : d.dir.get name = some i ∨ d.dir.get name = none) (n : Nat) :
    (d.run ((Op.trunc name i :: pieces.map (.write i)).take (n + 1))).look name = some (pieces.take n).flatten := by
  have h1 : (d.op (.trunc name i)).dir.get name = some i ∧ (d.op (.trunc name i)).nodes.get i = some ⟨[], false⟩ := by
    rcases hd with h | h <;> simp [Disk.op, h, Disk.setDir]
  have hw := run_writes (pieces := pieces.take n) h1.2
  have ho : ∀ o ∈ (pieces.take n).map (Op.write i), OpenOp i o := by
    intro o ho
    simp only [List.mem_map] at ho
    obtain ⟨p, _, rfl⟩ := ho
    rfl
  have hr := run_open (d := d.op (.trunc name i)) ho
  rw [List.take_succ_cons, ← List.map_take]
  change (Disk.run (d.op _) _).look name = _
  unfold Disk.look
  rw [hr.1, h1.1]
  simp only
  rw [hw]
  simp

/-- Other files are not touched by writing in place. -/
theorem trunc_other {d : Disk} {name : Bytes} {i : Nat} {pieces : List Bytes}
    (hd : d.dir.get name = some i ∨ (d.dir.get name = none ∧ Fresh d i)) (n : Nat) {other : Bytes} (ho : other ≠ name)
    (hl : d.dir.get other ≠ some i) :
    (d.run ((Op.trunc name i :: pieces.map (.write i)).take n)).look other = d.look other := by
  cases n with
  | zero => rfl
  | succ n =>
    have hops : ∀ o ∈ (pieces.take n).map (Op.write i), OpenOp i o := by
      intro o ho
      simp only [List.mem_map] at ho
      obtain ⟨p, _, rfl⟩ := ho
      rfl
    have hr := run_open (d := d.op (.trunc name i)) hops
    rw [List.take_succ_cons, ← List.map_take]
    change (Disk.run (d.op _) _).look other = _
    have h0 : (d.op (.trunc name i)).dir.get other = d.dir.get other := by
      rcases hd with h | h
      · simp [Disk.op, h]
      · simp only [Disk.op, h.1, Disk.setDir]
        exact GoMap.get_set_ne _ _ (Ne.symm ho)
    have h2 : ∀ j, j ≠ i → (d.op (.trunc name i)).nodes.get j = d.nodes.get j := by
      intro j hj
      rcases hd with h | h <;> simp only [Disk.op, h, Disk.setDir] <;> exact GoMap.get_set_ne _ _ (Ne.symm hj)
    refine look_congr (by rw [hr.1, h0]) ?_
    intro j hj
    have hne : j ≠ i := by rintro rfl; exact hl hj
    rw [hr.2.2.1 j hne, h2 j hne]

/-- The identity of a contact is stored, and a ratchet or half of one. -/
def Known (d : Disk) : Prop :=
  d.look identityFile ≠ none ∧ (d.look ratchetFile ≠ none ∨ d.look halfFile ≠ none)

theorem known_iff (d : Disk) : identityExists d = true ↔ Known d := by
  simp only [identityExists, Known, Bool.and_eq_true, Bool.or_eq_true, Option.isSome_iff_ne_none]

theorem not_known_iff (d : Disk) : identityExists d = false ↔ ¬ Known d := by
  rw [← known_iff]; simp

/-- **C64, part that holds.** `saveIdentity` for a contact that has a ratchet changes nothing. Otherwise, killed
at any point, the ratchet files are unchanged; when it returns, the identity is stored completely. -/
theorem C64_save_partial (d : Disk) (ino : Nat) (pieces : List Bytes) (hf : Fresh d ino)
    (hdist : ∀ a b i, d.dir.get a = some i → d.dir.get b = some i → a = b) (n : Nat) :
    let e := d.run ((saveIdentity d ino pieces).take n)
    (Known d → e = d) ∧
    e.look ratchetFile = d.look ratchetFile ∧ e.look halfFile = d.look halfFile ∧
    (¬ Known d → pieces.length < n → e.look identityFile = some pieces.flatten) ∧
    (¬ Known d → e.look identityFile = d.look identityFile ∨
      ∃ k, e.look identityFile = some (pieces.take k).flatten) := by
  intro e
  rw [← not_known_iff, ← known_iff]
  by_cases hx : identityExists d = true
  · have : e = d := by simp only [e, saveIdentity, hx, if_true, List.take_nil]; rfl
    rw [this]
    refine ⟨fun _ => rfl, rfl, rfl, fun h => ?_, fun h => ?_⟩ <;> rw [hx] at h <;> cases h
  · have hx' : identityExists d = false := by simpa using hx
    have main : ∃ i, e = d.run ((Op.trunc identityFile i :: pieces.map (.write i)).take n) ∧
        (d.dir.get identityFile = some i ∨ (d.dir.get identityFile = none ∧ Fresh d i)) ∧
        d.dir.get ratchetFile ≠ some i ∧ d.dir.get halfFile ≠ some i := by
      cases hd : d.dir.get identityFile with
      | some i =>
        refine ⟨i, ?_, .inl rfl, ?_, ?_⟩
        · simp only [e, saveIdentity, hx', hd, Bool.false_eq_true, if_false]
        · intro h; exact absurd (hdist _ _ i h hd) (by decide)
        · intro h; exact absurd (hdist _ _ i h hd) (by decide)
      | none =>
        refine ⟨ino, ?_, .inr ⟨rfl, hf⟩, hf.2 _ List.mem_cons_self _, hf.2 _ List.mem_cons_self _⟩
        simp only [e, saveIdentity, hx', hd, Bool.false_eq_true, if_false]
    obtain ⟨i, he, hd, hr, hh⟩ := main
    rw [he]
    have hd' : d.dir.get identityFile = some i ∨ d.dir.get identityFile = none := hd.imp_right And.left
    refine ⟨fun h => absurd h hx, trunc_other hd n (by decide) hr, trunc_other hd n (by decide) hh, ?_, ?_⟩
    · intro _ hn
      obtain ⟨m, rfl⟩ : ∃ m, n = m + 1 := ⟨n - 1, by omega⟩
      rw [trunc_take hd' m, List.take_of_length_le (by omega)]
    · intro _
      cases n with
      | zero => exact .inl rfl
      | succ m => exact .inr ⟨m, trunc_take hd' m⟩

/-- A contact with identity `[7, 8]` and a ratchet. -/
def contact : Disk :=
  ⟨[(identityFile, 1), (ratchetFile, 2)], [], [(1, ⟨[7, 8], true⟩), (2, ⟨[9], true⟩)]⟩

/-- **C64, negation.** The contact is known and has a ratchet. The server says that the peer asks for a reset, and
the client is killed before the identity, which was there all the time, has been written again: both the ratchet and
the identity are gone. -/
theorem C64_reset_violated : Known contact ∧ contact.look identityFile = some [7, 8] ∧
    ∃ n, n < (reset contact 3 [[7, 8]]).length ∧
      (contact.run ((reset contact 3 [[7, 8]]).take n)).look identityFile = some [] ∧
      (contact.run ((reset contact 3 [[7, 8]]).take n)).look ratchetFile = none :=
  ⟨(known_iff _).1 (by decide +kernel), by decide +kernel, 3, by decide +kernel, by decide +kernel, by decide +kernel⟩

/-! ## Examples -/

/-- Killed in the middle of writing: the old state; after the rename: the new one. -/
example :
    (disk1.run ((updateRatchet ratchetFile [55] 2 [[2], [2]] true).take 3)).look ratchetFile = some [1] ∧
    (disk1.run ((updateRatchet ratchetFile [55] 2 [[2], [2]] true).take 5)).look ratchetFile = some [2, 2] := by
  decide +kernel

example : ((⟨[], [], []⟩ : Disk).run (saveIdentity ⟨[], [], []⟩ 1 [[7], [8]])).look identityFile = some [7, 8] := by
  decide +kernel

end Verif.Store
