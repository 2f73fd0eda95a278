import Verif.Model.Power
import Verif.Proofs.GoMap
import Verif.Props.IniDB
import Verif.Props.StoredMessage

/-! # C142: what was stored survives a loss of power -/

namespace Verif.Power

open Verif

variable {ν α : Type} [DecidableEq ν]

theorem get_map {β γ : Type} (D : GoMap ν β) (f : β → γ) (n : ν) :
    GoMap.get (D.map fun p => (p.1, f p.2)) n = (D.get n).map f := by
  induction D with
  | nil => rfl
  | cons p D ih =>
    obtain ⟨k, v⟩ := p
    simp only [List.map_cons, GoMap.get_cons]
    split
    · rfl
    · exact ih

theorem visible_get (d : Disk ν α) (n : ν) : d.visible.get n = (d.dir.get n).map fun i => (d.nodes i).data :=
  get_map d.dir (fun i => (d.nodes i).data) n

theorem found_mk {d : Disk ν α} {D : GoMap ν Nat} (h : D ∈ d.dir :: d.past) (cut : Nat → Nat) :
    ∃ f, d.Found f ∧ ∀ n, f.get n = (D.get n).map fun i => (d.nodes i).left (cut i) :=
  ⟨_, ⟨D, h, cut, fun n => get_map D (fun i => (d.nodes i).left (cut i)) n⟩,
    fun n => get_map D (fun i => (d.nodes i).left (cut i)) n⟩

theorem run_append (d : Disk ν α) (a b : List (Op ν α)) (h : (run d a).2 = true) : run d (a ++ b) = run (run d a).1 b := by
  induction a generalizing d with
  | nil => rfl
  | cons o a ih =>
    simp only [run, List.cons_append] at h ⊢
    cases he : d.exec o with
    | none => rw [he] at h; cases h
    | some d' => rw [he] at h; exact ih d' h

/-- Each name has a file of its own, and new files are new. -/
structure WF (d : Disk ν α) : Prop where
  low : ∀ D ∈ d.dir :: d.past, ∀ n i, D.get n = some i → i < d.next
  one : ∀ n m i, d.dir.get n = some i → d.dir.get m = some i → n = m

theorem wf_make {d : Disk ν α} (h : WF d) (n : ν) (p : List α) : WF (d.make n p) := by
  refine ⟨fun D hD m i hi => ?_, fun a b i ha hb => ?_⟩
  · rcases List.mem_cons.1 hD with rfl | hD
    · change (d.dir.set n d.next).get m = some i at hi
      rw [GoMap.get_set] at hi
      show i < d.next + 1
      split at hi
      · cases hi; omega
      · have := h.low _ List.mem_cons_self m i hi
        omega
    · have := h.low D hD m i hi
      show i < d.next + 1
      omega
  · change (d.dir.set n d.next).get a = some i at ha
    change (d.dir.set n d.next).get b = some i at hb
    rw [GoMap.get_set] at ha hb
    split at ha <;> split at hb
    · rename_i h1 h2; rw [← h1, ← h2]
    · cases ha; exact absurd (h.low _ List.mem_cons_self b _ hb) (Nat.lt_irrefl _)
    · cases hb; exact absurd (h.low _ List.mem_cons_self a _ ha) (Nat.lt_irrefl _)
    · exact h.one a b i ha hb

theorem wf_exec {d d' : Disk ν α} {o : Op ν α} (h : WF d) (he : d.exec o = some d') : WF d' := by
  cases o with
  | create n => cases he; exact wf_make h n []
  | trunc n =>
    simp only [Disk.exec] at he
    split at he <;> cases he
    · exact ⟨h.low, h.one⟩
    · exact wf_make h n []
  | append n p =>
    simp only [Disk.exec] at he
    split at he <;> cases he
    · exact ⟨h.low, h.one⟩
    · exact wf_make h n p
  | rename a b =>
    simp only [Disk.exec] at he
    split at he <;> cases he
    rename_i i hi
    refine ⟨fun D hD m j hj => ?_, fun x y j hx hy => ?_⟩
    · rcases List.mem_cons.1 hD with rfl | hD
      · change ((d.dir.del a).set b i).get m = some j at hj
        rw [GoMap.get_set, GoMap.get_del] at hj
        split at hj
        · cases hj; exact h.low _ List.mem_cons_self a _ hi
        · split at hj
          · cases hj
          · exact h.low _ List.mem_cons_self m j hj
      · exact h.low D hD m j hj
    · change ((d.dir.del a).set b i).get x = some j at hx
      change ((d.dir.del a).set b i).get y = some j at hy
      rw [GoMap.get_set, GoMap.get_del] at hx hy
      split at hx <;> split at hy
      · rename_i h1 h2; rw [← h1, ← h2]
      · cases hx
        split at hy
        · cases hy
        · rename_i h3; exact absurd (h.one a y _ hi hy) h3
      · cases hy
        split at hx
        · cases hx
        · rename_i h3; exact absurd (h.one a x _ hi hx) h3
      · split at hx <;> split at hy
        · cases hx
        · cases hx
        · cases hy
        · exact h.one x y j hx hy
  | remove n =>
    cases he
    refine ⟨fun D hD m j hj => ?_, fun x y j hx hy => ?_⟩
    · rcases List.mem_cons.1 hD with rfl | hD
      · change (d.dir.del n).get m = some j at hj
        rw [GoMap.get_del] at hj
        split at hj
        · cases hj
        · exact h.low _ List.mem_cons_self m j hj
      · exact h.low D hD m j hj
    · change (d.dir.del n).get x = some j at hx
      change (d.dir.del n).get y = some j at hy
      rw [GoMap.get_del] at hx hy
      split at hx
      · cases hx
      · split at hy
        · cases hy
        · exact h.one x y j hx hy
  | flush =>
    cases he
    refine ⟨fun D hD m j hj => ?_, h.one⟩
    rcases List.mem_cons.1 hD with rfl | hD
    · exact h.low _ List.mem_cons_self m j hj
    · cases hD

theorem wf_run {d : Disk ν α} (h : WF d) (os : List (Op ν α)) : WF (run d os).1 := by
  induction os generalizing d with
  | nil => exact h
  | cons o os ih =>
    simp only [run]
    cases he : d.exec o with
    | none => exact h
    | some d' => exact ih (wf_exec h he)

/-! ## As long as the machine runs -/

theorem make_get {d : Disk ν α} (hw : WF d) (n m : ν) (p : List α) :
    (d.make n p).visible.get m = if n = m then some p else d.visible.get m := by
  rw [visible_get, visible_get]
  show ((d.dir.set n d.next).get m).map _ = _
  rw [GoMap.get_set]
  split
  · simp [Disk.make, Disk.setDir, Disk.setNode]
  · cases hg : d.dir.get m with
    | none => rfl
    | some i =>
      have := hw.low _ List.mem_cons_self m i hg
      have hne : i ≠ d.next := by omega
      simp [Disk.make, Disk.setDir, Disk.setNode, hne]

/-- **C142** As long as the machine runs, the databases are those of C27 to C30. -/
theorem C142_same (d : Disk IniDB.Str Char) (hw : WF d) (os : List IniDB.FsOp) :
    (run d (os.map ofFs)).2 = (IniDB.runFs d.visible os).2 ∧
    ∀ n, (run d (os.map ofFs)).1.visible.get n = (IniDB.runFs d.visible os).1.get n := by
  suffices hg : ∀ (os : List IniDB.FsOp) (d : Disk IniDB.Str Char) (D : IniDB.Dir), WF d → (∀ n, d.visible.get n = D.get n) →
      (run d (os.map ofFs)).2 = (IniDB.runFs D os).2 ∧
      ∀ n, (run d (os.map ofFs)).1.visible.get n = (IniDB.runFs D os).1.get n from hg os d _ hw (fun _ => rfl)
  intro os
  induction os with
  | nil => exact fun d D _ h => ⟨rfl, h⟩
  | cons o os ih =>
    intro d D hw h
    simp only [List.map_cons, run, IniDB.runFs]
    have key : ∀ d', d.exec (ofFs o) = some d' → ∃ D', o.exec D = some D' ∧ ∀ n, d'.visible.get n = D'.get n := by
      intro d' he
      cases o with
      | create n =>
        cases he
        exact ⟨_, rfl, fun m => by rw [make_get hw, GoMap.get_set, h]⟩
      | append n c =>
        simp only [ofFs, Disk.exec] at he
        refine ⟨_, rfl, fun m => ?_⟩
        rw [GoMap.get_set, ← h n, ← h m]
        cases hn : d.dir.get n with
        | none =>
          rw [hn] at he
          cases he
          rw [make_get hw, visible_get d n, hn]
          rfl
        | some i =>
          rw [hn] at he
          cases he
          rw [visible_get, visible_get, visible_get, hn]
          show (d.dir.get m).map (fun j => ((if j = i then _ else d.nodes j : Node Char)).data) = _
          split
          · rename_i hm
            rw [← hm, hn]
            simp
          · rename_i hm
            cases hj : d.dir.get m with
            | none => rfl
            | some j =>
              have hne : j ≠ i := fun e => hm (hw.one n m i hn (e ▸ hj))
              simp [hne]
      | rename a b =>
        simp only [ofFs, Disk.exec] at he
        cases ha : d.dir.get a with
        | none => rw [ha] at he; cases he
        | some i =>
          rw [ha] at he
          cases he
          have hD : D.get a = some (d.nodes i).data := by rw [← h a, visible_get, ha]; rfl
          refine ⟨(D.del a).set b (d.nodes i).data, by simp [IniDB.FsOp.exec, hD], fun m => ?_⟩
          rw [visible_get, GoMap.get_set, GoMap.get_del]
          show (((d.dir.del a).set b i).get m).map (fun j => (d.nodes j).data) = _
          rw [GoMap.get_set, GoMap.get_del]
          split
          · rfl
          · split
            · rfl
            · rw [← h m, visible_get]
      | remove n =>
        cases he
        refine ⟨_, rfl, fun m => ?_⟩
        rw [visible_get, GoMap.get_del]
        show ((d.dir.del n).get m).map (fun j => (d.nodes j).data) = _
        rw [GoMap.get_del]
        split
        · rfl
        · rw [← h m, visible_get]
    cases he : d.exec (ofFs o) with
    | some d' =>
      obtain ⟨D', h1, h2⟩ := key d' he
      rw [h1]
      exact ih d' D' (wf_exec hw he) h2
    | none =>
      have : o.exec D = none := by
        cases o with
        | rename a b =>
          simp only [ofFs, Disk.exec] at he
          cases ha : d.dir.get a with
          | some i => rw [ha] at he; cases he
          | none =>
            have : D.get a = none := by rw [← h a, visible_get, ha]; rfl
            simp [IniDB.FsOp.exec, this]
        | append n c =>
          simp only [ofFs, Disk.exec] at he
          cases hn : d.dir.get n with
          | some i => rw [hn] at he; cases he
          | none => rw [hn] at he; cases he
        | _ => cases he
      rw [this]
      exact ⟨rfl, h⟩

/-! ## What the system has written to the disk -/

/-- All of it is on the disk. -/
def Settled (d : Disk ν α) : Prop := d.past = [] ∧ ∀ i, (d.nodes i).safe = true

theorem C142_flush (d : Disk ν α) : ∃ d', d.exec .flush = some d' ∧ Settled d' ∧ d'.visible = d.visible :=
  ⟨_, rfl, ⟨rfl, fun _ => rfl⟩, rfl⟩

/-- A call is not about this file. -/
def Op.Spares (n : ν) : Op ν α → Prop
  | .create m | .trunc m | .append m _ | .remove m => m ≠ n
  | .rename a b => a ≠ n ∧ b ≠ n
  | .flush => True

/-- **C142** (partial: what the system has written to the disk before) A file that was on the disk, and that nobody has
touched since, is there after a loss of power as it was, whatever else happened. -/
theorem C142_settled_partial (d : Disk ν α) (hw : WF d) (hs : Settled d) (os : List (Op ν α)) (n : ν)
    (ho : ∀ o ∈ os, o.Spares n) (f : GoMap ν (List α)) (h : (run d os).1.Found f) : f.get n = d.visible.get n := by
  suffices hg : ∀ (os : List (Op ν α)) (d0 : Disk ν α), (∀ o ∈ os, o.Spares n) → WF d0 →
      (∀ D ∈ d0.dir :: d0.past, D.get n = d.dir.get n) → (∀ i, d.dir.get n = some i → d0.nodes i = d.nodes i) →
      (∀ D ∈ (run d0 os).1.dir :: (run d0 os).1.past, D.get n = d.dir.get n) ∧
      (∀ i, d.dir.get n = some i → (run d0 os).1.nodes i = d.nodes i) by
    obtain ⟨h1, h2⟩ := hg os d ho hw (fun D hD => by
      rw [hs.1] at hD
      rw [List.mem_singleton.1 hD]) (fun _ _ => rfl)
    obtain ⟨D, hD, cut, hf⟩ := h
    rw [hf, h1 D hD, visible_get]
    cases hn : d.dir.get n with
    | none => rfl
    | some i =>
      show some (((run d os).1.nodes i).left (cut i)) = some (d.nodes i).data
      rw [h2 i hn, Node.left, if_pos (hs.2 i)]
  intro os
  induction os with
  | nil => exact fun d0 _ _ h1 h2 => ⟨h1, h2⟩
  | cons o os ih =>
    intro d0 ho hw0 h1 h2
    simp only [run]
    cases he : d0.exec o with
    | none => exact ⟨h1, h2⟩
    | some d' =>
      have hsp := ho o List.mem_cons_self
      have hdir := h1 _ List.mem_cons_self
      have hmake : ∀ m p, m ≠ n → (∀ D ∈ (d0.make m p).dir :: (d0.make m p).past, D.get n = d.dir.get n) ∧
          ∀ i, d.dir.get n = some i → (d0.make m p).nodes i = d.nodes i := by
        intro m p hm
        refine ⟨fun D hD => ?_, fun i hi => ?_⟩
        · rcases List.mem_cons.1 hD with rfl | hD
          · show (d0.dir.set m d0.next).get n = _
            rw [GoMap.get_set_ne _ _ hm, hdir]
          · exact h1 D hD
        · have hlt := hw0.low _ List.mem_cons_self n i (by rw [hdir, hi])
          have hne : i ≠ d0.next := by omega
          show (if i = d0.next then _ else d0.nodes i) = _
          rw [if_neg hne]
          exact h2 i hi
      have hnode : ∀ m j x, d0.dir.get m = some j → m ≠ n → ∀ i, d.dir.get n = some i → (d0.setNode j x).nodes i = d.nodes i := by
        intro m j x hj hm i hi
        have hne : i ≠ j := fun e => hm (hw0.one m n j hj (by rw [hdir, hi, e]))
        show (if i = j then _ else d0.nodes i) = _
        rw [if_neg hne]
        exact h2 i hi
      refine ih d' (fun o' ho' => ho o' (List.mem_cons_of_mem _ ho')) (wf_exec hw0 he) ?_ ?_
      · cases o with
        | create m => cases he; exact (hmake m [] hsp).1
        | trunc m =>
          simp only [Disk.exec] at he
          split at he <;> cases he
          · exact h1
          · exact (hmake m [] hsp).1
        | append m p =>
          simp only [Disk.exec] at he
          split at he <;> cases he
          · exact h1
          · exact (hmake m p hsp).1
        | rename a b =>
          simp only [Disk.exec] at he
          split at he <;> cases he
          intro D hD
          rcases List.mem_cons.1 hD with rfl | hD
          · show GoMap.get ((d0.dir.del a).set b _) n = _
            rw [GoMap.get_set_ne _ _ hsp.2, GoMap.get_del_ne _ hsp.1, hdir]
          · exact h1 D hD
        | remove m =>
          cases he
          intro D hD
          rcases List.mem_cons.1 hD with rfl | hD
          · show (d0.dir.del m).get n = _
            rw [GoMap.get_del_ne _ hsp, hdir]
          · exact h1 D hD
        | flush =>
          cases he
          intro D hD
          rcases List.mem_cons.1 hD with rfl | hD
          · exact hdir
          · cases hD
      · cases o with
        | create m => cases he; exact (hmake m [] hsp).2
        | trunc m =>
          simp only [Disk.exec] at he
          split at he <;> cases he
          · exact hnode m _ _ ‹_› hsp
          · exact (hmake m [] hsp).2
        | append m p =>
          simp only [Disk.exec] at he
          split at he <;> cases he
          · exact hnode m _ _ ‹_› hsp
          · exact (hmake m p hsp).2
        | rename a b =>
          simp only [Disk.exec] at he
          split at he <;> cases he
          exact h2
        | remove m => cases he; exact h2
        | flush =>
          cases he
          intro i hi
          show ({ d0.nodes i with safe := true } : Node α) = _
          rw [h2 i hi]
          have := hs.2 i
          cases hx : d.nodes i
          rw [hx] at this
          cases this
          rfl

/-! ## Databases -/

open Verif.IniDB (DB Str TmpOK backupName pruneList)

/-- After the calls that write the temporary file. -/
theorem write_run (d : Disk Str Char) (tmp : Str) (txt : Str) :
    ∃ d', run d ((IniDB.writeOps tmp txt).map ofFs) = (d', true) ∧ d'.dir = d.dir.set tmp d.next ∧ d'.past = d.dir :: d.past ∧
      d'.nodes d.next = ⟨txt, false⟩ ∧ (∀ i, i ≠ d.next → d'.nodes i = d.nodes i) := by
  suffices hg : ∀ (txt t0 : Str) (e : Disk Str Char), e.dir = d.dir.set tmp d.next → e.past = d.dir :: d.past →
      e.nodes d.next = ⟨t0, false⟩ → (∀ i, i ≠ d.next → e.nodes i = d.nodes i) →
      ∃ d', run e ((txt.map (IniDB.FsOp.append tmp)).map ofFs) = (d', true) ∧ d'.dir = d.dir.set tmp d.next ∧
        d'.past = d.dir :: d.past ∧ d'.nodes d.next = ⟨t0 ++ txt, false⟩ ∧ (∀ i, i ≠ d.next → d'.nodes i = d.nodes i) by
    simp only [IniDB.writeOps, List.map_cons, run, ofFs, Disk.exec]
    refine hg txt [] (d.make tmp []) rfl rfl ?_ fun i hi => ?_
    · simp [Disk.make, Disk.setDir, Disk.setNode]
    · simp [Disk.make, Disk.setDir, Disk.setNode, hi]
  intro txt
  induction txt with
  | nil => exact fun t0 e h1 h2 h3 h4 => ⟨e, rfl, h1, h2, by rw [List.append_nil]; exact h3, h4⟩
  | cons c txt ih =>
    intro t0 e h1 h2 h3 h4
    have hg : e.dir.get tmp = some d.next := by rw [h1, GoMap.get_set_self]
    simp only [List.map_cons, run, ofFs, Disk.exec, hg]
    obtain ⟨d', k1, k2, k3, k4, k5⟩ := ih (t0 ++ [c]) (e.setNode d.next ⟨(e.nodes d.next).data ++ [c], false⟩) h1 h2
      (by simp [Disk.setNode, h3]) (fun i hi => by simp [Disk.setNode, hi, h4 i hi])
    exact ⟨d', k1, k2, k3, by rw [k4]; simp, k5⟩

/-- Removing files. -/
theorem remove_run (d : Disk Str Char) (l : List Str) :
    ∃ d', run d ((l.map IniDB.FsOp.remove).map ofFs) = (d', true) ∧ d'.nodes = d.nodes ∧
      (∀ n, n ∉ l → d'.dir.get n = d.dir.get n) ∧
      ∀ D ∈ d'.dir :: d'.past, D ∈ d.past ∨ ∀ n, n ∉ l → D.get n = d.dir.get n := by
  induction l generalizing d with
  | nil => exact ⟨d, rfl, rfl, fun _ _ => rfl, fun D hD => (List.mem_cons.1 hD).elim (fun h => .inr fun _ _ => by rw [h]) .inl⟩
  | cons m l ih =>
    simp only [List.map_cons, run, ofFs, Disk.exec]
    obtain ⟨d', h1, h2, h3, h4⟩ := ih (d.setDir (d.dir.del m))
    have hk : ∀ n, n ∉ m :: l → (d.dir.del m).get n = d.dir.get n := fun n hn =>
      GoMap.get_del_ne _ fun e => hn (e ▸ List.mem_cons_self)
    refine ⟨d', h1, h2, fun n hn => ?_, fun D hD => ?_⟩
    · rw [h3 n fun h => hn (List.mem_cons_of_mem _ h)]
      exact hk n hn
    · rcases h4 D hD with h | h
      · rcases List.mem_cons.1 h with rfl | h
        · exact .inr fun _ _ => rfl
        · exact .inl h
      · refine .inr fun n hn => ?_
        rw [h n fun h' => hn (List.mem_cons_of_mem _ h')]
        exact hk n hn

theorem not_pruned (D : IniDB.Dir) (base : Str) (depth : Int) : base ∉ pruneList D base depth := by
  intro h
  have hp : ∀ n ∈ pruneList D base depth, (base ++ ['.']).isPrefixOf n = true := by
    intro n hn
    unfold pruneList at hn
    split at hn
    · cases hn
    · simp only at hn
      split at hn
      · cases hn
      · exact (List.mem_filter.1 (List.mem_of_mem_take hn)).2
  have := (List.isPrefixOf_iff_prefix.1 (hp base h)).length_le
  simp only [List.length_append, List.length_singleton] at this
  omega

theorem run_split {d : Disk ν α} {a b : List (Op ν α)} (h : (run d (a ++ b)).2 = true) : (run d a).2 = true := by
  induction a generalizing d with
  | nil => rfl
  | cons o a ih =>
    simp only [run, List.cons_append] at h ⊢
    cases he : d.exec o with
    | none => rw [he] at h; cases h
    | some d' => rw [he] at h; exact ih h

theorem left_append (x : Node α) (p : List α) (k : Nat) :
    (⟨x.data ++ p, false⟩ : Node α).left (x.left k).length = x.left k := by
  have hp : x.left k <+: x.data := by
    unfold Node.left
    split
    · exact List.prefix_refl _
    · exact List.take_prefix _ _
  obtain ⟨t, ht⟩ := hp
  simp only [Node.left, Bool.false_eq_true, if_false]
  rw [← Node.left, ← ht]
  simp

theorem left_same (x : Node α) (k : Nat) : x.left (x.left k).length = x.left k := by
  unfold Node.left
  cases x.safe with
  | true => rfl
  | false =>
    simp only [Bool.false_eq_true, if_false, List.length_take]
    rw [List.take_eq_take_iff]
    omega

theorem found_exec {d d' : Disk Str Char} (hw : WF d) {o : IniDB.FsOp} (he : d.exec (ofFs o) = some d')
    {f : GoMap Str (List Char)} (h : d.Found f) : d'.Found f := by
  obtain ⟨D, hD, cut, hf⟩ := h
  have key : (D ∈ d'.dir :: d'.past) ∧ ∀ i, i < d.next → (d'.nodes i).left ((d.nodes i).left (cut i)).length = (d.nodes i).left (cut i) := by
    have hmake : ∀ n p, (D ∈ (d.make n p).dir :: (d.make n p).past) ∧ ∀ i, i < d.next →
        ((d.make n p).nodes i).left ((d.nodes i).left (cut i)).length = (d.nodes i).left (cut i) := by
      intro n p
      refine ⟨List.mem_cons_of_mem _ hD, fun i hi => ?_⟩
      have hne : i ≠ d.next := by omega
      show ((if i = d.next then _ else d.nodes i : Node Char)).left _ = _
      rw [if_neg hne]
      exact left_same _ _
    cases o with
    | create n => cases he; exact hmake n []
    | append n c =>
      simp only [ofFs, Disk.exec] at he
      split at he <;> cases he
      · rename_i j hj
        refine ⟨hD, fun i _ => ?_⟩
        show ((if i = j then _ else d.nodes i : Node Char)).left _ = _
        split
        · rename_i e
          subst e
          exact left_append _ _ _
        · exact left_same _ _
      · exact hmake n [c]
    | rename a b =>
      simp only [ofFs, Disk.exec] at he
      split at he <;> cases he
      exact ⟨List.mem_cons_of_mem _ hD, fun i _ => left_same _ _⟩
    | remove n =>
      cases he
      exact ⟨List.mem_cons_of_mem _ hD, fun i _ => left_same _ _⟩
  refine ⟨D, key.1, fun i => ((d.nodes i).left (cut i)).length, fun n => ?_⟩
  rw [hf]
  cases hn : D.get n with
  | none => rfl
  | some i => exact congrArg some (key.2 i (hw.low D hD n i hn)).symm

/-- What may be found after some of the calls may be found after all of them. -/
theorem found_run {d : Disk Str Char} (hw : WF d) (os : List IniDB.FsOp)
    {f : GoMap Str (List Char)} (h : d.Found f) : (run d (os.map ofFs)).1.Found f := by
  induction os generalizing d with
  | nil => exact h
  | cons o os ih =>
    simp only [List.map_cons, run]
    cases he : d.exec (ofFs o) with
    | none => exact h
    | some d' => exact ih (wf_exec hw he) (found_exec hw he h)

/-- After a `Save`: the new file is in place, and is not on the disk; the old one has its place or that of the backup. -/
theorem save_run (i : DB) (d : Disk Str Char) (tmp stamp : Str) (order : List (Str × List (Str × Str)))
    (hd : i.dirty = true) (ht : TmpOK i tmp) (hw : WF d) (hb : i.created = true ∨ (d.dir.get i.base).isSome) :
    (run d (save i d tmp stamp order)).2 = true ∧
    (run d (save i d tmp stamp order)).1.dir.get i.base = some d.next ∧
    (run d (save i d tmp stamp order)).1.nodes d.next = ⟨IniDB.text order, false⟩ ∧
    (∀ j, j ≠ d.next → (run d (save i d tmp stamp order)).1.nodes j = d.nodes j) ∧
    (∀ i0, i.created = false → d.dir.get i.base = some i0 →
      IniDB.FsOp.remove (backupName i.base stamp) ∉ IniDB.saveOps i d.visible tmp stamp order →
      ∀ D ∈ (run d (save i d tmp stamp order)).1.dir :: (run d (save i d tmp stamp order)).1.past,
        D ∈ d.past ∨ D.get i.base = some i0 ∨ D.get (backupName i.base stamp) = some i0) := by
  obtain ⟨d1, w1, w2, w3, w4, w5⟩ := write_run d tmp (IniDB.text order)
  have hbb : backupName i.base stamp ≠ i.base := by
    intro h
    have := congrArg List.length h
    simp [backupName] at this
  have htb : tmp ≠ backupName i.base stamp := fun h => ht.not_backup (h ▸ IniDB.backup_prefix i.base stamp)
  -- the renames
  have hren : ∃ d2, run d ((IniDB.mainOps i tmp stamp order).map ofFs) = (d2, true) ∧ d2.dir.get i.base = some d.next ∧
      d2.nodes = d1.nodes ∧
      ∀ i0, i.created = false → d.dir.get i.base = some i0 → d2.dir.get (backupName i.base stamp) = some i0 ∧
        ∀ D ∈ d2.dir :: d2.past, D ∈ d.past ∨ D.get i.base = some i0 ∨ D.get (backupName i.base stamp) = some i0 := by
    have hm : run d ((IniDB.mainOps i tmp stamp order).map ofFs) = run d1 ((IniDB.renameOps i tmp stamp).map ofFs) := by
      rw [IniDB.mainOps, List.map_append, run_append _ _ _ (by rw [w1]), w1]
    rw [hm]
    have hg : d1.dir.get tmp = some d.next := by rw [w2, GoMap.get_set_self]
    cases hc : i.created with
    | true =>
      simp only [IniDB.renameOps, hc, if_true, List.nil_append, List.map_cons, List.map_nil, run, ofFs, Disk.exec, hg]
      exact ⟨_, rfl, GoMap.get_set_self .., rfl, fun i0 h => by cases h⟩
    | false =>
      obtain ⟨i1, hi1⟩ : ∃ i1, d.dir.get i.base = some i1 := by
        rcases hb with h | h
        · rw [hc] at h; cases h
        · exact Option.isSome_iff_exists.1 h
      have hg1 : d1.dir.get i.base = some i1 := by rw [w2, GoMap.get_set_ne _ _ ht.ne_base, hi1]
      have hg2 : ((d1.dir.del i.base).set (backupName i.base stamp) i1).get tmp = some d.next := by
        rw [GoMap.get_set_ne _ _ htb.symm, GoMap.get_del_ne _ ht.ne_base.symm, hg]
      have hg3 : (d1.setDir ((d1.dir.del i.base).set (backupName i.base stamp) i1)).dir.get tmp = some d.next := hg2
      simp only [IniDB.renameOps, hc, Bool.false_eq_true, if_false, List.cons_append, List.nil_append, List.map_cons,
        List.map_nil, run, ofFs, Disk.exec, hg1, hg3]
      refine ⟨_, rfl, GoMap.get_set_self .., rfl, fun i0 _ h0 => ?_⟩
      have e : i1 = i0 := by rw [hi1] at h0; exact Option.some.inj h0
      subst e
      have k : ((((d1.dir.del i.base).set (backupName i.base stamp) i1).del tmp).set i.base d.next).get
          (backupName i.base stamp) = some i1 := by
        rw [GoMap.get_set_ne _ _ hbb.symm, GoMap.get_del_ne _ htb, GoMap.get_set_self]
      refine ⟨k, fun D hD => ?_⟩
      rcases List.mem_cons.1 hD with rfl | hD
      · exact .inr (.inr k)
      rcases List.mem_cons.1 hD with rfl | hD
      · exact .inr (.inr (GoMap.get_set_self ..))
      rcases List.mem_cons.1 hD with rfl | hD
      · exact .inr (.inl hg1)
      · change D ∈ d1.past at hD
        rw [w3] at hD
        rcases List.mem_cons.1 hD with rfl | hD
        · exact .inr (.inl hi1)
        · exact .inl hD
  obtain ⟨d2, r1, r2, r3, r4⟩ := hren
  have hsame := C142_same d hw (IniDB.mainOps i tmp stamp order)
  rw [r1] at hsame
  have hops : IniDB.saveOps i d.visible tmp stamp order = IniDB.mainOps i tmp stamp order ++
      (pruneList (IniDB.runFs d.visible (IniDB.mainOps i tmp stamp order)).1 i.base i.depth).map IniDB.FsOp.remove := by
    rw [IniDB.saveOps, if_pos hd]
    simp only [← hsame.1, if_true]
  generalize hl : pruneList (IniDB.runFs d.visible (IniDB.mainOps i tmp stamp order)).1 i.base i.depth = l at hops
  obtain ⟨d3, q1, q2, q3, q4⟩ := remove_run d2 l
  have hrun : run d (save i d tmp stamp order) = (d3, true) := by
    rw [save, hops, List.map_append, run_append _ _ _ (by rw [r1]), r1, q1]
  have hnb : i.base ∉ l := hl ▸ not_pruned _ _ _
  rw [hrun]
  refine ⟨rfl, ?_, ?_, fun j hj => ?_, fun i0 hc h0 hnr D hD => ?_⟩
  · rw [q3 _ hnb, r2]
  · rw [q2, r3, w4]
  · rw [q2, r3, w5 j hj]
  · have hnl : backupName i.base stamp ∉ l := fun h => hnr (by
      rw [hops]
      exact List.mem_append_right _ (List.mem_map.2 ⟨_, h, rfl⟩))
    obtain ⟨k1, k2⟩ := r4 i0 hc h0
    rcases q4 D hD with h | h
    · exact k2 D (List.mem_cons_of_mem _ h)
    · exact .inr (.inr (by rw [h _ hnl, k1]))

/-- **C142** (violated) After a loss of power a database that was saved may be empty, though `Save` has succeeded: it is opened
without an error, and has no record at all. -/
theorem C142_gone_violated (i : DB) (d : Disk Str Char) (tmp stamp : Str) (order : List (Str × List (Str × Str)))
    (hd : i.dirty = true) (ht : TmpOK i tmp) (hw : WF d) (hb : i.created = true ∨ (d.dir.get i.base).isSome)
    (c : Bool) (depth : Int) (tmp' : Str) :
    (run d (save i d tmp stamp order)).2 = true ∧
    ∃ f j, (run d (save i d tmp stamp order)).1.Found f ∧ IniDB.new i.base c depth f tmp' = .opened j ∧
      ∀ t k, IniDB.get j t k = none := by
  obtain ⟨h1, h2, h3, _⟩ := save_run i d tmp stamp order hd ht hw hb
  refine ⟨h1, ?_⟩
  obtain ⟨f, hf, hg⟩ := found_mk (d := (run d (save i d tmp stamp order)).1) List.mem_cons_self (fun _ => 0)
  refine ⟨f, ⟨i.base, depth, false, false, [([], [])]⟩, hf, ?_, fun t k => ?_⟩
  · have : f.get i.base = some [] := by
      rw [hg, h2]
      simp [h3, Node.left]
    rw [IniDB.new, this]
    rfl
  · by_cases h : [] = t
    · simp [IniDB.get, GoMap.get_cons, h]
    · simp [IniDB.get, GoMap.get_cons, h]

/-- **C142** (partial: the copy that `Save` leaves) If what was there before is on the disk, then whenever the power is lost in a
`Save` that does not remove its own backup, the old contents are found, under the name of the database or of the backup. -/
theorem C142_old_partial (i : DB) (d : Disk Str Char) (tmp stamp : Str) (order : List (Str × List (Str × Str)))
    (hd : i.dirty = true) (ht : TmpOK i tmp) (hw : WF d) (hs : Settled d) (hc : i.created = false) (old : Str)
    (ho : d.visible.get i.base = some old)
    (hp : IniDB.FsOp.remove (backupName i.base stamp) ∉ IniDB.saveOps i d.visible tmp stamp order)
    (n : Nat) (f : GoMap Str Str) (hf : (run d ((save i d tmp stamp order).take n)).1.Found f) :
    f.get i.base = some old ∨ f.get (backupName i.base stamp) = some old := by
  rw [visible_get] at ho
  obtain ⟨i0, h0, h1⟩ := Option.map_eq_some_iff.1 ho
  obtain ⟨k1, k2, k3, k4, k5⟩ := save_run i d tmp stamp order hd ht hw (.inr (by rw [h0]; rfl))
  have hfin : (run d (save i d tmp stamp order)).1.Found f := by
    have hsp : save i d tmp stamp order = (save i d tmp stamp order).take n ++
        ((IniDB.saveOps i d.visible tmp stamp order).drop n).map ofFs := by
      rw [List.map_drop, ← save, List.take_append_drop]
    have hok : (run d ((save i d tmp stamp order).take n)).2 = true := run_split (b := (save i d tmp stamp order).drop n) (by
      rw [List.take_append_drop]; exact k1)
    rw [hsp, run_append _ _ _ hok]
    exact found_run (wf_run hw _) _ hf
  obtain ⟨D, hD, cut, hg⟩ := hfin
  have hlt := hw.low _ List.mem_cons_self _ _ h0
  have hnode : (run d (save i d tmp stamp order)).1.nodes i0 = d.nodes i0 := k4 i0 (by omega)
  have hleft : ((run d (save i d tmp stamp order)).1.nodes i0).left (cut i0) = old := by
    rw [hnode, Node.left, if_pos (hs.2 i0), h1]
  rcases k5 i0 hc h0 hp D hD with h | h | h
  · rw [hs.1] at h; cases h
  · left; rw [hg, h]; exact congrArg some hleft
  · right; rw [hg, h]; exact congrArg some hleft

/-- A database with one record, on a disk that has it. -/
def sample : DB := ⟨"db".toList, 10, true, false, [([], []), ("t".toList, [("k".toList, "12".toList)])]⟩

def disk : Disk Str Char := ⟨[("db".toList, 0)], [], fun _ => ⟨"# old\n".toList, true⟩, 1⟩

theorem disk_wf : WF disk := by
  refine ⟨fun D hD n i h => ?_, fun n m i hn hm => ?_⟩
  · rw [List.mem_singleton.1 hD] at h
    simp only [disk, GoMap.get_cons] at h
    split at h
    · cases h; exact Nat.one_pos
    · cases h
  · simp only [disk, GoMap.get_cons] at hn hm
    split at hn
    · split at hm
      · rename_i h1 h2; rw [← h1, ← h2]
      · cases hm
    · cases hn

/-- **C142** (violated) Or a record has a value that it never had: of "12" the first digit is there, and nothing tells. -/
theorem C142_wrong_violated : ∃ f j, (run disk (save sample disk "db7".toList "s".toList sample.tables)).1.Found f ∧
    IniDB.new "db".toList true 10 f [] = .opened j ∧ IniDB.get j "t".toList "k".toList = some "1".toList := by
  obtain ⟨h1, h2, h3, _⟩ := save_run sample disk "db7".toList "s".toList sample.tables rfl
    ⟨by decide, by decide⟩ disk_wf (.inr rfl)
  obtain ⟨f, hf, hg⟩ := found_mk (d := (run disk (save sample disk "db7".toList "s".toList sample.tables)).1)
    List.mem_cons_self (fun _ => 53)
  have hb : f.get "db".toList = some ((IniDB.text sample.tables).take 53) := by
    rw [hg]
    have : (run disk (save sample disk "db7".toList "s".toList sample.tables)).1.dir.get "db".toList = some 1 := h2
    rw [this]
    have : (run disk (save sample disk "db7".toList "s".toList sample.tables)).1.nodes 1 = _ := h3
    simp only [Option.map_some, this, Node.left, Bool.false_eq_true, if_false]
  refine ⟨f, ⟨"db".toList, 10, false, false,
      IniDB.touch (((IniDB.parse ((IniDB.text sample.tables).take 53))).getD []) []⟩, hf, ?_, ?_⟩
  · rw [IniDB.new, hb]
    rfl
  · decide +kernel

/-- The backup is not removed by its `Save`, so that the old contents are kept as `C142_old_partial` says. -/
example : Settled disk ∧ disk.visible.get sample.base = some "# old\n".toList ∧
    IniDB.FsOp.remove (backupName sample.base "s".toList) ∉ IniDB.saveOps sample disk.visible "db7".toList "s".toList sample.tables := by
  refine ⟨⟨rfl, fun _ => rfl⟩, by decide, by decide +kernel⟩

/-! ## Messages -/

/-- **C142** (violated) A message that the server has stored, and for which the sender was told so, may after a loss of power
be gone, and of it any leading part may be there; nothing of it is read as an empty message from nobody. -/
theorem C142_message_violated (d : Disk Bytes UInt8) (name : Bytes) (m : Stored.DiskMessage) (hn : d.dir.get name = none) :
    (run d (deliver name m)).2 = true ∧ (run d (deliver name m)).1.visible.get name = some (Stored.marshal m) ∧
    (∃ f, (run d (deliver name m)).1.Found f ∧ f.get name = none) ∧
    (∀ k, ∃ f, (run d (deliver name m)).1.Found f ∧ f.get name = some ((Stored.marshal m).take k)) ∧
    ∃ f, (run d (deliver name m)).1.Found f ∧ (f.get name).map Stored.unmarshal = some (some Stored.zero) := by
  have hg : (d.make name ([] : Bytes)).dir.get name = some d.next := GoMap.get_set_self ..
  have hrun : run d (deliver name m) =
      ((d.make name []).setNode d.next ⟨((d.make name []).nodes d.next).data ++ Stored.marshal m, false⟩, true) := by
    simp only [deliver, run, Disk.exec, hg]
  rw [hrun]
  have hnode : ((d.make name []).setNode d.next ⟨((d.make name []).nodes d.next).data ++ Stored.marshal m, false⟩).nodes d.next =
      ⟨Stored.marshal m, false⟩ := by
    simp [Disk.setNode, Disk.make, Disk.setDir]
  have hk : ∀ k, ∃ f, ((d.make name []).setNode d.next ⟨((d.make name []).nodes d.next).data ++ Stored.marshal m, false⟩).Found f ∧
      f.get name = some ((Stored.marshal m).take k) := by
    intro k
    obtain ⟨f, hf, hfg⟩ := found_mk (d := (d.make name []).setNode d.next
      ⟨((d.make name []).nodes d.next).data ++ Stored.marshal m, false⟩) List.mem_cons_self (fun _ => k)
    refine ⟨f, hf, ?_⟩
    rw [hfg]
    show ((d.make name ([] : Bytes)).dir.get name).map _ = _
    rw [hg, Option.map_some, hnode]
    rfl
  refine ⟨rfl, ?_, ?_, hk, ?_⟩
  · rw [visible_get]
    show ((d.make name ([] : Bytes)).dir.get name).map _ = _
    rw [hg, Option.map_some, hnode]
  · obtain ⟨f, hf, hfg⟩ := found_mk (d := (d.make name []).setNode d.next
      ⟨((d.make name []).nodes d.next).data ++ Stored.marshal m, false⟩) (D := d.dir)
      (List.mem_cons_of_mem _ List.mem_cons_self) (fun _ => 0)
    exact ⟨f, hf, by rw [hfg, hn]; rfl⟩
  · obtain ⟨f, hf, hfg⟩ := hk 0
    exact ⟨f, hf, by rw [hfg]; rfl⟩

/-- **C142** (violated) A message that was acknowledged and deleted may be there again. -/
theorem C142_again_violated (d : Disk Bytes UInt8) (hs : Settled d) (name x : Bytes) (hn : d.visible.get name = some x) :
    (run d (delete name)).1.visible.get name = none ∧
    ∃ f, (run d (delete name)).1.Found f ∧ f.get name = some x := by
  rw [visible_get] at hn
  obtain ⟨i, h1, h2⟩ := Option.map_eq_some_iff.1 hn
  have hrun : run d (delete name) = (d.setDir (d.dir.del name), true) := rfl
  rw [hrun]
  refine ⟨?_, ?_⟩
  · rw [visible_get]
    show ((d.dir.del name).get name).map _ = _
    rw [GoMap.get_del_self]
    rfl
  · obtain ⟨f, hf, hfg⟩ := found_mk (d := d.setDir (d.dir.del name)) (D := d.dir)
      (List.mem_cons_of_mem _ List.mem_cons_self) (fun _ => 0)
    refine ⟨f, hf, ?_⟩
    rw [hfg, h1]
    show some ((d.nodes i).left 0) = _
    rw [Node.left, if_pos (hs.2 i), h2]

/-! ## Files that are written in place -/

/-- **C142** (violated) A file that is written in place, like that of a group, may be empty after a loss of power: what was
there before is gone as well, though it was on the disk. -/
theorem C142_inplace_violated (d : Disk ν α) (n : ν) (old new : List α) (hn : d.visible.get n = some old) :
    (run d (rewrite n new)).1.visible.get n = some new ∧ ∃ f, (run d (rewrite n new)).1.Found f ∧ f.get n = some [] := by
  rw [visible_get] at hn
  obtain ⟨i, h1, _⟩ := Option.map_eq_some_iff.1 hn
  have h2 : (d.setNode i ⟨[], false⟩).dir.get n = some i := h1
  have hrun : run d (rewrite n new) = ((d.setNode i ⟨[], false⟩).setNode i ⟨((d.setNode i ⟨[], false⟩).nodes i).data ++ new, false⟩, true) := by
    simp only [rewrite, run, Disk.exec, h1, h2]
  have hnode : ((d.setNode i ⟨[], false⟩).setNode i ⟨((d.setNode i ⟨[], false⟩).nodes i).data ++ new, false⟩).nodes i =
      ⟨new, false⟩ := by simp [Disk.setNode]
  rw [hrun]
  refine ⟨?_, ?_⟩
  · rw [visible_get]
    show (d.dir.get n).map _ = _
    rw [h1, Option.map_some, hnode]
  · obtain ⟨f, hf, hfg⟩ := found_mk (d := (d.setNode i ⟨[], false⟩).setNode i
      ⟨((d.setNode i ⟨[], false⟩).nodes i).data ++ new, false⟩) List.mem_cons_self (fun _ => 0)
    refine ⟨f, hf, ?_⟩
    rw [hfg]
    show (d.dir.get n).map _ = _
    rw [h1, Option.map_some, hnode]
    rfl

/-- Two messages, of which the first is on the disk when the second is stored. -/
example (a b : Stored.DiskMessage) (f : GoMap Bytes Bytes)
    (h : (run (run (⟨[], [], fun _ => ⟨[], true⟩, 0⟩ : Disk Bytes UInt8) (deliver [1] a ++ [.flush])).1 (deliver [2] b)).1.Found f) :
    f.get [1] = some (Stored.marshal a) := by
  have hw : WF (⟨[], [], fun _ => ⟨[], true⟩, 0⟩ : Disk Bytes UInt8) :=
    ⟨fun D hD n i h => (by rw [List.mem_singleton.1 hD] at h; cases h), fun n m i h => (by cases h)⟩
  have := C142_settled_partial _ (wf_run hw _) ⟨rfl, fun _ => rfl⟩ (deliver [2] b) [1] (by simp [deliver, Op.Spares]) f h
  rw [this]
  rfl

end Verif.Power
