import Verif.Model.Reports
import Verif.Proofs.GoMap
import Mathlib.Tactic.Common
import Mathlib.Data.List.Basic

namespace Verif.Reports

open Verif Groups

/-! ## Specification -/

/-- The members of a group. -/
def members (s : State) (g : Bytes) : List Id := ((s.groups.get g).map (·.members)).getD []

/-- What a notice says about the groups before and after. -/
def Truth (s s' : State) : Report → Prop
  | .minus g m => m ∈ members s g ∧ m ∉ members s' g
  | .left g m => m ∈ members s g ∧ m ∉ members s' g
  | .kicked g m => m ∈ members s g ∧ m ∉ members s' g
  | .plus g m => m ∉ members s g ∧ m ∈ members s' g
  | .joined g m => m ∉ members s g ∧ m ∈ members s' g
  | .unknown _ m => m ≠ s.self ∧ m ∉ s.known
  | .youLeft g => (s.groups.get g).isSome ∧ s'.groups.get g = none
  | .youKicked g => (s.groups.get g).isSome ∧ s'.groups.get g = none
  | .killed g => (s.groups.get g).isSome ∧ s'.groups.get g = none
  | .created g => s.groups.get g = none ∧ (s'.groups.get g).isSome
  | .youJoined g => s.groups.get g = none ∧ (s'.groups.get g).isSome

/-- The notice tells that `m` is no longer in `g`. -/
def TellsGone (g : Bytes) (m : Id) (r : Report) : Prop :=
  r = .minus g m ∨ r = .left g m ∨ r = .kicked g m ∨ r = .youLeft g ∨ r = .youKicked g ∨ r = .killed g

/-- The notice tells that `m` is now in `g`. -/
def TellsNew (g : Bytes) (m : Id) (r : Report) : Prop := r = .plus g m ∨ r = .joined g m

/-- Events for which what is said is true: lists come from the administrator; the administrator kicks a member, and the
list that comes with it is without them; a group one is kicked from has a valid name; nobody is twice in a list one
administers, nobody joins one's own group as oneself; one kicks members. -/
def Honest (s : State) : Ev → Prop
  | .recv src (.list gl) _ => ∀ g, s.groups.get gl.name = some g → admin g = some src
  | .recv src (.update gl) _ => ∀ g, s.groups.get gl.name = some g → admin g = some src
  | .recv src (.kick m _ gl) _ => ∀ g, s.groups.get gl.name = some g → admin g = some src →
      (m = s.self → validName gl.name = true) ∧ (m ≠ s.self → m ∈ g.members ∧ m ∉ gl.members)
  | .recv src (.join _ _) _ => src ≠ s.self
  | .recv _ (.part name) _ => ∀ g, s.groups.get name = some g → g.members.Nodup
  | .ack n => ∀ k, s.kicks[n]? = some k → k.who ∈ members s k.name ∧ k.who ∉ k.ngc.members
  | _ => True

/-! ## Groups as a map -/

theorem members_of {s : State} {g : Bytes} {gl : GroupList} (h : s.groups.get g = some gl) : members s g = gl.members := by
  simp [members, h]

theorem members_set {s : State} {g : Bytes} {gl : GroupList} {gs : GoMap Bytes GroupList}
    (h : s.groups = gs.set g gl) : members s g = gl.members := by
  simp [members, h]

theorem mem_sayDiff {s : State} {gl g : GroupList} (hg : s.groups.get gl.name = some g) {r : Report} :
    r ∈ sayDiff s gl ↔ (∃ m, r = .minus gl.name m ∧ m ∈ g.members ∧ m ∉ gl.members) ∨
      (∃ m, r = .plus gl.name m ∧ m ∉ g.members ∧ m ∈ gl.members) := by
  simp only [sayDiff, hg, List.mem_append, List.mem_map, List.mem_filter, Bool.not_eq_true', List.contains_eq_mem,
    decide_eq_false_iff_not]
  constructor
  · rintro (⟨m, ⟨h1, h2⟩, rfl⟩ | ⟨m, ⟨h1, h2⟩, rfl⟩)
    · exact Or.inl ⟨m, rfl, h1, h2⟩
    · exact Or.inr ⟨m, rfl, h2, h1⟩
  · rintro (⟨m, rfl, h1, h2⟩ | ⟨m, rfl, h1, h2⟩)
    · exact Or.inl ⟨m, ⟨h1, h2⟩, rfl⟩
    · exact Or.inr ⟨m, ⟨h2, h1⟩, rfl⟩

theorem mem_sayUnknown {s : State} {gl : GroupList} {r : Report} :
    r ∈ sayUnknown s gl ↔ ∃ m, r = .unknown gl.name m ∧ m ∈ gl.members ∧ m ≠ s.self ∧ m ∉ s.known := by
  simp only [sayUnknown, List.mem_map, List.mem_filter, Bool.and_eq_true, decide_eq_true_eq, Bool.not_eq_true',
    List.contains_eq_mem, decide_eq_false_iff_not]
  constructor
  · rintro ⟨m, ⟨h1, h2, h3⟩, rfl⟩; exact ⟨m, rfl, h1, h2, h3⟩
  · rintro ⟨m, rfl, h1, h2, h3⟩; exact ⟨m, ⟨h1, h2, h3⟩, rfl⟩

theorem update_applied {s : State} {src : Id} {gl g : GroupList} (hg : s.groups.get gl.name = some g)
    (ha : admin g = some src) : members (updateGroupList s src gl) gl.name = gl.members := by
  simp only [updateGroupList, hg, ha, ne_eq, not_true_eq_false, if_false]
  exact members_set rfl

theorem true_list {s : State} {src : Id} {gl : GroupList}
    (h : ∀ g, s.groups.get gl.name = some g → admin g = some src) {r : Report} (hr : r ∈ sayList s gl) :
    Truth s (updateGroupList s src gl) r := by
  rcases List.mem_append.1 hr with hr | hr
  · cases hg : s.groups.get gl.name with
    | none => simp [sayDiff, hg] at hr
    | some g =>
      have hu := update_applied hg (h g hg)
      rcases (mem_sayDiff hg).1 hr with ⟨m, rfl, h1, h2⟩ | ⟨m, rfl, h1, h2⟩
      · exact ⟨by rw [members_of hg]; exact h1, by rw [hu]; exact h2⟩
      · exact ⟨by rw [members_of hg]; exact h1, by rw [hu]; exact h2⟩
  · obtain ⟨m, rfl, _, h2, h3⟩ := mem_sayUnknown.1 hr
    exact ⟨h2, h3⟩

theorem deleted {s : State} {name : Bytes} (h : validName name = true) : (deleteGroup s name).groups.get name = none := by
  simp [deleteGroup, h]

theorem head_tail {l : List Id} {a : Id} (h : l.head? = some a) : l = a :: l.tail := by
  cases l with
  | nil => simp at h
  | cons x r => simp at h; rw [h]; rfl

/-- Under the conditions of `Honest`, everything that is said about groups is true. -/
theorem C105_true_partial (upper : Bytes → Bytes) {s s' : State} {ev : Ev} {saves : Bool} (h : Honest s ev)
    (hs : step upper s ev = .ok s') {r : Report} (hr : r ∈ say s ev saves) : Truth s s' r := by
  cases ev with
  | meet i => simp [say] at hr
  | tick d => simp [say] at hr
  | ack n =>
    simp only [step, Res.ok.injEq] at hs
    subst hs
    simp only [say, sayAck] at hr
    cases hk : s.kicks[n]? with
    | none => simp [hk] at hr
    | some k =>
      simp only [hk] at hr
      split at hr
      · simp at hr
      · next hgot =>
        cases hg : s.groups.get k.name with
        | none => simp [hg] at hr
        | some g =>
          simp only [hg] at hr
          split at hr
          · simp at hr
          · simp only [List.mem_singleton] at hr
            subst hr
            obtain ⟨h1, h2⟩ := h k hk
            refine ⟨h1, ?_⟩
            have : members (ack s n) k.name = k.ngc.members := by
              simp only [ack, hk, hgot, if_false, hg]
              exact members_set rfl
            rw [this]
            exact h2
  | cmd c flt =>
    simp only [step, Res.ok.injEq] at hs
    subst hs
    cases c with
    | new name onDisk =>
      simp only [say, sayCmd, sayNew] at hr
      split at hr
      · simp at hr
      · next hd =>
        split at hr
        · simp at hr
        · next hn =>
          split at hr
          · simp at hr
          · simp only [List.mem_singleton] at hr
            subst hr
            refine ⟨by simpa using hn, ?_⟩
            simp [cmd, cmdNew, hd, hn]
    | join name token src =>
      simp only [say, sayCmd, sayJoined] at hr
      split at hr
      · simp at hr
      · next hn =>
        cases hj : s.joins.get (name, src) with
        | none => simp [hj] at hr
        | some i =>
          simp only [hj] at hr
          split at hr
          · simp at hr
          · next ht =>
            split at hr
            · simp at hr
            · next hv =>
              split at hr
              · simp at hr
              · next hone =>
                split at hr
                · simp at hr
                · next hdb =>
                  simp only [List.mem_singleton] at hr
                  subst hr
                  refine ⟨by simpa using hn, ?_⟩
                  simp [cmd, cmdJoin, hn, hj, ht, hv, hone, hdb, sendAll]
    | kill name online =>
      simp only [say, sayCmd, sayKilled] at hr
      split at hr
      · simp at hr
      · next ho =>
        cases hg : s.groups.get name with
        | none => simp [hg] at hr
        | some g =>
          simp only [hg] at hr
          split at hr
          · simp at hr
          · next ha =>
            split at hr
            · simp at hr
            · next hv =>
              simp only [List.mem_singleton] at hr
              subst hr
              have hv : validName name = true := by simp at hv; exact hv.1
              refine ⟨by simp [hg], ?_⟩
              simp only [cmd, cmdKill, ho, hg]
              cases hm : g.members with
              | nil => simp [deleted hv]
              | cons a rest =>
                have : a = s.self := by
                  simp only [hm, admin, List.head?_cons, ne_eq, reduceCtorEq, not_false_eq_true, true_and,
                    Decidable.not_not, Option.some.injEq] at ha
                  exact ha
                simp [this, deleted hv]
    | _ => simp [say, sayCmd] at hr
  | recv src m flt =>
    cases m with
    | list gl =>
      simp only [step, recv, Res.ok.injEq] at hs
      subst hs
      exact true_list h hr
    | update gl =>
      simp only [step, recv, Res.ok.injEq] at hs
      subst hs
      exact true_list h hr
    | join name token =>
      simp only [step, recv, Res.ok.injEq] at hs
      subst hs
      simp only [say, sayRecv, sayJoin] at hr
      cases hg : s.groups.get name with
      | none => simp [hg] at hr
      | some g =>
        simp only [hg] at hr
        split at hr
        · simp at hr
        · next ha =>
          cases hi : s.invites.get (name, src) with
          | none => simp [hi] at hr
          | some i =>
            simp only [hi] at hr
            split at hr
            · simp at hr
            · next ht =>
              split at hr
              · simp at hr
              · next hdb =>
                split at hr
                · simp at hr
                · next hk =>
                  split at hr
                  · simp at hr
                  · next hmem =>
                    split at hr
                    · simp at hr
                    · next hv =>
                      simp only [List.mem_singleton] at hr
                      subst hr
                      have ha : admin g = some s.self := by simpa using ha
                      have hgm := head_tail ha
                      refine ⟨?_, ?_⟩
                      · rw [members_of hg, hgm]
                        simp only [List.mem_cons, not_or]
                        exact ⟨h, hmem⟩
                      · simp only [recvJoin, hg, ha, hi, ht, hdb, hk, hmem, hv]
                        simp [members, sendAll]
    | part name =>
      simp only [step, recv, Res.ok.injEq] at hs
      subst hs
      simp only [say, sayRecv, sayPart] at hr
      cases hg : s.groups.get name with
      | none => simp [hg] at hr
      | some g =>
        simp only [hg] at hr
        split at hr
        · simp at hr
        · next ha =>
          split at hr
          · simp at hr
          · next hmem =>
            split at hr
            · simp at hr
            · split at hr
              · simp at hr
              · simp only [List.mem_singleton] at hr
                subst hr
                have hmem : src ∈ g.members.tail := by simpa using hmem
                have ha : admin g = some s.self := by simpa using ha
                have hgm := head_tail ha
                have hnd := h g hg
                rw [hgm, List.nodup_cons] at hnd
                refine ⟨by rw [members_of hg]; exact List.mem_of_mem_tail hmem, ?_⟩
                have hm' : members (recvPart s src name) name = g.members.take 1 ++ g.members.tail.erase src := by
                  simp [recvPart, hg, ha, hmem, members, sendAll]
                rw [hm', List.mem_append, not_or]
                constructor
                · rw [hgm]
                  simp only [List.take_succ_cons, List.take_zero, List.mem_singleton]
                  rintro rfl
                  exact hnd.1 hmem
                · exact List.Nodup.not_mem_erase hnd.2
    | kick m parted gl =>
      simp only [step, recv, Res.ok.injEq] at hs
      subst hs
      simp only [say, sayRecv, sayKick] at hr
      cases hg : s.groups.get gl.name with
      | none => simp [hg] at hr
      | some g =>
        simp only [hg] at hr
        split at hr
        · simp at hr
        · next ha =>
          have ha : admin g = some src := by simpa using ha
          obtain ⟨h1, h2⟩ := h g hg ha
          split at hr
          · next hself =>
            have hd : (recvKick s src m gl).groups.get gl.name = none := by
              simp only [recvKick, hg, ha, hself]
              simp [deleted (h1 hself)]
            simp only [List.mem_singleton] at hr
            subst hr
            cases parted <;> exact ⟨by simp [hg], hd⟩
          · next hself =>
            have hd : members (recvKick s src m gl) gl.name = gl.members := by
              simp only [recvKick, hg, ha, hself, ne_eq, not_true_eq_false, if_false]
              exact update_applied hg ha
            obtain ⟨h3, h4⟩ := h2 hself
            simp only [List.mem_singleton] at hr
            subst hr
            cases parted <;> exact ⟨by rw [members_of hg]; exact h3, by rw [hd]; exact h4⟩
    | kill name =>
      simp only [say, sayRecv, sayKill] at hr
      cases hg : s.groups.get name with
      | none => simp [hg] at hr
      | some g =>
        simp only [hg] at hr
        split at hr
        · simp at hr
        · next ha =>
          split at hr
          · simp at hr
          · next hv =>
            have hv : validName name = true := by simp at hv; exact hv.1
            have ha : admin g = some src := by simpa using ha
            have hgm := head_tail ha
            simp only [List.mem_singleton] at hr
            subst hr
            simp only [step, recv, recvKill, hg] at hs
            rw [hgm] at hs
            simp only [ne_eq, not_true_eq_false, if_false, Res.ok.injEq] at hs
            subst hs
            exact ⟨by simp [hg], deleted hv⟩
    | _ => simp [say, sayRecv] at hr

/-! ## Nothing goes unsaid -/

/-- Events of others, or of earlier commands, for which every change of a group is said: the administrator who kicks
changes nothing else, whoever leaves is a contact, files can be written and removed, and a group is as it was when the
user kicked somebody. -/
def Open (s : State) (saves : Bool) : Ev → Prop
  | .recv src (.kick m _ gl) _ => ∀ g, s.groups.get gl.name = some g → admin g = some src → m ≠ s.self →
      ∀ x, (x ∈ gl.members → x ∈ g.members) ∧ (x ≠ m → x ∈ g.members → x ∈ gl.members)
  | .recv src (.part name) flt => src ∈ s.known ∧ validName name = true ∧ flt.group = false
  | .recv _ (.kill _) flt => flt.group = false
  | .ack n => saves = true ∧ ∀ k, s.kicks[n]? = some k → validName k.name = true ∧
      ∀ x, (x ∈ k.ngc.members → x ∈ members s k.name) ∧ (x ≠ k.who → x ∈ members s k.name → x ∈ k.ngc.members)
  | .cmd _ _ => False
  | _ => True

theorem members_eq {s s' : State} {g : Bytes} (h : s'.groups.get g = s.groups.get g) : members s' g = members s g := by
  simp [members, h]

theorem members_ne {s s' : State} {name g : Bytes} {gl : GroupList} (h : s'.groups = s.groups.set name gl)
    (hn : g ≠ name) : members s' g = members s g :=
  members_eq (by rw [h, GoMap.get_set_ne _ _ (Ne.symm hn)])

/-- What is said about a list, if it is accepted. -/
theorem open_list {s : State} {src : Id} {gl : GroupList} {name : Bytes} {m : Id} :
    (m ∈ members s name → m ∉ members (updateGroupList s src gl) name → ∃ r ∈ sayList s gl, TellsGone name m r) ∧
    (m ∉ members s name → m ∈ members (updateGroupList s src gl) name → ∃ r ∈ sayList s gl, TellsNew name m r) := by
  cases hg : s.groups.get gl.name with
  | none =>
    have : updateGroupList s src gl = s := by simp [updateGroupList, hg]
    rw [this]
    exact ⟨fun h1 h2 => absurd h1 h2, fun h1 h2 => absurd h2 h1⟩
  | some g =>
    by_cases ha : admin g = some src
    · by_cases hn : name = gl.name
      · subst hn
        rw [update_applied hg ha, members_of hg]
        exact ⟨fun h1 h2 => ⟨_, List.mem_append_left _ ((mem_sayDiff hg).2 (Or.inl ⟨m, rfl, h1, h2⟩)), Or.inl rfl⟩,
          fun h1 h2 => ⟨_, List.mem_append_left _ ((mem_sayDiff hg).2 (Or.inr ⟨m, rfl, h1, h2⟩)), Or.inl rfl⟩⟩
      · have : members (updateGroupList s src gl) name = members s name := by
          simp only [updateGroupList, hg, ha, ne_eq, not_true_eq_false, if_false]
          exact members_ne rfl hn
        rw [this]
        exact ⟨fun h1 h2 => absurd h1 h2, fun h1 h2 => absurd h2 h1⟩
    · have : updateGroupList s src gl = s := by simp [updateGroupList, hg, ha]
      rw [this]
      exact ⟨fun h1 h2 => absurd h1 h2, fun h1 h2 => absurd h2 h1⟩

/-- A group vanishes from memory only. -/
theorem members_delete {s : State} {g name : Bytes} {m : Id} (h1 : m ∈ members s g)
    (h2 : m ∉ members (deleteGroup s name) g) : g = name ∧ validName name = true := by
  unfold deleteGroup at h2
  split at h2
  · next hv =>
    refine ⟨?_, hv⟩
    by_contra hn
    rw [members_eq (s := s) (by simp only; rw [GoMap.get_del_ne _ (Ne.symm hn)])] at h2
    exact h2 h1
  · exact absurd h1 h2

theorem members_delete_new {s : State} {g name : Bytes} {m : Id} (h1 : m ∉ members s g) :
    m ∉ members (deleteGroup s name) g := by
  unfold deleteGroup
  split
  · by_cases hn : g = name
    · subst hn
      simp [members]
    · rw [members_eq (s := s) (by simp only; rw [GoMap.get_del_ne _ (Ne.symm hn)])]
      exact h1
  · exact h1

/-- Under the conditions of `Open`, everything that happens to the members of a group is said. -/
theorem C105_complete_partial (upper : Bytes → Bytes) {s s' : State} {ev : Ev} {saves : Bool} (h : Open s saves ev)
    (hs : step upper s ev = .ok s') (g : Bytes) (m : Id) :
    (m ∈ members s g → m ∉ members s' g → ∃ r ∈ say s ev saves, TellsGone g m r) ∧
    (m ∉ members s g → m ∈ members s' g → ∃ r ∈ say s ev saves, TellsNew g m r) := by
  have same : ∀ {t : State} {rs : List Report}, members t g = members s g →
      (m ∈ members s g → m ∉ members t g → ∃ r ∈ rs, TellsGone g m r) ∧
      (m ∉ members s g → m ∈ members t g → ∃ r ∈ rs, TellsNew g m r) := by
    intro t rs ht
    rw [ht]
    exact ⟨fun h1 h2 => absurd h1 h2, fun h1 h2 => absurd h2 h1⟩
  cases ev with
  | meet i => simp only [step, Res.ok.injEq] at hs; subst hs; exact same rfl
  | tick d => simp only [step, Res.ok.injEq] at hs; subst hs; exact same rfl
  | cmd c flt => exact absurd h (by simp [Open])
  | ack n =>
    simp only [step, Res.ok.injEq] at hs
    subst hs
    cases hk : s.kicks[n]? with
    | none => exact same (by simp [ack, hk])
    | some k =>
      by_cases hgot : k.got + 1 = k.want
      · cases hg : s.groups.get k.name with
        | none =>
          have he : members (ack s n) g = members s g := by
            simp only [ack, hk, hgot, ne_eq, not_true_eq_false, if_false, hg]
            rfl
          exact same he
        | some gl =>
          obtain ⟨hsv, hall⟩ := h
          obtain ⟨hv, hx⟩ := hall k hk
          have hsay : say s (.ack n) saves = [.kicked k.name k.who] := by
            simp [say, sayAck, hk, hgot, hg, hv, hsv]
          by_cases hn : g = k.name
          · subst hn
            have hm : members (ack s n) k.name = k.ngc.members := by
              simp only [ack, hk, hgot, ne_eq, not_true_eq_false, if_false, hg]
              exact members_set rfl
            rw [hm, hsay]
            refine ⟨fun h1 h2 => ?_, fun h1 h2 => absurd ((hx m).1 h2) h1⟩
            by_cases hw : m = k.who
            · exact ⟨.kicked k.name k.who, by simp, by simp [TellsGone, hw]⟩
            · exact absurd ((hx m).2 hw h1) h2
          · have hm : members (ack s n) g = members s g := by
              simp only [ack, hk, hgot, ne_eq, not_true_eq_false, if_false, hg]
              exact members_ne rfl hn
            exact same hm
      · have he : members (ack s n) g = members s g := by
          simp only [ack, hk, ne_eq, hgot, not_false_eq_true, if_true]
          rfl
        exact same he
  | recv src msg flt =>
    cases msg with
    | list gl => simp only [step, recv, Res.ok.injEq] at hs; subst hs; exact open_list
    | update gl => simp only [step, recv, Res.ok.injEq] at hs; subst hs; exact open_list
    | invite name i =>
      simp only [step, recv, Res.ok.injEq] at hs
      subst hs
      refine same (members_eq ?_)
      unfold recvInvite
      split
      · rfl
      · split
        · rfl
        · split <;> rfl
    | message name gen text me =>
      simp only [step, recv, recvMessage] at hs
      refine same (members_eq ?_)
      split at hs
      · simp only [Res.ok.injEq] at hs; rw [← hs]
      · split at hs
        · simp only [Res.ok.injEq] at hs; rw [← hs]
        · split at hs
          · exact absurd hs (by simp)
          · simp only [Res.ok.injEq] at hs; rw [← hs]
    | kill name =>
      simp only [step, recv, recvKill] at hs
      cases hg : s.groups.get name with
      | none => simp only [hg, Res.ok.injEq] at hs; subst hs; exact same rfl
      | some gl =>
        simp only [hg] at hs
        cases hm : gl.members with
        | nil => simp [hm] at hs
        | cons a rest =>
          simp only [hm] at hs
          split at hs
          · simp only [Res.ok.injEq] at hs; subst hs; exact same rfl
          · next ha =>
            have ha : a = src := by simpa using ha
            simp only [Res.ok.injEq] at hs
            subst hs
            refine ⟨fun h1 h2 => ?_, fun h1 h2 => absurd h2 (members_delete_new h1)⟩
            obtain ⟨rfl, hv⟩ := members_delete h1 h2
            refine ⟨.killed g, ?_, by simp [TellsGone]⟩
            have hf : flt.group = false := h
            simp [say, sayRecv, sayKill, hg, admin, hm, ha, hv, hf]
    | kick mem parted gl =>
      simp only [step, recv, Res.ok.injEq] at hs
      subst hs
      cases hg : s.groups.get gl.name with
      | none => exact same (by simp [recvKick, hg])
      | some g0 =>
        by_cases ha : admin g0 = some src
        · by_cases hself : mem = s.self
          · have he : recvKick s src mem gl = deleteGroup s gl.name := by
              simp [recvKick, hg, ha, hself]
            rw [he]
            refine ⟨fun h1 h2 => ?_, fun h1 h2 => absurd h2 (members_delete_new h1)⟩
            obtain ⟨rfl, hv⟩ := members_delete h1 h2
            refine ⟨if parted then .youLeft gl.name else .youKicked gl.name, ?_, ?_⟩
            · simp [say, sayRecv, sayKick, hg, ha, hself]
            · cases parted <;> simp [TellsGone]
          · have he : recvKick s src mem gl = updateGroupList s src gl := by
              simp [recvKick, hg, ha, hself]
            rw [he]
            by_cases hn : g = gl.name
            · subst hn
              rw [update_applied hg ha, members_of hg]
              have hx := h g0 hg ha hself
              refine ⟨fun h1 h2 => ?_, fun h1 h2 => absurd ((hx m).1 h2) h1⟩
              by_cases hw : m = mem
              · subst hw
                refine ⟨if parted then .left gl.name m else .kicked gl.name m, ?_, ?_⟩
                · simp [say, sayRecv, sayKick, hg, ha, hself]
                · cases parted <;> simp [TellsGone]
              · exact absurd ((hx m).2 hw h1) h2
            · refine same ?_
              simp only [updateGroupList, hg, ha, ne_eq, not_true_eq_false, if_false]
              exact members_ne rfl hn
        · exact same (by simp [recvKick, hg, ha])
    | part name =>
      simp only [step, recv, Res.ok.injEq] at hs
      subst hs
      obtain ⟨hk, hv, hf⟩ := h
      cases hg : s.groups.get name with
      | none => exact same (by simp [recvPart, hg])
      | some g0 =>
        by_cases ha : admin g0 = some s.self
        · by_cases hmem : src ∈ g0.members.tail
          · have hgm := head_tail ha
            have hm' : members (recvPart s src name) name = g0.members.take 1 ++ g0.members.tail.erase src := by
              simp [recvPart, hg, ha, hmem, members, sendAll]
            by_cases hn : g = name
            · subst hn
              rw [hm', members_of hg]
              have hsay : Report.left g src ∈ say s (.recv src (.part g) flt) saves := by
                simp [say, sayRecv, sayPart, hg, ha, hmem, hv, hf, hk]
              have hmiff : m ∈ g0.members ↔ m ∈ g0.members.take 1 ∨ m ∈ g0.members.tail := by
                rw [hgm]; simp
              refine ⟨fun h1 h2 => ?_, fun h1 h2 => ?_⟩
              · rw [List.mem_append, not_or] at h2
                have ht := (hmiff.1 h1).resolve_left h2.1
                have : m = src := by
                  by_contra hne
                  exact h2.2 ((List.mem_erase_of_ne hne).2 ht)
                subst this
                exact ⟨_, hsay, by simp [TellsGone]⟩
              · exfalso
                apply h1
                rw [hmiff]
                rcases List.mem_append.1 h2 with h2 | h2
                · exact Or.inl h2
                · exact Or.inr (List.mem_of_mem_erase h2)
            · refine same (members_eq ?_)
              simp only [recvPart, hg, ha, hmem, sendAll, ne_eq, not_true_eq_false, if_false, not_true_eq_false]
              rw [GoMap.get_set_ne _ _ (Ne.symm hn)]
          · exact same (by simp [recvPart, hg, ha, hmem])
        · exact same (by simp [recvPart, hg, ha])
    | join name token =>
      simp only [step, recv, Res.ok.injEq] at hs
      subst hs
      cases hg : s.groups.get name with
      | none => exact same (by simp [recvJoin, hg])
      | some g0 =>
        by_cases ha : admin g0 = some s.self
        · cases hi : s.invites.get (name, src) with
          | none => exact same (by simp [recvJoin, hg, ha, hi])
          | some i =>
            by_cases ht : i.token = token
            · by_cases hdb : flt.db = true
              · exact same (by simp [recvJoin, hg, ha, hi, ht, hdb])
              · by_cases hk : src ∈ s.known
                · by_cases hmem : src ∈ g0.members.tail
                  · exact same (members_eq (by simp [recvJoin, hg, ha, hi, ht, hdb, hk, hmem]))
                  · by_cases hv : (!validName name || flt.group) = true
                    · exact same (members_eq (by
                        simp only [recvJoin, hg, ha, hi, ht, hdb, hk, hmem, hv, ne_eq, not_true_eq_false, if_false, if_true,
                          Bool.false_eq_true]))
                    · have hgr : (recvJoin s src name token flt).groups =
                          s.groups.set name ⟨g0.name, inc (inc g0.gen), g0.members ++ [src]⟩ := by
                        simp only [recvJoin, hg, ha, hi, ht, hdb, hk, hmem, hv, ne_eq, not_true_eq_false, if_false,
                          Bool.false_eq_true, sendAll]
                      by_cases hn : g = name
                      · subst hn
                        rw [members_set hgr, members_of hg]
                        refine ⟨fun h1 h2 => absurd (by simp [h1]) h2, fun h1 h2 => ?_⟩
                        have : m = src := by
                          rcases List.mem_append.1 h2 with h2 | h2
                          · exact absurd h2 h1
                          · simpa using h2
                        subst this
                        refine ⟨.joined g m, ?_, Or.inr rfl⟩
                        simp only [say, sayRecv, sayJoin, hg, ha, hi, ht, hdb, hk, hmem, hv, ne_eq, not_true_eq_false,
                          if_false, Bool.false_eq_true]
                        simp
                      · exact same (members_ne hgr hn)
                · exact same (members_eq (by simp [recvJoin, hg, ha, hi, ht, hdb, hk]))
            · exact same (by simp [recvJoin, hg, ha, hi, ht])
        · exact same (by simp [recvJoin, hg, ha])

/-! ## What goes wrong -/

/-- Anybody whose messages reach the client can make it say that a member left a group, or that somebody joined it: the
list they send is reported first and refused later. -/
theorem C105_forged_violated (upper : Bytes → Bytes) (s : State) (g : Bytes) (gl : GroupList) (src m : Id) (saves : Bool)
    (flt : Fault) (hg : s.groups.get g = some gl) (ha : admin gl ≠ some src) :
    (m ∈ gl.members → ∃ ng, .minus g m ∈ say s (.recv src (.list ng) flt) saves ∧
      step upper s (.recv src (.list ng) flt) = .ok s) ∧
    (m ∉ gl.members → ∃ ng, .plus g m ∈ say s (.recv src (.list ng) flt) saves ∧
      step upper s (.recv src (.list ng) flt) = .ok s) := by
  have hstep : ∀ ms, step upper s (.recv src (.list ⟨g, 0, ms⟩) flt) = .ok s := by
    intro ms
    simp [step, recv, updateGroupList, hg, ha]
  refine ⟨fun hm => ⟨⟨g, 0, []⟩, ?_, hstep _⟩, fun hm => ⟨⟨g, 0, [m]⟩, ?_, hstep _⟩⟩
  · exact List.mem_append_left _ ((mem_sayDiff (gl := ⟨g, 0, []⟩) hg).2 (Or.inl ⟨m, rfl, hm, by simp⟩))
  · exact List.mem_append_left _ ((mem_sayDiff (gl := ⟨g, 0, [m]⟩) hg).2 (Or.inr ⟨m, rfl, hm, by simp⟩))

/-- Events, one after the other. -/
def exec (upper : Bytes → Bytes) (s : State) : List Ev → Res
  | [] => .ok s
  | ev :: evs => match step upper s ev with
    | .ok s => exec upper s evs
    | .panic => .panic

/-- Identities of the examples. -/
def idA : Id := 1
def idB : Id := 2
def idC : Id := 3
def idD : Id := 4
/-- The group "g". -/
def grp : Bytes := [103]

/-- B is invited by A, joins and gets the list with A, B, C and D. -/
def asMember : List Ev := [.meet idA, .recv idA (.invite grp ⟨7, 100⟩) .none, .cmd (.join grp 7 idA) .none,
  .recv idA (.list ⟨grp, 1, [idA, idB, idC, idD]⟩) .none]

/-- An administrator kicks C with a list that still has C, but D no longer: it is said that C was kicked, which is not
so, and that D is gone is not said. -/
theorem C105_kick_violated : ∃ s s', exec id (init idB []) asMember = .ok s ∧
    step id s (.recv idA (.kick idC false ⟨grp, 2, [idA, idB, idC]⟩) .none) = .ok s' ∧
    say s (.recv idA (.kick idC false ⟨grp, 2, [idA, idB, idC]⟩) .none) true = [.kicked grp idC] ∧
    idC ∈ members s' grp ∧ idD ∈ members s grp ∧ idD ∉ members s' grp :=
  ⟨_, _, rfl, rfl, rfl, by decide, by decide, by decide⟩

/-- A makes a group, and B joins. -/
def asAdmin : List Ev := [.meet idB, .cmd (.new grp false) .none, .cmd (.invite grp idB 7) .none,
  .recv idB (.join grp 7) .none]

/-- A user who kicks somebody that is not in the group is told that they were kicked. -/
theorem C105_stranger_violated : ∃ s s', exec id (init idA []) (asAdmin ++ [.cmd (.kick grp idC) .none]) = .ok s ∧
    step id s (.ack 0) = .ok s' ∧ say s (.ack 0) true = [.kicked grp idC] ∧ idC ∉ members s grp :=
  ⟨_, _, rfl, rfl, by decide, by decide⟩

/-- A user kicks B; before B's client and the others have answered, C joins. When the kick is done, C is out of the group
as well, and that is not said. -/
theorem C105_late_violated : ∃ s s', exec id (init idA []) (asAdmin ++ [.meet idC, .cmd (.invite grp idC 8) .none,
      .cmd (.kick grp idB) .none, .recv idC (.join grp 8) .none]) = .ok s ∧
    step id s (.ack 0) = .ok s' ∧ say s (.ack 0) true = [.kicked grp idB] ∧ idC ∈ members s grp ∧
    idC ∉ members s' grp :=
  ⟨_, _, rfl, rfl, by decide, by decide, by decide⟩

/-- A group of the administrator alone: nobody acknowledges a kick, and nothing is ever said or done. -/
theorem C105_alone_violated : ∃ s, exec id (init idA []) [.meet idB, .cmd (.new grp false) .none,
    .cmd (.kick grp idB) .none] = .ok s ∧ ∃ k, s.kicks = [k] ∧ k.want = 0 ∧ s.out = [] :=
  ⟨_, rfl, _, rfl, rfl, rfl⟩

/-- Somebody who is not in the address book leaves: the list changes and nothing is said. -/
theorem C105_silent_violated : ∃ s s', exec id (init idB [])
      (asMember ++ [.recv idA (.list ⟨grp, 2, [idB, idC, idD]⟩) .none]) = .ok s ∧
    step id s (.recv idD (.part grp) .none) = .ok s' ∧ say s (.recv idD (.part grp) .none) true = [] ∧
    idD ∈ members s grp ∧ idD ∉ members s' grp :=
  ⟨_, _, rfl, rfl, by decide, by decide, by decide⟩

/-! ## Where it is said -/

/-- A notice is repeated in the window of the group, if there is one. -/
theorem C105_echo {wins : List Bytes} {g : Bytes} {k : Nat} : echo wins g = some k → wins[k]? = some g := by
  intro h
  obtain ⟨hk, hp, _⟩ := List.findIdx?_eq_some_iff_getElem.1 h
  rw [List.getElem?_eq_getElem hk]
  simpa using hp

/-- The callback of a kick repeats the notice in the window of the group, if there is one. -/
theorem C105_echo_kick_partial {wins : List Bytes} {g : Bytes} {k : Nat} (hg : g ∈ wins) :
    echoAck wins g = some k → wins[k]? = some g := by
  unfold echoAck
  split
  · next i hi =>
    split
    · intro h
      simp only [Option.some.injEq] at h
      subst h
      exact C105_echo hi
    · simp
  · next hn =>
    rw [List.findIdx?_eq_none_iff] at hn
    exact absurd (hn g hg) (by simp)

/-- If there is none, it repeats the notice in the last window, whoever that belongs to. -/
theorem C105_echo_violated (wins : List Bytes) (g nick : Bytes) (hg : g ∉ wins) (hn : g ≠ nick) (h0 : wins ≠ []) :
    echoAck (wins ++ [nick]) g = some wins.length := by
  have : (wins ++ [nick]).findIdx? (· = g) = none := by
    rw [List.findIdx?_eq_none_iff]
    intro x hx
    rcases List.mem_append.1 hx with hx | hx
    · simp only [decide_eq_false_iff_not]
      rintro rfl
      exact hg hx
    · simp at hx
      simp [hx, Ne.symm hn]
  have hl : 0 < wins.length := List.length_pos_iff.2 h0
  simp [echoAck, this, hl]

/-! ## Examples -/

/-- `C105_true_partial` and `C105_complete_partial` at work: a list of the administrator. -/
example : ∃ s s', exec id (init idB []) asMember = .ok s ∧
    Honest s (.recv idA (.list ⟨grp, 2, [idA, idB, idC, 5]⟩) .none) ∧
    Open s true (.recv idA (.list ⟨grp, 2, [idA, idB, idC, 5]⟩) .none) ∧
    step id s (.recv idA (.list ⟨grp, 2, [idA, idB, idC, 5]⟩) .none) = .ok s' ∧
    say s (.recv idA (.list ⟨grp, 2, [idA, idB, idC, 5]⟩) .none) true =
      [.minus grp idD, .plus grp 5, .unknown grp idC, .unknown grp 5] :=
  ⟨_, _, rfl, by intro g hg; cases hg; rfl, trivial, rfl, by decide⟩

/-- A kick. -/
example : ∃ s, exec id (init idB []) asMember = .ok s ∧
    Honest s (.recv idA (.kick idC false ⟨grp, 2, [idA, idB, idD]⟩) .none) ∧
    Open s true (.recv idA (.kick idC false ⟨grp, 2, [idA, idB, idD]⟩) .none) := by
  refine ⟨_, rfl, ?_, ?_⟩
  · intro g hg _
    cases hg
    exact ⟨fun _ => by decide, fun _ => by decide⟩
  · intro g hg _ _ x
    cases hg
    simp only [List.mem_cons, List.not_mem_nil, or_false]
    constructor
    · rintro (h | h | h) <;> simp [h]
    · rintro hx (h | h | h | h)
      · simp [h]
      · simp [h]
      · exact absurd h hx
      · simp [h]

/-- The user kicks a member. -/
example : ∃ s, exec id (init idA []) (asAdmin ++ [.cmd (.kick grp idB) .none]) = .ok s ∧ Honest s (.ack 0) ∧
    say s (.ack 0) true = [.kicked grp idB] := by
  refine ⟨_, rfl, ?_, by decide⟩
  intro k hk
  cases hk
  exact ⟨by decide, by decide⟩

example : echoAck [[99], grp, [98]] grp = some 1 := by decide
example : echoAck [[99], [97], [98]] grp = some 2 := by decide

end Verif.Reports
