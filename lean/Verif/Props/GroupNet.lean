import Verif.Model.GroupNet
import Verif.Props.Groups
import Verif.Proofs.GoMap

/-! # C114: everybody in a group knows the same members

The spec compares the lists of the administrator and of the others at moments when nothing about the group is on its
way. -/

namespace Verif.GroupNet

open Verif.Groups

/-- The message says something about the members of the group. -/
def tells (name : Bytes) : Msg → Bool
  | .list gl => gl.name = name
  | .update gl => gl.name = name
  | .kick _ _ gl => gl.name = name
  | .kill n => n = name
  | _ => false

/-- The message takes the group from `m`. -/
def clears (name : Bytes) (m : Id) : Msg → Bool
  | .kick k _ gl => gl.name = name && k = m
  | .kill n => n = name
  | _ => false

def isJoin (name : Bytes) : Msg → Bool
  | .join n _ => n = name
  | _ => false

def listOf : Msg → Option GroupList
  | .list gl => some gl
  | .update gl => some gl
  | .kick _ _ gl => some gl
  | _ => none

/-- A kick of that group is under way: not all its messages were acknowledged. -/
def Under (name : Bytes) (k : Kick) : Prop := k.name = name ∧ k.got < k.want

instance (name : Bytes) (k : Kick) : Decidable (Under name k) := inferInstanceAs (Decidable (_ ∧ _))

/-- Nobody leaves by force, and while the administrator kicks somebody nothing else happens to the group. -/
def orderly (name : Bytes) (s : State) : Ev → Prop
  | .cmd (.partForce n) _ => n ≠ name
  | .cmd (.kick n _) _ => n = name → ∀ k ∈ s.kicks, ¬ Under name k
  | .cmd (.kill n _) _ => n = name → ∀ k ∈ s.kicks, ¬ Under name k
  | .recv _ (.join n _) _ => n = name → ∀ k ∈ s.kicks, ¬ Under name k
  | .recv _ (.part n) _ => n = name → ∀ k ∈ s.kicks, ¬ Under name k
  | _ => True

/-- The same for the net; and nothing is lost. -/
def Orderly (name : Bytes) (net : Net) : NEv → Prop
  | .cmd i c flt => orderly name (net.clients i) (.cmd c flt)
  | .deliver a m flt => ∀ x r, net.wire a m = x :: r → orderly name (net.clients m) (.recv a x flt)
  | .lose _ _ => False
  | _ => True

def OrderlyRun (upper : Bytes → Bytes) (name : Bytes) : Net → List NEv → Prop
  | _, [] => True
  | net, e :: es => Orderly name net e ∧ ∀ net', nstep upper net e = some net' → OrderlyRun upper name net' es

/-! ## One client as administrator -/

/-- Groups are kept under their name, and so are kicks; nobody has an invitation from themself. -/
def Named (s : State) : Prop :=
  (∀ n g, s.groups.get n = some g → g.name = n) ∧ (∀ k ∈ s.kicks, k.ngc.name = k.name) ∧
  ∀ n, s.joins.get (n, s.self) = none

/-- The list that the client is making known as the administrator: its own, or that of the kick under way. -/
def Adm (name : Bytes) (s : State) : Option GroupList → Prop
  | none => (∀ g, s.groups.get name = some g → admin g ≠ some s.self) ∧ ∀ k ∈ s.kicks, ¬ Under name k
  | some gl =>
    gl.name = name ∧ admin gl = some s.self ∧ gl.members.Nodup ∧
    ∃ g, s.groups.get name = some g ∧ admin g = some s.self ∧
      ((g = gl ∧ ∀ k ∈ s.kicks, ¬ Under name k) ∨
        ∃ (i : Nat) (k : Kick), s.kicks[i]? = some k ∧ Under name k ∧ k.ngc = gl ∧
          ∀ (j : Nat) (k' : Kick), s.kicks[j]? = some k' → Under name k' → j = i)

/-- What a step does to that list, and what is sent about it. -/
inductive Change (name : Bytes) (a : Id) : Option GroupList → Option GroupList → List (Id × Msg) → Ev → Prop
  | quiet {T out e} : (∀ p ∈ out, tells name p.2 = false) → Change name a T T out e
  | born {e} : Change name a none (some ⟨name, 0, [a]⟩) [] e
  | added {x gl gl' tok flt} : x ∉ gl.members → gl'.members = gl.members ++ [x] →
      Change name a (some gl) (some gl') (gl'.members.tail.map fun i => (i, .list gl')) (.recv x (.join name tok) flt)
  | removed {w p gl gl' e} : w ≠ a → gl'.members = gl.members.filter (· ≠ w) →
      Change name a (some gl) (some gl') (gl.members.tail.map fun i => (i, .kick w p gl')) e
  | killed {gl e} : Change name a (some gl) none (gl.members.tail.map fun i => (i, .kill name)) e

/-- The group as it is known, if another is the administrator. -/
def Same (a : Id) (M M' : Option GroupList) : Prop :=
  (∀ g, M = some g → admin g = some a → M' = some g) ∧ ∀ g, M' = some g → admin g = some a → M = some g

theorem admin_eq {gl : GroupList} {a : Id} (h : admin gl = some a) : ∃ r, gl.members = a :: r := by
  obtain ⟨n, g, l⟩ := gl
  cases l with
  | nil => cases h
  | cons b r => simp [admin] at h; exact ⟨r, by simp [h]⟩

/-- The sender is another, and a list that they send has them first. -/
def Honest (name : Bytes) (s : State) : Ev → Prop
  | .recv src m _ => src ≠ s.self ∧ ∀ gl, listOf m = some gl → gl.name = name → admin gl = some src
  | _ => True

theorem joins_step {upper : Bytes → Bytes} {s s' : State} {e : Ev} {name : Bytes} (hh : Honest name s e)
    (hj : ∀ n, s.joins.get (n, s.self) = none) (h : step upper s e = .ok s') :
    ∀ n, s'.joins.get (n, s.self) = none := by
  intro n
  cases e with
  | recv src m flt =>
    cases m with
    | invite n' i =>
      cases h
      unfold recvInvite
      repeat' split
      · exact hj n
      · exact hj n
      · exact hj n
      · dsimp only
        rw [GoMap.get_set_ne _ _ (by intro he; exact hh.1 (Prod.ext_iff.mp he).2)]
        exact hj n
    | kill n' =>
      simp only [step, recv, recvKill, deleteGroup] at h
      repeat' split at h
      all_goals first | cases h; done | (cases h; exact hj n)
    | message n' gen text me =>
      simp only [step, recv, recvMessage] at h
      repeat' split at h
      all_goals first | cases h; done | (cases h; exact hj n)
    | _ =>
      cases h
      simp only [recvJoin, recvPart, recvKick, deleteGroup, updateGroupList, sendAll]
      (repeat' split) <;> exact hj n
  | cmd c flt =>
    cases h
    cases c with
    | join n' token src =>
      simp only [cmd, cmdJoin, sendAll]
      repeat' split
      all_goals first
        | exact hj n
        | (dsimp only
           rw [GoMap.get_del]
           split
           · rfl
           · exact hj n)
    | _ =>
      simp only [cmd, cmdNew, cmdInvite, cmdKick, cmdPart, cmdKill, cmdMessage, deleteGroup, sendAll]
      (repeat' split) <;> exact hj n
  | ack i =>
    cases h
    simp only [ack]
    (repeat' split) <;> exact hj n
  | meet i => cases h; exact hj n
  | tick d => cases h; exact hj n

theorem named_step {upper : Bytes → Bytes} {s s' : State} {e : Ev} {name : Bytes} (hh : Honest name s e)
    (hn : Named s) (h : step upper s e = .ok s') : Named s' := by
  obtain ⟨h1, h2, h3⟩ := hn
  refine ⟨fun n g hg => ?_, fun k hk => ?_, ?_⟩
  · cases groups_step h hg with
    | same h => exact h1 n g h
    | join he hg0 ha hi ht hk hm h => subst h; exact (h1 n _ hg0 :)
    | part he hg0 ha hm h => subst h; exact (h1 n _ hg0 :)
    | list he hm hn hg ha => exact hn
    | new he hg h => subst h; rfl
    | joined he hg h => subst h; rfl
    | kicked he hk hn hw hg h =>
      subst h; rw [h2 _ (List.mem_of_getElem? hk)]; exact hn
  · rcases kicks_step h with hk' | ⟨n, who, flt, g, rfl, hg, ha, hw, hgr, hk'⟩ | ⟨n, k0, rfl, hk0, hk'⟩
    · rw [hk'] at hk; exact h2 k hk
    · rw [hk', List.mem_append, List.mem_singleton] at hk
      rcases hk with hk | rfl
      · exact h2 k hk
      · exact h1 n g hg
    · rw [hk'] at hk
      rcases List.mem_or_eq_of_mem_set hk with hk | rfl
      · exact h2 k hk
      · exact h2 k0 (List.mem_of_getElem? hk0)
  · rw [(step_self h).1]; exact joins_step hh h3 h

/-- The events by which an administrator tells the others about the group. -/
def leads (name : Bytes) : Ev → Prop
  | .recv _ (.join n _) _ | .recv _ (.part n) _ | .cmd (.kick n _) _ | .cmd (.kill n _) _ => n = name
  | _ => False

theorem tells_out {upper : Bytes → Bytes} {s s' : State} {e : Ev} {name : Bytes} (hn : Named s)
    (h : step upper s e = .ok s') (ho : s.out = []) (he : ¬ leads name e) : ∀ p ∈ s'.out, tells name p.2 = false := by
  have all : ∀ {l : List Id} {m : Msg}, tells name m = false →
      ∀ p ∈ (l.map fun i => (i, m)), tells name p.2 = false := by
    intro l m hm p hp
    obtain ⟨i, _, rfl⟩ := List.mem_map.mp hp
    exact hm
  have nil : ∀ p ∈ s.out, tells name p.2 = false := by rw [ho]; intro p hp; cases hp
  cases e with
  | recv src m flt =>
    cases m with
    | join n tok =>
      cases h
      have hne : n ≠ name := he
      unfold recvJoin
      split
      · exact nil
      rename_i g hg
      have := hn.1 n g hg
      repeat' split
      all_goals first
        | exact nil
        | (simp only [sendAll, ho, List.nil_append]
           exact all (by simp [tells, this, hne]))
    | part n =>
      cases h
      have hne : n ≠ name := he
      unfold recvPart
      split
      · exact nil
      rename_i g hg
      have := hn.1 n g hg
      repeat' split
      all_goals first
        | exact nil
        | (simp only [sendAll, ho, List.nil_append]
           exact all (by simp [tells, this, hne]))
    | kill n' =>
      simp only [step, recv, recvKill, deleteGroup] at h
      repeat' split at h
      all_goals first | cases h; done | (cases h; exact nil)
    | message n' gen text me =>
      simp only [step, recv, recvMessage] at h
      repeat' split at h
      all_goals first | cases h; done | (cases h; exact nil)
    | _ =>
      cases h
      simp only [recvInvite, recvKick, deleteGroup, updateGroupList]
      (repeat' split) <;> exact nil
  | cmd c flt =>
    cases h
    cases c with
    | kick n who =>
      have hne : n ≠ name := he
      simp only [cmd, cmdKick]
      split
      · exact nil
      rename_i g hg
      have := hn.1 n g hg
      repeat' split
      all_goals first
        | exact nil
        | (simp only [sendAll, ho, List.nil_append]
           exact all (by simp [tells, this, hne]))
    | kill n online =>
      have hne : n ≠ name := he
      simp only [cmd, cmdKill, deleteGroup]
      repeat' split
      all_goals first
        | exact nil
        | (simp only [sendAll, ho, List.nil_append]
           exact all (by simp [tells, hne]))
    | _ =>
      simp only [cmd, cmdNew, cmdInvite, cmdJoin, cmdPart, cmdMessage, deleteGroup, sendAll]
      repeat' split
      all_goals first
        | exact nil
        | (simp only [ho, List.nil_append]
           exact all rfl)
  | ack i =>
    cases h
    simp only [ack]
    (repeat' split) <;> exact nil
  | meet i => cases h; exact nil
  | tick d => cases h; exact nil

theorem adm_same {name : Bytes} {s s' : State} {T : Option GroupList} (h : Adm name s T) (hs : s'.self = s.self)
    (hg : s'.groups.get name = s.groups.get name) (hk : s'.kicks = s.kicks) : Adm name s' T := by
  cases T <;> simpa only [Adm, hs, hg, hk] using h

/-- Another's kick is no matter. -/
theorem adm_append {name : Bytes} {s s' : State} {T : Option GroupList} {k0 : Kick} (h : Adm name s T)
    (hs : s'.self = s.self) (hg : s'.groups.get name = s.groups.get name) (hk : s'.kicks = s.kicks ++ [k0])
    (hu : ¬ Under name k0) : Adm name s' T := by
  have idx : ∀ {j : Nat} {k : Kick}, (s.kicks ++ [k0])[j]? = some k → Under name k → s.kicks[j]? = some k := by
    intro j k hj hkk
    by_cases hlt : j < s.kicks.length
    · rwa [List.getElem?_append_left hlt] at hj
    · rw [List.getElem?_append_right (by omega)] at hj
      have := List.mem_singleton.mp (List.mem_of_getElem? hj)
      rw [this] at hkk
      exact absurd hkk hu
  have none_ : (∀ k ∈ s.kicks, ¬ Under name k) → ∀ k ∈ s'.kicks, ¬ Under name k := by
    intro hno k hk'
    rw [hk, List.mem_append, List.mem_singleton] at hk'
    rcases hk' with hk' | rfl
    · exact hno k hk'
    · exact hu
  cases T with
  | none => exact ⟨by rw [hs, hg]; exact h.1, none_ h.2⟩
  | some gl =>
    obtain ⟨a, b, c, g, d, e, f⟩ := h
    refine ⟨a, by rw [hs]; exact b, c, g, by rw [hg]; exact d, by rw [hs]; exact e, ?_⟩
    rcases f with ⟨f, hno⟩ | ⟨i, k, hi, hu', hgl, huniq⟩
    · exact .inl ⟨f, none_ hno⟩
    · refine .inr ⟨i, k, ?_, hu', hgl, fun j k' hj hk' => ?_⟩
      · rw [hk, List.getElem?_append_left (List.getElem?_eq_some_iff.mp hi).1]; exact hi
      · rw [hk] at hj; exact huniq j k' (idx hj hk') hk'

theorem adm_some {name : Bytes} {s : State} {T : Option GroupList} {g : GroupList} (h : Adm name s T)
    (hg : s.groups.get name = some g) (ha : admin g = some s.self) (hno : ∀ k ∈ s.kicks, ¬ Under name k) :
    T = some g ∧ g.members.Nodup ∧ g.name = name := by
  cases T with
  | none => exact absurd ha (h.1 g hg)
  | some gl =>
    obtain ⟨a, b, c, g', d, e, f⟩ := h
    rw [hg] at d; cases d
    rcases f with ⟨rfl, _⟩ | ⟨i, k, hi, hu, _⟩
    · exact ⟨rfl, c, a⟩
    · exact absurd hu (hno k (List.mem_of_getElem? hi))

theorem adm_ack {name : Bytes} {s : State} {T : Option GroupList} {n : Nat} (h : Adm name s T) :
    Adm name (ack s n) T := by
  unfold ack
  split
  · exact h
  rename_i k0 hk0
  have hlt : n < s.kicks.length := (List.getElem?_eq_some_iff.mp hk0).1
  -- what is under way afterwards was before
  have back : ∀ {j : Nat} {k : Kick}, (s.kicks.set n { k0 with got := k0.got + 1 })[j]? = some k → Under name k →
      ∃ k', s.kicks[j]? = some k' ∧ Under name k' ∧ k'.ngc = k.ngc := by
    intro j k hj hu
    by_cases hjn : j = n
    · subst hjn
      rw [List.getElem?_set_self hlt] at hj
      cases hj
      exact ⟨k0, hk0, ⟨hu.1, by have := hu.2; simp at this; omega⟩, rfl⟩
    · rw [List.getElem?_set_ne (Ne.symm hjn)] at hj
      exact ⟨k, hj, hu, rfl⟩
  have none_ : (∀ k ∈ s.kicks, ¬ Under name k) →
      ∀ k ∈ s.kicks.set n { k0 with got := k0.got + 1 }, ¬ Under name k := by
    intro hno k hk hu
    obtain ⟨j, hj⟩ := List.mem_iff_getElem?.mp hk
    obtain ⟨k', hk', hu', _⟩ := back hj hu
    exact hno k' (List.mem_of_getElem? hk') hu'
  -- the kick is not the last of the group
  have keep : ∀ {s' : State}, s'.self = s.self → s'.groups.get name = s.groups.get name →
      s'.kicks = s.kicks.set n { k0 with got := k0.got + 1 } → ¬ (k0.name = name ∧ k0.got + 1 = k0.want) →
      Adm name s' T := by
    intro s' e1 e2 e3 hl
    cases T with
    | none => exact ⟨by rw [e1, e2]; exact h.1, by rw [e3]; exact none_ h.2⟩
    | some gl =>
      obtain ⟨a, b, c, g, d, e, f⟩ := h
      refine ⟨a, by rw [e1]; exact b, c, g, by rw [e2]; exact d, by rw [e1]; exact e, ?_⟩
      rw [e3]
      rcases f with ⟨f, hno⟩ | ⟨i, k, hi, hu, hgl, huniq⟩
      · exact .inl ⟨f, none_ hno⟩
      · have hu2 : ∀ (j : Nat) (k' : Kick), (s.kicks.set n { k0 with got := k0.got + 1 })[j]? = some k' →
            Under name k' → j = i := by
          intro j k' hj hk'
          obtain ⟨k'', h1, h2, _⟩ := back hj hk'
          exact huniq j k'' h1 h2
        by_cases hin : i = n
        · subst hin
          rw [hi] at hk0; cases hk0
          refine .inr ⟨i, _, List.getElem?_set_self hlt, ⟨hu.1, ?_⟩, hgl, hu2⟩
          have := hu.2
          have : k0.got + 1 ≠ k0.want := fun hw => hl ⟨hu.1, hw⟩
          dsimp only
          omega
        · exact .inr ⟨i, k, by rw [List.getElem?_set_ne (Ne.symm hin)]; exact hi, hu, hgl, hu2⟩
  dsimp only
  split
  · rename_i hw
    exact keep rfl rfl rfl fun h => hw h.2
  · rename_i hw
    have hw : k0.got + 1 = k0.want := by simpa using hw
    split
    · rename_i hnone
      refine keep rfl rfl rfl fun hl => ?_
      have hu : Under name k0 := ⟨hl.1, by omega⟩
      cases T with
      | none => exact h.2 k0 (List.mem_of_getElem? hk0) hu
      | some gl =>
        obtain ⟨_, _, _, g, hg, _⟩ := h
        rw [hl.1] at hnone
        rw [hnone] at hg; cases hg
    · by_cases hkn : k0.name = name
      · have hu : Under name k0 := ⟨hkn, by omega⟩
        cases T with
        | none => exact absurd hu (h.2 k0 (List.mem_of_getElem? hk0))
        | some gl =>
          obtain ⟨a, b, c, g, d, e, f⟩ := h
          rcases f with ⟨_, hno⟩ | ⟨i, k, hi, hu', hgl, huniq⟩
          · exact absurd hu (hno k0 (List.mem_of_getElem? hk0))
          · have := huniq n k0 hk0 hu
            subst this
            rw [hi] at hk0; cases hk0
            refine ⟨a, b, c, gl, ?_, b, .inl ⟨rfl, fun k' hk' hu'' => ?_⟩⟩
            · dsimp only
              rw [hkn, hgl]; exact GoMap.get_set_self _ _ _
            · obtain ⟨j, hj⟩ := List.mem_iff_getElem?.mp hk'
              obtain ⟨k'', h1, h2, _⟩ := back hj hu''
              have := huniq j k'' h1 h2
              subst this
              rw [List.getElem?_set_self hlt] at hj
              cases hj
              have := hu''.2
              simp at this
              omega
      · exact keep rfl (GoMap.get_set_ne _ _ hkn) rfl fun h => hkn h.1

/-- What a step of an orderly run does to the list that a client makes known. -/
theorem adm_step {upper : Bytes → Bytes} {name : Bytes} (hv : validName name = true) {s s' : State} {e : Ev}
    {T : Option GroupList} (hn : Named s) (hA : Adm name s T) (ho : s.out = []) (hq : orderly name s e)
    (hh : Honest name s e) (h : step upper s e = .ok s') :
    ∃ T', Adm name s' T' ∧ Change name s.self T T' s'.out e := by
  have hself := (step_self h).1
  -- steps that do not lead
  have rest : ¬ leads name e → s'.groups.get name = s.groups.get name → s'.kicks = s.kicks →
      ∃ T', Adm name s' T' ∧ Change name s.self T T' s'.out e := fun hl hg hk =>
    ⟨T, adm_same hA hself hg hk, .quiet (tells_out hn h ho hl)⟩
  -- a list of another
  have other : ¬ leads name e → s'.kicks = s.kicks →
      (∀ g, s.groups.get name = some g → admin g = some s.self → s'.groups.get name = some g) →
      (∀ g, s'.groups.get name = some g → admin g = some s.self → s.groups.get name = some g) →
      ∃ T', Adm name s' T' ∧ Change name s.self T T' s'.out e := by
    intro hl hk h1 h2
    refine ⟨T, ?_, .quiet (tells_out hn h ho hl)⟩
    cases T with
    | none =>
      refine ⟨fun g hg ha => ?_, by rw [hk]; exact hA.2⟩
      rw [hself] at ha
      exact hA.1 g (h2 g hg ha) ha
    | some gl =>
      obtain ⟨a, b, c, g, d, e, f⟩ := hA
      exact ⟨a, by rw [hself]; exact b, c, g, h1 g d e, by rw [hself]; exact e, by rw [hk]; exact f⟩
  have hkicks := kicks_step h
  cases e with
  | recv src m flt =>
    have hk : s'.kicks = s.kicks := by
      rcases hkicks with hk | ⟨_, _, _, _, he, _⟩ | ⟨_, _, he, _⟩
      · exact hk
      · cases he
      · cases he
    by_cases hch : s'.groups.get name = s.groups.get name
    · by_cases hl : leads name (.recv src m flt)
      · refine ⟨T, adm_same hA hself hch hk, .quiet ?_⟩
        have nil : ∀ p ∈ s.out, tells name p.2 = false := by rw [ho]; intro p hp; cases hp
        cases m with
        | join n tok =>
          have : n = name := hl
          subst this
          cases h
          revert hch
          unfold recvJoin
          repeat' split
          all_goals intro hch
          all_goals first
            | exact nil
            | skip
          exfalso
          rename_i g hg _ _ _ _ _ _ _ _ _
          dsimp only [sendAll] at hch
          rw [GoMap.get_set_self, hg] at hch
          have := congrArg GroupList.members (Option.some.inj hch)
          simp at this
        | part n =>
          have : n = name := hl
          subst this
          cases h
          revert hch
          unfold recvPart
          repeat' split
          all_goals intro hch
          all_goals first
            | exact nil
            | skip
          exfalso
          rename_i g hg _ hm
          dsimp only [sendAll] at hch
          rw [GoMap.get_set_self, hg] at hch
          have := congrArg (fun g => g.members.length) (Option.some.inj hch)
          simp only [List.length_append, List.length_take] at this
          have hm : src ∈ g.members.tail := by simpa using hm
          rw [List.length_erase_of_mem hm] at this
          have := List.length_pos_of_mem hm
          simp at this
          simp at *
          omega
        | _ => exact absurd hl (by simp [leads])
      · exact rest hl hch hk
    · obtain ⟨g, hg, h1 | ⟨ha, tok, i, rfl, hi, ht, h2⟩ | ⟨ha, rfl, hm, h2⟩⟩ := C47_only_admin h hch
      · -- another administrator
        have hl : ¬ leads name (.recv src m flt) := by
          intro hl
          cases m <;> first | exact hl | exact h1.2
        refine other hl hk (fun g' hg' ha' => ?_) (fun g' hg' ha' => ?_)
        · rw [hg] at hg'; cases hg'
          rw [h1.1] at ha'
          exact absurd (Option.some.inj ha') hh.1
        · cases groups_step h hg' with
          | same h => exact h
          | join he => cases he; exact h1.2.elim
          | part he => cases he; exact h1.2.elim
          | list he hm hnm hg0 ha0 =>
            cases he
            have : listOf m = some g' := by cases m <;> simp_all [Msg.gl, listOf]
            rw [hh.2 g' this hnm] at ha'
            exact absurd (Option.some.inj ha') hh.1
          | new he => cases he
          | joined he => cases he
          | kicked he => cases he
      · -- a join
        have hno := hq rfl
        obtain ⟨rfl, hnd, hname⟩ := adm_some hA hg ha hno
        cases h
        have hne : (recvJoin s src name tok flt).groups.get name ≠ s.groups.get name := hch
        obtain ⟨_, g', i', hg', _, _, _, _, hm, he⟩ := recvJoin_get hne
        rw [hg] at hg'; cases hg'
        obtain ⟨r, hr⟩ := admin_eq ha
        have hsrc : src ∉ g.members := by
          rw [hr] at hm ⊢
          simp only [List.tail_cons] at hm
          simp only [List.mem_cons, not_or]
          exact ⟨hh.1, hm⟩
        refine ⟨some ⟨g.name, inc (inc g.gen), g.members ++ [src]⟩, ?_, ?_⟩
        · refine ⟨hname, ?_, ?_, _, h2, ?_, .inl ⟨rfl, by rw [hk]; exact hno⟩⟩
          · rw [hself]; simp [admin, hr]
          · rw [List.nodup_append]
            refine ⟨hnd, List.nodup_singleton _, ?_⟩
            intro a ha b hb hab
            rw [List.mem_singleton] at hb
            subst hab hb
            exact hsrc ha
          · rw [hself]; simp [admin, hr]
        · rw [he]
          simp only [sendAll, ho, List.nil_append]
          exact .added hsrc rfl
      · -- a part
        have hno := hq rfl
        obtain ⟨rfl, hnd, hname⟩ := adm_some hA hg ha hno
        cases h
        obtain ⟨r, hr⟩ := admin_eq ha
        have hsrc : src ≠ s.self := hh.1
        have hmem : g.members.take 1 ++ g.members.tail.erase src = g.members.filter (· ≠ src) := by
          rw [hr] at hnd ⊢
          rw [List.nodup_cons] at hnd
          simp only [List.take_succ_cons, List.take_zero, List.tail_cons, List.cons_append, List.nil_append]
          rw [List.filter_cons_of_pos (by simpa using Ne.symm hsrc), hnd.2.erase_eq_filter]
          congr 1
          exact List.filter_congr fun x _ => by simp [bne, Bool.beq_eq_decide_eq]
        rw [hmem] at h2
        have had : admin ⟨g.name, inc g.gen, g.members.filter (· ≠ src)⟩ = some s.self := by
          simp only [admin, hr]
          rw [List.filter_cons_of_pos (by simpa using Ne.symm hsrc)]
          rfl
        refine ⟨some ⟨g.name, inc g.gen, g.members.filter (· ≠ src)⟩, ?_, ?_⟩
        · exact ⟨hname, by rw [hself]; exact had, hnd.filter _, _, h2, by rw [hself]; exact had,
            .inl ⟨rfl, by rw [hk]; exact hno⟩⟩
        · have : (recvPart s src name).out =
              g.members.tail.map fun i => (i, .kick src true ⟨g.name, inc g.gen, g.members.filter (· ≠ src)⟩) := by
            unfold recvPart
            rw [hg]
            simp only [ha, ne_eq, not_true_eq_false, if_false, hm]
            simp only [sendAll, ho, List.nil_append, hmem]
          rw [this]
          exact .removed hsrc rfl
  | cmd c flt =>
    cases c with
    | kick n who =>
      cases h
      by_cases hnn : n = name
      · subst hnn
        have hno := hq rfl
        have quiet : cmdKick s n who = s → ∃ T', Adm n (cmdKick s n who) T' ∧
            Change n s.self T T' (cmdKick s n who).out (.cmd (.kick n who) flt) := by
          intro he
          rw [he]
          exact ⟨T, hA, .quiet (by rw [ho]; intro p hp; cases hp)⟩
        cases hg : s.groups.get n with
        | none => exact quiet (by simp [cmdKick, hg])
        | some g =>
          by_cases ha : admin g = some s.self
          swap
          · exact quiet (by simp [cmdKick, hg, ha])
          by_cases hw : who = s.self
          · exact quiet (by simp [cmdKick, hg, hw])
          obtain ⟨rfl, hnd, hname⟩ := adm_some hA hg ha hno
          obtain ⟨r, hr⟩ := admin_eq ha
          have he : cmdKick s n who = sendAll { s with kicks := s.kicks ++ [⟨n, ⟨g.name, inc g.gen,
              g.members.filter (· ≠ who)⟩, 0, g.members.length - 1, who, g⟩] } g.members.tail
              (.kick who false ⟨g.name, inc g.gen, g.members.filter (· ≠ who)⟩) := by
            simp [cmdKick, hg, ha, hw]
          change ∃ T', Adm n (cmdKick s n who) T' ∧ Change n s.self (some g) T' (cmdKick s n who).out _
          rw [he]
          by_cases h0 : g.members.length - 1 = 0
          · refine ⟨some g, ?_, .quiet ?_⟩
            · exact adm_append hA rfl rfl rfl (by intro hu; have := hu.2; dsimp only at this; omega)
            · have : r = [] := by
                rw [hr] at h0; simpa using h0
              simp [sendAll, ho, hr, this]
          · have had : admin ⟨g.name, inc g.gen, g.members.filter (· ≠ who)⟩ = some s.self := by
              simp only [admin, hr]
              rw [List.filter_cons_of_pos (by simpa using Ne.symm hw)]
              rfl
            refine ⟨some ⟨g.name, inc g.gen, g.members.filter (· ≠ who)⟩, ?_, ?_⟩
            · refine ⟨hname, had, hnd.filter _, g, hg, ha, .inr ⟨s.kicks.length, ⟨n, ⟨g.name, inc g.gen,
                g.members.filter (· ≠ who)⟩, 0, g.members.length - 1, who, g⟩, ?_, ⟨rfl, ?_⟩, rfl, ?_⟩⟩
              · simp [sendAll]
              · dsimp only
                omega
              · intro j k' hj hu
                by_cases hlt : j < s.kicks.length
                · dsimp only [sendAll] at hj
                  rw [List.getElem?_append_left hlt] at hj
                  exact absurd hu (hno k' (List.mem_of_getElem? hj))
                · have := (List.getElem?_eq_some_iff.mp hj).1
                  simp [sendAll] at this
                  omega
            · simp only [sendAll, ho, List.nil_append]
              exact .removed hw rfl
      · have hl : ¬ leads name (.cmd (.kick n who) flt) := hnn
        rcases hkicks with hk | ⟨n', who', flt', g, he, hg, ha, hw, hgr, hk⟩ | ⟨_, _, he, _⟩
        · exact rest hl (untouched (upper := upper) (e := .cmd (.kick n who) flt) rfl hnn (fun n he => by cases he)) hk
        · cases he
          refine ⟨T, adm_append hA hself (by rw [hgr]) hk (fun hu => hnn hu.1), .quiet ?_⟩
          exact tells_out (upper := upper) (e := .cmd (.kick n who) flt) hn rfl ho hl
        · cases he
    | kill n online =>
      have hk : s'.kicks = s.kicks := by
        rcases hkicks with hk | ⟨_, _, _, _, he, _⟩ | ⟨_, _, he, _⟩
        · exact hk
        · cases he
        · cases he
      by_cases hnn : n = name
      · subst hnn
        have hno := hq rfl
        cases h
        simp only [cmd] at *
        have quiet : cmdKill s n online = s → ∃ T', Adm n (cmdKill s n online) T' ∧
            Change n s.self T T' (cmdKill s n online).out (.cmd (.kill n online) flt) := by
          intro he
          rw [he]
          exact ⟨T, hA, .quiet (by rw [ho]; intro p hp; cases hp)⟩
        by_cases hon : online = true
        swap
        · exact quiet (by simp [cmdKill, hon])
        cases hg : s.groups.get n with
        | none => exact quiet (by simp [cmdKill, hg])
        | some g =>
          cases hm : g.members with
          | nil =>
            have : T = none := by
              cases T with
              | none => rfl
              | some gl =>
                obtain ⟨_, _, _, g', d, e, _⟩ := hA
                rw [hg] at d; cases d
                simp [admin, hm] at e
            subst this
            refine ⟨none, ⟨?_, ?_⟩, .quiet ?_⟩
            · simp [cmdKill, hon, hg, hm, deleteGroup, hv]
            · rw [hk]; exact hno
            · simp [cmdKill, hon, hg, hm, deleteGroup, hv, ho]
          | cons b r =>
            by_cases hb : b = s.self
            · subst hb
              obtain ⟨rfl, hnd, hname⟩ := adm_some hA hg (by simp [admin, hm]) hno
              refine ⟨none, ⟨?_, ?_⟩, ?_⟩
              · simp [cmdKill, hon, hg, hm, deleteGroup, hv, sendAll]
              · rw [hk]; exact hno
              · have : (cmdKill s n online).out = g.members.tail.map fun i => (i, .kill n) := by
                  simp [cmdKill, hon, hg, hm, deleteGroup, hv, sendAll, ho]
                rw [this]
                exact .killed
            · exact quiet (by simp [cmdKill, hg, hm, hb])
      · exact rest hnn (untouched h hnn (fun n he => by cases he)) hk
    | new n onDisk =>
      have hk : s'.kicks = s.kicks := by
        rcases hkicks with hk | ⟨_, _, _, _, he, _⟩ | ⟨_, _, he, _⟩
        · exact hk
        · cases he
        · cases he
      by_cases hnn : n = name
      · subst hnn
        cases h
        simp only [cmd, cmdNew] at *
        split
        · exact ⟨T, hA, .quiet (by rw [ho]; intro p hp; cases hp)⟩
        split
        · exact ⟨T, hA, .quiet (by rw [ho]; intro p hp; cases hp)⟩
        rename_i hnone
        have : T = none := by
          cases T with
          | none => rfl
          | some gl =>
            obtain ⟨_, _, _, g', d, _⟩ := hA
            rw [d] at hnone; exact absurd rfl hnone
        subst this
        refine ⟨some ⟨n, 0, [s.self]⟩, ⟨rfl, rfl, List.nodup_singleton _, _, GoMap.get_set_self _ _ _, rfl,
          .inl ⟨rfl, hA.2⟩⟩, ?_⟩
        dsimp only
        rw [ho]
        exact .born
      · exact rest (by simp [leads]) (untouched h hnn (fun n he => by cases he)) hk
    | join n tok src =>
      have hk : s'.kicks = s.kicks := by
        rcases hkicks with hk | ⟨_, _, _, _, he, _⟩ | ⟨_, _, he, _⟩
        · exact hk
        · cases he
        · cases he
      by_cases hnn : n = name
      · subst hnn
        refine other (by simp [leads]) hk (fun g hg ha => ?_) (fun g hg ha => ?_)
        · cases h
          simp [cmd, cmdJoin, hg]
        · cases groups_step h hg with
          | same h => exact h
          | join he => cases he
          | part he => cases he
          | list he => cases he
          | new he => cases he
          | joined he hg0 h0 =>
            cases he
            subst h0
            simp only [admin, List.head?_cons, Option.some.injEq] at ha
            subst ha
            exfalso
            cases h
            simp [cmd, cmdJoin, hg0, hn.2.2 n] at hg
          | kicked he => cases he
      · exact rest (by simp [leads]) (untouched h hnn (fun n he => by cases he)) hk
    | partForce n =>
      have hk : s'.kicks = s.kicks := by
        rcases hkicks with hk | ⟨_, _, _, _, he, _⟩ | ⟨_, _, he, _⟩
        · exact hk
        · cases he
        · cases he
      exact rest (by simp [leads]) (untouched h hq (fun n he => by cases he)) hk
    | _ =>
      have hk : s'.kicks = s.kicks := by
        rcases hkicks with hk | ⟨_, _, _, _, he, _⟩ | ⟨_, _, he, _⟩
        · exact hk
        · cases he
        · cases he
      exact rest (by simp [leads]) (untouched h (by simp [touches]) (fun n he => by cases he)) hk
  | ack n =>
    refine ⟨T, ?_, .quiet (tells_out hn h ho (by simp [leads]))⟩
    cases h
    exact adm_ack hA
  | meet i => cases h; exact rest (by simp [leads]) rfl rfl
  | tick d => cases h; exact rest (by simp [leads]) rfl rfl

/-! ## One client as a member -/

theorem joins_out {upper : Bytes → Bytes} {s s' : State} {e : Ev} {name : Bytes}
    (h : step upper s e = .ok s') (ho : s.out = []) {p : Id × Msg} (hp : p ∈ s'.out)
    (hj : isJoin name p.2 = true) :
    (∃ tok flt, e = .cmd (.join name tok p.1) flt) ∧ s.groups.get name = none ∧
      s'.groups.get name = some ⟨name, 0, [p.1]⟩ ∧ s'.out = [p] := by
  have nil : ∀ {P : Prop}, p ∈ s.out → P := by rw [ho]; intro P hp; cases hp
  have all : ∀ {l : List Id} {m : Msg} {P : Prop}, isJoin name m = false → p ∈ (l.map fun i => (i, m)) → P := by
    intro l m P hm hp
    obtain ⟨i, _, rfl⟩ := List.mem_map.mp hp
    rw [hm] at hj; cases hj
  cases e with
  | recv src m flt =>
    cases m with
    | kill n' =>
      simp only [step, recv, recvKill, deleteGroup] at h
      repeat' split at h
      all_goals first | cases h; done | (cases h; exact nil hp)
    | message n' gen text me =>
      simp only [step, recv, recvMessage] at h
      repeat' split at h
      all_goals first | cases h; done | (cases h; exact nil hp)
    | _ =>
      cases h
      simp only [recvInvite, recvJoin, recvPart, recvKick, deleteGroup, updateGroupList, sendAll] at hp
      repeat' split at hp
      all_goals first
        | exact nil hp
        | (rw [ho, List.nil_append] at hp
           exact all rfl hp)
  | cmd c flt =>
    cases h
    cases c with
    | join n tok src =>
      simp only [cmd] at hp ⊢
      have key : s.groups.get n = none → p ∈ (sendAll { s with groups := s.groups.set n ⟨n, 0, [src]⟩ } [src]
          (.join n tok)).out → n = name ∧ p = (src, .join n tok) := by
        intro _ hp
        simp only [sendAll, ho, List.map_cons, List.map_nil, List.nil_append, List.mem_singleton] at hp
        subst hp
        simpa [isJoin] using hj
      unfold cmdJoin at hp ⊢
      split at hp
      · exact nil hp
      rename_i hg
      have hg : s.groups.get n = none := by simpa using hg
      split at hp
      · exact nil hp
      split at hp
      · exact nil hp
      rename_i hi ht
      rw [if_neg (by simp [hg]), if_neg ht]
      dsimp only
      have : n = name ∧ p = (src, .join n tok) := by
        dsimp only at hp
        repeat' split at hp
        all_goals exact key hg hp
      obtain ⟨rfl, rfl⟩ := this
      refine ⟨⟨tok, flt, rfl⟩, hg, ?_, ?_⟩
      · repeat' split
        all_goals exact GoMap.get_set_self _ _ _
      · repeat' split
        all_goals simp [sendAll, ho]
    | _ =>
      simp only [cmd, cmdNew, cmdInvite, cmdKick, cmdPart, cmdKill, cmdMessage, deleteGroup, sendAll] at hp
      repeat' split at hp
      all_goals first
        | exact nil hp
        | (rw [ho, List.nil_append] at hp
           exact all rfl hp)
  | ack i =>
    cases h
    simp only [ack] at hp
    repeat' split at hp
    all_goals exact nil hp
  | meet i => cases h; exact nil hp
  | tick d => cases h; exact nil hp

/-- A request is sent when a group is joined. -/
theorem joined_out {s : State} {n : Bytes} {tok : Nat} {src : Id} {flt : Fault} (ho : s.out = [])
    (hg : s.groups.get n = none) (h : (cmdJoin s n tok src flt).groups.get n ≠ none) :
    (cmdJoin s n tok src flt).out = [(src, .join n tok)] := by
  unfold cmdJoin at h ⊢
  rw [if_neg (by simp [hg])] at h ⊢
  split at h
  · exact absurd hg h
  dsimp only at h ⊢
  split at h
  · exact absurd hg h
  rename_i ht
  rw [if_neg ht]
  repeat' split
  all_goals simp [sendAll, ho]

/-- What the administrator says is taken over. -/
theorem mem_tell {upper : Bytes → Bytes} {name : Bytes} (hv : validName name = true) {s s' : State} {a : Id} {x : Msg}
    {flt : Fault} {g : GroupList} (h : step upper s (.recv a x flt) = .ok s') (hx : tells name x = true)
    (hg : s.groups.get name = some g) (ha : admin g = some a) :
    if clears name s.self x then s'.groups.get name = none
    else ∃ gl, listOf x = some gl ∧ s'.groups.get name = some gl := by
  have upd : ∀ gl : GroupList, gl.name = name → (updateGroupList s a gl).groups.get name = some gl := by
    intro gl hn
    subst hn
    simp [updateGroupList, hg, ha]
  cases x with
  | list gl =>
    cases h
    have : gl.name = name := by simpa [tells] using hx
    simp only [clears, Bool.false_eq_true, if_false]
    exact ⟨gl, rfl, upd gl this⟩
  | update gl =>
    cases h
    have : gl.name = name := by simpa [tells] using hx
    simp only [clears, Bool.false_eq_true, if_false]
    exact ⟨gl, rfl, upd gl this⟩
  | kick k p gl =>
    cases h
    have hn : gl.name = name := by simpa [tells] using hx
    by_cases hk : k = s.self
    · subst hn
      simp only [clears, hk]
      simp [recvKick, hg, ha, deleteGroup, hv]
    · rw [if_neg (by simp [clears, hk])]
      refine ⟨gl, rfl, ?_⟩
      have := upd gl hn
      subst hn
      simpa [recvKick, hg, ha, hk] using this
  | kill n =>
    have hn : n = name := by simpa [tells] using hx
    subst hn
    obtain ⟨r, hr⟩ := admin_eq ha
    simp only [step, recv, recvKill, hg, hr] at h
    simp only [ne_eq, not_true_eq_false, if_false] at h
    cases h
    simp [clears, deleteGroup, hv]
  | _ => cases hx

/-- Nothing else changes a group that another administers. -/
theorem mem_same {upper : Bytes → Bytes} {name : Bytes} {s s' : State} {e : Ev} {T : Option GroupList} {a : Id}
    (hA : Adm name s T) (hq : orderly name s e) (hh : Honest name s e) (h : step upper s e = .ok s')
    (hne : a ≠ s.self) (hx : ∀ x flt, e = .recv a x flt → tells name x = false)
    (hj : s.groups.get name = none → s'.groups.get name ≠ some ⟨name, 0, [a]⟩) :
    Same a (s.groups.get name) (s'.groups.get name) := by
  -- the last acknowledgement of a kick is for a group of one's own
  have last : ∀ {n : Nat} {k : Kick} {g : GroupList}, s.kicks[n]? = some k → k.name = name → k.got + 1 = k.want → s.groups.get name = some g →
      admin g = some s.self ∧ admin k.ngc = some s.self := by
    intro n k g hk hkn hw hg
    have hu : Under name k := ⟨hkn, by omega⟩
    cases T with
    | none => exact absurd hu (hA.2 k (List.mem_of_getElem? hk))
    | some gl =>
      obtain ⟨p, q, c, g', d, e, f⟩ := hA
      rw [hg] at d; cases d
      rcases f with ⟨_, hno⟩ | ⟨i, k', hi, hu', hgl, huniq⟩
      · exact absurd hu (hno k (List.mem_of_getElem? hk))
      · have := huniq n k hk hu
        subst this
        rw [hi] at hk; cases hk
        exact ⟨e, by rw [hgl]; exact q⟩
  have tells_gl : ∀ {m : Msg} {gl : GroupList}, m.gl = some gl → gl.name = name → tells name m = true ∧
      listOf m = some gl := by
    intro m gl hm hn
    cases m <;> simp_all [Msg.gl, tells, listOf]
  refine ⟨fun g hg ha => ?_, fun g' hg' ha' => ?_⟩
  · by_cases hch : s'.groups.get name = s.groups.get name
    · rw [hch, hg]
    exfalso
    cases e with
    | recv src m flt =>
      obtain ⟨g0, hg0, h1 | ⟨ha0, _⟩ | ⟨ha0, _⟩⟩ := C47_only_admin h hch
      · rw [hg] at hg0; cases hg0
        rw [ha] at h1
        have : a = src := Option.some.inj h1.1
        subst this
        have := hx m flt rfl
        cases m <;> simp_all [AdminMsg, tells]
      · rw [hg] at hg0; cases hg0
        rw [ha] at ha0; exact hne (Option.some.inj ha0)
      · rw [hg] at hg0; cases hg0
        rw [ha] at ha0; exact hne (Option.some.inj ha0)
    | cmd c flt =>
      by_cases ht : touches name (.cmd c flt)
      swap
      · exact hch (untouched h ht (fun n he => by cases he))
      cases h
      cases c with
      | new n onDisk =>
        have : n = name := ht
        subst this
        exact hch (by simp [cmd, cmdNew, hg])
      | join n tok src =>
        have : n = name := ht
        subst this
        exact hch (by simp [cmd, cmdJoin, hg])
      | kick n who =>
        exact hch (by simp only [cmd, cmdKick, sendAll]; (repeat' split) <;> rfl)
      | partForce n => exact hq ht
      | kill n online =>
        have : n = name := ht
        subst this
        obtain ⟨r, hr⟩ := admin_eq ha
        exact hch (by simp only [cmd, cmdKill, hg, hr]; simp [hne, hg])
      | _ => exact ht
    | ack n =>
      cases h
      simp only [ack] at hch
      split at hch
      · exact hch rfl
      rename_i k hk
      split at hch
      · exact hch rfl
      rename_i hw
      split at hch
      · exact hch rfl
      · by_cases hkn : k.name = name
        · have := (last hk hkn (by simpa using hw) hg).1
          rw [ha] at this
          exact hne (Option.some.inj this)
        · exact hch (GoMap.get_set_ne _ _ hkn)
    | meet i => cases h; exact hch rfl
    | tick d => cases h; exact hch rfl
  · cases groups_step h hg' with
    | same h => exact h
    | join he hg0 ha0 _ _ _ _ h0 =>
      exfalso
      obtain ⟨r, hr⟩ := admin_eq ha0
      subst h0
      simp [admin, hr] at ha'
      exact hne ha'.symm
    | part he hg0 ha0 _ h0 =>
      exfalso
      obtain ⟨r, hr⟩ := admin_eq ha0
      subst h0
      simp [admin, hr] at ha'
      exact hne ha'.symm
    | list he hm hn hg0 ha0 =>
      exfalso
      subst he
      obtain ⟨h1, h2⟩ := tells_gl hm hn
      have h3 := hh.2 g' h2 hn
      rw [ha'] at h3
      have := Option.some.inj h3
      subst this
      have := hx _ _ rfl
      rw [h1] at this; cases this
    | new he hg0 h0 =>
      exfalso
      subst h0
      simp [admin] at ha'
      exact hne ha'.symm
    | joined he hg0 h0 =>
      exfalso
      subst h0
      simp [admin] at ha'
      subst ha'
      exact hj hg0 hg'
    | kicked he hk hn hw hg0 h0 =>
      exfalso
      subst h0
      have := (last hk hn hw hg0).2
      rw [ha'] at this
      exact hne (Option.some.inj this)

/-! ## An administrator and another -/

/-- The other is on the list that is made known. -/
def inT (T : Option GroupList) (m : Id) : Prop := ∃ gl, T = some gl ∧ m ∈ gl.members

/-- The other has the group of this administrator. -/
def HasOf (a : Id) (M : Option GroupList) : Prop := ∃ g, M = some g ∧ admin g = some a

/-- The last list that was sent. -/
def lastIs (gl : GroupList) (W : List Msg) (M : Option GroupList) : Prop :=
  match W.getLast? with
  | none => M = some gl
  | some x => listOf x = some gl

/-- On the list: what was sent last is the list, and nothing on the way takes the group away.  Not on the list: either
nothing is on the way, and the other has at most asked to be let in; or the last message on the way takes the group
away. -/
structure Pair (name : Bytes) (a m : Id) (T : Option GroupList) (W J : List Msg) (M : Option GroupList) : Prop where
  carry : ∀ x ∈ W, ∀ gl, listOf x = some gl → admin gl = some a
  isIn : ∀ gl, T = some gl → m ∈ gl.members →
    J = [] ∧ (∀ x ∈ W, clears name m x = false) ∧ HasOf a M ∧ lastIs gl W M
  isOut : ¬ inT T m →
    (W = [] ∧ J.length ≤ 1 ∧ (J ≠ [] → HasOf a M) ∧ ∀ g, M = some g → admin g = some a → g = ⟨name, 0, [a]⟩) ∨
    ∃ W0 x, W = W0 ++ [x] ∧ (∀ y ∈ W0, clears name m y = false) ∧ clears name m x = true ∧ J = [] ∧ HasOf a M

/-- A request arrives. -/
theorem Pair.pop {name : Bytes} {a m : Id} {T : Option GroupList} {W J : List Msg} {M : Option GroupList} {j : Msg}
    (h : Pair name a m T W (j :: J) M) : J = [] ∧ W = [] ∧ HasOf a M ∧ Pair name a m T W J M := by
  have hout : ¬ inT T m := by
    rintro ⟨gl, hT, hm⟩
    have := (h.isIn gl hT hm).1
    cases this
  rcases h.isOut hout with ⟨h1, h2, h3, h4⟩ | ⟨_, _, _, _, _, h5, _⟩
  · have : J = [] := by
      simp only [List.length_cons] at h2
      exact List.length_eq_zero_iff.mp (by omega)
    subst this
    refine ⟨rfl, h1, h3 (by simp), h.carry, fun gl hT hm => absurd ⟨gl, hT, hm⟩ hout, fun _ => .inl
      ⟨h1, by simp, fun h => absurd rfl h, h4⟩⟩
  · cases h5

theorem sentTo_map {l : List Id} {x : Msg} {m : Id} (h : l.Nodup) :
    sentTo (l.map fun i => (i, x)) m = if m ∈ l then [x] else [] := by
  induction l with
  | nil => rfl
  | cons b l ih =>
    rw [List.nodup_cons] at h
    have ih := ih h.2
    unfold sentTo at ih ⊢
    by_cases hb : b = m
    · subst hb
      rw [List.map_cons, List.filter_cons_of_pos (by simp), List.map_cons, ih, if_neg h.1]
      simp
    · rw [List.map_cons, List.filter_cons_of_neg (by simpa using hb), ih]
      simp [List.mem_cons, Ne.symm hb]

theorem sentTo_quiet {f : Msg → Bool} {out : List (Id × Msg)} {m : Id} (h : ∀ p ∈ out, f p.2 = false) :
    (sentTo out m).filter f = [] := by
  rw [List.filter_eq_nil_iff]
  intro x hx
  unfold sentTo at hx
  obtain ⟨p, hp, rfl⟩ := List.mem_map.mp hx
  rw [h p (List.mem_of_mem_filter hp)]
  simp

/-- A list that somebody makes known. -/
def Good (name : Bytes) (a : Id) (T : Option GroupList) : Prop :=
  ∀ gl, T = some gl → gl.name = name ∧ admin gl = some a ∧ gl.members.Nodup

theorem adm_good {name : Bytes} {s : State} {T : Option GroupList} (h : Adm name s T) : Good name s.self T := by
  intro gl hT
  subst hT
  exact ⟨h.1, h.2.1, h.2.2.1⟩

theorem lastIs_append {gl : GroupList} {W : List Msg} {x : Msg} {M : Option GroupList} :
    lastIs gl (W ++ [x]) M ↔ listOf x = some gl := by simp [lastIs]

theorem Pair.admin {name : Bytes} {a m : Id} {T T' : Option GroupList} {W J : List Msg} {M : Option GroupList}
    {out : List (Id × Msg)} {e : Ev} (h : Pair name a m T W J M) (hm : m ≠ a) (hC : Change name a T T' out e)
    (hT : Good name a T) (hT' : Good name a T')
    (hx : ∀ tok flt, e = .recv m (.join name tok) flt → J = [] ∧ W = [] ∧ HasOf a M) :
    Pair name a m T' (W ++ (sentTo out m).filter (tells name)) J M := by
  have tail_iff : ∀ {gl : GroupList}, Groups.admin gl = some a → (m ∈ gl.members.tail ↔ m ∈ gl.members) := by
    intro gl hg
    obtain ⟨r, hr⟩ := admin_eq hg
    rw [hr]
    simp [hm]
  have sent : ∀ {gl : GroupList} {x : Msg}, Groups.admin gl = some a → gl.members.Nodup → tells name x = true →
      (sentTo (gl.members.tail.map fun i => (i, x)) m).filter (tells name) = if m ∈ gl.members then [x] else [] := by
    intro gl x hg hnd hx
    rw [sentTo_map hnd.tail]
    by_cases hmm : m ∈ gl.members
    · rw [if_pos ((tail_iff hg).mpr hmm), if_pos hmm]; simp [hx]
    · rw [if_neg (fun h => hmm ((tail_iff hg).mp h)), if_neg hmm]; rfl
  -- one more list for somebody who stays on it
  have stay : ∀ {gl gl' : GroupList} {x : Msg}, T = some gl → T' = some gl' → m ∈ gl.members → m ∈ gl'.members →
      listOf x = some gl' → clears name m x = false → Pair name a m T' (W ++ [x]) J M := by
    intro gl gl' x h1 h2 h3 h4 h5 h6
    obtain ⟨i1, i2, i3, i4⟩ := h.isIn gl h1 h3
    refine ⟨fun y hy g hg => ?_, fun g hg _ => ⟨i1, fun y hy => ?_, i3, ?_⟩, fun hn => absurd ⟨gl', h2, h4⟩ hn⟩
    · rw [List.mem_append, List.mem_singleton] at hy
      rcases hy with hy | rfl
      · exact h.carry y hy g hg
      · rw [h5] at hg; cases hg; exact (hT' gl' h2).2.1
    · rw [List.mem_append, List.mem_singleton] at hy
      rcases hy with hy | rfl
      · exact i2 y hy
      · exact h6
    · rw [h2] at hg; cases hg
      exact lastIs_append.mpr h5
  -- a message that takes the group away
  have away : ∀ {gl : GroupList} {x : Msg}, T = some gl → m ∈ gl.members → ¬ inT T' m →
      (∀ g, listOf x = some g → Groups.admin g = some a) → clears name m x = true →
      Pair name a m T' (W ++ [x]) J M := by
    intro gl x h1 h3 h4 h5 h6
    obtain ⟨i1, i2, i3, i4⟩ := h.isIn gl h1 h3
    refine ⟨fun y hy g hg => ?_, fun g hg hmg => absurd ⟨g, hg, hmg⟩ h4, fun _ => .inr ⟨W, x, rfl, i2, h6, i1, i3⟩⟩
    rw [List.mem_append, List.mem_singleton] at hy
    rcases hy with hy | rfl
    · exact h.carry y hy g hg
    · exact h5 g hg
  -- nothing for somebody who is not on it
  have out_ : ¬ inT T m → ¬ inT T' m → Pair name a m T' (W ++ []) J M := by
    intro h1 h2
    rw [List.append_nil]
    exact ⟨h.carry, fun g hg hmg => absurd ⟨g, hg, hmg⟩ h2, fun _ => h.isOut h1⟩
  cases hC with
  | quiet hq => rw [sentTo_quiet hq, List.append_nil]; exact h
  | born =>
    refine out_ (fun ⟨g, hg, _⟩ => by cases hg) ?_
    rintro ⟨g, hg, hmg⟩
    cases hg
    exact hm (List.mem_singleton.mp hmg)
  | @added x gl gl' tok flt hxn hmem =>
    obtain ⟨n1, a1, d1⟩ := hT' gl' rfl
    rw [sent a1 d1 (by simp [tells, n1])]
    by_cases hmx : m = x
    · subst hmx
      obtain ⟨hJ, hW, hM⟩ := hx tok flt rfl
      have hin : m ∈ gl'.members := by rw [hmem]; simp
      rw [if_pos hin]
      subst hJ hW
      refine ⟨fun y hy g hg => ?_, fun g hg _ => ⟨rfl, fun y hy => ?_, hM, ?_⟩, fun hn => absurd ⟨gl', rfl, hin⟩ hn⟩
      · simp only [List.nil_append, List.mem_singleton] at hy
        subst hy
        cases hg; exact a1
      · simp only [List.nil_append, List.mem_singleton] at hy
        subst hy; rfl
      · cases hg; exact lastIs_append.mpr rfl
    · have hiff : m ∈ gl'.members ↔ m ∈ gl.members := by rw [hmem]; simp [hmx]
      by_cases hin : m ∈ gl.members
      · rw [if_pos (hiff.mpr hin)]
        exact stay rfl rfl hin (hiff.mpr hin) rfl rfl
      · rw [if_neg (fun h => hin (hiff.mp h))]
        refine out_ ?_ ?_
        · rintro ⟨g, hg, hmg⟩; cases hg; exact hin hmg
        · rintro ⟨g, hg, hmg⟩; cases hg; exact hin (hiff.mp hmg)
  | @removed w p gl gl' e hw hmem =>
    obtain ⟨n0, a0, d0⟩ := hT gl rfl
    obtain ⟨n1, a1, d1⟩ := hT' gl' rfl
    rw [sent a0 d0 (by simp [tells, n1])]
    by_cases hin : m ∈ gl.members
    · rw [if_pos hin]
      by_cases hmw : m = w
      · subst hmw
        refine away rfl hin ?_ (fun g hg => by cases hg; exact a1) (by simp [clears, n1])
        rintro ⟨g, hg, hmg⟩
        cases hg
        rw [hmem] at hmg
        simp at hmg
      · refine stay rfl rfl hin ?_ rfl (by simp [clears, Ne.symm hmw])
        rw [hmem]
        simp [hin, hmw]
    · rw [if_neg hin]
      refine out_ ?_ ?_
      · rintro ⟨g, hg, hmg⟩; cases hg; exact hin hmg
      · rintro ⟨g, hg, hmg⟩; cases hg
        rw [hmem] at hmg
        exact hin (List.mem_of_mem_filter hmg)
  | @killed gl e =>
    obtain ⟨n0, a0, d0⟩ := hT gl rfl
    rw [sent a0 d0 (by simp [tells])]
    have hno : ¬ inT none m := by rintro ⟨g, hg, _⟩; cases hg
    by_cases hin : m ∈ gl.members
    · rw [if_pos hin]
      exact away rfl hin hno (fun g hg => by cases hg) (by simp [clears])
    · rw [if_neg hin]
      refine out_ ?_ hno
      rintro ⟨g, hg, hmg⟩; cases hg; exact hin hmg

theorem Pair.same {name : Bytes} {a m : Id} {T : Option GroupList} {W J : List Msg} {M M' : Option GroupList}
    (h : Pair name a m T W J M) (hT : Good name a T) (hS : Same a M M') : Pair name a m T W J M' := by
  have has : HasOf a M → HasOf a M' := by
    rintro ⟨g, hg, ha⟩
    exact ⟨g, hS.1 g hg ha, ha⟩
  refine ⟨h.carry, fun gl hg hmg => ?_, fun hn => ?_⟩
  · obtain ⟨i1, i2, i3, i4⟩ := h.isIn gl hg hmg
    refine ⟨i1, i2, has i3, ?_⟩
    unfold lastIs at i4 ⊢
    cases hl : W.getLast? with
    | none =>
      rw [hl] at i4
      exact hS.1 gl i4 (hT gl hg).2.1
    | some x => rw [hl] at i4; exact i4
  · rcases h.isOut hn with ⟨h1, h2, h3, h4⟩ | ⟨W0, x, h1, h2, h3, h4, h5⟩
    · exact .inl ⟨h1, h2, fun hj => has (h3 hj), fun g hg ha => h4 g (hS.2 g hg ha) ha⟩
    · exact .inr ⟨W0, x, h1, h2, h3, h4, has h5⟩

theorem Pair.join {name : Bytes} {a m : Id} {T : Option GroupList} {W J : List Msg} {j : Msg}
    (h : Pair name a m T W J none) : Pair name a m T W (J ++ [j]) (some ⟨name, 0, [a]⟩) := by
  have hno : ¬ HasOf a (none : Option GroupList) := by rintro ⟨g, hg, _⟩; cases hg
  have hout : ¬ inT T m := by
    rintro ⟨gl, hT, hm⟩
    exact hno (h.isIn gl hT hm).2.2.1
  refine ⟨h.carry, fun gl hT hm => absurd ⟨gl, hT, hm⟩ hout, fun _ => ?_⟩
  rcases h.isOut hout with ⟨h1, h2, h3, h4⟩ | ⟨_, _, _, _, _, _, h5⟩
  · have : J = [] := by
      apply Classical.byContradiction
      intro hj
      exact hno (h3 hj)
    subst this
    exact .inl ⟨h1, by simp, fun _ => ⟨_, rfl, rfl⟩, fun g hg _ => (Option.some.inj hg).symm⟩
  · exact absurd h5 hno

theorem Pair.tell {name : Bytes} {a m : Id} {T : Option GroupList} {W J : List Msg} {x : Msg}
    {M M' : Option GroupList} (h : Pair name a m T (x :: W) J M)
    (hM : ∀ g, M = some g → Groups.admin g = some a →
      if clears name m x then M' = none else ∃ gl, listOf x = some gl ∧ M' = some gl) : Pair name a m T W J M' := by
  have carry : ∀ y ∈ W, ∀ gl, listOf y = some gl → Groups.admin gl = some a := fun y hy =>
    h.carry y (List.mem_cons_of_mem _ hy)
  have taken : HasOf a M → clears name m x = false → ∃ gl, listOf x = some gl ∧ M' = some gl ∧ HasOf a M' := by
    rintro ⟨g, hg, ha⟩ hc
    have := hM g hg ha
    rw [hc, if_neg (by simp)] at this
    obtain ⟨gl, h1, h2⟩ := this
    exact ⟨gl, h1, h2, gl, h2, h.carry x List.mem_cons_self gl h1⟩
  refine ⟨carry, fun gl hT hm => ?_, fun hn => ?_⟩
  · obtain ⟨i1, i2, i3, i4⟩ := h.isIn gl hT hm
    obtain ⟨gx, hx, hM', hhas⟩ := taken i3 (i2 x List.mem_cons_self)
    refine ⟨i1, fun y hy => i2 y (List.mem_cons_of_mem _ hy), hhas, ?_⟩
    cases W with
    | nil =>
      simp only [lastIs, List.getLast?_singleton] at i4
      rw [hx] at i4; cases i4
      exact hM'
    | cons y W =>
      unfold lastIs at i4 ⊢
      rw [List.getLast?_cons_cons] at i4
      cases hl : (y :: W).getLast? with
      | none => simp at hl
      | some z => rw [hl] at i4; exact i4
  · rcases h.isOut hn with ⟨h1, _⟩ | ⟨W0, z, h1, h2, h3, h4, h5⟩
    · cases h1
    · cases W0 with
      | nil =>
        simp only [List.nil_append, List.cons.injEq] at h1
        obtain ⟨rfl, rfl⟩ := h1
        obtain ⟨g, hg, ha⟩ := h5
        have := hM g hg ha
        rw [if_pos h3] at this
        subst this
        exact .inl ⟨rfl, by simp [h4], fun hj => absurd h4 hj, fun g hg => by cases hg⟩
      | cons y W0 =>
        simp only [List.cons_append, List.cons.injEq] at h1
        obtain ⟨rfl, rfl⟩ := h1
        obtain ⟨_, _, _, hhas⟩ := taken h5 (h2 x List.mem_cons_self)
        exact .inr ⟨W0, z, rfl, fun y hy => h2 y (List.mem_cons_of_mem _ hy), h3, h4, hhas⟩

/-! ## The net -/

structure Inv (name : Bytes) (net : Net) (T : Id → Option GroupList) : Prop where
  self : ∀ i, (net.clients i).self = i
  named : ∀ i, Named (net.clients i)
  adm : ∀ i, Adm name (net.clients i) (T i)
  pair : ∀ a m, a ≠ m → Pair name a m (T a) ((net.wire a m).filter (tells name))
    ((net.wire m a).filter (isJoin name)) ((net.clients m).groups.get name)

/-- The message that an event takes off the wire from `x`. -/
def popped : Ev → Id → List Msg
  | .recv src m _, x => if x = src then [m] else []
  | _, _ => []

theorem inv_act {upper : Bytes → Bytes} {name : Bytes} (hv : validName name = true) {net net0 net' : Net}
    {T : Id → Option GroupList} {i : Id} {e : Ev} (hI : Inv name net T) (hc : net0.clients = net.clients)
    (hw : ∀ x y, net.wire x y = (if y = i then popped e x else []) ++ net0.wire x y)
    (hq : orderly name (net.clients i) e) (hsrc : ∀ src m flt, e = .recv src m flt → src ≠ i)
    (h : act upper net0 i e = some net') : ∃ T', Inv name net' T' := by
  unfold act at h
  rw [hc] at h
  split at h
  · cases h
  rename_i s hs
  cases h
  have hself := hI.self i
  have hh : Honest name { net.clients i with out := [] } e := by
    cases e with
    | recv src m flt =>
      have hne := hsrc src m flt rfl
      refine ⟨by rw [← hself] at hne; exact hne, fun gl hgl hn => ?_⟩
      have hmem : m ∈ net.wire src i := by rw [hw]; simp [popped]
      refine (hI.pair src i hne).carry m ?_ gl hgl
      rw [List.mem_filter]
      refine ⟨hmem, ?_⟩
      cases m <;> simp_all [listOf, tells]
    | _ => trivial
  have hN : Named { net.clients i with out := [] } := hI.named i
  have hA : Adm name { net.clients i with out := [] } (T i) := by
    have := hI.adm i
    cases hT : T i <;> (rw [hT] at this; exact this)
  have hQ : orderly name { net.clients i with out := [] } e := by
    cases e with
    | recv src m flt => cases m <;> exact hq
    | cmd c flt => cases c <;> exact hq
    | _ => trivial
  have hs' : s.self = i := by rw [(step_self hs).1]; exact hself
  obtain ⟨Ti, hA', hC⟩ := adm_step hv hN hA rfl hQ hh hs
  change Change name (net.clients i).self _ _ _ _ at hC
  rw [hself] at hC
  have hgood : ∀ a, Good name a (T a) := fun a => by
    have := adm_good (hI.adm a)
    rw [hI.self a] at this
    exact this
  have hgood' : Good name i Ti := by
    have := adm_good hA'
    rw [hs'] at this
    exact this
  refine ⟨fun x => if x = i then Ti else T x, ?_, ?_, ?_, ?_⟩
  · intro x
    dsimp only
    split
    · rename_i hx; rw [hx]; exact hs'
    · exact hI.self x
  · intro x
    dsimp only
    split
    · exact named_step hh hN hs
    · exact hI.named x
  · intro x
    dsimp only
    by_cases hx : x = i
    · simp only [hx, if_true]; exact hA'
    · simp only [hx, if_false]; exact hI.adm x
  · intro a m ham
    have hP := hI.pair a m ham
    dsimp only
    by_cases hai : a = i
    · -- the administrator acts
      subst hai
      have hma : m ≠ a := Ne.symm ham
      have hW : net0.wire a m = net.wire a m := by
        have := hw a m
        rw [if_neg hma] at this
        exact this.symm
      have hJ := hw m a
      rw [if_pos rfl] at hJ
      simp only [if_true, if_neg hma, hW, List.filter_append]
      rw [hJ, List.filter_append] at hP
      by_cases hj : ∃ tok flt, e = .recv m (.join name tok) flt
      · obtain ⟨tok, flt, rfl⟩ := hj
        have hpop : (popped (.recv m (.join name tok) flt) m).filter (isJoin name) = [.join name tok] := by
          simp [popped, isJoin]
        rw [hpop] at hP
        obtain ⟨j1, j2, j3, j4⟩ := Pair.pop hP
        exact j4.admin hma hC (hgood a) hgood' fun _ _ _ => ⟨j1, j2, j3⟩
      · have hpop : (popped e m).filter (isJoin name) = [] := by
          cases e with
          | recv src x flt =>
            by_cases hm : m = src
            · subst hm
              cases x with
              | join n tok =>
                by_cases hn : n = name
                · subst hn; exact absurd ⟨tok, flt, rfl⟩ hj
                · simp [popped, isJoin, hn]
              | _ => simp [popped, isJoin]
            · simp [popped, hm]
          | _ => rfl
        rw [hpop, List.nil_append] at hP
        exact hP.admin hma hC (hgood a) hgood' fun tok flt he => absurd ⟨tok, flt, he⟩ hj
    · by_cases hmi : m = i
      · -- the other acts
        subst hmi
        have hJ : net0.wire m a = net.wire m a := by
          have := hw m a
          rw [if_neg ham] at this
          exact this.symm
        have hW := hw a m
        rw [if_pos rfl] at hW
        simp only [if_true, if_neg ham, hJ, List.filter_append]
        rw [hW, List.filter_append] at hP
        have hne : a ≠ (net.clients m).self := by rw [hself]; exact ham
        -- what is asked
        by_cases hjoin : (sentTo s.out a).filter (isJoin name) = []
        · rw [hjoin, List.append_nil]
          by_cases ht : ∃ x flt, e = .recv a x flt ∧ tells name x = true
          · obtain ⟨x, flt, rfl, hx⟩ := ht
            have hpop : (popped (.recv a x flt) a).filter (tells name) = [x] := by simp [popped, hx]
            rw [hpop] at hP
            refine Pair.tell hP fun g hg ha => ?_
            have := mem_tell hv hs hx hg ha
            change if clears name (net.clients m).self x = true then _ else _ at this
            rw [hself] at this
            exact this
          · have hpop : (popped e a).filter (tells name) = [] := by
              cases e with
              | recv src x flt =>
                by_cases hm : a = src
                · subst hm
                  have : tells name x = false := by
                    cases hx : tells name x
                    · rfl
                    · exact absurd ⟨x, flt, rfl, hx⟩ ht
                  simp [popped, this]
                · simp [popped, hm]
              | _ => rfl
            rw [hpop, List.nil_append] at hP
            refine hP.same (hgood a) (mem_same (s := { net.clients m with out := [] }) hA hQ hh hs hne ?_ ?_)
            · intro x flt he
              cases hx : tells name x
              · rfl
              · exact absurd ⟨x, flt, he, hx⟩ ht
            · intro hnone hsome
              cases groups_step hs hsome with
              | same h => rw [hnone] at h; cases h
              | join _ h => rw [hnone] at h; cases h
              | part _ h => rw [hnone] at h; cases h
              | list _ _ _ h => rw [hnone] at h; cases h
              | new he h h0 =>
                have := congrArg GroupList.members h0
                simp at this
                exact hne this
              | @joined token src flt he h h0 =>
                have hsa := congrArg GroupList.members h0
                simp at hsa
                subst hsa he
                cases hs
                have := joined_out (s := { net.clients m with out := [] }) (tok := token) (src := a) (flt := flt) rfl
                  hnone (by change ((cmdJoin _ name token a flt).groups.get name) = _ at hsome; rw [hsome]; simp)
                apply absurd hjoin
                change List.filter _ (sentTo (cmdJoin _ name token a flt).out a) ≠ []
                rw [this]
                simp [sentTo, isJoin]
              | kicked _ _ _ _ h => rw [hnone] at h; cases h
        · -- a request
          obtain ⟨y, hy⟩ := List.exists_mem_of_ne_nil _ hjoin
          rw [List.mem_filter] at hy
          obtain ⟨hy1, hy2⟩ := hy
          unfold sentTo at hy1
          obtain ⟨p, hp, rfl⟩ := List.mem_map.mp hy1
          rw [List.mem_filter] at hp
          have hpa : p.1 = a := by simpa using hp.2
          obtain ⟨⟨tok, flt, he⟩, h1, h2, h3⟩ := joins_out hs rfl hp.1 hy2
          change (net.clients m).groups.get name = none at h1
          subst he
          have hpop : (popped (.cmd (.join name tok p.1) flt) a).filter (tells name) = [] := rfl
          rw [hpop, List.nil_append, h1] at hP
          rw [h2, h3, hpa]
          have : (sentTo [p] a).filter (isJoin name) = [p.2] := by simp [sentTo, hpa, hy2]
          rw [this]
          exact hP.join
      · have h1 : net0.wire a m = net.wire a m := by
          have := hw a m
          rw [if_neg hmi] at this
          exact this.symm
        have h2 : net0.wire m a = net.wire m a := by
          have := hw m a
          rw [if_neg hai] at this
          exact this.symm
        simp only [if_neg hai, if_neg hmi, h1, h2]
        exact hP

theorem inv_start (name : Bytes) (nick : Id → Bytes) : Inv name (start nick) fun _ => none := by
  refine ⟨fun i => rfl, fun i => ⟨(fun n g hg => by cases hg), (fun k hk => by cases hk), fun n => rfl⟩,
    fun i => ⟨(fun g hg => by cases hg), fun k hk => by cases hk⟩, fun a m ham => ⟨(fun x hx => by cases hx),
    (fun gl hg => by cases hg), fun _ => .inl ⟨rfl, by simp [start], (fun h => absurd rfl h),
    fun g hg => by cases hg⟩⟩⟩

theorem inv_step {upper : Bytes → Bytes} {name : Bytes} (hv : validName name = true) {net net' : Net}
    {T : Id → Option GroupList} {e : NEv} (hI : Inv name net T) (hq : Orderly name net e)
    (h : nstep upper net e = some net') : ∃ T', Inv name net' T' := by
  cases e <;> simp only [nstep] at h
  case cmd i c flt =>
    exact inv_act hv hI rfl (fun x y => by simp [popped]) hq (fun _ _ _ he => by cases he) h
  case ack i n =>
    exact inv_act (e := .ack n) hv hI rfl (fun x y => by simp [popped]) trivial (fun _ _ _ he => by cases he) h
  case meet i j =>
    exact inv_act (e := .meet j) hv hI rfl (fun x y => by simp [popped]) trivial (fun _ _ _ he => by cases he) h
  case tick i d =>
    exact inv_act (e := .tick d) hv hI rfl (fun x y => by simp [popped]) trivial (fun _ _ _ he => by cases he) h
  case deliver a m flt =>
    split at h
    · cases h
    rename_i ham
    split at h
    · cases h
    rename_i x r hwire
    refine inv_act (net0 := pop net a m) hv hI rfl (fun y z => ?_) (hq x r hwire) (fun src msg flt he => by cases he; exact ham) h
    simp only [pop, popped]
    by_cases hz : z = m
    · subst hz
      by_cases hy : y = a
      · subst hy; simp [hwire]
      · simp [hy]
    · simp [hz]
  case lose a m => exact hq.elim

theorem inv_run {upper : Bytes → Bytes} {name : Bytes} (hv : validName name = true) {net net' : Net}
    {T : Id → Option GroupList} {es : List NEv} (hI : Inv name net T) (hq : OrderlyRun upper name net es)
    (h : nrun upper net es = some net') : ∃ T', Inv name net' T' := by
  induction es generalizing net T with
  | nil => cases h; exact ⟨T, hI⟩
  | cons e es ih =>
    simp only [nrun, Option.bind_eq_some_iff] at h
    obtain ⟨m, hm, h⟩ := h
    obtain ⟨T1, h1⟩ := inv_step hv hI hq.1 hm
    exact ih h1 (hq.2 m hm) h

/-- Nothing that the administrator said about the group is on its way to `m`. -/
def Settled (name : Bytes) (net : Net) (a m : Id) : Prop := ∀ x ∈ net.wire a m, tells name x = false

/-- Whoever is on the list of the administrator of a group has the same list as the administrator, once everything
that the administrator has said about the group has arrived and no kick is under way; provided that nobody left the
group by force, that nothing was lost, and that nothing happened to the group while somebody was being kicked. -/
theorem C114_agree_partial {upper : Bytes → Bytes} {name : Bytes} (hv : validName name = true) {nick : Id → Bytes}
    {net : Net} {es : List NEv} (hq : OrderlyRun upper name (start nick) es) (h : nrun upper (start nick) es = some net)
    {a m : Id} {g : GroupList} (hg : (net.clients a).groups.get name = some g) (ha : admin g = some a)
    (hk : ∀ k ∈ (net.clients a).kicks, ¬ Under name k) (hm : m ∈ g.members) (hs : Settled name net a m) :
    (net.clients m).groups.get name = some g := by
  obtain ⟨T, hI⟩ := inv_run hv (inv_start name nick) hq h
  obtain ⟨hT, _, _⟩ := adm_some (hI.adm a) hg (by rw [hI.self]; exact ha) hk
  by_cases ham : a = m
  · rw [← ham]; exact hg
  obtain ⟨_, _, _, i4⟩ := (hI.pair a m ham).isIn g hT hm
  have : (net.wire a m).filter (tells name) = [] := by
    rw [List.filter_eq_nil_iff]; intro x hx; rw [hs x hx]; simp
  rw [this] at i4
  exact i4

/-- Any two on the list have the same list. -/
theorem C114_others_partial {upper : Bytes → Bytes} {name : Bytes} (hv : validName name = true) {nick : Id → Bytes}
    {net : Net} {es : List NEv} (hq : OrderlyRun upper name (start nick) es) (h : nrun upper (start nick) es = some net)
    {a m m' : Id} {g : GroupList} (hg : (net.clients a).groups.get name = some g) (ha : admin g = some a)
    (hk : ∀ k ∈ (net.clients a).kicks, ¬ Under name k) (hm : m ∈ g.members) (hm' : m' ∈ g.members)
    (hs : Settled name net a m) (hs' : Settled name net a m') :
    (net.clients m).groups.get name = (net.clients m').groups.get name := by
  rw [C114_agree_partial hv hq h hg ha hk hm hs, C114_agree_partial hv hq h hg ha hk hm' hs']

/-- While a kick is under way those who stay have the list without the one who is kicked. -/
theorem C114_during_partial {upper : Bytes → Bytes} {name : Bytes} (hv : validName name = true) {nick : Id → Bytes}
    {net : Net} {es : List NEv} (hq : OrderlyRun upper name (start nick) es) (h : nrun upper (start nick) es = some net)
    {a m : Id} (ham : m ≠ a) {k : Kick} (hk : k ∈ (net.clients a).kicks) (hu : Under name k) (hm : m ∈ k.ngc.members)
    (hs : Settled name net a m) : (net.clients m).groups.get name = some k.ngc := by
  obtain ⟨T, hI⟩ := inv_run hv (inv_start name nick) hq h
  have hA := hI.adm a
  have hT : T a = some k.ngc := by
    cases hT : T a with
    | none => rw [hT] at hA; exact absurd hu (hA.2 k hk)
    | some gl =>
      rw [hT] at hA
      obtain ⟨_, _, _, g, _, _, f⟩ := hA
      rcases f with ⟨_, hno⟩ | ⟨i, k', hi, hu', hgl, huniq⟩
      · exact absurd hu (hno k hk)
      · obtain ⟨j, hj⟩ := List.mem_iff_getElem?.mp hk
        have := huniq j k hj hu
        subst this
        rw [hi] at hj; cases hj
        rw [hgl]
  obtain ⟨_, _, _, i4⟩ := (hI.pair a m (Ne.symm ham)).isIn _ hT hm
  have : (net.wire a m).filter (tells name) = [] := by
    rw [List.filter_eq_nil_iff]; intro x hx; rw [hs x hx]; simp
  rw [this] at i4
  exact i4

/-- Whoever has a group of this administrator and is not on the administrator's list, once everything has arrived, is
one who has asked to be let in: the list has the administrator alone.  In particular who was kicked, or has left, or
whose group was killed, has it no more. -/
theorem C114_outside_partial {upper : Bytes → Bytes} {name : Bytes} (hv : validName name = true) {nick : Id → Bytes}
    {net : Net} {es : List NEv} (hq : OrderlyRun upper name (start nick) es) (h : nrun upper (start nick) es = some net)
    {a m : Id} (ham : m ≠ a) {g' : GroupList} (hg' : (net.clients m).groups.get name = some g')
    (ha : admin g' = some a) (hk : ∀ k ∈ (net.clients a).kicks, ¬ Under name k)
    (hout : ∀ g, (net.clients a).groups.get name = some g → admin g = some a → m ∉ g.members)
    (hs : Settled name net a m) : g' = ⟨name, 0, [a]⟩ := by
  obtain ⟨T, hI⟩ := inv_run hv (inv_start name nick) hq h
  have hA := hI.adm a
  have hno : ¬ inT (T a) m := by
    rintro ⟨gl, hT, hm⟩
    rw [hT] at hA
    obtain ⟨_, _, _, g, hg, hag, f⟩ := hA
    rw [hI.self] at hag
    rcases f with ⟨rfl, _⟩ | ⟨i, k, hi, hu, _⟩
    · exact hout g hg hag hm
    · exact hk k (List.mem_of_getElem? hi) hu
  have hW : (net.wire a m).filter (tells name) = [] := by
    rw [List.filter_eq_nil_iff]; intro x hx; rw [hs x hx]; simp
  rcases (hI.pair a m (Ne.symm ham)).isOut hno with ⟨_, _, _, h4⟩ | ⟨W0, x, h1, _⟩
  · exact h4 g' hg' ha
  · rw [hW] at h1
    simp at h1

/-! ## Instances -/

namespace Ex

def g : Bytes := [103]
def ok : Fault := Fault.none
def net0 : Net := start fun _ => []

/-- `a` invites `m`, who joins. -/
def ask (a m : Id) (tok : Nat) : List NEv :=
  [.meet a m, .meet m a, .cmd a (.invite g m tok) ok, .deliver a m ok, .cmd m (.join g tok a) ok]

/-- 0 makes a group, 1 and 2 join. -/
def trio : List NEv :=
  [.cmd 0 (.new g false) ok] ++ ask 0 1 5 ++ [.deliver 1 0 ok, .deliver 0 1 ok] ++ ask 0 2 6 ++
  [.deliver 2 0 ok, .deliver 0 1 ok, .deliver 0 2 ok]

/-- What 0 to 3 have, and whether nothing is on its way between them and no kick is under way at 0. -/
def quiet (net : Net) : Prop :=
  (∀ x < 4, ∀ y < 4, net.wire x y = []) ∧ ∀ k ∈ (net.clients 0).kicks, k.want ≤ k.got

instance (net : Net) : Decidable (quiet net) := inferInstanceAs (Decidable (_ ∧ _))

def has (net : Net) (i : Id) : Option (List Id) := ((net.clients i).groups.get g).map (·.members)

end Ex

open Ex in
/-- A request that arrives while a kick is under way: the new list goes out, and is then replaced by the one without
the one who was kicked.  The one who was let in and another have a list that the administrator does not have. -/
theorem C114_joined_violated : ∃ net, nrun id net0 (trio ++ ask 0 3 7 ++ [.cmd 0 (.kick g 2) ok, .deliver 3 0 ok,
      .ack 0 0, .ack 0 0, .deliver 0 1 ok, .deliver 0 2 ok, .deliver 0 1 ok, .deliver 0 2 ok, .deliver 0 3 ok]) =
      some net ∧
    quiet net ∧ has net 0 = some [0, 1] ∧ has net 1 = some [0, 1, 2, 3] ∧ has net 2 = none ∧
    has net 3 = some [0, 1, 2, 3] := ⟨_, rfl, by decide, by decide, by decide, by decide, by decide⟩

open Ex in
/-- Two kicks at a time: the first of the two is on the list of the administrator and of the others, and has no
group. -/
theorem C114_kicks_violated : ∃ net, nrun id net0 (trio ++ ask 0 3 7 ++ [.deliver 3 0 ok, .deliver 0 1 ok,
      .deliver 0 2 ok, .deliver 0 3 ok, .cmd 0 (.kick g 1) ok, .cmd 0 (.kick g 2) ok, .ack 0 0, .ack 0 0, .ack 0 0,
      .ack 0 1, .ack 0 1, .ack 0 1, .deliver 0 1 ok, .deliver 0 2 ok, .deliver 0 3 ok, .deliver 0 1 ok, .deliver 0 2 ok,
      .deliver 0 3 ok]) = some net ∧
    quiet net ∧ has net 0 = some [0, 1, 3] ∧ has net 1 = none ∧ has net 2 = none ∧
    has net 3 = some [0, 1, 3] := ⟨_, rfl, by decide, by decide, by decide, by decide, by decide⟩

open Ex in
/-- Somebody leaves while another is being kicked: they are on the list again when the kick is through. -/
theorem C114_left_violated : ∃ net, nrun id net0 (trio ++ ask 0 3 7 ++ [.deliver 3 0 ok, .deliver 0 1 ok,
      .deliver 0 2 ok, .deliver 0 3 ok, .cmd 0 (.kick g 2) ok, .cmd 1 (.part g) ok, .deliver 1 0 ok, .ack 0 0, .ack 0 0,
      .ack 0 0, .deliver 0 1 ok, .deliver 0 2 ok, .deliver 0 3 ok, .deliver 0 1 ok, .deliver 0 2 ok,
      .deliver 0 3 ok]) = some net ∧
    quiet net ∧ has net 0 = some [0, 1, 3] ∧ has net 1 = none ∧ has net 3 = some [0, 2, 3] :=
  ⟨_, rfl, by decide, by decide, by decide, by decide⟩

open Ex in
/-- A list that does not arrive is not sent again: one member never hears of another. -/
theorem C114_lost_violated : ∃ net, nrun id net0 ([.cmd 0 (.new g false) ok] ++ ask 0 1 5 ++ [.deliver 1 0 ok,
      .deliver 0 1 ok] ++ ask 0 2 6 ++ [.deliver 2 0 ok, .lose 0 1, .deliver 0 2 ok]) = some net ∧
    quiet net ∧ has net 0 = some [0, 1, 2] ∧ has net 1 = some [0, 1] ∧ has net 2 = some [0, 1, 2] :=
  ⟨_, rfl, by decide, by decide, by decide, by decide⟩

open Ex in
/-- An acknowledgement of a kick that does not come: the administrator keeps the one who was kicked on the list, and
so writes to them, while nobody else does. -/
theorem C114_unacknowledged_violated : ∃ net, nrun id net0 (trio ++ [.cmd 0 (.kick g 2) ok, .ack 0 0, .deliver 0 1 ok,
      .deliver 0 2 ok, .cmd 0 (.message g [104] false) ok]) = some net ∧
    has net 0 = some [0, 1, 2] ∧ has net 1 = some [0, 1] ∧ has net 2 = none ∧
    net.wire 0 2 = [.message g 4 [104] false] := ⟨_, rfl, by decide, by decide, by decide, by decide⟩

open Ex in
/-- A request for a group that is no more is not answered: who asked has a group of somebody else alone for ever. -/
theorem C114_refused_violated : ∃ net, nrun id net0 ([.cmd 0 (.new g false) ok] ++ ask 0 1 5 ++
      [.cmd 0 (.kill g true) ok, .deliver 1 0 ok]) = some net ∧
    quiet net ∧ has net 0 = none ∧ has net 1 = some [0] := ⟨_, rfl, by decide, by decide, by decide⟩

open Ex in
/-- Leaving by force tells nobody. -/
theorem C114_force_violated : ∃ net, nrun id net0 (trio ++ [.cmd 1 (.partForce g) ok]) = some net ∧
    quiet net ∧ has net 0 = some [0, 1, 2] ∧ has net 1 = none ∧ has net 2 = some [0, 1, 2] :=
  ⟨_, rfl, by decide, by decide, by decide, by decide⟩

open Ex in
example : validName g = true ∧ ∃ net, nrun id net0 (trio ++ [.cmd 0 (.kick g 2) ok, .ack 0 0, .ack 0 0, .deliver 0 1 ok,
      .deliver 0 2 ok]) = some net ∧
    quiet net ∧ has net 0 = some [0, 1] ∧ has net 1 = some [0, 1] ∧ has net 2 = none :=
  ⟨by decide, _, rfl, by decide, by decide, by decide, by decide⟩

open Ex in
/-- While the kick is under way. -/
example : ∃ net, nrun id net0 (trio ++ [.cmd 0 (.kick g 2) ok, .deliver 0 1 ok]) = some net ∧
    has net 0 = some [0, 1, 2] ∧ has net 1 = some [0, 1] ∧ has net 2 = some [0, 1, 2] :=
  ⟨_, rfl, by decide, by decide, by decide⟩

open Ex in
example : OrderlyRun id g net0 (trio ++ [.cmd 0 (.kick g 2) ok, .ack 0 0, .ack 0 0, .deliver 0 1 ok,
    .deliver 0 2 ok]) := by
  repeat'
    first
    | exact trivial
    | (refine ⟨?_, fun _ h => ?_⟩ <;> try cases h)
    | (intro x r h; cases h)

end Verif.GroupNet
