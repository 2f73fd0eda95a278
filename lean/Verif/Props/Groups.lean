import Verif.Model.Groups
import Verif.Proofs.GoMap

/-! # C47, C48, C49, C50, C51: group chat -/

namespace Verif.Groups

open Verif

/-! ## C47 -/

theorem deleteGroup_get_ne {s : State} {n name : Bytes} (h : n ≠ name) :
    (deleteGroup s n).groups.get name = s.groups.get name := by
  unfold deleteGroup
  split
  · exact GoMap.get_del_ne _ h
  · rfl

theorem updateGroupList_get {s : State} {src : Id} {gl : GroupList} {name : Bytes}
    (h : (updateGroupList s src gl).groups.get name ≠ s.groups.get name) :
    ∃ g, gl.name = name ∧ s.groups.get name = some g ∧ admin g = some src ∧
      (updateGroupList s src gl).groups.get name = some gl := by
  unfold updateGroupList at h ⊢
  split at h
  · exact absurd rfl h
  next g hg =>
    split at h
    · exact absurd rfl h
    next ha =>
      by_cases hn : gl.name = name
      · subst hn
        refine ⟨g, rfl, hg, by simpa using ha, ?_⟩
        rw [if_neg ha]
        exact GoMap.get_set_self _ _ _
      · exact absurd (GoMap.get_set_ne _ _ hn) h

theorem recvJoin_get {s : State} {src : Id} {n : Bytes} {token : Nat} {flt : Fault} {name : Bytes}
    (h : (recvJoin s src n token flt).groups.get name ≠ s.groups.get name) :
    n = name ∧ ∃ g i, s.groups.get name = some g ∧ admin g = some s.self ∧
      s.invites.get (name, src) = some i ∧ i.token = token ∧ src ∈ s.known ∧ src ∉ g.members.tail ∧
      recvJoin s src n token flt =
        sendAll { s with invites := s.invites.del (name, src),
                         groups := s.groups.set name ⟨g.name, inc (inc g.gen), g.members ++ [src]⟩,
                         admitted := s.admitted ++ [(name, src, token)] }
          (g.members ++ [src]).tail (.list ⟨g.name, inc (inc g.gen), g.members ++ [src]⟩) := by
  unfold recvJoin at h ⊢
  split at h
  · exact absurd rfl h
  next g hg =>
  split at h
  · exact absurd rfl h
  next ha =>
  split at h
  · exact absurd rfl h
  next i hi =>
  split at h
  · exact absurd rfl h
  next ht =>
  split at h
  · exact absurd rfl h
  next hdb =>
  dsimp only at h
  split at h
  · exact absurd rfl h
  next hk =>
  split at h
  · exact absurd rfl h
  next hm =>
  split at h
  · exact absurd rfl h
  next hv =>
  by_cases hn : n = name
  · subst hn
    refine ⟨rfl, g, i, hg, by simpa using ha, hi, by simpa using ht, by simpa using hk, hm, ?_⟩
    dsimp only
    rw [if_neg ha, if_neg ht, if_neg hdb, if_neg hk, if_neg hm, if_neg hv]
  · exact absurd (GoMap.get_set_ne _ _ hn) h

theorem recvPart_get {s : State} {src : Id} {n name : Bytes}
    (h : (recvPart s src n).groups.get name ≠ s.groups.get name) :
    n = name ∧ ∃ g, s.groups.get name = some g ∧ admin g = some s.self ∧ src ∈ g.members.tail ∧
      (recvPart s src n).groups.get name =
        some ⟨g.name, inc g.gen, g.members.take 1 ++ g.members.tail.erase src⟩ := by
  unfold recvPart at h ⊢
  split at h
  · exact absurd rfl h
  next g hg =>
  split at h
  · exact absurd rfl h
  next ha =>
  split at h
  · exact absurd rfl h
  next hm =>
  by_cases hn : n = name
  · subst hn
    refine ⟨rfl, g, hg, by simpa using ha, by simpa using hm, ?_⟩
    dsimp only
    rw [if_neg ha, if_neg hm]
    exact GoMap.get_set_self _ _ _
  · exact absurd (GoMap.get_set_ne _ _ hn) h

/-- A message by which an administrator changes the group `name`. -/
def AdminMsg (name : Bytes) : Msg → Prop
  | .kick _ _ gl | .list gl | .update gl => gl.name = name
  | .kill n => n = name
  | _ => False

/-- **C47** A message from `src`, whatever it is, changes what the client knows about a group only if the group is
there, and `src` is its current administrator; or it is a join of `src` with the token of an outstanding
invitation of `src` to a group that the client administers, and adds exactly `src`; or it is a part of a
member `src` of such a group, and removes exactly `src`. -/
theorem C47_only_admin {upper : Bytes → Bytes} {s s' : State} {src : Id} {m : Msg} {flt : Fault}
    (h : step upper s (.recv src m flt) = .ok s') {name : Bytes} (hch : s'.groups.get name ≠ s.groups.get name) :
    ∃ g, s.groups.get name = some g ∧
      ((admin g = some src ∧ AdminMsg name m) ∨
       (admin g = some s.self ∧ ∃ token i, m = .join name token ∧ s.invites.get (name, src) = some i ∧
          i.token = token ∧ s'.groups.get name = some ⟨g.name, inc (inc g.gen), g.members ++ [src]⟩) ∨
       (admin g = some s.self ∧ m = .part name ∧ src ∈ g.members.tail ∧
          s'.groups.get name = some ⟨g.name, inc g.gen, g.members.take 1 ++ g.members.tail.erase src⟩)) := by
  cases m with
  | invite n i =>
    cases h
    exfalso
    apply hch
    unfold recvInvite
    split
    · rfl
    split
    · rfl
    split <;> rfl
  | join n token =>
    cases h
    obtain ⟨rfl, g, i, hg, ha, hi, ht, _, _, he⟩ := recvJoin_get hch
    refine ⟨g, hg, .inr (.inl ⟨ha, token, i, rfl, hi, ht, ?_⟩)⟩
    rw [he]
    exact GoMap.get_set_self _ _ _
  | part n =>
    cases h
    obtain ⟨rfl, g, hg, ha, hm, he⟩ := recvPart_get hch
    exact ⟨g, hg, .inr (.inr ⟨ha, rfl, hm, he⟩)⟩
  | kill n =>
    change recvKill s src n = .ok s' at h
    unfold recvKill at h
    split at h
    · cases h; exact absurd rfl hch
    next g hg =>
      split at h
      · cases h
      next a r hm =>
        split at h
        · cases h; exact absurd rfl hch
        next ha =>
          cases h
          by_cases hn : n = name
          · subst hn
            refine ⟨g, hg, .inl ⟨?_, rfl⟩⟩
            simp only [admin, hm, List.head?_cons]
            simpa using ha
          · exact absurd (deleteGroup_get_ne hn) hch
  | kick member parted gl =>
    cases h
    unfold recvKick at hch
    split at hch
    · exact absurd rfl hch
    next g hg =>
      split at hch
      · exact absurd rfl hch
      next ha =>
        have ha' : admin g = some src := by simpa using ha
        split at hch
        · by_cases hn : gl.name = name
          · subst hn
            exact ⟨g, hg, .inl ⟨ha', rfl⟩⟩
          · exact absurd (deleteGroup_get_ne hn) hch
        · obtain ⟨g', hn, hg', ha', _⟩ := updateGroupList_get hch
          exact ⟨g', hg', .inl ⟨ha', hn⟩⟩
  | list gl =>
    cases h
    obtain ⟨g', hn, hg', ha', _⟩ := updateGroupList_get hch
    exact ⟨g', hg', .inl ⟨ha', hn⟩⟩
  | update gl =>
    cases h
    obtain ⟨g', hn, hg', ha', _⟩ := updateGroupList_get hch
    exact ⟨g', hg', .inl ⟨ha', hn⟩⟩
  | message n gen text me =>
    change recvMessage upper s src n text me = .ok s' at h
    unfold recvMessage at h
    split at h
    · cases h; exact absurd rfl hch
    split at h
    · cases h; exact absurd rfl hch
    split at h
    · cases h
    · cases h; exact absurd rfl hch

theorem step_self {upper : Bytes → Bytes} {s s' : State} {e : Ev} (h : step upper s e = .ok s') :
    s'.self = s.self ∧ s'.nick = s.nick := by
  cases e with
  | recv src m flt =>
    cases m with
    | kill n =>
      simp only [step, recv, recvKill, deleteGroup] at h
      repeat' split at h
      all_goals first | cases h; done | (cases h; exact ⟨rfl, rfl⟩)
    | message n gen text me =>
      simp only [step, recv, recvMessage] at h
      repeat' split at h
      all_goals first | cases h; done | (cases h; exact ⟨rfl, rfl⟩)
    | _ =>
      cases h
      simp only [recvInvite, recvJoin, recvPart, recvKick, deleteGroup, updateGroupList, sendAll]
      constructor <;> (repeat' split) <;> rfl
  | cmd c flt =>
    cases h
    cases c <;>
      simp only [cmd, cmdNew, cmdInvite, cmdJoin, cmdKick, cmdPart, cmdKill, cmdMessage, deleteGroup, sendAll] <;>
      constructor <;> (repeat' split) <;> rfl
  | ack n =>
    cases h
    simp only [ack]
    constructor <;> (repeat' split) <;> rfl
  | meet i => cases h; exact ⟨rfl, rfl⟩
  | tick d => cases h; exact ⟨rfl, rfl⟩

/-- The list in a message. -/
def Msg.gl : Msg → Option GroupList
  | .kick _ _ gl | .list gl | .update gl => some gl
  | _ => none

/-- Where the list of a group comes from after a step. -/
inductive Origin (s : State) (e : Ev) (name : Bytes) (g' : GroupList) : Prop
  | same (h : s.groups.get name = some g')
  | join {src token flt g i} (he : e = .recv src (.join name token) flt) (hg : s.groups.get name = some g)
      (ha : admin g = some s.self) (hi : s.invites.get (name, src) = some i) (ht : i.token = token)
      (hk : src ∈ s.known) (hm : src ∉ g.members.tail)
      (h : g' = ⟨g.name, inc (inc g.gen), g.members ++ [src]⟩)
  | part {src flt g} (he : e = .recv src (.part name) flt) (hg : s.groups.get name = some g)
      (ha : admin g = some s.self) (hm : src ∈ g.members.tail)
      (h : g' = ⟨g.name, inc g.gen, g.members.take 1 ++ g.members.tail.erase src⟩)
  | list {src m flt g} (he : e = .recv src m flt) (hm : m.gl = some g') (hn : g'.name = name)
      (hg : s.groups.get name = some g) (ha : admin g = some src)
  | new {onDisk flt} (he : e = .cmd (.new name onDisk) flt) (hg : s.groups.get name = none)
      (h : g' = ⟨name, 0, [s.self]⟩)
  | joined {token src flt} (he : e = .cmd (.join name token src) flt) (hg : s.groups.get name = none)
      (h : g' = ⟨name, 0, [src]⟩)
  | kicked {n k g} (he : e = .ack n) (hk : s.kicks[n]? = some k) (hn : k.name = name) (hw : k.got + 1 = k.want)
      (hg : s.groups.get name = some g) (h : g' = k.ngc)

theorem deleteGroup_get {s : State} {n name : Bytes} {g : GroupList}
    (h : (deleteGroup s n).groups.get name = some g) : s.groups.get name = some g := by
  unfold deleteGroup at h
  split at h
  · dsimp only at h
    rw [GoMap.get_del] at h
    split at h
    · cases h
    · exact h
  · exact h

theorem groups_step {upper : Bytes → Bytes} {s s' : State} {e : Ev} (h : step upper s e = .ok s') {name : Bytes}
    {g' : GroupList} (hg' : s'.groups.get name = some g') : Origin s e name g' := by
  by_cases hsame : s.groups.get name = some g'
  · exact .same hsame
  cases e with
  | recv src m flt =>
    cases m with
    | invite n i =>
      cases h
      unfold recvInvite at hg'
      repeat' split at hg'
      all_goals exact .same hg'
    | join n token =>
      cases h
      obtain ⟨rfl, g, i, hg, ha, hi, ht, hk, hm, he⟩ :=
        recvJoin_get (show (recvJoin s src n token flt).groups.get name ≠ _ by rw [hg']; exact Ne.symm hsame)
      rw [he] at hg'
      refine .join rfl hg ha hi ht hk hm ?_
      exact (Option.some.inj ((GoMap.get_set_self _ _ _).symm.trans hg')).symm
    | part n =>
      cases h
      obtain ⟨rfl, g, hg, ha, hm, he⟩ :=
        recvPart_get (show (recvPart s src n).groups.get name ≠ _ by rw [hg']; exact Ne.symm hsame)
      rw [he] at hg'
      exact .part rfl hg ha hm (Option.some.inj hg').symm
    | kill n =>
      simp only [step, recv, recvKill] at h
      split at h
      · cases h; exact .same hg'
      split at h
      · cases h
      split at h
      · cases h; exact .same hg'
      · cases h; exact .same (deleteGroup_get hg')
    | kick member parted gl =>
      cases h
      unfold recvKick at hg'
      split at hg'
      · exact .same hg'
      split at hg'
      · exact .same hg'
      split at hg'
      · exact .same (deleteGroup_get hg')
      · obtain ⟨g, hn, hg, ha, h2⟩ := updateGroupList_get
          (show (updateGroupList s src gl).groups.get name ≠ _ by rw [hg']; exact Ne.symm hsame)
        rw [h2] at hg'
        cases hg'
        exact .list rfl rfl hn hg ha
    | list gl =>
      cases h
      obtain ⟨g, hn, hg, ha, h2⟩ := updateGroupList_get
        (show (updateGroupList s src gl).groups.get name ≠ _ by rw [hg']; exact Ne.symm hsame)
      rw [h2] at hg'
      cases hg'
      exact .list rfl rfl hn hg ha
    | update gl =>
      cases h
      obtain ⟨g, hn, hg, ha, h2⟩ := updateGroupList_get
        (show (updateGroupList s src gl).groups.get name ≠ _ by rw [hg']; exact Ne.symm hsame)
      rw [h2] at hg'
      cases hg'
      exact .list rfl rfl hn hg ha
    | message n gen text me =>
      simp only [step, recv, recvMessage] at h
      repeat' split at h
      all_goals first | cases h; done | (cases h; exact .same hg')
  | cmd c flt =>
    cases h
    cases c with
    | new n onDisk =>
      unfold cmd cmdNew at hg'
      dsimp only at hg'
      split at hg'
      · exact .same hg'
      split at hg'
      · exact .same hg'
      next hn =>
        dsimp only at hg'
        rw [GoMap.get_set] at hg'
        split at hg'
        next he =>
          subst he
          exact .new rfl (by simpa using hn) (Option.some.inj hg').symm
        · exact .same hg'
    | invite n who token =>
      simp only [cmd, cmdInvite, sendAll] at hg'
      repeat' split at hg'
      all_goals exact .same hg'
    | join n token src =>
      simp only [cmd, cmdJoin, sendAll] at hg'
      split at hg'
      · exact .same hg'
      next hn =>
      split at hg'
      · exact .same hg'
      split at hg'
      · exact .same hg'
      have hg2 : GoMap.get (GoMap.set s.groups n ⟨n, 0, [src]⟩) name = some g' := by
        repeat' split at hg'
        all_goals exact hg'
      rw [GoMap.get_set] at hg2
      split at hg2
      next he =>
        subst he
        exact .joined rfl (by simpa using hn) (Option.some.inj hg2).symm
      · exact .same hg2
    | kick n who =>
      simp only [cmd, cmdKick, sendAll] at hg'
      repeat' split at hg'
      all_goals exact .same hg'
    | part n =>
      simp only [cmd, cmdPart, sendAll] at hg'
      repeat' split at hg'
      all_goals exact .same hg'
    | partForce n => exact .same (deleteGroup_get hg')
    | kill n online =>
      simp only [cmd, cmdKill] at hg'
      repeat' split at hg'
      · exact .same hg'
      · exact .same hg'
      · exact .same (deleteGroup_get hg')
      · exact .same hg'
      · exact .same (deleteGroup_get (s := sendAll s _ _) hg')
    | message n text me =>
      simp only [cmd, cmdMessage, sendAll] at hg'
      repeat' split at hg'
      all_goals exact .same hg'
  | ack n =>
    cases h
    simp only [ack] at hg'
    split at hg'
    · exact .same hg'
    next k hk =>
    split at hg'
    · exact .same hg'
    next hw =>
    split at hg'
    · exact .same hg'
    next g hg =>
    dsimp only at hg'
    rw [GoMap.get_set] at hg'
    split at hg'
    next he =>
      subst he
      exact .kicked rfl hk rfl (by simpa using hw) hg (Option.some.inj hg').symm
    · exact .same hg'
  | meet i => cases h; exact .same hg'
  | tick d => cases h; exact .same hg'

/-- Where a kick comes from after a step. -/
theorem kicks_step {upper : Bytes → Bytes} {s s' : State} {e : Ev} (h : step upper s e = .ok s') :
    s'.kicks = s.kicks ∨
    (∃ name who flt g, e = .cmd (.kick name who) flt ∧ s.groups.get name = some g ∧ admin g = some s.self ∧
      who ≠ s.self ∧ s'.groups = s.groups ∧ s'.kicks = s.kicks ++
        [⟨name, ⟨g.name, inc g.gen, g.members.filter (· ≠ who)⟩, 0, g.members.length - 1, who, g⟩]) ∨
    (∃ n k, e = .ack n ∧ s.kicks[n]? = some k ∧ s'.kicks = s.kicks.set n { k with got := k.got + 1 }) := by
  cases e with
  | recv src m flt =>
    left
    cases m with
    | kill n =>
      simp only [step, recv, recvKill, deleteGroup] at h
      repeat' split at h
      all_goals first | cases h; done | (cases h; rfl)
    | message n gen text me =>
      simp only [step, recv, recvMessage] at h
      repeat' split at h
      all_goals first | cases h; done | (cases h; rfl)
    | _ =>
      cases h
      simp only [recvInvite, recvJoin, recvPart, recvKick, deleteGroup, updateGroupList, sendAll]
      (repeat' split) <;> rfl
  | cmd c flt =>
    cases h
    cases c with
    | kick n who =>
      simp only [cmd, cmdKick, sendAll]
      split
      · exact .inl rfl
      next g hg =>
      split
      · exact .inl rfl
      next ha =>
      split
      · exact .inl rfl
      next hw =>
      exact .inr (.inl ⟨n, who, flt, g, rfl, hg, by simpa using ha, hw, rfl, rfl⟩)
    | _ =>
      left
      simp only [cmd, cmdNew, cmdInvite, cmdJoin, cmdPart, cmdKill, cmdMessage, deleteGroup, sendAll]
      (repeat' split) <;> rfl
  | ack n =>
    cases h
    simp only [ack]
    split
    · exact .inl rfl
    next k hk =>
      refine .inr (.inr ⟨n, k, rfl, hk, ?_⟩)
      (repeat' split) <;> rfl
  | meet i => cases h; exact .inl rfl
  | tick d => cases h; exact .inl rfl

/-- No restriction. -/
def Any (_ : State) (_ : Ev) : Prop := True

theorem run_snoc {upper : Bytes → Bytes} {G : State → Ev → Prop} {s s' : State} {es : List Ev}
    (h : Run upper G s es s') : ∀ (P : State → List Ev → Prop), P s [] →
    (∀ {t t' : State} {l : List Ev} {e : Ev}, Run upper G s l t → P t l → G t e → step upper t e = .ok t' →
      P t' (l ++ [e])) → P s' es := by
  intro P h0 hstep
  suffices key : ∀ {t t' : State} {es : List Ev}, Run upper G t es t' → ∀ l, Run upper G s l t → P t l →
      P t' (l ++ es) by simpa using key h [] (.nil s) h0
  clear h s' es
  intro t t' es h
  induction h with
  | nil => intro l _ hp; simpa using hp
  | @cons t e t1 es t2 hg h1 _ ih =>
    intro l hl hp
    have hl2 : Run upper G s (l ++ [e]) t1 := by
      clear ih hp hstep h0
      induction hl with
      | nil => exact .cons hg h1 (.nil _)
      | cons a b _ ih2 => exact .cons a b (ih2 hg h1)
    have := ih (l ++ [e]) hl2 (hstep hl hp hg h1)
    simpa using this

theorem run_self {upper : Bytes → Bytes} {G : State → Ev → Prop} {s s' : State} {es : List Ev}
    (h : Run upper G s es s') : s'.self = s.self ∧ s'.nick = s.nick := by
  induction h with
  | nil => exact ⟨rfl, rfl⟩
  | cons _ h1 _ ih =>
    have := step_self h1
    exact ⟨ih.1.trans this.1, ih.2.trans this.2⟩

/-- What is known of every kick. -/
structure Ordered (own : Id) (es : List Ev) (k : Kick) : Prop where
  cmd : ∃ flt, .cmd (.kick k.name k.who) flt ∈ es
  admin : admin k.was = some own
  other : k.who ≠ own
  list : k.ngc = ⟨k.was.name, inc k.was.gen, k.was.members.filter (· ≠ k.who)⟩
  want : k.want = k.was.members.length - 1

theorem ordered_run {upper : Bytes → Bytes} {G : State → Ev → Prop} {self : Id} {nick : Bytes} {s : State}
    {es : List Ev} (h : Run upper G (init self nick) es s) : ∀ k ∈ s.kicks, Ordered self es k := by
  refine run_snoc h (fun s es => ∀ k ∈ s.kicks, Ordered self es k) (fun k hk => by cases hk) ?_
  intro t t' l e hr hp hg h1 k hk
  have mono : ∀ k, Ordered self l k → Ordered self (l ++ [e]) k := by
    rintro k ⟨⟨flt, h1⟩, h2, h3, h4, h5⟩
    exact ⟨⟨flt, List.mem_append_left _ h1⟩, h2, h3, h4, h5⟩
  have hself : t.self = self := (run_self hr).1
  rcases kicks_step h1 with h2 | ⟨name, who, flt, g, rfl, hg, ha, hw, _, h2⟩ | ⟨n, k0, rfl, hk0, h2⟩
  · rw [h2] at hk
    exact mono k (hp k hk)
  · rw [h2] at hk
    rcases List.mem_append.mp hk with h3 | h3
    · exact mono k (hp k h3)
    · rw [List.mem_singleton] at h3
      subst h3
      rw [hself] at ha hw
      exact ⟨⟨flt, List.mem_append_right _ (List.mem_singleton.mpr rfl)⟩, ha, hw, rfl, rfl⟩
  · rw [h2] at hk
    rcases List.mem_or_eq_of_mem_set hk with h3 | h3
    · exact mono k (hp k h3)
    · subst h3
      have := mono k0 (hp k0 (List.mem_of_getElem? hk0))
      exact ⟨this.1, this.2, this.3, this.4, this.5⟩

/-- **C47** In every execution: what the client knows about a group changes only by a command of the user, by a
message as in `C47_only_admin`, or by the last acknowledgement of a kick that the user has ordered as the
administrator; this installs the list of that time without the kicked member. -/
theorem C47_all_changes {upper : Bytes → Bytes} {G : State → Ev → Prop} {self : Id} {nick : Bytes} {s s' : State}
    {es : List Ev} (hr : Run upper G (init self nick) es s) {e : Ev} (h : step upper s e = .ok s') {name : Bytes}
    (hch : s'.groups.get name ≠ s.groups.get name) :
    (∃ c flt, e = .cmd c flt) ∨ (∃ src m flt, e = .recv src m flt) ∨
      ∃ n k flt, e = .ack n ∧ s.kicks[n]? = some k ∧ k.name = name ∧ .cmd (.kick name k.who) flt ∈ es ∧
        admin k.was = some self ∧
        s'.groups.get name = some ⟨k.was.name, inc k.was.gen, k.was.members.filter (· ≠ k.who)⟩ := by
  cases e with
  | recv src m flt => exact .inr (.inl ⟨src, m, flt, rfl⟩)
  | cmd c flt => exact .inl ⟨c, flt, rfl⟩
  | meet i => cases h; exact absurd rfl hch
  | tick d => cases h; exact absurd rfl hch
  | ack n =>
    cases h
    right; right
    simp only [ack] at hch ⊢
    split at hch
    · exact absurd rfl hch
    next k hk =>
    split at hch
    · exact absurd rfl hch
    next hw =>
    split at hch
    · exact absurd rfl hch
    next g hg =>
    dsimp only at hch
    by_cases hn : k.name = name
    · subst hn
      have ho := ordered_run hr k (List.mem_of_getElem? hk)
      obtain ⟨flt, hc⟩ := ho.cmd
      refine ⟨n, k, flt, rfl, hk, rfl, hc, ho.admin, ?_⟩
      rw [if_neg hw, ← ho.list]
      exact GoMap.get_set_self _ _ _
    · exact absurd (GoMap.get_set_ne _ _ hn) hch

/-! ## C48 -/

/-- What the protocol demands of the sender of a list: the first member is the sender, nobody is listed twice, and
the generation is higher than what the receiver has. -/
def Proper (s : State) (e : Ev) : Prop :=
  ∀ src m flt gl, e = .recv src m flt → m.gl = some gl →
    admin gl = some src ∧ gl.members.Nodup ∧ ∀ g, s.groups.get gl.name = some g → g.gen < gl.gen

theorem inc_lt {n : Nat} (h : n + 1 < 2 ^ 64) : inc n = n + 1 := Nat.mod_eq_of_lt h

/-- **C48** (partial: the receiver does not check what the protocol demands, see `C48_hands_violated` and
`C48_generation_violated`) A message that meets the demands of the protocol leaves the administrator of every
group that remains, and if it changes the group the generation grows (up to the end of its range). -/
theorem C48_update_partial {upper : Bytes → Bytes} {s s' : State} {src : Id} {m : Msg} {flt : Fault}
    (hp : Proper s (.recv src m flt)) (h : step upper s (.recv src m flt) = .ok s') {name : Bytes}
    {g g' : GroupList} (hg : s.groups.get name = some g) (hg' : s'.groups.get name = some g')
    (hgen : g.gen + 2 < 2 ^ 64) : admin g' = admin g ∧ (g' = g ∨ g.gen < g'.gen) := by
  cases groups_step h hg' with
  | same h => rw [h] at hg; cases hg; exact ⟨rfl, .inl rfl⟩
  | join he hg1 ha hi ht hk hm h =>
    rw [hg] at hg1
    cases hg1
    subst h
    refine ⟨?_, .inr ?_⟩
    · unfold admin at ha ⊢
      rw [List.head?_append, ha]
      rfl
    · dsimp only
      rw [inc_lt (n := g.gen) (by omega), inc_lt (by omega)]
      omega
  | part he hg1 ha hm h =>
    rw [hg] at hg1
    cases hg1
    subst h
    refine ⟨?_, .inr ?_⟩
    · unfold admin at ha ⊢
      dsimp only
      cases hl : g.members with
      | nil => rw [hl] at ha; cases ha
      | cons a l => rfl
    · dsimp only
      rw [inc_lt (by omega)]
      omega
  | list he hm hn hg1 ha =>
    cases he
    rw [hg] at hg1
    cases hg1
    obtain ⟨h1, _, h3⟩ := hp _ _ _ _ rfl hm
    refine ⟨by rw [h1, ha], .inr ?_⟩
    exact h3 g (by rw [hn]; exact hg)
  | new he hg1 h => rw [hg] at hg1; cases hg1
  | joined he hg1 h => rw [hg] at hg1; cases hg1
  | kicked he hk hn hw hg1 h => cases he

theorem indexOf_le {needle hay : Bytes} : ∀ {i x : Nat}, indexOf needle hay i = some x →
    i ≤ x ∧ x - i + needle.length ≤ hay.length := by
  induction hay with
  | nil =>
    intro i x h
    unfold indexOf at h
    split at h
    next he => cases h; subst he; simp
    · cases h
  | cons c r ih =>
    intro i x h
    unfold indexOf at h
    split at h
    next he =>
      cases h
      have := (List.isPrefixOf_iff_prefix.mp he).length_le
      exact ⟨Nat.le_refl _, by simpa using this⟩
    · obtain ⟨h1, h2⟩ := ih h
      refine ⟨by omega, ?_⟩
      rw [List.length_cons]
      omega

theorem highlight_some {upper : Bytes → Bytes} (hu : ∀ b, (upper b).length = b.length) (nick text : Bytes)
    (me : Bool) (m r : Bytes) : ∃ t, highlight upper nick text me m r = some t := by
  unfold highlight
  split
  · exact ⟨_, rfl⟩
  next x hx =>
    split
    · exact ⟨_, rfl⟩
    · have := (indexOf_le hx).2
      rw [hu, hu] at this
      rw [if_pos (by omega)]
      exact ⟨_, rfl⟩

/-- Received lists are not empty. -/
def NonEmpty (_ : State) (e : Ev) : Prop :=
  ∀ src m flt gl, e = .recv src m flt → m.gl = some gl → gl.members ≠ []

theorem nonempty_run {upper : Bytes → Bytes} {self : Id} {nick : Bytes} {s : State} {es : List Ev}
    (h : Run upper NonEmpty (init self nick) es s) : ∀ name g, s.groups.get name = some g → g.members ≠ [] := by
  refine run_snoc h (fun s _ => ∀ name g, s.groups.get name = some g → g.members ≠ [])
    (fun _ _ h => by cases h) ?_
  intro t t' l e hr hp hG h1 name g' hg'
  cases groups_step h1 hg' with
  | same h => exact hp _ _ h
  | join he hg1 ha hi ht hk hm h => subst h; simp
  | part he hg1 ha hm h =>
    subst h
    have := hp _ _ hg1
    obtain ⟨a, l, hl⟩ := List.exists_cons_of_ne_nil this
    simp [hl]
  | list he hm hn hg1 ha => exact hG _ _ _ _ he hm
  | new he hg1 h => subst h; simp
  | joined he hg1 h => subst h; simp
  | kicked he hk hn hw hg1 h =>
    subst h
    have ho := ordered_run hr _ (List.mem_of_getElem? hk)
    rw [ho.list]
    have ha := ho.admin
    unfold admin at ha
    intro hnil
    have hmem := List.mem_of_mem_head? ha
    have : self ∈ List.filter (fun x => decide (x ≠ _)) _ := List.mem_filter.mpr ⟨hmem, by simpa using Ne.symm ho.other⟩
    dsimp only at hnil
    rw [hnil] at this
    cases this

/-- **C48** (partial: empty lists are excluded, see `C48_crash_violated`, and changing to upper case is taken to
leave the length as it is, see `C48_mention_violated`) No message, command or acknowledgement crashes the
client. -/
theorem C48_no_crash_partial {upper : Bytes → Bytes} (hu : ∀ b, (upper b).length = b.length) {self : Id}
    {nick : Bytes} {s : State} {es : List Ev} (h : Run upper NonEmpty (init self nick) es s) (e : Ev) :
    ∃ s', step upper s e = .ok s' := by
  cases e with
  | recv src m flt =>
    cases m with
    | kill n =>
      simp only [step, recv, recvKill]
      split
      · exact ⟨_, rfl⟩
      next g hg =>
        split
        next hm => exact absurd hm (nonempty_run h _ _ hg)
        · split <;> exact ⟨_, rfl⟩
    | message n gen text me =>
      simp only [step, recv, recvMessage]
      split
      · exact ⟨_, rfl⟩
      split
      · exact ⟨_, rfl⟩
      obtain ⟨t, ht⟩ := highlight_some hu s.nick text me [] []
      rw [ht]
      exact ⟨_, rfl⟩
    | _ => exact ⟨_, rfl⟩
  | _ => exact ⟨_, rfl⟩

/-! ## C49 -/

/-- What a step does to the invitations and the joins honoured. -/
theorem invites_step {upper : Bytes → Bytes} {s s' : State} {e : Ev} (h : step upper s e = .ok s') :
    (s'.invites = s.invites ∧ s'.issued = s.issued ∧ s'.admitted = s.admitted) ∨
    (∃ name who i, s.invites.get (name, who) = none ∧ s'.invites = s.invites.set (name, who) i ∧
      s'.issued = s.issued ++ [(name, who, i.token)] ∧ s'.admitted = s.admitted) ∨
    (∃ name src flt i, e = .recv src (.join name i.token) flt ∧ s.invites.get (name, src) = some i ∧
      s'.invites = s.invites.del (name, src) ∧ s'.issued = s.issued ∧
      (s'.admitted = s.admitted ∨ s'.admitted = s.admitted ++ [(name, src, i.token)])) := by
  cases e with
  | recv src m flt =>
    cases m with
    | kill n =>
      left
      simp only [step, recv, recvKill, deleteGroup] at h
      repeat' split at h
      all_goals first | cases h; done | (cases h; exact ⟨rfl, rfl, rfl⟩)
    | message n gen text me =>
      left
      simp only [step, recv, recvMessage] at h
      repeat' split at h
      all_goals first | cases h; done | (cases h; exact ⟨rfl, rfl, rfl⟩)
    | join n token =>
      cases h
      simp only [recvJoin, sendAll]
      split
      · exact .inl ⟨rfl, rfl, rfl⟩
      split
      · exact .inl ⟨rfl, rfl, rfl⟩
      split
      · exact .inl ⟨rfl, rfl, rfl⟩
      next i hi =>
      split
      · exact .inl ⟨rfl, rfl, rfl⟩
      next ht =>
      have ht : i.token = token := by simpa using ht
      subst ht
      split
      · exact .inl ⟨rfl, rfl, rfl⟩
      right; right
      refine ⟨n, src, flt, i, rfl, hi, ?_⟩
      split
      · exact ⟨rfl, rfl, .inl rfl⟩
      split
      · exact ⟨rfl, rfl, .inl rfl⟩
      split
      · exact ⟨rfl, rfl, .inl rfl⟩
      · exact ⟨rfl, rfl, .inr rfl⟩
    | _ =>
      left
      cases h
      simp only [recvInvite, recvPart, recvKick, deleteGroup, updateGroupList, sendAll]
      refine ⟨?_, ?_, ?_⟩ <;> (repeat' split) <;> rfl
  | cmd c flt =>
    cases h
    cases c with
    | invite n who token =>
      simp only [cmd, cmdInvite, sendAll]
      split
      · exact .inl ⟨rfl, rfl, rfl⟩
      split
      · exact .inl ⟨rfl, rfl, rfl⟩
      next g hg =>
      split
      · exact .inl ⟨rfl, rfl, rfl⟩
      split
      · exact .inl ⟨rfl, rfl, rfl⟩
      split
      · exact .inl ⟨rfl, rfl, rfl⟩
      next hn =>
      split
      · exact .inl ⟨rfl, rfl, rfl⟩
      exact .inr (.inl ⟨g.name, who, _, by simpa using hn, rfl, rfl, rfl⟩)
    | _ =>
      left
      simp only [cmd, cmdNew, cmdJoin, cmdKick, cmdPart, cmdKill, cmdMessage, deleteGroup, sendAll]
      refine ⟨?_, ?_, ?_⟩ <;> (repeat' split) <;> rfl
  | ack n =>
    cases h
    left
    simp only [ack]
    refine ⟨?_, ?_, ?_⟩ <;> (repeat' split) <;> rfl
  | meet i => cases h; exact .inl ⟨rfl, rfl, rfl⟩
  | tick d => cases h; exact .inl ⟨rfl, rfl, rfl⟩

/-- **C49** A join is honoured only if it is a message of an identity with an outstanding invitation to this group
and the token of it; afterwards that invitation is gone. -/
theorem C49_needs_invitation {upper : Bytes → Bytes} {s s' : State} {e : Ev} (h : step upper s e = .ok s')
    (hch : s'.admitted ≠ s.admitted) :
    ∃ name src flt i, e = .recv src (.join name i.token) flt ∧ s.invites.get (name, src) = some i ∧
      s'.admitted = s.admitted ++ [(name, src, i.token)] ∧ s'.invites.get (name, src) = none := by
  rcases invites_step h with h1 | ⟨_, _, _, _, _, _, h1⟩ | ⟨name, src, flt, i, he, hi, hd, _, h1⟩
  · exact absurd h1.2.2 hch
  · exact absurd h1 hch
  · rcases h1 with h1 | h1
    · exact absurd h1 hch
    · exact ⟨name, src, flt, i, he, hi, h1, by rw [hd]; exact GoMap.get_del_self _ _⟩

/-- **C49** A member is added to a group that the client administers only by a join that is honoured. -/
theorem C49_added_is_admitted {upper : Bytes → Bytes} {s s' : State} {src : Id} {m : Msg} {flt : Fault}
    (h : step upper s (.recv src m flt) = .ok s') {name : Bytes} {g g' : GroupList} (hsrc : src ≠ s.self)
    (hg : s.groups.get name = some g) (ha : admin g = some s.self) (hg' : s'.groups.get name = some g') {i : Id}
    (hi : i ∈ g'.members) (hn : i ∉ g.members) :
    i = src ∧ ∃ token, s'.admitted = s.admitted ++ [(name, src, token)] := by
  cases groups_step h hg' with
  | same h => rw [h] at hg; cases hg; exact absurd hi hn
  | @join _ tok _ _ _ he hg1 ha1 hi1 ht hk hm h2 =>
    rw [hg] at hg1
    cases hg1
    subst h2
    rcases List.mem_append.mp hi with h3 | h3
    · exact absurd h3 hn
    · refine ⟨?_, ?_⟩
      · cases he; exact List.mem_singleton.mp h3
      · cases he
        cases h
        have hne : (recvJoin s src name tok flt).groups.get name ≠ s.groups.get name := by
          rw [hg', hg]
          intro he
          have := congrArg GroupList.members (Option.some.inj he)
          simp at this
        obtain ⟨_, g2, i2, _, _, _, _, _, _, he⟩ := recvJoin_get hne
        exact ⟨_, by rw [he]; rfl⟩
  | part he hg1 ha1 hm h2 =>
    rw [hg] at hg1
    cases hg1
    subst h2
    exfalso
    apply hn
    rcases List.mem_append.mp hi with h3 | h3
    · exact List.mem_of_mem_take h3
    · exact List.mem_of_mem_tail (List.mem_of_mem_erase h3)
  | list he hm hn1 hg1 ha1 =>
    rw [hg] at hg1
    cases hg1
    cases he
    rw [ha] at ha1
    exact absurd (Option.some.inj ha1).symm hsrc
  | new he hg1 h => rw [hg] at hg1; cases hg1
  | joined he hg1 h => rw [hg] at hg1; cases hg1
  | kicked he hk hn hw hg1 h => cases he

/-- Entries for a group and an identity. -/
def about (key : Bytes × Id) (l : List (Bytes × Id × Nat)) : Nat := l.countP fun r => (r.1, r.2.1) = key

/-- **C49** In every execution and for every group and identity: the joins honoured, and the outstanding invitation
if there is one, are together not more than the invitations made; and every join honoured has the token of an
invitation that was made to this identity for this group. -/
theorem C49_single_use {upper : Bytes → Bytes} {G : State → Ev → Prop} {self : Id} {nick : Bytes} {s : State}
    {es : List Ev} (h : Run upper G (init self nick) es s) (key : Bytes × Id) :
    about key s.admitted + (if (s.invites.get key).isSome then 1 else 0) ≤ about key s.issued ∧
    (∀ r ∈ s.admitted, r ∈ s.issued) ∧ ∀ k i, s.invites.get k = some i → (k.1, k.2, i.token) ∈ s.issued := by
  refine run_snoc h (fun s _ =>
    about key s.admitted + (if (s.invites.get key).isSome then 1 else 0) ≤ about key s.issued ∧
    (∀ r ∈ s.admitted, r ∈ s.issued) ∧ ∀ k i, s.invites.get k = some i → (k.1, k.2, i.token) ∈ s.issued)
    ⟨by simp [about, init], (fun r hr => by cases hr), fun k i hi => by cases hi⟩ ?_
  intro t t' l e hr hp hG h1
  obtain ⟨hp1, hp2, hp3⟩ := hp
  rcases invites_step h1 with ⟨e1, e2, e3⟩ | ⟨name, who, i, hn, e1, e2, e3⟩ | ⟨name, src, flt, i, he, hi, e1, e2, e3⟩
  · rw [e1, e2, e3]
    exact ⟨hp1, hp2, hp3⟩
  · rw [e1, e2, e3]
    refine ⟨?_, fun r hr => List.mem_append_left _ (hp2 r hr), ?_⟩
    · rw [GoMap.get_set]
      unfold about at hp1 ⊢
      rw [List.countP_append]
      by_cases hk : (name, who) = key
      · subst hk
        rw [if_pos rfl]
        rw [hn] at hp1
        simp at hp1 ⊢
        exact hp1
      · rw [if_neg hk]
        omega
    · intro k j hj
      rw [GoMap.get_set] at hj
      split at hj
      next hk =>
        cases hj
        subst hk
        exact List.mem_append_right _ (List.mem_singleton.mpr rfl)
      · exact List.mem_append_left _ (hp3 k j hj)
  · rw [e1, e2]
    refine ⟨?_, ?_, ?_⟩
    · rw [GoMap.get_del]
      by_cases hk : (name, src) = key
      · subst hk
        rw [if_pos rfl]
        rw [hi] at hp1
        simp at hp1 ⊢
        rcases e3 with e3 | e3
        · rw [e3]; omega
        · rw [e3]
          unfold about at hp1 ⊢
          rw [List.countP_append]
          simpa using hp1
      · rw [if_neg hk]
        rcases e3 with e3 | e3
        · rw [e3]; exact hp1
        · rw [e3]
          have h0 : about key (t.admitted ++ [(name, src, i.token)]) = about key t.admitted := by
            unfold about
            rw [List.countP_append]
            simp [hk]
          rw [h0]
          exact hp1
    · intro r hr
      rcases e3 with e3 | e3
      · rw [e3] at hr; exact hp2 r hr
      · rw [e3] at hr
        rcases List.mem_append.mp hr with h3 | h3
        · exact hp2 r h3
        · rw [List.mem_singleton.mp h3]
          exact hp3 _ _ hi
    · intro k j hj
      rw [GoMap.get_del] at hj
      split at hj
      · cases hj
      · exact hp3 k j hj

/-! ## C50 -/

/-- The events that may change the group `name`, except acknowledgements. -/
def touches (name : Bytes) : Ev → Prop
  | .recv _ (.join n _) _ | .recv _ (.part n) _ | .recv _ (.kill n) _ => n = name
  | .recv _ (.kick _ _ gl) _ | .recv _ (.list gl) _ | .recv _ (.update gl) _ => gl.name = name
  | .cmd (.new n _) _ | .cmd (.join n _ _) _ | .cmd (.kick n _) _ | .cmd (.partForce n) _ | .cmd (.kill n _) _ =>
    n = name
  | _ => False

/-- A kick that is under way. -/
def Kick.pending (k : Kick) : Prop := k.got < k.want

/-- While a kick of the group is under way nothing else happens to the group; nobody receives messages from
themselves. -/
def Calm (name : Bytes) (s : State) (e : Ev) : Prop :=
  ((∃ k ∈ s.kicks, k.name = name ∧ k.pending) → ¬ touches name e) ∧ ∀ src m flt, e = .recv src m flt → src ≠ s.self

theorem untouched {upper : Bytes → Bytes} {s s' : State} {e : Ev} {name : Bytes} (h : step upper s e = .ok s')
    (ht : ¬ touches name e) (ha : ∀ n, e ≠ .ack n) : s'.groups.get name = s.groups.get name := by
  cases e with
  | recv src m flt =>
    apply Classical.byContradiction
    intro hch
    obtain ⟨g, hg, h1 | ⟨_, token, i, rfl, _⟩ | ⟨_, rfl, _⟩⟩ := C47_only_admin h hch
    · have := h1.2
      cases m <;> first | exact this | exact ht this
    · exact ht rfl
    · exact ht rfl
  | cmd c flt =>
    cases h
    cases c with
    | new n onDisk =>
      simp only [cmd, cmdNew]
      repeat' split
      · rfl
      · rfl
      · exact GoMap.get_set_ne _ _ ht
    | join n token src =>
      simp only [cmd, cmdJoin, sendAll]
      repeat' split
      · rfl
      · rfl
      · rfl
      all_goals exact GoMap.get_set_ne _ _ ht
    | partForce n => exact deleteGroup_get_ne ht
    | kill n online =>
      simp only [cmd, cmdKill]
      repeat' split
      · rfl
      · rfl
      · exact deleteGroup_get_ne ht
      · rfl
      · exact deleteGroup_get_ne (s := sendAll s _ _) ht
    | invite n who token =>
      simp only [cmd, cmdInvite, sendAll]
      (repeat' split) <;> rfl
    | kick n who =>
      simp only [cmd, cmdKick, sendAll]
      (repeat' split) <;> rfl
    | part n =>
      simp only [cmd, cmdPart, sendAll]
      (repeat' split) <;> rfl
    | message n text me =>
      simp only [cmd, cmdMessage, sendAll]
      (repeat' split) <;> rfl
  | ack n => exact absurd rfl (ha n)
  | meet i => cases h; rfl
  | tick d => cases h; rfl

/-- In a calm execution a kick that is under way is the only one of the group, and the group is as it was when
the kick was ordered. -/
theorem calm_run {upper : Bytes → Bytes} {self : Id} {nick name : Bytes} {s : State} {es : List Ev}
    (h : Run upper (Calm name) (init self nick) es s) :
    (∀ k ∈ s.kicks, k.name = name → k.pending → s.groups.get name = some k.was) ∧
    ∀ (i j : Nat) (a b : Kick), s.kicks[i]? = some a → s.kicks[j]? = some b → a.name = name → b.name = name → a.pending →
      b.pending → i = j := by
  refine run_snoc h (fun s _ => (∀ k ∈ s.kicks, k.name = name → k.pending → s.groups.get name = some k.was) ∧
    ∀ (i j : Nat) (a b : Kick), s.kicks[i]? = some a → s.kicks[j]? = some b → a.name = name → b.name = name → a.pending →
      b.pending → i = j) ⟨(fun k hk => by cases hk), fun i j a b ha => by simp [init] at ha⟩ ?_
  intro t t' l e hr hp hG h1
  obtain ⟨hp1, hp2⟩ := hp
  rcases kicks_step h1 with h2 | ⟨n, who, flt, g, rfl, hg, ha, hw, hgr, h2⟩ | ⟨n, k0, rfl, hk0, h2⟩
  · rw [h2]
    refine ⟨fun k hk hkn hkp => ?_, hp2⟩
    by_cases hack : ∃ n, e = .ack n
    · obtain ⟨n, rfl⟩ := hack
      cases h1
      simp only [ack] at h2 ⊢
      split at h2
      · exact hp1 k hk hkn hkp
      next k0 hk0 =>
        exfalso
        have h3 : t.kicks.set n { k0 with got := k0.got + 1 } = t.kicks := by
          repeat' split at h2
          all_goals exact h2
        have h4 := congrArg (fun l : List Kick => l[n]?) h3
        have hn : n < t.kicks.length := by
          rw [List.getElem?_eq_some_iff] at hk0
          exact hk0.1
        rw [List.getElem?_set_self hn, hk0] at h4
        have := congrArg Kick.got (Option.some.inj h4)
        simp at this
    · rw [untouched h1 (hG.1 ⟨k, hk, hkn, hkp⟩) (fun n he => hack ⟨n, he⟩)]
      exact hp1 k hk hkn hkp
  · rw [h2, hgr]
    by_cases hn : n = name
    · subst hn
      have hno : ∀ k ∈ t.kicks, k.name = n → ¬ k.pending := by
        intro k hk hkn hkp
        exact hG.1 ⟨k, hk, hkn, hkp⟩ rfl
      refine ⟨fun k hk hkn hkp => ?_, ?_⟩
      · rcases List.mem_append.mp hk with h3 | h3
        · exact absurd hkp (hno k h3 hkn)
        · rw [List.mem_singleton] at h3
          subst h3
          exact hg
      · have idx : ∀ (i : Nat) (a : Kick), (t.kicks ++ [⟨n, ⟨g.name, inc g.gen, g.members.filter (· ≠ who)⟩, 0,
            g.members.length - 1, who, g⟩])[i]? = some a → a.name = n → a.pending → i = t.kicks.length := by
          intro i a hia han hap
          by_cases hi : i < t.kicks.length
          · rw [List.getElem?_append_left hi] at hia
            exact absurd hap (hno a (List.mem_of_getElem? hia) han)
          · have := (List.getElem?_eq_some_iff.mp hia).1
            simp at this
            omega
        intro i j a b hia hjb han hbn hap hbp
        rw [idx i a hia han hap, idx j b hjb hbn hbp]
    · refine ⟨fun k hk hkn hkp => ?_, ?_⟩
      · rcases List.mem_append.mp hk with h3 | h3
        · exact hp1 k h3 hkn hkp
        · rw [List.mem_singleton] at h3
          subst h3
          exact absurd hkn hn
      · have idx : ∀ (i : Nat) (a : Kick), (t.kicks ++ [⟨n, ⟨g.name, inc g.gen, g.members.filter (· ≠ who)⟩, 0,
            g.members.length - 1, who, g⟩])[i]? = some a → a.name = name → t.kicks[i]? = some a := by
          intro i a hia han
          by_cases hi : i < t.kicks.length
          · rwa [List.getElem?_append_left hi] at hia
          · exfalso
            have := List.mem_of_getElem? hia
            rw [List.getElem?_append_right (by omega)] at hia
            have := List.mem_of_getElem? hia
            rw [List.mem_singleton] at this
            subst this
            exact hn han
        intro i j a b hia hjb han hbn hap hbp
        exact hp2 i j a b (idx i a hia han) (idx j b hjb hbn) han hbn hap hbp
  · have hn : n < t.kicks.length := (List.getElem?_eq_some_iff.mp hk0).1
    have back : ∀ (i : Nat) (a : Kick), (t.kicks.set n { k0 with got := k0.got + 1 })[i]? = some a → a.pending →
        ∃ a0, t.kicks[i]? = some a0 ∧ a0.name = a.name ∧ a0.was = a.was ∧ a0.pending ∧
          (i = n → k0.got + 1 < k0.want) := by
      intro i a hia hap
      by_cases hi : i = n
      · subst hi
        rw [List.getElem?_set_self hn] at hia
        have := Option.some.inj hia
        subst this
        unfold Kick.pending at hap ⊢
        dsimp only at hap
        exact ⟨k0, hk0, rfl, rfl, by omega, fun _ => hap⟩
      · rw [List.getElem?_set_ne (Ne.symm hi)] at hia
        exact ⟨a, hia, rfl, rfl, hap, fun h => absurd h hi⟩
    refine ⟨?_, ?_⟩
    · intro k hk hkn hkp
      rw [h2] at hk
      obtain ⟨i, hi⟩ := List.mem_iff_getElem?.mp hk
      obtain ⟨a0, ha0, hname, hwas, hpend, hlast⟩ := back i k hi hkp
      have hold := hp1 a0 (List.mem_of_getElem? ha0) (hname.trans hkn) hpend
      rw [← hwas, ← hold]
      cases h1
      simp only [ack]
      rw [hk0]
      dsimp only
      split
      · rfl
      next hw =>
        have hw : k0.got + 1 = k0.want := by simpa using hw
        split
        · rfl
        · dsimp only
          refine GoMap.get_set_ne _ _ ?_
          intro hk0n
          have h3 : i = n := hp2 i n a0 k0 ha0 hk0 (hname.trans hkn) hk0n hpend (by unfold Kick.pending; omega)
          have := hlast h3
          omega
    · rw [h2]
      intro i j a b hia hjb han hbn hap hbp
      obtain ⟨a0, ha0, hna, _, hpa, _⟩ := back i a hia hap
      obtain ⟨b0, hb0, hnb, _, hpb, _⟩ := back j b hjb hbp
      exact hp2 i j a0 b0 ha0 hb0 (hna.trans han) (hnb.trans hbn) hpa hpb

/-- **C50** (partial: operations on a group do not overlap a kick of it; see `C50_kicks_violated` and
`C50_join_violated`) In a group that the client administers somebody stops being a member only by their own part
or by the last acknowledgement of a kick of them, and becomes one only by their own join; and the last
acknowledgement does remove the kicked member. -/
theorem C50_calm_partial {upper : Bytes → Bytes} {self : Id} {nick name : Bytes} {s s' : State} {es : List Ev}
    (hr : Run upper (Calm name) (init self nick) es s) {e : Ev} (hc : Calm name s e)
    (h : step upper s e = .ok s') {g g' : GroupList} (hg : s.groups.get name = some g)
    (ha : admin g = some self) (hg' : s'.groups.get name = some g') (i : Id) :
    (i ∈ g.members → i ∉ g'.members → (∃ flt, e = .recv i (.part name) flt) ∨
      ∃ n k, e = .ack n ∧ s.kicks[n]? = some k ∧ k.name = name ∧ k.who = i ∧ k.got + 1 = k.want) ∧
    (i ∉ g.members → i ∈ g'.members → ∃ token flt, e = .recv i (.join name token) flt) ∧
    (∀ n k, e = .ack n → s.kicks[n]? = some k → k.name = name → k.who = i → k.got + 1 = k.want →
      i ∉ g'.members) := by
  have hself : s.self = self := (run_self hr).1
  have last : ∀ (n : Nat) (k : Kick), s.kicks[n]? = some k → k.name = name → k.got + 1 = k.want →
      k.ngc.members = g.members.filter (· ≠ k.who) := by
    intro n k hk hkn hw
    have ho := ordered_run hr k (List.mem_of_getElem? hk)
    have := (calm_run hr).1 k (List.mem_of_getElem? hk) hkn (by unfold Kick.pending; omega)
    rw [hg] at this
    have hwas : g = k.was := Option.some.inj this
    rw [ho.list, hwas]
  have lastSet : ∀ (n : Nat) (k : Kick), e = .ack n → s.kicks[n]? = some k → k.name = name → k.got + 1 = k.want → g' = k.ngc := by
    rintro n k rfl hk hkn hw
    cases h
    simp only [ack] at hg'
    rw [hk] at hg'
    dsimp only at hg'
    rw [if_neg (by simpa using hw), hkn, hg] at hg'
    dsimp only at hg'
    rw [GoMap.get_set_self] at hg'
    exact (Option.some.inj hg').symm
  refine ⟨?_, ?_, ?_⟩
  · intro hi hi'
    cases groups_step h hg' with
    | same h => rw [h] at hg; cases hg; exact absurd hi hi'
    | join he hg1 ha1 hi1 ht hk hm h2 =>
      rw [hg] at hg1; cases hg1
      subst h2
      exact absurd (List.mem_append_left _ hi) hi'
    | @part src flt _ he hg1 ha1 hm h2 =>
      rw [hg] at hg1; cases hg1
      subst h2
      left
      refine ⟨flt, ?_⟩
      rw [he]
      have : i = src := by
        apply Classical.byContradiction
        intro hne
        apply hi'
        dsimp only
        cases hl : g.members with
        | nil => rw [hl] at hi; cases hi
        | cons a l =>
          rw [hl] at hi
          rcases List.mem_cons.mp hi with h3 | h3
          · subst h3; simp
          · exact List.mem_append_right _ ((List.mem_erase_of_ne hne).mpr h3)
      rw [this]
    | list he hm hn hg1 ha1 =>
      rw [hg] at hg1; cases hg1
      rw [ha] at ha1
      have := hc.2 _ _ _ he
      rw [hself] at this
      exact absurd (Option.some.inj ha1).symm this
    | new he hg1 h => rw [hg] at hg1; cases hg1
    | joined he hg1 h => rw [hg] at hg1; cases hg1
    | @kicked n k _ he hk hn hw hg1 h2 =>
      right
      refine ⟨n, k, he, hk, hn, ?_, hw⟩
      rw [h2, last n k hk hn hw] at hi'
      apply Classical.byContradiction
      intro hne
      exact hi' (List.mem_filter.mpr ⟨hi, by simpa using fun h => hne h.symm⟩)
  · intro hi hi'
    cases groups_step h hg' with
    | same h => rw [h] at hg; cases hg; exact absurd hi' hi
    | @join src token flt _ _ he hg1 ha1 hi1 ht hk hm h2 =>
      rw [hg] at hg1; cases hg1
      subst h2
      rcases List.mem_append.mp hi' with h3 | h3
      · exact absurd h3 hi
      · rw [List.mem_singleton] at h3
        subst h3
        exact ⟨token, flt, he⟩
    | part he hg1 ha1 hm h2 =>
      rw [hg] at hg1; cases hg1
      subst h2
      exfalso
      apply hi
      rcases List.mem_append.mp hi' with h3 | h3
      · exact List.mem_of_mem_take h3
      · exact List.mem_of_mem_tail (List.mem_of_mem_erase h3)
    | list he hm hn hg1 ha1 =>
      rw [hg] at hg1; cases hg1
      rw [ha] at ha1
      have := hc.2 _ _ _ he
      rw [hself] at this
      exact absurd (Option.some.inj ha1).symm this
    | new he hg1 h => rw [hg] at hg1; cases hg1
    | joined he hg1 h => rw [hg] at hg1; cases hg1
    | @kicked n k _ he hk hn hw hg1 h2 =>
      rw [h2, last n k hk hn hw] at hi'
      exact absurd (List.mem_filter.mp hi').1 hi
  · intro n k he hk hn hwho hw hi'
    rw [lastSet n k he hk hn hw, last n k hk hn hw] at hi'
    have := (List.mem_filter.mp hi').2
    rw [hwho] at this
    simp at this

/-! ## C51 -/

/-- **C51** A message to a group is handed to the scheduler once for every time somebody other than oneself is
listed, and never for oneself. -/
theorem C51_send (s : State) (name text : Bytes) (me : Bool) {g : GroupList} (hg : s.groups.get name = some g) :
    ∃ sent, (cmdMessage s name text me).out = s.out ++ sent ∧
      (∀ r ∈ sent, r.2 = .message name g.gen text me) ∧
      ∀ i, (sent.map Prod.fst).count i = if i = s.self then 0 else g.members.count i := by
  refine ⟨(g.members.filter (· ≠ s.self)).map fun i => (i, .message name g.gen text me), ?_, ?_, ?_⟩
  · unfold cmdMessage
    rw [hg]
    rfl
  · intro r hr
    obtain ⟨i, _, rfl⟩ := List.mem_map.mp hr
    rfl
  · intro i
    rw [List.map_map]
    change (List.map (fun i => i) _).count i = _
    rw [List.map_id']
    split
    next h =>
      subst h
      rw [List.count_eq_zero]
      intro hm
      simpa using (List.mem_filter.mp hm).2
    next h => exact List.count_filter (by simpa using h)

/-- Received lists meet the demands of the protocol, and nobody receives messages from themselves. -/
def Honest (s : State) (e : Ev) : Prop := Proper s e ∧ ∀ src m flt, e = .recv src m flt → src ≠ s.self

theorem nodup_run {upper : Bytes → Bytes} {self : Id} {nick : Bytes} {s : State} {es : List Ev}
    (h : Run upper Honest (init self nick) es s) :
    (∀ name g, s.groups.get name = some g → g.members.Nodup) ∧ ∀ k ∈ s.kicks, k.was.members.Nodup := by
  refine run_snoc h (fun s _ => (∀ name g, s.groups.get name = some g → g.members.Nodup) ∧
    ∀ k ∈ s.kicks, k.was.members.Nodup) ⟨(fun _ _ h => by cases h), fun k hk => by cases hk⟩ ?_
  intro t t' l e hr hp hG h1
  obtain ⟨hp1, hp2⟩ := hp
  constructor
  · intro name g' hg'
    cases groups_step h1 hg' with
    | same h => exact hp1 _ _ h
    | @join src token flt g _ he hg1 ha hi ht hk hm h2 =>
      subst h2
      have hsrc := hG.2 _ _ _ he
      have hnd := hp1 _ _ hg1
      cases hl : g.members with
      | nil => simp
      | cons a r =>
        unfold admin at ha
        rw [hl] at ha hm hnd
        have hae : a = t.self := by simpa using ha
        dsimp only
        rw [List.nodup_append]
        refine ⟨hnd, by simp, ?_⟩
        intro x hx y hy hxy
        rw [List.mem_singleton] at hy
        subst hy
        subst hxy
        rcases List.mem_cons.mp hx with h3 | h3
        · exact hsrc (h3.trans hae)
        · exact hm h3
    | part he hg1 ha hm h2 =>
      subst h2
      refine (hp1 _ _ hg1).sublist ?_
      dsimp only
      conv => rhs; rw [← List.take_append_drop 1 (GroupList.members _)]
      refine List.Sublist.append (List.Sublist.refl _) ?_
      rw [List.drop_one]
      exact List.erase_sublist
    | list he hm hn hg1 ha => exact (hG.1 _ _ _ _ he hm).2.1
    | new he hg1 h => subst h; simp
    | joined he hg1 h => subst h; simp
    | kicked he hk hn hw hg1 h =>
      subst h
      have ho := ordered_run hr _ (List.mem_of_getElem? hk)
      rw [ho.list]
      exact (hp2 _ (List.mem_of_getElem? hk)).filter _
  · intro k hk
    rcases kicks_step h1 with h2 | ⟨name, who, flt, g, rfl, hg, ha, hw, _, h2⟩ | ⟨n, k0, rfl, hk0, h2⟩
    · rw [h2] at hk; exact hp2 k hk
    · rw [h2] at hk
      rcases List.mem_append.mp hk with h3 | h3
      · exact hp2 k h3
      · rw [List.mem_singleton] at h3
        subst h3
        exact hp1 _ _ hg
    · rw [h2] at hk
      rcases List.mem_or_eq_of_mem_set hk with h3 | h3
      · exact hp2 k h3
      · subst h3
        exact hp2 k0 (List.mem_of_getElem? hk0)

/-- **C51** (partial: received lists are assumed not to list anybody twice, which the receiver does not check, see
`C51_twice_violated`) In every execution a message to a group is handed to the scheduler exactly once for each
other member and for nobody else. -/
theorem C51_once_partial {upper : Bytes → Bytes} {self : Id} {nick : Bytes} {s : State} {es : List Ev}
    (h : Run upper Honest (init self nick) es s) (name text : Bytes) (me : Bool) {g : GroupList}
    (hg : s.groups.get name = some g) :
    ∃ sent, (cmdMessage s name text me).out = s.out ++ sent ∧
      (∀ r ∈ sent, r.2 = .message name g.gen text me) ∧
      ∀ i, (sent.map Prod.fst).count i = if i ∈ g.members ∧ i ≠ self then 1 else 0 := by
  obtain ⟨sent, h1, h2, h3⟩ := C51_send s name text me hg
  refine ⟨sent, h1, h2, fun i => ?_⟩
  rw [h3, (run_self h).1]
  change (if i = self then 0 else _) = _
  by_cases hi : i = self
  · rw [if_pos hi, if_neg (fun h => h.2 hi)]
  · rw [if_neg hi]
    by_cases hm : i ∈ g.members
    · rw [if_pos ⟨hm, hi⟩, List.count_eq_one_of_mem ((nodup_run h).1 _ _ hg) hm]
    · rw [if_neg (fun h => hm h.1), List.count_eq_zero_of_not_mem hm]

/-- **C51** A message of a group is shown exactly if it is received from a current member of a group that the
client knows (and nothing else that happens shows one). -/
theorem C51_shown {upper : Bytes → Bytes} {s s' : State} {e : Ev} (h : step upper s e = .ok s') :
    s'.shown = s.shown ++
      match e with
      | .recv src (.message name _ text _) _ =>
        match s.groups.get name with
        | some g => if src ∈ g.members then [(name, src, text)] else []
        | none => []
      | _ => [] := by
  cases e with
  | recv src m flt =>
    cases m with
    | message n gen text me =>
      simp only [step, recv, recvMessage] at h
      split at h
      next hn => cases h; simp [hn]
      next g hg =>
      split at h
      next hm => cases h; simp [hg, hm]
      next hm =>
      split at h
      · cases h
      · cases h
        simp only [hg]
        rw [if_pos (by simpa using hm)]
    | kill n =>
      rw [List.append_nil]
      simp only [step, recv, recvKill, deleteGroup] at h
      repeat' split at h
      all_goals first | cases h; done | (cases h; rfl)
    | _ =>
      rw [List.append_nil]
      cases h
      simp only [recvInvite, recvJoin, recvPart, recvKick, deleteGroup, updateGroupList, sendAll]
      (repeat' split) <;> rfl
  | cmd c flt =>
    rw [List.append_nil]
    cases h
    cases c <;>
      simp only [cmd, cmdNew, cmdInvite, cmdJoin, cmdKick, cmdPart, cmdKill, cmdMessage, deleteGroup, sendAll] <;>
      (repeat' split) <;> rfl
  | ack n =>
    rw [List.append_nil]
    cases h
    simp only [ack]
    (repeat' split) <;> rfl
  | meet i => cases h; simp
  | tick d => cases h; simp

/-! ## What goes wrong -/

/-- Running a list of events. -/
def exec (upper : Bytes → Bytes) : State → List Ev → Option State
  | s, [] => some s
  | s, e :: es =>
    match step upper s e with
    | .panic => none
    | .ok s' => exec upper s' es

theorem run_of_exec {upper : Bytes → Bytes} : ∀ {es : List Ev} {s s' : State}, exec upper s es = some s' →
    Run upper Any s es s' := by
  intro es
  induction es with
  | nil => intro s s' h; cases h; exact .nil _
  | cons e es ih =>
    intro s s' h
    unfold exec at h
    split at h
    · cases h
    next s1 h1 => exact .cons trivial h1 (ih h)

/-- The group of the witnesses, "g". -/
def grp : Bytes := [103]

/-- The nick of the witnesses, "bob". -/
def bob : Bytes := [98, 111, 98]

/-- Identity 0 invites 1 and 2, who join. -/
def three : List Ev :=
  [.cmd (.new grp false) .none, .meet 1, .meet 2, .cmd (.invite grp 1 11) .none, .cmd (.invite grp 2 22) .none,
   .recv 1 (.join grp 11) .none, .recv 2 (.join grp 22) .none]

/-- Identity 0 is invited by 1, who sends the list [1, 0, 2]. -/
def guest : List Ev :=
  [.meet 1, .recv 1 (.invite grp ⟨11, 86400⟩) .none, .cmd (.join grp 11 1) .none,
   .recv 1 (.list ⟨grp, 4, [1, 0, 2]⟩) .none]

/-- The state after events; the state before if one of them is a crash. -/
def after (upper : Bytes → Bytes) (es : List Ev) : State := (exec upper (init 0 bob) es).getD (init 0 bob)

theorem run_three : Run id Any (init 0 bob) three (after id three) := run_of_exec (by decide +kernel)

theorem run_guest : Run id Any (init 0 bob) guest (after id guest) := run_of_exec (by decide +kernel)

/-- The group after `three` has three members and generation 4: C47–C51 are not about nothing. -/
example : (after id three).groups.get grp = some ⟨grp, 4, [0, 1, 2]⟩ := by decide +kernel

example : (after id guest).groups.get grp = some ⟨grp, 4, [1, 0, 2]⟩ := by decide +kernel

/-- C47: 2 can not remove 1, the administrator can. -/
example : step id (after id guest) (.recv 2 (.list ⟨grp, 9, [2, 0]⟩) .none) = .ok (after id guest) ∧
    (after id (guest ++ [.recv 1 (.list ⟨grp, 5, [1, 0]⟩) .none])).groups.get grp = some ⟨grp, 5, [1, 0]⟩ := by
  decide +kernel

/-- C47: a kick takes effect with the last acknowledgement. -/
example : (after id (three ++ [.cmd (.kick grp 1) .none, .ack 0])).groups.get grp = some ⟨grp, 4, [0, 1, 2]⟩ ∧
    (after id (three ++ [.cmd (.kick grp 1) .none, .ack 0, .ack 0])).groups.get grp = some ⟨grp, 5, [0, 2]⟩ := by
  decide +kernel

/-- C48: there are executions with proper updates. -/
example : Proper (after id guest) (.recv 1 (.list ⟨grp, 5, [1, 0]⟩) .none) := by
  intro src m flt gl he hm
  cases he
  cases hm
  refine ⟨rfl, by decide, fun g hg => ?_⟩
  have : g = ⟨grp, 4, [1, 0, 2]⟩ := by
    have h2 : (after id guest).groups.get grp = some ⟨grp, 4, [1, 0, 2]⟩ := by decide +kernel
    exact Option.some.inj (hg.symm.trans h2)
  rw [this]
  decide

/-- **C48, negation.** The generation of an accepted update may be lower than the current one: an old list replaces
a newer one. -/
theorem C48_generation_violated : ∃ es s s' g g', Run id Any (init 0 bob) es s ∧
    step id s (.recv 1 (.list g') .none) = .ok s' ∧ s.groups.get grp = some g ∧ s'.groups.get grp = some g' ∧
    g'.gen < g.gen :=
  ⟨guest, after id guest, after id (guest ++ [.recv 1 (.list ⟨grp, 0, [1, 0]⟩) .none]), ⟨grp, 4, [1, 0, 2]⟩,
    ⟨grp, 0, [1, 0]⟩, run_guest, by decide +kernel, by decide +kernel, by decide +kernel, by decide⟩

/-- **C48, negation.** The administrator may send a list with somebody else in the first place, who is then the
administrator: here the receiver itself. -/
theorem C48_hands_violated : ∃ es s s' g g', Run id Any (init 0 bob) es s ∧
    step id s (.recv 1 (.list g') .none) = .ok s' ∧ s.groups.get grp = some g ∧ s'.groups.get grp = some g' ∧
    admin g = some 1 ∧ admin g' = some 0 :=
  ⟨guest, after id guest, after id (guest ++ [.recv 1 (.list ⟨grp, 5, [0, 1]⟩) .none]), ⟨grp, 4, [1, 0, 2]⟩,
    ⟨grp, 5, [0, 1]⟩, run_guest, by decide +kernel, by decide +kernel, by decide +kernel, by decide, by decide⟩

/-- **C48, negation.** The administrator sends an empty list; then anybody crashes the client by killing the
group. -/
theorem C48_crash_violated : ∃ es s, Run id Any (init 0 bob) es s ∧
    ∀ src flt, step id s (.recv src (.kill grp) flt) = .panic := by
  refine ⟨guest ++ [.recv 1 (.list ⟨grp, 5, []⟩) .none], after id (guest ++ [.recv 1 (.list ⟨grp, 5, []⟩) .none]),
    run_of_exec (by decide +kernel), fun src flt => ?_⟩
  have h : (after id (guest ++ [.recv 1 (.list ⟨grp, 5, []⟩) .none])).groups.get grp = some ⟨grp, 5, []⟩ := by
    decide +kernel
  simp only [step, recv, recvKill, h]

/-- Part of `strings.ToUpper`: the ASCII letters, and U+0250 (two bytes) which becomes U+2C6F (three bytes). -/
def upperPart : Bytes → Bytes
  | 0xC9 :: 0x90 :: r => 0xE2 :: 0xB1 :: 0xAF :: upperPart r
  | c :: r => (if 97 ≤ c ∧ c ≤ 122 then c - 32 else c) :: upperPart r
  | [] => []

/-- **C48, negation.** A member crashes the client with a message that has the nick of the receiver after a letter
whose upper case form is longer: "ɐbob". -/
theorem C48_mention_violated : ∃ es s, Run upperPart Any (init 0 bob) es s ∧
    step upperPart s (.recv 2 (.message grp 4 [0xC9, 0x90, 98, 111, 98] false) .none) = .panic :=
  ⟨guest, after upperPart guest, run_of_exec (by decide +kernel), by decide +kernel⟩

/-- C48: without that letter the message is shown. -/
example : (after upperPart (guest ++ [.recv 2 (.message grp 4 [104, 105, 32, 66, 111, 98] false) .none])).shown =
    [(grp, 2, [104, 105, 32, 66, 111, 98])] := by decide +kernel

/-- C49: both were admitted, and the same token does not admit again after a part. -/
example : (after id three).admitted = [(grp, 1, 11), (grp, 2, 22)] ∧
    (after id (three ++ [.recv 1 (.part grp) .none, .recv 1 (.join grp 11) .none])).groups.get grp =
      some ⟨grp, 5, [0, 2]⟩ := by decide +kernel

/-- **C49, negation.** An invitation is honoured long after it has expired. -/
theorem C49_expired_violated : ∃ es s s' i, Run id Any (init 0 bob) es s ∧ s.invites.get (grp, 1) = some i ∧
    i.expires < s.now ∧ step id s (.recv 1 (.join grp i.token) .none) = .ok s' ∧
    s'.groups.get grp = some ⟨grp, 2, [0, 1]⟩ :=
  ⟨[.cmd (.new grp false) .none, .meet 1, .cmd (.invite grp 1 11) .none, .tick 1000000],
    after id [.cmd (.new grp false) .none, .meet 1, .cmd (.invite grp 1 11) .none, .tick 1000000],
    after id [.cmd (.new grp false) .none, .meet 1, .cmd (.invite grp 1 11) .none, .tick 1000000,
      .recv 1 (.join grp 11) .none], ⟨11, 86400⟩,
    run_of_exec (by decide +kernel), by decide +kernel, by decide +kernel, by decide +kernel, by decide +kernel⟩

/-- **C49, negation.** An invitation to a group that was killed admits to a later group of the same name. -/
theorem C49_recreated_violated : ∃ s s', Run id Any (init 0 bob)
      [.cmd (.new grp false) .none, .meet 1, .cmd (.invite grp 1 11) .none, .cmd (.kill grp true) .none,
       .cmd (.new grp false) .none] s ∧
    step id s (.recv 1 (.join grp 11) .none) = .ok s' ∧ s'.groups.get grp = some ⟨grp, 2, [0, 1]⟩ :=
  ⟨after id [.cmd (.new grp false) .none, .meet 1, .cmd (.invite grp 1 11) .none, .cmd (.kill grp true) .none,
      .cmd (.new grp false) .none],
    after id [.cmd (.new grp false) .none, .meet 1, .cmd (.invite grp 1 11) .none, .cmd (.kill grp true) .none,
      .cmd (.new grp false) .none, .recv 1 (.join grp 11) .none],
    run_of_exec (by decide +kernel), by decide +kernel, by decide +kernel⟩

/-- **C50, negation.** Two kicks overlap. After the acknowledgements of the first one 1 is no longer a member; the
acknowledgements of the second one make 1 a member again. -/
theorem C50_kicks_violated : ∃ s s', Run id Any (init 0 bob)
      (three ++ [.cmd (.kick grp 1) .none, .cmd (.kick grp 2) .none, .ack 0, .ack 0]) s ∧
    s.groups.get grp = some ⟨grp, 5, [0, 2]⟩ ∧ Run id Any s [.ack 1, .ack 1] s' ∧
    s'.groups.get grp = some ⟨grp, 5, [0, 1]⟩ :=
  ⟨after id (three ++ [.cmd (.kick grp 1) .none, .cmd (.kick grp 2) .none, .ack 0, .ack 0]),
    after id (three ++ [.cmd (.kick grp 1) .none, .cmd (.kick grp 2) .none, .ack 0, .ack 0, .ack 1, .ack 1]),
    run_of_exec (by decide +kernel), by decide +kernel, run_of_exec (by decide +kernel), by decide +kernel⟩

/-- Identity 0 invites 1 and 2; 1 joins. -/
def two : List Ev :=
  [.cmd (.new grp false) .none, .meet 1, .meet 2, .cmd (.invite grp 1 11) .none, .cmd (.invite grp 2 22) .none,
   .recv 1 (.join grp 11) .none]

/-- **C50, negation.** 2 joins while a kick of 1 is under way. The acknowledgement of the kick removes 2 as well. -/
theorem C50_join_violated : ∃ s s', Run id Any (init 0 bob)
      (two ++ [.cmd (.kick grp 1) .none, .recv 2 (.join grp 22) .none]) s ∧
    s.groups.get grp = some ⟨grp, 4, [0, 1, 2]⟩ ∧ Run id Any s [.ack 0] s' ∧
    s'.groups.get grp = some ⟨grp, 3, [0]⟩ :=
  ⟨after id (two ++ [.cmd (.kick grp 1) .none, .recv 2 (.join grp 22) .none]),
    after id (two ++ [.cmd (.kick grp 1) .none, .recv 2 (.join grp 22) .none, .ack 0]),
    run_of_exec (by decide +kernel), by decide +kernel, run_of_exec (by decide +kernel), by decide +kernel⟩

/-- **C50, negation.** A kick does not take effect for the administrator, who goes on sending to the kicked
member, until every member has acknowledged it: here 2 is away, and 1, who was told of the kick and has
acknowledged it, is sent the next message of the group. -/
theorem C50_pending_violated : ∃ s s', Run id Any (init 0 bob)
      (three ++ [.cmd (.kick grp 1) .none, .ack 0]) s ∧
    (1, Msg.kick 1 false ⟨grp, 5, [0, 2]⟩) ∈ s.out ∧
    Run id Any s [.cmd (.message grp [104, 105] false) .none] s' ∧ (1, Msg.message grp 4 [104, 105] false) ∈ s'.out :=
  ⟨after id (three ++ [.cmd (.kick grp 1) .none, .ack 0]),
    after id (three ++ [.cmd (.kick grp 1) .none, .ack 0, .cmd (.message grp [104, 105] false) .none]),
    run_of_exec (by decide +kernel), by decide +kernel, run_of_exec (by decide +kernel), by decide +kernel⟩

/-- Whether a step is calm. -/
def calm (name : Bytes) (s : State) (e : Ev) : Bool :=
  (s.kicks.all (fun k => !(k.name == name && decide (k.got < k.want))) ||
    match e with
    | .ack _ | .tick _ => true
    | _ => false) &&
  match e with
  | .recv src _ _ => src != s.self
  | _ => true

theorem calm_sound {name : Bytes} {s : State} {e : Ev} (h : calm name s e = true) : Calm name s e := by
  unfold calm at h
  rw [Bool.and_eq_true, Bool.or_eq_true] at h
  refine ⟨?_, ?_⟩
  · rintro ⟨k, hk, hn, hp⟩
    rcases h.1 with h1 | h1
    · have := List.all_eq_true.mp h1 k hk
      simp [hn, show k.got < k.want from hp] at this
    · cases e <;> first | exact id | cases h1
  · rintro src m flt rfl
    simpa using h.2

/-- Running a list of calm events. -/
def execCalm (name : Bytes) : State → List Ev → Option State
  | s, [] => some s
  | s, e :: es =>
    if calm name s e then
      match step id s e with
      | .panic => none
      | .ok s' => execCalm name s' es
    else none

theorem run_of_execCalm {name : Bytes} : ∀ {es : List Ev} {s s' : State}, execCalm name s es = some s' →
    Run id (Calm name) s es s' := by
  intro es
  induction es with
  | nil => intro s s' h; cases h; exact .nil _
  | cons e es ih =>
    intro s s' h
    unfold execCalm at h
    split at h
    next hc =>
      split at h
      · cases h
      next s1 h1 => exact .cons (calm_sound hc) h1 (ih h)
    · cases h

/-- C50: a calm execution: a kick, its acknowledgements, the next kick, its acknowledgement. -/
example : ∃ s, Run id (Calm grp) (init 0 bob)
      (three ++ [.cmd (.kick grp 1) .none, .ack 0, .ack 0, .cmd (.kick grp 2) .none, .ack 1]) s ∧
    s.groups.get grp = some ⟨grp, 6, [0]⟩ :=
  ⟨after id (three ++ [.cmd (.kick grp 1) .none, .ack 0, .ack 0, .cmd (.kick grp 2) .none, .ack 1]),
    run_of_execCalm (by decide +kernel), by decide +kernel⟩

/-- C51: what is sent after `three`. -/
example : (after id (three ++ [.cmd (.message grp [104, 105] false) .none])).out.drop 5 =
    [(1, .message grp 4 [104, 105] false), (2, .message grp 4 [104, 105] false)] := by decide +kernel

/-- C51: a stranger's message is not shown. -/
example : (after id (three ++ [.recv 7 (.message grp 4 [104, 105] false) .none])).shown = [] := by decide +kernel

/-- **C51, negation.** The administrator sends a list in which 2 appears twice; then 2 is sent every message
twice. -/
theorem C51_twice_violated : ∃ s s', Run id Any (init 0 bob)
      (guest ++ [.recv 1 (.list ⟨grp, 5, [1, 0, 2, 2]⟩) .none]) s ∧
    Run id Any s [.cmd (.message grp [104, 105] false) .none] s' ∧
    s'.out.count (2, .message grp 5 [104, 105] false) = 2 :=
  ⟨after id (guest ++ [.recv 1 (.list ⟨grp, 5, [1, 0, 2, 2]⟩) .none]),
    after id (guest ++ [.recv 1 (.list ⟨grp, 5, [1, 0, 2, 2]⟩) .none, .cmd (.message grp [104, 105] false) .none]),
    run_of_exec (by decide +kernel), run_of_exec (by decide +kernel), by decide +kernel⟩

end Verif.Groups
