import Verif.Model.Told
import Verif.Props.Groups
import Verif.Props.AddressBook

/-! # C146 and C147: to whom it is told who is in a group, and whether that is true -/

namespace Verif.Told

open Verif Verif.Groups

/-! ## C146 -/

/-- `who` leaves the group, or is made to leave it. -/
def Leaves (name : Bytes) (who : Id) : Ev → Prop
  | .recv src (.part n) _ => src = who ∧ n = name
  | .cmd (.kick n w) _ => w = who ∧ n = name
  | _ => False

/-- `who` uses the invitation to the group that was sent to them. -/
def Joins (s : State) (name : Bytes) (who : Id) : Ev → Prop
  | .recv src (.join n token) _ => src = who ∧ n = name ∧ ∃ i, s.invites.get (name, who) = some i ∧ i.token = token
  | _ => False

/-- What is sent upon an event. -/
def Sends (upper : Bytes → Bytes) (s : State) (e : Ev) (y : Id) (m : Msg) : Prop :=
  ∃ s', step upper { s with out := [] } e = .ok s' ∧ (y, m) ∈ s'.out

theorem deleteGroup_out (s : State) (name : Bytes) : (deleteGroup s name).out = s.out := by
  unfold deleteGroup; split <;> rfl

theorem updateGroupList_out (s : State) (src : Id) (gl : GroupList) : (updateGroupList s src gl).out = s.out := by
  unfold updateGroupList
  split
  · rfl
  · split <;> rfl

theorem mem_sendAll {s : State} (h0 : s.out = []) {l : List Id} {m x : Msg} {y : Id} :
    (y, x) ∈ (sendAll s l m).out ↔ y ∈ l ∧ x = m := by
  simp only [sendAll, h0, List.nil_append, List.mem_map, Prod.mk.injEq]
  constructor
  · rintro ⟨a, ha, rfl, rfl⟩; exact ⟨ha, rfl⟩
  · rintro ⟨ha, rfl⟩; exact ⟨y, ha, rfl, rfl⟩

theorem mem_erase_of {α : Type} [DecidableEq α] {l : List α} {a b : α} (h : a ∈ l) : a ∈ l.erase b ∨ a = b := by
  by_cases he : a = b
  · exact .inr he
  · exact .inl ((List.mem_erase_of_ne he).mpr h)

theorem lists {upper : Bytes → Bytes} {s : State} {e : Ev} {y : Id} {m : Msg} {gl : GroupList}
    (h : Sends upper s e y m) (hl : m.gl = some gl) :
    ∃ name g, s.groups.get name = some g ∧ admin g = some s.self ∧ admin gl = some s.self ∧
      (y ∈ gl.members ∨ y ∈ g.members ∧ Leaves name y e) ∧
      (∀ x ∈ gl.members, x ∈ g.members ∨ Joins s name x e) ∧
      ∀ x ∈ gl.members.tail, Sends upper s e x m := by
  obtain ⟨s', hs, ho⟩ := h
  have mk : ∀ x, (x, m) ∈ s'.out → Sends upper s e x m := fun x hx => ⟨s', hs, hx⟩
  cases e with
  | recv src msg flt =>
    cases msg with
    | invite n i =>
      cases hs
      exfalso
      revert ho
      unfold recvInvite
      split
      · simp
      split
      · simp
      split <;> simp
    | join n token =>
      cases hs
      unfold recvJoin at ho mk
      split at ho
      · simp at ho
      next g hg =>
      split at ho
      · simp at ho
      next ha =>
      split at ho
      · simp at ho
      next i hi =>
      split at ho
      · simp at ho
      next ht =>
      split at ho
      · simp at ho
      next hdb =>
      dsimp only at ho
      split at ho
      · simp at ho
      next hk =>
      split at ho
      · simp at ho
      next hm =>
      split at ho
      · simp at ho
      next hv =>
      dsimp only at ha hi ht hk hm hg
      rw [hg] at mk
      dsimp only at mk
      rw [if_neg ha, hi] at mk
      dsimp only at mk
      rw [if_neg ht, if_neg hdb, if_neg hk, if_neg hm, if_neg hv] at mk
      rw [mem_sendAll rfl] at ho
      obtain ⟨h1, rfl⟩ := ho
      cases hl
      have ha' : admin g = some s.self := by simpa using ha
      refine ⟨n, g, hg, ha', ?_, .inl (List.mem_of_mem_tail h1), ?_, ?_⟩
      · unfold admin at ha' ⊢
        rw [List.head?_append, ha']
        rfl
      · intro x hx
        rcases List.mem_append.mp hx with hx | hx
        · exact .inl hx
        · rw [List.mem_singleton] at hx
          subst hx
          exact .inr ⟨rfl, rfl, i, hi, by simpa using ht⟩
      · intro x hx
        exact mk x ((mem_sendAll rfl).mpr ⟨hx, rfl⟩)
    | part n =>
      cases hs
      unfold recvPart at ho mk
      split at ho
      · simp at ho
      next g hg =>
      split at ho
      · simp at ho
      next ha =>
      split at ho
      · simp at ho
      next hm =>
      dsimp only at ha hm hg
      rw [hg] at mk
      dsimp only at mk
      rw [if_neg ha, if_neg hm] at mk
      rw [mem_sendAll rfl] at ho
      obtain ⟨h1, rfl⟩ := ho
      cases hl
      have ha' : admin g = some s.self := by simpa using ha
      obtain ⟨a, r, hgm⟩ : ∃ a r, g.members = a :: r := by
        cases hgm : g.members with
        | nil => rw [hgm] at h1; simp at h1
        | cons a r => exact ⟨a, r, rfl⟩
      simp only [admin, hgm, List.head?_cons, Option.some.injEq] at ha'
      subst ha'
      rw [hgm] at h1
      simp only [List.tail_cons] at h1
      refine ⟨n, g, hg, by simp [admin, hgm], by simp [admin, hgm], ?_, ?_, ?_⟩
      · rcases mem_erase_of (b := src) h1 with h2 | h2
        · left
          simp only [hgm, List.take_succ_cons, List.take_zero, List.tail_cons, List.mem_append]
          exact .inr h2
        · right
          rw [hgm]
          exact ⟨List.mem_cons_of_mem _ h1, h2.symm, rfl⟩
      · intro x hx
        left
        rw [hgm]
        simp only [hgm, List.take_succ_cons, List.take_zero, List.tail_cons, List.mem_append, List.mem_singleton] at hx
        rcases hx with rfl | hx
        · exact List.mem_cons_self ..
        · exact List.mem_cons_of_mem _ (List.mem_of_mem_erase hx)
      · intro x hx
        refine mk x ((mem_sendAll rfl).mpr ⟨?_, rfl⟩)
        simp only [hgm, List.take_succ_cons, List.take_zero, List.tail_cons, List.cons_append, List.nil_append] at hx
        rw [hgm]
        exact List.mem_of_mem_erase hx
    | kill n =>
      exfalso
      change recvKill _ src n = .ok s' at hs
      unfold recvKill at hs
      split at hs
      · cases hs; simp at ho
      split at hs
      · cases hs
      split at hs
      · cases hs; simp at ho
      · cases hs; rw [deleteGroup_out] at ho; simp at ho
    | kick member parted l =>
      exfalso
      cases hs
      unfold recvKick at ho
      split at ho
      · simp at ho
      split at ho
      · simp at ho
      split at ho
      · rw [deleteGroup_out] at ho; simp at ho
      · rw [updateGroupList_out] at ho; simp at ho
    | list l => exfalso; cases hs; rw [updateGroupList_out] at ho; simp at ho
    | update l => exfalso; cases hs; rw [updateGroupList_out] at ho; simp at ho
    | message n gen text me =>
      exfalso
      change recvMessage upper _ src n text me = .ok s' at hs
      unfold recvMessage at hs
      split at hs
      · cases hs; simp at ho
      split at hs
      · cases hs; simp at ho
      split at hs
      · cases hs
      · cases hs; simp at ho
  | cmd c flt =>
    cases c with
    | new n od =>
      exfalso
      cases hs
      revert ho
      simp only [cmd, cmdNew]
      split
      · simp
      split <;> simp
    | invite n who token =>
      exfalso
      cases hs
      revert ho
      simp only [cmd, cmdInvite]
      split
      · simp
      split
      · simp
      split
      · simp
      split
      · simp
      split
      · simp
      split
      · simp
      intro ho
      rw [mem_sendAll rfl] at ho
      rw [ho.2] at hl
      cases hl
    | join n token src =>
      exfalso
      cases hs
      revert ho
      simp only [cmd, cmdJoin]
      split
      · simp
      split
      · simp
      split
      · simp
      have key : ∀ t : State, t.out = [] → (y, m) ∈ (sendAll t [src] (.join n token)).out → False := by
        intro t ht ho
        rw [mem_sendAll ht] at ho
        rw [ho.2] at hl
        cases hl
      split
      · exact key _ rfl
      split
      · exact key _ rfl
      split
      · exact key _ rfl
      · exact key _ rfl
    | kick n who =>
      cases hs
      simp only [cmd] at ho mk
      unfold cmdKick at ho mk
      split at ho
      · simp at ho
      next g hg =>
      split at ho
      · simp at ho
      next ha =>
      split at ho
      · simp at ho
      next hw =>
      dsimp only at ha hw hg
      rw [hg] at mk
      dsimp only at mk
      rw [if_neg ha, if_neg hw] at mk
      rw [mem_sendAll rfl] at ho
      obtain ⟨h1, rfl⟩ := ho
      cases hl
      have ha' : admin g = some s.self := by simpa using ha
      obtain ⟨a, r, hgm⟩ : ∃ a r, g.members = a :: r := by
        cases hgm : g.members with
        | nil => rw [hgm] at h1; simp at h1
        | cons a r => exact ⟨a, r, rfl⟩
      simp only [admin, hgm, List.head?_cons, Option.some.injEq] at ha'
      have haw : a ≠ who := by rw [ha']; exact fun h => hw h.symm
      rw [hgm] at h1
      have hf : g.members.filter (· ≠ who) = a :: r.filter (· ≠ who) := by
        rw [hgm, List.filter_cons_of_pos (by simpa using haw)]
      refine ⟨n, g, hg, by simp [admin, hgm, ha'], ?_, ?_, ?_, ?_⟩
      · simp only [admin]
        rw [hf, List.head?_cons, ha']
      · by_cases he : y = who
        · right
          subst he
          rw [hgm]
          exact ⟨List.mem_cons_of_mem _ h1, rfl, rfl⟩
        · left
          refine List.mem_filter.mpr ⟨?_, by simpa using he⟩
          rw [hgm]
          exact List.mem_cons_of_mem _ h1
      · intro x hx
        exact .inl (List.mem_filter.mp hx).1
      · intro x hx
        refine mk x ((mem_sendAll rfl).mpr ⟨?_, rfl⟩)
        dsimp only at hx
        rw [hf, List.tail_cons] at hx
        rw [hgm]
        exact (List.mem_filter.mp hx).1
    | part n =>
      exfalso
      cases hs
      revert ho
      simp only [cmd, cmdPart]
      split
      · simp
      split
      · simp
      split
      · simp
      intro ho
      rw [mem_sendAll rfl] at ho
      rw [ho.2] at hl
      cases hl
    | partForce n => exfalso; cases hs; simp only [cmd, deleteGroup_out] at ho; simp at ho
    | kill n online =>
      exfalso
      cases hs
      revert ho
      simp only [cmd, cmdKill]
      split
      · simp
      split
      · simp
      split
      · rw [deleteGroup_out]; simp
      split
      · simp
      rw [deleteGroup_out]
      intro ho
      rw [mem_sendAll rfl] at ho
      rw [ho.2] at hl
      cases hl
    | message n text me =>
      exfalso
      cases hs
      revert ho
      simp only [cmd, cmdMessage]
      split
      · simp
      intro ho
      rw [mem_sendAll rfl] at ho
      rw [ho.2] at hl
      cases hl
  | ack n =>
    exfalso
    cases hs
    revert ho
    unfold ack
    split
    · simp
    dsimp only
    split
    · simp
    split <;> simp
  | meet i => exfalso; cases hs; simp at ho
  | tick d => exfalso; cases hs; simp at ho

/-- **C146** (partial: those who leave are told as well, see `C146_leaver_violated`, and so are those who were removed, as long
as that has not been acknowledged by everybody, see `C146_kicked_violated`) A list of the members of a group is sent only by
the administrator. It is sent to those who are on it; and, when somebody leaves, to whoever leaves. Whoever is on it was in
the group before, or has just used the invitation that was sent to them. And all that are on it get it, but for the
administrator. -/
theorem C146_lists_partial {upper : Bytes → Bytes} {s : State} {e : Ev} {y : Id} {m : Msg} {l : List Id}
    {files : Id → Option Bytes} (h : Sends upper s e y m) (hl : tells files s m = .ids l) :
    ∃ name g, s.groups.get name = some g ∧ admin g = some s.self ∧ l.head? = some s.self ∧
      (y ∈ l ∨ y ∈ g.members ∧ Leaves name y e) ∧
      (∀ x ∈ l, x ∈ g.members ∨ Joins s name x e) ∧
      ∀ x ∈ l.tail, Sends upper s e x m := by
  have : ∃ gl, m.gl = some gl ∧ gl.members = l := by
    cases m <;> simp only [tells] at hl <;>
      first
      | (cases hl; exact ⟨_, rfl, rfl⟩)
      | (split at hl <;> cases hl)
      | cases hl
  obtain ⟨gl, h1, rfl⟩ := this
  exact lists h h1

/-- **C146** Whatever has a list of members in it tells it: nothing of the group is sent besides lists and invitations. -/
theorem C146_whole (files : Id → Option Bytes) (s : State) (m : Msg) :
    (∀ gl, m.gl = some gl → tells files s m = .ids gl.members) ∧
    (m.gl = none → (∀ n i, m ≠ .invite n i) → tells files s m = .nothing) := by
  constructor
  · intro gl h
    cases m <;> cases h <;> rfl
  · intro h hn
    cases m <;> first | exact absurd rfl (hn _ _) | rfl | cases h

/-- An instance of both: 3 uses an invitation, and 1, 2 and 3 are sent the list. -/
example : ∃ m, (∀ y ∈ [1, 2, 3], Sends id (after id (three ++ [.meet 3, .cmd (.invite grp 3 33) .none]))
      (.recv 3 (.join grp 33) .none) y m) ∧ m.gl = some ⟨grp, 6, [0, 1, 2, 3]⟩ := by
  refine ⟨.list ⟨grp, 6, [0, 1, 2, 3]⟩, ?_, rfl⟩
  intro y hy
  refine ⟨_, rfl, ?_⟩
  revert y
  decide +kernel

/-- **C146** An invitation is sent only at the command of the user, who is the administrator of the group, to the contact
that the user names, who is not in the group. It tells the names of those who are in the group, as far as they are on
file. -/
theorem C146_invitation {upper : Bytes → Bytes} {s : State} {e : Ev} {y : Id} {n : Bytes} {i : Invite}
    (h : Sends upper s e y (.invite n i)) (files : Id → Option Bytes) :
    ∃ name t flt g, e = .cmd (.invite name y t) flt ∧ s.groups.get name = some g ∧ g.name = n ∧
      admin g = some s.self ∧ y ∈ s.known ∧ y ∉ g.members ∧
      (n = name → tells files s (.invite n i) = .names (participants files g.members)) := by
  obtain ⟨s', hs, ho⟩ := h
  have other : ∀ (t : State) (l : List Id) (x : Msg), t.out = [] → (y, Msg.invite n i) ∈ (sendAll t l x).out →
      x = .invite n i := fun t l x ht hx => ((mem_sendAll ht).mp hx).2.symm
  cases e with
  | recv src msg flt =>
    exfalso
    cases msg with
    | invite n i =>
      cases hs
      revert ho
      unfold recvInvite
      split
      · simp
      split
      · simp
      split <;> simp
    | join n token =>
      cases hs
      unfold recvJoin at ho
      split at ho
      · simp at ho
      split at ho
      · simp at ho
      split at ho
      · simp at ho
      split at ho
      · simp at ho
      split at ho
      · simp at ho
      dsimp only at ho
      split at ho
      · simp at ho
      split at ho
      · simp at ho
      split at ho
      · simp at ho
      have := other _ _ _ rfl ho
      cases this
    | part n =>
      cases hs
      unfold recvPart at ho
      split at ho
      · simp at ho
      split at ho
      · simp at ho
      split at ho
      · simp at ho
      have := other _ _ _ rfl ho
      cases this
    | kill n =>
      change recvKill _ src n = .ok s' at hs
      unfold recvKill at hs
      split at hs
      · cases hs; simp at ho
      split at hs
      · cases hs
      split at hs
      · cases hs; simp at ho
      · cases hs; rw [deleteGroup_out] at ho; simp at ho
    | kick member parted l =>
      cases hs
      unfold recvKick at ho
      split at ho
      · simp at ho
      split at ho
      · simp at ho
      split at ho
      · rw [deleteGroup_out] at ho; simp at ho
      · rw [updateGroupList_out] at ho; simp at ho
    | list l => cases hs; rw [updateGroupList_out] at ho; simp at ho
    | update l => cases hs; rw [updateGroupList_out] at ho; simp at ho
    | message n gen text me =>
      change recvMessage upper _ src n text me = .ok s' at hs
      unfold recvMessage at hs
      split at hs
      · cases hs; simp at ho
      split at hs
      · cases hs; simp at ho
      split at hs
      · cases hs
      · cases hs; simp at ho
  | cmd c flt =>
    cases c with
    | new n od =>
      exfalso
      cases hs
      revert ho
      simp only [cmd, cmdNew]
      split
      · simp
      split <;> simp
    | invite name who token =>
      cases hs
      simp only [cmd] at ho
      unfold cmdInvite at ho
      split at ho
      · simp at ho
      next hk =>
      split at ho
      · simp at ho
      next g hg =>
      split at ho
      · simp at ho
      next ha =>
      split at ho
      · simp at ho
      next hm =>
      split at ho
      · simp at ho
      split at ho
      · simp at ho
      rw [mem_sendAll rfl] at ho
      obtain ⟨h1, h2⟩ := ho
      rw [List.mem_singleton] at h1
      subst h1
      cases h2
      dsimp only at hk hg ha hm
      refine ⟨name, token, flt, g, rfl, hg, rfl, by simpa using ha, by simpa using hk, hm, fun he => ?_⟩
      simp only [tells]
      rw [he, hg]
    | join n token src =>
      exfalso
      cases hs
      revert ho
      simp only [cmd, cmdJoin]
      split
      · simp
      split
      · simp
      split
      · simp
      have key : ∀ t : State, t.out = [] → (y, Msg.invite _ i) ∈ (sendAll t [src] (.join n token)).out → False :=
        fun t ht ho => by have := other _ _ _ ht ho; cases this
      split
      · exact key _ rfl
      split
      · exact key _ rfl
      split
      · exact key _ rfl
      · exact key _ rfl
    | kick n who =>
      exfalso
      cases hs
      simp only [cmd] at ho
      unfold cmdKick at ho
      split at ho
      · simp at ho
      split at ho
      · simp at ho
      split at ho
      · simp at ho
      have := other _ _ _ rfl ho
      cases this
    | part n =>
      exfalso
      cases hs
      revert ho
      simp only [cmd, cmdPart]
      split
      · simp
      split
      · simp
      split
      · simp
      intro ho
      have := other _ _ _ rfl ho
      cases this
    | partForce n => exfalso; cases hs; simp only [cmd, deleteGroup_out] at ho; simp at ho
    | kill n online =>
      exfalso
      cases hs
      revert ho
      simp only [cmd, cmdKill]
      split
      · simp
      split
      · simp
      split
      · rw [deleteGroup_out]; simp
      split
      · simp
      rw [deleteGroup_out]
      intro ho
      have := other _ _ _ rfl ho
      cases this
    | message n text me =>
      exfalso
      cases hs
      revert ho
      simp only [cmd, cmdMessage]
      split
      · simp
      intro ho
      have := other _ _ _ rfl ho
      cases this
  | ack n =>
    exfalso
    cases hs
    revert ho
    unfold ack
    split
    · simp
    dsimp only
    split
    · simp
    split <;> simp
  | meet i => exfalso; cases hs; simp at ho
  | tick d => exfalso; cases hs; simp at ho

/-- `y` has left the group `name` of this client for good: they are not on the list, and no removal is under way that would
bring back a list with them. -/
structure Gone (name : Bytes) (y : Id) (s : State) : Prop where
  other : y ≠ s.self
  list : ∀ g, s.groups.get name = some g → admin g = some s.self ∧ y ∉ g.members
  kicks : ∀ k ∈ s.kicks, k.name = name → admin k.ngc = some s.self ∧ y ∉ k.ngc.members

/-- `y` does not ask to be let in again, and the user does not accept an invitation to a group of the same name that belongs
to somebody else; nobody else is the user. -/
def Away (name : Bytes) (y : Id) (s : State) : Ev → Prop
  | .recv src (.join n _) _ => src ≠ s.self ∧ ¬ (src = y ∧ n = name)
  | .recv src _ _ => src ≠ s.self
  | .cmd (.join n _ _) _ => n ≠ name
  | _ => True

theorem Away.src {name : Bytes} {y : Id} {s : State} {src : Id} {m : Msg} {flt : Fault}
    (h : Away name y s (.recv src m flt)) : src ≠ s.self := by
  cases m <;> first | exact h.1 | exact h

theorem gone_step {upper : Bytes → Bytes} {name : Bytes} {y : Id} {s s' : State} {e : Ev} (hg : Gone name y s)
    (ha : Away name y s e) (h : step upper s e = .ok s') : Gone name y s' := by
  have hself := (step_self h).1
  refine ⟨by rw [hself]; exact hg.other, ?_, ?_⟩
  · intro g' hg'
    rw [hself]
    cases groups_step h hg' with
    | same h1 => exact hg.list g' h1
    | @join src token flt g i he hgs had hi ht hk hm h1 =>
      subst h1 he
      obtain ⟨h2, h3⟩ := hg.list g hgs
      refine ⟨?_, ?_⟩
      · unfold admin at had ⊢
        rw [List.head?_append, had]; rfl
      · intro hy
        rcases List.mem_append.mp hy with hy | hy
        · exact h3 hy
        · rw [List.mem_singleton] at hy
          exact ha.2 ⟨hy.symm, rfl⟩
    | @part src flt g he hgs had hm h1 =>
      subst h1
      obtain ⟨h2, h3⟩ := hg.list g hgs
      refine ⟨?_, ?_⟩
      · unfold admin at had ⊢
        dsimp only
        cases hgm : g.members with
        | nil => rw [hgm] at had; cases had
        | cons a r =>
          rw [hgm] at had
          simpa using had
      · intro hy
        rcases List.mem_append.mp hy with hy | hy
        · exact h3 (List.mem_of_mem_take hy)
        · exact h3 (List.mem_of_mem_tail (List.mem_of_mem_erase hy))
    | @list src m flt g he hm hn hgs had =>
      subst he
      obtain ⟨h2, _⟩ := hg.list g hgs
      rw [h2] at had
      exact absurd (Option.some.inj had).symm ha.src
    | @new od flt he hgs h1 =>
      subst h1
      exact ⟨rfl, by simpa using hg.other⟩
    | @joined token src flt he hgs h1 => subst he; exact absurd rfl ha
    | @kicked n k g he hk hn hw hgs h1 =>
      subst h1
      exact hg.kicks k (List.mem_of_getElem? hk) hn
  · intro k hk hn
    rw [hself]
    rcases kicks_step h with h2 | ⟨n, who, flt, g, rfl, hgs, had, hw, _, h2⟩ | ⟨n, k0, rfl, hk0, h2⟩
    · rw [h2] at hk
      exact hg.kicks k hk hn
    · rw [h2] at hk
      rcases List.mem_append.mp hk with h3 | h3
      · exact hg.kicks k h3 hn
      · rw [List.mem_singleton] at h3
        subst h3
        dsimp only at hn
        subst hn
        obtain ⟨_, h3⟩ := hg.list g hgs
        refine ⟨?_, fun hy => h3 (List.mem_filter.mp hy).1⟩
        unfold admin at had ⊢
        dsimp only
        cases hgm : g.members with
        | nil => rw [hgm] at had; cases had
        | cons a r =>
          rw [hgm] at had
          simp only [List.head?_cons, Option.some.injEq] at had
          rw [List.filter_cons_of_pos (by rw [had]; simpa using Ne.symm hw), List.head?_cons, had]
    · rw [h2] at hk
      rcases List.mem_or_eq_of_mem_set hk with h3 | h3
      · exact hg.kicks k h3 hn
      · subst h3
        exact hg.kicks k0 (List.mem_of_getElem? hk0) hn

theorem gone_run {upper : Bytes → Bytes} {name : Bytes} {y : Id} {s s' : State} {es : List Ev} (hg : Gone name y s)
    (h : Run upper (Away name y) s es s') : Gone name y s' := by
  induction h with
  | nil => exact hg
  | cons ha h1 _ ih => exact ih (gone_step hg ha h1)

/-- **C146** (partial: "left for good" includes that no removal is under way, see `C146_kicked_violated`) Whoever has left a
group for good is sent no list of it any more, however long the client runs, unless they ask to be let in again. -/
theorem C146_gone_partial {upper : Bytes → Bytes} {name : Bytes} {y : Id} {s s' : State} {es : List Ev} {e : Ev} {m : Msg}
    {gl : GroupList} (hg : Gone name y s) (h : Run upper (Away name y) s es s') (ha : Away name y s' e)
    (hs : Sends upper s' e y m) (hl : m.gl = some gl) :
    ∃ other g, other ≠ name ∧ s'.groups.get other = some g ∧
      (y ∈ g.members ∨ Joins s' other y e) := by
  have hg' := gone_run hg h
  obtain ⟨n, g, h1, h2, _, h4, h5, _⟩ := lists hs hl
  have hy : y ∈ g.members ∨ Joins s' n y e := by
    rcases h4 with h4 | ⟨h4, _⟩
    · exact h5 y h4
    · exact .inl h4
  refine ⟨n, g, ?_, h1, hy⟩
  rintro rfl
  rcases hy with hy | hy
  · exact (hg'.list g h1).2 hy
  · cases e with
    | recv src msg flt =>
      cases msg with
      | join n' token =>
        obtain ⟨rfl, rfl, _⟩ := hy
        exact ha.2 ⟨rfl, rfl⟩
      | _ => exact hy
    | _ => exact hy

/-- The one who asks to leave is gone as soon as the message has arrived, if no removal is under way. -/
theorem gone_part {upper : Bytes → Bytes} {s s' : State} {name : Bytes} {y : Id} {flt : Fault} {g : GroupList}
    (hg : s.groups.get name = some g) (ha : admin g = some s.self) (hn : g.members.Nodup) (hy : y ∈ g.members.tail)
    (hk : ∀ k ∈ s.kicks, k.name ≠ name) (h : step upper s (.recv y (.part name) flt) = .ok s') : Gone name y s' := by
  obtain ⟨a, r, hgm⟩ : ∃ a r, g.members = a :: r := by
    cases hgm : g.members with
    | nil => rw [hgm] at hy; simp at hy
    | cons a r => exact ⟨a, r, rfl⟩
  rw [hgm] at hn hy
  simp only [admin, hgm, List.head?_cons, Option.some.injEq] at ha
  have hne : y ≠ a := fun he => (List.nodup_cons.mp hn).1 (he ▸ hy)
  have hself := (step_self h).1
  have hs' : s' = recvPart s y name := by
    have : (Res.ok (recvPart s y name)) = .ok s' := h
    exact (Res.ok.inj this).symm
  have he : recvPart s y name =
      sendAll { s with groups := s.groups.set name (⟨g.name, inc g.gen, g.members.take 1 ++ g.members.tail.erase y⟩ : GroupList) }
        g.members.tail (.kick y true ⟨g.name, inc g.gen, g.members.take 1 ++ g.members.tail.erase y⟩) := by
    unfold recvPart
    rw [hg]
    dsimp only
    rw [if_neg (by simp [admin, hgm, ha]), if_neg (by rw [hgm]; simpa using hy)]
  rw [hs'] at hself ⊢
  refine ⟨by rw [hself, ← ha]; exact hne, ?_, ?_⟩
  · intro g' hg'
    rw [hself]
    rw [he] at hg'
    simp only [sendAll, GoMap.get_set_self, Option.some.injEq] at hg'
    subst hg'
    refine ⟨by simp [admin, hgm, ha], ?_⟩
    simp only [hgm, List.take_succ_cons, List.take_zero, List.tail_cons, List.mem_append, List.mem_singleton, not_or]
    exact ⟨hne, (List.nodup_cons.mp hn).2.not_mem_erase⟩
  · intro k hk' hkn
    rw [he] at hk'
    exact absurd hkn (hk k hk')

/-- **C146** Leaving helps: whoever has asked to leave, and whose message has arrived while no removal was under way, is sent
no list of the group after that, unless they ask to be let in again. -/
theorem C146_left {upper : Bytes → Bytes} {name : Bytes} {y : Id} {s t s' : State} {flt : Fault} {es : List Ev} {e : Ev}
    {m : Msg} {gl g : GroupList} (hg : s.groups.get name = some g) (had : admin g = some s.self) (hn : g.members.Nodup)
    (hy : y ∈ g.members.tail) (hk : ∀ k ∈ s.kicks, k.name ≠ name) (hp : step upper s (.recv y (.part name) flt) = .ok t)
    (h : Run upper (Away name y) t es s') (ha : Away name y s' e) (hs : Sends upper s' e y m) (hl : m.gl = some gl) :
    ∃ other g, other ≠ name ∧ s'.groups.get other = some g ∧ (y ∈ g.members ∨ Joins s' other y e) :=
  C146_gone_partial (gone_part hg had hn hy hk hp) h ha hs hl

theorem gone_ack {upper : Bytes → Bytes} {G : State → Ev → Prop} {self : Id} {nick : Bytes} {es : List Ev} {s s' : State}
    {n : Nat} {k : Kick} (hr : Run upper G (init self nick) es s) (hk : s.kicks[n]? = some k)
    (hw : k.got + 1 = k.want) (ho : ∀ j ∈ s.kicks, j.name = k.name → j.ngc = k.ngc)
    (h : step upper s (.ack n) = .ok s') : Gone k.name k.who s' := by
  have hord := ordered_run hr k (List.mem_of_getElem? hk)
  have hself := (step_self h).1
  have hs : s.self = self := (run_self hr).1
  have had : admin k.ngc = some self := by
    have ha := hord.admin
    rw [hord.list]
    unfold admin at ha ⊢
    dsimp only
    cases hgm : k.was.members with
    | nil => rw [hgm] at ha; cases ha
    | cons a r =>
      rw [hgm] at ha
      simp only [List.head?_cons, Option.some.injEq] at ha
      rw [List.filter_cons_of_pos (by rw [ha]; simpa using Ne.symm hord.other), List.head?_cons, ha]
  have hnot : k.who ∉ k.ngc.members := by
    rw [hord.list]
    simp
  have hs' : s' = ack s n := by
    have : (Res.ok (ack s n)) = .ok s' := h
    exact (Res.ok.inj this).symm
  have hkicks : ∀ j ∈ s'.kicks, j.name = k.name → j.ngc = k.ngc := by
    intro j hj hjn
    rcases kicks_step h with h2 | ⟨_, _, _, _, he, _⟩ | ⟨m, k0, he, hk0, h2⟩
    · rw [h2] at hj; exact ho j hj hjn
    · cases he
    · rw [h2] at hj
      rcases List.mem_or_eq_of_mem_set hj with h3 | h3
      · exact ho j h3 hjn
      · subst h3
        exact ho k0 (List.mem_of_getElem? hk0) hjn
  refine ⟨by rw [hself, hs]; exact hord.other, ?_, ?_⟩
  · intro g hg
    rw [hself, hs]
    rw [hs'] at hg
    unfold ack at hg
    rw [hk] at hg
    dsimp only at hg
    rw [if_neg (by simpa using hw)] at hg
    split at hg
    next h0 => dsimp only at hg; rw [h0] at hg; cases hg
    · simp only [GoMap.get_set_self, Option.some.injEq] at hg
      subst hg
      exact ⟨had, hnot⟩
  · intro j hj hjn
    rw [hself, hs, hkicks j hj hjn]
    exact ⟨had, hnot⟩

/-- **C146** A removal helps in the end: whoever was removed is sent no list of the group after the last acknowledgement of that
removal, if no other removal is under way, unless they ask to be let in again. -/
theorem C146_removed {upper : Bytes → Bytes} {G : State → Ev → Prop} {self : Id} {nick : Bytes} {es0 es : List Ev}
    {s t s' : State} {n : Nat} {k : Kick} {e : Ev} {m : Msg} {gl : GroupList} (hr : Run upper G (init self nick) es0 s)
    (hk : s.kicks[n]? = some k) (hw : k.got + 1 = k.want) (ho : ∀ j ∈ s.kicks, j.name = k.name → j.ngc = k.ngc)
    (hp : step upper s (.ack n) = .ok t) (h : Run upper (Away k.name k.who) t es s') (ha : Away k.name k.who s' e)
    (hs : Sends upper s' e k.who m) (hl : m.gl = some gl) :
    ∃ other g, other ≠ k.name ∧ s'.groups.get other = some g ∧ (k.who ∈ g.members ∨ Joins s' other k.who e) :=
  C146_gone_partial (gone_ack hr hk hw ho hp) h ha hs hl

/-- `C146_removed` is not empty: 2 is removed, 1 acknowledges last, and then 3 is let in. -/
example : ∃ k, (after id (three ++ [.cmd (.kick grp 2) .none, .ack 0])).kicks[0]? = some k ∧ k.got + 1 = k.want ∧
    k.who = 2 ∧ k.name = grp ∧ (after id (three ++ [.cmd (.kick grp 2) .none, .ack 0])).kicks = [k] ∧
    (after id (three ++ [.cmd (.kick grp 2) .none, .ack 0, .ack 0, .meet 3, .cmd (.invite grp 3 33) .none,
      .recv 3 (.join grp 33) .none])).out.drop 7 = [(3, .invite grp ⟨33, 86400⟩), (1, .list ⟨grp, 7, [0, 1, 3]⟩),
      (3, .list ⟨grp, 7, [0, 1, 3]⟩)] := ⟨_, rfl, by decide +kernel, by decide +kernel, by decide +kernel,
    by decide +kernel, by decide +kernel⟩

/-! ### Instances -/

/-- Nobody is told anything that the example does not show: 0 has 1 and 2 in the group, and 2 leaves. -/
example : ∃ s', step id { after id three with out := [] } (.recv 2 (.part grp) .none) = .ok s' ∧
    s'.out = [(1, .kick 2 true ⟨grp, 5, [0, 1]⟩), (2, .kick 2 true ⟨grp, 5, [0, 1]⟩)] := ⟨_, rfl, by decide +kernel⟩

/-- `C146_left` is not empty: 2 has left, and 3 is let in. -/
example : ∃ g, (after id three).groups.get grp = some g ∧ admin g = some (after id three).self ∧ g.members.Nodup ∧
    2 ∈ g.members.tail ∧ (∀ k ∈ (after id three).kicks, k.name ≠ grp) ∧
    (after id (three ++ [.recv 2 (.part grp) .none, .meet 3, .cmd (.invite grp 3 33) .none, .recv 3 (.join grp 33) .none])).out.getLast? =
      some (3, .list ⟨grp, 7, [0, 1, 3]⟩) :=
  ⟨⟨grp, 4, [0, 1, 2]⟩, by decide +kernel, by decide +kernel, by decide +kernel, by decide +kernel, by decide +kernel,
    by decide +kernel⟩

/-- **C146, negation.** Whoever is removed from a group is told who is left in it. -/
theorem C146_leaver_violated : ∃ gl, Sends id (after id three) (.cmd (.kick grp 2) .none) 2 (.kick 2 false gl) ∧
    2 ∉ gl.members ∧ gl.members = [0, 1] :=
  ⟨⟨grp, 5, [0, 1]⟩, ⟨_, rfl, by decide +kernel⟩, by decide, rfl⟩

/-- **C146, negation.** Whoever was removed is told who is let in later, as long as somebody else has not acknowledged the
removal: 2 is removed and has acknowledged it, 1 has not, and 3 is let in. -/
theorem C146_kicked_violated :
    Sends id (after id (three ++ [.cmd (.kick grp 2) .none, .ack 0, .meet 3, .cmd (.invite grp 3 33) .none]))
      (.recv 3 (.join grp 33) .none) 2 (.list ⟨grp, 6, [0, 1, 2, 3]⟩) :=
  ⟨_, rfl, by decide +kernel⟩

/-- **C146, negation.** Who is invited is told the names of the members before they agree to anything, and if they never do:
here 0 has the name of 1 on file, "al". -/
theorem C146_invited_violated : ∃ s e i, s = after id (three ++ [.meet 3]) ∧ Sends id s e 3 (.invite grp i) ∧
    tells (fun j => if j = 1 then some [97, 108] else none) s (.invite grp i) = .names [[], [97, 108], []] :=
  ⟨_, .cmd (.invite grp 3 33) .none, ⟨33, 86400⟩, rfl, ⟨_, rfl, by decide +kernel⟩, by decide +kernel⟩

/-- **C146, negation.** Who has left a group by force is told of everybody who is let in after that: the administrator is not
told that they left. -/
theorem C146_force_violated : ∃ es : List Ev, (exec id (init 2 bob) ([.meet 0, .recv 0 (.invite grp ⟨22, 86400⟩) .none,
      .cmd (.join grp 22 0) .none, .recv 0 (.list ⟨grp, 4, [0, 1, 2]⟩) .none, .cmd (.partForce grp) .none])).map
        (fun s => (s.groups.get grp, s.out)) = some (none, [(0, .join grp 22)]) ∧
    Sends id (after id (three ++ es)) (.recv 3 (.join grp 33) .none) 2 (.list ⟨grp, 6, [0, 1, 2, 3]⟩) :=
  ⟨[.meet 3, .cmd (.invite grp 3 33) .none], by decide +kernel, _, rfl, by decide +kernel⟩

/-! ## C147 -/

open Verif.AddressBook (Book PubId us)

/-- Address books of somebody whose contacts call themselves `own`. -/
inductive Honest (own : Bytes → Bytes) : Book → Prop
  | new : Honest own AddressBook.new
  | add {b id r b'} : Honest own b → id.nick = own id.identity → AddressBook.add b id = some (r, b') → Honest own b'
  | del {b id order b'} : Honest own b → order.Perm b → AddressBook.del b id order = some b' → Honest own b'

theorem del_find {b b' : Book} {id : Bytes} : ∀ {order : List (Bytes × PubId)}, AddressBook.del b id order = some b' →
    ∀ k v, AddressBook.findNick b' k = some v → AddressBook.findNick b k = some v
  | [], h, _, _, _ => by cases h
  | (k0, v0) :: rest, h, k, v, hv => by
    unfold AddressBook.del at h
    split at h
    · exact del_find h k v hv
    · cases h
      unfold AddressBook.findNick at hv ⊢
      rw [GoMap.get_del] at hv
      split at hv
      · cases hv
      · exact hv

theorem honest_find {own : Bytes → Bytes} {b : Book} (h : Honest own b) :
    ∀ k v, AddressBook.findNick b k = some v → ∃ j, k = own v.identity ++ us j := by
  induction h with
  | new => intro k v hv; cases hv
  | @add b id r b' _ hn ha ih =>
    intro k v hv
    obtain ⟨nick, ch⟩ := r
    obtain ⟨h1, h2, _, _, j, h4, _⟩ := AddressBook.C43_add b id nick ch b' ha
    by_cases hk : k = nick
    · subst hk
      rw [h1] at hv
      cases hv
      exact ⟨j, by rw [h4, hn]⟩
    · rw [h2 k hk] at hv
      exact ih k v hv
  | del _ _ hd ih => intro k v hv; exact ih k v (del_find hd k v hv)

/-- The name of `i` is not that of any other, nor what becomes of it when underscores are added. -/
def Telling (own : Bytes → Bytes) (i : Bytes) : Prop := ∀ j k, own i = own j ++ us k → j = i

/-- **C147** (partial: if names are telling, see `C147_namesake_violated`) Whoever is shown as a participant by the client of the
one who is invited is in the group, and calls themselves what is shown. `files` is what the one who invites has on file. -/
theorem C147_true_partial {own : Bytes → Bytes} {files : Bytes → Option Bytes} {members : List Bytes} {b : Book}
    (hb : Honest own b) (hf : ∀ i n, files i = some n → n = own i) (ht : ∀ i ∈ members, Telling own i)
    (h0 : AddressBook.findNick b [] = none) {n i : Bytes} (h : (n, i) ∈ shown b (participants files members)) :
    i ∈ members ∧ n = own i ∧ files i = some n := by
  simp only [shown, participants, List.mem_filterMap, List.mem_map] at h
  obtain ⟨x, ⟨i', hi', rfl⟩, hx⟩ := h
  obtain ⟨v, hv, hv'⟩ := Option.map_eq_some_iff.mp hx
  cases hv'
  cases hfi : files i' with
  | none => rw [hfi] at hv; rw [Option.getD_none, h0] at hv; cases hv
  | some n =>
    rw [hfi, Option.getD_some] at hv
    rw [Option.getD_some]
    have hn := hf i' n hfi
    subst hn
    obtain ⟨j, hj⟩ := honest_find hb _ _ hv
    have := ht i' hi' v.identity j hj
    rw [this]
    exact ⟨hi', rfl, hfi⟩

/-- **C147** (partial: see `C147_inviter_violated` and `C147_unknown_violated`) Everybody in the group of whom the one who
invites has the name on file is shown, if the one who is invited has them in the address book under that name. -/
theorem C147_all_partial {files : Bytes → Option Bytes} {members : List Bytes} {b : Book} {i n : Bytes} {v : PubId}
    (hi : i ∈ members) (hf : files i = some n) (hv : AddressBook.findNick b n = some v) (hvi : v.identity = i) :
    (n, i) ∈ shown b (participants files members) := by
  simp only [shown, participants, List.mem_filterMap, List.mem_map]
  exact ⟨n, ⟨i, hi, by rw [hf]; rfl⟩, by rw [hv, ← hvi]; rfl⟩

/-- The names of three people; the second and the third call themselves the same. -/
def name3 (i : Bytes) : Bytes := if i = [1] then [105] else [97, 108]

/-- The book of somebody who has met [1] and one of those called "al". -/
def book3 (al : Bytes) : Book := [([97, 108], ⟨[97, 108], al, 0⟩), ([105], ⟨[105], [1], 0⟩)]

theorem book3_honest (al : Bytes) (h : al ≠ [1]) : Honest name3 (book3 al) := by
  have h1 : AddressBook.add AddressBook.new ⟨[105], [1], 0⟩ = some (([105], false), [([105], ⟨[105], [1], 0⟩)]) := by rfl
  have h2 : AddressBook.add [([105], ⟨[105], [1], 0⟩)] ⟨[97, 108], al, 0⟩ = some (([97, 108], false), book3 al) := by rfl
  exact .add (.add .new (by decide) h1) (by simp [name3, h]) h2

/-- An instance: [1] invites somebody who knows the same person as "al". -/
example : Honest name3 (book3 [2]) ∧
    shown (book3 [2]) (participants (fun i => if i = [2] then some [97, 108] else none) [[1], [2]]) =
      [([97, 108], [2])] := ⟨book3_honest _ (by decide), by decide⟩

/-- **C147, negation.** Names are looked up in the address book of the one who is invited: if they know somebody else by the
name of a member, that other person's fingerprint is shown, who is not in the group. -/
theorem C147_namesake_violated : ∃ own files members b n i, Honest own b ∧ (∀ i n, files i = some n → n = own i) ∧
    (n, i) ∈ shown b (participants files members) ∧ i ∉ members := by
  refine ⟨name3, fun i => if i = [2] then some [97, 108] else none, [[1], [2]], book3 [3], [97, 108], [3],
    book3_honest _ (by decide), ?_, by decide, by decide⟩
  intro i n h
  dsimp only at h
  split at h
  next hi => cases h; subst hi; decide
  · cases h

/-- Names that end in a letter that no underscore is, one for each. -/
theorem telling_zero (i : Bytes) : Telling (fun i => i ++ [0]) i := by
  intro j k h
  cases k with
  | zero => simpa [us] using h.symm
  | succ k =>
    have := congrArg List.getLast? h
    rw [us, List.replicate_succ'] at this
    simp [← List.append_assoc] at this

/-- An instance of `C147_true_partial` and of both negations below: [1] invites somebody to a group of [1], [2] and [3]; they
know [1] and [2]. Only [2] is shown. -/
example : ∃ b : Book, Honest (fun i => i ++ [0]) b ∧ AddressBook.findNick b [] = none ∧
    AddressBook.findNick b [3, 0] = none ∧
    shown b (participants (fun i => if i = [1] then none else some (i ++ [0])) [[1], [2], [3]]) = [([2, 0], [2])] :=
  ⟨[([2, 0], ⟨[2, 0], [2], 0⟩), ([1, 0], ⟨[1, 0], [1], 0⟩)],
    .add (id := ⟨[2, 0], [2], 0⟩) (r := ([2, 0], false)) (.add (id := ⟨[1, 0], [1], 0⟩) (r := ([1, 0], false)) .new rfl rfl) rfl rfl,
    by decide, by decide, by decide⟩

/-- **C147, negation.** The one who invites, who is the administrator, is never shown: nobody has a file about
oneself. -/
theorem C147_inviter_violated {own : Bytes → Bytes} {files : Bytes → Option Bytes} {members : List Bytes} {b : Book}
    {me : Bytes} (hb : Honest own b) (hf : ∀ i n, files i = some n → n = own i) (ht : ∀ i ∈ members, Telling own i)
    (h0 : AddressBook.findNick b [] = none) (hme : files me = none) :
    ∀ n, (n, me) ∉ shown b (participants files members) := by
  intro n h
  have := (C147_true_partial hb hf ht h0 h).2.2
  rw [hme] at this
  cases this

/-- **C147, negation.** Whoever is in the group and is not known to the one who is invited is not shown at all, though the name
came with the invitation. -/
theorem C147_unknown_violated {own : Bytes → Bytes} {files : Bytes → Option Bytes} {members : List Bytes} {b : Book}
    {i : Bytes} (hb : Honest own b) (hf : ∀ i n, files i = some n → n = own i) (ht : ∀ i ∈ members, Telling own i)
    (h0 : AddressBook.findNick b [] = none) (hi : AddressBook.findNick b (own i) = none) :
    ∀ n, (n, i) ∉ shown b (participants files members) := by
  intro n h
  obtain ⟨_, h2, _⟩ := C147_true_partial hb hf ht h0 h
  simp only [shown, List.mem_filterMap] at h
  obtain ⟨x, _, hx⟩ := h
  obtain ⟨v, hv, hv'⟩ := Option.map_eq_some_iff.mp hx
  cases hv'
  rw [h2, hi] at hv
  cases hv

end Verif.Told
