import Verif.Model.Answers
import Verif.Props.Intro
import Verif.Props.Groups

/-! # C145: a client answers others only where its user agreed to -/

namespace Verif.Answers

open Verif
open Verif.Intro (Z Pid Payload Shared Came)

/-- What there was about introductions. -/
def intros (evs : List Ev) : List Intro.Ev :=
  evs.filterMap fun
    | .intro e => some e
    | _ => none

theorem after_snoc (upper : Bytes → Bytes) (dir : Bool) (me : Nat) (nick : Bytes) (evs : List Ev) (e : Ev) :
    after upper dir me nick (evs ++ [e]) = step upper dir me (after upper dir me nick evs) e := by
  simp [after]

theorem z_after (upper : Bytes → Bytes) (dir : Bool) (me : Nat) (nick : Bytes) (evs : List Ev) :
    (after upper dir me nick evs).z = Intro.after dir me (intros evs) := by
  induction evs using List.reverseRecOn with
  | nil => rfl
  | append_singleton evs e ih =>
    rw [after_snoc, intros, List.filterMap_append]
    cases e with
    | intro e => simp only [step, ih, intros, List.filterMap_cons, List.filterMap_nil, Intro.after_snoc]
    | crpc src m flt =>
      simp only [step, List.filterMap_cons, List.filterMap_nil, List.append_nil]
      split <;> exact ih
    | _ =>
      simp only [step, List.filterMap_cons, List.filterMap_nil, List.append_nil]
      exact ih

theorem groups_self (upper : Bytes → Bytes) (s : S) (e : Groups.Ev) : (groups upper s e).self = s.g.self := by
  unfold groups
  split
  · next h => exact (Groups.step_self h).1
  · rfl

theorem self_after (upper : Bytes → Bytes) (dir : Bool) (me : Nat) (nick : Bytes) (evs : List Ev) :
    (after upper dir me nick evs).g.self = me := by
  induction evs using List.reverseRecOn with
  | nil => rfl
  | append_singleton evs e ih =>
    rw [after_snoc]
    cases e with
    | intro e => exact ih
    | crpc src m flt =>
      simp only [step]
      split
      · exact (groups_self ..).trans ih
      · exact ih
    | mail src => exact ih
    | cmd c flt => exact (groups_self ..).trans ih
    | ack n => exact (groups_self ..).trans ih
    | tick d => exact (groups_self ..).trans ih

/-- The user invited somebody, with this token. -/
def Invited (evs : List Ev) (who token : Nat) : Prop :=
  ∃ name t flt, .cmd (.invite name who t) flt ∈ evs ∧ token = t % 1000000

theorem Invited.snoc {evs : List Ev} {who token : Nat} (h : Invited evs who token) (e : Ev) :
    Invited (evs ++ [e]) who token := by
  obtain ⟨n, t, flt, h, h'⟩ := h
  exact ⟨n, t, flt, List.mem_append_left _ h, h'⟩

theorem recv_invites {upper : Bytes → Bytes} {s s' : Groups.State} {src : Nat} {m : Groups.Msg} {flt : Groups.Fault}
    (h : Groups.recv upper s src m flt = .ok s') {key : Bytes × Nat} {i : Groups.Invite}
    (hi : s'.invites.get key = some i) : s.invites.get key = some i := by
  rcases Groups.invites_step (e := .recv src m flt) h with h1 | ⟨n, w, j, h1, h2, h3, _⟩ | ⟨n, w, f, j, _, _, h3, _⟩
  · rw [← h1.1]; exact hi
  · -- a message stores no invitation
    exfalso
    have : s'.issued = s.issued := by
      cases m with
      | kill n =>
        simp only [Groups.recv, Groups.recvKill, Groups.deleteGroup] at h
        repeat' split at h
        all_goals first | (cases h; done) | (cases h; rfl)
      | message n gen text me =>
        simp only [Groups.recv, Groups.recvMessage] at h
        repeat' split at h
        all_goals first | (cases h; done) | (cases h; rfl)
      | _ =>
        simp only [Groups.recv, Groups.recvInvite, Groups.recvJoin, Groups.recvPart, Groups.recvKick, Groups.updateGroupList,
          Groups.deleteGroup, Groups.sendAll, Groups.Res.ok.injEq] at h
        subst h
        repeat' split
        all_goals rfl
    rw [h3] at this
    simpa using congrArg List.length this
  · rw [h3, GoMap.get_del] at hi
    split at hi
    · cases hi
    · exact hi

theorem cmd_invites {s : Groups.State} {c : Groups.Cmd} {flt : Groups.Fault} {key : Bytes × Nat} {i : Groups.Invite}
    (hi : (Groups.cmd s c flt).invites.get key = some i) :
    s.invites.get key = some i ∨ ∃ name t, c = .invite name key.2 t ∧ i.token = t % 1000000 := by
  cases c with
  | invite name who t =>
    simp only [Groups.cmd, Groups.cmdInvite, Groups.sendAll] at hi
    repeat' split at hi
    all_goals first
      | exact .inl hi
      | (simp only [] at hi
         rw [GoMap.get_set] at hi
         split at hi
         · next he =>
           cases hi
           subst he
           exact .inr ⟨name, t, rfl, rfl⟩
         · exact .inl hi)
  | _ =>
    left
    simp only [Groups.cmd, Groups.cmdNew, Groups.cmdJoin, Groups.cmdKick, Groups.cmdPart, Groups.cmdKill, Groups.cmdMessage,
      Groups.deleteGroup, Groups.sendAll] at hi
    repeat' split at hi
    all_goals exact hi

theorem invited_after (upper : Bytes → Bytes) (dir : Bool) (me : Nat) (nick : Bytes) (evs : List Ev) (key : Bytes × Nat)
    (i : Groups.Invite) (h : (after upper dir me nick evs).g.invites.get key = some i) : Invited evs key.2 i.token := by
  induction evs using List.reverseRecOn generalizing i with
  | nil => cases h
  | append_singleton evs e ih =>
    rw [after_snoc] at h
    generalize after upper dir me nick evs = s at *
    cases e with
    | intro e => exact (ih i h).snoc _
    | crpc src m flt =>
      simp only [step] at h
      split at h
      · refine (ih i ?_).snoc _
        simp only [groups] at h
        split at h
        · next hg => exact recv_invites (s := s.sync) hg h
        · exact h
      · exact (ih i h).snoc _
    | mail src => exact (ih i h).snoc _
    | cmd c flt =>
      rcases cmd_invites (s := s.sync) (c := c) (flt := flt) h with h | ⟨n, t, rfl, ht⟩
      · exact (ih i h).snoc _
      · exact ⟨n, t, flt, by simp, ht⟩
    | ack n =>
      refine (ih i ?_).snoc _
      simp only [step, groups, Groups.step, Groups.ack] at h
      repeat' split at h
      all_goals exact h
    | tick d => exact (ih i h).snoc _

/-- What a message of a group makes the client send. -/
theorem recv_out {upper : Bytes → Bytes} {s s' : Groups.State} {src : Nat} {m : Groups.Msg} {flt : Groups.Fault}
    (h : Groups.recv upper s src m flt = .ok s') (h0 : s.out = []) {j : Nat} (hj : j ∈ s'.out.map (·.1)) :
    ∃ name g, s.groups.get name = some g ∧ Groups.admin g = some s.self ∧ (j ∈ g.members.tail ∨ j = src) ∧
      ((∃ i, m = .join name i.token ∧ s.invites.get (name, src) = some i ∧ src ∈ s.known) ∨
        (m = .part name ∧ src ∈ g.members.tail)) := by
  cases m with
  | join name token =>
    simp only [Groups.recv, Groups.recvJoin, Groups.sendAll, Groups.Res.ok.injEq] at h
    subst h
    split at hj
    · simp [h0] at hj
    · next g hg =>
      split at hj
      · simp [h0] at hj
      · next ha =>
        split at hj
        · simp [h0] at hj
        · next i hi =>
          repeat' split at hj
          all_goals first
            | (simp [h0] at hj; done)
            | skip
          next ht hd hk hm hv =>
          simp only [h0, List.nil_append, List.map_map, List.mem_map, Function.comp] at hj
          obtain ⟨x, hx, rfl⟩ := hj
          have ha : Groups.admin g = some s.self := by simpa using ha
          refine ⟨name, g, hg, ha, ?_, .inl ⟨i, by simp only [ne_eq, Decidable.not_not] at ht; rw [ht], hi, by simpa using hk⟩⟩
          unfold Groups.admin at ha
          cases hgm : g.members with
          | nil => rw [hgm] at ha; cases ha
          | cons a r =>
            rw [hgm] at hx
            simpa using hx
  | part name =>
    simp only [Groups.recv, Groups.recvPart, Groups.sendAll, Groups.Res.ok.injEq] at h
    subst h
    split at hj
    · simp [h0] at hj
    · next g hg =>
      split at hj
      · simp [h0] at hj
      · next ha =>
        split at hj
        · simp [h0] at hj
        · next hm =>
          simp only [h0, List.nil_append, List.map_map, List.mem_map, Function.comp] at hj
          obtain ⟨x, hx, rfl⟩ := hj
          exact ⟨name, g, hg, by simpa using ha, .inl hx, .inr ⟨rfl, by simpa using hm⟩⟩
  | kill n =>
    exfalso
    simp only [Groups.recv, Groups.recvKill, Groups.deleteGroup] at h
    repeat' split at h
    all_goals first | (cases h; done) | (cases h; simp [h0] at hj)
  | message n gen text me =>
    exfalso
    simp only [Groups.recv, Groups.recvMessage] at h
    repeat' split at h
    all_goals first | (cases h; done) | (cases h; simp [h0] at hj)
  | _ =>
    exfalso
    simp only [Groups.recv, Groups.recvInvite, Groups.recvKick, Groups.updateGroupList, Groups.deleteGroup,
      Groups.Res.ok.injEq] at h
    subst h
    repeat' split at hj
    all_goals simp [h0] at hj

/-- Why something is sent to `j` upon `e`, after `evs`. -/
inductive Reason (dir : Bool) (me : Nat) (s : S) (evs : List Ev) : Ev → Nat → Prop
  /-- the user said yes to them -/
  | yes (k : Nat) (p : Pid) (h : .fetch k p ∈ intros evs) : Reason dir me s evs (.intro .yes) p.ident
  /-- the user resets or deletes a contact -/
  | reset (i : Nat) : Reason dir me s evs (.intro (.reset i)) i
  | del (i : Nat) : Reason dir me s evs (.intro (.del i)) i
  /-- the user gives a command about a group -/
  | cmd (c : Groups.Cmd) (flt : Groups.Fault) (j : Nat) : Reason dir me s evs (.cmd c flt) j
  /-- the server said that it looked them up -/
  | found (k : Nat) (p : Pid) : Reason dir me s evs (.intro (.found k p)) p.ident
  /-- they are on file, and ask for a reset -/
  | asked (k : Nat) (p : Pid) (h : Came dir (intros evs) p) : Reason dir me s evs (.intro (.push p.ident (.reset k))) p.ident
  /-- they are named in an offer under a blob key that was given away -/
  | pin (f k : Nat) (p : Pid) (hd : dir = false) (h : Shared (intros evs) k) :
      Reason dir me s evs (.intro (.push f (.idkx k p true))) p.ident
  /-- there is a directory, and they are named in an offer -/
  | offer (f : Nat) (p : Pid) (hd : dir = true) : Reason dir me s evs (.intro (.push f (.idkxDir p true))) p.ident
  /-- somebody whom the user invited joins a group of the user -/
  | join (src token : Nat) (name : Bytes) (flt : Groups.Fault) (g : Groups.GroupList) (j : Nat)
      (hg : s.g.groups.get name = some g) (ha : g.members.head? = some me) (hi : Invited evs src token)
      (hj : j ∈ g.members.tail ∨ j = src) : Reason dir me s evs (.crpc src (.join name token) flt) j
  /-- a member leaves a group of the user -/
  | part (src : Nat) (name : Bytes) (flt : Groups.Fault) (g : Groups.GroupList) (j : Nat)
      (hg : s.g.groups.get name = some g) (ha : g.members.head? = some me) (hs : src ∈ g.members.tail)
      (hj : j ∈ g.members.tail) : Reason dir me s evs (.crpc src (.part name) flt) j

theorem answered_mem {me : Nat} {z : Z} {p : Pid} {fits : Bool} {j : Nat} (h : j ∈ answered me z p fits) :
    j = p.ident ∧ fits = true := by
  unfold answered at h
  split at h
  · cases h
  · next hn =>
    simp only [not_or, Bool.not_eq_false] at hn
    exact ⟨by simpa using h, hn.2.1⟩

/-- Whatever happened: if something is sent to anybody, the user told the client to, the server said that it looked them up,
they are on file and ask for a reset, they are named in an offer of somebody who has a PIN (with a directory: of anybody),
or they and the user are in a group that the user administrates and that somebody joined, invited by the user, or left. -/
theorem C145_reasons_partial (upper : Bytes → Bytes) (dir : Bool) (me : Nat) (nick : Bytes) (evs : List Ev) (e : Ev) (j : Nat)
    (h : j ∈ sends upper dir me (after upper dir me nick evs) e) :
    Reason dir me (after upper dir me nick evs) evs e j := by
  have hz := z_after upper dir me nick evs
  have hs := self_after upper dir me nick evs
  have hi := invited_after upper dir me nick evs
  have hor := Intro.origin_after dir me (intros evs)
  have hinv := Intro.inv_after dir me (intros evs)
  rw [← hz] at hor hinv
  generalize after upper dir me nick evs = s at *
  cases e with
  | intro e =>
    cases e with
    | pin k => cases h
    | fetch k p => cases h
    | no => cases h
    | restart => cases h
    | yes =>
      simp only [sends, introduced] at h
      split at h
      · cases h
      · next k p ha =>
        obtain rfl : j = p.ident := by simpa using h
        exact .yes k p (hor.asking k p ha)
    | found k p =>
      obtain rfl : j = p.ident := by simpa [sends, introduced] using h
      exact .found k p
    | reset i =>
      simp only [sends, introduced] at h
      split at h
      · obtain rfl : j = i := by simpa using h
        exact .reset j
      · cases h
    | del i =>
      simp only [sends, introduced] at h
      split at h
      · obtain rfl : j = i := by simpa using h
        exact .del j
      · cases h
    | push f pl =>
      simp only [sends, introduced, pushed] at h
      split at h
      · cases h
      · cases pl with
        | reset k =>
          simp only [] at h
          split at h
          · cases h
          · next p hp =>
            have hf : p.ident = f := hinv.filed f p hp
            obtain rfl : j = p.ident := by simpa using h
            subst hf
            exact .asked k p (hor.files _ p hp)
        | idkx k p fits =>
          simp only [] at h
          split at h
          · cases dir with
            | true => cases h
            | false =>
              simp only [] at h
              split at h
              · next hk =>
                obtain ⟨rfl, rfl⟩ := answered_mem h
                exact .pin f k p rfl (hor.keys k hk)
              · cases h
          · cases h
        | idkxDir p fits =>
          simp only [] at h
          split at h
          · cases dir with
            | false => cases h
            | true =>
              obtain ⟨rfl, rfl⟩ := answered_mem h
              exact .offer f p rfl
          · cases h
        | kx k fits =>
          simp only [] at h
          split at h
          · cases dir <;> cases h
          · cases h
  | crpc src m flt =>
    simp only [sends] at h
    split at h
    · simp only [groups] at h
      split at h
      · next g hg =>
        obtain ⟨name, gl, h1, h2, h3, ⟨i, rfl, h4, _⟩ | ⟨rfl, h4⟩⟩ := recv_out (s := s.sync) hg rfl h
        · exact .join src i.token name flt gl j h1 (h2.trans (congrArg some hs)) (hi (name, src) i h4) h3
        · refine .part src name flt gl j h1 (h2.trans (congrArg some hs)) h4 ?_
          rcases h3 with h3 | rfl
          · exact h3
          · exact h4
      · cases h
    · cases h
  | mail src => cases h
  | cmd c flt => exact .cmd c flt j
  | ack n =>
    exfalso
    simp only [sends, groups, Groups.step, Groups.ack] at h
    repeat' split at h
    all_goals cases h
  | tick d => cases h

/-- So nothing that a contact can say has an answer, but to ask for a reset, and to join or to leave a group. -/
theorem C145_contact (upper : Bytes → Bytes) (dir : Bool) (me : Nat) (nick : Bytes) (evs : List Ev) (src : Nat) :
    let s := after upper dir me nick evs
    sends upper dir me s (.mail src) = [] ∧
    (∀ m flt, (∀ n t, m ≠ .join n t) → (∀ n, m ≠ .part n) → sends upper dir me s (.crpc src m flt) = []) ∧
    ∀ k fits, sends upper dir me s (.intro (.push src (.kx k fits))) = [] := by
  refine ⟨rfl, fun m flt h1 h2 => ?_, fun k fits => ?_⟩
  · rw [List.eq_nil_iff_forall_not_mem]
    intro j hj
    cases C145_reasons_partial upper dir me nick evs _ j hj with
    | join _ t n => exact h1 n t rfl
    | part _ n => exact h2 n rfl
  · rw [List.eq_nil_iff_forall_not_mem]
    intro j hj
    cases C145_reasons_partial upper dir me nick evs _ j hj

/-- If there is no directory, somebody whom the user has not agreed to and who was given no PIN learns nothing and changes
nothing, whatever they send: whether the client runs, and what is in it, can not be told. -/
theorem C145_stranger (upper : Bytes → Bytes) (me : Nat) (nick : Bytes) (evs : List Ev) (f : Nat)
    (hf : ∀ p, Came false (intros evs) p → p.ident ≠ f) :
    let s := after upper false me nick evs
    (∀ pl, (∀ k p fits, pl = .idkx k p fits → ¬ Shared (intros evs) k) →
      sends upper false me s (.intro (.push f pl)) = [] ∧ step upper false me s (.intro (.push f pl)) = s) ∧
    (∀ m flt, sends upper false me s (.crpc f m flt) = [] ∧ step upper false me s (.crpc f m flt) = s) ∧
    sends upper false me s (.mail f) = [] ∧ step upper false me s (.mail f) = s := by
  have hz := z_after upper false me nick evs
  have hor := Intro.origin_after false me (intros evs)
  have hinv := Intro.inv_after false me (intros evs)
  rw [← hz] at hor hinv
  simp only []
  generalize after upper false me nick evs = s at *
  have hfile : s.z.files.get f = none := by
    cases hp : s.z.files.get f with
    | none => rfl
    | some p => exact absurd (hinv.filed f p hp) (hf p (hor.files f p hp))
  have hex : s.z.exists_ f = false := by simp [Intro.Z.exists_, hfile]
  refine ⟨fun pl hpl => ?_, fun m flt => ?_, rfl, rfl⟩
  · by_cases h0 : f = 0
    · simp [sends, introduced, pushed, step, Intro.step, Intro.push, h0]
    · cases pl with
      | idkx k p fits =>
        have hk : k ∉ s.z.keys := fun hk => hpl k p fits rfl (hor.keys k hk)
        simp [sends, introduced, pushed, step, Intro.step, Intro.push, h0, hex, hk]
      | _ => simp [sends, introduced, pushed, step, Intro.step, Intro.push, h0, hex, hfile]
  · simp [sends, step, S.heard, hex]

/-! ## Where it is not so -/

/-- Anybody on file can find out at any time whether the client runs, as often as they like: a request to reset is answered
at once. Nobody is asked. -/
theorem C145_reset_violated (upper : Bytes → Bytes) (dir : Bool) (me : Nat) (nick : Bytes) (evs : List Ev) (k : Nat) (p : Pid)
    (h0 : p.ident ≠ 0) (h : (after upper dir me nick evs).z.files.get p.ident = some p) :
    let e : Ev := .intro (.push p.ident (.reset k))
    sends upper dir me (after upper dir me nick evs) e = [p.ident] ∧
      (after upper dir me nick (evs ++ [e])).z.files.get p.ident = some p := by
  have hz := z_after upper dir me nick evs
  refine ⟨by simp [sends, introduced, pushed, h0, h], ?_⟩
  rw [after_snoc]
  simp only [step, Intro.step, Intro.push, h0, if_false, h, Intro.offer]
  split
  · exact h
  · exact GoMap.get_set_self ..

/-- Whoever has a PIN makes the client write to anybody they name. -/
theorem C145_third_violated (upper : Bytes → Bytes) (me : Nat) (nick : Bytes) (evs : List Ev) (f k : Nat) (p : Pid) (hf : f ≠ 0)
    (hfx : (after upper false me nick evs).z.exists_ f = false) (hk : k ∈ (after upper false me nick evs).z.keys)
    (hp : (after upper false me nick evs).z.exists_ p.ident = false) (hme : p.ident ≠ me) :
    sends upper false me (after upper false me nick evs) (.intro (.push f (.idkx k p true))) = [p.ident] := by
  simp [sends, introduced, pushed, answered, hf, hfx, hk, hp, hme]

/-- With a directory anybody does that. -/
theorem C145_directory_violated (upper : Bytes → Bytes) (me : Nat) (nick : Bytes) (evs : List Ev) (f : Nat) (p : Pid)
    (hf : f ≠ 0) (hfx : (after upper true me nick evs).z.exists_ f = false)
    (hp : (after upper true me nick evs).z.exists_ p.ident = false) (hme : p.ident ≠ me) :
    sends upper true me (after upper true me nick evs) (.intro (.push f (.idkxDir p true))) = [p.ident] := by
  simp [sends, introduced, pushed, answered, hf, hfx, hp, hme]

/-- The server does so at any time, also with those there is a ratchet with and with the client itself. -/
theorem C145_server_violated (upper : Bytes → Bytes) (dir : Bool) (me : Nat) (nick : Bytes) (evs : List Ev) (k : Nat) (p : Pid) :
    sends upper dir me (after upper dir me nick evs) (.intro (.found k p)) = [p.ident] := rfl

/-- 5 was given a PIN, and was deleted later. With the same PIN they get an answer again, and are in the address book
again. -/
theorem C145_deleted_violated :
    let evs : List Ev := [.intro (.pin 7), .intro (.push 5 (.idkx 7 ⟨5, 50⟩ true)), .intro (.del 5)]
    let e : Ev := .intro (.push 5 (.idkx 7 ⟨5, 50⟩ true))
    (after id false 1 [] evs).z.book = [] ∧ (after id false 1 [] evs).z.files = [] ∧
      sends id false 1 (after id false 1 [] evs) e = [5] ∧
      (after id false 1 [] (evs ++ [e])).z.book.get 5 = some ⟨5, 50⟩ := by decide +kernel

/-! ## Examples -/

/-- 5 and 6 are contacts; 5 is invited to a group and joins, 6 too. -/
def party : List Ev :=
  [.intro (.pin 7), .intro (.push 5 (.idkx 7 ⟨5, 50⟩ true)), .intro (.fetch 8 ⟨6, 60⟩), .intro .yes,
    .intro (.push 6 (.kx 8 true)), .cmd (.new [103] false) .none, .cmd (.invite [103] 5 1000009) .none,
    .crpc 5 (.join [103] 9) .none, .cmd (.invite [103] 6 3) .none, .crpc 6 (.join [103] 3) .none]

/-- What is sent, one event after the other. -/
def all (evs : List Ev) : List (List Nat) :=
  (List.range evs.length).map fun n => (evs[n]?).elim [] (sends id false 1 (after id false 1 [] (evs.take n)))

example : all party = [[], [5], [], [6], [], [], [5], [5], [6], [5, 6]] := by decide +kernel

/-- A wrong token, a message, a list, a stranger; then a member leaves, and a contact asks for a reset. -/
example : let s := after id false 1 [] party
    sends id false 1 s (.crpc 5 (.join [103] 8) .none) = [] ∧ sends id false 1 s (.crpc 5 (.message [103] 4 [1] false) .none) = [] ∧
    sends id false 1 s (.crpc 5 (.list ⟨[103], 9, [5, 6]⟩) .none) = [] ∧ sends id false 1 s (.crpc 9 (.part [103]) .none) = [] ∧
    sends id false 1 s (.crpc 5 (.part [103]) .none) = [5, 6] ∧ sends id false 1 s (.intro (.push 5 (.reset 4))) = [5] := by
  decide +kernel

/-- `C145_stranger` speaks of 9 here, who tries a PIN that was not given away. -/
example : (∀ p, Came false (intros party) p → p.ident ≠ 9) ∧ ¬ Shared (intros party) 11 ∧
    sends id false 1 (after id false 1 [] party) (.intro (.push 9 (.idkx 11 ⟨9, 90⟩ true))) = [] := by
  have hm : ∀ {e : Intro.Ev} {a c : List Intro.Ev}, intros party = a ++ e :: c → e ∈ intros party := by
    intro e a c h; rw [h]; simp
  have hI : intros party = [.pin 7, .push 5 (.idkx 7 ⟨5, 50⟩ true), .fetch 8 ⟨6, 60⟩, .yes, .push 6 (.kx 8 true)] := rfl
  refine ⟨?_, ?_, by decide +kernel⟩
  · intro p h
    cases h with
    | asked a b c k h =>
      have : Intro.Ev.fetch k p ∈ intros party := by rw [h]; simp
      rw [hI] at this
      simp at this
      rw [this.2]; decide
    | pin a c f k _ _ h =>
      have := hm h
      rw [hI] at this
      simp at this
      rw [this.2.2]; decide
    | found a c k h =>
      have := hm h
      rw [hI] at this
      simp at this
    | offered a c f hd => cases hd
  · rw [hI]
    simp [Shared]

end Verif.Answers
