import Verif.Props.Groups

/-! C49, the side of the one who is invited: a client asks to be let into a group only if its user says so, and asks
only who invited it, with the token of that invitation.  Model: Verif.Model.Groups. -/

namespace Verif.Groups

theorem sent_other {s : State} {l : List Id} {m m' : Msg} {dst : Id} (h : m' ≠ m) (hm : (dst, m') ∈ (sendAll s l m).out) :
    (dst, m') ∈ s.out := by
  rcases List.mem_append.1 hm with h1 | h1
  · exact h1
  · simp only [List.mem_map, Prod.mk.injEq] at h1
    obtain ⟨_, _, _, h2⟩ := h1
    exact absurd h2.symm h

/-- A request to be let in is sent by the command of the user alone. -/
theorem join_sent_step {upper : Bytes → Bytes} {s s' : State} {e : Ev} (h : step upper s e = .ok s') {dst : Id}
    {name : Bytes} {token : Nat} (hm : (dst, Msg.join name token) ∈ s'.out) :
    (dst, Msg.join name token) ∈ s.out ∨
      ∃ flt i, e = .cmd (.join name token dst) flt ∧ s.joins.get (name, dst) = some i ∧ i.token = token := by
  cases e with
  | meet i => cases h; exact .inl hm
  | tick d => cases h; exact .inl hm
  | ack n =>
    cases h
    simp only [ack] at hm
    (repeat' split at hm) <;> exact .inl hm
  | recv src m flt =>
    left
    cases m with
    | kill n =>
      simp only [step, recv, recvKill] at h
      (repeat' split at h) <;> cases h <;> (try simp only [deleteGroup] at hm) <;> (repeat' split at hm) <;> exact hm
    | message n g t me =>
      simp only [step, recv, recvMessage] at h
      (repeat' split at h) <;> cases h <;> exact hm
    | invite n i =>
      cases h
      simp only [recvInvite] at hm
      (repeat' split at hm) <;> exact hm
    | join n t =>
      cases h
      simp only [recvJoin] at hm
      (repeat' split at hm) <;> first | exact hm | exact sent_other (by simp) hm
    | part n =>
      cases h
      simp only [recvPart] at hm
      (repeat' split at hm) <;> first | exact hm | exact sent_other (by simp) hm
    | kick who p gl =>
      cases h
      simp only [recvKick, deleteGroup, updateGroupList] at hm
      (repeat' split at hm) <;> exact hm
    | list gl =>
      cases h
      simp only [updateGroupList] at hm
      (repeat' split at hm) <;> exact hm
    | update gl =>
      cases h
      simp only [updateGroupList] at hm
      (repeat' split at hm) <;> exact hm
  | cmd c flt =>
    cases h
    cases c with
    | join n t src =>
      simp only [cmd, cmdJoin] at hm
      split at hm
      · exact .inl hm
      · split at hm
        · exact .inl hm
        · rename_i i hi
          split at hm
          · exact .inl hm
          · rename_i ht
            have hm : (dst, Msg.join name token) ∈ s.out ++ [(src, Msg.join n t)] := by
              (repeat' split at hm) <;> exact hm
            rcases List.mem_append.1 hm with h | h
            · exact .inl h
            · simp only [List.mem_singleton, Prod.mk.injEq, Msg.join.injEq] at h
              obtain ⟨rfl, rfl, rfl⟩ := h
              exact .inr ⟨flt, i, rfl, hi, by simpa using ht⟩
    | new n d =>
      simp only [cmd, cmdNew] at hm
      (repeat' split at hm) <;> exact .inl hm
    | invite n w t =>
      simp only [cmd, cmdInvite] at hm
      (repeat' split at hm) <;> first | exact .inl hm | exact .inl (sent_other (by simp) hm)
    | kick n w =>
      simp only [cmd, cmdKick] at hm
      (repeat' split at hm) <;> first | exact .inl hm | exact .inl (sent_other (by simp) hm)
    | part n =>
      simp only [cmd, cmdPart] at hm
      (repeat' split at hm) <;> first | exact .inl hm | exact .inl (sent_other (by simp) hm)
    | partForce n =>
      simp only [cmd, deleteGroup] at hm
      (repeat' split at hm) <;> exact .inl hm
    | kill n o =>
      simp only [cmd, cmdKill, deleteGroup] at hm
      (repeat' split at hm) <;> first | exact .inl hm | exact .inl (sent_other (by simp) hm)
    | message n t me =>
      simp only [cmd, cmdMessage] at hm
      (repeat' split at hm) <;> first | exact .inl hm | exact .inl (sent_other (by simp) hm)

/-- What happens to the invitations on file. -/
theorem joins_change {upper : Bytes → Bytes} {s s' : State} {e : Ev} (h : step upper s e = .ok s') :
    s'.joins = s.joins ∨ (∃ f n k flt, e = .recv f (.invite n k) flt ∧ s'.joins = s.joins.set (n, f) k) ∨
      ∃ k, s'.joins = s.joins.del k := by
  cases e with
  | meet i => cases h; exact .inl rfl
  | tick d => cases h; exact .inl rfl
  | ack n =>
    cases h
    left
    simp only [ack]
    (repeat' split) <;> rfl
  | recv f m flt =>
    cases m with
    | kill n =>
      left
      simp only [step, recv, recvKill] at h
      (repeat' split at h) <;> cases h <;> (try simp only [deleteGroup]) <;> (repeat' split) <;> rfl
    | message n g t me =>
      left
      simp only [step, recv, recvMessage] at h
      (repeat' split at h) <;> cases h <;> rfl
    | invite n k =>
      cases h
      simp only [recvInvite]
      (repeat' split) <;> first | exact .inl rfl | exact .inr (.inl ⟨f, n, k, flt, rfl, rfl⟩)
    | join n t =>
      cases h
      left
      simp only [recvJoin]
      (repeat' split) <;> rfl
    | part n =>
      cases h
      left
      simp only [recvPart]
      (repeat' split) <;> rfl
    | kick who p gl =>
      cases h
      left
      simp only [recvKick, deleteGroup, updateGroupList]
      (repeat' split) <;> rfl
    | list gl =>
      cases h
      left
      simp only [updateGroupList]
      (repeat' split) <;> rfl
    | update gl =>
      cases h
      left
      simp only [updateGroupList]
      (repeat' split) <;> rfl
  | cmd c flt =>
    cases h
    cases c with
    | join n t f =>
      simp only [cmd, cmdJoin]
      (repeat' split) <;> first | exact .inl rfl | exact .inr (.inr ⟨(n, f), rfl⟩)
    | new n d =>
      left
      simp only [cmd, cmdNew]
      (repeat' split) <;> rfl
    | invite n w t =>
      left
      simp only [cmd, cmdInvite]
      (repeat' split) <;> rfl
    | kick n w =>
      left
      simp only [cmd, cmdKick]
      (repeat' split) <;> rfl
    | part n =>
      left
      simp only [cmd, cmdPart]
      (repeat' split) <;> rfl
    | partForce n =>
      left
      simp only [cmd, deleteGroup]
      (repeat' split) <;> rfl
    | kill n o =>
      left
      simp only [cmd, cmdKill, deleteGroup]
      (repeat' split) <;> rfl
    | message n t me =>
      left
      simp only [cmd, cmdMessage]
      (repeat' split) <;> rfl

/-- An invitation that is on file is one that was received, or was there before. -/
theorem joins_step {upper : Bytes → Bytes} {s s' : State} {e : Ev} (h : step upper s e = .ok s') {name : Bytes}
    {src : Id} {i : Invite} (hj : s'.joins.get (name, src) = some i) :
    s.joins.get (name, src) = some i ∨ ∃ flt, e = .recv src (.invite name i) flt := by
  rcases joins_change h with h1 | ⟨f, n, k, flt, he, h1⟩ | ⟨k, h1⟩ <;> rw [h1] at hj
  · exact .inl hj
  · rw [GoMap.get_set] at hj
    split at hj
    · rename_i hk
      cases hk
      cases hj
      exact .inr ⟨flt, he⟩
    · exact .inl hj
  · rw [GoMap.get_del] at hj
    split at hj
    · cases hj
    · exact .inl hj

theorem joins_wf {upper : Bytes → Bytes} {G : State → Ev → Prop} {self : Id} {nick : Bytes} {s : State}
    {es : List Ev} (h : Run upper G (init self nick) es s) : GoMap.WF s.joins := by
  refine run_snoc h (fun s _ => GoMap.WF s.joins) GoMap.wf_nil ?_
  intro t t' l e hr hp hG h1
  rcases joins_change h1 with h2 | ⟨f, n, k, flt, he, h2⟩ | ⟨k, h2⟩ <;> rw [h2]
  · exact hp
  · exact GoMap.wf_set hp _ _
  · exact GoMap.wf_del hp _

/-- **C49** In every execution, a client that asked `dst` to be let into a group was told to by its user, and has
received an invitation of `dst` to that group with the token it sent. -/
theorem C49_asks {upper : Bytes → Bytes} {G : State → Ev → Prop} {self : Id} {nick : Bytes} {s : State}
    {es : List Ev} (h : Run upper G (init self nick) es s) {dst : Id} {name : Bytes} {token : Nat}
    (hm : (dst, Msg.join name token) ∈ s.out) :
    (∃ flt, .cmd (.join name token dst) flt ∈ es) ∧
      ∃ i flt, .recv dst (.invite name i) flt ∈ es ∧ i.token = token := by
  have key := run_snoc h (fun s es =>
    (∀ dst name token, (dst, Msg.join name token) ∈ s.out → (∃ flt, .cmd (.join name token dst) flt ∈ es) ∧
      ∃ i flt, .recv dst (.invite name i) flt ∈ es ∧ i.token = token) ∧
    ∀ name src i, s.joins.get (name, src) = some i → ∃ flt, .recv src (.invite name i) flt ∈ es)
    ⟨fun _ _ _ h => by simp [init] at h, fun _ _ _ h => by cases h⟩ ?_
  · exact key.1 _ _ _ hm
  · intro t t' l e hr hp hG h1
    refine ⟨fun dst name token hm => ?_, fun name src i hj => ?_⟩
    · rcases join_sent_step h1 hm with h2 | ⟨flt, i, he, hi, ht⟩
      · obtain ⟨⟨f, hf⟩, i, f', hi, ht⟩ := hp.1 _ _ _ h2
        exact ⟨⟨f, List.mem_append_left _ hf⟩, i, f', List.mem_append_left _ hi, ht⟩
      · obtain ⟨f, hf⟩ := hp.2 _ _ _ hi
        exact ⟨⟨flt, by simp [he]⟩, i, f, List.mem_append_left _ hf, ht⟩
    · rcases joins_step h1 hj with h2 | ⟨flt, he⟩
      · obtain ⟨f, hf⟩ := hp.2 _ _ _ h2
        exact ⟨f, List.mem_append_left _ hf⟩
      · exact ⟨flt, by simp [he]⟩

/-- **C49, partial.** An invitation that was used is gone from the client of the invited, if nobody else invited it to a
group of that name and nothing failed; then it can be invited again.  Missing: the case of several invitations, in
which the record stays (`C49_used_violated`). -/
theorem C49_used_partial {upper : Bytes → Bytes} {G : State → Ev → Prop} {self : Id} {nick : Bytes} {s : State}
    {es : List Ev} (h : Run upper G (init self nick) es s) {name : Bytes} {src : Id} {i : Invite}
    (hg : s.groups.get name = none) (hv : validName name = true) (hi : s.joins.get (name, src) = some i)
    (ho : ∀ f j, s.joins.get (name, f) = some j → f = src) :
    (cmd s (.join name i.token src) .none).joins.get (name, src) = none ∧
      ∀ k, k ≠ (name, src) → (cmd s (.join name i.token src) .none).joins.get k = s.joins.get k := by
  have hw := joins_wf h
  have hl : (joinsOf s.joins name).length = 1 := by
    have hm : ((name, src), i) ∈ joinsOf s.joins name :=
      List.mem_filter.2 ⟨(GoMap.mem_iff_get hw).2 hi, by simp⟩
    have hall : ∀ r ∈ joinsOf s.joins name, r.1 = (name, src) := by
      intro r hr
      obtain ⟨h1, h2⟩ := List.mem_filter.1 hr
      have h2 : r.1.1 = name := by simpa using h2
      have h3 := ho r.1.2 r.2 ((GoMap.mem_iff_get hw).1 (by rw [← h2]; exact h1))
      exact Prod.ext h2 h3
    have hn : ((joinsOf s.joins name).map Prod.fst).Nodup := hw.sublist (List.filter_sublist.map _)
    match hj : joinsOf s.joins name with
    | [] => rw [hj] at hm; cases hm
    | [_] => rfl
    | a :: b :: r =>
      rw [hj] at hall hn
      have h1 := hall a (by simp)
      have h2 := hall b (by simp)
      simp [h1, h2] at hn
  have he : (cmd s (.join name i.token src) .none).joins = s.joins.del (name, src) := by
    simp [cmd, cmdJoin, hg, hi, hv, hl, Fault.none, sendAll]
  rw [he]
  exact ⟨GoMap.get_del_self _ _, fun k hk => GoMap.get_del_ne _ (Ne.symm hk)⟩

/-- **C49, negation.** Invited by two to groups of the same name, a client that uses one invitation keeps both on file;
having left the group, and after the first has invited it again, it does not have the new invitation but the old one,
which admits nobody. -/
theorem C49_used_violated : ∃ s, Run id Any (init 0 bob)
      [.meet 1, .meet 2, .recv 1 (.invite grp ⟨11, 86400⟩) .none, .recv 2 (.invite grp ⟨22, 86400⟩) .none,
       .cmd (.join grp 11 1) .none, .cmd (.partForce grp) .none, .recv 1 (.invite grp ⟨33, 86400⟩) .none] s ∧
    s.joins.get (grp, 1) = some ⟨11, 86400⟩ ∧ (1, Msg.join grp 11) ∈ s.out :=
  ⟨after id [.meet 1, .meet 2, .recv 1 (.invite grp ⟨11, 86400⟩) .none, .recv 2 (.invite grp ⟨22, 86400⟩) .none,
       .cmd (.join grp 11 1) .none, .cmd (.partForce grp) .none, .recv 1 (.invite grp ⟨33, 86400⟩) .none],
    run_of_exec (by decide +kernel), by decide +kernel, by decide +kernel⟩

/-- C49_asks and C49_used_partial are not about nothing. -/
example : ∃ s, Run id Any (init 0 bob) [.meet 1, .recv 1 (.invite grp ⟨11, 86400⟩) .none] s ∧
    s.groups.get grp = none ∧ s.joins.get (grp, 1) = some ⟨11, 86400⟩ ∧
    (1, Msg.join grp 11) ∈ (cmd s (.join grp 11 1) .none).out ∧
    (cmd s (.join grp 11 1) .none).joins.get (grp, 1) = none ∧
    (1, Msg.join grp 12) ∉ (cmd s (.join grp 12 1) .none).out :=
  ⟨after id [.meet 1, .recv 1 (.invite grp ⟨11, 86400⟩) .none], run_of_exec (by decide +kernel), by decide +kernel,
    by decide +kernel, by decide +kernel, by decide +kernel, by decide +kernel⟩

end Verif.Groups
