import Verif.Model.ChatLog
import Verif.Proofs.Path
import Verif.Props.Hex

/-! # Chat logs: C78 -/

namespace Verif.ChatLog

open Verif Path Windows AddressBook

/-- The last component, when what follows the last slash is not empty. -/
theorem split_suffix (a : Bytes) {t : Bytes} (h : (47 : UInt8) ∉ t) : ∃ ini w, split (a ++ t) = ini ++ [w ++ t] ∧ w <:+ a := by
  induction a with
  | nil => exact ⟨[], [], by simp [split_noSlash h], List.suffix_refl _⟩
  | cons c a ih =>
    obtain ⟨ini, w, h1, h2⟩ := ih
    by_cases hc : c = 47
    · exact ⟨[] :: ini, w, by rw [List.cons_append, split, if_pos hc, h1]; rfl, h2.trans (List.suffix_cons _ _)⟩
    · cases ini with
      | nil =>
        refine ⟨[], c :: w, by rw [List.cons_append, split_cons_ne hc h1]; rfl, ?_⟩
        have hl := congrArg List.length h1
        have : split (a ++ t) = [a ++ t] ∨ (47 : UInt8) ∈ a ++ t := by
          by_cases hm : (47 : UInt8) ∈ a ++ t
          · exact .inr hm
          · exact .inl (split_noSlash hm)
        rcases this with h3 | h3
        · rw [h1] at h3
          simp only [List.nil_append, List.cons.injEq, List.append_cancel_right_eq, and_true] at h3
          rw [h3]
          exact List.suffix_refl _
        · exfalso
          have key : ∀ s : Bytes, (47 : UInt8) ∈ s → 2 ≤ (split s).length := by
            intro s
            induction s with
            | nil => intro h; simp at h
            | cons d s ihs =>
              intro hd
              by_cases hd47 : d = 47
              · rw [split, if_pos hd47]
                have := List.length_pos_iff.2 (split_ne_nil s)
                simp only [List.length_cons]
                omega
              · have hs : (47 : UInt8) ∈ s := by
                  rcases List.mem_cons.1 hd with h | h
                  · exact absurd h.symm hd47
                  · exact h
                have := ihs hs
                cases hsp : split s with
                | nil => rw [hsp] at this; simp at this
                | cons u us =>
                  rw [split_cons_ne hd47 hsp]
                  rw [hsp] at this
                  simpa using this
          have := key _ h3
          rw [hl] at this
          simp at this
      | cons u us =>
        refine ⟨(c :: u) :: us, w, ?_, h2.trans (List.suffix_cons _ _)⟩
        rw [List.cons_append, split_cons_ne hc (by rw [h1]; rfl)]
        rfl

/-- Whatever comes before it, a long enough end without slashes is the end of the last component. -/
theorem join_last (p : Path) (a : Bytes) {t : Bytes} (h : (47 : UInt8) ∉ t) (hl : 2 < t.length) :
    ∃ q w, join p (a ++ t) = q ++ [w ++ t] := by
  obtain ⟨ini, w, h1, -⟩ := split_suffix a h
  refine ⟨ini.foldl push p, w, ?_⟩
  unfold join
  rw [h1, List.foldl_append, List.foldl_cons, List.foldl_nil, push_normal]
  refine ⟨?_, ?_, ?_⟩ <;>
  · intro he
    have := congrArg List.length he
    rw [List.length_append] at this
    simp only [List.length_nil, List.length_cons] at this
    omega

theorem digit_ne (n : Nat) (h : n < 16) : Hex.digit n ≠ 46 ∧ Hex.digit n ≠ 47 := by
  have : ∀ n : Fin 16, Hex.digit n ≠ 46 ∧ Hex.digit n ≠ 47 := by decide
  exact this ⟨n, h⟩

theorem encode_ne (b : Bytes) : (46 : UInt8) ∉ Hex.encode b ∧ (47 : UInt8) ∉ Hex.encode b := by
  induction b with
  | nil => simp [Hex.encode]
  | cons c b ih =>
    have h1 := digit_ne (c.toNat / 16) (by have := c.toNat_lt; omega)
    have h2 := digit_ne (c.toNat % 16) (by omega)
    simp only [Hex.encode, List.mem_cons, not_or]
    exact ⟨⟨h1.1.symm, h2.1.symm, ih.1⟩, h1.2.symm, h2.2.symm, ih.2⟩

theorem encode_length (b : Bytes) : (Hex.encode b).length = 2 * b.length := by
  induction b with
  | nil => rfl
  | cons c b ih => simp only [Hex.encode, List.length_cons, ih]; omega

theorem dotLog_ne : (47 : UInt8) ∉ dotLog := by decide

/-- The file of a contact ends in the identity. -/
theorem logFile_contact (root : Path) {server : Bytes} {c : Conv} (hs : (47 : UInt8) ∉ server) (hg : c.group = false) :
    ∃ q w, logFile root server c = q ++ [w ++ ([46] ++ server ++ [46] ++ Hex.encode c.id.identity ++ dotLog)] := by
  unfold logFile logName
  rw [hg]
  have he : c.nick ++ [46] ++ server ++ [46] ++ Hex.encode c.id.identity ++ dotLog =
      c.nick ++ ([46] ++ server ++ [46] ++ Hex.encode c.id.identity ++ dotLog) := by simp
  simp only [Bool.false_eq_true, if_false]
  rw [he]
  refine join_last _ _ ?_ ?_
  · simp only [List.mem_append, List.mem_singleton, not_or]
    exact ⟨⟨⟨⟨by decide, hs⟩, by decide⟩, (encode_ne _).2⟩, dotLog_ne⟩
  · simp [dotLog]
    omega

theorem logFile_group (root : Path) {server : Bytes} {c : Conv} (hs : (47 : UInt8) ∉ server) (hg : c.group = true) :
    ∃ q w, logFile root server c = q ++ [w ++ ([46] ++ server ++ dotLog)] := by
  unfold logFile logName
  rw [hg]
  have he : groupPrefix ++ c.nick ++ [46] ++ server ++ dotLog = (groupPrefix ++ c.nick) ++ ([46] ++ server ++ dotLog) := by
    simp
  simp only [if_true]
  rw [he]
  refine join_last _ _ ?_ ?_
  · simp only [List.mem_append, List.mem_singleton, not_or]
    exact ⟨⟨by decide, hs⟩, dotLog_ne⟩
  · simp [dotLog]

/-- What is logged for one window leaves every other file alone. -/
theorem log_read (fs : FS) (root : Path) (server : Bytes) (c : Conv) (line : Bytes) {p : Path}
    (h : p ≠ logFile root server c) : Path.read (log fs root server c line) p = Path.read fs p := by
  unfold log
  dsimp only
  split
  · rfl
  · rename_i fs' hc
    unfold create at hc
    split at hc
    · injection hc with hc
      subst hc
      unfold Path.read
      rw [GoMap.get_set_ne _ _ (Ne.symm h)]
    · cases hc

theorem append_cancel_right {a b s t : Bytes} (h : a ++ s = b ++ t) (hl : s.length = t.length) : a = b ∧ s = t :=
  List.append_inj' h hl

/-- What is shown in the window of one contact never gets into the log of another, whatever nicks the two have chosen:
with the same length of identities, the files differ as the identities do. -/
theorem C78_contacts_separate (fs : FS) (root : Path) (server : Bytes) (hs : (47 : UInt8) ∉ server) (c d : Conv)
    (hc : c.group = false) (hd : d.group = false) (hl : c.id.identity.length = d.id.identity.length)
    (hne : c.id.identity ≠ d.id.identity) (line : Bytes) :
    logFile root server c ≠ logFile root server d ∧
    Path.read (log fs root server c line) (logFile root server d) = Path.read fs (logFile root server d) := by
  have hf : logFile root server c ≠ logFile root server d := by
    intro he
    obtain ⟨q, w, h1⟩ := logFile_contact root hs hc
    obtain ⟨q', w', h2⟩ := logFile_contact root hs hd
    rw [h1, h2] at he
    have := (List.append_inj' he (by simp)).2
    simp only [List.cons.injEq, and_true] at this
    rw [← List.append_assoc, ← List.append_assoc w'] at this
    have h3 := (List.append_inj' this rfl).1
    rw [← List.append_assoc, ← List.append_assoc w'] at h3
    have h4 := (List.append_inj' h3 (by rw [encode_length, encode_length, hl])).2
    exact hne (Hex.C20_injective _ _ h4)
  exact ⟨hf, log_read fs root server c line hf.symm⟩

/-- The part after the last dot. -/
def lastLabel (s : Bytes) : Bytes := (s.reverse.takeWhile (· ≠ 46)).reverse

theorem takeWhile_label {r s : Bytes} (h : (46 : UInt8) ∉ r) : (r ++ 46 :: s).takeWhile (fun x => decide (x ≠ 46)) = r := by
  induction r with
  | nil => simp
  | cons c r ih =>
    simp only [List.mem_cons, not_or] at h
    rw [List.cons_append, List.takeWhile_cons, ih h.2]
    simp [Ne.symm h.1]

theorem takeWhile_dot (r s : Bytes) : (r ++ 46 :: s).takeWhile (fun x => decide (x ≠ 46)) =
    r.takeWhile (fun x => decide (x ≠ 46)) := by
  induction r with
  | nil => simp
  | cons c r ih =>
    rw [List.cons_append, List.takeWhile_cons, List.takeWhile_cons, ih]

/-- What is written to a group never gets into the log of a contact, nor the other way round, if the last label of the
server's name is not as long as an identity in hexadecimal (64; labels of domain names have at most 63 bytes). -/
theorem C78_groups_contacts_separate (fs : FS) (root : Path) (server : Bytes) (hs : (47 : UInt8) ∉ server) (c d : Conv)
    (hc : c.group = false) (hd : d.group = true) (hl : (lastLabel server).length ≠ 2 * c.id.identity.length) (line : Bytes) :
    Path.read (log fs root server c line) (logFile root server d) = Path.read fs (logFile root server d) ∧
    Path.read (log fs root server d line) (logFile root server c) = Path.read fs (logFile root server c) := by
  have hf : logFile root server c ≠ logFile root server d := by
    intro he
    obtain ⟨q, w, h1⟩ := logFile_contact root hs hc
    obtain ⟨q', w', h2⟩ := logFile_group root hs hd
    rw [h1, h2] at he
    have := (List.append_inj' he (by simp)).2
    simp only [List.cons.injEq, and_true] at this
    rw [← List.append_assoc, ← List.append_assoc w'] at this
    have h3 := (List.append_inj' this rfl).1
    have h4 := congrArg (fun s => (List.takeWhile (fun x => decide (x ≠ 46)) s.reverse).length) h3
    have e1 : (w ++ ([46] ++ server ++ [46] ++ Hex.encode c.id.identity)).reverse =
        (Hex.encode c.id.identity).reverse ++ 46 :: (server.reverse ++ ([46] ++ w.reverse)) := by simp
    have e2 : (w' ++ ([46] ++ server)).reverse = server.reverse ++ 46 :: w'.reverse := by simp
    rw [e1, e2, takeWhile_label (by rw [List.mem_reverse]; exact (encode_ne _).1), takeWhile_dot, List.length_reverse,
      encode_length] at h4
    apply hl
    unfold lastLabel
    rw [List.length_reverse]
    exact h4.symm
  exact ⟨log_read fs root server c line hf.symm, log_read fs root server d line hf⟩

/-- What is shown in a window is appended to its log, if the directory of the file exists and the file is none. -/
theorem C78_appended (fs : FS) (root : Path) (server : Bytes) (c : Conv) (line : Bytes)
    (h : isDir fs (logFile root server c).dropLast) (hn : fs.get (logFile root server c) ≠ some .dir)
    (h0 : logFile root server c ≠ []) :
    Path.read (log fs root server c line) (logFile root server c) =
      some ((Path.read fs (logFile root server c)).getD [] ++ line ++ [10]) := by
  unfold log
  dsimp only
  unfold create
  rw [if_pos ⟨h0, h, hn⟩]
  unfold Path.read
  rw [GoMap.get_set_self]

/-- The log of a window whose nick has no slash is a file in the log directory. Missing for the full claim: other nicks
(next theorem). -/
theorem C78_inside_partial (root : Path) (server : Bytes) (hs : (47 : UInt8) ∉ server) (c : Conv) (hn : (47 : UInt8) ∉ c.nick) :
    logFile root server c = root ++ [logsDir, logName server c] := by
  have hname : (47 : UInt8) ∉ logName server c := by
    unfold logName
    split <;> simp only [List.mem_append, List.mem_singleton, not_or]
    · exact ⟨⟨⟨⟨by decide, hn⟩, by decide⟩, hs⟩, dotLog_ne⟩
    · exact ⟨⟨⟨⟨⟨hn, by decide⟩, hs⟩, by decide⟩, (encode_ne _).2⟩, dotLog_ne⟩
  have hlen : 2 < (logName server c).length := by
    unfold logName
    split <;> simp [dotLog] <;> omega
  unfold logFile join
  rw [split_noSlash hname, List.foldl_cons, List.foldl_nil, push_normal]
  · simp
  · refine ⟨?_, ?_, ?_⟩ <;>
    · intro he
      rw [he] at hlen
      simp at hlen

/-- Groups whose names have no slashes have different logs. -/
theorem C78_groups_separate_partial (root : Path) (server : Bytes) (hs : (47 : UInt8) ∉ server) (c d : Conv)
    (hc : c.group = true) (hd : d.group = true) (hcn : (47 : UInt8) ∉ c.nick) (hdn : (47 : UInt8) ∉ d.nick)
    (hne : c.nick ≠ d.nick) : logFile root server c ≠ logFile root server d := by
  rw [C78_inside_partial root server hs c hcn, C78_inside_partial root server hs d hdn]
  intro he
  have h1 := (List.append_inj' he rfl).2
  simp only [List.cons.injEq, true_and, and_true] at h1
  unfold logName at h1
  rw [hc, hd] at h1
  simp only [if_true] at h1
  have h2 := (List.append_inj' h1 rfl).1
  have h3 := (List.append_inj' h2 rfl).1
  have h4 := (List.append_inj' h3 rfl).1
  exact hne (List.append_cancel_left h4)

/-- "/r", the directory of the examples, and "s", the server. -/
def rootR : Path := [[114]]
def srv : Bytes := [115]

/-- A contact with the nick "../../x". -/
def climber : Conv := ⟨⟨[46, 46, 47, 46, 46, 47, 120], [1], 0⟩, [46, 46, 47, 46, 46, 47, 120], false, []⟩

/-- **Violated.** The nick of a contact is "../../x". The log of that window is outside of the client's directory. -/
theorem C78_inside_violated : ∃ fs, logFile rootR srv climber = [[120, 46, 115, 46, 48, 49, 46, 108, 111, 103]] ∧
    ¬ rootR <+: logFile rootR srv climber ∧
    Path.read (log fs rootR srv climber [104, 105]) [[120, 46, 115, 46, 48, 49, 46, 108, 111, 103]] = some [104, 105, 10] :=
  ⟨[([[114]], .dir), ([[114], logsDir], .dir)], by decide +kernel, by decide +kernel, by decide +kernel⟩

/-- **Violated.** A group with the name "x/../groupchat.b" is logged to the file of the group "b". -/
theorem C78_groups_violated : ∃ c d : Conv, c.group = true ∧ d.group = true ∧ c.nick ≠ d.nick ∧
    logFile rootR srv c = logFile rootR srv d :=
  ⟨⟨groupId [98], [98], true, []⟩, ⟨groupId ([120, 47, 46, 46, 47] ++ groupPrefix ++ [98]),
    [120, 47, 46, 46, 47] ++ groupPrefix ++ [98], true, []⟩, rfl, rfl, by decide, by decide +kernel⟩

/-- An instance of `C78_contacts_separate`, one of the nicks with a slash. -/
example : let bob : Conv := ⟨⟨[98], [2], 0⟩, [98], false, []⟩
    logFile rootR srv climber ≠ logFile rootR srv bob ∧
    Path.read (log [([[114]], .dir), ([[114], logsDir], .dir)] rootR srv bob [104]) (logFile rootR srv bob) = some [104, 10] ∧
    Path.read (log [([[114]], .dir), ([[114], logsDir], .dir)] rootR srv bob [104]) (logFile rootR srv climber) = none := by
  decide +kernel

/-- An instance of `C78_groups_contacts_separate`: the label "s" is short. -/
example : (lastLabel srv).length ≠ 2 * climber.id.identity.length ∧ lastLabel [97, 46, 98, 99] = [98, 99] := by decide

end Verif.ChatLog
