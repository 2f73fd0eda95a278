import Verif.Model.Residue
import Verif.Props.Commands

/-! # What is left on the disk of what was typed and received: C126 -/

namespace Verif.Residue

open Verif Commands

/-- The lines that are typed, as lines. -/
def typedLines : List Ev → Bytes
  | [] => []
  | .enter [] _ :: es => typedLines es
  | .enter (c :: l) _ :: es => (c :: l) ++ [10] ++ typedLines es
  | _ :: es => typedLines es

/-- The lines the console shows. -/
def shown : List Ev → List Bytes
  | [] => []
  | .console l :: es => l :: shown es
  | _ :: es => shown es

theorem dbg_hist (s : State) (b : List Bytes) : (s.dbg b).hist = s.hist ∧ (s.dbg b).debug = s.debug := by
  unfold State.dbg; split <;> exact ⟨rfl, rfl⟩

theorem dbg_off {s : State} (h : s.debug = false) (b : List Bytes) : s.dbg b = s := by
  unfold State.dbg; rw [if_neg (by simp [h])]

theorem step_hist {s s' : State} {e : Ev} (h : step s e = some s') :
    s'.hist.saves = s.hist.saves ∧ s'.debug = s.debug ∧
    s'.hist.file = s.hist.file ++ (if s.hist.saves then typedLines [e] else []) := by
  cases e with
  | enter cmd error =>
    cases cmd with
    | nil => simp only [step, if_true] at h; cases h; simp [typedLines]
    | cons c l =>
      simp only [step, reduceCtorEq, if_false, Hist.key, Option.map_some, Option.some.injEq] at h
      subst h
      cases error with
      | none => cases hs : s.hist.saves <;> simp [typedLines]
      | some e =>
        simp only [dbg_hist]
        cases hs : s.hist.saves <;> simp [typedLines]
  | up =>
    simp only [step, Hist.key] at h
    split at h
    · cases h; simp [typedLines]
    · split at h <;> cases h; simp [typedLines]
  | down =>
    simp only [step, Hist.key] at h
    split at h
    · cases h; simp [typedLines]
    · split at h <;> cases h; simp [typedLines]
  | restart => cases h; simp [Hist.start, typedLines]
  | console l => cases h; simp [typedLines]
  | wrote t c => cases h; simp [dbg_hist, typedLines]
  | asked p c =>
    simp only [step, Option.some.injEq] at h
    subst h
    split <;> simp [dbg_hist, typedLines]
  | received k f c => cases h; simp [dbg_hist, typedLines]
  | offered a b => cases h; simp [dbg_hist, typedLines]

theorem typedLines_cons (e : Ev) (es : List Ev) : typedLines (e :: es) = typedLines [e] ++ typedLines es := by
  cases e with
  | enter cmd error => cases cmd <;> simp [typedLines]
  | _ => simp [typedLines]

/-- C126.  The history file has every line that was typed, text as well as commands, and nothing of what was received; or
nothing, if it is switched off. -/
theorem C126_history {s s' : State} {es : List Ev} (h : run s es = some s') :
    s'.hist.file = s.hist.file ++ (if s.hist.saves then typedLines es else []) := by
  induction es generalizing s with
  | nil => cases h; simp [typedLines]
  | cons e es ih =>
    simp only [run, Option.bind_eq_some_iff] at h
    obtain ⟨m, hm, h⟩ := h
    obtain ⟨h1, -, h3⟩ := step_hist hm
    rw [ih h, h1, h3, typedLines_cons e es]
    cases s.hist.saves <;> simp

/-- The place in the history is in it. -/
def Ok (s : State) : Prop := s.hist.pos ≤ s.hist.lines.length

theorem step_ok {s : State} (h : Ok s) (e : Ev) : ∃ s', step s e = some s' ∧ Ok s' := by
  unfold Ok at *
  cases e with
  | enter cmd error =>
    simp only [step]
    split
    · exact ⟨_, rfl, h⟩
    · next hc =>
      simp only [Hist.key, if_neg hc, Option.map_some]
      cases error with
      | none => exact ⟨_, rfl, by simp⟩
      | some e => exact ⟨_, rfl, by simp [dbg_hist]⟩
  | up =>
    simp only [step, Hist.key]
    split
    · exact ⟨_, rfl, h⟩
    · next h0 =>
      rw [List.getElem?_eq_getElem (by omega)]
      exact ⟨_, rfl, by simp; omega⟩
  | down =>
    simp only [step, Hist.key]
    split
    · exact ⟨_, rfl, by simp⟩
    · next h0 =>
      rw [List.getElem?_eq_getElem (by omega)]
      exact ⟨_, rfl, by simp; omega⟩
  | restart => exact ⟨_, rfl, by simp [Hist.start]⟩
  | console l => exact ⟨_, rfl, h⟩
  | wrote t c => exact ⟨_, rfl, by simpa [dbg_hist] using h⟩
  | asked p c =>
    refine ⟨_, rfl, ?_⟩
    split
    · exact h
    · simpa [dbg_hist] using h
  | received k f c => exact ⟨_, rfl, by simpa [dbg_hist] using h⟩
  | offered a b => exact ⟨_, rfl, by simpa [dbg_hist] using h⟩

/-- C126.  The client goes on whatever is typed and received: what is said of runs is said of all sequences of events. -/
theorem C126_runs {s : State} (h : Ok s) (es : List Ev) : ∃ s', run s es = some s' := by
  induction es generalizing s with
  | nil => exact ⟨_, rfl⟩
  | cons e es ih =>
    obtain ⟨m, hm, ho⟩ := step_ok h e
    obtain ⟨s', hs⟩ := ih ho
    exact ⟨s', by simp [run, hm, hs]⟩

/-- C126.  With `debug` off the log has what the console showed, and nothing of what was typed, sent or received besides. -/
theorem C126_log_partial {s s' : State} {es : List Ev} (hd : s.debug = false) (h : run s es = some s') :
    s'.log = s.log ++ (shown es).map fun l => ⟨.log, [l]⟩ := by
  induction es generalizing s with
  | nil => cases h; simp [shown]
  | cons e es ih =>
    simp only [run, Option.bind_eq_some_iff] at h
    obtain ⟨m, hm, h⟩ := h
    obtain ⟨-, h2, -⟩ := step_hist hm
    rw [ih (by rw [h2, hd]) h]
    cases e with
    | enter cmd error =>
      simp only [step] at hm
      split at hm
      · cases hm; rfl
      · next hc =>
        simp only [Hist.key, if_neg hc, Option.map_some, Option.some.injEq] at hm
        subst hm
        cases error with
        | none => rfl
        | some e =>
          show (State.dbg _ _).log ++ _ = _
          rw [dbg_off (by exact hd)]
          rfl
    | up =>
      simp only [step, Option.map_eq_some_iff] at hm
      obtain ⟨_, _, rfl⟩ := hm
      rfl
    | down =>
      simp only [step, Option.map_eq_some_iff] at hm
      obtain ⟨_, _, rfl⟩ := hm
      rfl
    | restart => cases hm; rfl
    | console l => cases hm; simp [shown]
    | wrote t c => simp only [step, Option.some.injEq, dbg_off hd] at hm; subst hm; rfl
    | asked p c => simp only [step, Option.some.injEq, dbg_off hd, ite_self] at hm; subst hm; rfl
    | received k f c => simp only [step, Option.some.injEq, dbg_off hd] at hm; subst hm; rfl
    | offered a b => simp only [step, Option.some.injEq, dbg_off hd] at hm; subst hm; rfl

/-- C126.  With both settings off nothing that is typed, sent or received gets to either file; this is the default. -/
theorem C126_off_partial {s s' : State} {es : List Ev} (hs : s.hist.saves = false) (hd : s.debug = false)
    (hc : ∀ l, Ev.console l ∉ es) (h : run s es = some s') : s'.hist.file = s.hist.file ∧ s'.log = s.log := by
  refine ⟨by rw [C126_history h, hs]; simp, ?_⟩
  rw [C126_log_partial hd h]
  have : shown es = [] := by
    clear h
    induction es with
    | nil => rfl
    | cons e es ih =>
      have ih := ih fun l hl => hc l (List.mem_cons_of_mem _ hl)
      cases e <;> first | exact ih | exact absurd List.mem_cons_self (hc _)
  rw [this]
  simp

theorem run_append {s : State} {a b : List Ev} : run s (a ++ b) = (run s a).bind fun m => run m b := by
  induction a generalizing s with
  | nil => rfl
  | cons e a ih =>
    simp only [List.cons_append, run]
    cases step s e with
    | none => rfl
    | some m => exact ih

/-- Commands but not text: not so.  Text that is typed to a contact or a group is in the history file, for good. -/
theorem C126_text_violated {s s' : State} {es fs : List Ev} {c : UInt8} {text : Bytes} {error : Option Bytes}
    (hs : s.hist.saves = true) (_ : c ≠ 47) (h : run s (es ++ .enter (c :: text) error :: fs) = some s') :
    (c :: text) <:+: s'.hist.file := by
  have happ : ∀ xs ys, typedLines (xs ++ ys) = typedLines xs ++ typedLines ys := by
    intro xs ys
    induction xs with
    | nil => rfl
    | cons x xs ih => rw [List.cons_append, typedLines_cons, ih, ← List.append_assoc, ← typedLines_cons]
  rw [C126_history h, hs, if_pos rfl, happ, typedLines_cons]
  refine ⟨s.hist.file ++ typedLines es, [10] ++ typedLines fs, ?_⟩
  simp [typedLines]

theorem split_parts (s : Bytes) : ∃ w ws, Text.split s = w :: ws ∧ w <+: s ∧ ∀ v ∈ ws, v <:+: s := by
  induction s with
  | nil => exact ⟨[], [], rfl, List.prefix_refl _, by simp⟩
  | cons c s ih =>
    obtain ⟨w, ws, he, hw, hs⟩ := ih
    by_cases hc : c = 32
    · subst hc
      refine ⟨[], w :: ws, by simp [Text.split, he], List.nil_prefix, fun v hv => ?_⟩
      rcases List.mem_cons.mp hv with rfl | hv
      · exact hw.isInfix.trans (List.suffix_cons _ _).isInfix
      · exact (hs v hv).trans (List.suffix_cons _ _).isInfix
    · refine ⟨c :: w, ws, by simp [Text.split, he, hc], List.prefix_cons_inj c |>.mpr hw, fun v hv => ?_⟩
      exact (hs v hv).trans (List.suffix_cons _ _).isInfix

theorem split_infix (s v : Bytes) (h : v ∈ Text.split s) : v <:+: s := by
  obtain ⟨w, ws, he, hw, hs⟩ := split_parts s
  rw [he] at h
  rcases List.mem_cons.mp h with rfl | h
  · exact hw.isInfix
  · exact hs v h

/-- Not even what is in commands: text, and the PINs of key exchanges. -/
theorem C126_command_violated (low : Bytes → Bytes) {s s' : State} {cmd t : Bytes} {error : Option Bytes}
    (hs : s.hist.saves = true)
    (hp : (∃ n, parse low cmd = .msg n t) ∨ (∃ g, parse low cmd = .gcMsg g t) ∨ (∃ g, parse low cmd = .gcMe g t) ∨
      parse low cmd = .me t ∨ parse low cmd = .fetch t)
    (h : step s (.enter cmd error) = some s') : t <:+: s'.hist.file := by
  have hi : t <:+: cmd := by
    have ha := C98_asked low cmd
    rcases hp with ⟨n, hp⟩ | ⟨g, hp⟩ | ⟨g, hp⟩ | hp | hp <;> rw [hp] at ha
    · exact ha.2
    · exact ha.2
    · exact ha.2
    · exact ha.2
    · have ha : Text.split cmd = [c_fetch, t] := ha
      exact split_infix cmd t (by rw [ha]; simp)
  refine hi.trans ?_
  obtain ⟨-, -, h3⟩ := step_hist h
  rw [h3, hs, if_pos rfl]
  cases cmd with
  | nil => exact List.nil_infix
  | cons c l => exact ⟨s.hist.file, [10], by simp [typedLines]⟩

theorem log_grows {s s' : State} {es : List Ev} (h : run s es = some s') : s.log <+: s'.log := by
  induction es generalizing s with
  | nil => cases h; exact List.prefix_refl _
  | cons e es ih =>
    simp only [run, Option.bind_eq_some_iff] at h
    obtain ⟨m, hm, h⟩ := h
    refine List.IsPrefix.trans ?_ (ih h)
    have hd : ∀ (x : State) b, x.log = s.log → s.log <+: (x.dbg b).log := by
      intro x b hx
      unfold State.dbg
      split
      · exact ⟨_, by rw [← hx]⟩
      · rw [hx]; exact List.prefix_refl _
    cases e with
    | enter cmd error =>
      simp only [step] at hm
      split at hm
      · cases hm; exact List.prefix_refl _
      · next hc =>
        simp only [Hist.key, if_neg hc, Option.map_some, Option.some.injEq] at hm
        subst hm
        cases error with
        | none => exact List.prefix_refl _
        | some e => exact hd _ _ rfl
    | up =>
      simp only [step, Option.map_eq_some_iff] at hm
      obtain ⟨_, _, rfl⟩ := hm
      exact List.prefix_refl _
    | down =>
      simp only [step, Option.map_eq_some_iff] at hm
      obtain ⟨_, _, rfl⟩ := hm
      exact List.prefix_refl _
    | restart => cases hm; exact List.prefix_refl _
    | console l => cases hm; exact ⟨_, rfl⟩
    | wrote t c => cases hm; exact hd _ _ rfl
    | asked p c =>
      cases hm
      split
      · exact List.prefix_refl _
      · exact hd _ _ rfl
    | received k f c => cases hm; exact hd _ _ rfl
    | offered a b =>
      cases hm
      unfold State.dbg
      split
      · exact ⟨_, (List.append_assoc _ _ _).symm⟩
      · exact List.prefix_refl _

/-- With `debug` on the log has all that is sent, and all that is received but pieces of files, in the clear and for good. -/
theorem C126_debug_violated {s m s' : State} {es : List Ev} {e : Ev} {content : Bytes} (hd : s.debug = true)
    (he : (∃ t, e = .wrote t content) ∨ (∃ k f, e = .received k f content ∧ k ≠ .chunk ∧ k ≠ .janitorMessage))
    (hm : step s e = some m) (h : run m es = some s') : ∃ l ∈ s'.log, content ∈ l.holds := by
  have key : ∃ l ∈ m.log, content ∈ l.holds := by
    rcases he with ⟨t, rfl⟩ | ⟨k, f, rfl, h1, h2⟩
    · cases hm
      refine ⟨⟨.dbg, [t, content]⟩, ?_, by simp⟩
      simp [State.dbg, hd]
    · cases hm
      refine ⟨⟨.dbg, [f, content]⟩, ?_, by simp⟩
      have : k.dumped = true := by cases k <;> simp_all [Kind.dumped]
      simp [State.dbg, hd, this]
  obtain ⟨l, hl, hc⟩ := key
  exact ⟨l, (log_grows h).subset hl, hc⟩

/-- With `debug` on the log has the key of every key exchange that is begun with somebody from the directory, for good: who
reads the log reads what was sent, as does who was to get it. -/
theorem C126_key_violated {s m s' : State} {es : List Ev} {nk nc : Bytes} (hd : s.debug = true)
    (hm : step s (.offered nk nc) = some m) (h : run m es = some s') : ∃ l ∈ s'.log, nk ∈ l.holds := by
  cases hm
  refine ⟨⟨.dbg, [nk]⟩, (log_grows h).subset ?_, by simp⟩
  simp [State.dbg, hd]

/-- What an event puts into the log if `debug` is on. -/
def debugLines : Ev → List Line
  | .enter (_ :: _) (some e) => [⟨.dbg, [e]⟩]
  | .console l => [⟨.log, [l]⟩]
  | .wrote t c => [⟨.dbg, [t, c]⟩]
  | .asked false c => [⟨.dbg, [c]⟩]
  | .received .chunk f _ => [⟨.dbg, [f]⟩]
  | .received .janitorMessage f _ => [⟨.dbg, [f]⟩]
  | .received _ f c => [⟨.dbg, [f, c]⟩]
  | .offered nk nc => [⟨.dbg, [nk]⟩, ⟨.dbg, [nc]⟩]
  | _ => []

/-- C126.  With `debug` on the log has just these lines, in the order in which things happened. -/
theorem C126_debug {s s' : State} {es : List Ev} (hd : s.debug = true) (h : run s es = some s') :
    s'.log = s.log ++ es.flatMap debugLines := by
  induction es generalizing s with
  | nil => cases h; simp
  | cons e es ih =>
    simp only [run, Option.bind_eq_some_iff] at h
    obtain ⟨m, hm, h⟩ := h
    obtain ⟨-, h2, -⟩ := step_hist hm
    rw [ih (by rw [h2, hd]) h, List.flatMap_cons, ← List.append_assoc]
    congr 1
    cases e with
    | enter cmd error =>
      cases cmd with
      | nil => simp only [step, if_true] at hm; cases hm; simp [debugLines]
      | cons c l =>
        simp only [step, reduceCtorEq, if_false, Hist.key, Option.map_some, Option.some.injEq] at hm
        subst hm
        cases error with
        | none => simp [debugLines]
        | some e => simp [debugLines, State.dbg, hd]
    | up =>
      simp only [step, Option.map_eq_some_iff] at hm
      obtain ⟨_, _, rfl⟩ := hm
      simp [debugLines]
    | down =>
      simp only [step, Option.map_eq_some_iff] at hm
      obtain ⟨_, _, rfl⟩ := hm
      simp [debugLines]
    | restart => cases hm; simp [debugLines]
    | console l => cases hm; simp [debugLines]
    | wrote t c => cases hm; simp [debugLines, State.dbg, hd]
    | asked p c => cases hm; cases p <;> simp [debugLines, State.dbg, hd]
    | received k f c => cases hm; cases k <;> simp [debugLines, State.dbg, hd, Kind.dumped]
    | offered a b => cases hm; simp [debugLines, State.dbg, hd]

/-! ## Examples -/

/-- The client as it is started. -/
def start (saves debug : Bool) : State := ⟨Hist.start saves [], debug, []⟩

example (saves debug : Bool) : Ok (start saves debug) := by simp [Ok, start, Hist.start]

/-- With `savehistory`: "hi" and "/m bob yo" are typed, and a message comes. -/
example : (run (start true false) [.enter [104, 105] none, .received .privateMessage [1] [2],
    .enter [47, 109, 32, 98, 111, 98, 32, 121, 111] none, .restart, .up]).map (fun s => (s.hist.file, s.log, s.hist.edit)) =
    some ([104, 105, 10, 47, 109, 32, 98, 111, 98, 32, 121, 111, 10], [], [47, 109, 32, 98, 111, 98, 32, 121, 111]) := by
  decide +kernel

example : parse id [47, 109, 32, 98, 111, 98, 32, 121, 111] = .msg [98, 111, 98] [121, 111] := by decide +kernel

/-- With `debug`: messages that are sent and received are in the log; the piece of a file is not. -/
example : (run (start false true) [.wrote [1] [7], .received .privateMessage [1] [8], .received .chunk [1] [9],
    .console [5]]).map (·.log) = some [⟨.dbg, [[1], [7]]⟩, ⟨.dbg, [[1], [8]]⟩, ⟨.dbg, [[1]]⟩, ⟨.log, [[5]]⟩] := by decide

/-- Without both: nothing. -/
example : (run (start false false) [.enter [104, 105] (some [3]), .wrote [1] [7], .asked false [6],
    .received .privateMessage [1] [8]]).map (fun s => (s.hist.file, s.log)) = some ([], []) := by decide +kernel

end Verif.Residue
