import Verif.Model.Dialogs
import Mathlib.Data.List.Induction

/-! # C123: the windows in which keys are exchanged

What each window was told is what was typed into it; nobody is accepted but who was shown when the user said yes.  A fetched
blob, however, may be lost to another one. -/

namespace Verif.Dialogs

open Verif

set_option linter.unusedSimpArgs false

/-! ## What the user did, told by the events alone -/

/-- The key, if the event is one and it is pressed while a window has the focus. -/
def pressedAt (s : State) (x : Win) : Event → List Key
  | .key k _ => if s.focus = x then [k] else []
  | _ => []

/-- The keys that were pressed while a window had the focus. -/
def pressed (w : World) (s : State) (x : Win) : List Event → List Key
  | [] => []
  | e :: es => pressedAt s x e ++ pressed w (step w s e) x es

/-- The last blob that the server sent. -/
def lastReply (es : List Event) : Option Bytes :=
  (es.filterMap fun e => match e with | .reply (some b) => some b | _ => none).getLast?

/-- What is in an editor after some keys. -/
def typed (ks : List Key) : Bytes := ks.foldl edit []

/-- What is in an editor that one key empties. -/
def typedSince (c : Key) (ks : List Key) : Bytes := ks.foldl (fun t k => if k = c then [] else edit t k) []

/-- The user entered the password of the last blob that came, and it opened to this person. -/
def Entered (w : World) (s0 : State) (es : List Event) (p : Person) (dk : Nat) : Prop :=
  ∃ es1 f es2 b, es = es1 ++ .key .enter f :: es2 ∧ (run w s0 es1).focus = .accept ∧ lastReply es1 = some b ∧
    w.opens (typedSince .f10 (pressed w s0 .accept es1)) b = some (p, dk)

/-- The user was shown this person and nobody else, typed yes into the very window, and pressed Enter. -/
def Agreed (w : World) (s0 : State) (es : List Event) (p : Person) (dk : Nat) : Prop :=
  ∃ es1 f es2 n d, es = es1 ++ .key .enter f :: es2 ∧ (run w s0 es1).focus = .client n ∧
    (run w s0 es1).dialogs[n]? = some d ∧ d.who = p ∧ d.dk = dk ∧
    lower (typed (pressed w s0 (.client n) es1)) = yes ∧ Entered w s0 es1 p dk

/-- The person for whom something was done. -/
def person : Out → Option Person
  | .offer p _ _ => some p
  | .saved p => some p
  | .kept p _ => some p
  | .half p _ => some p
  | .accepted p => some p
  | _ => none

/-- The key with which it was done. -/
def keyOf : Out → Option Nat
  | .offer _ dk _ => some dk
  | .kept _ dk => some dk
  | _ => none

/-! ## Lemmas -/

theorem run_snoc (w : World) (s : State) (es : List Event) (e : Event) :
    run w s (es ++ [e]) = step w (run w s es) e := by
  simp [run, List.foldl_append]

theorem run_append (w : World) (s : State) (es es' : List Event) :
    run w s (es ++ es') = run w (run w s es) es' := by
  simp [run, List.foldl_append]

theorem pressed_snoc (w : World) (s : State) (x : Win) (es : List Event) (e : Event) :
    pressed w s x (es ++ [e]) = pressed w s x es ++ pressedAt (run w s es) x e := by
  induction es generalizing s with
  | nil => simp [pressed, run]
  | cons a es ih =>
    rw [List.cons_append, pressed, ih, pressed, List.append_assoc]
    rfl

theorem lastReply_snoc (es : List Event) (e : Event) :
    lastReply (es ++ [e]) = match e with | .reply (some b) => some b | _ => lastReply es := by
  unfold lastReply
  rw [List.filterMap_append]
  cases e with
  | reply r => cases r <;> simp
  | _ => simp

theorem Entered.mono {w : World} {s0 : State} {es : List Event} {p : Person} {dk : Nat} (e : Event)
    (h : Entered w s0 es p dk) : Entered w s0 (es ++ [e]) p dk := by
  obtain ⟨es1, f, es2, b, rfl, h⟩ := h
  exact ⟨es1, f, es2 ++ [e], b, by simp, h⟩

theorem Agreed.mono {w : World} {s0 : State} {es : List Event} {p : Person} {dk : Nat} (e : Event)
    (h : Agreed w s0 es p dk) : Agreed w s0 (es ++ [e]) p dk := by
  obtain ⟨es1, f, es2, n, d, rfl, h⟩ := h
  exact ⟨es1, f, es2 ++ [e], n, d, by simp, h⟩

theorem typed_snoc (ks : List Key) (k : Key) : typed (ks ++ [k]) = edit (typed ks) k := by
  simp [typed, List.foldl_append]

theorem typedSince_snoc (c : Key) (ks : List Key) (k : Key) :
    typedSince c (ks ++ [k]) = if k = c then [] else edit (typedSince c ks) k := by
  simp [typedSince, List.foldl_append]

/-! ### What a step does to each part -/

theorem step_reply (w : World) (s : State) (e : Event) :
    (step w s e).reply = match e with | .reply (some b) => some b | _ => s.reply := by
  cases e with
  | key k f =>
    simp only [step]
    split
    · cases k <;> simp only [mainKey] <;> repeat' split
      all_goals simp_all [edit]
    · cases k <;> simp only [kxKey] <;> repeat' split
      all_goals simp_all [edit]
    · cases k <;> simp only [acceptKey] <;> repeat' split
      all_goals simp_all [edit]
    · cases k <;> simp only [clientKey, agree] <;> repeat' split
      all_goals simp_all [edit]
  | reply r => cases r <;> simp [step]
  | prev => simp only [step, conv]; repeat' split
            all_goals simp_all
  | next => simp only [step, conv]; repeat' split
            all_goals simp_all
  | jump d => simp only [step, conv]; split <;> simp_all
  | online b => simp [step]
  | book i b => simp [step]

theorem step_line (w : World) (s : State) (e : Event) :
    (step w s e).line = (pressedAt s .main e).foldl (fun t k => if k = .enter then [] else edit t k) s.line := by
  cases e with
  | key k f =>
    simp only [step]
    split
    · cases k <;> simp only [mainKey] <;> repeat' split
      all_goals simp_all [edit, pressedAt]
    · cases k <;> simp only [kxKey] <;> repeat' split
      all_goals simp_all [edit, pressedAt]
    · cases k <;> simp only [acceptKey] <;> repeat' split
      all_goals simp_all [edit, pressedAt]
    · cases k <;> simp only [clientKey, agree] <;> repeat' split
      all_goals simp_all [edit, pressedAt]
  | reply r => cases r <;> simp [step, pressedAt]
  | prev => simp only [step, conv]; repeat' split
            all_goals simp_all [pressedAt]
  | next => simp only [step, conv]; repeat' split
            all_goals simp_all [pressedAt]
  | jump d => simp only [step, conv]; split <;> simp_all [pressedAt]
  | online b => simp [step, pressedAt]
  | book i b => simp [step, pressedAt]

theorem step_pw (w : World) (s : State) (e : Event) :
    (step w s e).pwText = (pressedAt s .accept e).foldl (fun t k => if k = .f10 then [] else edit t k) s.pwText := by
  cases e with
  | key k f =>
    simp only [step]
    split
    · cases k <;> simp only [mainKey] <;> repeat' split
      all_goals simp_all [edit, pressedAt]
    · cases k <;> simp only [kxKey] <;> repeat' split
      all_goals simp_all [edit, pressedAt]
    · cases k <;> simp only [acceptKey] <;> repeat' split
      all_goals simp_all [edit, pressedAt]
    · cases k <;> simp only [clientKey, agree] <;> repeat' split
      all_goals simp_all [edit, pressedAt]
  | reply r => cases r <;> simp [step, pressedAt]
  | prev => simp only [step, conv]; repeat' split
            all_goals simp_all [pressedAt]
  | next => simp only [step, conv]; repeat' split
            all_goals simp_all [pressedAt]
  | jump d => simp only [step, conv]; split <;> simp_all [pressedAt]
  | online b => simp [step, pressedAt]
  | book i b => simp [step, pressedAt]

theorem step_kx (w : World) (s : State) (e : Event) :
    (step w s e).kxText = [] ∨ (step w s e).kxText = (pressedAt s .kx e).foldl edit s.kxText := by
  cases e with
  | key k f =>
    simp only [step]
    split
    · cases k <;> simp only [mainKey] <;> repeat' split
      all_goals simp_all [edit, pressedAt]
    · cases k <;> simp only [kxKey] <;> repeat' split
      all_goals simp_all [edit, pressedAt]
    · cases k <;> simp only [acceptKey] <;> repeat' split
      all_goals simp_all [edit, pressedAt]
    · cases k <;> simp only [clientKey, agree] <;> repeat' split
      all_goals simp_all [edit, pressedAt]
  | reply r => cases r <;> simp [step, pressedAt]
  | prev => simp only [step, conv]; repeat' split
            all_goals simp_all [pressedAt]
  | next => simp only [step, conv]; repeat' split
            all_goals simp_all [pressedAt]
  | jump d => simp only [step, conv]; split <;> simp_all [pressedAt]
  | online b => simp [step, pressedAt]
  | book i b => simp [step, pressedAt]

theorem step_active (w : World) (s : State) (e : Event) :
    (step w s e).active = s.active ∨ e = .prev ∨ e = .next ∨ ∃ d, e = .jump d := by
  cases e with
  | key k f =>
    simp only [step]
    split
    · cases k <;> simp only [mainKey] <;> repeat' split
      all_goals simp_all [edit]
    · cases k <;> simp only [kxKey] <;> repeat' split
      all_goals simp_all [edit]
    · cases k <;> simp only [acceptKey] <;> repeat' split
      all_goals simp_all [edit]
    · cases k <;> simp only [clientKey, agree] <;> repeat' split
      all_goals simp_all [edit]
  | reply r => cases r <;> simp [step]
  | prev => simp only [step, conv]; repeat' split
            all_goals simp_all
  | next => simp only [step, conv]; repeat' split
            all_goals simp_all
  | jump d => simp only [step, conv]; split <;> simp_all
  | online b => simp [step]
  | book i b => simp [step]

theorem step_count (w : World) (s : State) (e : Event) : (step w s e).count = s.count := by
  cases e with
  | key k f =>
    simp only [step]
    split
    · cases k <;> simp only [mainKey] <;> repeat' split
      all_goals simp_all [edit]
    · cases k <;> simp only [kxKey] <;> repeat' split
      all_goals simp_all [edit]
    · cases k <;> simp only [acceptKey] <;> repeat' split
      all_goals simp_all [edit]
    · cases k <;> simp only [clientKey, agree] <;> repeat' split
      all_goals simp_all [edit]
  | reply r => cases r <;> simp [step]
  | prev => simp only [step, conv]; repeat' split
            all_goals simp_all
  | next => simp only [step, conv]; repeat' split
            all_goals simp_all
  | jump d => simp only [step, conv]; split <;> simp_all
  | online b => simp [step]
  | book i b => simp [step]

theorem step_key_active (w : World) (s : State) (k : Key) (f : Fault) : (step w s (.key k f)).active = s.active := by
  simp only [step]
  split
  · cases k <;> simp only [mainKey] <;> repeat' split
    all_goals simp_all [edit]
  · cases k <;> simp only [kxKey] <;> repeat' split
    all_goals simp_all [edit]
  · cases k <;> simp only [acceptKey] <;> repeat' split
    all_goals simp_all [edit]
  · cases k <;> simp only [clientKey, agree] <;> repeat' split
    all_goals simp_all [edit]

theorem step_rounds (w : World) (s : State) (e : Event) : s.rounds ≤ (step w s e).rounds := by
  cases e with
  | key k f =>
    simp only [step]
    split
    · cases k <;> simp only [mainKey] <;> repeat' split
      all_goals simp_all [edit]
    · cases k <;> simp only [kxKey] <;> repeat' split
      all_goals simp_all [edit]
    · cases k <;> simp only [acceptKey] <;> repeat' split
      all_goals simp_all [edit]
    · cases k <;> simp only [clientKey, agree] <;> repeat' split
      all_goals simp_all [edit]
  | reply r => cases r <;> simp [step]
  | prev => simp only [step, conv]; repeat' split
            all_goals simp_all
  | next => simp only [step, conv]; repeat' split
            all_goals simp_all
  | jump d => simp only [step, conv]; split <;> simp_all
  | online b => simp [step]
  | book i b => simp [step]

/-- The dialogs: a new one is added when a password opens the blob; what is typed goes to the one that has the focus. -/
theorem step_dialogs (w : World) (s : State) (e : Event) :
    (step w s e).dialogs = s.dialogs ∨
    (∃ f b p dk, e = .key .enter f ∧ s.focus = .accept ∧ s.reply = some b ∧ w.opens s.pwText b = some (p, dk) ∧
      p.id ≠ w.self ∧ s.book p.id = false ∧ (step w s e).dialogs = s.dialogs ++ [⟨p, dk, []⟩] ∧
      (step w s e).focus = .client s.dialogs.length ∧ (step w s e).book = s.book) ∨
    (∃ k f n d, e = .key k f ∧ s.focus = .client n ∧ s.dialogs[n]? = some d ∧ k ≠ .enter ∧
      (step w s e).dialogs = s.dialogs.set n { d with text := edit d.text k } ∧ (step w s e).focus = s.focus) := by
  cases e with
  | key k f =>
    simp only [step]
    split
    · cases k <;> simp only [mainKey] <;> repeat' split
      all_goals simp_all [edit]
    · cases k <;> simp only [kxKey] <;> repeat' split
      all_goals simp_all [edit]
    · cases k <;> simp only [acceptKey] <;> repeat' split
      all_goals simp_all [edit]
    · cases k <;> simp only [clientKey, agree] <;> repeat' split
      all_goals simp_all [edit]
  | reply r => cases r <;> simp [step]
  | prev => simp only [step, conv]; repeat' split
            all_goals simp_all
  | next => simp only [step, conv]; repeat' split
            all_goals simp_all
  | jump d => simp only [step, conv]; split <;> simp_all
  | online b => simp [step]
  | book i b => simp [step]

/-- The focus: it goes to a dialog only when the dialog is made. -/
theorem step_focus (w : World) (s : State) (e : Event) :
    (step w s e).focus = s.focus ∨ (∃ b, e = .reply (some b) ∧ (step w s e).focus = .accept) ∨
    (∃ k f, e = .key k f ∧ (k = .enter ∨ k = .f10) ∧
      ((step w s e).focus = .main ∨ (step w s e).focus = .kx ∨
        (step w s e).focus = .client s.dialogs.length ∧ (step w s e).dialogs.length = s.dialogs.length + 1)) := by
  cases e with
  | key k f =>
    simp only [step]
    split
    · cases k <;> simp only [mainKey] <;> repeat' split
      all_goals simp_all [edit]
    · cases k <;> simp only [kxKey] <;> repeat' split
      all_goals simp_all [edit]
    · cases k <;> simp only [acceptKey] <;> repeat' split
      all_goals simp_all [edit]
    · cases k <;> simp only [clientKey, agree] <;> repeat' split
      all_goals simp_all [edit]
  | reply r => cases r <;> simp [step]
  | prev => simp only [step, conv]; repeat' split
            all_goals simp_all
  | next => simp only [step, conv]; repeat' split
            all_goals simp_all
  | jump d => simp only [step, conv]; split <;> simp_all
  | online b => simp [step]
  | book i b => simp [step]

/-- How something may come to leave the windows when Enter is pressed. -/
def Made (s : State) : Out → Prop
  | .line l => s.focus = .main ∧ l = s.line
  | .fetch _ => s.focus = .main
  | .blob pw => s.focus = .kx ∧ pw = s.kxText
  | .blobKey pw => s.focus = .kx ∧ pw = s.kxText
  | .rejected p => ∃ n d, s.focus = .client n ∧ s.dialogs[n]? = some d ∧ d.who = p ∧ lower d.text ≠ yes
  | .offer p dk _ => ∃ n d, s.focus = .client n ∧ s.dialogs[n]? = some d ∧ d.who = p ∧ d.dk = dk ∧ lower d.text = yes
  | .kept p dk => ∃ n d, s.focus = .client n ∧ s.dialogs[n]? = some d ∧ d.who = p ∧ d.dk = dk ∧ lower d.text = yes
  | .saved p => ∃ n d, s.focus = .client n ∧ s.dialogs[n]? = some d ∧ d.who = p ∧ lower d.text = yes
  | .half p _ => ∃ n d, s.focus = .client n ∧ s.dialogs[n]? = some d ∧ d.who = p ∧ lower d.text = yes
  | .accepted p => ∃ n d, s.focus = .client n ∧ s.dialogs[n]? = some d ∧ d.who = p ∧ lower d.text = yes

theorem step_out (w : World) (s : State) (e : Event) (o : Out) :
    o ∈ (step w s e).out → o ∈ s.out ∨ (∃ f, e = .key .enter f) ∧ Made s o := by
  cases e with
  | key k f =>
    simp only [step]
    split
    · cases k <;> simp only [mainKey] <;> repeat' split
      all_goals intro h; simp_all [Made]
      all_goals grind [Made]
    · cases k <;> simp only [kxKey] <;> repeat' split
      all_goals intro h; simp_all [Made]
      all_goals grind [Made]
    · cases k <;> simp only [acceptKey] <;> repeat' split
      all_goals intro h; simp_all [Made]
    · cases k <;> simp only [clientKey, agree] <;> repeat' split
      all_goals intro h; simp_all [Made]
      all_goals grind [Made, person, keyOf]
  | reply r => cases r <;> simp [step]
  | prev => simp only [step, conv]; repeat' split
            all_goals simp_all
  | next => simp only [step, conv]; repeat' split
            all_goals simp_all
  | jump d => simp only [step, conv]; split <;> simp_all
  | online b => simp [step]
  | book i b => simp [step]

/-! ### What holds in every state -/

section
variable (w : World) (bk : Nat → Bool) (c : Nat)

theorem reached_reply (es : List Event) : (run w (start bk c) es).reply = lastReply es := by
  induction es using List.reverseRecOn with
  | nil => rfl
  | append_singleton es e ih => rw [run_snoc, step_reply, lastReply_snoc, ih]

theorem reached_line (es : List Event) :
    (run w (start bk c) es).line = typedSince .enter (pressed w (start bk c) .main es) := by
  induction es using List.reverseRecOn with
  | nil => rfl
  | append_singleton es e ih =>
    rw [run_snoc, step_line, pressed_snoc, ih, typedSince, typedSince, List.foldl_append]

theorem reached_pw (es : List Event) :
    (run w (start bk c) es).pwText = typedSince .f10 (pressed w (start bk c) .accept es) := by
  induction es using List.reverseRecOn with
  | nil => rfl
  | append_singleton es e ih =>
    rw [run_snoc, step_pw, pressed_snoc, ih, typedSince, typedSince, List.foldl_append]

theorem reached_kx (es : List Event) : ∃ ks1 ks2, pressed w (start bk c) .kx es = ks1 ++ ks2 ∧
    (run w (start bk c) es).kxText = typed ks2 := by
  induction es using List.reverseRecOn with
  | nil => exact ⟨[], [], rfl, rfl⟩
  | append_singleton es e ih =>
    obtain ⟨ks1, ks2, h1, h2⟩ := ih
    rw [run_snoc, pressed_snoc, h1]
    rcases step_kx w (run w (start bk c) es) e with h | h
    · exact ⟨_, [], (List.append_nil _).symm, h⟩
    · refine ⟨ks1, ks2 ++ pressedAt (run w (start bk c) es) .kx e, by simp, ?_⟩
      rw [h, h2, typed, typed, List.foldl_append]

theorem reached_focus (es : List Event) (n : Nat) (h : (run w (start bk c) es).focus = .client n) :
    n < (run w (start bk c) es).dialogs.length := by
  induction es using List.reverseRecOn with
  | nil => cases h
  | append_singleton es e ih =>
    rw [run_snoc] at h ⊢
    generalize run w (start bk c) es = s at *
    have hl : s.dialogs.length ≤ (step w s e).dialogs.length := by
      rcases step_dialogs w s e with h | ⟨_, _, _, _, _, _, _, _, _, _, h, _⟩ | ⟨_, _, _, _, _, _, _, _, h, _⟩ <;> simp [h]
    rcases step_focus w s e with h1 | ⟨b, _, h1⟩ | ⟨k, f, _, _, h1 | h1 | h1⟩
    · exact Nat.lt_of_lt_of_le (ih (h1 ▸ h)) hl
    · rw [h1] at h; cases h
    · rw [h1] at h; cases h
    · rw [h1] at h; cases h
    · rw [h1.1] at h; cases h; omega

theorem reached_asks (es : List Event) (h : (run w (start bk c) es).focus = .accept) :
    ∃ b, (run w (start bk c) es).reply = some b := by
  induction es using List.reverseRecOn with
  | nil => cases h
  | append_singleton es e ih =>
    rw [run_snoc] at h ⊢
    generalize run w (start bk c) es = s at *
    rw [step_reply]
    rcases step_focus w s e with h1 | ⟨b, rfl, h1⟩ | ⟨k, f, _, _, h1 | h1 | h1⟩
    · obtain ⟨b, hb⟩ := ih (h1 ▸ h)
      split
      · exact ⟨_, rfl⟩
      · exact ⟨b, hb⟩
    · exact ⟨b, rfl⟩
    · rw [h1] at h; cases h
    · rw [h1] at h; cases h
    · rw [h1.1] at h; cases h

theorem fresh_pressed (es : List Event) (n : Nat) (h : (run w (start bk c) es).dialogs.length ≤ n) :
    pressed w (start bk c) (.client n) es = [] := by
  induction es using List.reverseRecOn with
  | nil => rfl
  | append_singleton es e ih =>
    rw [run_snoc] at h
    rw [pressed_snoc]
    have hf := reached_focus w bk c es n
    generalize run w (start bk c) es = s at *
    have hl : s.dialogs.length ≤ (step w s e).dialogs.length := by
      rcases step_dialogs w s e with h | ⟨_, _, _, _, _, _, _, _, _, _, h, _⟩ | ⟨_, _, _, _, _, _, _, _, h, _⟩ <;> simp [h]
    rw [ih (by omega)]
    cases e with
    | key k f =>
      simp only [pressedAt, List.nil_append]
      rw [if_neg]
      intro h'
      have := hf h'
      omega
    | _ => rfl

theorem reached_text (es : List Event) (n : Nat) (d : Dialog) (h : (run w (start bk c) es).dialogs[n]? = some d) :
    d.text = typed (pressed w (start bk c) (.client n) es) := by
  induction es using List.reverseRecOn generalizing d with
  | nil => simp [run, start] at h
  | append_singleton es e ih =>
    rw [run_snoc] at h
    rw [pressed_snoc]
    have hf := fresh_pressed w bk c es n
    generalize hs : run w (start bk c) es = s at *
    rcases step_dialogs w s e with h1 | ⟨f, b, p, dk, rfl, h2, _, _, _, _, h1, _⟩ | ⟨k, f, m, d', rfl, h2, h3, hk, h1, _⟩
    · rw [h1] at h
      rw [typed, List.foldl_append, ← typed, ← ih d h]
      cases e with
      | key k f =>
        simp only [pressedAt]
        split
        case isFalse => rfl
        case isTrue hx =>
          cases k with
          | char x =>
            exfalso
            simp only [step, hx, clientKey, h] at h1
            have := congrArg (fun l => (l[n]?).map Dialog.text) h1
            simp [List.getElem?_set, edit, (List.getElem?_eq_some_iff.1 h).1, (List.getElem?_eq_some_iff.1 h).2] at this
          | back =>
            simp only [step, hx, clientKey, h] at h1
            have := congrArg (fun l => (l[n]?).map Dialog.text) h1
            simp only [List.getElem?_set, (List.getElem?_eq_some_iff.1 h).1, h, if_true, Option.map_some,
              Option.some.injEq] at this
            exact this.symm
          | enter => rfl
          | f10 => rfl
      | _ => rfl
    · rw [h1, List.getElem?_append] at h
      simp only [pressedAt, h2]
      rw [if_neg (by simp), List.append_nil]
      split at h
      · exact ih d h
      · rw [hf (by omega)]
        rw [List.getElem?_singleton] at h
        split at h <;> simp at h
        rw [← h]; rfl
    · rw [h1, List.getElem?_set] at h
      simp only [pressedAt, h2, Win.client.injEq]
      split at h
      · rename_i hm
        subst hm
        split at h <;> simp at h
        rw [if_pos rfl, typed_snoc, ← ih d' h3, ← h]
      · rename_i hm
        rw [if_neg (by omega), List.append_nil]
        exact ih d h

theorem reached_origin (es : List Event) (n : Nat) (d : Dialog) (h : (run w (start bk c) es).dialogs[n]? = some d) :
    Entered w (start bk c) es d.who d.dk := by
  induction es using List.reverseRecOn generalizing d with
  | nil => simp [run, start] at h
  | append_singleton es e ih =>
    rw [run_snoc] at h
    have hr := reached_reply w bk c es
    have hp := reached_pw w bk c es
    rcases step_dialogs w (run w (start bk c) es) e with h1 | ⟨f, b, p, dk, rfl, h2, h3, h4, _, _, h1, _⟩ |
      ⟨k, f, m, d', rfl, h2, h3, hk, h1, _⟩
    · rw [h1] at h
      exact (ih d h).mono e
    · rw [h1, List.getElem?_append] at h
      split at h
      · exact (ih d h).mono _
      · rw [List.getElem?_singleton] at h
        split at h <;> simp at h
        subst h
        exact ⟨es, f, [], b, rfl, h2, hr ▸ h3, hp ▸ h4⟩
    · rw [h1, List.getElem?_set] at h
      split at h
      · split at h <;> simp at h
        rename_i hm _
        subst hm
        rw [← h]
        exact (ih d' h3).mono _
      · exact (ih d h).mono _

end

theorem step_book (w : World) (s : State) (e : Event) :
    (step w s e).book = s.book ∨ (∃ i b, e = .book i b) ∨ (step w s e).focus = .main := by
  cases e with
  | key k f =>
    simp only [step]
    split
    · cases k <;> simp only [mainKey] <;> repeat' split
      all_goals simp_all [edit]
    · cases k <;> simp only [kxKey] <;> repeat' split
      all_goals simp_all [edit]
    · cases k <;> simp only [acceptKey] <;> repeat' split
      all_goals simp_all [edit]
    · cases k <;> simp only [clientKey, agree] <;> repeat' split
      all_goals simp_all [edit]
  | reply r => cases r <;> simp [step]
  | prev => simp only [step, conv]; repeat' split
            all_goals simp_all
  | next => simp only [step, conv]; repeat' split
            all_goals simp_all
  | jump d => simp only [step, conv]; split <;> simp_all
  | online b => simp [step]
  | book i b => simp [step]

theorem step_crash (w : World) (s : State) (e : Event) (h : (step w s e).crashed = true) :
    s.crashed = true ∨ (s.focus = .accept ∧ s.reply = none) ∨ ∃ n, s.focus = .client n ∧ s.dialogs[n]? = none := by
  revert h
  cases e with
  | key k f =>
    simp only [step]
    split
    · cases k <;> simp only [mainKey] <;> repeat' split
      all_goals simp_all [edit]
    · cases k <;> simp only [kxKey] <;> repeat' split
      all_goals simp_all [edit]
    · cases k <;> simp only [acceptKey] <;> repeat' split
      all_goals simp_all [edit]
    · cases k <;> simp only [clientKey, agree] <;> repeat' split
      all_goals simp_all [edit]
  | reply r => cases r <;> exact fun h => .inl h
  | prev => simp only [step, conv]; repeat' split
            all_goals simp_all
  | next => simp only [step, conv]; repeat' split
            all_goals simp_all
  | jump d => simp only [step, conv]; split <;> simp_all
  | online b => exact fun h => .inl h
  | book i b => exact fun h => .inl h

def roundOf : Out → Option Nat
  | .offer _ _ r => some r
  | _ => none

theorem step_offers (w : World) (s : State) (e : Event) :
    ∃ new, (step w s e).out = s.out ++ new ∧
      ((new.filterMap roundOf = [] ∧ (step w s e).rounds = s.rounds) ∨
        (new.filterMap roundOf = [s.rounds] ∧ (step w s e).rounds = s.rounds + 1)) := by
  cases e with
  | key k f =>
    simp only [step]
    split
    · cases k <;> simp only [mainKey] <;> repeat' split
      all_goals simp_all [edit, roundOf]
    · cases k <;> simp only [kxKey] <;> repeat' split
      all_goals simp_all [edit, roundOf]
    · cases k <;> simp only [acceptKey] <;> repeat' split
      all_goals simp_all [edit, roundOf]
    · cases k <;> simp only [clientKey, agree] <;> repeat' split
      all_goals simp_all [edit, roundOf]
  | reply r => cases r <;> simp [step]
  | prev => simp only [step, conv]; repeat' split
            all_goals simp_all
  | next => simp only [step, conv]; repeat' split
            all_goals simp_all
  | jump d => simp only [step, conv]; split <;> simp_all
  | online b => simp [step]
  | book i b => simp [step]

/-- What the step in which the user says yes makes, when nothing fails. -/
theorem step_whole (w : World) (s : State) (e : Event) (hf : ∀ k f, e = .key k f → f = .none)
    (hb : ∀ n d, s.focus = .client n → s.dialogs[n]? = some d → s.book d.who.id = false)
    (p : Person) (dk r : Nat) (h : Out.offer p dk r ∈ (step w s e).out) :
    Out.offer p dk r ∈ s.out ∨
      (Out.saved p ∈ (step w s e).out ∧ Out.kept p dk ∈ (step w s e).out ∧ Out.half p r ∈ (step w s e).out) := by
  revert h
  cases e with
  | key k f =>
    simp only [step]
    split
    · cases k <;> simp only [mainKey] <;> repeat' split
      all_goals simp_all [edit]
    · cases k <;> simp only [kxKey] <;> repeat' split
      all_goals simp_all [edit]
    · cases k <;> simp only [acceptKey] <;> repeat' split
      all_goals simp_all [edit]
    · cases k <;> simp only [clientKey, agree] <;> repeat' split
      all_goals simp_all [edit]
      rintro (h | ⟨rfl, rfl, rfl⟩)
      · exact .inl h
      · exact .inr ⟨.inr rfl, .inr ⟨rfl, rfl⟩, .inr ⟨rfl, rfl⟩⟩
  | reply r => cases r <;> exact fun h => .inl h
  | prev => simp only [step, conv]; repeat' split
            all_goals simp_all
  | next => simp only [step, conv]; repeat' split
            all_goals simp_all
  | jump d => simp only [step, conv]; split <;> simp_all
  | online b => exact fun h => .inl h
  | book i b => exact fun h => .inl h

/-! ## The theorems -/

/-- Whoever is sent an offer, or has anything written about them to the disk, was shown to the user, who typed yes into that
very window and pressed Enter; and the user was shown them since the password that was typed for the last blob that came
opened it to this person.  The offer is sealed with the key of that password. -/
theorem C123_agreed (w : World) (bk : Nat → Bool) (c : Nat) (es : List Event) (o : Out) (p : Person)
    (h : o ∈ (run w (start bk c) es).out) (hp : person o = some p) :
    ∃ dk, (∀ k, keyOf o = some k → k = dk) ∧ Agreed w (start bk c) es p dk := by
  induction es using List.reverseRecOn with
  | nil => simp [run, start] at h
  | append_singleton es e ih =>
    rw [run_snoc] at h
    rcases step_out w _ e o h with h | ⟨⟨f, rfl⟩, hm⟩
    · obtain ⟨dk, h1, h2⟩ := ih h
      exact ⟨dk, h1, h2.mono e⟩
    · have key : ∀ n d, (run w (start bk c) es).focus = .client n → (run w (start bk c) es).dialogs[n]? = some d →
          lower d.text = yes → Agreed w (start bk c) (es ++ [.key .enter f]) d.who d.dk := by
        intro n d h1 h2 h3
        rw [reached_text w bk c es n d h2] at h3
        exact ⟨es, f, [], n, d, rfl, h1, h2, rfl, rfl, h3, reached_origin w bk c es n d h2⟩
      cases o with
      | offer q k r =>
        obtain ⟨n, d, h1, h2, rfl, rfl, h3⟩ := hm
        obtain rfl : d.who = p := by simpa [person] using hp
        exact ⟨d.dk, by simp [keyOf], key n d h1 h2 h3⟩
      | kept q k =>
        obtain ⟨n, d, h1, h2, rfl, rfl, h3⟩ := hm
        obtain rfl : d.who = p := by simpa [person] using hp
        exact ⟨d.dk, by simp [keyOf], key n d h1 h2 h3⟩
      | saved q =>
        obtain ⟨n, d, h1, h2, rfl, h3⟩ := hm
        obtain rfl : d.who = p := by simpa [person] using hp
        exact ⟨d.dk, by simp [keyOf], key n d h1 h2 h3⟩
      | half q r =>
        obtain ⟨n, d, h1, h2, rfl, h3⟩ := hm
        obtain rfl : d.who = p := by simpa [person] using hp
        exact ⟨d.dk, by simp [keyOf], key n d h1 h2 h3⟩
      | accepted q =>
        obtain ⟨n, d, h1, h2, rfl, h3⟩ := hm
        obtain rfl : d.who = p := by simpa [person] using hp
        exact ⟨d.dk, by simp [keyOf], key n d h1 h2 h3⟩
      | line l => cases hp
      | fetch l => cases hp
      | blob l => cases hp
      | blobKey l => cases hp
      | rejected l => cases hp

/-- Every line that is acted on is what was typed into the main window since Enter was last pressed there. -/
theorem C123_line (w : World) (bk : Nat → Bool) (c : Nat) (es : List Event) (l : Bytes)
    (h : Out.line l ∈ (run w (start bk c) es).out) :
    ∃ es1 f es2, es = es1 ++ .key .enter f :: es2 ∧ (run w (start bk c) es1).focus = .main ∧
      l = typedSince .enter (pressed w (start bk c) .main es1) := by
  induction es using List.reverseRecOn with
  | nil => simp [run, start] at h
  | append_singleton es e ih =>
    rw [run_snoc] at h
    rcases step_out w _ e _ h with h | ⟨⟨f, rfl⟩, hm⟩
    · obtain ⟨es1, f, es2, rfl, h'⟩ := ih h
      exact ⟨es1, f, es2 ++ [e], by simp, h'⟩
    · exact ⟨es, f, [], rfl, hm.1, by rw [hm.2, reached_line]⟩

/-- The own identity goes to the server only under a password that was typed, without a break, into the window for it. -/
theorem C123_own (w : World) (bk : Nat → Bool) (c : Nat) (es : List Event) (pw : Bytes)
    (h : Out.blob pw ∈ (run w (start bk c) es).out) :
    ∃ es1 f es2 ks1 ks2, es = es1 ++ .key .enter f :: es2 ∧ (run w (start bk c) es1).focus = .kx ∧
      pressed w (start bk c) .kx es1 = ks1 ++ ks2 ∧ pw = typed ks2 := by
  induction es using List.reverseRecOn with
  | nil => simp [run, start] at h
  | append_singleton es e ih =>
    rw [run_snoc] at h
    rcases step_out w _ e _ h with h | ⟨⟨f, rfl⟩, hm⟩
    · obtain ⟨es1, f, es2, ks1, ks2, rfl, h'⟩ := ih h
      exact ⟨es1, f, es2 ++ [e], ks1, ks2, by simp, h'⟩
    · obtain ⟨ks1, ks2, h1, h2⟩ := reached_kx w bk c es
      exact ⟨es, f, [], ks1, ks2, rfl, hm.1, h1, by rw [hm.2, h2]⟩

/-- A person is said to be rejected only if they were shown and something other than yes was typed. -/
theorem C123_rejected (w : World) (bk : Nat → Bool) (c : Nat) (es : List Event) (p : Person)
    (h : Out.rejected p ∈ (run w (start bk c) es).out) :
    ∃ es1 f es2 n d, es = es1 ++ .key .enter f :: es2 ∧ (run w (start bk c) es1).focus = .client n ∧
      (run w (start bk c) es1).dialogs[n]? = some d ∧ d.who = p ∧
      lower (typed (pressed w (start bk c) (.client n) es1)) ≠ yes := by
  induction es using List.reverseRecOn with
  | nil => simp [run, start] at h
  | append_singleton es e ih =>
    rw [run_snoc] at h
    rcases step_out w _ e _ h with h | ⟨⟨f, rfl⟩, n, d, h1, h2, h3, h4⟩
    · obtain ⟨es1, f, es2, n, d, rfl, h'⟩ := ih h
      exact ⟨es1, f, es2 ++ [e], n, d, by simp, h'⟩
    · rw [reached_text w bk c es n d h2] at h4
      exact ⟨es, f, [], n, d, rfl, h1, h2, h3, h4⟩

/-- No key and no answer of the server makes the client crash. -/
theorem C123_no_crash (w : World) (bk : Nat → Bool) (c : Nat) (es : List Event) :
    (run w (start bk c) es).crashed = false := by
  induction es using List.reverseRecOn with
  | nil => rfl
  | append_singleton es e ih =>
    rw [run_snoc]
    cases h : (step w (run w (start bk c) es) e).crashed with
    | false => rfl
    | true =>
      rcases step_crash w _ e h with h | ⟨h1, h2⟩ | ⟨n, h1, h2⟩
      · rw [h] at ih; cases ih
      · obtain ⟨b, hb⟩ := reached_asks w bk c es h1
        rw [hb] at h2; cases h2
      · have := reached_focus w bk c es n h1
        rw [List.getElem?_eq_none_iff] at h2
        omega

/-- The focus moves only when the user presses Enter or F10, or when the server sends a blob. -/
theorem C123_focus (w : World) (s : State) (e : Event) (h : (step w s e).focus ≠ s.focus) :
    (∃ f, e = .key .enter f ∨ e = .key .f10 f) ∨ ∃ b, e = .reply (some b) ∧ (step w s e).focus = .accept := by
  rcases step_focus w s e with h1 | h1 | ⟨k, f, rfl, rfl | rfl, _⟩
  · exact absurd h1 h
  · exact .inr h1
  · exact .inl ⟨f, .inl rfl⟩
  · exact .inl ⟨f, .inr rfl⟩

/-- An empty line does nothing. -/
theorem C123_empty (w : World) (s : State) (f : Fault) (hf : s.focus = .main) (hl : s.line = []) :
    step w s (.key .enter f) = s := by
  simp [step, hf, mainKey, hl]

/-- Without a connection the window of `/kx` does not come, nothing is fetched, no blob, key or offer is sent or kept, and
nobody is accepted: there are only lines of the user, and people whom they reject. -/
theorem C123_offline (w : World) (s : State) (e : Event) (ho : s.online = false) :
    ((step w s e).focus = .kx → s.focus = .kx) ∧
      ∀ o ∈ (step w s e).out, o ∈ s.out ∨ (∃ l, o = .line l) ∨ ∃ p, o = .rejected p := by
  cases e with
  | key k f =>
    simp only [step]
    cases hf : s.focus with
    | main =>
      cases k <;> simp only [mainKey, hf] <;> try exact ⟨fun h => h, fun o h => .inl h⟩
      split
      · rw [hf]; exact ⟨fun h => h, fun o h => .inl h⟩
      · split <;> simp only [ho, Bool.false_eq_true, if_false, hf] <;> refine ⟨fun h => h, fun o h => ?_⟩ <;>
          rcases List.mem_append.mp h with h | h
        · exact .inl h
        · exact .inr (.inl ⟨_, List.mem_singleton.mp h⟩)
        · exact .inl h
        · exact .inr (.inl ⟨_, List.mem_singleton.mp h⟩)
        · exact .inl h
        · exact .inr (.inl ⟨_, List.mem_singleton.mp h⟩)
    | kx =>
      refine ⟨fun _ => rfl, fun o h => ?_⟩
      cases k <;> simp only [kxKey, ho, Bool.not_false, if_true] at h <;> exact .inl h
    | accept =>
      cases k <;> simp only [acceptKey, hf] <;> try exact ⟨fun h => h, fun o h => .inl h⟩
      · split
        · simp only [hf]; exact ⟨fun h => h, fun o h => .inl h⟩
        · split
          · rw [hf]; exact ⟨fun h => h, fun o h => .inl h⟩
          · split
            · rw [hf]; exact ⟨fun h => h, fun o h => .inl h⟩
            · split
              · rw [hf]; exact ⟨fun h => h, fun o h => .inl h⟩
              · exact ⟨fun h => (by cases h), fun o h => .inl h⟩
      · exact ⟨fun h => (by cases h), fun o h => .inl h⟩
    | client n =>
      simp only [clientKey]
      split
      · simp only [hf]; exact ⟨fun h => h, fun o h => .inl h⟩
      · split
        · split
          · simp only [agree, ho, Bool.not_false, if_true, hf]; exact ⟨fun h => h, fun o h => .inl h⟩
          · refine ⟨fun h => (by cases h), fun o h => ?_⟩
            rcases List.mem_append.mp h with h | h
            · exact .inl h
            · exact .inr (.inr ⟨_, List.mem_singleton.mp h⟩)
        · simp only [hf]; exact ⟨fun h => h, fun o h => .inl h⟩
  | prev => simp only [step, conv]; split <;> split <;> exact ⟨fun h => h, fun o h => .inl h⟩
  | next => simp only [step, conv]; split <;> split <;> exact ⟨fun h => h, fun o h => .inl h⟩
  | jump d => simp only [step, conv]; split <;> exact ⟨fun h => h, fun o h => .inl h⟩
  | reply r =>
    cases r with
    | none => exact ⟨fun h => h, fun o h => .inl h⟩
    | some b => exact ⟨fun h => (by cases h), fun o h => .inl h⟩
  | online b => exact ⟨fun h => h, fun o h => .inl h⟩
  | book i b => exact ⟨fun h => h, fun o h => .inl h⟩

/-- Enter in the window of `/kx`, with a connection: the blob is sent, and unless the disk fails its key is kept, the edit
is emptied and the window goes. -/
theorem C123_blob (w : World) (s : State) (f : Fault) (hf : s.focus = .kx) (ho : s.online = true) :
    (f ≠ .key → (step w s (.key .enter f)).out = s.out ++ [.blob s.kxText, .blobKey s.kxText] ∧
      (step w s (.key .enter f)).focus = .main) ∧
    (f = .key → (step w s (.key .enter f)).out = s.out ++ [.blob s.kxText] ∧ (step w s (.key .enter f)).focus = .kx ∧
      (step w s (.key .enter f)).kxText = s.kxText) := by
  refine ⟨fun h => ?_, fun h => ?_⟩
  · simp [step, hf, kxKey, ho, h]
  · simp [step, hf, kxKey, ho, h]

/-- The password of one blob is not the beginning of that of the next: when the window of `/kx` goes its edit is empty, and
stays so until the window comes again, unless a blob that was fetched has taken the focus. -/
theorem C123_emptied (w : World) (s : State) (e : Event) :
    (s.focus = .kx → (step w s e).focus ≠ .kx → (step w s e).kxText = [] ∨ ∃ b, e = .reply (some b)) ∧
      (s.focus ≠ .kx → (step w s e).kxText = s.kxText) := by
  cases e with
  | key k f =>
    simp only [step]
    cases hf : s.focus with
    | main =>
      refine ⟨fun h => (by cases h), fun _ => ?_⟩
      cases k <;> simp only [mainKey] <;> try rfl
      split
      · rfl
      · split <;> (try split) <;> rfl
    | kx =>
      refine ⟨fun _ h => ?_, fun h => absurd rfl h⟩
      cases k <;> simp only [kxKey, hf] at h ⊢ <;> try exact absurd trivial h
      · exact absurd rfl h
      · exact absurd rfl h
      · split at h
        · exact absurd hf h
        · split at h
          · exact absurd rfl h
          · rename_i h1 h2
            rw [if_neg h1, if_neg h2]
            exact .inl rfl
      · exact .inl trivial
    | accept =>
      refine ⟨fun h => (by cases h), fun _ => ?_⟩
      cases k <;> simp only [acceptKey] <;> try rfl
      split
      · rfl
      · split
        · rfl
        · split
          · rfl
          · split <;> rfl
    | client n =>
      refine ⟨fun h => (by cases h), fun _ => ?_⟩
      simp only [clientKey]
      split
      · rfl
      · split
        · split
          · simp only [agree]
            split
            · rfl
            · split
              · rfl
              · split
                · rfl
                · split <;> rfl
          · rfl
        · rfl
  | prev => simp only [step, conv]; split <;> split <;> exact ⟨fun h h' => absurd h h', fun _ => rfl⟩
  | next => simp only [step, conv]; split <;> split <;> exact ⟨fun h h' => absurd h h', fun _ => rfl⟩
  | jump d => simp only [step, conv]; split <;> exact ⟨fun h h' => absurd h h', fun _ => rfl⟩
  | reply r =>
    cases r with
    | none => exact ⟨fun h h' => absurd h h', fun _ => rfl⟩
    | some b => exact ⟨fun _ _ => .inr ⟨b, rfl⟩, fun _ => rfl⟩
  | online b => exact ⟨fun h h' => absurd h h', fun _ => rfl⟩
  | book i b => exact ⟨fun h h' => absurd h h', fun _ => rfl⟩

/-- A window that asks about a person and has lost the focus never has it again. -/
theorem C123_gone (w : World) (s : State) (n : Nat) (hn : n < s.dialogs.length) (h : s.focus ≠ .client n)
    (es : List Event) : n < (run w s es).dialogs.length ∧ (run w s es).focus ≠ .client n := by
  induction es using List.reverseRecOn with
  | nil => exact ⟨hn, h⟩
  | append_singleton es e ih =>
    rw [run_snoc]
    generalize run w s es = t at *
    obtain ⟨ih1, ih2⟩ := ih
    have hl : t.dialogs.length ≤ (step w t e).dialogs.length := by
      rcases step_dialogs w t e with h | ⟨_, _, _, _, _, _, _, _, _, _, h, _⟩ | ⟨_, _, _, _, _, _, _, _, h, _⟩ <;> simp [h]
    refine ⟨by omega, ?_⟩
    rcases step_focus w t e with h1 | ⟨b, _, h1⟩ | ⟨k, f, _, _, h1 | h1 | h1⟩
    · rw [h1]; exact ih2
    · rw [h1]; simp
    · rw [h1]; simp
    · rw [h1]; simp
    · rw [h1.1]; simp; omega

/-- From every window the user gets back to the main window with at most two keys. -/
theorem C123_back (w : World) (bk : Nat → Bool) (c : Nat) (es : List Event) :
    ∃ ks : List Key, ks.length ≤ 2 ∧
      (run w (run w (start bk c) es) (ks.map fun k => .key k .none)).focus = .main := by
  have hf := reached_focus w bk c es
  generalize run w (start bk c) es = s at *
  cases h : s.focus with
  | main => exact ⟨[], by simp, h⟩
  | kx => exact ⟨[.f10], by simp, by simp [run, step, h, kxKey]⟩
  | accept => exact ⟨[.f10], by simp, by simp [run, step, h, acceptKey]⟩
  | client n =>
    have hn := hf n h
    have hd : s.dialogs[n]? = some s.dialogs[n] := List.getElem?_eq_getElem hn
    by_cases hy : lower s.dialogs[n].text = yes
    · refine ⟨[.char 0, .enter], by simp, ?_⟩
      have hl : lower (s.dialogs[n].text ++ [0]) ≠ yes := by
        intro h'
        have h1 := congrArg List.length hy
        have h2 := congrArg List.length h'
        simp [lower, yes] at h1 h2
        omega
      simp [run, step, h, clientKey, hd, edit, List.getElem?_set, hn, hl]
    · exact ⟨[.enter], by simp, by simp [run, step, h, clientKey, hd, hy]⟩

/-- Ctrl-N goes round all conversations. -/
theorem C123_around (w : World) (s : State) (k : Nat) (h : s.active < s.count) :
    (run w s (List.replicate k .next)).active = (s.active + k) % s.count := by
  induction k with
  | zero => simp [run, Nat.mod_eq_of_lt h]
  | succ k ih =>
    rw [List.replicate_succ', run_snoc]
    have hc : (run w s (List.replicate k .next)).count = s.count := by
      generalize List.replicate k Event.next = es
      induction es using List.reverseRecOn with
      | nil => rfl
      | append_singleton es e ih => rw [run_snoc, step_count, ih]
    generalize run w s (List.replicate k .next) = t at *
    have hp : 0 < s.count := by omega
    have hlt := Nat.mod_lt (s.active + k) hp
    rw [← ih] at hlt
    rw [show s.active + (k + 1) = s.active + k + 1 by omega, Nat.add_mod, ← ih]
    simp only [step, conv]
    by_cases h1 : s.count = 1
    · simp [hc, h1, Nat.mod_one]
    · rw [Nat.mod_eq_of_lt (show 1 < s.count by omega)]
      by_cases h2 : t.active + 1 = s.count
      · rw [if_pos (by omega), if_pos (by omega), h2, Nat.mod_self]
      · rw [if_neg (by omega), if_pos (by omega), Nat.mod_eq_of_lt (by omega)]

/-- What is in an editor: the characters that were typed, less those that were taken back. -/
theorem C123_typed (cs : Bytes) (n : Nat) :
    typed (cs.map Key.char ++ List.replicate n .back) = cs.take (cs.length - n) := by
  have h1 : ∀ (cs t : Bytes), (cs.map Key.char).foldl edit t = t ++ cs := by
    intro cs
    induction cs with
    | nil => exact fun t => (List.append_nil t).symm
    | cons c cs ih =>
      intro t
      rw [List.map_cons, List.foldl_cons, ih]
      simp [edit]
  rw [typed, List.foldl_append, h1, List.nil_append]
  induction n with
  | zero => simp
  | succ n ih =>
    rw [List.replicate_succ', List.foldl_append, ih, List.foldl_cons, List.foldl_nil]
    show (cs.take (cs.length - n)).dropLast = _
    rw [List.dropLast_eq_take, List.take_take, List.length_take]
    congr 1
    omega

/-- What counts as yes: the three letters, large or small, and nothing else. -/
theorem C123_yes (t : Bytes) : lower t = yes ↔
    ∃ a b c, t = [a, b, c] ∧ (a = 121 ∨ a = 89) ∧ (b = 101 ∨ b = 69) ∧ (c = 115 ∨ c = 83) := by
  have key : ∀ x y : UInt8, (y = 121 ∨ y = 101 ∨ y = 115) →
      ((if 65 ≤ x ∧ x ≤ 90 then x + 32 else x) = y ↔ x = y ∨ x = y - 32) := by
    intro x y hy
    have h : ∀ n : Fin 256, ∀ y ∈ [(121 : UInt8), 101, 115],
        ((if 65 ≤ UInt8.ofNat n.1 ∧ UInt8.ofNat n.1 ≤ 90 then UInt8.ofNat n.1 + 32 else UInt8.ofNat n.1) = y ↔
          UInt8.ofNat n.1 = y ∨ UInt8.ofNat n.1 = y - 32) := by decide +kernel
    have h1 := h ⟨x.toNat, x.toNat_lt⟩ y (by simpa using hy)
    simp only [UInt8.ofNat_toNat] at h1
    exact h1
  match t with
  | [a, b, c] =>
    simp only [lower, yes, List.map_cons, List.map_nil, List.cons.injEq, and_true]
    rw [key a 121 (by decide), key b 101 (by decide), key c 115 (by decide)]
    constructor
    · rintro ⟨h1, h2, h3⟩
      exact ⟨a, b, c, ⟨rfl, rfl, rfl⟩, h1, h2, h3⟩
    · rintro ⟨a', b', c', ⟨rfl, rfl, rfl⟩, h1, h2, h3⟩
      exact ⟨h1, h2, h3⟩
  | [] => simp [lower, yes]
  | [_] => simp [lower, yes]
  | [_, _] => simp [lower, yes]
  | _ :: _ :: _ :: _ :: _ => simp [lower, yes]

/-- Enter in the window of a person ends it: with anything but yes the person is rejected, the user is told, and nothing else
changes. -/
theorem C123_reject (w : World) (s : State) (n : Nat) (d : Dialog) (f : Fault) (hf : s.focus = .client n)
    (hd : s.dialogs[n]? = some d) (hy : lower d.text ≠ yes) :
    step w s (.key .enter f) = { s with out := s.out ++ [.rejected d.who], focus := .main } := by
  simp only [step, hf, clientKey, hd, if_neg hy]

/-- The conversation that is shown is one that there is, whatever is pressed. -/
theorem C123_range (w : World) (s : State) (es : List Event) (h : s.active < s.count) :
    (run w s es).active < (run w s es).count := by
  induction es using List.reverseRecOn with
  | nil => exact h
  | append_singleton es e ih =>
    rw [run_snoc, step_count]
    generalize run w s es = t at *
    have hconv : ∀ id, (conv t id).active < t.count := by
      intro id
      rw [conv]
      split
      · assumption
      · exact ih
    cases e with
    | key k f =>
      have : (step w t (.key k f)).active = t.active := step_key_active w t k f
      rw [this]
      exact ih
    | prev => simp only [step]; split <;> exact hconv _
    | next => simp only [step]; split <;> exact hconv _
    | jump d => exact hconv d
    | reply r => cases r <;> exact ih
    | online b => exact ih
    | book i b => exact ih

/-! ### An exchange that nothing gets in the way of -/

/-- What may happen while the user types: characters, other conversations, failed fetches, other people. -/
def Harmless (id : Nat) : Event → Prop
  | .key (.char _) _ => True
  | .key _ _ => False
  | .reply r => r = none
  | .online b => b = true
  | .book i b => i = id → b = false
  | _ => True

/-- The characters among the events. -/
def chars (es : List Event) : Bytes := es.filterMap fun e => match e with | .key (.char c) _ => some c | _ => none

theorem conv_eq (s : State) (i : Nat) : ∃ a, conv s i = { s with active := a } := by
  unfold conv; split
  · exact ⟨_, rfl⟩
  · exact ⟨s.active, rfl⟩

theorem quiet_other (w : World) (id : Nat) (e : Event) (he : Harmless id e) (hk : ∀ k f, e ≠ .key k f) (s : State)
    (ho : s.online = true) (hb : s.book id = false) :
    ∃ a bk, bk id = false ∧ step w s e = { s with active := a, book := bk } := by
  cases e with
  | key k f => exact absurd rfl (hk k f)
  | reply r => cases he; exact ⟨s.active, s.book, hb, rfl⟩
  | online b => cases he; exact ⟨s.active, s.book, hb, by simp [step, ← ho]⟩
  | book i b =>
    refine ⟨s.active, fun j => if j = i then b else s.book j, ?_, rfl⟩
    dsimp only; split
    · rename_i h; exact he h.symm
    · exact hb
  | prev =>
    simp only [step]
    split
    · obtain ⟨a, h⟩ := conv_eq s (s.count - 1); exact ⟨a, s.book, hb, h⟩
    · obtain ⟨a, h⟩ := conv_eq s (s.active - 1); exact ⟨a, s.book, hb, h⟩
  | next =>
    simp only [step]
    split
    · obtain ⟨a, h⟩ := conv_eq s 0; exact ⟨a, s.book, hb, h⟩
    · obtain ⟨a, h⟩ := conv_eq s (s.active + 1); exact ⟨a, s.book, hb, h⟩
  | jump d => obtain ⟨a, h⟩ := conv_eq s d; exact ⟨a, s.book, hb, h⟩

theorem chars_other (e : Event) (q : List Event) (hk : ∀ k f, e ≠ .key k f) : chars (e :: q) = chars q := by
  cases e with
  | key k f => exact absurd rfl (hk k f)
  | _ => rfl

theorem harmless_cases {id : Nat} {e : Event} (he : Harmless id e) :
    (∃ x f, e = .key (.char x) f) ∨ ∀ k f, e ≠ .key k f := by
  cases e with
  | key k f =>
    cases k with
    | char x => exact .inl ⟨x, f, rfl⟩
    | _ => cases he
  | _ => exact .inr (by simp)

theorem quiet_accept (w : World) (id : Nat) (q : List Event) (hq : ∀ e ∈ q, Harmless id e) (s : State)
    (hf : s.focus = .accept) (ho : s.online = true) (hb : s.book id = false) :
    ∃ a bk, bk id = false ∧ run w s q = { s with pwText := s.pwText ++ chars q, active := a, book := bk } := by
  induction q generalizing s with
  | nil => exact ⟨s.active, s.book, hb, by simp [run, chars]⟩
  | cons e q ih =>
    have hq' : ∀ e ∈ q, Harmless id e := fun e h => hq e (by simp [h])
    have hr : run w s (e :: q) = run w (step w s e) q := rfl
    rcases harmless_cases (hq e (by simp)) with ⟨x, f, rfl⟩ | hk
    · have h0 : step w s (.key (.char x) f) = { s with pwText := s.pwText ++ [x] } := by simp [step, hf, acceptKey, edit]
      obtain ⟨a, bk, h1, h2⟩ := ih hq' { s with pwText := s.pwText ++ [x] } hf ho hb
      refine ⟨a, bk, h1, ?_⟩
      rw [hr, h0, h2]
      simp [chars]
    · obtain ⟨a, bk, h1, h2⟩ := quiet_other w id e (hq e (by simp)) hk s ho hb
      obtain ⟨a', bk', h1', h2'⟩ := ih hq' { s with active := a, book := bk } hf ho h1
      exact ⟨a', bk', h1', by rw [hr, h2, h2', chars_other e q hk]⟩

theorem quiet_client (w : World) (id n : Nat) (q : List Event) (hq : ∀ e ∈ q, Harmless id e) (s : State)
    (hf : s.focus = .client n) (ho : s.online = true) (hb : s.book id = false) (d : Dialog)
    (hd : s.dialogs[n]? = some d) :
    ∃ a bk ds, bk id = false ∧ ds[n]? = some { d with text := d.text ++ chars q } ∧
      run w s q = { s with dialogs := ds, active := a, book := bk } := by
  induction q generalizing s d with
  | nil => exact ⟨s.active, s.book, s.dialogs, hb, by simp [hd, chars], by simp [run]⟩
  | cons e q ih =>
    have hq' : ∀ e ∈ q, Harmless id e := fun e h => hq e (by simp [h])
    have hr : run w s (e :: q) = run w (step w s e) q := rfl
    rcases harmless_cases (hq e (by simp)) with ⟨x, f, rfl⟩ | hk
    · have h0 : step w s (.key (.char x) f) =
          { s with dialogs := s.dialogs.set n { d with text := d.text ++ [x] } } := by
        simp [step, hf, clientKey, edit, hd]
      obtain ⟨a, bk, ds, h1, h2, h3⟩ := ih hq' { s with dialogs := s.dialogs.set n { d with text := d.text ++ [x] } } hf ho
        hb { d with text := d.text ++ [x] } (by simp [List.getElem?_set, (List.getElem?_eq_some_iff.1 hd).1])
      refine ⟨a, bk, ds, h1, ?_, by rw [hr, h0, h3]⟩
      rw [h2]; simp [chars]
    · obtain ⟨a, bk, h1, h2⟩ := quiet_other w id e (hq e (by simp)) hk s ho hb
      obtain ⟨a', bk', ds, h1', h2', h3'⟩ := ih hq' { s with active := a, book := bk } hf ho h1 d hd
      exact ⟨a', bk', ds, h1', by rw [h2', chars_other e q hk], by rw [hr, h2, h3']⟩

/-- When a blob comes and the edit for its password is empty, the user types the password, presses Enter, types yes and
presses Enter, and meanwhile no other blob comes, the connection stays, the disk does not fail and the person is not added
in some other way, then the person is sent an offer, and the identity, the key and the half ratchet of that very offer are
written.  Whatever else happens meanwhile does not matter. -/
theorem C123_finish_partial (w : World) (s : State) (b : Bytes) (q1 q2 : List Event) (p : Person) (dk : Nat)
    (ho : s.online = true) (he : s.pwText = []) (hb : s.book p.id = false) (hs : p.id ≠ w.self)
    (hopen : w.opens (chars q1) b = some (p, dk)) (hyes : lower (chars q2) = yes)
    (h1 : ∀ e ∈ q1, Harmless p.id e) (h2 : ∀ e ∈ q2, Harmless p.id e) :
    let s' := run w s (.reply (some b) :: (q1 ++ .key .enter .none :: (q2 ++ [.key .enter .none])))
    s'.focus = .main ∧ s'.book p.id = true ∧
      s'.out = s.out ++ [.offer p dk s.rounds, .saved p, .kept p dk, .half p s.rounds, .accepted p] := by
  intro s'
  have e0 : s' = step w (run w (step w (run w (step w s (.reply (some b))) q1) (.key .enter .none)) q2)
      (.key .enter .none) := by
    simp [s', run, List.foldl_append]
  obtain ⟨a, bk, hbk, e1⟩ := quiet_accept w p.id q1 h1 (step w s (.reply (some b))) rfl ho hb
  have e2 : step w (run w (step w s (.reply (some b))) q1) (.key .enter .none) =
      { step w s (.reply (some b)) with pwText := s.pwText ++ chars q1, active := a, book := bk, dialogs := s.dialogs ++ [⟨p, dk, []⟩], focus := .client s.dialogs.length } := by
    rw [e1]
    simp [step, acceptKey, he, hopen, hs, hbk]
  obtain ⟨a', bk', ds, hbk', hds, e3⟩ := quiet_client w p.id s.dialogs.length q2 h2
    { step w s (.reply (some b)) with pwText := s.pwText ++ chars q1, active := a, book := bk, dialogs := s.dialogs ++ [⟨p, dk, []⟩], focus := .client s.dialogs.length }
    rfl ho hbk ⟨p, dk, []⟩ (by simp)
  rw [e0, e2, e3]
  simp [step, clientKey, hds, hyes, agree, ho, hbk']

/-- When the disk does not fail and nobody is added in some other way, all that belongs to an offer is written. -/
theorem C123_whole_partial (w : World) (bk : Nat → Bool) (c : Nat) (es : List Event)
    (hf : ∀ k f, Event.key k f ∈ es → f = .none) (hb : ∀ i b, Event.book i b ∉ es) (p : Person) (dk r : Nat)
    (h : Out.offer p dk r ∈ (run w (start bk c) es).out) :
    Out.saved p ∈ (run w (start bk c) es).out ∧ Out.kept p dk ∈ (run w (start bk c) es).out ∧
      Out.half p r ∈ (run w (start bk c) es).out := by
  suffices H : (∀ n d, (run w (start bk c) es).focus = .client n → (run w (start bk c) es).dialogs[n]? = some d →
      (run w (start bk c) es).book d.who.id = false) ∧ (∀ p dk r, Out.offer p dk r ∈ (run w (start bk c) es).out →
      Out.saved p ∈ (run w (start bk c) es).out ∧ Out.kept p dk ∈ (run w (start bk c) es).out ∧
      Out.half p r ∈ (run w (start bk c) es).out) from H.2 p dk r h
  clear h
  induction es using List.reverseRecOn with
  | nil => exact ⟨fun n d h => (by cases h), fun p dk r h => (by simp [run, start] at h)⟩
  | append_singleton es e ih =>
    obtain ⟨ih1, ih2⟩ := ih (fun k f h => hf k f (by simp [h])) (fun i b h => hb i b (by simp [h]))
    rw [run_snoc]
    have hlen := reached_focus w bk c es
    generalize run w (start bk c) es = s at *
    constructor
    · intro n d h1 h2
      have hbook : (step w s e).book = s.book := by
        rcases step_book w s e with h | ⟨i, b, rfl⟩ | h
        · exact h
        · exact absurd (by simp) (hb i b)
        · rw [h] at h1; cases h1
      rw [hbook]
      rcases step_dialogs w s e with h3 | ⟨f, b, q, k, _, h4, _, _, _, h5, h3, h6, _⟩ | ⟨k, f, m, d', rfl, h4, h5, _, h3, h6⟩
      · rcases step_focus w s e with h4 | ⟨b, _, h4⟩ | ⟨k, f, _, _, h4 | h4 | h4⟩
        · exact ih1 n d (h4 ▸ h1) (h3 ▸ h2)
        · rw [h4] at h1; cases h1
        · rw [h4] at h1; cases h1
        · rw [h4] at h1; cases h1
        · rw [h3] at h4; omega
      · rw [h6] at h1
        cases h1
        rw [h3] at h2
        simp at h2
        rw [← h2]; exact h5
      · rw [h6, h4] at h1
        cases h1
        rw [h3, List.getElem?_set] at h2
        simp [hlen _ h4] at h2
        rw [← h2]
        exact ih1 _ d' h4 h5
    · intro p dk r h
      obtain ⟨new, hn, _⟩ := step_offers w s e
      rcases step_whole w s e (fun k f h => hf k f (by simp [h])) ih1 p dk r h with h | h
      · obtain ⟨h1, h2, h3⟩ := ih2 p dk r h
        rw [hn]
        exact ⟨by simp [h1], by simp [h2], by simp [h3]⟩
      · exact h

/-- Every offer has a number of its own. -/
theorem C123_numbers (w : World) (bk : Nat → Bool) (c : Nat) (es : List Event) :
    ((run w (start bk c) es).out.filterMap roundOf).Nodup := by
  suffices H : ((run w (start bk c) es).out.filterMap roundOf).Nodup ∧
      ∀ r ∈ (run w (start bk c) es).out.filterMap roundOf, r < (run w (start bk c) es).rounds from H.1
  induction es using List.reverseRecOn with
  | nil => simp [run, start]
  | append_singleton es e ih =>
    rw [run_snoc]
    obtain ⟨new, h1, ⟨h2, h3⟩ | ⟨h2, h3⟩⟩ := step_offers w (run w (start bk c) es) e
    · rw [h1, List.filterMap_append, h2, h3, List.append_nil]; exact ih
    · rw [h1, List.filterMap_append, h2, h3]
      refine ⟨?_, fun r hr => ?_⟩
      · rw [List.nodup_append]
        exact ⟨ih.1, by simp, fun a ha b hb => by simp at hb; have := ih.2 a ha; omega⟩
      · rw [List.mem_append] at hr
        rcases hr with hr | hr
        · have := ih.2 r hr; omega
        · simp at hr; omega

/-! ## What goes wrong -/

/-- A person who can be read from one blob only is never shown once that blob was replaced, unless it comes again. -/
theorem lost (w : World) (p : Person) (b : Bytes) (hw : ∀ pw b' dk, w.opens pw b' = some (p, dk) → b' = b) (s : State)
    (hr : s.reply ≠ some b) (hd : ∀ (n : Nat) (d : Dialog), s.dialogs[n]? = some d → d.who ≠ p)
    (ho : ∀ o ∈ s.out, person o ≠ some p) (es : List Event) (hes : .reply (some b) ∉ es) :
    ∀ o ∈ (run w s es).out, person o ≠ some p := by
  suffices H : (run w s es).reply ≠ some b ∧ (∀ (n : Nat) (d : Dialog), (run w s es).dialogs[n]? = some d → d.who ≠ p) ∧
      ∀ o ∈ (run w s es).out, person o ≠ some p from H.2.2
  induction es using List.reverseRecOn with
  | nil => exact ⟨hr, hd, ho⟩
  | append_singleton es e ih =>
    obtain ⟨ih1, ih2, ih3⟩ := ih (fun h => hes (by simp [h]))
    rw [run_snoc]
    generalize run w s es = t at *
    refine ⟨?_, ?_, ?_⟩
    · rw [step_reply]
      split
      · intro h
        cases h
        exact hes (by simp)
      · exact ih1
    · intro n d h
      rcases step_dialogs w t e with h1 | ⟨f, b', q, k, _, _, h3, h4, _, _, h1, _⟩ | ⟨k, f, m, d', _, _, h3, _, h1, _⟩
      · exact ih2 n d (h1 ▸ h)
      · rw [h1, List.getElem?_append] at h
        split at h
        · exact ih2 n d h
        · rw [List.getElem?_singleton] at h
          split at h <;> simp at h
          rw [← h]
          rintro rfl
          exact ih1 (by rw [h3, hw _ _ _ h4])
      · rw [h1, List.getElem?_set] at h
        split at h
        · split at h <;> simp at h
          rw [← h]
          exact ih2 m d' h3
        · exact ih2 n d h
    · intro o h hp
      rcases step_out w t e o h with h | ⟨_, hm⟩
      · exact ih3 o h hp
      · cases o with
        | offer q k r => obtain ⟨n, d, _, h2, rfl, _⟩ := hm; exact ih2 n d h2 (by simpa [person] using hp)
        | kept q k => obtain ⟨n, d, _, h2, rfl, _⟩ := hm; exact ih2 n d h2 (by simpa [person] using hp)
        | saved q => obtain ⟨n, d, _, h2, rfl, _⟩ := hm; exact ih2 n d h2 (by simpa [person] using hp)
        | half q r => obtain ⟨n, d, _, h2, rfl, _⟩ := hm; exact ih2 n d h2 (by simpa [person] using hp)
        | accepted q => obtain ⟨n, d, _, h2, rfl, _⟩ := hm; exact ih2 n d h2 (by simpa [person] using hp)
        | line l => cases hp
        | fetch l => cases hp
        | blob l => cases hp
        | blobKey l => cases hp
        | rejected l => cases hp

namespace Wit

/-- Two persons; the password of their blobs is the blob itself. -/
def ann : Person := ⟨5, [65], [97], 50⟩
def bob : Person := ⟨6, [66], [98], 60⟩

def w : World :=
  ⟨0, fun l => match l with | [1] => .kx | [2, x] => .fetch [x] | _ => .other,
    fun pw b => if pw = b then (if b = [5] then some (ann, 500) else if b = [6] then some (bob, 600) else none) else none⟩

theorem only_ann (pw b' : Bytes) (dk : Nat) (h : w.opens pw b' = some (ann, dk)) : b' = [5] := by
  simp only [w] at h
  split at h
  · split at h
    · assumption
    · split at h
      · simp [bob, ann] at h
      · cases h
  · cases h

def type (t : Bytes) : List Event := t.map fun x => .key (.char x) .none
def enter : Event := .key .enter .none

/-- The user is online and fetches two PINs. -/
def fetched : List Event := .online true :: (type [2, 5] ++ enter :: (type [2, 6] ++ [enter]))

def s0 : State := start (fun _ => false) 1

end Wit

open Wit

/-- Every blob that was fetched can be opened by whoever knows its password: not so.  The second blob comes while the
password of the first is typed; the password does not open the second, and the first person is not shown, unless the
blob is fetched once more. -/
theorem C123_second_violated :
    let es := fetched ++ .reply (some [5]) :: (type [5] ++ [.reply (some [6]), enter])
    Out.fetch [5] ∈ (run w s0 es).out ∧ (run w s0 es).focus = .accept ∧ (run w s0 es).dialogs = [] ∧
      ∀ es', .reply (some [5]) ∉ es' → ∀ o ∈ (run w (run w s0 es) es').out, person o ≠ some ann := by
  refine ⟨by decide, by decide, by decide, fun es' h => ?_⟩
  refine lost w ann [5] only_ann _ (by decide) (fun n d h => ?_) (by decide) es' h
  have e : (run w s0 (fetched ++ .reply (some [5]) :: (type [5] ++ [.reply (some [6]), enter]))).dialogs = [] := by decide
  rw [e] at h
  cases h

/-- A person who is shown stays until the user answers: not so.  The second blob takes the focus, and the window is never
seen again. -/
theorem C123_steal_violated :
    let es := fetched ++ .reply (some [5]) :: (type [5] ++ enter :: type [121, 101])
    (run w s0 es).focus = .client 0 ∧ (run w s0 es).dialogs = [⟨ann, 500, [121, 101]⟩] ∧
      ∀ es', (run w (run w s0 (es ++ [.reply (some [6])])) es').focus ≠ .client 0 := by
  refine ⟨by decide, by decide, fun es' => ?_⟩
  exact (C123_gone w _ 0 (by decide) (by decide) es').2

/-- The window for the password is empty when it comes: not so.  After one person was accepted, their password is still
there, and the right password of the next blob does not open it. -/
theorem C123_leftover_violated :
    let s := run w s0 (fetched ++ .reply (some [5]) :: (type [5] ++ enter :: (type [121, 101, 115] ++ [enter])))
    s.focus = .main ∧ Out.accepted ann ∈ s.out ∧ w.opens [6] [6] = some (bob, 600) ∧
      (run w s (.reply (some [6]) :: (type [6] ++ [enter]))).focus = .accept ∧
      (run w s (.reply (some [6]) :: (type [6] ++ [enter]))).dialogs = s.dialogs ∧
      (run w s [.reply (some [6])]).pwText = [5] := by
  refine ⟨by decide, by decide, by decide, by decide, by decide, by decide⟩

/-- The windows come only when the user asked for them: not so.  A blob that nobody asked for takes the focus, and the rest
of the line is typed into the edit for the password. -/
theorem C123_unasked_violated :
    let s := run w s0 (.online true :: (type [104] ++ .reply (some [9]) :: type [105]))
    s.out = [] ∧ s.focus = .accept ∧ s.line = [104] ∧ s.pwText = [105] := by
  refine ⟨by decide, by decide, by decide, by decide⟩

/-- What is sent is also written: not so.  The offer is sent before anything is written.  When the identity cannot be
written, another yes sends another offer, and only the ratchet of the second is ever kept. -/
theorem C123_order_violated :
    let s := run w s0 (.online true :: .reply (some [5]) :: (type [5] ++ enter :: (type [121, 101, 115] ++
      [.key .enter .identity, enter])))
    s.out = [.offer ann 500 0, .offer ann 500 1, .saved ann, .kept ann 500, .half ann 1, .accepted ann] := by
  decide

/-- Nobody is sent an offer who is a contact already: not so, when they became one while the window was there. -/
theorem C123_contact_violated :
    let s := run w s0 (.online true :: .reply (some [5]) :: (type [5] ++ enter :: .book 5 true :: (type [121, 101, 115] ++
      [enter])))
    s.book 5 = true ∧ s.out = [.offer ann 500 0] ∧ s.focus = .client 0 := by
  refine ⟨by decide, by decide, by decide⟩

/-- The edit of the window of `/kx` is empty when the window comes: not so, if a blob has come while a password was typed. -/
theorem C123_stale_violated :
    let s := run w s0 (.online true :: (type [1] ++ enter :: (type [7] ++ [.reply (some [5]), .key .f10 .none] ++
      type [1] ++ [enter])))
    s.focus = .kx ∧ s.kxText = [7] ∧ (run w s (type [8] ++ [enter])).out.getLast? = some (.blobKey [7, 8]) := by
  refine ⟨by decide, by decide, by decide⟩

/-- What is sent can be answered: not so.  If the key cannot be kept, the blob has been sent already. -/
theorem C123_keyless_violated :
    (run w s0 (.online true :: (type [1] ++ enter :: (type [7] ++ [.key .enter .key, .key .f10 .none])))).out =
      [.line [1], .blob [7]] := by
  decide

/-! ## Examples -/

example : Out.offer ann 500 0 ∈ (run w s0 (.online true :: .reply (some [5]) :: (type [5] ++ enter ::
    (type [89, 69, 115] ++ [enter])))).out := by decide

example : (run w s0 (.online true :: .reply (some [5]) :: (type [5] ++ enter ::
    (type [110, 111] ++ [enter])))).out = [.rejected ann] := by decide

example : (run w s0 (.online true :: (type [1] ++ enter :: (type [7, 7] ++ [.key .back .none, enter])))).out =
    [.line [1], .blob [7], .blobKey [7]] := by decide

/-- The premises of `C123_finish_partial` hold while others come and go and the user looks at another conversation. -/
example : (run w s0 (.online true :: .reply (some [5]) :: ([.next, .key (.char 5) .none, .book 9 true, .reply none] ++
    enter :: ([.key (.char 121) .none, .prev, .key (.char 101) .none, .key (.char 115) .none] ++ [enter])))).out =
    [.offer ann 500 0, .saved ann, .kept ann 500, .half ann 0, .accepted ann] := by decide

example : (run w { s0 with count := 3 } [.next, .next]).active = 2 ∧
    (run w { s0 with count := 3 } [.next, .next, .next]).active = 0 := by decide

/-! ## Who is a contact -/

/-- What one event does to the address book. -/
theorem step_contact (w : World) (s : State) (e : Event) (i : Nat) :
    (step w s e).book i = s.book i ∨ (∃ b, e = .book i b ∧ (step w s e).book i = b) ∨
    ((step w s e).book i = true ∧ ∃ p, p.id = i ∧ Out.accepted p ∈ (step w s e).out) := by
  cases e with
  | key k f =>
    simp only [step]
    split
    · left; cases k <;> simp only [mainKey] <;> repeat' split
      all_goals rfl
    · left; cases k <;> simp only [kxKey] <;> repeat' split
      all_goals rfl
    · left; cases k <;> simp only [acceptKey] <;> repeat' split
      all_goals rfl
    · rename_i n _
      simp only [clientKey]
      split
      · left; rfl
      · rename_i d _
        split
        · split
          · unfold agree
            split
            · left; rfl
            · dsimp only
              split
              · left; rfl
              · split
                · left; rfl
                · split
                  · left; rfl
                  · by_cases hi : i = d.who.id
                    · right; right
                      exact ⟨by simp [hi], d.who, hi.symm, by simp⟩
                    · left; simp [hi]
          · left; rfl
        · left; rfl
  | reply r => left; cases r <;> rfl
  | prev => left; simp only [step, conv]; repeat' split
            all_goals rfl
  | next => left; simp only [step, conv]; repeat' split
            all_goals rfl
  | jump d => left; simp only [step, conv]; split <;> rfl
  | online b => left; rfl
  | book j b =>
    by_cases hi : i = j
    · right; left; exact ⟨b, by rw [hi], by simp [step, hi]⟩
    · left; simp [step, hi]

/-- What left the windows is not taken back. -/
theorem step_out_grows (w : World) (s : State) (e : Event) : ∃ x, (step w s e).out = s.out ++ x := by
  cases e with
  | key k f =>
    simp only [step]
    split
    · cases k <;> simp only [mainKey] <;> repeat' split
      all_goals first | exact ⟨[], (List.append_nil _).symm⟩ | exact ⟨_, rfl⟩ | exact ⟨_, by simp only [List.append_assoc]; rfl⟩
    · cases k <;> simp only [kxKey] <;> repeat' split
      all_goals first | exact ⟨[], (List.append_nil _).symm⟩ | exact ⟨_, rfl⟩ | exact ⟨_, by simp only [List.append_assoc]; rfl⟩
    · cases k <;> simp only [acceptKey] <;> repeat' split
      all_goals exact ⟨[], by simp⟩
    · cases k <;> simp only [clientKey, agree] <;> repeat' split
      all_goals first | exact ⟨[], (List.append_nil _).symm⟩ | exact ⟨_, rfl⟩ | exact ⟨_, by simp only [List.append_assoc]; rfl⟩
  | reply r => cases r <;> exact ⟨[], by simp [step]⟩
  | prev => simp only [step, conv]; repeat' split
            all_goals exact ⟨[], by simp⟩
  | next => simp only [step, conv]; repeat' split
            all_goals exact ⟨[], by simp⟩
  | jump d => simp only [step, conv]; split <;> exact ⟨[], by simp⟩
  | online b => exact ⟨[], by simp [step]⟩
  | book j b => exact ⟨[], by simp [step]⟩

/-- Nobody becomes a contact by these windows who was not accepted: whoever is in the address book was there when the client
was started, was put there in another way, or was accepted in a window that showed them (`C123_agreed`). -/
theorem C123_contacts (w : World) (bk : Nat → Bool) (c : Nat) (es : List Event) (i : Nat)
    (h : (run w (start bk c) es).book i = true) :
    bk i = true ∨ Event.book i true ∈ es ∨ ∃ p dk, p.id = i ∧ Agreed w (start bk c) es p dk := by
  suffices h' : bk i = true ∨ Event.book i true ∈ es ∨ ∃ p, p.id = i ∧ Out.accepted p ∈ (run w (start bk c) es).out by
    rcases h' with h' | h' | ⟨p, hp, ho⟩
    · exact .inl h'
    · exact .inr (.inl h')
    · obtain ⟨dk, -, ha⟩ := C123_agreed w bk c es _ p ho rfl
      exact .inr (.inr ⟨p, dk, hp, ha⟩)
  induction es using List.reverseRecOn with
  | nil => exact .inl h
  | append_singleton es e ih =>
    rw [run_snoc] at h ⊢
    rcases step_contact w (run w (start bk c) es) e i with h1 | ⟨b, rfl, hb⟩ | ⟨-, p, hp, ho⟩
    · rw [h1] at h
      rcases ih h with h2 | h2 | ⟨p, hp, ho⟩
      · exact .inl h2
      · exact .inr (.inl (List.mem_append_left _ h2))
      · refine .inr (.inr ⟨p, hp, ?_⟩)
        obtain ⟨x, hx⟩ := step_out_grows w (run w (start bk c) es) e
        rw [hx]
        exact List.mem_append_left _ ho
    · rw [hb] at h; subst h
      exact .inr (.inl (by simp))
    · exact .inr (.inr ⟨p, hp, ho⟩)

/-- Nobody who is a contact is dropped by these windows. -/
theorem C123_stays (w : World) (s : State) (es : List Event) (i : Nat) (h : s.book i = true)
    (hn : Event.book i false ∉ es) : (run w s es).book i = true := by
  induction es generalizing s with
  | nil => exact h
  | cons e es ih =>
    apply ih (step w s e) _ (fun hm => hn (List.mem_cons_of_mem _ hm))
    rcases step_contact w s e i with h1 | ⟨b, rfl, hb⟩ | ⟨h1, -⟩
    · rw [h1]; exact h
    · rw [hb]
      cases b
      · exact absurd (List.mem_cons_self) hn
      · rfl
    · exact h1

/-- Whether there is a connection is only changed by the connection. -/
theorem step_online (w : World) (s : State) (e : Event) :
    (step w s e).online = s.online ∨ ∃ b, e = .online b ∧ (step w s e).online = b := by
  cases e with
  | key k f =>
    left
    simp only [step]
    split
    · cases k <;> simp only [mainKey] <;> repeat' split
      all_goals rfl
    · cases k <;> simp only [kxKey] <;> repeat' split
      all_goals rfl
    · cases k <;> simp only [acceptKey] <;> repeat' split
      all_goals rfl
    · cases k <;> simp only [clientKey, agree] <;> repeat' split
      all_goals rfl
  | reply r => cases r <;> exact .inl rfl
  | prev => left; simp only [step, conv]; repeat' split
            all_goals rfl
  | next => left; simp only [step, conv]; repeat' split
            all_goals rfl
  | jump d => left; simp only [step, conv]; split <;> rfl
  | online b => exact .inr ⟨b, rfl, rfl⟩
  | book j b => exact .inl rfl

/-- **C123** Before the client has connected for the first time nothing leaves it, and nobody is accepted. -/
theorem C123_unconnected (w : World) (bk : Nat → Bool) (c : Nat) (es : List Event) (hn : Event.online true ∉ es) :
    (run w (start bk c) es).focus ≠ .kx ∧
      ∀ o ∈ (run w (start bk c) es).out, (∃ l, o = .line l) ∨ ∃ p, o = .rejected p := by
  suffices h : (run w (start bk c) es).online = false ∧ (run w (start bk c) es).focus ≠ .kx ∧
      ∀ o ∈ (run w (start bk c) es).out, (∃ l, o = .line l) ∨ ∃ p, o = .rejected p from h.2
  induction es using List.reverseRecOn with
  | nil => exact ⟨rfl, (fun h => by cases h), fun o h => absurd h (by simp [run, start])⟩
  | append_singleton es e ih =>
    rw [run_snoc]
    obtain ⟨h1, h2, h3⟩ := ih fun h => hn (List.mem_append_left _ h)
    have h4 := C123_offline w (run w (start bk c) es) e h1
    refine ⟨?_, fun h => h2 (h4.1 h), fun o ho => ?_⟩
    · rcases step_online w (run w (start bk c) es) e with h | ⟨b, rfl, h⟩
      · rw [h, h1]
      · rw [h]
        cases b
        · rfl
        · exact absurd (List.mem_append_right _ (List.mem_singleton.2 rfl)) hn
    · rcases h4.2 o ho with h | h
      · exact h3 o h
      · exact h

/-- Of two people that are not contacts one is accepted: the other is not a contact then. -/
example : let s := run w s0 (.online true :: .reply (some [5]) :: (type [5] ++ enter :: (type [121, 101, 115] ++ [enter])))
    s.book 5 = true ∧ s.book 6 = false := by decide

end Verif.Dialogs
