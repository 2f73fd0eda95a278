import Verif.Model.Tab
import Verif.Props.Completion
import Verif.Props.Commands
import Mathlib.Tactic.Common

/-! C119: the tab key on the command line. Model: Verif.Model.Tab. -/

namespace Verif.Tab

open Verif Commands

/-! ## Splitting and sorting -/

theorem sp_split (l : Bytes) : sp (Text.split l) = l ∧ ∀ w ∈ Text.split l, (32 : UInt8) ∉ w := by
  induction l with
  | nil => exact ⟨rfl, by simp [Text.split]⟩
  | cons c l ih =>
    unfold Text.split
    by_cases hc : c = 32
    · subst hc
      rw [if_pos rfl]
      refine ⟨?_, ?_⟩
      · cases h : Text.split l with
        | nil => exact absurd h (Text.split_ne_nil l)
        | cons w ws => rw [h] at ih; simp only [sp, List.nil_append]; rw [ih.1]
      · intro w hw
        rcases List.mem_cons.mp hw with rfl | hw
        · simp
        · exact ih.2 w hw
    · rw [if_neg hc]
      cases h : Text.split l with
      | nil => exact absurd h (Text.split_ne_nil l)
      | cons w ws =>
        rw [h] at ih
        dsimp only
        refine ⟨?_, ?_⟩
        · cases ws with
          | nil => simp only [sp] at ih ⊢; rw [ih.1]
          | cons v vs => simp only [sp, List.cons_append] at ih ⊢; rw [ih.1]
        · intro x hx
          rcases List.mem_cons.mp hx with rfl | hx
          · intro hm
            rcases List.mem_cons.mp hm with e | hm
            · exact hc e.symm
            · exact ih.2 w List.mem_cons_self hm
          · exact ih.2 x (List.mem_cons_of_mem _ hx)

theorem le_total (a b : Bytes) : le a b ∨ le b a := by
  induction a generalizing b with
  | nil => exact .inl trivial
  | cons x a ih =>
    cases b with
    | nil => exact .inr trivial
    | cons y b =>
      show (x < y ∨ (x = y ∧ le a b)) ∨ (y < x ∨ (y = x ∧ le b a))
      rcases Nat.lt_trichotomy x.toNat y.toNat with h | h | h
      · exact .inl (.inl (UInt8.lt_iff_toNat_lt.mpr h))
      · obtain rfl := UInt8.toNat_inj.mp h
        rcases ih b with h | h
        · exact .inl (.inr ⟨rfl, h⟩)
        · exact .inr (.inr ⟨rfl, h⟩)
      · exact .inr (.inl (UInt8.lt_iff_toNat_lt.mpr h))

theorem le_trans' {a b c : Bytes} (h1 : le a b) (h2 : le b c) : le a c := by
  induction a generalizing b c with
  | nil => trivial
  | cons x a ih =>
    cases b with
    | nil => exact h1.elim
    | cons y b =>
      cases c with
      | nil => exact h2.elim
      | cons z c =>
        change x < y ∨ (x = y ∧ le a b) at h1
        change y < z ∨ (y = z ∧ le b c) at h2
        show x < z ∨ (x = z ∧ le a c)
        rcases h1 with h1 | ⟨rfl, h1⟩
        · rcases h2 with h2 | ⟨rfl, h2⟩
          · exact .inl (UInt8.lt_trans h1 h2)
          · exact .inl h1
        · rcases h2 with h2 | ⟨rfl, h2⟩
          · exact .inl h2
          · exact .inr ⟨rfl, ih h1 h2⟩

theorem le_refl' (a : Bytes) : le a a := (le_total a a).elim id id

instance : Std.Total le := ⟨le_total⟩
instance : IsTrans Bytes le := ⟨fun _ _ _ => le_trans'⟩

theorem mem_sorted {x : Bytes} {l : List Bytes} : x ∈ sorted l ↔ x ∈ l := List.mem_insertionSort le

theorem sorted_le (l : List Bytes) : (sorted l).Pairwise le := List.pairwise_insertionSort le l

/-! ## One completion -/

/-- The first, in the order of texts, of those that begin with what was typed; what was typed if there is none. -/
def First (l : List Bytes) (s w : Bytes) : Prop :=
  (w ∈ l ∧ s <+: w ∧ ∀ v ∈ l, s <+: v → le w v) ∨ (w = s ∧ ∀ v ∈ l, ¬ s <+: v)

theorem next_mem {c : Completion.Completion} (h : Completion.Ok c) (s : Bytes) :
    ∃ w, (Completion.next c s).1 = .ok w ∧ (w = s ∨ w ∈ c.all) := by
  have hi : ∀ i v, Completion.idx c.all i = some v → v ∈ c.all := by
    intro i v hv
    unfold Completion.idx at hv
    split at hv
    · exact List.mem_of_getElem? hv
    · cases hv
  have hse : ∃ w, (Completion.search c s).1 = .ok w ∧ (w = s ∨ w ∈ c.all) := by
    unfold Completion.search
    rcases Completion.findFrom_spec s c.all 0 with ⟨j, v, h1, h2, _, _⟩ | ⟨h1, _⟩
    · rw [h1]; exact ⟨v, rfl, .inr (List.mem_of_getElem? h2)⟩
    · rw [h1]; exact ⟨s, rfl, .inl rfl⟩
  have hn := (Completion.next_ok c s h).1
  unfold Completion.next at hn ⊢
  repeat' split
  all_goals first
    | exact hse
    | exact ⟨_, rfl, .inl rfl⟩
    | (rename_i hv; exact ⟨_, rfl, .inr (hi _ _ hv)⟩)
    | (exfalso; apply hn; simp_all; done)
    | (exfalso; apply hn; simp_all; done)
    | (exfalso; simp_all; rw [if_neg (by omega)] at hn; exact hn rfl)

theorem fresh_ok (l : List Bytes) : Completion.Ok (Completion.fresh l) := by
  intro h
  have := List.length_pos_iff.mpr h
  exact ⟨Int.le_refl _, by show (0 : Int) < (l.length : Int); exact_mod_cast this⟩

theorem next_first (l : List Bytes) (s : Bytes) :
    ∃ w, (Completion.next (Completion.fresh (sorted l)) s).1 = .ok w ∧ First l s w := by
  have hs := sorted_le l
  have hm : ∀ x, x ∈ sorted l ↔ x ∈ l := fun x => mem_sorted
  generalize sorted l = t at hs hm
  have pw : ∀ (j : Nat) (v : Bytes), t[j]? = some v → ∀ (i : Nat) (w : Bytes), t[i]? = some w → j ≤ i → le v w := by
    intro j v hj i w hi hji
    rcases Nat.lt_or_eq_of_le hji with hlt | rfl
    · obtain ⟨hj', rfl⟩ := List.getElem?_eq_some_iff.mp hj
      obtain ⟨hi', rfl⟩ := List.getElem?_eq_some_iff.mp hi
      exact List.pairwise_iff_getElem.mp hs j i hj' hi' hlt
    · rw [hj] at hi
      cases hi
      exact le_refl' v
  unfold Completion.next
  by_cases h0 : (Completion.fresh t).all.length = 0
  · rw [if_pos h0]
    have : t = [] := List.length_eq_zero_iff.mp h0
    subst this
    exact ⟨s, rfl, .inr ⟨rfl, fun v hv => by have := (hm v).mpr hv; simp at this⟩⟩
  · rw [if_neg h0]
    by_cases he : s = []
    · rw [if_pos he]
      subst he
      have h0' : 0 < t.length := Nat.pos_of_ne_zero h0
      have hv : Completion.idx (Completion.fresh t).all 0 = some t[0] := Completion.idx_nat t 0 h0'
      rw [hv]
      refine ⟨t[0], rfl, .inl ⟨(hm _).mp (List.getElem_mem h0'), List.nil_prefix, fun v hv _ => ?_⟩⟩
      obtain ⟨i, hi⟩ := List.getElem?_of_mem ((hm v).mpr hv)
      exact pw 0 _ (List.getElem?_eq_getElem h0') i v hi (Nat.zero_le _)
    · rw [if_neg he, if_neg (by simp [Completion.fresh])]
      unfold Completion.search
      have ht : (Completion.fresh t).all = t := rfl
      rw [ht]
      rcases Completion.findFrom_spec s t 0 with ⟨j, v, h1, h2, h3, h4⟩ | ⟨h1, h2⟩
      · rw [h1]
        refine ⟨v, rfl, .inl ⟨(hm v).mp (List.mem_of_getElem? h2), h3, fun w hw hp => ?_⟩⟩
        obtain ⟨i, hi⟩ := List.getElem?_of_mem ((hm w).mpr hw)
        rcases Nat.lt_or_ge i j with hij | hij
        · exact absurd hp (h4 i hij w hi)
        · exact pw j v h2 i w hi hij
      · rw [h1]
        exact ⟨s, rfl, .inr ⟨rfl, fun v hv => h2 v ((hm v).mpr hv)⟩⟩


/-! ## C119 -/

/-- A word of the program, as it is typed. -/
def spelled (w : String) : Bytes := w.toList.map fun c => UInt8.ofNat c.toNat

/-- The commands whose argument is a contact. -/
def contactCommands : List Bytes := ["/msg", "/m", "/info", "/reset", "/q", "/query", "/send"].map spelled

theorem contactCommands_iff {a : Bytes} : a ∈ contactCommands ↔ nickCommands.contains a = true ∨ a = c_send := by
  have h : contactCommands = nickCommands ++ [c_send] := by decide
  rw [h]
  simp

theorem contact_noblank {a : Bytes} (h : a ∈ contactCommands) : (32 : UInt8) ∉ a ∧ a ≠ [] := by
  have : ∀ a ∈ contactCommands, (32 : UInt8) ∉ a ∧ a ≠ [] := by decide
  exact this a h

/-- The address books since a moment. -/
def books (s : State) (es : List Ev) : List (List Bytes) :=
  s.book :: es.filterMap fun | .book l => some l | _ => none

/-- The file systems since a moment. -/
def globs (s : State) (es : List Ev) : List (Bytes → List Bytes) :=
  s.glob :: es.filterMap fun | .files g => some g | _ => none

/-- What Tab may do to a line: nothing, or replace its last word, if this is the contact of a command or the file to
send; by a contact or a file there was, or what the tilde stands for. -/
inductive Change (bs : List (List Bytes)) (gs : List (Bytes → List Bytes)) (home : Path.Path) : Bytes → Bytes → Prop
  | same (l : Bytes) : Change bs gs home l l
  | contact {a0 a1 w : Bytes} {b : List Bytes} (h0 : a0 ∈ contactCommands) (h1 : (32 : UInt8) ∉ a1) (hb : b ∈ bs) (hw : w ∈ b) :
      Change bs gs home (sp [a0, a1]) (sp [a0, w])
  | file {n a2 w dir : Bytes} {g : Bytes → List Bytes} (h1 : (32 : UInt8) ∉ n) (h2 : (32 : UInt8) ∉ a2) (hg : g ∈ gs) (hw : w ∈ g dir) :
      Change bs gs home (sp [spelled "/send", n, a2]) (sp [spelled "/send", n, w])
  | home {n a2 w : Bytes} (h1 : (32 : UInt8) ∉ n) (h2 : (32 : UInt8) ∉ a2) (he : expand home a2 = some w) :
      Change bs gs home (sp [spelled "/send", n, a2]) (sp [spelled "/send", n, w])

/-- What is not allowed, and happens: the word is removed. -/
inductive Erased (home : Path.Path) : Bytes → Bytes → Prop
  | mk {n a2 : Bytes} (he : expand home a2 = none) :
      Erased home (sp [spelled "/send", n, a2]) (sp [spelled "/send", n, []])

/-- What is known of the completion in progress. -/
def Inv (bs : List (List Bytes)) (gs : List (Bytes → List Bytes)) (s : State) : Prop :=
  s.book ∈ bs ∧ s.glob ∈ gs ∧ ∀ x, s.ctx = some x → Completion.Ok x.c ∧
    (x.mode = .nick → ∃ b ∈ bs, ∀ v ∈ x.c.all, v ∈ b) ∧
    (x.mode = .file → ∃ g ∈ gs, ∃ dir, ∀ v ∈ x.c.all, v ∈ g dir)

theorem nick_line {bs gs s a0 a1} (h : Inv bs gs s) :
    ∃ s' w, completeNickCommandLine s [a0, a1] = .ok s' ∧ s' = { s with line := sp [a0, w], ctx := s'.ctx } ∧ Inv bs gs s' ∧
      (w = a1 ∨ ∃ b ∈ bs, w ∈ b) := by
  obtain ⟨hb, hg, hx⟩ := h
  have key : ∀ c : Completion.Completion, Completion.Ok c → (∃ b ∈ bs, ∀ v ∈ c.all, v ∈ b) →
      ∃ w, (Completion.next c a1).1 = .ok w ∧ (w = a1 ∨ ∃ b ∈ bs, w ∈ b) ∧
        Inv bs gs { s with line := sp [a0, w], ctx := some ⟨.nick, (Completion.next c a1).2⟩ } := by
    rintro c hc ⟨b, hbs, hv⟩
    obtain ⟨w, hw, hor⟩ := next_mem hc a1
    obtain ⟨_, h2, h3⟩ := Completion.next_ok c a1 hc
    refine ⟨w, hw, hor.imp id (fun hm => ⟨b, hbs, hv _ hm⟩), hb, hg, ?_⟩
    intro x hx
    simp only [Option.some.injEq] at hx
    subst hx
    refine ⟨h2, fun _ => ⟨b, hbs, ?_⟩, fun he => by cases he⟩
    show ∀ v ∈ (Completion.next c a1).2.all, v ∈ b
    rw [h3]
    exact hv
  have hfresh := key (Completion.fresh (sorted s.book)) (fresh_ok _) ⟨s.book, hb, fun v hv => mem_sorted.mp hv⟩
  have fin : ∀ c : Completion.Completion, (∃ w, (Completion.next c a1).1 = .ok w ∧ (w = a1 ∨ ∃ b ∈ bs, w ∈ b) ∧
        Inv bs gs { s with line := sp [a0, w], ctx := some ⟨.nick, (Completion.next c a1).2⟩ }) →
      completeNick s a1 = ((Completion.next c a1).1, ⟨.nick, (Completion.next c a1).2⟩) →
      ∃ s' w, completeNickCommandLine s [a0, a1] = .ok s' ∧ s' = { s with line := sp [a0, w], ctx := s'.ctx } ∧ Inv bs gs s' ∧
      (w = a1 ∨ ∃ b ∈ bs, w ∈ b) := by
    rintro c ⟨w, h1, h2, h3⟩ he
    refine ⟨{ s with line := sp [a0, w], ctx := some ⟨.nick, (Completion.next c a1).2⟩ }, w, ?_, rfl, h3, h2⟩
    unfold completeNickCommandLine
    dsimp only
    rw [he, h1]
    simp [sp]
  cases hc : s.ctx with
  | none => exact fin _ hfresh (by unfold completeNick; rw [hc])
  | some x =>
    obtain ⟨m, c⟩ := x
    cases m with
    | nick =>
      obtain ⟨h1, h2, _⟩ := hx _ hc
      exact fin c (key c h1 (h2 rfl)) (by unfold completeNick; rw [hc])
    | file => exact fin _ hfresh (by unfold completeNick; rw [hc])

theorem dir_line {bs gs s n a2} (h : Inv bs gs s) :
    ∃ s' w, completeDirCommandLine s [c_send, n, a2] = .ok s' ∧ s' = { s with line := sp [c_send, n, w], ctx := s'.ctx } ∧
      Inv bs gs s' ∧ (w = a2 ∨ (∃ g ∈ gs, ∃ dir, w ∈ g dir) ∨ expand s.home a2 = some w ∨ (expand s.home a2 = none ∧ w = [])) := by
  obtain ⟨hb, hg, hx⟩ := h
  have key : ∀ (c : Completion.Completion) (word : Bytes), Completion.Ok c → (∃ g ∈ gs, ∃ dir, ∀ v ∈ c.all, v ∈ g dir) →
      ∃ w, (Completion.next c word).1 = .ok w ∧ (w = word ∨ ∃ g ∈ gs, ∃ dir, w ∈ g dir) ∧
        Inv bs gs { s with line := sp [c_send, n, w], ctx := some ⟨.file, (Completion.next c word).2⟩ } := by
    rintro c word hc ⟨g, hgs, dir, hv⟩
    obtain ⟨w, hw, hor⟩ := next_mem hc word
    obtain ⟨_, h2, h3⟩ := Completion.next_ok c word hc
    refine ⟨w, hw, hor.imp id (fun hm => ⟨g, hgs, dir, hv _ hm⟩), hb, hg, ?_⟩
    intro x hx
    simp only [Option.some.injEq] at hx
    subst hx
    refine ⟨h2, fun he => (by cases he), fun _ => ⟨g, hgs, dir, ?_⟩⟩
    show ∀ v ∈ (Completion.next c word).2.all, v ∈ g dir
    rw [h3]
    exact hv
  -- the state in which the file is completed
  obtain ⟨t, ht, htc⟩ : ∃ t : State, t = (if [47] <:+ a2 ∨ a2 = [126] then { s with ctx := none } else s) ∧
      (t = { s with ctx := t.ctx } ∧ (t.ctx = none ∨ t.ctx = s.ctx)) := by
    refine ⟨_, rfl, ?_⟩
    split
    · exact ⟨rfl, .inl rfl⟩
    · exact ⟨rfl, .inr rfl⟩
  have ht1 : t.glob = s.glob := by rw [htc.1]
  have ht2 : t.home = s.home := by rw [htc.1]
  have fin : ∀ f ctx, completeDir t a2 = (.ok f, ctx) → completeDirCommandLine s [c_send, n, a2] =
      .ok { s with line := sp [c_send, n, f], ctx := ctx } := by
    intro f ctx he
    unfold completeDirCommandLine
    dsimp only
    rw [← ht, he]
    dsimp only
    rw [htc.1]
    simp [sp]
  -- a new list of files
  have new : (∀ c, t.ctx ≠ some ⟨.file, c⟩) → ∃ s' w, completeDirCommandLine s [c_send, n, a2] = .ok s' ∧
      s' = { s with line := sp [c_send, n, w], ctx := s'.ctx } ∧ Inv bs gs s' ∧
      (w = a2 ∨ (∃ g ∈ gs, ∃ dir, w ∈ g dir) ∨ expand s.home a2 = some w ∨ (expand s.home a2 = none ∧ w = [])) := by
    intro hn
    have hd : completeDir t a2 = match expand t.home a2 with
        | none => (.ok [], none)
        | some ef => ((Completion.next (Completion.fresh (sorted (t.glob ef))) ef).1,
            some ⟨.file, (Completion.next (Completion.fresh (sorted (t.glob ef))) ef).2⟩) := by
      unfold completeDir
      split
      · rename_i c hc; exact absurd hc (hn c)
      · rfl
    rw [ht2] at hd
    cases he : expand s.home a2 with
    | none =>
      rw [he] at hd
      refine ⟨{ s with line := sp [c_send, n, []], ctx := none }, [], fin _ _ hd, rfl, ⟨hb, hg, ?_⟩, .inr (.inr (.inr ⟨rfl, rfl⟩))⟩
      intro x hx
      cases hx
    | some ef =>
      rw [he] at hd
      dsimp only at hd
      obtain ⟨w, h1, h2, h3⟩ := key (Completion.fresh (sorted (t.glob ef))) ef (fresh_ok _)
        ⟨s.glob, hg, ef, fun v hv => by rw [← ht1]; exact mem_sorted.mp hv⟩
      rw [h1] at hd
      refine ⟨_, w, fin _ _ hd, rfl, h3, ?_⟩
      rcases h2 with rfl | h2
      · exact .inr (.inr (.inl rfl))
      · exact .inr (.inl h2)
  rcases htc.2 with hc | hc
  · exact new (fun c => by rw [hc]; simp)
  · by_cases hf : ∃ c, t.ctx = some ⟨.file, c⟩
    · obtain ⟨c, hf⟩ := hf
      obtain ⟨h1, _, h2⟩ := hx _ (hc ▸ hf)
      obtain ⟨w, g1, g2, g3⟩ := key c a2 h1 (h2 rfl)
      have hd : completeDir t a2 = ((Completion.next c a2).1, some ⟨.file, (Completion.next c a2).2⟩) := by
        unfold completeDir
        rw [hf]
      rw [g1] at hd
      exact ⟨_, w, fin _ _ hd, rfl, g3, g2.imp id .inl⟩
    · exact new (fun c hcc => hf ⟨c, hcc⟩)

theorem tab_line {bs gs s} (h : Inv bs gs s) :
    ∃ s', tab s = .ok s' ∧ s' = { s with line := s'.line, ctx := s'.ctx } ∧ Inv bs gs s' ∧
      (Change bs gs s.home s.line s'.line ∨ Erased s.home s.line s'.line) := by
  have same : ∃ s', (Outcome.ok s : Outcome Empty State) = .ok s' ∧ s' = { s with line := s'.line, ctx := s'.ctx } ∧ Inv bs gs s' ∧
      (Change bs gs s.home s.line s'.line ∨ Erased s.home s.line s'.line) := ⟨s, rfl, rfl, h, .inl (.same _)⟩
  obtain ⟨hsp, hbl⟩ := sp_split s.line
  have nick : ∀ a0, a0 ∈ contactCommands → (Text.split s.line).head? = some a0 →
      ∃ s', completeNickCommandLine s (Text.split s.line) = .ok s' ∧ s' = { s with line := s'.line, ctx := s'.ctx } ∧ Inv bs gs s' ∧
      (Change bs gs s.home s.line s'.line ∨ Erased s.home s.line s'.line) := by
    intro a0 ha hh
    match hs : Text.split s.line with
    | [] => exact same
    | [a] => exact same
    | [a, a1] =>
      rw [hs] at hh hsp hbl
      simp only [List.head?_cons, Option.some.injEq] at hh
      subst hh
      obtain ⟨s', w, h1, h2, h3, h4⟩ := nick_line (a0 := a) (a1 := a1) h
      refine ⟨s', h1, ?_, h3, .inl ?_⟩
      · have hl : s'.line = sp [a, w] := by rw [h2]
        rw [hl]; exact h2
      · have hl : s'.line = sp [a, w] := by rw [h2]
        rw [hl, ← hsp]
        rcases h4 with rfl | ⟨b, hb, hw⟩
        · exact .same _
        · exact .contact ha (hbl _ (by simp)) hb hw
    | a :: a1 :: a2 :: as => exact same
  unfold tab
  split
  · exact same
  · dsimp only
    split
    · exact same
    · rename_i a0 hh
      split
      · rename_i hc
        exact nick a0 (contactCommands_iff.mpr (.inl hc)) hh
      · split
        · rename_i he
          split
          · exact nick a0 (contactCommands_iff.mpr (.inr he)) hh
          · split
            · rename_i hlen
              obtain ⟨a, n, a2, hs⟩ := List.length_eq_three.mp hlen
              rw [hs] at hh hsp hbl ⊢
              simp only [List.head?_cons, Option.some.injEq] at hh
              subst hh
              subst he
              obtain ⟨s', w, h1, h2, h3, h4⟩ := dir_line (n := n) (a2 := a2) h
              have hl : s'.line = sp [c_send, n, w] := by rw [h2]
              have hsend : spelled "/send" = c_send := by decide
              refine ⟨s', h1, by rw [hl]; exact h2, h3, ?_⟩
              rw [hl, ← hsp]
              rcases h4 with rfl | ⟨g, hg, dir, hw⟩ | he | ⟨he, rfl⟩
              · exact .inl (.same _)
              · have := Change.file (bs := bs) (home := s.home) (hbl n (by simp)) (hbl a2 (by simp)) hg hw
                rw [hsend] at this
                exact .inl this
              · have := Change.home (bs := bs) (gs := gs) (hbl n (by simp)) (hbl a2 (by simp)) he
                rw [hsend] at this
                exact .inl this
              · have := Erased.mk (n := n) he
                rw [hsend] at this
                exact .inr this
            · exact same
        · exact same

theorem run_inv {bs gs} {s : State} {es : List Ev} (hi : Inv bs gs s) (hb : ∀ l, Ev.book l ∈ es → l ∈ bs)
    (hg : ∀ g, Ev.files g ∈ es → g ∈ gs) : ∃ s', run s es = .ok s' ∧ Inv bs gs s' ∧ s'.home = s.home := by
  induction es generalizing s with
  | nil => exact ⟨s, rfl, hi, rfl⟩
  | cons e es ih =>
    have hstep : ∃ t, step s e = .ok t ∧ Inv bs gs t ∧ t.home = s.home := by
      cases e with
      | edit l => exact ⟨_, rfl, hi, rfl⟩
      | tab =>
        obtain ⟨t, h1, h2, h3, _⟩ := tab_line hi
        exact ⟨t, h1, h3, by rw [h2]⟩
      | enter =>
        refine ⟨_, rfl, ?_, ?_⟩
        · unfold enter
          split
          · exact hi
          · exact ⟨hi.1, hi.2.1, fun x hx => by cases hx⟩
        · unfold enter
          split <;> rfl
      | book l => exact ⟨_, rfl, ⟨hb l List.mem_cons_self, hi.2.1, hi.2.2⟩, rfl⟩
      | files g => exact ⟨_, rfl, ⟨hi.1, hg g List.mem_cons_self, hi.2.2⟩, rfl⟩
    obtain ⟨t, h1, h2, h3⟩ := hstep
    obtain ⟨u, g1, g2, g3⟩ := ih h2 (fun l hl => hb l (List.mem_cons_of_mem _ hl)) (fun g hl => hg g (List.mem_cons_of_mem _ hl))
    exact ⟨u, by unfold run; rw [h1]; exact g1, g2, g3.trans h3⟩

theorem start_inv {s : State} (h : s.ctx = none) (es : List Ev) : Inv (books s es) (globs s es) s :=
  ⟨List.mem_cons_self, List.mem_cons_self, fun x hx => by rw [h] at hx; cases hx⟩

/-- **C119** Whatever was typed, completed and entered before, and whatever contacts and files came and went, nothing
crashes, and Tab changes nothing but the line and the completion in progress. (partial: a home of somebody else is removed
from the line, `C119_erased_violated`.) Otherwise the line stays, or its last word becomes a contact, a file or a home
directory, as it was at some time since the line was begun. -/
theorem C119_kept_partial (s : State) (es : List Ev) (h : s.ctx = none) :
    ∃ t t', run s es = .ok t ∧ tab t = .ok t' ∧ t' = { t with line := t'.line, ctx := t'.ctx } ∧
      (Change (books s es) (globs s es) s.home t.line t'.line ∨ Erased s.home t.line t'.line) := by
  obtain ⟨t, h1, h2, h3⟩ := run_inv (es := es) (start_inv h es)
    (fun l hl => List.mem_cons_of_mem _ (List.mem_filterMap.mpr ⟨_, hl, rfl⟩))
    (fun g hl => List.mem_cons_of_mem _ (List.mem_filterMap.mpr ⟨_, hl, rfl⟩))
  obtain ⟨t', g1, g2, _, g4⟩ := tab_line h2
  rw [h3] at g4
  exact ⟨t, t', h1, g1, g2, g4⟩

/-- **C119** With every line that is entered the completion ends. -/
theorem C119_enter (s : State) (h : s.line ≠ []) : (enter s).ctx = none ∧ (enter s).line = [] ∧ (enter s).book = s.book := by
  unfold enter
  rw [if_neg h]
  exact ⟨rfl, rfl, rfl⟩

theorem tab_nick {s : State} {a0 a1 : Bytes} (h0 : a0 ∈ contactCommands) (hl : s.line = sp [a0, a1]) (h1 : (32 : UInt8) ∉ a1) :
    tab s = completeNickCommandLine s [a0, a1] := by
  obtain ⟨hb, hn⟩ := contact_noblank h0
  have hs : Text.split s.line = [a0, a1] := by
    rw [hl]
    exact split_sp _ (by simp) (by simp [hb, h1])
  unfold tab
  rw [if_neg (by rw [hl]; exact sp_ne hn _), hs]
  dsimp only [List.head?_cons]
  rcases contactCommands_iff.mp h0 with h | h
  · rw [if_pos h]
  · split
    · rfl
    · first | rw [if_pos h, if_pos (by simp)] | rw [if_pos (by simp)]

/-- **C119** The first Tab after a command completes the contact to the first one, in the order of the alphabet, that
begins with what was typed; if there is none, the line stays. -/
theorem C119_first (s : State) (a0 a1 : Bytes) (h : s.ctx = none) (h0 : a0 ∈ contactCommands) (h1 : (32 : UInt8) ∉ a1)
    (hl : s.line = sp [a0, a1]) : ∃ s' w, tab s = .ok s' ∧ s'.line = sp [a0, w] ∧ First s.book a1 w := by
  obtain ⟨w, hw, hf⟩ := next_first s.book a1
  rw [tab_nick h0 hl h1]
  unfold completeNickCommandLine completeNick
  dsimp only
  rw [h]
  dsimp only
  rw [hw]
  exact ⟨_, w, rfl, by simp [sp], hf⟩

/-- **C119** The file to send: likewise, when the name ends with a slash, is a tilde, or is the first one after a command. -/
theorem C119_file (s : State) (n a2 ef : Bytes) (h : s.ctx = none ∨ [47] <:+ a2 ∨ a2 = [126]) (hn : (32 : UInt8) ∉ n)
    (h2 : (32 : UInt8) ∉ a2) (hl : s.line = sp [spelled "/send", n, a2]) (he : expand s.home a2 = some ef) :
    ∃ s' w, tab s = .ok s' ∧ s'.line = sp [spelled "/send", n, w] ∧ First (s.glob ef) ef w := by
  obtain ⟨w, hw, hf⟩ := next_first (s.glob ef) ef
  have hsend : spelled "/send" = c_send := by decide
  rw [hsend] at hl ⊢
  have hs : Text.split s.line = [c_send, n, a2] := by
    rw [hl]
    exact split_sp _ (by simp) (by
      intro w hw
      simp only [List.mem_cons, List.not_mem_nil, or_false] at hw
      rcases hw with rfl | rfl | rfl
      · decide
      · exact hn
      · exact h2)
  have hcd : completeDir (if [47] <:+ a2 ∨ a2 = [126] then { s with ctx := none } else s) a2 =
      ((Completion.next (Completion.fresh (sorted (s.glob ef))) ef).1,
        some ⟨.file, (Completion.next (Completion.fresh (sorted (s.glob ef))) ef).2⟩) := by
    have key : ∀ t : State, t.ctx = none → t.home = s.home → t.glob = s.glob → completeDir t a2 =
        ((Completion.next (Completion.fresh (sorted (s.glob ef))) ef).1,
        some ⟨.file, (Completion.next (Completion.fresh (sorted (s.glob ef))) ef).2⟩) := by
      intro t h1 h2 h3
      unfold completeDir
      rw [h1]
      dsimp only
      rw [h2, he, h3]
    split
    · exact key _ rfl rfl rfl
    · rename_i hx
      exact key s (h.resolve_right hx) rfl rfl
  unfold tab
  rw [if_neg (by rw [hl]; exact sp_ne (by decide) _), hs]
  dsimp only [List.head?_cons]
  rw [if_neg (by decide), if_pos rfl, if_neg (by simp), if_pos (by simp)]
  unfold completeDirCommandLine
  dsimp only
  rw [hcd, hw]
  exact ⟨_, w, rfl, by simp [sp], hf⟩

/-- Tab pressed `n` times. -/
def tabs (n : Nat) : List Ev := List.replicate n .tab

theorem run_tabs_succ (s : State) (n : Nat) : run s (tabs (n + 1)) = match tab s with
    | .ok s' => run s' (tabs n) | .err x => .err x | .panic => .panic := by
  have h : tabs (n + 1) = Ev.tab :: tabs n := rfl
  rw [h, run]
  rfl

/-- **C119** Pressed again and again, Tab goes through the contacts in the order of the alphabet and begins again at the
end. (partial: nicks have no spaces; see `C119_stuck_violated`.) -/
theorem C119_cycle_partial (s : State) (a0 : Bytes) (h : s.ctx = none) (h0 : a0 ∈ contactCommands)
    (hl : s.line = sp [a0, []]) (hb : ∀ v ∈ s.book, v ≠ [] ∧ (32 : UInt8) ∉ v) (hne : s.book ≠ []) :
    ∃ l : List Bytes, l.Perm s.book ∧ l.Pairwise le ∧ ∃ hp : 0 < l.length, ∀ k, ∃ s', run s (tabs (k + 1)) = .ok s' ∧
      s'.line = sp [a0, l[k % l.length]'(Nat.mod_lt _ hp)] := by
  have hperm : (sorted s.book).Perm s.book := List.perm_insertionSort le s.book
  have hp : 0 < (sorted s.book).length := by
    rw [hperm.length_eq]
    exact List.length_pos_iff.mpr hne
  refine ⟨sorted s.book, hperm, sorted_le _, hp, ?_⟩
  have hall : ∀ v ∈ sorted s.book, v ≠ [] ∧ (32 : UInt8) ∉ v := fun v hv => hb v (mem_sorted.mp hv)
  generalize hL : sorted s.book = L at hp hall
  -- one more Tab
  have one : ∀ (t : State) (i : Nat) (hi : i < L.length), t.line = sp [a0, L[i]] → t.ctx = some ⟨.nick, ⟨L, i, i⟩⟩ →
      tab t = .ok { t with line := sp [a0, L[(i + 1) % L.length]'(Nat.mod_lt _ hp)], ctx := some ⟨.nick, ⟨L, ((i + 1) % L.length : Nat), ((i + 1) % L.length : Nat)⟩⟩ } := by
    intro t i hi h1 h2
    rw [tab_nick h0 h1 (hall _ (List.getElem_mem hi)).2]
    unfold completeNickCommandLine completeNick
    dsimp only
    rw [h2]
    dsimp only
    rw [Completion.next_at L (fun v hv => (hall v hv).1) i hi]
    simp [sp]
  have many : ∀ (k : Nat) (t : State) (i : Nat) (hi : i < L.length), t.line = sp [a0, L[i]] → t.ctx = some ⟨.nick, ⟨L, i, i⟩⟩ →
      ∃ s', run t (tabs k) = .ok s' ∧ s'.line = sp [a0, L[(i + k) % L.length]'(Nat.mod_lt _ hp)] := by
    intro k
    induction k with
    | zero =>
      intro t i hi h1 _
      refine ⟨t, rfl, ?_⟩
      simp only [Nat.add_zero, Nat.mod_eq_of_lt hi]
      exact h1
    | succ k ih =>
      intro t i hi h1 h2
      rw [run_tabs_succ, one t i hi h1 h2]
      dsimp only
      obtain ⟨s', g1, g2⟩ := ih { t with line := sp [a0, L[(i + 1) % L.length]'(Nat.mod_lt _ hp)], ctx := some ⟨.nick, ⟨L, ((i + 1) % L.length : Nat), ((i + 1) % L.length : Nat)⟩⟩ }
        ((i + 1) % L.length) (Nat.mod_lt _ hp) rfl rfl
      refine ⟨s', g1, ?_⟩
      rw [g2]
      have : ((i + 1) % L.length + k) % L.length = (i + (k + 1)) % L.length := by
        rw [Nat.mod_add_mod]; congr 1; omega
      simp only [this]
  intro k
  rw [run_tabs_succ, tab_nick h0 hl (by simp)]
  have hn : Completion.next (Completion.fresh L) [] = (.ok L[0], ⟨L, 0, 0⟩) := by
    unfold Completion.next
    rw [if_neg (by simp only [Completion.fresh]; omega), if_pos rfl]
    have : Completion.idx (Completion.fresh L).all 0 = some L[0] := Completion.idx_nat L 0 hp
    rw [this]
    rfl
  unfold completeNickCommandLine completeNick
  dsimp only
  rw [h]
  dsimp only
  rw [hL, hn]
  dsimp only
  obtain ⟨s', g1, g2⟩ := many k { s with line := a0 ++ [(32 : UInt8)] ++ L[0], ctx := some ⟨.nick, ⟨L, 0, 0⟩⟩ } 0 hp (by simp [sp]) rfl
  refine ⟨s', g1, ?_⟩
  rw [g2]
  simp only [Nat.zero_add]

/-- **C119** What was completed is what is asked for when the line is entered: the contact of a command, and the file to
send. (partial: without spaces, see `C119_other_violated`.) -/
theorem C119_sent_partial (low : Bytes → Bytes) (n f : Bytes) (hn : Word n) (hf : Word f) :
    parse low (sp [spelled "/send", n, f]) = .send n f [] ∧ parse low (sp [spelled "/q", n]) = .query n ∧
    parse low (sp [spelled "/query", n]) = .query n ∧ parse low (sp [spelled "/info", n]) = .info n ∧
    parse low (sp [spelled "/reset", n]) = .reset n := by
  have e1 : spelled "/send" = c_send := by decide
  have e2 : spelled "/q" = c_q := by decide
  have e3 : spelled "/query" = c_query := by decide
  have e4 : spelled "/info" = c_info := by decide
  have e5 : spelled "/reset" = c_reset := by decide
  rw [e1, e2, e3, e4, e5]
  refine ⟨?_, ?_, ?_, ?_, ?_⟩
  · rw [parse_sp _ _ _ (by decide) (by
      intro w hw
      simp only [List.mem_cons, List.not_mem_nil, or_false] at hw
      rcases hw with rfl | rfl | rfl
      · decide
      · exact hn.blank
      · exact hf.blank)]
    show Req.send n f (sendDesc (sp [c_send, n, f]) n f) = _
    have := sendDesc_none n f hn hf
    simp only [sp]
    rw [this]
  all_goals
    rw [parse_sp _ _ _ (by decide) (by
      intro w hw
      simp only [List.mem_cons, List.not_mem_nil, or_false] at hw
      rcases hw with rfl | rfl
      · decide
      · exact hn.blank)]
    rfl

/-! ## Where the claim fails -/

/-- A client with two contacts. -/
def here : State := ⟨[], none, [[98, 111, 98], [97, 110, 110]], fun d => if d = [47, 116] ∨ d = [47, 116, 47] then [[47, 116, 47, 97, 32, 98], [47, 116, 47, 97]] else [], [[104]]⟩

/-- The line after Tab was pressed some times. -/
def shown (s : State) (l : Bytes) (n : Nat) : Option Bytes :=
  match run { s with line := l } (tabs n) with
  | .ok s' => some s'.line
  | _ => none

/-- Ann, Bob, Ann. -/
example : (List.range 4).map (shown here (spelled "/msg ")) =
    [spelled "/msg ", spelled "/msg ann", spelled "/msg bob", spelled "/msg ann"].map some := by decide
example : shown here (spelled "/msg b") 1 = some (spelled "/msg bob") := by decide
example : shown here (spelled "/send bob /t/") 1 = some (spelled "/send bob /t/a") := by decide
example : shown here (spelled "/gc b") 1 = some (spelled "/gc b") := by decide
example : shown here (spelled "/send bob ~") 1 = some (spelled "/send bob /h") := by decide
example : ∃ s' w, tab { here with line := sp [spelled "/m", [98]] } = .ok s' ∧ s'.line = sp [spelled "/m", w] ∧ First here.book [98] w :=
  C119_first _ _ _ rfl (by decide) (by decide) rfl
example : expand [[104]] (spelled "~/x") = some (spelled "/h/x") ∧ expand [[104]] (spelled "~/..") = some (spelled "/") := by decide

/-- **C119, negation.** A file in the home of somebody else is wiped off the line. -/
theorem C119_erased_violated : ∃ s, s.ctx = none ∧ s.line = spelled "/send bob ~eve/song" ∧
    ∃ s', tab s = .ok s' ∧ s'.line = spelled "/send bob " := by
  refine ⟨{ here with line := spelled "/send bob ~eve/song" }, rfl, rfl, { here with line := spelled "/send bob ", ctx := none }, ?_, rfl⟩
  rfl

/-- **C119, negation.** A contact that is gone is still offered, and one that is new is not. -/
theorem C119_stale_violated : ∃ s es t, s.ctx = none ∧ run s es = .ok t ∧
    (∃ w t', tab { t with line := spelled "/msg a" } = .ok t' ∧ t'.line = sp [spelled "/msg", w] ∧ w ∉ t.book ∧ w ≠ [97]) ∧
    (∃ w ∈ t.book, [99] <+: w ∧ ∃ t', tab { t with line := spelled "/msg c" } = .ok t' ∧ t'.line = spelled "/msg c") := by
  refine ⟨{ here with line := spelled "/msg b" }, [.tab, .book [[98, 111, 98], [99, 97, 116]]], _, rfl, rfl, ⟨[97, 110, 110], _, rfl, by decide, by decide, by decide⟩,
    [99, 97, 116], by decide, by decide, _, rfl, by decide⟩

/-- **C119, negation.** A file whose name was begun is not found. -/
theorem C119_begun_violated : ∃ s, s.ctx = none ∧ s.line = spelled "/send bob /t/a" ∧
    (∃ f ∈ s.glob (spelled "/t/"), spelled "/t/a" <+: f ∧ f ≠ spelled "/t/a") ∧ ∃ s', tab s = .ok s' ∧ s'.line = s.line :=
  ⟨{ here with line := spelled "/send bob /t/a" }, rfl, rfl, ⟨[47, 116, 47, 97, 32, 98], by decide, by decide, by decide⟩, _, rfl, by decide⟩

/-- **C119, negation.** The user completes the name of one file, and another one is sent. -/
theorem C119_other_violated (low : Bytes → Bytes) : ∃ s es t f, s.ctx = none ∧ run s es = .ok t ∧
    f ∈ s.glob (spelled "/t/") ∧ t.line = sp [spelled "/send", spelled "bob", f] ∧
    ∃ f' d, parse low t.line = .send (spelled "bob") f' d ∧ f' ∈ s.glob (spelled "/t/") ∧ f' ≠ f := by
  refine ⟨{ here with line := spelled "/send bob /t/" }, tabs 2, _, spelled "/t/a b", rfl, rfl, by decide, by decide, spelled "/t/a", [98], ?_, by decide, by decide⟩
  rfl

/-- **C119, negation.** At a nick with a space the contacts after it are out of reach. -/
theorem C119_stuck_violated : ∃ s, s.ctx = none ∧ s.line = spelled "/msg " ∧ spelled "bob" ∈ s.book ∧
    ∀ n, ∃ t, run s (tabs n) = .ok t ∧ t.line ≠ spelled "/msg bob" := by
  refine ⟨{ here with line := spelled "/msg ", book := [spelled "a b", spelled "bob"] }, rfl, rfl, by decide, fun n => ?_⟩
  cases n with
  | zero => exact ⟨_, rfl, by decide⟩
  | succ n =>
    have h1 : tab { here with line := spelled "/msg ", book := [spelled "a b", spelled "bob"] } =
        .ok { here with line := spelled "/msg a b", book := [spelled "a b", spelled "bob"], ctx := some ⟨.nick, ⟨[spelled "a b", spelled "bob"], 0, 0⟩⟩ } := rfl
    rw [run_tabs_succ, h1]
    dsimp only
    have h2 : ∀ n, run { here with line := spelled "/msg a b", book := [spelled "a b", spelled "bob"], ctx := some ⟨.nick, ⟨[spelled "a b", spelled "bob"], 0, 0⟩⟩ } (tabs n) =
        .ok { here with line := spelled "/msg a b", book := [spelled "a b", spelled "bob"], ctx := some ⟨.nick, ⟨[spelled "a b", spelled "bob"], 0, 0⟩⟩ } := by
      intro n
      induction n with
      | zero => rfl
      | succ n ih => rw [run_tabs_succ]; exact ih
    exact ⟨_, h2 n, by decide⟩

end Verif.Tab
