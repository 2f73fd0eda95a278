import Verif.Model.Status
import Mathlib.Tactic.Common
import Mathlib.Data.List.Nodup
import Mathlib.Data.List.Induction

namespace Verif.Status

open Verif

/-! ## Specification -/

/-- The lines among rows. -/
def linesOf (rows : List Row) : List Line :=
  rows.filterMap fun | .line l => some l | _ => none

/-- The days that rows name. -/
def daysOf (rows : List Row) : List Nat :=
  rows.filterMap fun | .day d => some d | _ => none

/-- The windows that have lines the user has not seen, in order. -/
def unseenWins (conv : List Win) : List Nat :=
  (List.range conv.length).filter fun k => (conv[k]?.map fun w => !w.unseen.isEmpty).getD false

/-- Nothing is printed while the user has no window in front of them, that is between closing a window and the
change to the console. -/
def Calm (z : Z) : Ev → Prop
  | .work => (∃ win l r, z.queue = .print win l :: r) → z.visible.isSome
  | _ => True

/-! ## Windows and the one that is in front of the user -/

structure Shape (z : Z) : Prop where
  head : ∃ c t, z.conv = c :: t ∧ c.key = 0
  nodup : (z.conv.map (·.key)).Nodup
  below : ∀ w ∈ z.conv, w.key < z.fresh
  seen : ∀ key, z.visible = some key → ∃ w, z.conv[z.active]? = some w ∧ w.key = key

theorem Shape.inj {z : Z} (h : Shape z) {i j : Nat} {v w : Win} (hi : z.conv[i]? = some v)
    (hj : z.conv[j]? = some w) (hk : v.key = w.key) : i = j := by
  have hil : i < z.conv.length := (List.getElem?_eq_some_iff.1 hi).1
  have h1 : (z.conv.map (·.key))[i]? = (z.conv.map (·.key))[j]? := by simp [hi, hj, hk]
  exact (List.getElem?_inj (by simpa using hil) h.nodup).1 h1

theorem Shape.zero {z : Z} (h : Shape z) {k : Nat} {w : Win} (hk : z.conv[k]? = some w) :
    w.key = 0 ↔ k = 0 := by
  obtain ⟨c, t, hc, h0⟩ := h.head
  constructor
  · intro hw
    exact h.inj hk (by rw [hc]; rfl : z.conv[0]? = some c) (by rw [hw, h0])
  · rintro rfl
    rw [hc] at hk
    simp at hk
    rw [← hk, h0]

theorem map_set_key {conv : List Win} {k : Nat} {w w' : Win} (hk : conv[k]? = some w) (he : w'.key = w.key) :
    (conv.set k w').map (·.key) = conv.map (·.key) := by
  apply List.ext_getElem?
  intro i
  rw [List.getElem?_map, List.getElem?_map, List.getElem?_set]
  by_cases hik : k = i
  · subst hik
    have := (List.getElem?_eq_some_iff.1 hk).1
    simp [this, he, (List.getElem?_eq_some_iff.1 hk).2]
  · simp [hik]

/-- Replacing one window by one with the same key. -/
theorem Shape.set {z : Z} (h : Shape z) {k : Nat} {w w' : Win} (hk : z.conv[k]? = some w)
    (he : w'.key = w.key) : Shape { z with conv := z.conv.set k w' } := by
  have hm := map_set_key hk he
  refine ⟨?_, by rw [hm]; exact h.nodup, ?_, ?_⟩
  · obtain ⟨c, t, hc, h0⟩ := h.head
    rcases k with _ | k
    · rw [hc] at hk ⊢
      simp at hk
      exact ⟨w', t, rfl, by rw [he, ← hk, h0]⟩
    · exact ⟨c, t.set k w', by simp [hc], h0⟩
  · intro v hv
    have : v.key ∈ (z.conv.set k w').map (·.key) := List.mem_map_of_mem hv
    rw [hm] at this
    obtain ⟨u, hu, huk⟩ := List.mem_map.1 this
    rw [← huk]
    exact h.below u hu
  · intro key hkey
    obtain ⟨v, hv, hvk⟩ := h.seen key hkey
    have : ((z.conv.set k w').map (·.key))[z.active]? = some key := by
      rw [hm]; simp [hv, hvk]
    rw [List.getElem?_map, Option.map_eq_some_iff] at this
    exact this

theorem Shape.congr {z z' : Z} (h : Shape z) (h1 : z'.conv = z.conv) (h2 : z'.fresh = z.fresh)
    (h3 : z'.visible = z.visible) (h4 : z'.active = z.active) : Shape z' :=
  ⟨by rw [h1]; exact h.head, by rw [h1]; exact h.nodup, by rw [h1, h2]; exact h.below,
    by rw [h1, h3, h4]; exact h.seen⟩

theorem calc_some {z z' : Z} (h : z.calculateStatus = some z') :
    z.active < z.conv.length ∧ z' = { z with status := dirtyList z.conv } := by
  unfold Z.calculateStatus at h
  split at h
  · exact ⟨by assumption, by simpa using h.symm⟩
  · exact absurd h (by simp)

theorem updateTS_key (w : Win) (d : Option Nat) : (updateTS w d).key = w.key := by
  unfold updateTS
  split
  · rfl
  · split
    · rfl
    · split <;> rfl

theorem notice_key (v : Option Nat) (l : Line) (w : Win) : (notice v l w).key = w.key := by
  unfold notice; split <;> rfl

theorem write_key (z : Z) (k : Nat) (l : Line) (w : Win) : (write z k l w).key = w.key := by
  simp only [write, notice_key]
  split <;> simp only [updateTS_key] <;> split <;> rfl

/-- What `printf` does. -/
theorem print_some {z z' : Z} {win : Option Nat} {l : Line} (h : z.print win l = some z') :
    (z.conv[win.getD z.active]? = none ∧ z.calculateStatus = some z') ∨
    ∃ w, z.conv[win.getD z.active]? = some w ∧
      Z.calculateStatus { z with conv := z.conv.set (win.getD z.active) (write z (win.getD z.active) l w) } = some z' := by
  simp only [Z.print] at h
  split at h
  · next hn => exact Or.inl ⟨hn, h⟩
  · next w hw =>
    split at h
    · exact absurd h (by simp)
    · exact Or.inr ⟨w, hw, h⟩

theorem focus_some {z z' : Z} {k : Nat} (h : z.focus k = some z') :
    (k ≠ 0 ∧ k = z.active ∧ z' = z) ∨
    (z.conv[k]? = none ∧ z' = z.push [.print (some 0) ⟨false, none, 0⟩]) ∨
    ∃ w, z.conv[k]? = some w ∧ Z.calculateStatus
      { z with conv := z.conv.set k (shown w), active := k, visible := some w.key } = some z' := by
  unfold Z.focus at h
  split at h
  · next hc => exact Or.inl ⟨hc.1, hc.2, by simpa using h.symm⟩
  · split at h
    · next hn => exact Or.inr (Or.inl ⟨hn, by simpa using h.symm⟩)
    · next w hw => exact Or.inr (Or.inr ⟨w, hw, h⟩)

theorem shape_show {z : Z} (h : Shape z) {k : Nat} {w : Win} (hk : z.conv[k]? = some w) :
    Shape { z with conv := z.conv.set k (shown w), active := k, visible := some w.key } := by
  have hs := h.set (w' := shown w) hk rfl
  refine ⟨hs.head, hs.nodup, hs.below, ?_⟩
  intro key hkey
  have hl := (List.getElem?_eq_some_iff.1 hk).1
  refine ⟨shown w, by simp [hl], ?_⟩
  simpa [shown] using hkey

theorem shape_work {z z' : Z} (h : Shape z) (hw : work z = some z') : Shape z' := by
  unfold work at hw
  split at hw
  · simp at hw; rw [← hw]; exact h
  · next win l r hq =>
    have h0 : Shape { z with queue := r } := h.congr rfl rfl rfl rfl
    rcases print_some hw with ⟨_, hc⟩ | ⟨w, hw', hc⟩
    · obtain ⟨_, rfl⟩ := calc_some hc
      exact h0.congr rfl rfl rfl rfl
    · obtain ⟨_, rfl⟩ := calc_some hc
      exact (h0.set hw' (write_key _ _ _ _)).congr rfl rfl rfl rfl
  · next k r hq =>
    have h0 : Shape { z with queue := r } := h.congr rfl rfl rfl rfl
    rcases focus_some hw with ⟨_, _, rfl⟩ | ⟨_, rfl⟩ | ⟨w, hw', hc⟩
    · exact h0
    · exact h0.congr rfl rfl rfl rfl
    · obtain ⟨_, rfl⟩ := calc_some hc
      exact (shape_show h0 hw').congr rfl rfl rfl rfl
  · next r hq =>
    obtain ⟨_, rfl⟩ := calc_some hw
    exact h.congr rfl rfl rfl rfl

theorem keep_visible {z : Z} {conv : List Win} {key : Nat} (h : (z.keep conv).visible = some key) :
    z.visible = some key ∧ ∃ w ∈ conv, w.key = key := by
  simp only [Z.keep] at h
  split at h
  · next hm =>
    rw [h] at hm
    obtain ⟨w, hw, hk⟩ := List.mem_map.1 hm
    exact ⟨h, w, hw, by simpa using hk⟩
  · exact absurd h (by simp)

theorem erase_sub {α : Type} (l : List α) (k : Nat) :
    List.Sublist (l.take k ++ l.drop (k + 1)) l := by
  conv => rhs; rw [← List.take_append_drop k l]
  apply List.Sublist.append_left
  rw [List.drop_add_one_eq_tail_drop]
  exact List.tail_sublist _

theorem shape_close {z : Z} (h : Shape z) : Shape (close z) := by
  unfold close
  split
  · exact h
  · next hc =>
    have hc : z.active ≠ 0 ∧ z.active < z.conv.length := by omega
    have hsub := erase_sub z.conv z.active
    have h1 : Shape (z.keep (z.conv.take z.active ++ z.conv.drop (z.active + 1))) := by
      refine ⟨?_, (hsub.map _).nodup h.nodup, fun w hw => h.below w (hsub.subset hw), ?_⟩
      · obtain ⟨c, t, hcons, h0⟩ := h.head
        obtain ⟨n, hn⟩ : ∃ n, z.active = n + 1 := ⟨z.active - 1, by omega⟩
        exact ⟨c, t.take n ++ t.drop (n + 1), by simp [Z.keep, hcons, hn], h0⟩
      · intro key hkey
        exfalso
        obtain ⟨hv, w, hw, hwk⟩ := keep_visible hkey
        obtain ⟨v, hav, hvk⟩ := h.seen key hv
        obtain ⟨i, hi⟩ := List.mem_iff_getElem?.1 hw
        by_cases hlt : i < z.active
        · rw [List.getElem?_append_left (by simp; omega), List.getElem?_take_of_lt hlt] at hi
          have := h.inj hi hav (by rw [hwk, hvk]); omega
        · rw [List.getElem?_append_right (by simp; omega), List.getElem?_drop] at hi
          have := h.inj hi hav (by rw [hwk, hvk]); simp at this; omega
    exact h1.congr rfl rfl rfl rfl

theorem shape_closeAll {z : Z} (h : Shape z) : Shape (closeAll z) := by
  obtain ⟨c, t, hcons, h0⟩ := h.head
  have hsub : List.Sublist (z.conv.take 1) z.conv := List.take_sublist _ _
  have h1 : Shape (z.keep (z.conv.take 1)) := by
    refine ⟨⟨c, [], by simp [Z.keep, hcons], h0⟩, (hsub.map _).nodup h.nodup,
      fun w hw => h.below w (hsub.subset hw), ?_⟩
    intro key hkey
    obtain ⟨hv, w, hw, hwk⟩ := keep_visible hkey
    obtain ⟨v, hav, hvk⟩ := h.seen key hv
    have hwc : w = c := by simpa [hcons] using hw
    have : z.active = 0 := (h.zero hav).1 (by rw [hvk, ← hwk, hwc, h0])
    exact ⟨c, by simp [Z.keep, hcons, this], by rw [← hwc, hwk]⟩
  exact h1.congr rfl rfl rfl rfl

theorem shape_gm {z : Z} (h : Shape z) (k : Nat) (l : Line) : Shape (gm z k l) := by
  unfold gm
  split
  · exact h
  · next w hw =>
    refine (h.set (k := k) (w := w) hw ?_).congr rfl rfl rfl rfl
    split <;> rfl

theorem shape_open {z : Z} (h : Shape z) (s : Nat) : Shape (openWin z s) := by
  have h1 : Shape { z with conv := z.conv ++ [blank z.fresh], fresh := z.fresh + 1 } := by
    refine ⟨?_, ?_, ?_, ?_⟩
    · obtain ⟨c, t, hc, h0⟩ := h.head
      exact ⟨c, t ++ [blank z.fresh], by simp [hc], h0⟩
    · simp only [List.map_append, List.map_cons, List.map_nil]
      rw [List.nodup_append]
      refine ⟨h.nodup, by simp, ?_⟩
      intro a ha b hb
      obtain ⟨w, hw, rfl⟩ := List.mem_map.1 ha
      have := h.below w hw
      simp [blank] at hb
      omega
    · intro w hw
      rcases List.mem_append.1 hw with hw | hw
      · have := h.below w hw
        simp only; omega
      · simp at hw
        simp [hw, blank]
    · intro key hkey
      obtain ⟨w, hw, hk⟩ := h.seen key hkey
      have hl := (List.getElem?_eq_some_iff.1 hw).1
      exact ⟨w, by simp [List.getElem?_append_left hl, hw], hk⟩
  exact h1.congr rfl rfl rfl rfl

theorem shape_step {z z' : Z} (h : Shape z) {ev : Ev} (hs : step z ev = some z') : Shape z' := by
  cases ev with
  | work => exact shape_work h hs
  | prev =>
    simp only [step, Option.map_eq_some_iff] at hs
    obtain ⟨k, _, rfl⟩ := hs
    exact h.congr rfl rfl rfl rfl
  | gm k l => simp only [step, Option.some.injEq] at hs; subst hs; exact shape_gm h k l
  | openWin s => simp only [step, Option.some.injEq] at hs; subst hs; exact shape_open h s
  | close => simp only [step, Option.some.injEq] at hs; subst hs; exact shape_close h
  | closeAll => simp only [step, Option.some.injEq] at hs; subst hs; exact shape_closeAll h
  | _ => simp only [step, Option.some.injEq] at hs; subst hs; exact h.congr rfl rfl rfl rfl

theorem shape_init (s : Bool) : Shape (init s) :=
  ⟨⟨blank 0, [], rfl, rfl⟩, by simp [init], by simp [init, blank], by simp [init, blank]⟩

theorem runs_shape {ok : Z → Ev → Prop} {s : Bool} {z : Z} (h : Runs ok s z) : Shape z := by
  induction h with
  | init => exact shape_init s
  | step _ _ hs ih => exact shape_step ih hs

/-! ## Marks and rows of a window -/

structure WOk (z : Z) (w : Win) : Prop where
  dirty : w.dirty = !w.unseen.isEmpty
  le : w.mark ≤ w.rows.length
  lines : linesOf (w.rows.drop w.mark) = w.unseen
  idle : w.unseen = [] → w.mark = w.rows.length ∧ w.separator = false
  seen : z.visible = some w.key → w.unseen = []
  sep : z.separators = true → w.key ≠ 0 → w.mark ≠ 0 → w.unseen ≠ [] →
    w.separator = true ∧ ∃ t, w.rows.drop w.mark = .sep :: t ∧ Row.sep ∉ t
  none : z.separators = false ∨ w.key = 0 → Row.sep ∉ w.rows

structure Inv (z : Z) : Prop where
  shape : Shape z
  wins : ∀ w ∈ z.conv, WOk z w

theorem WOk.congr {z z' : Z} {w : Win} (h : WOk z w) (hv : z'.visible = some w.key → z.visible = some w.key)
    (hs : z'.separators = z.separators) : WOk z' w :=
  ⟨h.dirty, h.le, h.lines, h.idle, fun he => h.seen (hv he), fun a => h.sep (hs ▸ a), by rw [hs]; exact h.none⟩

/-- The rows that a line adds after the separator. -/
theorem updateTS_rows (w : Win) (d : Option Nat) : ∃ ds : List Row, (∀ r ∈ ds, ∃ e, r = .day e) ∧
    updateTS w d = { w with rows := w.rows ++ ds, last := (updateTS w d).last } := by
  unfold updateTS
  split
  · exact ⟨[], by simp, by simp⟩
  · next d =>
    split
    · exact ⟨[.day d], by simp, rfl⟩
    · split
      · exact ⟨[.day d], by simp, rfl⟩
      · exact ⟨[], by simp, by simp⟩

theorem linesOf_days {ds : List Row} (h : ∀ r ∈ ds, ∃ e, r = .day e) : linesOf ds = [] := by
  simp only [linesOf, List.filterMap_eq_nil_iff]
  intro r hr
  obtain ⟨e, rfl⟩ := h r hr
  rfl

theorem sep_days {ds : List Row} (h : ∀ r ∈ ds, ∃ e, r = .day e) : Row.sep ∉ ds := by
  intro hr
  obtain ⟨e, he⟩ := h _ hr
  exact absurd he (by simp)

theorem linesOf_append (a b : List Row) : linesOf (a ++ b) = linesOf a ++ linesOf b := by
  simp [linesOf]

/-- A line in a window that is not in front of the user, when another window is. -/
theorem wok_away {z : Z} (hz : Shape z) {k : Nat} {w : Win} (hk : z.conv[k]? = some w) (h : WOk z w)
    (hne : z.active ≠ k) (l : Line) : WOk z (write z k l w) := by
  have hvis : z.visible ≠ some w.key := by
    intro hv
    obtain ⟨v, hv1, hv2⟩ := hz.seen _ hv
    exact hne (hz.inj hv1 hk hv2)
  have hzero := hz.zero hk
  by_cases hn : needSep z k w
  · have hn' := hn
    simp only [needSep, Bool.and_eq_true, decide_eq_true_eq, Bool.not_eq_true', List.isEmpty_eq_false_iff] at hn'
    obtain ⟨ds, hds, he⟩ := updateTS_rows { w with rows := w.rows ++ [.sep], separator := true } l.day
    have hw : write z k l w = { w with
        rows := w.rows ++ ([.sep] ++ ds ++ [.line l]), separator := true, dirty := true,
        last := (updateTS { w with rows := w.rows ++ [.sep], separator := true } l.day).last,
        unseen := w.unseen ++ [l] } := by
      simp only [write, hn, if_true]
      rw [he]
      simp [notice, hvis, hne]
    rw [hw]
    have hld : linesOf ([Row.sep] ++ ds ++ [.line l]) = [l] := by
      rw [linesOf_append, linesOf_append, linesOf_days hds]; rfl
    refine ⟨by simp, by simp; have := h.le; omega, ?_, by simp, fun hv => absurd hv hvis, ?_, ?_⟩
    · simp only [List.drop_append_of_le_length h.le, linesOf_append (w.rows.drop _), h.lines, hld]
    · intro hs hk0 hm _
      refine ⟨rfl, ?_⟩
      by_cases hu : w.unseen = []
      · refine ⟨ds ++ [.line l], ?_, ?_⟩
        · simp only [(h.idle hu).1, List.drop_left]; rfl
        · simp [sep_days hds]
      · have := (h.sep hs hk0 hm hu).1
        rw [hn'.2] at this
        exact absurd this (by simp)
    · intro ho
      rcases ho with ho | ho
      · exact absurd ho (by simp [hn'.1.1.1.2])
      · exact absurd (hzero.1 ho) hn'.1.2
  · have hn' : needSep z k w = false := by simpa using hn
    obtain ⟨ds, hds, he⟩ := updateTS_rows w l.day
    have hw : write z k l w = { w with
        rows := w.rows ++ (ds ++ [.line l]), dirty := true, last := (updateTS w l.day).last,
        unseen := w.unseen ++ [l] } := by
      simp only [write, hn']
      simp only [Bool.false_eq_true, if_false]
      rw [he]
      simp [notice, hvis, hne]
    rw [hw]
    have hld : linesOf (ds ++ [Row.line l]) = [l] := by
      rw [linesOf_append, linesOf_days hds]; rfl
    refine ⟨by simp, by simp; have := h.le; omega, ?_, by simp, fun hv => absurd hv hvis, ?_, ?_⟩
    · simp only [List.drop_append_of_le_length h.le, linesOf_append (w.rows.drop _), h.lines, hld]
    · intro hs hk0 hm _
      have hm : w.mark ≠ 0 := hm
      have hle := h.le
      have hr : w.rows ≠ [] := by
        intro hr; rw [hr] at hle; simp at hle; omega
      have hsep : w.separator = true := by
        simp only [needSep, hne, hs, ne_eq, not_false_iff, decide_true, Bool.true_and] at hn'
        have : decide (k ≠ 0) = true := by
          have := mt hzero.2 hk0
          simpa using this
        simp [hr] at hn'
        exact hn' (by simpa using this)
      have hu : w.unseen ≠ [] := by
        intro hu
        have := (h.idle hu).2
        rw [hsep] at this
        exact absurd this (by simp)
      obtain ⟨_, t, ht, hns⟩ := h.sep hs hk0 hm hu
      refine ⟨hsep, t ++ (ds ++ [.line l]), ?_, ?_⟩
      · simp only [List.drop_append_of_le_length h.le, ht]; rfl
      · simp [hns, sep_days hds]
    · intro ho
      have := h.none ho
      simp [this, sep_days hds]

/-- A line in the window that is in front of the user. -/
theorem wok_here {z : Z} {w : Win} (h : WOk z w) (hv : z.visible = some w.key) (l : Line) :
    WOk z (write z z.active l w) := by
  obtain ⟨ds, hds, he⟩ := updateTS_rows w l.day
  have hu := h.seen hv
  have hw : write z z.active l w = { w with
      rows := w.rows ++ (ds ++ [.line l]), last := (updateTS w l.day).last,
      mark := (w.rows ++ (ds ++ [Row.line l])).length } := by
    simp only [write, needSep, ne_eq, not_true_eq_false, decide_false, Bool.false_and, Bool.false_eq_true, if_false]
    rw [he]
    simp [notice, hv]
  rw [hw]
  refine ⟨h.dirty, by simp, ?_, fun _ => ⟨rfl, (h.idle hu).2⟩, fun _ => hu, fun _ _ _ hne => absurd hu hne, ?_⟩
  · simp only [hu, List.drop_length]; rfl
  · intro ho
    have := h.none ho
    simp [this, sep_days hds]

theorem wok_shown {z z' : Z} {w : Win} (h : WOk z w) (hs : z'.separators = z.separators) :
    WOk z' (shown w) :=
  ⟨rfl, by simp [shown], by simp [shown, linesOf], fun _ => ⟨rfl, rfl⟩, fun _ => rfl,
    fun _ _ _ hne => absurd rfl hne, fun ho => h.none (hs ▸ ho)⟩

theorem mem_set_iff {conv : List Win} {k : Nat} {w' v : Win} (h : v ∈ conv.set k w') :
    v = w' ∨ ∃ i, i ≠ k ∧ conv[i]? = some v := by
  obtain ⟨i, hi⟩ := List.mem_iff_getElem?.1 h
  rw [List.getElem?_set] at hi
  split at hi
  · split at hi
    · exact Or.inl (by simpa using hi.symm)
    · exact absurd hi (by simp)
  · next hne => exact Or.inr ⟨i, fun he => hne he.symm, hi⟩

theorem inv_print {z z' : Z} (h : Inv z) (hvis : z.visible.isSome) {win : Option Nat} {l : Line}
    (hp : z.print win l = some z') : Inv z' := by
  rcases print_some hp with ⟨_, hc⟩ | ⟨w, hw, hc⟩
  · obtain ⟨_, rfl⟩ := calc_some hc
    exact ⟨h.shape.congr rfl rfl rfl rfl, fun v hv => (h.wins v hv).congr id rfl⟩
  · obtain ⟨_, rfl⟩ := calc_some hc
    refine ⟨(h.shape.set hw (write_key _ _ _ _)).congr rfl rfl rfl rfl, ?_⟩
    intro v hv
    rcases mem_set_iff hv with rfl | ⟨i, _, hi⟩
    · have hok := h.wins w (List.mem_of_getElem? hw)
      refine WOk.congr (z := z) ?_ id rfl
      by_cases hne : z.active = win.getD z.active
      · obtain ⟨key, hkey⟩ := Option.isSome_iff_exists.1 hvis
        obtain ⟨u, hu, huk⟩ := h.shape.seen key hkey
        rw [← hne] at hw ⊢
        rw [hw] at hu
        simp only [Option.some.injEq] at hu
        subst hu
        exact wok_here hok (by rw [hkey, huk]) l
      · exact wok_away h.shape hw hok hne l
    · exact (h.wins v (List.mem_of_getElem? hi)).congr id rfl

theorem inv_focus {z z' : Z} (h : Inv z) {k : Nat} (hp : z.focus k = some z') : Inv z' := by
  rcases focus_some hp with ⟨_, _, rfl⟩ | ⟨_, rfl⟩ | ⟨w, hw, hc⟩
  · exact h
  · exact ⟨h.shape.congr rfl rfl rfl rfl, fun v hv => (h.wins v hv).congr id rfl⟩
  · obtain ⟨_, rfl⟩ := calc_some hc
    refine ⟨(shape_show h.shape hw).congr rfl rfl rfl rfl, ?_⟩
    intro v hv
    rcases mem_set_iff hv with rfl | ⟨i, hi, hiv⟩
    · exact wok_shown (h.wins w (List.mem_of_getElem? hw)) rfl
    · refine (h.wins v (List.mem_of_getElem? hiv)).congr ?_ rfl
      intro he
      simp only [Option.some.injEq] at he
      exact absurd (h.shape.inj hiv hw he.symm) hi

theorem wok_mention {z : Z} {w : Win} (h : WOk z w) (b : Bool) : WOk z { w with mentioned := b } :=
  ⟨h.dirty, h.le, h.lines, h.idle, h.seen, h.sep, h.none⟩

theorem wok_blank (z : Z) (key : Nat) : WOk z (blank key) :=
  ⟨rfl, by simp [blank], rfl, fun _ => ⟨rfl, rfl⟩, fun _ => rfl, fun _ _ h => absurd rfl h, by simp [blank]⟩

theorem inv_step {z z' : Z} (h : Inv z) {ev : Ev} (hok : Calm z ev) (hs : step z ev = some z') : Inv z' := by
  have hsh := shape_step h.shape hs
  cases ev with
  | work =>
    simp only [step, work] at hs
    split at hs
    · simp at hs; rw [← hs]; exact h
    · next win l r hq =>
      have h0 : Inv { z with queue := r } :=
        ⟨h.shape.congr rfl rfl rfl rfl, fun v hv => (h.wins v hv).congr id rfl⟩
      exact inv_print h0 (hok ⟨win, l, r, hq⟩) hs
    · next k r hq =>
      have h0 : Inv { z with queue := r } :=
        ⟨h.shape.congr rfl rfl rfl rfl, fun v hv => (h.wins v hv).congr id rfl⟩
      exact inv_focus h0 hs
    · obtain ⟨_, rfl⟩ := calc_some hs
      exact ⟨hsh, fun v hv => (h.wins v hv).congr id rfl⟩
  | prev =>
    simp only [step, Option.map_eq_some_iff] at hs
    obtain ⟨k, _, rfl⟩ := hs
    exact ⟨hsh, fun v hv => (h.wins v hv).congr id rfl⟩
  | gm k l =>
    simp only [step, Option.some.injEq] at hs
    subst hs
    refine ⟨hsh, ?_⟩
    unfold gm
    split
    · exact h.wins
    · next w hw =>
      intro v hv
      rcases mem_set_iff hv with rfl | ⟨i, _, hi⟩
      · refine WOk.congr (z := z) ?_ id rfl
        split
        · exact wok_mention (h.wins w (List.mem_of_getElem? hw)) true
        · exact h.wins w (List.mem_of_getElem? hw)
      · exact (h.wins v (List.mem_of_getElem? hi)).congr id rfl
  | openWin s =>
    simp only [step, Option.some.injEq] at hs
    subst hs
    refine ⟨hsh, ?_⟩
    intro v hv
    rcases List.mem_append.1 hv with hv | hv
    · exact (h.wins v hv).congr id rfl
    · simp at hv
      rw [hv]
      exact wok_blank _ _
  | close =>
    simp only [step, Option.some.injEq] at hs
    subst hs
    refine ⟨hsh, ?_⟩
    unfold close
    split
    · exact h.wins
    · intro v hv
      refine (h.wins v ((erase_sub _ _).subset hv)).congr (fun he => (keep_visible he).1) rfl
  | closeAll =>
    simp only [step, Option.some.injEq] at hs
    subst hs
    refine ⟨hsh, ?_⟩
    intro v hv
    refine (h.wins v ((List.take_sublist _ _).subset hv)).congr (fun he => (keep_visible he).1) rfl
  | _ =>
    simp only [step, Option.some.injEq] at hs
    subst hs
    exact ⟨hsh, fun v hv => (h.wins v hv).congr id rfl⟩

theorem runs_inv {s : Bool} {z : Z} (h : Runs Calm s z) : Inv z := by
  induction h with
  | init =>
    refine ⟨shape_init s, ?_⟩
    intro w hw
    simp [init] at hw
    rw [hw]
    exact wok_blank _ _
  | step _ hok hs ih => exact inv_step ih hok hs

/-! ## The list in the status line -/

/-- The entry of the queue makes the client compute the status line: everything but a change to the window that
is active already, or to one that does not exist. -/
def Effective (z : Z) : Job → Prop
  | .focus k => k < z.conv.length ∧ (k = 0 ∨ k ≠ z.active)
  | _ => True

theorem dirtyList_fst (conv : List Win) (f : Win → Bool) (h : ∀ w ∈ conv, w.dirty = f w) :
    (dirtyList conv).map Prod.fst =
      (List.range conv.length).filter fun k => (conv[k]?.map f).getD false := by
  have hd : ∀ conv : List Win, (dirtyList conv).map Prod.fst =
      (conv.zipIdx.filter fun p => p.1.dirty).map Prod.snd := by
    intro conv; simp [dirtyList, Function.comp_def]
  rw [hd]
  clear hd
  induction conv using List.reverseRecOn with
  | nil => rfl
  | append_singleton l w ih =>
    have ih := ih fun v hv => h v (by simp [hv])
    rw [List.zipIdx_append, List.filter_append, List.map_append, ih, List.length_append, List.length_singleton,
      List.range_succ, List.filter_append]
    congr 1
    · apply List.filter_congr
      intro k hk
      rw [List.getElem?_append_left (by simpa using hk)]
    · have hw := h w (by simp)
      cases hf : f w <;> simp [hw, hf]

theorem dirtyList_unseen {z : Z} (h : Inv z) : (dirtyList z.conv).map Prod.fst = unseenWins z.conv :=
  dirtyList_fst _ _ fun w hw => (h.wins w hw).dirty

/-- The status line after an entry of the queue. -/
theorem work_status {z z' : Z} (h : work z = some z') {j : Job} {r : List Job} (hq : z.queue = j :: r)
    (he : Effective z j) : z'.status = dirtyList z'.conv := by
  unfold work at h
  rw [hq] at h
  cases j with
  | print win l =>
    simp only at h
    rcases print_some h with ⟨_, hc⟩ | ⟨w, _, hc⟩ <;> (obtain ⟨_, rfl⟩ := calc_some hc; rfl)
  | focus k =>
    simp only at h
    rcases focus_some h with ⟨h0, h1, _⟩ | ⟨hn, _⟩ | ⟨w, _, hc⟩
    · rcases he.2 with h2 | h2
      · exact absurd h2 h0
      · exact absurd h1 h2
    · rw [List.getElem?_eq_none_iff] at hn
      have := he.1
      simp only at hn
      omega
    · obtain ⟨_, rfl⟩ := calc_some hc; rfl
  | page =>
    obtain ⟨_, rfl⟩ := calc_some h; rfl

/-- Whenever the client computes the status line, it names exactly the windows with lines that the user has not
seen, in order - as long as nothing is printed between closing a window and showing the console. -/
theorem C104_listed_partial {s : Bool} {z z' : Z} (h : Runs Calm s z) (hc : Calm z .work)
    (hw : work z = some z') {j : Job} {r : List Job} (hq : z.queue = j :: r) (he : Effective z j) :
    z'.status.map Prod.fst = unseenWins z'.conv := by
  rw [work_status hw hq he]
  exact dirtyList_unseen (inv_step (runs_inv h) hc (ev := .work) hw)

/-- No window is closed. -/
def NoClose (_ : Z) : Ev → Prop
  | .close => False
  | .closeAll => False
  | _ => True

theorem unseenWins_congr {a b : List Win} (hl : a.length = b.length)
    (h : ∀ (k : Nat) (v w : Win), a[k]? = some v → b[k]? = some w → v.unseen = w.unseen) : unseenWins a = unseenWins b := by
  unfold unseenWins
  rw [hl]
  apply List.filter_congr
  intro k hk
  have hk : k < b.length := by simpa using hk
  have h1 : a[k]? = some a[k] := List.getElem?_eq_getElem (by omega)
  have h2 : b[k]? = some b[k] := List.getElem?_eq_getElem hk
  rw [h1, h2]
  simp [h k _ _ h1 h2]

theorem noclose_step {z z' : Z} {ev : Ev} (hi : Inv z) (hv : z.visible.isSome)
    (hst : z.status.map Prod.fst = unseenWins z.conv) (hok : NoClose z ev) (hs : step z ev = some z') :
    Inv z' ∧ z'.visible.isSome ∧ z'.status.map Prod.fst = unseenWins z'.conv := by
  have hcalm : Calm z ev := by cases ev <;> first | trivial | exact fun _ => hv
  have hi' := inv_step hi hcalm hs
  refine ⟨hi', ?_⟩
  cases ev with
  | work =>
    simp only [step, work] at hs
    split at hs
    · simp at hs; rw [← hs]; exact ⟨hv, hst⟩
    · rcases print_some hs with ⟨_, hc⟩ | ⟨w, _, hc⟩ <;>
      · obtain ⟨_, rfl⟩ := calc_some hc
        have hd := dirtyList_unseen hi'
        exact ⟨hv, hd⟩
    · rcases focus_some hs with ⟨_, _, rfl⟩ | ⟨_, rfl⟩ | ⟨w, _, hc⟩
      · exact ⟨hv, hst⟩
      · exact ⟨hv, hst⟩
      · obtain ⟨_, rfl⟩ := calc_some hc
        have hd := dirtyList_unseen hi'
        exact ⟨rfl, hd⟩
    · obtain ⟨_, rfl⟩ := calc_some hs
      have hd := dirtyList_unseen hi'
      exact ⟨hv, hd⟩
  | prev =>
    simp only [step, Option.map_eq_some_iff] at hs
    obtain ⟨k, _, rfl⟩ := hs
    exact ⟨hv, hst⟩
  | gm k l =>
    simp only [step, Option.some.injEq] at hs
    subst hs
    unfold gm
    split
    · exact ⟨hv, hst⟩
    · next w hw =>
      refine ⟨hv, ?_⟩
      simp only [Z.push]
      rw [hst]
      apply unseenWins_congr (by simp)
      intro i v u hiv hiu
      rw [List.getElem?_set] at hiu
      split at hiu
      · next he =>
        subst he
        rw [hw] at hiv
        split at hiu
        · simp only [Option.some.injEq] at hiu hiv
          rw [← hiu, ← hiv]
          split <;> rfl
        · exact absurd hiu (by simp)
      · rw [hiv] at hiu
        simp only [Option.some.injEq] at hiu
        rw [hiu]
  | openWin s =>
    simp only [step, Option.some.injEq] at hs
    subst hs
    refine ⟨hv, ?_⟩
    simp only [openWin, Z.push]
    rw [hst]
    unfold unseenWins
    rw [List.length_append, List.length_singleton, List.range_succ, List.filter_append]
    have h1 : (List.range z.conv.length).filter
          (fun k => ((z.conv ++ [blank z.fresh])[k]?.map fun w => !w.unseen.isEmpty).getD false) =
        (List.range z.conv.length).filter (fun k => (z.conv[k]?.map fun w => !w.unseen.isEmpty).getD false) := by
      apply List.filter_congr
      intro k hk
      rw [List.getElem?_append_left (by simpa using hk)]
    rw [h1]
    simp [blank]
  | close => exact absurd hok (by simp [NoClose])
  | closeAll => exact absurd hok (by simp [NoClose])
  | _ =>
    simp only [step, Option.some.injEq] at hs
    subst hs
    exact ⟨hv, hst⟩

/-- As long as no window is closed, the status line names exactly the windows with lines that the user has not
seen at any time. -/
theorem C104_always_partial {s : Bool} {z : Z} (h : Runs NoClose s z) :
    z.status.map Prod.fst = unseenWins z.conv := by
  have : Inv z ∧ z.visible.isSome ∧ z.status.map Prod.fst = unseenWins z.conv := by
    induction h with
    | init =>
      refine ⟨runs_inv .init, rfl, ?_⟩
      simp [init, unseenWins, blank]
    | step _ hok hs ih => exact noclose_step ih.1 ih.2.1 ih.2.2 hok hs
  exact this.2.2

/-! ## Where the user left off -/

/-- With the setting on, the rows since a window that is not the console was last in front of the user begin with
a separator, and there is no other: what follows it is what the user has not seen. Rows that the user has not seen
are there in any case. -/
theorem C104_separator_partial {s : Bool} {z : Z} (h : Runs Calm s z) {k : Nat} {w : Win}
    (hk : z.conv[k]? = some w) :
    linesOf (w.rows.drop w.mark) = w.unseen ∧
    (w.unseen = [] → w.rows.drop w.mark = []) ∧
    (z.separators = true → k ≠ 0 → w.mark ≠ 0 → w.unseen ≠ [] →
      ∃ t, w.rows.drop w.mark = .sep :: t ∧ Row.sep ∉ t ∧ linesOf t = w.unseen) ∧
    (z.separators = false ∨ k = 0 → Row.sep ∉ w.rows) := by
  have hi := runs_inv h
  have hw := hi.wins w (List.mem_of_getElem? hk)
  have hz := hi.shape.zero hk
  refine ⟨hw.lines, fun hu => ?_, ?_, ?_⟩
  · rw [(hw.idle hu).1]; simp
  · intro hs hk0 hm hu
    obtain ⟨_, t, ht, hn⟩ := hw.sep hs (fun h0 => hk0 (hz.1 h0)) hm hu
    refine ⟨t, ht, hn, ?_⟩
    rw [← hw.lines, ht]
    rfl
  · rw [← hz]
    exact hw.none

/-! ## Days -/

theorem daysOf_append (a b : List Row) : daysOf (a ++ b) = daysOf a ++ daysOf b := by
  simp [daysOf]

/-- Rows in which every line that has a day comes after a notice of that day, with no other in between. -/
def Dated (rows : List Row) : Prop :=
  ∀ a l b d, rows = a ++ .line l :: b → l.day = some d → (daysOf a).getLast? = some d

theorem dated_append {rows : List Row} (h : Dated rows) (r : Row)
    (hr : ∀ l d, r = .line l → l.day = some d → (daysOf rows).getLast? = some d) : Dated (rows ++ [r]) := by
  intro a l b d he hd
  rcases List.eq_nil_or_concat b with rfl | ⟨b', x, rfl⟩
  · rw [List.append_inj_left' he rfl] at hr
    have : r = .line l := by
      have := List.append_inj_right' he rfl
      simpa using this
    exact hr l d this hd
  · rw [List.concat_eq_append, ← List.cons_append, ← List.append_assoc] at he
    exact h a l b' d (List.append_inj_left' he rfl) hd

structure WDay (w : Win) : Prop where
  last : (daysOf w.rows).getLast? = w.last
  dated : Dated w.rows

theorem wday_ts {w : Win} (h : WDay w) (d : Option Nat) :
    WDay (updateTS w d) ∧ ∀ e, d = some e → (updateTS w d).last = some e := by
  cases d with
  | none => exact ⟨h, by simp⟩
  | some d =>
    have hday : WDay { w with rows := w.rows ++ [.day d], last := some d } :=
      ⟨by simp [daysOf], dated_append h.dated _ (by simp)⟩
    simp only [updateTS]
    split
    · exact ⟨hday, by simp⟩
    · next e he =>
      split
      · exact ⟨hday, by simp⟩
      · next hne =>
        have : d = e := by simpa using hne
        refine ⟨⟨by rw [h.last, he, this], h.dated⟩, by simp⟩

theorem wday_write {w : Win} (h : WDay w) (z : Z) (k : Nat) (l : Line) : WDay (write z k l w) := by
  have hsep : WDay (if needSep z k w then { w with rows := w.rows ++ [.sep], separator := true } else w) := by
    split
    · exact ⟨by simp only [daysOf_append]; simpa [daysOf] using h.last, dated_append h.dated _ (by simp)⟩
    · exact h
  obtain ⟨h1, h2⟩ := wday_ts hsep l.day
  generalize hu : updateTS (if needSep z k w then { w with rows := w.rows ++ [.sep], separator := true } else w)
    l.day = u at h1 h2
  have h3 : WDay { u with rows := u.rows ++ [.line l] } := by
    refine ⟨by simp only [daysOf_append]; simpa [daysOf] using h1.last, dated_append h1.dated _ ?_⟩
    intro l' d hl hd
    have : l = l' := by simpa using hl
    subst this
    rw [h1.last, h2 d hd]
  have hw : write z k l w = notice z.visible l
      (if z.active ≠ k then { ({ u with rows := u.rows ++ [.line l] } : Win) with dirty := true }
        else { u with rows := u.rows ++ [.line l] }) := by
    simp only [write, hu]
  rw [hw]
  unfold notice
  split <;> split <;> exact ⟨h3.last, h3.dated⟩

theorem wday_step {z z' : Z} (h : ∀ w ∈ z.conv, WDay w) {ev : Ev} (hs : step z ev = some z') :
    ∀ w ∈ z'.conv, WDay w := by
  cases ev with
  | work =>
    simp only [step, work] at hs
    split at hs
    · simp at hs; rw [← hs]; exact h
    · rcases print_some hs with ⟨_, hc⟩ | ⟨w, hw, hc⟩
      · obtain ⟨_, rfl⟩ := calc_some hc; exact h
      · obtain ⟨_, rfl⟩ := calc_some hc
        intro v hv
        rcases mem_set_iff hv with rfl | ⟨i, _, hi⟩
        · exact wday_write (h w (List.mem_of_getElem? hw)) _ _ _
        · exact h v (List.mem_of_getElem? hi)
    · rcases focus_some hs with ⟨_, _, rfl⟩ | ⟨_, rfl⟩ | ⟨w, hw, hc⟩
      · exact h
      · exact h
      · obtain ⟨_, rfl⟩ := calc_some hc
        intro v hv
        rcases mem_set_iff hv with rfl | ⟨i, _, hi⟩
        · have := h w (List.mem_of_getElem? hw)
          exact ⟨this.last, this.dated⟩
        · exact h v (List.mem_of_getElem? hi)
    · obtain ⟨_, rfl⟩ := calc_some hs; exact h
  | prev =>
    simp only [step, Option.map_eq_some_iff] at hs
    obtain ⟨k, _, rfl⟩ := hs
    exact h
  | gm k l =>
    simp only [step, Option.some.injEq] at hs
    subst hs
    unfold gm
    split
    · exact h
    · next w hw =>
      intro v hv
      rcases mem_set_iff hv with rfl | ⟨i, _, hi⟩
      · have := h w (List.mem_of_getElem? hw)
        split
        · exact ⟨this.last, this.dated⟩
        · exact this
      · exact h v (List.mem_of_getElem? hi)
  | openWin s =>
    simp only [step, Option.some.injEq] at hs
    subst hs
    intro v hv
    rcases List.mem_append.1 hv with hv | hv
    · exact h v hv
    · simp at hv
      rw [hv]
      exact ⟨rfl, by intro a l b d he; simp [blank] at he⟩
  | close =>
    simp only [step, Option.some.injEq] at hs
    subst hs
    unfold close
    split
    · exact h
    · exact fun v hv => h v ((erase_sub _ _).subset hv)
  | closeAll =>
    simp only [step, Option.some.injEq] at hs
    subst hs
    exact fun v hv => h v ((List.take_sublist _ _).subset hv)
  | _ =>
    simp only [step, Option.some.injEq] at hs
    subst hs
    exact h

/-- In every window, a line that was received on a day comes after a row that names this day, and no row between
them names another. -/
theorem C104_days {s : Bool} {z : Z} (h : Reach s z) {w : Win} (hw : w ∈ z.conv) {a b : List Row} {l : Line}
    {d : Nat} (hr : w.rows = a ++ .line l :: b) (hd : l.day = some d) : (daysOf a).getLast? = some d := by
  have : ∀ w ∈ z.conv, WDay w := by
    clear hw
    induction h with
    | init =>
      intro w hw
      simp [init] at hw
      rw [hw]
      exact ⟨rfl, by intro a l b d he; simp [blank] at he⟩
    | step _ _ hs ih => exact wday_step ih hs
  exact (this w hw).dated a l b d hr hd

/-! ## Crashes -/

/-- While a window is in front of the user and no time stamp is longer than 79 bytes, the queue is worked off
without a crash. -/
theorem C104_safe_partial {ok : Z → Ev → Prop} {s : Bool} {z : Z} (h : Runs ok s z) (hv : z.visible.isSome)
    (hl : ∀ win l, .print win l ∈ z.queue → l.stamp < 80) : (work z).isSome := by
  have hsh := runs_shape h
  obtain ⟨key, hkey⟩ := Option.isSome_iff_exists.1 hv
  obtain ⟨w, hw, _⟩ := hsh.seen key hkey
  have ha : z.active < z.conv.length := (List.getElem?_eq_some_iff.1 hw).1
  unfold work
  split
  · rfl
  · next win l r hq =>
    have hst := hl win l (by simp [hq])
    have hf : repeatFails z.width l.stamp = false := by simp [repeatFails]; omega
    simp only [Z.print]
    split
    · simp [Z.calculateStatus, ha]
    · simp [hf, Z.calculateStatus, ha]
  · next k r hq =>
    simp only [Z.focus]
    split
    · rfl
    · split
      · rfl
      · next w hw =>
        have := (List.getElem?_eq_some_iff.1 hw).1
        simp [Z.calculateStatus, this]
  · simp [Z.calculateStatus, ha]

/-! ## Going through all windows -/

/-- The key for the next window, when nothing else is going on. -/
def turn (z : Z) : Option Z := (step z .next).bind work

/-- The key for the previous window. -/
def turnBack (z : Z) : Option Z := (step z .prev).bind work

/-- The key for the next window, so many times. -/
def turns : Nat → Z → Option Z
  | 0, z => some z
  | n + 1, z => (turns n z).bind turn

theorem focus_to {z : Z} {k : Nat} (hk : k < z.conv.length) (hne : k = 0 ∨ k ≠ z.active) :
    z.focus k = some { z with
      conv := z.conv.set k (shown z.conv[k])
      active := k
      visible := some z.conv[k].key
      status := dirtyList (z.conv.set k (shown z.conv[k])) } := by
  unfold Z.focus
  rw [if_neg (by omega)]
  simp [Z.calculateStatus, hk]

theorem nextWin_eq {z : Z} (ha : z.active < z.conv.length) :
    nextWin z = (z.active + 1) % z.conv.length := by
  unfold nextWin
  split
  · have : z.active + 1 = z.conv.length := by omega
    rw [this, Nat.mod_self]
  · rw [Nat.mod_eq_of_lt (by omega)]

theorem turn_spec {z : Z} (hq : z.queue = []) (ha : z.active < z.conv.length) :
    ∃ z', turn z = some z' ∧ z'.queue = [] ∧ z'.active = (z.active + 1) % z.conv.length ∧
      z'.conv.length = z.conv.length ∧ z'.status = dirtyList z'.conv ∧
      ∃ w, z.conv[z'.active]? = some w ∧ z'.conv = z.conv.set z'.active (shown w) := by
  have hk : nextWin z < z.conv.length := by rw [nextWin_eq ha]; exact Nat.mod_lt _ (by omega)
  have hne : nextWin z = 0 ∨ nextWin z ≠ z.active := by unfold nextWin; split <;> omega
  have hw : turn z = Z.focus { z with queue := [] } (nextWin z) := by
    simp [turn, step, Z.push, work, hq]
  refine ⟨_, by rw [hw]; exact focus_to (z := { z with queue := [] }) hk hne, rfl, nextWin_eq ha, by simp, rfl,
    z.conv[nextWin z], by simp [List.getElem?_eq_getElem hk], rfl⟩

theorem turns_spec {z : Z} (hq : z.queue = []) (ha : z.active < z.conv.length) (n : Nat) :
    ∃ z', turns n z = some z' ∧ z'.queue = [] ∧ z'.active = (z.active + n) % z.conv.length ∧
      z'.conv.length = z.conv.length ∧ (0 < n → z'.status = dirtyList z'.conv) ∧
      ∀ t, 1 ≤ t → t ≤ n → ∀ w, z'.conv[(z.active + t) % z.conv.length]? = some w →
        w.unseen = [] ∧ w.dirty = false := by
  induction n with
  | zero => exact ⟨z, rfl, hq, by rw [Nat.add_zero, Nat.mod_eq_of_lt ha], rfl, by simp, by intro t h1 h2; omega⟩
  | succ n ih =>
    obtain ⟨z1, h1, q1, a1, l1, _, c1⟩ := ih
    have ha1 : z1.active < z1.conv.length := by rw [l1, a1]; exact Nat.mod_lt _ (by omega)
    obtain ⟨z2, h2, q2, a2, l2, s2, w2, hw2, hc2⟩ := turn_spec q1 ha1
    have ha2 : z2.active = (z.active + (n + 1)) % z.conv.length := by
      rw [a2, l1, a1, Nat.mod_add_mod, Nat.add_assoc]
    refine ⟨z2, by simp [turns, h1, h2], q2, ha2, by rw [l2, l1], fun _ => s2, ?_⟩
    intro t ht1 ht2 w hw
    by_cases hi : (z.active + t) % z.conv.length = z2.active
    · rw [hi, hc2, List.getElem?_set_self (by rw [a2]; exact Nat.mod_lt _ (by omega))] at hw
      simp only [Option.some.injEq] at hw
      rw [← hw]
      exact ⟨rfl, rfl⟩
    · rw [hc2, List.getElem?_set_ne (fun h => hi h.symm)] at hw
      have : t ≠ n + 1 := by
        rintro rfl
        exact hi ha2.symm
      exact c1 t ht1 (by omega) w hw

/-- Pressing the key for the next window as often as there are windows shows each of them: nothing is unseen, the
status line names no window, and the user is back where they were. -/
theorem C104_catch_up {z : Z} (hq : z.queue = []) (ha : z.active < z.conv.length) :
    ∃ z', turns z.conv.length z = some z' ∧ z'.active = z.active ∧ z'.status = [] ∧
      ∀ w ∈ z'.conv, w.unseen = [] := by
  obtain ⟨z', h, _, hact, hlen, hst, hc⟩ := turns_spec hq ha z.conv.length
  have hall : ∀ w ∈ z'.conv, w.unseen = [] ∧ w.dirty = false := by
    intro w hw
    obtain ⟨i, hi⟩ := List.mem_iff_getElem?.1 hw
    have hil : i < z.conv.length := by rw [← hlen]; exact (List.getElem?_eq_some_iff.1 hi).1
    by_cases hgt : z.active < i
    · refine hc (i - z.active) (by omega) (by omega) w ?_
      rw [Nat.add_sub_cancel' (by omega), Nat.mod_eq_of_lt hil, hi]
    · refine hc (z.conv.length - z.active + i) (by omega) (by omega) w ?_
      have : z.active + (z.conv.length - z.active + i) = i + z.conv.length := by omega
      rw [this, Nat.add_mod_right, Nat.mod_eq_of_lt hil, hi]
  refine ⟨z', h, by rw [hact, Nat.add_mod_right, Nat.mod_eq_of_lt ha], ?_, fun w hw => (hall w hw).1⟩
  rw [hst (by omega)]
  simp only [dirtyList, List.map_eq_nil_iff, List.filter_eq_nil_iff]
  intro p hp
  have := (hall p.1 (List.fst_mem_of_mem_zipIdx hp)).2
  simp [this]

/-- The keys for the next and the previous window undo each other. -/
theorem C104_back {z : Z} (hq : z.queue = []) (ha : z.active < z.conv.length) :
    ∃ z₁ z₂, turn z = some z₁ ∧ turnBack z₁ = some z₂ ∧ z₂.active = z.active := by
  obtain ⟨z1, h1, q1, a1, l1, _⟩ := turn_spec hq ha
  have ha1 : z1.active < z1.conv.length := by rw [l1, a1]; exact Nat.mod_lt _ (by omega)
  have hp : prevWin z1 = some z.active := by
    unfold prevWin
    rw [l1, a1, ← nextWin_eq ha]
    unfold nextWin
    split
    · simp; omega
    · simp; omega
  have hw : turnBack z1 = Z.focus { z1 with queue := [] } z.active := by
    simp [turnBack, step, hp, Z.push, work, q1]
  have hne : z.active = 0 ∨ z.active ≠ z1.active := by
    rw [a1, ← nextWin_eq ha, nextWin]
    split <;> omega
  have hf := focus_to (z := { z1 with queue := [] }) (k := z.active) (by simpa [l1] using ha) hne
  exact ⟨z1, _, h1, hw.trans hf, rfl⟩

/-! ## Mentions -/

/-- Windows are closed only while no line waits to be printed. -/
def Quiet (z : Z) : Ev → Prop
  | .close => ∀ win l, .print win l ∉ z.queue
  | .closeAll => ∀ win l, .print win l ∉ z.queue
  | _ => True

/-- In addition, a message that mentions the user arrives only while no change of the window is waiting. -/
def Settled (z : Z) (ev : Ev) : Prop :=
  Quiet z ev ∧ ∀ k l, ev = .gm k l → l.mention = true → z.visible.isSome ∧ ∀ j, .focus j ∉ z.queue

/-- If no window is in front of the user, a change to the console comes before any line. -/
def Coming (z : Z) : Prop :=
  z.visible = none → ∃ a b, z.queue = a ++ .focus 0 :: b ∧ ∀ win l, .print win l ∉ a

theorem coming_push {z z' : Z} (h : Coming z) (js : List Job) (hq : z'.queue = z.queue ++ js)
    (hv : z'.visible = z.visible) : Coming z' := by
  intro hn
  obtain ⟨a, b, hab, hp⟩ := h (hv ▸ hn)
  exact ⟨a, b ++ js, by rw [hq, hab]; simp, hp⟩

theorem coming_step {z z' : Z} (hsh : Shape z) (h : Coming z) {ev : Ev} (hok : Quiet z ev)
    (hs : step z ev = some z') : Coming z' := by
  cases ev with
  | work =>
    simp only [step, work] at hs
    split at hs
    · simp at hs; rw [← hs]; exact h
    · next win l r hq =>
      have hv : z'.visible = z.visible := by
        rcases print_some hs with ⟨_, hc⟩ | ⟨w, _, hc⟩ <;> (obtain ⟨_, rfl⟩ := calc_some hc; rfl)
      intro hn
      obtain ⟨a, b, hab, hp⟩ := h (hv ▸ hn)
      rw [hq] at hab
      rcases a with _ | ⟨j, a⟩
      · exact absurd hab (by simp)
      · simp only [List.cons_append, List.cons.injEq] at hab
        exact absurd (by simp [hab.1]) (hp win l)
    · next k r hq =>
      rcases focus_some hs with ⟨h0, _, rfl⟩ | ⟨hn, rfl⟩ | ⟨w, _, hc⟩
      · intro hn
        obtain ⟨a, b, hab, hp⟩ := h hn
        rw [hq] at hab
        rcases a with _ | ⟨j, a⟩
        · simp at hab; exact absurd hab.1 h0
        · simp only [List.cons_append, List.cons.injEq] at hab
          exact ⟨a, b, hab.2, fun win l hm => hp win l (by simp [hm])⟩
      · intro hvn
        obtain ⟨a, b, hab, hp⟩ := h hvn
        rw [hq] at hab
        rcases a with _ | ⟨j, a⟩
        · obtain ⟨c, t, hc, _⟩ := hsh.head
          simp at hab
          rw [hab.1] at hn
          simp [hc] at hn
        · simp only [List.cons_append, List.cons.injEq] at hab
          exact ⟨a, b ++ [.print (some 0) ⟨false, none, 0⟩], by simp [Z.push, hab.2],
            fun win l hm => hp win l (by simp [hm])⟩
      · obtain ⟨_, rfl⟩ := calc_some hc
        intro hvn
        exact absurd hvn (by simp)
    · next r hq =>
      obtain ⟨_, rfl⟩ := calc_some hs
      intro hvn
      obtain ⟨a, b, hab, hp⟩ := h hvn
      rw [hq] at hab
      rcases a with _ | ⟨j, a⟩
      · exact absurd hab (by simp)
      · simp only [List.cons_append, List.cons.injEq] at hab
        exact ⟨a, b, hab.2, fun win l hm => hp win l (by simp [hm])⟩
  | prev =>
    simp only [step, Option.map_eq_some_iff] at hs
    obtain ⟨k, _, rfl⟩ := hs
    exact coming_push h [.focus k] rfl rfl
  | gm k l =>
    simp only [step, Option.some.injEq] at hs
    subst hs
    unfold gm
    split
    · exact h
    · exact coming_push h [.print (some k) l] rfl rfl
  | close =>
    simp only [step, Option.some.injEq] at hs
    subst hs
    unfold close
    split
    · exact h
    · exact fun _ => ⟨z.queue, [], by simp [Z.keep, Z.push], hok⟩
  | closeAll =>
    simp only [step, Option.some.injEq] at hs
    subst hs
    exact fun _ => ⟨z.queue, [], by simp [closeAll, Z.keep, Z.push], hok⟩
  | resize n =>
    simp only [step, Option.some.injEq] at hs
    subst hs
    exact h
  | _ =>
    simp only [step, Option.some.injEq] at hs
    subst hs
    exact coming_push h _ rfl rfl

/-- If windows are closed only while no line waits to be printed, nothing is printed before the console is shown. -/
theorem calm_of_coming {z : Z} (h : Coming z) (ev : Ev) : Calm z ev := by
  cases ev with
  | work =>
    rintro ⟨win, l, r, hq⟩
    cases hv : z.visible with
    | some _ => rfl
    | none =>
      obtain ⟨a, b, hab, hp⟩ := h hv
      rw [hq] at hab
      rcases a with _ | ⟨j, a⟩
      · exact absurd hab (by simp)
      · simp only [List.cons_append, List.cons.injEq] at hab
        exact absurd (by simp [hab.1]) (hp win l)
  | _ => trivial

theorem quiet_runs {ok : Z → Ev → Prop} (hok : ∀ z ev, ok z ev → Quiet z ev) {s : Bool} {z : Z}
    (h : Runs ok s z) : Runs Calm s z ∧ Coming z := by
  induction h with
  | init => exact ⟨.init, by simp [Coming, init]⟩
  | step hr ho hs ih =>
    exact ⟨.step ih.1 (calm_of_coming ih.2 _) hs, coming_step (runs_shape hr) ih.2 (hok _ _ ho) hs⟩

/-- It is enough that windows are closed only while no line waits to be printed. -/
theorem C104_quiet_partial {s : Bool} {z z' : Z} (h : Runs Quiet s z) (hw : work z = some z') {j : Job}
    {r : List Job} (hq : z.queue = j :: r) (he : Effective z j) : z'.status.map Prod.fst = unseenWins z'.conv := by
  have hr := quiet_runs (fun _ _ h => h) h
  exact C104_listed_partial hr.1 (calm_of_coming hr.2 _) hw hq he

/-- A line that mentions the user is among those that were not seen. -/
def Mentioned (w : Win) : Prop := ∃ l ∈ w.unseen, l.mention = true

structure MInv (z : Z) : Prop where
  up : ∀ w ∈ z.conv, Mentioned w → w.mentioned = true
  front : ∀ w ∈ z.conv, z.visible = some w.key → w.mentioned = false
  down : ∀ (k : Nat) w, z.conv[k]? = some w → w.mentioned = true →
    Mentioned w ∨ ∃ l, l.mention = true ∧ .print (some k) l ∈ z.queue
  wait : ∀ a win l b, z.queue = a ++ .print win l :: b → l.mention = true →
    ∃ k, win = some k ∧ (∀ j, .focus j ∉ a) ∧ z.visible.isSome ∧
      ∃ w, z.conv[k]? = some w ∧ (z.active = k ∨ w.mentioned = true)

theorem split_push {q js a b : List Job} {p : Job} (h : q ++ js = a ++ p :: b) (hp : p ∉ js) :
    ∃ b', q = a ++ p :: b' := by
  rcases List.append_eq_append_iff.1 h with ⟨c, h1, h2⟩ | ⟨c, h1, h2⟩
  · exact absurd (by rw [h2]; simp) hp
  · rcases c with _ | ⟨x, c⟩
    · simp at h2
      exact absurd (by rw [← h2]; simp) hp
    · simp only [List.cons_append, List.cons.injEq] at h2
      exact ⟨c, by rw [h1, h2.1]⟩

/-- New entries of the queue that are no mentions. -/
theorem minv_push {z z' : Z} (h : MInv z) (js : List Job) (hq : z'.queue = z.queue ++ js)
    (hj : ∀ win l, .print win l ∈ js → l.mention = false) (hc : z'.conv = z.conv) (hv : z'.visible = z.visible)
    (ha : z'.active = z.active) : MInv z' := by
  refine ⟨by rw [hc]; exact h.up, by rw [hc, hv]; exact h.front, ?_, ?_⟩
  · intro k w hk hm
    rw [hc] at hk
    rcases h.down k w hk hm with h1 | ⟨l, hl, hp⟩
    · exact Or.inl h1
    · exact Or.inr ⟨l, hl, by rw [hq]; simp [hp]⟩
  · intro a win l b hab hl
    rw [hq] at hab
    obtain ⟨b', hb'⟩ := split_push hab (fun hm => by rw [hj win l hm] at hl; exact absurd hl (by simp))
    rw [hc, hv, ha]
    exact h.wait a win l b' hb' hl

/-- The first entry of the queue is gone and it was not a mention. -/
theorem minv_pop {z z' : Z} (h : MInv z) {j : Job} (hq : z.queue = j :: z'.queue)
    (hj : ∀ k l, j = .print (some k) l → l.mention = true → z.conv[k]? = none) (hc : z'.conv = z.conv)
    (hv : z'.visible = z.visible) (ha : z'.active = z.active) : MInv z' := by
  refine ⟨by rw [hc]; exact h.up, by rw [hc, hv]; exact h.front, ?_, ?_⟩
  · intro k w hk hm
    rw [hc] at hk
    rcases h.down k w hk hm with h1 | ⟨l, hl, hp⟩
    · exact Or.inl h1
    · rw [hq] at hp
      rcases List.mem_cons.1 hp with hp | hp
      · rw [hj k l hp.symm hl] at hk
        exact absurd hk (by simp)
      · exact Or.inr ⟨l, hl, hp⟩
  · intro a win l b hab hl
    obtain ⟨k, h1, h2, h3⟩ := h.wait (j :: a) win l b (by rw [hq, hab]; rfl) hl
    rw [hc, hv, ha]
    exact ⟨k, h1, fun i hi => h2 i (by simp [hi]), h3⟩

theorem updateTS_marks (w : Win) (d : Option Nat) :
    (updateTS w d).unseen = w.unseen ∧ (updateTS w d).mentioned = w.mentioned := by
  obtain ⟨ds, _, he⟩ := updateTS_rows w d
  rw [he]
  exact ⟨rfl, rfl⟩

theorem write_marks (z : Z) (k : Nat) (l : Line) (w : Win) :
    (write z k l w).mentioned = w.mentioned ∧
    (write z k l w).unseen = if z.visible = some w.key then w.unseen else w.unseen ++ [l] := by
  have hk := write_key z k l w
  simp only [write] at hk ⊢
  generalize hw : (if needSep z k w = true then
    ({ w with rows := w.rows ++ [.sep], separator := true } : Win) else w) = w1
  have h1 : w1.mentioned = w.mentioned ∧ w1.unseen = w.unseen ∧ w1.key = w.key := by
    rw [← hw]; split <;> exact ⟨rfl, rfl, rfl⟩
  have h2 := updateTS_marks w1 l.day
  have h3 := updateTS_key w1 l.day
  unfold notice
  split <;> split <;> simp_all

theorem minv_print {z z' : Z} (hsh : Shape z) (h : MInv z) {win : Option Nat} {l : Line} {r : List Job}
    (hq : z.queue = .print win l :: r) (hp : Z.print { z with queue := r } win l = some z') : MInv z' := by
  have hwait := h.wait [] win l r (by simpa using hq)
  rcases print_some hp with ⟨hn, hc⟩ | ⟨w, hw, hc⟩
  · obtain ⟨_, rfl⟩ := calc_some hc
    refine minv_pop h (j := .print win l) hq ?_ rfl rfl rfl
    intro k l' he _
    simp only [Job.print.injEq] at he
    rw [he.1] at hn
    exact hn
  · obtain ⟨_, rfl⟩ := calc_some hc
    simp only at hw
    obtain ⟨m1, m2⟩ := write_marks { z with queue := r } (win.getD z.active) l w
    simp only at m2
    have hmem := List.mem_of_getElem? hw
    refine ⟨?_, ?_, ?_, ?_⟩
    · intro v hv hm
      rcases mem_set_iff hv with rfl | ⟨i, _, hi⟩
      · rw [m1]
        obtain ⟨l', hl', hmen⟩ := hm
        rw [m2] at hl'
        split at hl'
        · exact h.up w hmem ⟨l', hl', hmen⟩
        · next hne =>
          rcases List.mem_append.1 hl' with hl' | hl'
          · exact h.up w hmem ⟨l', hl', hmen⟩
          · have hl' : l' = l := by simpa using hl'
            rw [hl'] at hmen
            obtain ⟨k, rfl, _, hvis, w', hw', ho⟩ := hwait hmen
            simp only [Option.getD_some] at hw
            rw [hw] at hw'
            simp only [Option.some.injEq] at hw'
            subst hw'
            rcases ho with ho | ho
            · obtain ⟨key, hkey⟩ := Option.isSome_iff_exists.1 hvis
              obtain ⟨u, hu, huk⟩ := hsh.seen key hkey
              rw [ho, hw] at hu
              simp only [Option.some.injEq] at hu
              rw [hu, huk] at hne
              exact absurd hkey hne
            · exact ho
      · exact h.up v (List.mem_of_getElem? hi) hm
    · intro v hv hvis
      rcases mem_set_iff hv with rfl | ⟨i, _, hi⟩
      · rw [m1]
        rw [write_key] at hvis
        exact h.front w hmem hvis
      · exact h.front v (List.mem_of_getElem? hi) hvis
    · intro i v hi hm
      simp only at hi
      by_cases hik : win.getD z.active = i
      · have hlt := (List.getElem?_eq_some_iff.1 hw).1
        rw [hik, List.getElem?_set_self (by rw [← hik]; exact hlt)] at hi
        simp only [Option.some.injEq] at hi
        rw [hik] at hw m1 m2
        rw [← hi, m1] at hm
        have hne : z.visible ≠ some w.key := fun hv => by
          have := h.front w hmem hv
          rw [hm] at this
          exact absurd this (by simp)
        rw [if_neg hne] at m2
        rcases h.down i w hw hm with ⟨l', hl', hmen⟩ | ⟨l', hl', hmen⟩
        · left
          rw [← hi]
          exact ⟨l', by rw [m2]; simp [hl'], hmen⟩
        · rw [hq] at hmen
          rcases List.mem_cons.1 hmen with he | he
          · simp only [Job.print.injEq] at he
            left
            rw [← hi]
            exact ⟨l', by rw [m2, he.2]; simp, hl'⟩
          · exact Or.inr ⟨l', hl', he⟩
      · rw [List.getElem?_set_ne hik] at hi
        rcases h.down i v hi hm with h1 | ⟨l', hl', hmen⟩
        · exact Or.inl h1
        · rw [hq] at hmen
          rcases List.mem_cons.1 hmen with he | he
          · simp only [Job.print.injEq] at he
            rw [← he.1] at hik
            exact absurd rfl hik
          · exact Or.inr ⟨l', hl', he⟩
    · intro a win' l' b hab hl'
      obtain ⟨k, h1, h2, h3, v, hv, ho⟩ := h.wait (.print win l :: a) win' l' b
        (by rw [hq]; simp only at hab; rw [hab]; rfl) hl'
      refine ⟨k, h1, fun j hj => h2 j (by simp [hj]), h3, ?_⟩
      simp only
      by_cases hik : win.getD z.active = k
      · have hlt := (List.getElem?_eq_some_iff.1 hw).1
        rw [hik] at hw m1
        rw [hw] at hv
        simp only [Option.some.injEq] at hv
        refine ⟨_, by rw [hik, List.getElem?_set_self (by rw [← hik]; exact hlt)], ?_⟩
        rw [m1, hv]
        exact ho
      · exact ⟨v, by rw [List.getElem?_set_ne hik]; exact hv, ho⟩

theorem minv_focus {z z' : Z} (hsh : Shape z) (h : MInv z) {k : Nat} {r : List Job} (hq : z.queue = .focus k :: r)
    (hp : Z.focus { z with queue := r } k = some z') : MInv z' := by
  have hpop : MInv { z with queue := r } := minv_pop h (j := .focus k) hq (by simp) rfl rfl rfl
  rcases focus_some hp with ⟨_, _, rfl⟩ | ⟨_, rfl⟩ | ⟨w, hw, hc⟩
  · exact hpop
  · exact minv_push hpop [.print (some 0) ⟨false, none, 0⟩] rfl (by simp) rfl rfl rfl
  · obtain ⟨_, rfl⟩ := calc_some hc
    simp only at hw
    refine ⟨?_, ?_, ?_, ?_⟩
    · intro v hv hm
      rcases mem_set_iff hv with rfl | ⟨i, _, hi⟩
      · obtain ⟨l, hl, _⟩ := hm
        simp [shown] at hl
      · exact h.up v (List.mem_of_getElem? hi) hm
    · intro v hv hvis
      rcases mem_set_iff hv with rfl | ⟨i, hne, hi⟩
      · rfl
      · simp only [Option.some.injEq] at hvis
        exact absurd (hsh.inj hi hw hvis.symm) hne
    · intro i v hi hm
      simp only at hi
      by_cases hik : k = i
      · subst hik
        have hlt := (List.getElem?_eq_some_iff.1 hw).1
        rw [List.getElem?_set_self hlt] at hi
        simp only [Option.some.injEq] at hi
        rw [← hi] at hm
        simp [shown] at hm
      · rw [List.getElem?_set_ne hik] at hi
        exact hpop.down i v hi hm
    · intro a win l b hab hl
      obtain ⟨_, _, h2, _⟩ := h.wait (.focus k :: a) win l b (by rw [hq]; simp only at hab; rw [hab]; rfl) hl
      exact absurd (by simp) (h2 k)

/-- Some windows are gone while no line waits. -/
theorem minv_keep {z : Z} (h : MInv z) (hno : ∀ win l, .print win l ∉ z.queue) {conv : List Win}
    (hsub : ∀ w ∈ conv, w ∈ z.conv) : MInv ((z.keep conv).push [.focus 0]) := by
  refine ⟨fun w hw => h.up w (hsub w hw), fun w hw hv => h.front w (hsub w hw) (keep_visible hv).1, ?_, ?_⟩
  · intro k w hk hm
    obtain ⟨i, hi⟩ := List.mem_iff_getElem?.1 (hsub w (List.mem_of_getElem? hk))
    rcases h.down i w hi hm with h1 | ⟨l, _, hp⟩
    · exact Or.inl h1
    · exact absurd hp (hno _ _)
  · intro a win l b hab hl
    have hab : z.queue ++ [.focus 0] = a ++ .print win l :: b := hab
    obtain ⟨b', hb'⟩ := split_push hab (by simp)
    exact absurd (by rw [hb']; simp) (hno win l)

theorem minv_gm {z : Z} (hsh : Shape z) (h : MInv z) {k : Nat} {l : Line}
    (hok : l.mention = true → z.visible.isSome ∧ ∀ j, .focus j ∉ z.queue) : MInv (gm z k l) := by
  unfold gm
  split
  · exact h
  · next w hw =>
    have hmem := List.mem_of_getElem? hw
    have hlt := (List.getElem?_eq_some_iff.1 hw).1
    simp only
    generalize hw' : (if l.mention = true ∧ z.active ≠ k then ({ w with mentioned := true } : Win) else w) = w'
    have hm' : w'.mentioned = (w.mentioned || (l.mention && decide (z.active ≠ k))) := by
      rw [← hw']; split <;> simp_all
    have hu' : w'.unseen = w.unseen := by rw [← hw']; split <;> rfl
    have hk' : w'.key = w.key := by rw [← hw']; split <;> rfl
    refine ⟨?_, ?_, ?_, ?_⟩
    · intro v hv hm
      rcases mem_set_iff hv with rfl | ⟨i, _, hi⟩
      · rw [hm']
        have := h.up w hmem (by obtain ⟨l', hl', he⟩ := hm; exact ⟨l', by rw [← hu']; exact hl', he⟩)
        simp [this]
      · exact h.up v (List.mem_of_getElem? hi) hm
    · intro v hv hvis
      rcases mem_set_iff hv with rfl | ⟨i, _, hi⟩
      · have hvis : z.visible = some w.key := hk' ▸ hvis
        obtain ⟨u, hu, huk⟩ := hsh.seen _ hvis
        have := hsh.inj hu hw huk
        rw [hm', h.front w hmem hvis]
        simp [this]
      · exact h.front v (List.mem_of_getElem? hi) hvis
    · intro i v hi hm
      simp only [Z.push] at hi ⊢
      by_cases hik : k = i
      · subst hik
        rw [List.getElem?_set_self hlt] at hi
        simp only [Option.some.injEq] at hi
        rw [← hi, hm'] at hm
        cases hmw : w.mentioned with
        | true =>
          rcases h.down k w hw hmw with ⟨l', hl', he⟩ | ⟨l', hl', he⟩
          · exact Or.inl ⟨l', by rw [← hi, hu']; exact hl', he⟩
          · exact Or.inr ⟨l', hl', by simp [he]⟩
        | false =>
          rw [hmw] at hm
          simp at hm
          exact Or.inr ⟨l, hm.1, by simp⟩
      · rw [List.getElem?_set_ne hik] at hi
        rcases h.down i v hi hm with h1 | ⟨l', hl', he⟩
        · exact Or.inl h1
        · exact Or.inr ⟨l', hl', by simp [he]⟩
    · intro a win l' b hab hl'
      have hab : z.queue ++ [.print (some k) l] = a ++ .print win l' :: b := hab
      simp only [Z.push]
      by_cases hlast : b = []
      · subst hlast
        have h1 := List.append_inj_left' hab rfl
        have h2 := List.append_inj_right' hab rfl
        simp only [List.cons.injEq, Job.print.injEq, and_true] at h2
        obtain ⟨rfl, rfl⟩ := h2
        obtain ⟨hv, hf⟩ := hok hl'
        refine ⟨k, rfl, by rw [← h1]; exact hf, hv, w', by rw [List.getElem?_set_self hlt], ?_⟩
        rw [hm', hl']
        by_cases ha : z.active = k
        · exact Or.inl ha
        · right; simp [ha]
      · obtain ⟨b', x, rfl⟩ : ∃ b' x, b = b' ++ [x] := by
          rcases List.eq_nil_or_concat b with hb | ⟨b', x, hb⟩
          · exact absurd hb hlast
          · exact ⟨b', x, by simpa using hb⟩
        rw [← List.cons_append, ← List.append_assoc] at hab
        have h1 := List.append_inj_left' hab rfl
        obtain ⟨k1, e1, e2, e3, v, hv, ho⟩ := h.wait a win l' b' h1 hl'
        refine ⟨k1, e1, e2, e3, ?_⟩
        by_cases hik : k = k1
        · subst hik
          rw [hw] at hv
          simp only [Option.some.injEq] at hv
          subst hv
          refine ⟨w', by rw [List.getElem?_set_self hlt], ?_⟩
          rcases ho with ho | ho
          · exact Or.inl ho
          · right; rw [hm', ho]; simp
        · exact ⟨v, by rw [List.getElem?_set_ne hik]; exact hv, ho⟩

theorem minv_open {z : Z} (h : MInv z) (s : Nat) : MInv (openWin z s) := by
  have h1 : MInv { z with conv := z.conv ++ [blank z.fresh], fresh := z.fresh + 1 } := by
    refine ⟨?_, ?_, ?_, ?_⟩
    · intro w hw hm
      rcases List.mem_append.1 hw with hw | hw
      · exact h.up w hw hm
      · simp at hw
        obtain ⟨l, hl, _⟩ := hm
        simp [hw, blank] at hl
    · intro w hw hv
      rcases List.mem_append.1 hw with hw | hw
      · exact h.front w hw hv
      · simp at hw
        simp [hw, blank]
    · intro k w hk hm
      simp only at hk
      by_cases hl : k < z.conv.length
      · rw [List.getElem?_append_left hl] at hk
        exact h.down k w hk hm
      · have : w = blank z.fresh := by
          rw [List.getElem?_append_right (by omega)] at hk
          have := List.mem_of_getElem? hk
          simpa using this
        simp [this, blank] at hm
    · intro a win l b hab hl
      obtain ⟨k, h1, h2, h3, w, hw, ho⟩ := h.wait a win l b hab hl
      exact ⟨k, h1, h2, h3, w, by
        simp only; rw [List.getElem?_append_left (List.getElem?_eq_some_iff.1 hw).1]; exact hw, ho⟩
  exact minv_push h1 [.print (some 0) ⟨false, none, s⟩, .print (some z.conv.length) ⟨false, none, s⟩] rfl
    (by rintro win l hm; simp at hm; rcases hm with hm | hm <;> simp [hm.2]) rfl rfl rfl

theorem minv_step {z z' : Z} (hsh : Shape z) (h : MInv z) {ev : Ev} (hok : Settled z ev)
    (hs : step z ev = some z') : MInv z' := by
  cases ev with
  | work =>
    simp only [step, work] at hs
    split at hs
    · simp at hs; rw [← hs]; exact h
    · next hq => exact minv_print hsh h hq hs
    · next hq => exact minv_focus hsh h hq hs
    · next hq =>
      obtain ⟨_, rfl⟩ := calc_some hs
      exact minv_pop h hq (by simp) rfl rfl rfl
  | prev =>
    simp only [step, Option.map_eq_some_iff] at hs
    obtain ⟨k, _, rfl⟩ := hs
    exact minv_push h [.focus k] rfl (by simp) rfl rfl rfl
  | gm k l =>
    simp only [step, Option.some.injEq] at hs
    subst hs
    exact minv_gm hsh h (hok.2 k l rfl)
  | openWin s => simp only [step, Option.some.injEq] at hs; subst hs; exact minv_open h s
  | close =>
    simp only [step, Option.some.injEq] at hs
    subst hs
    unfold close
    split
    · exact h
    · exact minv_keep h hok.1 fun w hw => (erase_sub _ _).subset hw
  | closeAll =>
    simp only [step, Option.some.injEq] at hs
    subst hs
    exact minv_keep h hok.1 fun w hw => (List.take_sublist _ _).subset hw
  | resize n =>
    simp only [step, Option.some.injEq] at hs
    subst hs
    exact ⟨h.up, h.front, h.down, h.wait⟩
  | say win day stamp =>
    simp only [step, Option.some.injEq] at hs
    subst hs
    exact minv_push h [.print win ⟨false, day, stamp⟩] rfl (by simp) rfl rfl rfl
  | focus k =>
    simp only [step, Option.some.injEq] at hs
    subst hs
    exact minv_push h [.focus k] rfl (by simp) rfl rfl rfl
  | next =>
    simp only [step, Option.some.injEq] at hs
    subst hs
    exact minv_push h [.focus (nextWin z)] rfl (by simp) rfl rfl rfl
  | page =>
    simp only [step, Option.some.injEq] at hs
    subst hs
    exact minv_push h [.page] rfl (by simp) rfl rfl rfl

theorem minv_init (s : Bool) : MInv (init s) := by
  refine ⟨?_, ?_, ?_, ?_⟩
  · intro w hw hm
    obtain ⟨l, hl, _⟩ := hm
    simp [init] at hw
    simp [hw, blank] at hl
  · intro w hw _
    simp [init] at hw
    simp [hw, blank]
  · intro k w hk hm
    have := List.mem_of_getElem? hk
    simp [init] at this
    simp [this, blank] at hm
  · intro a win l b hab
    simp [init] at hab

theorem runs_minv {s : Bool} {z : Z} (h : Runs Settled s z) : MInv z := by
  induction h with
  | init => exact minv_init s
  | step hr hok hs ih => exact minv_step (runs_shape hr) ih hok hs

theorem mem_dirtyList {conv : List Win} {k : Nat} {b : Bool} :
    (k, b) ∈ dirtyList conv ↔ ∃ w, conv[k]? = some w ∧ w.dirty = true ∧ w.mentioned = b := by
  simp only [dirtyList, List.mem_map, List.mem_filter, Prod.mk.injEq, Prod.exists]
  constructor
  · rintro ⟨w, i, ⟨hm, hd⟩, rfl, rfl⟩
    exact ⟨w, by simpa [List.mem_zipIdx_iff_getElem?] using hm, hd, rfl⟩
  · rintro ⟨w, hk, hd, rfl⟩
    exact ⟨w, k, ⟨by simpa [List.mem_zipIdx_iff_getElem?] using hk, hd⟩, rfl, rfl⟩

/-- Whenever the client computes the status line, a window with a line that mentions the user and that they have
not seen is coloured, and a coloured window has such a line or one is on its way - if windows are closed only while
no line waits to be printed and such lines arrive only while no change of the window waits. -/
theorem C104_mention_partial {s : Bool} {z z' : Z} (h : Runs Settled s z) (hw : work z = some z') {j : Job}
    {r : List Job} (hq : z.queue = j :: r) (he : Effective z j) {k : Nat} {w : Win} (hk : z'.conv[k]? = some w) :
    (Mentioned w → (k, true) ∈ z'.status) ∧
    ((k, true) ∈ z'.status → w.unseen ≠ [] ∧
      (Mentioned w ∨ ∃ l, l.mention = true ∧ .print (some k) l ∈ z'.queue)) := by
  have h' : Runs Settled s z' := .step (ev := .work) h ⟨trivial, by simp⟩ hw
  have hm := runs_minv h'
  have hi := runs_inv (quiet_runs (fun _ _ h => h.1) h').1
  have hd := (hi.wins w (List.mem_of_getElem? hk)).dirty
  rw [work_status hw hq he, mem_dirtyList]
  constructor
  · intro hmen
    refine ⟨w, hk, ?_, hm.up w (List.mem_of_getElem? hk) hmen⟩
    obtain ⟨l, hl, _⟩ := hmen
    rw [hd]
    cases hu : w.unseen with
    | nil => rw [hu] at hl; simp at hl
    | cons _ _ => rfl
  · rintro ⟨w', hw', hdirty, hmen⟩
    rw [hk] at hw'
    simp only [Option.some.injEq] at hw'
    subst hw'
    refine ⟨?_, hm.down k w hk hmen⟩
    intro hu
    rw [hd, hu] at hdirty
    simp at hdirty

/-! ## What goes wrong -/

/-- A sequence of events. -/
def run (z : Z) : List Ev → Option Z
  | [] => some z
  | ev :: evs => (step z ev).bind fun z => run z evs

theorem run_reach {s : Bool} : ∀ {evs : List Ev} {z z' : Z}, Reach s z → run z evs = some z' → Reach s z'
  | [], z, z', h, he => by simp [run] at he; rw [← he]; exact h
  | ev :: evs, z, z', h, he => by
    simp only [run, Option.bind_eq_some_iff] at he
    obtain ⟨z1, h1, h2⟩ := he
    exact run_reach (.step h trivial h1) h2

/-- A line that waits to be printed when the user closes a window goes to the next one, which is not marked: the
status line does not tell of it. -/
theorem C104_listed_violated : ∃ z z', Reach true z ∧ work z = some z' ∧ z.queue = [.focus 0] ∧
    z'.status = [] ∧ z'.active = 0 ∧ unseenWins z'.conv = [1] :=
  ⟨_, _, run_reach (evs := [.openWin 5, .work, .work, .openWin 5, .work, .work, .focus 2, .work, .focus 1, .work,
      .say (some 1) (some 3) 5, .close, .work]) .init rfl, rfl, rfl, rfl, rfl, by decide⟩

/-- The user changes the window while a message that mentions them arrives: the status line names the window of the
group but does not tell that they are mentioned. -/
theorem C104_mention_violated : ∃ z z' w, Reach true z ∧ z.visible.isSome ∧ work z = some z' ∧
    z'.queue = [] ∧ z'.conv[1]? = some w ∧ Mentioned w ∧ z'.status = [(1, false)] :=
  ⟨_, _, _, run_reach (evs := [.openWin 5, .work, .work, .focus 1, .work, .focus 0, .gm 1 ⟨true, some 3, 5⟩, .work])
      .init rfl, rfl, rfl, rfl, rfl, ⟨⟨true, some 3, 5⟩, by decide, rfl⟩, rfl⟩

/-- In a window that the user has never looked at the separator stands between two lines, neither of which they have
seen. -/
theorem C104_separator_violated : ∃ z w a b, Reach true z ∧ z.conv[1]? = some w ∧ w.mark = 0 ∧
    w.unseen = [a, b] ∧ w.rows = [.line a, .sep, .line b] :=
  ⟨_, _, _, _, run_reach (evs := [.openWin 5, .work, .work, .say (some 1) none 5, .work]) .init rfl, rfl, rfl, rfl,
    rfl⟩

/-- The client crashes if a time stamp is as long as the width of a terminal, if a line waits to be printed when the
last window is closed, and if the key for the previous window is pressed before the console is shown. -/
theorem C104_safe_violated :
    (∃ z, Reach true z ∧ z.queue = [.print (some 1) ⟨false, none, 80⟩] ∧ z.visible.isSome ∧ work z = none) ∧
    (∃ z, Reach true z ∧ z.queue = [.print (some 0) ⟨false, none, 5⟩, .focus 0] ∧ work z = none) ∧
    (∃ z, Reach true z ∧ z.queue = [.focus 0] ∧ step z .prev = none) :=
  ⟨⟨_, run_reach (evs := [.openWin 5, .work, .work, .say (some 1) none 80]) .init rfl, rfl, rfl, rfl⟩,
    ⟨_, run_reach (evs := [.openWin 5, .work, .work, .focus 1, .work, .say (some 0) none 5, .close]) .init rfl, rfl,
      rfl⟩,
    ⟨_, run_reach (evs := [.openWin 5, .work, .work, .openWin 5, .work, .work, .focus 2, .work, .closeAll]) .init rfl,
      rfl, rfl⟩⟩

/-! ## Examples -/

/-- A group is opened, the user goes back to the console, two messages arrive, the second mentions them. -/
def sample : List Ev := [.openWin 5, .work, .work, .focus 1, .work, .focus 0, .work, .gm 1 ⟨false, some 3, 5⟩, .work,
  .gm 1 ⟨true, some 4, 5⟩]

/-- The guards of `sample` hold, whatever comes next. -/
theorem sample_settled : ∃ z, run (init true) sample = some z ∧ Runs Settled true z := by
  refine ⟨_, rfl, ?_⟩
  refine .step (ev := .gm 1 ⟨true, some 4, 5⟩) (.step (ev := .work) (.step (ev := .gm 1 ⟨false, some 3, 5⟩)
    (.step (ev := .work) (.step (ev := .focus 0) (.step (ev := .work) (.step (ev := .focus 1) (.step (ev := .work)
    (.step (ev := .work) (.step (ev := .openWin 5) .init ?_ rfl) ?_ rfl) ?_ rfl) ?_ rfl) ?_ rfl) ?_ rfl) ?_ rfl) ?_ rfl)
    ?_ rfl) ?_ rfl
  all_goals
    refine ⟨trivial, ?_⟩
    intro k l h hm
    cases h <;> exact ⟨rfl, fun j hj => by cases hj⟩

/-- The second message is printed. -/
def after : Option Z := (run (init true) sample).bind work

example : after.map (·.status) = some [(1, true)] := by decide
example : after.map (fun z => unseenWins z.conv) = some [1] := by decide
example : after.map (fun z => z.conv.map (·.rows.length)) = some [1, 6] := by decide
example : after.map (fun z => z.conv.map fun w => w.rows.drop w.mark) =
    some [[], [.sep, .day 3, .line ⟨false, some 3, 5⟩, .day 4, .line ⟨true, some 4, 5⟩]] := by decide

/-- `C104_mention_partial` and `C104_quiet_partial` apply to it. -/
example : ∃ z z' w, Runs Settled true z ∧ work z = some z' ∧ z'.conv[1]? = some w ∧ Mentioned w ∧
    (1, true) ∈ z'.status := by
  obtain ⟨z, hz, hr⟩ := sample_settled
  simp only [show run (init true) sample = some _ from rfl, Option.some.injEq] at hz
  subst hz
  have hm : ∀ w : Win, w.unseen = [⟨false, some 3, 5⟩, ⟨true, some 4, 5⟩] → Mentioned w :=
    fun w h => ⟨⟨true, some 4, 5⟩, by simp [h], rfl⟩
  exact ⟨_, _, _, hr, rfl, rfl, hm _ rfl,
    (C104_mention_partial hr rfl (j := .print (some 1) ⟨true, some 4, 5⟩) rfl trivial (k := 1) rfl).1 (hm _ rfl)⟩

/-- Three windows, all with something new. -/
def three : Option Z := run (init true) [.openWin 5, .openWin 5, .work, .work, .work, .work, .focus 2, .work,
  .say (some 0) none 5, .work, .say (some 1) none 5, .work, .focus 0, .work, .say (some 2) none 5, .work]

example : three.map (fun z => (z.status, z.active, z.queue)) = some ([(1, false), (2, false)], 0, []) := by decide
example : (three.bind (turns 3)).map (fun z => (z.status, z.active)) = some ([], 0) := by decide
example : ((three.bind turn).bind turnBack).map (·.active) = some 0 := by decide

/-- `C104_always_partial` with three windows. -/
example : ∃ z, Runs NoClose true z ∧ unseenWins z.conv = [1] ∧ z.status.map Prod.fst = [1] := by
  refine ⟨_, .step (ev := .work) (.step (ev := .work) (.step (ev := .openWin 5) .init trivial rfl) trivial rfl) trivial
    rfl, by decide, by decide⟩

end Verif.Status
