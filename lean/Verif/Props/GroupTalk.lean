import Verif.Props.GroupNet

/-! # C122: what is written to a group

The net of clients of `GroupNet`. The spec has what each client wrote, to whom it went, and what each client saw. -/

namespace Verif.GroupTalk

open Verif.Groups Verif.GroupNet

/-- What this event adds to the texts that `i` wrote to the group while `m` was on the list of `i`. -/
def wrote1 (net : Net) (name : Bytes) (i m : Id) : NEv → List Bytes
  | .cmd j (.message n t _) _ =>
    if j = i ∧ n = name then
      match (net.clients i).groups.get name with
      | some g => if m ∈ g.members ∧ m ≠ i then [t] else []
      | none => []
    else []
  | _ => []

/-- The texts that `i` wrote to the group while `m` was on the list of `i`, in order. -/
def wrote (upper : Bytes → Bytes) (name : Bytes) (i m : Id) : Net → List NEv → List Bytes
  | _, [] => []
  | net, e :: es =>
    wrote1 net name i m e ++ match nstep upper net e with | none => [] | some net' => wrote upper name i m net' es

/-- The texts of group messages that `i` gave to their client, in order. -/
def said (name : Bytes) (i : Id) : List NEv → List Bytes
  | [] => []
  | .cmd j (.message n t _) _ :: es => if j = i ∧ n = name then t :: said name i es else said name i es
  | _ :: es => said name i es

/-- The texts in the group that were shown to `m` as those of `i`, in order. -/
def seen (net : Net) (name : Bytes) (i m : Id) : List Bytes :=
  ((net.clients m).shown.filter fun r => r.1 = name ∧ r.2.1 = i).map (·.2.2)

def textOf (name : Bytes) : Msg → Option Bytes
  | .message n _ t _ => if n = name then some t else none
  | _ => none

/-- The texts to the group that are on their way. -/
def texts (name : Bytes) (l : List Msg) : List Bytes := l.filterMap (textOf name)

/-! ## Nobody is on a list twice -/

structure Once (s : State) : Prop where
  groups : ∀ n g, s.groups.get n = some g → g.members.Nodup
  kicks : ∀ k ∈ s.kicks, k.ngc.members.Nodup

def OnceMsg (x : Msg) : Prop := ∀ gl, listOf x = some gl → gl.members.Nodup

theorem once_step {upper : Bytes → Bytes} {s s' : State} {e : Ev} (hs : Once s) (ho : s.out = [])
    (he : ∀ src m flt, e = .recv src m flt → src ≠ s.self ∧ OnceMsg m) (h : step upper s e = .ok s') :
    Once s' ∧ ∀ p ∈ s'.out, OnceMsg p.2 := by
  have all : ∀ {l : List Id} {m : Msg}, OnceMsg m → ∀ p ∈ (l.map fun i => (i, m)), OnceMsg p.2 := by
    intro l m hm p hp
    obtain ⟨i, _, rfl⟩ := List.mem_map.mp hp
    exact hm
  have none : ∀ {m : Msg}, listOf m = none → OnceMsg m := by
    intro m hm gl hgl; rw [hm] at hgl; cases hgl
  have nil : ∀ p ∈ s.out, OnceMsg p.2 := by rw [ho]; intro p hp; cases hp
  have set : ∀ {n : Bytes} {g : GroupList}, g.members.Nodup → ∀ n' g', (s.groups.set n g).get n' = some g' →
      g'.members.Nodup := by
    intro n g hg n' g' h1
    rw [GoMap.get_set] at h1
    split at h1
    · cases h1; exact hg
    · exact hs.groups _ _ h1
  have del : ∀ {n : Bytes}, ∀ n' g', (s.groups.del n).get n' = some g' → g'.members.Nodup := by
    intro n n' g' h1
    rw [GoMap.get_del] at h1
    split at h1
    · cases h1
    · exact hs.groups _ _ h1
  cases e with
  | meet i => cases h; exact ⟨⟨hs.groups, hs.kicks⟩, nil⟩
  | tick d => cases h; exact ⟨⟨hs.groups, hs.kicks⟩, nil⟩
  | ack n =>
    cases h
    unfold ack
    split
    · exact ⟨hs, nil⟩
    next k hk =>
    have hk' : k.ngc.members.Nodup := hs.kicks k (List.mem_of_getElem? hk)
    have hkk : ∀ k1 ∈ s.kicks.set n { k with got := k.got + 1 }, k1.ngc.members.Nodup := by
      intro k1 h1
      rcases List.mem_or_eq_of_mem_set h1 with h1 | rfl
      · exact hs.kicks _ h1
      · exact hk'
    dsimp only
    repeat' split
    all_goals first
      | exact ⟨⟨hs.groups, hkk⟩, nil⟩
      | exact ⟨⟨set hk', hkk⟩, nil⟩
  | cmd c flt =>
    cases h
    cases c with
    | new n od =>
      simp only [cmd, cmdNew]
      repeat' split
      all_goals first
        | exact ⟨hs, nil⟩
        | exact ⟨⟨set (by simp), hs.kicks⟩, nil⟩
    | invite n who tok =>
      simp only [cmd, cmdInvite, sendAll]
      repeat' split
      all_goals first
        | exact ⟨hs, nil⟩
        | exact ⟨⟨hs.groups, hs.kicks⟩, by rw [ho]; exact all (none rfl)⟩
    | join n tok src =>
      simp only [cmd, cmdJoin, sendAll]
      repeat' split
      all_goals first
        | exact ⟨hs, nil⟩
        | exact ⟨⟨set (by simp), hs.kicks⟩, by rw [ho]; exact all (none rfl)⟩
    | kick n who =>
      simp only [cmd, cmdKick, sendAll]
      split
      · exact ⟨hs, nil⟩
      next g hg =>
      have hn : (g.members.filter (· ≠ who)).Nodup := (hs.groups _ _ hg).filter _
      repeat' split
      all_goals first
        | exact ⟨hs, nil⟩
        | skip
      refine ⟨⟨hs.groups, ?_⟩, ?_⟩
      · intro k hk
        rcases List.mem_append.mp hk with hk | hk
        · exact hs.kicks _ hk
        · rw [List.mem_singleton.mp hk]; exact hn
      · rw [ho]
        refine all ?_
        intro gl hgl
        cases hgl
        exact hn
    | part n =>
      simp only [cmd, cmdPart, sendAll]
      repeat' split
      all_goals first
        | exact ⟨hs, nil⟩
        | exact ⟨⟨hs.groups, hs.kicks⟩, by rw [ho]; exact all (none rfl)⟩
    | partForce n =>
      simp only [cmd, deleteGroup]
      split
      · exact ⟨⟨del, hs.kicks⟩, nil⟩
      · exact ⟨hs, nil⟩
    | kill n online =>
      simp only [cmd, cmdKill, deleteGroup, sendAll]
      repeat' split
      all_goals first
        | exact ⟨hs, nil⟩
        | exact ⟨⟨del, hs.kicks⟩, nil⟩
        | exact ⟨⟨del, hs.kicks⟩, by rw [ho]; exact all (none rfl)⟩
        | exact ⟨⟨hs.groups, hs.kicks⟩, by rw [ho]; exact all (none rfl)⟩
    | message n t me =>
      simp only [cmd, cmdMessage, sendAll]
      repeat' split
      all_goals first
        | exact ⟨hs, nil⟩
        | exact ⟨⟨hs.groups, hs.kicks⟩, by rw [ho]; exact all (none rfl)⟩
  | recv src m flt =>
    obtain ⟨hsrc, hm⟩ := he src m flt rfl
    have upd : ∀ gl : GroupList, gl.members.Nodup → Once (updateGroupList s src gl) ∧
        ∀ p ∈ (updateGroupList s src gl).out, OnceMsg p.2 := by
      intro gl hgl
      unfold updateGroupList
      repeat' split
      all_goals first
        | exact ⟨hs, nil⟩
        | exact ⟨⟨set hgl, hs.kicks⟩, nil⟩
    cases m with
    | invite n i =>
      cases h
      simp only [recvInvite]
      repeat' split
      all_goals first
        | exact ⟨hs, nil⟩
        | exact ⟨⟨hs.groups, hs.kicks⟩, nil⟩
    | list gl => cases h; exact upd gl (hm gl rfl)
    | update gl => cases h; exact upd gl (hm gl rfl)
    | kick w p gl =>
      cases h
      simp only [recvKick]
      split
      · exact ⟨hs, nil⟩
      split
      · exact ⟨hs, nil⟩
      split
      · simp only [deleteGroup]
        split
        · exact ⟨⟨del, hs.kicks⟩, nil⟩
        · exact ⟨hs, nil⟩
      · exact upd gl (hm gl rfl)
    | kill n =>
      simp only [step, recv, recvKill, deleteGroup] at h
      repeat' split at h
      all_goals first
        | (cases h; done)
        | (cases h; exact ⟨hs, nil⟩)
        | (cases h; exact ⟨⟨del, hs.kicks⟩, nil⟩)
    | message n gen t me =>
      simp only [step, recv, recvMessage] at h
      repeat' split at h
      all_goals first
        | (cases h; done)
        | (cases h; exact ⟨hs, nil⟩)
        | (cases h; exact ⟨⟨hs.groups, hs.kicks⟩, nil⟩)
    | join n tok =>
      cases h
      unfold recvJoin
      split
      · exact ⟨hs, nil⟩
      next g hg =>
      split
      · exact ⟨hs, nil⟩
      next ha =>
      obtain ⟨r, hr⟩ := admin_eq (not_not.mp ha)
      have hnd := hs.groups _ _ hg
      split
      · exact ⟨hs, nil⟩
      split
      · exact ⟨hs, nil⟩
      split
      · exact ⟨hs, nil⟩
      dsimp only
      split
      · exact ⟨⟨hs.groups, hs.kicks⟩, nil⟩
      split
      · exact ⟨⟨hs.groups, hs.kicks⟩, nil⟩
      next ht =>
      split
      · exact ⟨⟨hs.groups, hs.kicks⟩, nil⟩
      have hn' : (g.members ++ [src]).Nodup := by
        rw [hr] at ht hnd ⊢
        rw [List.nodup_append]
        refine ⟨hnd, by simp, ?_⟩
        intro a ha b hb hab
        rw [List.mem_singleton.mp hb] at hab
        rw [hab] at ha
        rcases List.mem_cons.mp ha with h1 | h1
        · exact hsrc h1
        · exact ht h1
      refine ⟨⟨set hn', hs.kicks⟩, ?_⟩
      simp only [sendAll]
      rw [ho]
      refine all ?_
      intro gl hgl
      cases hgl
      exact hn'
    | part n =>
      cases h
      unfold recvPart
      split
      · exact ⟨hs, nil⟩
      next g hg =>
      split
      · exact ⟨hs, nil⟩
      next ha =>
      obtain ⟨r, hr⟩ := admin_eq (not_not.mp ha)
      have hnd := hs.groups _ _ hg
      split
      · exact ⟨hs, nil⟩
      have hn' : (g.members.take 1 ++ g.members.tail.erase src).Nodup := by
        rw [hr] at hnd ⊢
        simp only [List.take_succ_cons, List.take_zero, List.tail_cons]
        obtain ⟨h1, h2⟩ := List.nodup_cons.mp hnd
        exact List.nodup_cons.mpr ⟨fun h3 => h1 (List.mem_of_mem_erase h3), h2.erase _⟩
      refine ⟨⟨set hn', hs.kicks⟩, ?_⟩
      simp only [sendAll]
      rw [ho]
      refine all ?_
      intro gl hgl
      cases hgl
      exact hn'

structure NetOnce (net : Net) : Prop where
  self : ∀ i, (net.clients i).self = i
  once : ∀ i, Once (net.clients i)
  wire : ∀ a m, ∀ x ∈ net.wire a m, OnceMsg x

theorem mem_sentTo {out : List (Id × Msg)} {y : Id} {x : Msg} : x ∈ sentTo out y ↔ (y, x) ∈ out := by
  unfold sentTo
  simp

/-- The net that the event acts upon, the client that acts and the event of this client. -/
inductive Acts (net : Net) : NEv → Net → Id → Ev → Prop
  | cmd (i c flt) : Acts net (.cmd i c flt) net i (.cmd c flt)
  | ack (i n) : Acts net (.ack i n) net i (.ack n)
  | meet (i j) : Acts net (.meet i j) net i (.meet j)
  | tick (i d) : Acts net (.tick i d) net i (.tick d)
  | deliver {a m flt x r} : a ≠ m → net.wire a m = x :: r → Acts net (.deliver a m flt) (pop net a m) m (.recv a x flt)

theorem acts {upper : Bytes → Bytes} {net net' : Net} {e : NEv} (h : nstep upper net e = some net') :
    (∃ a m, e = .lose a m ∧ net' = pop net a m) ∨
      ∃ net1 i ev, Acts net e net1 i ev ∧ act upper net1 i ev = some net' := by
  cases e with
  | cmd i c flt => exact .inr ⟨_, _, _, .cmd i c flt, h⟩
  | ack i n => exact .inr ⟨_, _, _, .ack i n, h⟩
  | meet i j => exact .inr ⟨_, _, _, .meet i j, h⟩
  | tick i d => exact .inr ⟨_, _, _, .tick i d, h⟩
  | lose a m => cases h; exact .inl ⟨a, m, rfl, rfl⟩
  | deliver a m flt =>
    simp only [nstep] at h
    split at h
    · cases h
    next hne =>
    split at h
    · cases h
    next x r hx => exact .inr ⟨_, _, _, .deliver hne hx, h⟩

theorem act_eq {upper : Bytes → Bytes} {net net' : Net} {i : Id} {ev : Ev} (h : act upper net i ev = some net') :
    ∃ s, step upper { net.clients i with out := [] } ev = .ok s ∧ net'.clients i = s ∧
      (∀ x, x ≠ i → net'.clients x = net.clients x) ∧
      ∀ x y, net'.wire x y = if x = i then net.wire x y ++ sentTo s.out y else net.wire x y := by
  unfold act at h
  split at h
  · cases h
  next s hs =>
  cases h
  exact ⟨s, hs, by simp, fun x hx => by simp [hx], fun x y => rfl⟩

theorem pop_wire_sub {net : Net} {a m x y : Id} {z : Msg} (h : z ∈ (pop net a m).wire x y) : z ∈ net.wire x y := by
  unfold pop at h
  dsimp only at h
  split at h
  · exact List.mem_of_mem_tail h
  · exact h

theorem netOnce_step {upper : Bytes → Bytes} {net net' : Net} {e : NEv} (hn : NetOnce net)
    (h : nstep upper net e = some net') : NetOnce net' := by
  rcases acts h with ⟨a, m, rfl, rfl⟩ | ⟨net1, i, ev, ha, h⟩
  · exact ⟨hn.self, hn.once, fun x y z hz => hn.wire x y z (pop_wire_sub hz)⟩
  have h1 : NetOnce net1 ∧ ∀ src m flt, ev = .recv src m flt → src ≠ i ∧ OnceMsg m := by
    cases ha with
    | deliver hne hx =>
      refine ⟨⟨hn.self, hn.once, fun x y z hz => hn.wire x y z (pop_wire_sub hz)⟩, ?_⟩
      intro src m flt he
      cases he
      exact ⟨hne, hn.wire _ _ _ (by rw [hx]; exact List.mem_cons_self)⟩
    | _ => exact ⟨hn, fun src m flt he => by cases he⟩
  obtain ⟨hn1, hev⟩ := h1
  obtain ⟨s, hs, hi, hx, hw⟩ := act_eq h
  have ho := once_step (s := { net1.clients i with out := [] }) ⟨(hn1.once i).groups, (hn1.once i).kicks⟩ rfl
    (fun src m flt he => by
      obtain ⟨h2, h3⟩ := hev src m flt he
      exact ⟨by rw [show ({ net1.clients i with out := [] } : State).self = i from hn1.self i]; exact h2, h3⟩) hs
  refine ⟨fun x => ?_, fun x => ?_, fun x y z hz => ?_⟩
  · by_cases h5 : x = i
    · subst h5; rw [hi, (step_self hs).1]; exact hn1.self x
    · rw [hx x h5]; exact hn1.self x
  · by_cases h5 : x = i
    · subst h5; rw [hi]; exact ho.1
    · rw [hx x h5]; exact hn1.once x
  · rw [hw] at hz
    split at hz
    · rcases List.mem_append.mp hz with hz | hz
      · exact hn1.wire _ _ _ hz
      · exact ho.2 _ (mem_sentTo.mp hz)
    · exact hn1.wire _ _ _ hz

theorem netOnce_start (nick : Id → Bytes) : NetOnce (start nick) :=
  ⟨fun _ => rfl, fun _ => ⟨fun _ _ h => (by cases h), fun _ h => (by cases h)⟩, fun _ _ _ h => (by cases h)⟩

theorem netOnce_run {upper : Bytes → Bytes} (es : List NEv) : ∀ {net net'}, NetOnce net →
    nrun upper net es = some net' → NetOnce net' := by
  induction es with
  | nil => intro net net' h hr; cases hr; exact h
  | cons e es ih =>
    intro net net' h hr
    simp only [nrun, Option.bind_eq_some_iff] at hr
    obtain ⟨n1, h1, h2⟩ := hr
    exact ih (netOnce_step h h1) h2

/-! ## What is sent -/

theorem texts_append (name : Bytes) (a b : List Msg) : texts name (a ++ b) = texts name a ++ texts name b :=
  List.filterMap_append

theorem texts_quiet {name : Bytes} {out : List (Id × Msg)} (h : ∀ p ∈ out, textOf name p.2 = none) (y : Id) :
    texts name (sentTo out y) = [] := by
  unfold texts
  rw [List.filterMap_eq_nil_iff]
  intro x hx
  exact h (y, x) (mem_sentTo.mp hx)

/-- The texts to the group that a client hands to the scheduler for `y`. -/
theorem texts_out {upper : Bytes → Bytes} {s s' : State} {e : Ev} {name : Bytes} (hs : Once s) (ho : s.out = [])
    (h : step upper s e = .ok s') (y : Id) :
    texts name (sentTo s'.out y) =
      match e with
      | .cmd (.message n t _) _ =>
        if n = name then
          match s.groups.get name with
          | some g => if y ∈ g.members ∧ y ≠ s.self then [t] else []
          | none => []
        else []
      | _ => [] := by
  have all : ∀ {l : List Id} {m : Msg}, textOf name m = none → ∀ p ∈ (l.map fun i => (i, m)), textOf name p.2 = none := by
    intro l m hm p hp
    obtain ⟨i, _, rfl⟩ := List.mem_map.mp hp
    exact hm
  have nil : ∀ p ∈ s.out, textOf name p.2 = none := by rw [ho]; intro p hp; cases hp
  cases e with
  | meet i => cases h; exact texts_quiet nil y
  | tick d => cases h; exact texts_quiet nil y
  | ack n =>
    cases h
    refine texts_quiet ?_ y
    unfold ack
    repeat' split
    all_goals exact nil
  | cmd c flt =>
    cases h
    cases c with
    | message n t me =>
      simp only [cmd, cmdMessage]
      by_cases hnn : n = name
      · subst hnn
        rw [if_pos rfl]
        cases hg : s.groups.get n with
        | none => rw [ho]; rfl
        | some g =>
          simp only [sendAll, ho, List.nil_append]
          rw [sentTo_map ((hs.groups _ _ hg).filter _)]
          by_cases hy : y ∈ g.members ∧ y ≠ s.self
          · rw [if_pos hy, if_pos (List.mem_filter.mpr ⟨hy.1, by simpa using hy.2⟩)]
            simp [texts, textOf]
          · rw [if_neg hy, if_neg]
            · rfl
            · intro h1
              obtain ⟨h2, h3⟩ := List.mem_filter.mp h1
              exact hy ⟨h2, by simpa using h3⟩
      · rw [if_neg hnn]
        refine texts_quiet ?_ y
        repeat' split
        · exact nil
        · simp only [sendAll, ho, List.nil_append]
          exact all (by simp [textOf, hnn])
    | _ =>
      refine texts_quiet ?_ y
      simp only [cmd, cmdNew, cmdInvite, cmdJoin, cmdKick, cmdPart, cmdKill, deleteGroup, sendAll]
      repeat' split
      all_goals first
        | exact nil
        | (simp only [ho, List.nil_append]
           exact all rfl)
  | recv src m flt =>
    refine texts_quiet ?_ y
    cases m with
    | kill n' =>
      simp only [step, recv, recvKill, deleteGroup] at h
      repeat' split at h
      all_goals first | cases h; done | (cases h; exact nil)
    | message n' gen text me =>
      simp only [step, recv, recvMessage] at h
      repeat' split at h
      all_goals first | cases h; done | (cases h; exact nil)
    | _ =>
      cases h
      simp only [recvInvite, recvJoin, recvPart, recvKick, deleteGroup, updateGroupList, sendAll]
      repeat' split
      all_goals first
        | exact nil
        | (simp only [ho, List.nil_append]
           exact all rfl)

/-- What is shown when `x` of `a` arrives. -/
def adds (s : State) (a : Id) : Msg → List (Bytes × Id × Bytes)
  | .message n _ t _ =>
    match s.groups.get n with
    | some g => if a ∈ g.members then [(n, a, t)] else []
    | none => []
  | _ => []

theorem shown_recv {upper : Bytes → Bytes} {s s' : State} {a : Id} {x : Msg} {flt : Fault}
    (h : step upper s (.recv a x flt) = .ok s') : s'.shown = s.shown ++ adds s a x := by
  rw [C51_shown h]
  cases x <;> rfl

def pick (name : Bytes) (i : Id) (l : List (Bytes × Id × Bytes)) : List Bytes :=
  (l.filter fun r => r.1 = name ∧ r.2.1 = i).map (·.2.2)

theorem pick_append (name : Bytes) (i : Id) (a b : List (Bytes × Id × Bytes)) :
    pick name i (a ++ b) = pick name i a ++ pick name i b := by
  unfold pick
  rw [List.filter_append, List.map_append]

theorem pick_adds {name : Bytes} {s : State} {i a : Id} {x : Msg} :
    pick name i (adds s a x) = [] ∨
      ∃ gen t me g, x = .message name gen t me ∧ i = a ∧ s.groups.get name = some g ∧ a ∈ g.members ∧
        pick name i (adds s a x) = [t] := by
  cases x with
  | message n gen t me =>
    simp only [adds]
    cases hg : s.groups.get n with
    | none => left; rfl
    | some g =>
      by_cases hm : a ∈ g.members
      · simp only [hm, if_true]
        by_cases hnn : n = name
        · by_cases hi : a = i
          · right
            subst hnn hi
            exact ⟨gen, t, me, g, rfl, rfl, hg, hm, by simp [pick]⟩
          · left; simp [pick, hi]
        · left; simp [pick, hnn]
      · left; simp [hm, pick]
  | _ => left; rfl

/-- What a step does to the texts seen and on their way from `i` to `m`. -/
theorem talk_step {upper : Bytes → Bytes} {net net' : Net} {e : NEv} (hn : NetOnce net)
    (h : nstep upper net e = some net') (name : Bytes) {i m : Id} (him : i ≠ m) :
    seen net' name i m ++ texts name (net'.wire i m) = seen net name i m ++ texts name (net.wire i m) ++
        wrote1 net name i m e ∨
      ∃ x r, net.wire i m = x :: r ∧ net'.wire i m = r ∧ seen net' name i m = seen net name i m ∧
        wrote1 net name i m e = [] ∧
        (e = .lose i m ∨ ∀ g, (net.clients m).groups.get name = some g → i ∉ g.members) := by
  rcases acts h with ⟨a, b, rfl, rfl⟩ | ⟨net1, j, ev, ha, h⟩
  · by_cases hab : i = a ∧ m = b
    · obtain ⟨rfl, rfl⟩ := hab
      cases hw : net.wire i m with
      | nil => left; simp [pop, seen, wrote1, hw]
      | cons x r => right; exact ⟨x, r, rfl, by simp [pop, hw], rfl, rfl, .inl rfl⟩
    · left
      simp only [pop, seen, wrote1]
      rw [if_neg hab, List.append_nil]
  obtain ⟨s, hs, hi, hx, hw⟩ := act_eq h
  cases ha with
  | @deliver a j flt x r hne hd =>
    have hout := fun y => texts_out (name := name) (s := { (pop net a j).clients j with out := [] })
      ⟨(hn.once _).groups, (hn.once _).kicks⟩ rfl hs y
    have hout' : texts name (sentTo s.out m) = [] := hout m
    have hwi : texts name (net'.wire i m) = texts name ((pop net a j).wire i m) := by
      rw [hw]
      split
      · rw [texts_append, hout', List.append_nil]
      · rfl
    by_cases hj : j = m
    · subst hj
      have hij : i ≠ j := him
      have hsn : seen net' name i j = seen net name i j ++ pick name i (adds (net.clients j) a x) := by
        have h2 := shown_recv hs
        show pick name i (net'.clients j).shown = pick name i (net.clients j).shown ++ _
        rw [hi, h2, pick_append]
        rfl
      by_cases hai : a = i
      · subst hai
        have hwr : net'.wire a j = r := by
          rw [hw, if_neg hij]
          simp [pop, hd]
        rcases pick_adds (name := name) (s := net.clients j) (i := a) (a := a) (x := x) with
          h5 | ⟨gen, t, me, g, rfl, _, hg, hm, h5⟩
        · rw [h5, List.append_nil] at hsn
          cases h0 : textOf name x with
          | none =>
            left
            rw [hsn, hwr, hd]
            simp [texts, h0, wrote1]
          | some t =>
            right
            refine ⟨x, r, hd, hwr, hsn, rfl, .inr ?_⟩
            intro g hg hm
            cases x <;> simp only [textOf] at h0 <;> try cases h0
            next n gen t' me =>
              split at h0
              next hnn =>
                subst hnn
                simp [adds, hg, hm, pick] at h5
              next => cases h0
        · left
          rw [hsn, h5, hwr, hd]
          simp [texts, textOf, wrote1]
      · left
        have h5 : pick name i (adds (net.clients j) a x) = [] := by
          rcases pick_adds (name := name) (s := net.clients j) (i := i) (a := a) (x := x) with
            h5 | ⟨_, _, _, _, _, h6, _⟩
          · exact h5
          · exact absurd h6.symm hai
        rw [hsn, h5, hwi]
        have : (pop net a j).wire i j = net.wire i j := by simp [pop, Ne.symm hai]
        rw [this]
        simp [wrote1]
    · left
      have h1 : seen net' name i m = seen net name i m := by
        unfold seen
        rw [hx m (Ne.symm hj)]
        rfl
      have : (pop net a j).wire i m = net.wire i m := by simp [pop, Ne.symm hj]
      rw [h1, hwi, this]
      simp [wrote1]
  | cmd j c flt =>
    have hshow := C51_shown hs
    have hout := fun y => texts_out (name := name) (s := { net.clients j with out := [] })
      ⟨(hn.once _).groups, (hn.once _).kicks⟩ rfl hs y
    left
    have h1 : seen net' name i m = seen net name i m := by
      unfold seen
      by_cases hj : m = j
      · subst hj; rw [hi, hshow]; simp
      · rw [hx m hj]
    rw [h1, hw]
    by_cases hj : i = j
    · subst hj
      rw [if_pos rfl, texts_append, hout m, List.append_assoc]
      congr 2
      cases c with
      | message n t me =>
        simp only [wrote1, true_and]
        split
        · rw [show ({ net.clients i with out := [] } : State).self = i from hn.self i]
        · rfl
      | _ => rfl
    · rw [if_neg hj]
      have : wrote1 net name i m (.cmd j c flt) = [] := by
        cases c <;> simp [wrote1, Ne.symm hj]
      rw [this, List.append_nil]
  | ack j _ | meet j _ | tick j _ =>
    have hshow := C51_shown hs
    have hout := fun y => texts_out (name := name) (s := { net.clients j with out := [] })
      ⟨(hn.once _).groups, (hn.once _).kicks⟩ rfl hs y
    left
    have h1 : seen net' name i m = seen net name i m := by
      unfold seen
      by_cases hj : m = j
      · subst hj; rw [hi, hshow]; simp
      · rw [hx m hj]
    rw [h1, hw]
    simp only [wrote1, List.append_nil]
    split
    · rw [texts_append, hout m]; simp
    · rfl

theorem talk_run {upper : Bytes → Bytes} {name : Bytes} {i m : Id} (him : i ≠ m) (es : List NEv) : ∀ {net net'},
    NetOnce net → nrun upper net es = some net' →
    (seen net' name i m ++ texts name (net'.wire i m)).Sublist
      (seen net name i m ++ texts name (net.wire i m) ++ wrote upper name i m net es) := by
  induction es with
  | nil => intro net net' _ hr; cases hr; simp [wrote]
  | cons e es ih =>
    intro net net' hn hr
    simp only [nrun, Option.bind_eq_some_iff] at hr
    obtain ⟨n1, h1, h2⟩ := hr
    refine (ih (netOnce_step hn h1) h2).trans ?_
    simp only [wrote, h1]
    rw [← List.append_assoc]
    apply List.Sublist.append_right
    rcases talk_step hn h1 name him with h3 | ⟨x, r, hx, hr, h3, _⟩
    · rw [h3]
    · rw [h3, hr, hx, List.append_assoc]
      apply List.Sublist.append_left
      exact ((List.sublist_cons_self x r).filterMap _).trans (List.sublist_append_left _ _)

theorem wrote_said {upper : Bytes → Bytes} {name : Bytes} {i m : Id} (es : List NEv) : ∀ {net},
    (wrote upper name i m net es).Sublist (said name i es) := by
  induction es with
  | nil => intro net; exact List.Sublist.refl _
  | cons e es ih =>
    intro net
    have hrest : (match nstep upper net e with | none => [] | some net' => wrote upper name i m net' es).Sublist
        (said name i es) := by
      split
      · exact List.nil_sublist _
      · exact ih
    have hkey : ∀ l, (∀ net, wrote1 net name i m e = []) → said name i (e :: es) = l → (said name i es).Sublist l →
        (wrote upper name i m net (e :: es)).Sublist (said name i (e :: es)) := by
      intro l h1 h2 h3
      simp only [wrote, h1, List.nil_append]
      rw [h2]
      exact hrest.trans h3
    cases e with
    | cmd j c flt =>
      cases c with
      | message n t me =>
        simp only [wrote, said, wrote1]
        split
        · split
          · split
            · exact hrest.cons_cons t
            · exact (hrest.cons t)
          · exact hrest.cons t
        · exact hrest
      | _ => exact hkey _ (fun _ => rfl) rfl (List.Sublist.refl _)
    | _ => exact hkey _ (fun _ => rfl) rfl (List.Sublist.refl _)

/-! ## While nobody comes or goes -/

/-- The members of the group stay the same for everybody, and nothing is lost. -/
def Still (upper : Bytes → Bytes) (name : Bytes) : Net → List NEv → Prop
  | _, [] => True
  | net, e :: es => (∀ a m, e ≠ .lose a m) ∧ ∀ net', nstep upper net e = some net' →
      (∀ i, (net'.clients i).groups.get name = (net.clients i).groups.get name) ∧ Still upper name net' es

theorem still_run {upper : Bytes → Bytes} {name : Bytes} (es : List NEv) : ∀ {net net'}, Still upper name net es →
    nrun upper net es = some net' → ∀ i, (net'.clients i).groups.get name = (net.clients i).groups.get name := by
  induction es with
  | nil => intro net net' _ hr i; cases hr; rfl
  | cons e es ih =>
    intro net net' hs hr i
    simp only [nrun, Option.bind_eq_some_iff] at hr
    obtain ⟨n1, h1, h2⟩ := hr
    obtain ⟨h3, h4⟩ := hs.2 n1 h1
    rw [ih h4 h2 i, h3 i]

theorem wrote_still {upper : Bytes → Bytes} {name : Bytes} {i m : Id} {g : GroupList} (es : List NEv) : ∀ {net net'},
    Still upper name net es → nrun upper net es = some net' → (net.clients i).groups.get name = some g →
    wrote upper name i m net es = if m ∈ g.members ∧ m ≠ i then said name i es else [] := by
  induction es with
  | nil => intro net net' _ _ _; simp [wrote, said]
  | cons e es ih =>
    intro net net' hs hr hg
    simp only [nrun, Option.bind_eq_some_iff] at hr
    obtain ⟨n1, h1, h2⟩ := hr
    obtain ⟨h3, h4⟩ := hs.2 n1 h1
    have := ih h4 h2 (by rw [h3, hg])
    simp only [wrote, h1]
    rw [this]
    have hkey : ∀ l, wrote1 net name i m e = [] → said name i (e :: es) = l → said name i es = l →
        (wrote1 net name i m e ++ if m ∈ g.members ∧ m ≠ i then said name i es else []) =
          if m ∈ g.members ∧ m ≠ i then said name i (e :: es) else [] := by
      intro l ha hb hc
      rw [ha, hb, hc, List.nil_append]
    cases e with
    | cmd j c flt =>
      cases c with
      | message n t me =>
        simp only [said, wrote1]
        split
        · rw [hg]
          dsimp only
          split <;> rfl
        · rfl
      | _ => exact hkey _ rfl rfl rfl
    | _ => exact hkey _ rfl rfl rfl

theorem talk_still {upper : Bytes → Bytes} {name : Bytes} {i m : Id} (him : i ≠ m) {g : GroupList} (hi : i ∈ g.members)
    (es : List NEv) : ∀ {net net'}, NetOnce net → Still upper name net es →
    (net.clients m).groups.get name = some g → nrun upper net es = some net' →
    seen net' name i m ++ texts name (net'.wire i m) =
      seen net name i m ++ texts name (net.wire i m) ++ wrote upper name i m net es := by
  induction es with
  | nil => intro net net' _ _ _ hr; cases hr; simp [wrote]
  | cons e es ih =>
    intro net net' hn hs hg hr
    simp only [nrun, Option.bind_eq_some_iff] at hr
    obtain ⟨n1, h1, h2⟩ := hr
    obtain ⟨h3, h4⟩ := hs.2 n1 h1
    rw [ih (netOnce_step hn h1) h4 (by rw [h3, hg]) h2]
    simp only [wrote, h1]
    rw [← List.append_assoc]
    congr 1
    rcases talk_step hn h1 name him with h5 | ⟨x, r, _, _, _, _, h6⟩
    · exact h5
    · rcases h6 with h6 | h6
      · exact absurd h6 (hs.1 _ _)
      · exact absurd hi (h6 g hg)

/-- Writing to a group changes no list. -/
theorem still_message {upper : Bytes → Bytes} {name : Bytes} {net : Net} {i : Id} {n t : Bytes} {me : Bool} {flt : Fault}
    {es : List NEv} (h : ∀ net', nstep upper net (.cmd i (.message n t me) flt) = some net' → Still upper name net' es) :
    Still upper name net (.cmd i (.message n t me) flt :: es) := by
  refine ⟨fun _ _ h => (by cases h), fun net' h' => ⟨fun x => ?_, h net' h'⟩⟩
  obtain ⟨s, hs, hi, hx, _⟩ := act_eq (upper := upper) (net := net) (i := i) (ev := .cmd (.message n t me) flt) h'
  by_cases hxi : x = i
  · subst hxi
    rw [hi]
    cases hs
    simp only [cmd, cmdMessage, sendAll]
    split <;> rfl
  · rw [hx x hxi]

/-- Nor does the arrival of what was written. -/
theorem still_arrival {upper : Bytes → Bytes} {name : Bytes} {net : Net} {a m : Id} {flt : Fault} {n t : Bytes} {gen : Nat}
    {me : Bool} {r : List Msg} {es : List NEv} (hw : net.wire a m = .message n gen t me :: r)
    (h : ∀ net', nstep upper net (.deliver a m flt) = some net' → Still upper name net' es) :
    Still upper name net (.deliver a m flt :: es) := by
  refine ⟨fun _ _ h => (by cases h), fun net' h' => ⟨fun x => ?_, h net' h'⟩⟩
  simp only [nstep] at h'
  split at h'
  · cases h'
  rw [hw] at h'
  obtain ⟨s, hs, hi, hx, _⟩ := act_eq h'
  by_cases hxi : x = m
  · subst hxi
    rw [hi]
    simp only [step, recv, recvMessage] at hs
    repeat' split at hs
    all_goals first
      | (cases hs; done)
      | (cases hs; rfl)
  · rw [hx x hxi]
    rfl

/-! ## C122 -/

/-- **C122.** Whatever the clients do and whatever is lost: what is shown to `m` in a group as that of `i` is what `i`
wrote while `m` was on their list, each text at most once, in the order in which it was written. -/
theorem C122_once {upper : Bytes → Bytes} {nick : Id → Bytes} {net : Net} {es : List NEv}
    (h : nrun upper (start nick) es = some net) (name : Bytes) {i m : Id} (him : i ≠ m) :
    (seen net name i m).Sublist (wrote upper name i m (start nick) es) ∧
      (wrote upper name i m (start nick) es).Sublist (said name i es) := by
  refine ⟨?_, wrote_said es⟩
  have h1 := talk_run (name := name) him es (netOnce_start nick) h
  have h2 : seen (start nick) name i m ++ texts name ((start nick).wire i m) = [] := rfl
  rw [h2, List.nil_append] at h1
  exact (List.sublist_append_left _ _).trans h1

/-- **C122.** When an orderly group has come to rest, and while nobody comes or goes: every member sees all that another
member writes, in order, as soon as it has arrived; and all that was on its way before. Missing: while the members
change (`C122_new_violated`, `C122_left_violated`), and messages that are lost. -/
theorem C122_members_partial {upper : Bytes → Bytes} {name : Bytes} (hv : validName name = true) {nick : Id → Bytes}
    {net net' : Net} {es es' : List NEv} (hq : OrderlyRun upper name (start nick) es)
    (h : nrun upper (start nick) es = some net) {a : Id} {g : GroupList}
    (hg : (net.clients a).groups.get name = some g) (ha : admin g = some a)
    (hk : ∀ k ∈ (net.clients a).kicks, ¬ Under name k) (hset : ∀ m ∈ g.members, Settled name net a m)
    (hst : Still upper name net es') (h' : nrun upper net es' = some net') {i m : Id} (hi : i ∈ g.members)
    (hm : m ∈ g.members) (him : i ≠ m) :
    seen net' name i m ++ texts name (net'.wire i m) =
      seen net name i m ++ texts name (net.wire i m) ++ said name i es' := by
  have h1 := C114_agree_partial hv hq h hg ha hk hi (hset i hi)
  have h2 := C114_agree_partial hv hq h hg ha hk hm (hset m hm)
  rw [talk_still him hi es' (netOnce_run es (netOnce_start nick) h) hst h2 h', wrote_still es' hst h' h1,
    if_pos ⟨hm, Ne.symm him⟩]

/-- **C122.** And nobody who is not a member is sent any of it. Missing: while the members change
(`C122_kicked_violated`). -/
theorem C122_others_partial {upper : Bytes → Bytes} {name : Bytes} (hv : validName name = true) {nick : Id → Bytes}
    {net net' : Net} {es es' : List NEv} (hq : OrderlyRun upper name (start nick) es)
    (h : nrun upper (start nick) es = some net) {a : Id} {g : GroupList}
    (hg : (net.clients a).groups.get name = some g) (ha : admin g = some a)
    (hk : ∀ k ∈ (net.clients a).kicks, ¬ Under name k) (hset : ∀ m ∈ g.members, Settled name net a m)
    (hst : Still upper name net es') (h' : nrun upper net es' = some net') {i m : Id} (hi : i ∈ g.members)
    (hm : m ∉ g.members) :
    (seen net' name i m ++ texts name (net'.wire i m)).Sublist (seen net name i m ++ texts name (net.wire i m)) := by
  have him : i ≠ m := fun h => hm (h ▸ hi)
  have h1 := C114_agree_partial hv hq h hg ha hk hi (hset i hi)
  have h2 := talk_run (name := name) him es' (netOnce_run es (netOnce_start nick) h) h'
  rw [wrote_still es' hst h' h1, if_neg (fun hh => hm hh.1), List.append_nil] at h2
  exact h2

/-- **C122.** Two members to whom everything has arrived have seen the same of a third one since then. -/
theorem C122_same_partial {upper : Bytes → Bytes} {name : Bytes} (hv : validName name = true) {nick : Id → Bytes}
    {net net' : Net} {es es' : List NEv} (hq : OrderlyRun upper name (start nick) es)
    (h : nrun upper (start nick) es = some net) {a : Id} {g : GroupList}
    (hg : (net.clients a).groups.get name = some g) (ha : admin g = some a)
    (hk : ∀ k ∈ (net.clients a).kicks, ¬ Under name k) (hset : ∀ m ∈ g.members, Settled name net a m)
    (hst : Still upper name net es') (h' : nrun upper net es' = some net') {i m m' : Id} (hi : i ∈ g.members)
    (hm : m ∈ g.members) (hm' : m' ∈ g.members) (him : i ≠ m) (him' : i ≠ m')
    (hsame : seen net name i m ++ texts name (net.wire i m) = seen net name i m' ++ texts name (net.wire i m'))
    (h0 : texts name (net'.wire i m) = []) (h0' : texts name (net'.wire i m') = []) :
    seen net' name i m = seen net' name i m' := by
  have h1 := C122_members_partial hv hq h hg ha hk hset hst h' hi hm him
  have h2 := C122_members_partial hv hq h hg ha hk hset hst h' hi hm' him'
  rw [h0, List.append_nil] at h1
  rw [h0', List.append_nil] at h2
  rw [h1, h2, hsame]

/-! ## What goes wrong -/

open GroupNet.Ex

/-- **C122.** What somebody new writes is not shown to those who have not yet heard that they are there: here 2 has
joined, has the list, and 1 is on it. -/
theorem C122_new_violated : ∃ net net', nrun id net0 ([.cmd 0 (.new g false) ok] ++ ask 0 1 5 ++
      [.deliver 1 0 ok, .deliver 0 1 ok] ++ ask 0 2 6 ++ [.deliver 2 0 ok, .deliver 0 2 ok]) = some net ∧
    has net 0 = some [0, 1, 2] ∧ has net 2 = some [0, 1, 2] ∧
    nrun id net [.cmd 2 (.message g [104] false) ok, .deliver 2 1 ok, .deliver 0 1 ok, .deliver 2 0 ok] = some net' ∧
    quiet net' ∧ has net' 1 = some [0, 1, 2] ∧ seen net' g 2 0 = [[104]] ∧ seen net' g 2 1 = [] :=
  ⟨_, _, rfl, by decide, by decide, rfl, by decide, by decide, by decide, by decide⟩

/-- **C122.** Somebody who was kicked reads what is written after that, by one who has not yet heard of it: here 2 is
off the list of the administrator. -/
theorem C122_kicked_violated : ∃ net net', nrun id net0 (trio ++ [.cmd 0 (.kick g 2) ok, .ack 0 0, .ack 0 0]) = some net ∧
    has net 0 = some [0, 1] ∧
    nrun id net [.cmd 1 (.message g [104] false) ok, .deliver 1 2 ok] = some net' ∧ seen net' g 1 2 = [[104]] :=
  ⟨_, _, rfl, by decide, rfl, by decide⟩

/-- **C122.** What somebody wrote before they were kicked is shown to some and not to others. -/
theorem C122_left_violated : ∃ net, nrun id net0 (trio ++ [.cmd 1 (.message g [104] false) ok, .deliver 1 0 ok,
      .cmd 0 (.kick g 1) ok, .ack 0 0, .ack 0 0, .deliver 0 1 ok, .deliver 0 2 ok, .deliver 1 2 ok]) = some net ∧
    quiet net ∧ seen net g 1 0 = [[104]] ∧ seen net g 1 2 = [] :=
  ⟨_, rfl, by decide, by decide, by decide⟩

/-- **C122.** Two members see the texts of two others in different order. -/
theorem C122_order_violated : ∃ net, nrun id net0 (trio ++ ask 0 3 7 ++ [.deliver 3 0 ok, .deliver 0 1 ok,
      .deliver 0 2 ok, .deliver 0 3 ok, .cmd 0 (.message g [65] false) ok, .cmd 1 (.message g [66] false) ok,
      .deliver 0 2 ok, .deliver 1 2 ok, .deliver 1 3 ok, .deliver 0 3 ok, .deliver 0 1 ok, .deliver 1 0 ok]) = some net ∧
    quiet net ∧ (net.clients 2).shown = [(g, 0, [65]), (g, 1, [66])] ∧
    (net.clients 3).shown = [(g, 1, [66]), (g, 0, [65])] :=
  ⟨_, rfl, by decide, by decide, by decide⟩

/-- Everybody sees what 1 writes, and 3 does not. -/
example : ∃ net, nrun id net0 (trio ++ [.cmd 1 (.message g [65] false) ok, .cmd 1 (.message g [66] false) ok,
      .deliver 1 2 ok, .deliver 1 0 ok, .deliver 1 2 ok, .deliver 1 0 ok]) = some net ∧
    quiet net ∧ seen net g 1 0 = [[65], [66]] ∧ seen net g 1 2 = [[65], [66]] ∧ seen net g 1 3 = [] :=
  ⟨_, rfl, by decide, by decide, by decide, by decide⟩

/-- Such runs are still. -/
example : ∃ net, nrun id net0 trio = some net ∧
    Still id g net [.cmd 1 (.message g [65] false) ok, .deliver 1 2 ok, .cmd 2 (.message g [66] true) ok, .deliver 1 0 ok] := by
  refine ⟨_, rfl, still_message fun n1 h1 => ?_⟩
  cases h1
  refine still_arrival (n := g) (t := [65]) (gen := 4) (me := false) (r := []) (by decide) fun n2 h2 => ?_
  cases h2
  refine still_message fun n3 h3 => ?_
  cases h3
  exact still_arrival (n := g) (t := [65]) (gen := 4) (me := false) (r := []) (by decide) fun n4 h4 => trivial

end Verif.GroupTalk
