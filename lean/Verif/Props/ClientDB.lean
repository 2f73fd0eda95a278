import Verif.Model.ClientDB
import Verif.Proofs.GoMap

/-! # C121: invitations that are made, received and used at the same time -/

namespace Verif.ClientDB

open Verif

/-! ## The operations one after the other -/

/-- What an operation does with the invitations, and its result. -/
def apply (op : Op) (m : DB) : Res × DB :=
  match op with
  | .invite k v | .invited k v => if (m.get k).isSome then (.failed, m) else (.ok, m.set k v)
  | .joined k v => if m.get k = some v then (.ok, m.del k) else (.failed, m)
  | .join k v =>
    if m.get k = some v then (if ∀ k' ∈ m.map Prod.fst, k'.1 = k.1 → k' = k then (.ok, m.del k) else (.kept, m))
    else (.failed, m)

/-- The invitations of a file after what was done, one thing after the other. -/
def after (f : File) : List (Op × Res) → DB → DB
  | [], m => m
  | (op, _) :: l, m => after f l (if op.file = f then (apply op m).2 else m)

/-- Each result is the one that it would be if one thing was done after the other. -/
def Right (f : File) : List (Op × Res) → DB → Prop
  | [], _ => True
  | (op, r) :: l, m => (op.file = f → r = (apply op m).1) ∧ Right f l (if op.file = f then (apply op m).2 else m)

theorem after_append (f : File) (l : List (Op × Res)) (op : Op) (r : Res) : ∀ m,
    after f (l ++ [(op, r)]) m = if op.file = f then (apply op (after f l m)).2 else after f l m := by
  induction l with
  | nil => intro m; rfl
  | cons a l ih => intro m; obtain ⟨o, q⟩ := a; exact ih _

theorem right_append {f : File} {l : List (Op × Res)} {op : Op} {r : Res} : ∀ {m}, Right f l m →
    (op.file = f → r = (apply op (after f l m)).1) → Right f (l ++ [(op, r)]) m := by
  induction l with
  | nil => intro m _ h; exact ⟨h, trivial⟩
  | cons a l ih => intro m h1 h2; obtain ⟨o, q⟩ := a; exact ⟨h1.1, ih h1.2 h2⟩

/-! ## Who is at a file -/

/-- Goroutine `t` is using the file `f`. -/
def At (s : State) (f : File) (t : Tid) : Prop := ∃ op, (s.pc t).op = some op ∧ op.file = f

/-- At no time of the run both goroutines are using the file. -/
def Apart (f : File) : State → List Ev → Prop
  | s, [] => ¬ (At s f .user ∧ At s f .net)
  | s, e :: es => ¬ (At s f .user ∧ At s f .net) ∧ ∀ s', step s e = some s' → Apart f s' es

/-- `Save` is between its two renames: there is no file. -/
def Away (s : State) (f : File) : Prop := ∃ t op db r, s.pc t = .put op db r ∧ op.file = f

/-- The program is not killed between the two renames. -/
def Spared (f : File) : State → List Ev → Prop
  | _, [] => True
  | s, e :: es => (e = .crash → ¬ Away s f) ∧ ∀ s', step s e = some s' → Spared f s' es

/-! ## What holds when they are apart -/

/-- The copy of a goroutine at the file. -/
def PcGood (m : DB) : Pc → Prop
  | .idle | .load _ => True
  | .fresh op => m = [] ∧ op.create = true
  | .opened op db c => db = m ∧ (c = true → op.create = true)
  | .again op => ∃ k v, op = .join k v ∧ m.get k = some v
  | .reopened op db => db = m ∧ ∃ k v, op = .join k v ∧ m.get k = some v
  | .back op db r => (r, db) = apply op m
  | .put op db r => (r, db) = apply op m

/-- There is a file: it was read, or `Save` has something to rename. -/
def Found : Pc → Prop
  | .opened _ _ c => c = false
  | .reopened .. | .back .. => True
  | _ => False

structure Inv (f : File) (s : State) : Prop where
  right : Right f s.log []
  file : ¬ Away s f → (s.file f).getD [] = after f s.log []
  pc : ∀ t op, (s.pc t).op = some op → op.file = f → PcGood (after f s.log []) (s.pc t)
  found : ∀ t op, (s.pc t).op = some op → op.file = f → Found (s.pc t) → (s.file f).isSome

@[simp] theorem goto_pc (s : State) (t x : Tid) (pc : Pc) : (s.goto t pc).pc x = if x = t then pc else s.pc x := rfl
@[simp] theorem goto_file (s : State) (t : Tid) (pc : Pc) : (s.goto t pc).file = s.file := rfl
@[simp] theorem goto_log (s : State) (t : Tid) (pc : Pc) : (s.goto t pc).log = s.log := rfl
@[simp] theorem write_pc (s : State) (f : File) (d : Option DB) : (s.write f d).pc = s.pc := rfl
@[simp] theorem write_log (s : State) (f : File) (d : Option DB) : (s.write f d).log = s.log := rfl
theorem write_file (s : State) (f g : File) (d : Option DB) :
    (s.write f d).file g = if g = f then d else s.file g := rfl
@[simp] theorem finish_pc (s : State) (t x : Tid) (op : Op) (r : Res) :
    (s.finish t op r).pc x = if x = t then .idle else s.pc x := rfl
@[simp] theorem finish_file (s : State) (t : Tid) (op : Op) (r : Res) : (s.finish t op r).file = s.file := rfl
@[simp] theorem finish_log (s : State) (t : Tid) (op : Op) (r : Res) :
    (s.finish t op r).log = s.log ++ [(op, r)] := rfl

theorem other_ne (t : Tid) : t.other ≠ t := by cases t <;> decide

theorem eq_or_other (t x : Tid) : x = t ∨ x = t.other := by cases t <;> cases x <;> decide

/-- A step of a goroutine at another file. -/
theorem inv_elsewhere {f : File} {s s' : State} {t : Tid} {op : Op} (h : Inv f s) (hop : (s.pc t).op = some op)
    (hf : op.file ≠ f) (hfile : s'.file f = s.file f) (hpc : s'.pc t.other = s.pc t.other)
    (hop' : (s'.pc t).op = some op ∨ s'.pc t = .idle)
    (hlog : s'.log = s.log ∨ ∃ r, s'.log = s.log ++ [(op, r)]) : Inv f s' := by
  have ha : after f s'.log [] = after f s.log [] := by
    rcases hlog with h1 | ⟨r, h1⟩
    · rw [h1]
    · rw [h1, after_append, if_neg hf]
  have haway : Away s' f ↔ Away s f := by
    constructor
    · rintro ⟨x, o, db, r, hx, ho⟩
      rcases eq_or_other t x with rfl | rfl
      · exfalso
        rcases hop' with h1 | h1
        · rw [hx] at h1; cases h1; exact hf ho
        · rw [hx] at h1; cases h1
      · exact ⟨_, o, db, r, hpc ▸ hx, ho⟩
    · rintro ⟨x, o, db, r, hx, ho⟩
      rcases eq_or_other t x with rfl | rfl
      · exfalso
        rw [hx] at hop; cases hop; exact hf ho
      · exact ⟨_, o, db, r, hpc.trans hx, ho⟩
  refine ⟨?_, ?_, ?_, ?_⟩
  · rcases hlog with h1 | ⟨r, h1⟩
    · rw [h1]; exact h.right
    · rw [h1]; exact right_append h.right (fun h2 => absurd h2 hf)
  · rw [haway, ha, hfile]; exact h.file
  · intro x o hx ho
    rcases eq_or_other t x with rfl | rfl
    · exfalso
      rcases hop' with h1 | h1
      · rw [hx] at h1; cases h1; exact hf ho
      · rw [h1] at hx; cases hx
    · rw [ha, hpc]
      exact h.pc _ _ (by rw [← hpc]; exact hx) ho
  · intro x o hx ho hx'
    rcases eq_or_other t x with rfl | rfl
    · exfalso
      rcases hop' with h1 | h1
      · rw [hx] at h1; cases h1; exact hf ho
      · rw [h1] at hx; cases hx
    · rw [hfile]
      rw [hpc] at hx hx'
      exact h.found _ o hx ho hx'

/-- A step of a goroutine that is alone at the file. -/
theorem inv_alone {f : File} {s' : State} {t : Tid} (ho : ∀ op, (s'.pc t.other).op = some op → op.file ≠ f)
    (hr : Right f s'.log []) (hfile : (∀ op db r, s'.pc t ≠ .put op db r) → (s'.file f).getD [] = after f s'.log [])
    (hput : ∀ op, (s'.pc t).op = some op → op.file = f)
    (hpc : PcGood (after f s'.log []) (s'.pc t))
    (hback : Found (s'.pc t) → (s'.file f).isSome) : Inv f s' := by
  refine ⟨hr, fun hn => hfile fun op db r hp => ?_, fun x o hx hf => ?_, fun x o hx hf hx' => ?_⟩
  · exact hn ⟨t, op, db, r, hp, hput op (by rw [hp]; rfl)⟩
  · rcases eq_or_other t x with rfl | rfl
    · exact hpc
    · exact absurd hf (ho o hx)
  · rcases eq_or_other t x with rfl | rfl
    · exact hback hx'
    · exact absurd hf (ho o hx)

theorem del_eq_filter (m : DB) (k : Key) : m.del k = m.filter fun r => r.1 ≠ k := by
  induction m with
  | nil => rfl
  | cons a m ih =>
    obtain ⟨x, y⟩ := a
    rw [GoMap.del, List.filter_cons]
    by_cases h : x = k
    · simp [h, ih]
    · simp [h, ih]

theorem filter_group {m : DB} {k : Key} {v v' : Nat} {k' : Key} (h : m.get k = some v)
    (hg : ofGroup m k.1 = [(k', v')]) :
    k' = k ∧ v' = v ∧ (m.filter fun r => r.1.1 ≠ k.1) = m.del k ∧ ∀ x ∈ m.map Prod.fst, x.1 = k.1 → x = k := by
  have hmem : (k, v) ∈ ofGroup m k.1 := List.mem_filter.mpr ⟨GoMap.mem_of_get h, by simp⟩
  rw [hg, List.mem_singleton] at hmem
  cases hmem
  refine ⟨rfl, rfl, ?_, ?_⟩
  · rw [del_eq_filter]
    apply List.filter_congr
    intro r hr
    by_cases hk : r.1.1 = k.1
    · have : r ∈ ofGroup m k.1 := List.mem_filter.mpr ⟨hr, by simp [hk]⟩
      rw [hg, List.mem_singleton] at this
      subst this
      simp
    · have : r.1 ≠ k := fun h => hk (by rw [h])
      simp [hk, this]
  · intro x hx hxk
    obtain ⟨r, hr, rfl⟩ := List.mem_map.mp hx
    have : r ∈ ofGroup m k.1 := List.mem_filter.mpr ⟨hr, by simp [hxk]⟩
    rw [hg, List.mem_singleton] at this
    rw [this]

theorem single_group {m : DB} (hw : GoMap.WF m) {k : Key} {v : Nat} (h : m.get k = some v)
    (hall : ∀ x ∈ m.map Prod.fst, x.1 = k.1 → x = k) : ofGroup m k.1 = [(k, v)] := by
  have hsub : ∀ r ∈ ofGroup m k.1, r = (k, v) := by
    intro r hr
    obtain ⟨h1, h2⟩ := List.mem_filter.mp hr
    have h3 : r.1 = k := hall r.1 (List.mem_map_of_mem h1) (by simpa using h2)
    have h4 := (GoMap.mem_iff_get hw).1 (show (r.1, r.2) ∈ m from h1)
    rw [h3, h] at h4
    cases r
    simp_all
  have hnd : (ofGroup m k.1).Nodup := (hw.of_map _).filter _
  have hmem : (k, v) ∈ ofGroup m k.1 := List.mem_filter.mpr ⟨GoMap.mem_of_get h, by simp⟩
  match hl : ofGroup m k.1 with
  | [] => rw [hl] at hmem; cases hmem
  | [a] => rw [hl] at hmem hsub; rw [hsub a (by simp)]
  | a :: b :: l =>
    exfalso
    rw [hl] at hsub hnd
    have h1 := hsub a (by simp)
    have h2 := hsub b (by simp)
    subst h1
    rw [h2] at hnd
    simp at hnd

theorem apply_wf {op : Op} {m : DB} (h : GoMap.WF m) : GoMap.WF (apply op m).2 := by
  unfold apply
  cases op <;> dsimp only <;> (repeat' split) <;> first | exact h | exact GoMap.wf_set h _ _ | exact GoMap.wf_del h _

theorem after_wf (f : File) (l : List (Op × Res)) : ∀ {m}, GoMap.WF m → GoMap.WF (after f l m) := by
  induction l with
  | nil => intro m h; exact h
  | cons a l ih =>
    intro m h
    obtain ⟨o, q⟩ := a
    refine ih ?_
    split
    · exact apply_wf h
    · exact h

/-- A step changes nothing of the other goroutine, nor of other files. -/
theorem go_frame {s s' : State} {t : Tid} {op : Op} (hop : (s.pc t).op = some op) (h : go s t = some s') :
    s'.pc t.other = s.pc t.other ∧ (∀ g, op.file ≠ g → s'.file g = s.file g) ∧
      ((s'.pc t).op = some op ∨ s'.pc t = .idle) ∧ (s'.log = s.log ∨ ∃ r, s'.log = s.log ++ [(op, r)]) := by
  have ho := other_ne t
  unfold go at h
  cases hpc : s.pc t <;> rw [hpc] at h hop <;> simp only [Pc.op] at hop <;> try cases hop
  case load =>
    dsimp only at h
    split at h
    · cases h; simp [ho, Pc.op]
    · cases h; split <;> simp [ho, Pc.op]
  case fresh => cases h; refine ⟨by simp [ho], fun g hg => by simp [write_file, Ne.symm hg], by simp [Pc.op], by simp⟩
  case opened db c =>
    cases h
    unfold work save
    cases op <;> dsimp only <;> (repeat' split) <;> simp [ho, Pc.op]
  case again =>
    dsimp only at h
    split at h <;> cases h <;> simp [ho, Pc.op]
  case reopened db =>
    cases h
    unfold workAgain save
    cases op <;> dsimp only
    case join => repeat' split
                 all_goals simp [ho, Pc.op]
    all_goals simp [hpc, Pc.op]
  case back db r =>
    dsimp only at h
    split at h <;> cases h
    · refine ⟨by simp [ho], fun g hg => by simp [write_file, Ne.symm hg], by simp [Pc.op], by simp⟩
    · simp [ho]
  case put db r =>
    cases h
    refine ⟨by simp [ho], fun g hg => by simp [write_file, Ne.symm hg], by simp, by simp⟩

theorem inv_go {f : File} {s s' : State} {t : Tid} (h : Inv f s) (hap : ¬ (At s f .user ∧ At s f .net))
    (hs : go s t = some s') : Inv f s' := by
  have hop : ∃ op, (s.pc t).op = some op := by
    cases hpc : s.pc t
    case idle => simp [go, hpc] at hs
    all_goals exact ⟨_, rfl⟩
  obtain ⟨op, hop⟩ := hop
  obtain ⟨h1, h2, h3, h4⟩ := go_frame hop hs
  by_cases hf : op.file = f
  swap
  · exact inv_elsewhere h hop hf (h2 f hf) h1 h3 h4
  have hoth : ∀ o, (s'.pc t.other).op = some o → o.file ≠ f := by
    intro o ho he
    rw [h1] at ho
    apply hap
    cases t
    · exact ⟨⟨op, hop, hf⟩, ⟨o, ho, he⟩⟩
    · exact ⟨⟨o, ho, he⟩, ⟨op, hop, hf⟩⟩
  have hoth0 : ∀ o, (s.pc t.other).op = some o → o.file ≠ f := by rw [← h1]; exact hoth
  have hfile : (∀ op db r, s.pc t ≠ .put op db r) → (s.file f).getD [] = after f s.log [] := by
    intro hn
    apply h.file
    rintro ⟨x, o, db, r, hx, ho⟩
    rcases eq_or_other t x with rfl | rfl
    · exact hn _ _ _ hx
    · exact hoth0 o (by rw [hx]; rfl) ho
  have hgood := h.pc t op hop hf
  have hput : ∀ o, (s'.pc t).op = some o → o.file = f := by
    intro o ho
    rcases h3 with h3 | h3
    · rw [h3] at ho; cases ho; exact hf
    · rw [h3] at ho; cases ho
  have hfound := h.found t op hop hf
  -- a function returns, and has changed nothing
  have hfin : ∀ r, r = (apply op (after f s.log [])).1 → (apply op (after f s.log [])).2 = after f s.log [] →
      (∀ op db r, s.pc t ≠ .put op db r) → s' = s.finish t op r → Inv f s' := by
    rintro r hr hm hnp rfl
    have ha : after f (s.log ++ [(op, r)]) [] = after f s.log [] := by rw [after_append, if_pos hf, hm]
    refine inv_alone hoth ?_ ?_ hput ?_ ?_
    · exact right_append h.right fun _ => hr
    · intro _
      rw [finish_log, ha]
      exact hfile hnp
    · simp [PcGood]
    · simp [Found]
  -- a function begins to save what it should
  have hsave : ∀ d c, (Res.ok, d) = apply op (after f s.log []) → s' = save s t op d c →
      (c = false → (s.file f).isSome) → (∀ op db r, s.pc t ≠ .put op db r) → Inv f s' := by
    rintro d c hd rfl hsome hnp
    refine inv_alone hoth h.right (fun _ => hfile hnp) hput ?_ ?_
    · simp only [save, goto_pc, if_true, goto_log]
      split <;> exact hd
    · intro hb
      cases c
      · exact hsome rfl
      · simp [save, Found] at hb
  unfold go at hs
  cases hpc : s.pc t with
  | idle => rw [hpc] at hop; cases hop
  | load o =>
    rw [hpc] at hs hop hgood
    obtain rfl : o = op := by simpa [Pc.op] using hop
    have hf0 := hfile (by rw [hpc]; simp)
    dsimp only at hs
    rw [hf] at hs
    cases hdb : s.file f with
    | some db =>
      rw [hdb] at hf0 hs
      cases hs
      refine inv_alone hoth h.right ?_ hput ?_ ?_
      · intro _; rw [goto_file, goto_log, hdb]; exact hf0
      · simp only [goto_pc, if_true, goto_log, PcGood]
        exact ⟨by simpa using hf0, by simp⟩
      · intro _; rw [goto_file, hdb]; rfl
    | none =>
      rw [hdb] at hs
      rw [hdb, Option.getD_none] at hf0
      by_cases hc : o.create = true
      · simp only [hc, if_true] at hs
        cases hs
        refine inv_alone hoth h.right ?_ hput ?_ ?_
        · intro _; rw [goto_file, goto_log, hdb]; exact hf0
        · simp only [goto_pc, if_true, goto_log, PcGood]
          exact ⟨hf0.symm, hc⟩
        · simp [Found]
      · rw [Bool.not_eq_true] at hc
        simp only [hc, if_false, Bool.false_eq_true] at hs
        cases hs
        refine hfin _ ?_ ?_ (by rw [hpc]; simp) rfl
        · rw [← hf0]; cases o <;> first | exact absurd hc Bool.noConfusion | (show _ = _; unfold apply; dsimp only; rw [if_neg (by rw [GoMap.get]; simp)])
        · rw [← hf0]; cases o <;> first | exact absurd hc Bool.noConfusion | (show _ = _; unfold apply; dsimp only; rw [if_neg (by rw [GoMap.get]; simp)])
  | fresh o =>
    rw [hpc] at hs hop hgood
    obtain rfl : o = op := by simpa [Pc.op] using hop
    cases hs
    refine inv_alone hoth h.right ?_ hput ?_ ?_
    · intro _; simp [write_file, hf, hgood.1]
    · simp only [goto_pc, if_true, goto_log, write_log, PcGood]
      exact ⟨hgood.1.symm, fun _ => hgood.2⟩
    · simp [Found]
  | opened o db c =>
    rw [hpc] at hs hop hgood hfound
    obtain rfl : o = op := by simpa [Pc.op] using hop
    have hnp : ∀ op db r, s.pc t ≠ .put op db r := by rw [hpc]; simp
    obtain ⟨rfl, hc⟩ := hgood
    have hs := (Option.some.inj hs).symm
    unfold work at hs
    cases o with
    | invite k v =>
      dsimp only at hs
      split at hs
      next h5 => exact hfin _ (by simp [apply, h5]) (by simp [apply, h5]) hnp hs
      next h5 => exact hsave _ _ (by simp [apply, h5]) hs (fun h6 => hfound (by simp [Found, h6])) hnp
    | invited k v =>
      dsimp only at hs
      split at hs
      next h5 => exact hfin _ (by simp [apply, h5]) (by simp [apply, h5]) hnp hs
      next h5 => exact hsave _ _ (by simp [apply, h5]) hs (fun h6 => hfound (by simp [Found, h6])) hnp
    | joined k v =>
      dsimp only at hs
      split at hs
      next h5 => exact hsave _ _ (by simp [apply, h5]) hs (fun h6 => hfound (by simp [Found, h6])) hnp
      next h5 => exact hfin _ (by simp [apply, h5]) (by simp [apply, h5]) hnp hs
    | join k v =>
      dsimp only at hs
      split at hs
      next h5 =>
        subst hs
        refine inv_alone hoth h.right (fun _ => hfile hnp) hput ?_ ?_
        · simp only [goto_pc, if_true, goto_log, PcGood]
          exact ⟨k, v, rfl, h5⟩
        · simp [Found]
      next h5 => exact hfin _ (by simp [apply, h5]) (by simp [apply, h5]) hnp hs
  | again o =>
    rw [hpc] at hs hop hgood
    obtain rfl : o = op := by simpa [Pc.op] using hop
    have hf0 := hfile (by rw [hpc]; simp)
    obtain ⟨k, v, rfl, hg⟩ := hgood
    dsimp only at hs
    rw [hf] at hs
    cases hdb : s.file f with
    | none =>
      rw [hdb, Option.getD_none] at hf0
      rw [← hf0] at hg
      cases hg
    | some db =>
      rw [hdb] at hf0 hs
      cases hs
      refine inv_alone hoth h.right ?_ hput ?_ ?_
      · intro _; rw [goto_file, goto_log, hdb]; exact hf0
      · simp only [goto_pc, if_true, goto_log, PcGood]
        exact ⟨by simpa using hf0, k, v, rfl, hg⟩
      · intro _; rw [goto_file, hdb]; rfl
  | reopened o db =>
    rw [hpc] at hs hop hgood hfound
    obtain rfl : o = op := by simpa [Pc.op] using hop
    have hnp : ∀ op db r, s.pc t ≠ .put op db r := by rw [hpc]; simp
    obtain ⟨rfl, k, v, rfl, hg⟩ := hgood
    have hs := (Option.some.inj hs).symm
    have hw : GoMap.WF (after f s.log []) := after_wf f s.log GoMap.wf_nil
    unfold workAgain at hs
    dsimp only at hs
    by_cases hall : ∀ x ∈ (after f s.log []).map Prod.fst, x.1 = k.1 → x = k
    · have h1 := single_group hw hg hall
      have h2 := (filter_group hg h1).2.2.1
      rw [h1] at hs
      simp only [if_true, h2] at hs
      refine hsave _ _ ?_ hs (fun _ => hfound trivial) hnp
      unfold apply
      dsimp only
      rw [if_pos hg, if_pos hall]
    · have hkept : apply (.join k v) (after f s.log []) = (.kept, after f s.log []) := by
        unfold apply
        dsimp only
        rw [if_pos hg, if_neg hall]
      refine hfin .kept (by rw [hkept]) (by rw [hkept]) hnp ?_
      split at hs
      next k' v' h1 => exact absurd (filter_group hg h1).2.2.2 hall
      next => exact hs
  | back o db r =>
    rw [hpc] at hs hop hgood hfound
    obtain rfl : o = op := by simpa [Pc.op] using hop
    have hsome := hfound trivial
    dsimp only at hs
    rw [hf] at hs
    cases hdb : s.file f with
    | none => rw [hdb] at hsome; cases hsome
    | some d =>
      rw [hdb] at hs
      cases hs
      refine inv_alone hoth h.right ?_ hput ?_ ?_
      · intro hn; exact absurd (by simp) (hn o db r)
      · simp only [goto_pc, if_true, goto_log, write_log, PcGood]
        exact hgood
      · simp [Found]
  | put o db r =>
    rw [hpc] at hs hop hgood
    obtain rfl : o = op := by simpa [Pc.op] using hop
    cases hs
    have hg : (r, db) = apply o (after f s.log []) := hgood
    refine inv_alone hoth ?_ ?_ hput ?_ ?_
    · exact right_append h.right fun _ => by rw [write_log, ← hg]
    · intro _
      rw [finish_log, write_log, after_append, if_pos hf, ← hg]
      simp [write_file, hf]
    · simp [PcGood]
    · simp [Found]

theorem inv_step {f : File} {s s' : State} {e : Ev} (h : Inv f s) (hap : ¬ (At s f .user ∧ At s f .net))
    (hsp : e = .crash → ¬ Away s f) (hs : step s e = some s') : Inv f s' := by
  cases e with
  | go t => exact inv_go h hap hs
  | list g =>
    simp only [step] at hs
    split at hs
    · cases hs; exact ⟨h.right, h.file, h.pc, h.found⟩
    · cases hs
  | crash =>
    cases hs
    refine ⟨h.right, fun _ => h.file (hsp rfl), ?_, ?_⟩
    · intro t op ho; cases ho
    · intro t op ho; cases ho
  | start op =>
    simp only [step] at hs
    split at hs
    next hc =>
      cases hs
      have haway : Away (s.goto op.tid (.load op)) f ↔ Away s f := by
        constructor
        · rintro ⟨x, o, db, r, hx, ho⟩
          rw [goto_pc] at hx
          split at hx
          · cases hx
          · exact ⟨x, o, db, r, hx, ho⟩
        · rintro ⟨x, o, db, r, hx, ho⟩
          refine ⟨x, o, db, r, ?_, ho⟩
          rw [goto_pc, if_neg]
          · exact hx
          · rintro rfl
            rw [hc.1] at hx; cases hx
      refine ⟨h.right, ?_, ?_, ?_⟩
      · rw [haway]; exact h.file
      · intro t o ho hf
        rw [goto_pc] at ho ⊢
        split
        · trivial
        next ht => rw [if_neg ht] at ho; exact h.pc t o ho hf
      · intro t o ho hf hfo
        rw [goto_pc] at ho hfo
        split at hfo
        · cases hfo
        next ht => rw [if_neg ht] at ho; exact h.found t o ho hf hfo
    next => cases hs

theorem inv_init (f : File) : Inv f init :=
  ⟨trivial, fun _ => rfl, fun _ _ h => (by cases h), fun _ _ h => (by cases h)⟩

theorem inv_run {f : File} (es : List Ev) : ∀ {s s'}, Inv f s → Apart f s es → Spared f s es → run s es = some s' →
    Inv f s' := by
  induction es with
  | nil => intro s s' h _ _ hr; cases hr; exact h
  | cons e es ih =>
    intro s s' h ha hsp hr
    simp only [run, Option.bind_eq_some_iff] at hr
    obtain ⟨s1, h1, h2⟩ := hr
    exact ih (inv_step h ha.1 hsp.1 h1) (ha.2 s1 h1) (hsp.2 s1 h1) h2

/-! ## The lock keeps those apart who use the invitations that the user has made -/

structure Locked (s : State) : Prop where
  tid : ∀ t op, (s.pc t).op = some op → op.tid = t
  mode : (held (s.pc .user)).with (held (s.pc .net)) = true

theorem with_comm (a b : Mode) : a.with b = b.with a := by cases a <;> cases b <;> rfl

theorem with_none (a : Mode) : a.with .none = true := by cases a <;> rfl

theorem locked_apart {s : State} (h : Locked s) : ¬ (At s .invites .user ∧ At s .invites .net) := by
  rintro ⟨⟨o1, h1, f1⟩, ⟨o2, h2, f2⟩⟩
  have t1 := h.tid _ _ h1
  have t2 := h.tid _ _ h2
  have hm := h.mode
  unfold held at hm
  rw [h1, h2] at hm
  cases o1 <;> cases t1 <;> cases f1
  cases o2 <;> cases t2 <;> cases f2
  cases hm

theorem locked_step {s s' : State} {e : Ev} (h : Locked s) (hs : step s e = some s') : Locked s' := by
  have key : ∀ (t : Tid) (pc : Pc), (pc.op = (s.pc t).op ∨ pc = .idle) → s'.pc t = pc → s'.pc t.other = s.pc t.other →
      Locked s' := by
    intro t pc hpc h1 h2
    refine ⟨fun x op hx => ?_, ?_⟩
    · rcases eq_or_other t x with rfl | rfl
      · rw [h1] at hx
        rcases hpc with hpc | hpc
        · rw [hpc] at hx; exact h.tid _ _ hx
        · rw [hpc] at hx; cases hx
      · rw [h2] at hx; exact h.tid _ _ hx
    · have hm := h.mode
      have hheld : held (s'.pc t) = held (s.pc t) ∨ held (s'.pc t) = .none := by
        rw [h1]
        rcases hpc with hpc | hpc
        · left; unfold held; rw [hpc]
        · right; rw [hpc]; rfl
      cases t
      · rw [show s'.pc .net = s.pc .net from h2]
        rcases hheld with h3 | h3
        · rw [h3]; exact hm
        · rw [h3]; rfl
      · rw [show s'.pc .user = s.pc .user from h2]
        rcases hheld with h3 | h3
        · rw [h3]; exact hm
        · rw [h3]; exact with_none _
  cases e with
  | list g =>
    simp only [step] at hs
    split at hs
    · cases hs; exact ⟨h.tid, h.mode⟩
    · cases hs
  | crash => cases hs; exact ⟨fun _ _ h => (by cases h), rfl⟩
  | start op =>
    simp only [step] at hs
    split at hs
    next hc =>
      cases hs
      refine ⟨fun t o ho => ?_, ?_⟩
      · rw [goto_pc] at ho
        split at ho
        next ht => cases ho; exact ht.symm
        next => exact h.tid _ _ ho
      · have hm := hc.2
        simp only [goto_pc]
        cases ht : op.tid <;> rw [ht] at hm
        · simp only [if_true]; simpa [held, Pc.op, Tid.other] using hm
        · simp only [if_true]; rw [with_comm]; simpa [held, Pc.op, Tid.other] using hm
    next => cases hs
  | go t =>
    have hop : ∃ op, (s.pc t).op = some op := by
      cases hpc : s.pc t
      case idle => simp [step, go, hpc] at hs
      all_goals exact ⟨_, rfl⟩
    obtain ⟨op, hop⟩ := hop
    obtain ⟨h1, _, h3, _⟩ := go_frame hop hs
    refine key t _ ?_ rfl h1
    rcases h3 with h3 | h3
    · left; rw [h3, hop]
    · right; exact h3

theorem apart_of_locked (es : List Ev) : ∀ {s}, Locked s → Apart .invites s es := by
  induction es with
  | nil => intro s h; exact locked_apart h
  | cons e es ih => intro s h; exact ⟨locked_apart h, fun s' hs => ih (locked_step h hs)⟩

theorem locked_init : Locked init := ⟨fun _ _ h => (by cases h), rfl⟩

/-! ## What was made is there until it is used -/

theorem kept_through {f : File} {k : Key} {v : Nat} (l : List (Op × Res)) : ∀ {m}, Right f l m → m.get k = some v →
    (f = .invites → (Op.joined k v, Res.ok) ∉ l) → (f = .joins → (Op.join k v, Res.ok) ∉ l) →
    (after f l m).get k = some v := by
  induction l with
  | nil => intro m _ h _ _; exact h
  | cons a l ih =>
    intro m hr hm h1 h2
    obtain ⟨op, r⟩ := a
    refine ih hr.2 ?_ (fun hf hm => h1 hf (List.mem_cons_of_mem _ hm)) (fun hf hm => h2 hf (List.mem_cons_of_mem _ hm))
    split
    swap
    · exact hm
    next hf =>
    have hres := hr.1 hf
    have hset : ∀ k' v', (m.get k').isSome = false → (m.set k' v').get k = some v := by
      intro k' v' hn
      rw [GoMap.get_set_ne _ _ (by rintro rfl; rw [hm] at hn; cases hn)]
      exact hm
    cases op with
    | invite k' v' =>
      by_cases h5 : (m.get k').isSome = true
      · simp [apply, h5, hm]
      · simp only [apply, h5, if_false, Bool.false_eq_true]
        exact hset _ _ (by simpa using h5)
    | invited k' v' =>
      by_cases h5 : (m.get k').isSome = true
      · simp [apply, h5, hm]
      · simp only [apply, h5, if_false, Bool.false_eq_true]
        exact hset _ _ (by simpa using h5)
    | joined k' v' =>
      by_cases h5 : m.get k' = some v'
      · simp only [apply, h5, if_true] at hres ⊢
        by_cases hk : k' = k
        · subst hk
          rw [hm] at h5
          cases h5
          subst hres
          exact absurd (by simp) (h1 hf.symm)
        · rw [GoMap.get_del_ne _ hk]; exact hm
      · simp [apply, h5, hm]
    | join k' v' =>
      by_cases h5 : m.get k' = some v'
      · simp only [apply, h5, if_true] at hres ⊢
        split at hres
        next h6 =>
          rw [if_pos h6]
          by_cases hk : k' = k
          · subst hk
            rw [hm] at h5
            cases h5
            subst hres
            exact absurd (by simp) (h2 hf.symm)
          · rw [GoMap.get_del_ne _ hk]; exact hm
        next h6 => rw [if_neg h6]; exact hm
      · simp [apply, h5, hm]

theorem right_split {f : File} (l1 : List (Op × Res)) {l2 : List (Op × Res)} : ∀ {m}, Right f (l1 ++ l2) m →
    Right f l2 (after f l1 m) := by
  induction l1 with
  | nil => intro m h; exact h
  | cons a l1 ih => intro m h; obtain ⟨op, r⟩ := a; exact ih h.2

theorem after_split {f : File} (l1 : List (Op × Res)) {l2 : List (Op × Res)} : ∀ m,
    after f (l1 ++ l2) m = after f l2 (after f l1 m) := by
  induction l1 with
  | nil => intro m; rfl
  | cons a l1 ih => intro m; obtain ⟨op, r⟩ := a; exact ih _

/-- An operation that makes an invitation. -/
def makes (f : File) (k : Key) (v : Nat) : Op :=
  match f with
  | .invites => .invite k v
  | .joins => .invited k v

/-- An operation that uses an invitation. -/
def uses (f : File) (k : Key) (v : Nat) : Op :=
  match f with
  | .invites => .joined k v
  | .joins => .join k v

theorem made_kept {f : File} {s : State} (h : Inv f s) {l1 l2 : List (Op × Res)} {k : Key} {v : Nat}
    (hl : s.log = l1 ++ (makes f k v, .ok) :: l2) (hn : (uses f k v, Res.ok) ∉ l2) (ha : ¬ Away s f) :
    ((s.file f).getD []).get k = some v := by
  rw [h.file ha, hl, after_split]
  have hr := right_split l1 (hl ▸ h.right)
  refine kept_through l2 hr.2 ?_ ?_ ?_
  · have h1 := hr.1
    cases f
    all_goals
      specialize h1 rfl
      simp only [makes, Op.file, if_true]
      simp only [makes, apply] at h1 ⊢
      split at h1
      · cases h1
      next h5 => rw [if_neg h5]; exact GoMap.get_set_self _ _ _
  · rintro rfl; exact hn
  · rintro rfl; exact hn

/-- Using an invitation twice takes making it in between. -/
theorem used_again {f : File} {k : Key} {v : Nat} (l : List (Op × Res)) : ∀ {m l'}, Right f (l ++ (uses f k v, .ok) :: l') m →
    m.get k ≠ some v → (makes f k v, Res.ok) ∈ l := by
  induction l with
  | nil =>
    intro m l' hr hm
    exfalso
    have h1 := hr.1
    cases f
    · have h2 := h1 rfl
      simp [uses, apply, hm] at h2
    · have h2 := h1 rfl
      simp [uses, apply, hm] at h2
  | cons a l ih =>
    intro m l' hr hm
    obtain ⟨op, r⟩ := a
    by_cases hmk : (op, r) = (makes f k v, Res.ok)
    · rw [hmk]; exact List.mem_cons_self
    refine List.mem_cons_of_mem _ (ih hr.2 ?_)
    split
    swap
    · exact hm
    next hf =>
    have hres := hr.1 hf
    cases op with
    | invite k' v' =>
      cases hf
      by_cases h5 : (m.get k').isSome = true
      · simpa [apply, h5] using hm
      · simp only [apply, h5, if_false, Bool.false_eq_true] at hres ⊢
        subst hres
        by_cases hk : k' = k
        · subst hk
          rw [GoMap.get_set_self]
          intro h6
          cases h6
          exact hmk rfl
        · rw [GoMap.get_set_ne _ _ hk]; exact hm
    | invited k' v' =>
      cases hf
      by_cases h5 : (m.get k').isSome = true
      · simpa [apply, h5] using hm
      · simp only [apply, h5, if_false, Bool.false_eq_true] at hres ⊢
        subst hres
        by_cases hk : k' = k
        · subst hk
          rw [GoMap.get_set_self]
          intro h6
          cases h6
          exact hmk rfl
        · rw [GoMap.get_set_ne _ _ hk]; exact hm
    | joined k' v' =>
      have hd : (GoMap.del m k').get k ≠ some v := by
        by_cases hk : k' = k
        · subst hk; rw [GoMap.get_del_self]; simp
        · rw [GoMap.get_del_ne _ hk]; exact hm
      simp only [apply]
      split
      · exact hd
      · exact hm
    | join k' v' =>
      have hd : (GoMap.del m k').get k ≠ some v := by
        by_cases hk : k' = k
        · subst hk; rw [GoMap.get_del_self]; simp
        · rw [GoMap.get_del_ne _ hk]; exact hm
      simp only [apply]
      split
      · split
        · exact hd
        · exact hm
      · exact hm

theorem not_after_use {f : File} {k : Key} {v : Nat} {m : DB} (h : (apply (uses f k v) m).1 = .ok) :
    (apply (uses f k v) m).2.get k ≠ some v := by
  cases f
  · simp only [uses, apply] at h ⊢
    split at h
    next h5 => rw [if_pos h5, GoMap.get_del_self]; simp
    next => cases h
  · simp only [uses, apply] at h ⊢
    split at h
    next h5 =>
      split at h
      next h6 => rw [if_pos h5, if_pos h6, GoMap.get_del_self]; simp
      next => cases h
    next => cases h

/-! ## C121 -/

/-- **C121.** Whatever the user and what arrives do with the invitations that the user has made, and however their steps
mix: every answer is the one that would be given if one thing was done after the other, and the file is what is left
then. Missing: a program that is killed between the two renames of `Save` (`C121_killed_violated`). -/
theorem C121_invites_partial {es : List Ev} {s : State} (hr : run init es = some s) (hsp : Spared .invites init es) :
    Right .invites s.log [] ∧ (¬ Away s .invites → (s.file .invites).getD [] = after .invites s.log []) :=
  have h := inv_run es (inv_init _) (apart_of_locked es locked_init) hsp hr
  ⟨h.right, h.file⟩

/-- **C121.** An invitation that the user has made, and was told so, is in the file until it is used. -/
theorem C121_made_partial {es : List Ev} {s : State} (hr : run init es = some s) (hsp : Spared .invites init es)
    {l1 l2 : List (Op × Res)} {k : Key} {v : Nat} (hl : s.log = l1 ++ (.invite k v, .ok) :: l2)
    (hn : (Op.joined k v, Res.ok) ∉ l2) (ha : ¬ Away s .invites) : ((s.file .invites).getD []).get k = some v :=
  made_kept (inv_run es (inv_init _) (apart_of_locked es locked_init) hsp hr) hl hn ha

/-- **C121.** An invitation that the user has made lets someone in once. -/
theorem C121_once_partial {es : List Ev} {s : State} (hr : run init es = some s) (hsp : Spared .invites init es)
    {l1 l2 l3 : List (Op × Res)} {k : Key} {v : Nat}
    (hl : s.log = l1 ++ (.joined k v, .ok) :: (l2 ++ (.joined k v, .ok) :: l3)) : (Op.invite k v, Res.ok) ∈ l2 := by
  have h := (C121_invites_partial hr hsp).1
  rw [hl] at h
  have h1 := right_split l1 h
  exact used_again (f := .invites) l2 h1.2 (not_after_use (f := .invites) (h1.1 rfl).symm)

/-- **C121.** Nobody is let in without an invitation. -/
theorem C121_invited_partial {es : List Ev} {s : State} (hr : run init es = some s) (hsp : Spared .invites init es)
    {l1 l2 : List (Op × Res)} {k : Key} {v : Nat} (hl : s.log = l1 ++ (.joined k v, .ok) :: l2) :
    (Op.invite k v, Res.ok) ∈ l1 := by
  have h := (C121_invites_partial hr hsp).1
  rw [hl] at h
  exact used_again (f := .invites) l1 h (by simp [GoMap.get])

/-- **C121.** The same for the invitations that the user got, as long as none arrives while the user is joining a
group. Missing: those that do (`C121_lost_violated`, `C121_back_violated`, `C121_wiped_violated`). -/
theorem C121_joins_partial {es : List Ev} {s : State} (hr : run init es = some s) (hsp : Spared .joins init es)
    (hap : Apart .joins init es) :
    Right .joins s.log [] ∧ (¬ Away s .joins → (s.file .joins).getD [] = after .joins s.log []) ∧
      (∀ l1 l2 k v, s.log = l1 ++ (.invited k v, .ok) :: l2 → (Op.join k v, Res.ok) ∉ l2 → ¬ Away s .joins →
        ((s.file .joins).getD []).get k = some v) ∧
      ∀ l1 l2 k v, s.log = l1 ++ (.join k v, .ok) :: l2 → (Op.invited k v, Res.ok) ∈ l1 := by
  have h := inv_run es (inv_init _) hap hsp hr
  refine ⟨h.right, h.file, fun l1 l2 k v hl hn ha => made_kept h hl hn ha, fun l1 l2 k v hl => ?_⟩
  have h1 := h.right
  rw [hl] at h1
  exact used_again (f := .joins) l1 h1 (by simp [GoMap.get])

/-- **C121.** The list of invitations is what is left of all that was done, unless a `Save` is between its renames.
Missing: `C121_list_violated`. -/
theorem C121_list_partial {es : List Ev} {s s' : State} (hr : run init es = some s) (hsp : Spared .invites init es)
    (ha : ¬ Away s .invites) (hs : step s (.list .invites) = some s') :
    s'.shown = s.shown ++ [(.invites, after .invites s.log [])] := by
  simp only [step] at hs
  split at hs
  · cases hs
    simp only [(C121_invites_partial hr hsp).2 ha]
  · cases hs

/-! ## What holds however the steps mix -/

/-- What was done is in the records. -/
def Done (op : Op) (db : DB) : Prop :=
  match op with
  | .invite k v | .invited k v => db.get k = some v
  | .join k _ | .joined k _ => db.get k = none

/-- What is about to be saved has what was done in it. -/
def PcDone : Pc → Prop
  | .back op db r | .put op db r => r = .ok ∧ Done op db
  | _ => True

theorem get_filter_group (m : DB) (k : Key) : GoMap.get (m.filter fun r => r.1.1 ≠ k.1) k = none := by
  cases h : GoMap.get (m.filter fun r => r.1.1 ≠ k.1) k with
  | none => rfl
  | some v => simpa using (List.mem_filter.mp (GoMap.mem_of_get h)).2

theorem save_done {s : State} {t : Tid} {op : Op} {db : DB} {c : Bool} (h : ∀ t, PcDone (s.pc t)) (hd : Done op db) :
    ∀ x, PcDone ((save s t op db c).pc x) := by
  intro x
  simp only [save, State.goto]
  split
  · cases c <;> exact ⟨rfl, hd⟩
  · exact h x

theorem goto_done {s : State} {t : Tid} {pc : Pc} (h : ∀ t, PcDone (s.pc t)) (hd : PcDone pc) :
    ∀ x, PcDone ((s.goto t pc).pc x) := by
  intro x
  simp only [State.goto]
  split
  · exact hd
  · exact h x

theorem work_done {s : State} {t : Tid} {op : Op} {db : DB} {c : Bool} (h : ∀ t, PcDone (s.pc t)) :
    ∀ x, PcDone ((work s t op db c).pc x) := by
  cases op <;> simp only [work] <;> split
  case invite.isTrue => exact goto_done h trivial
  case invite.isFalse => exact save_done h (GoMap.get_set_self _ _ _)
  case invited.isTrue => exact goto_done h trivial
  case invited.isFalse => exact save_done h (GoMap.get_set_self _ _ _)
  case join.isTrue => exact goto_done h trivial
  case join.isFalse => exact goto_done h trivial
  case joined.isTrue => exact save_done h (GoMap.get_del_self _ _)
  case joined.isFalse => exact goto_done h trivial

theorem workAgain_done {s : State} {t : Tid} {op : Op} {db : DB} (h : ∀ t, PcDone (s.pc t)) :
    ∀ x, PcDone ((workAgain s t op db).pc x) := by
  cases op <;> simp only [workAgain]
  case join k v =>
    split
    · split
      · exact save_done h (get_filter_group db k)
      · exact goto_done h trivial
    · exact goto_done h trivial
  all_goals exact h

theorem done_step {s s' : State} {e : Ev} (h : ∀ t, PcDone (s.pc t)) (hs : step s e = some s') :
    ∀ t, PcDone (s'.pc t) := by
  cases e with
  | start op =>
    simp only [step] at hs
    split at hs
    · cases hs; exact goto_done h trivial
    · cases hs
  | list f =>
    simp only [step] at hs
    split at hs
    · cases hs; exact h
    · cases hs
  | crash => cases hs; exact fun _ => trivial
  | go t =>
    simp only [step, go] at hs
    have ht := h t
    split at hs
    · cases hs
    · split at hs
      · cases hs; exact goto_done h trivial
      · cases hs
        split
        · exact goto_done h trivial
        · exact goto_done h trivial
    · cases hs; exact goto_done (s := s.write _ _) h trivial
    · cases hs; exact work_done h
    · split at hs <;> cases hs <;> exact goto_done h trivial
    · cases hs; exact workAgain_done h
    · rename_i hpc
      rw [hpc] at ht
      split at hs <;> cases hs
      · exact goto_done (s := s.write _ _) h ht
      · exact goto_done h trivial
    · cases hs; exact goto_done (s := s.write _ _) h trivial

theorem done_run (es : List Ev) : ∀ {s s'}, (∀ t, PcDone (s.pc t)) → run s es = some s' → ∀ t, PcDone (s'.pc t) := by
  induction es with
  | nil => intro s s' h hr; cases hr; exact h
  | cons e es ih =>
    intro s s' h hr
    simp only [run, Option.bind_eq_some_iff] at hr
    obtain ⟨u, hu, hr⟩ := hr
    exact ih (done_step h hu) hr

/-- **C121.** However the steps mix, and after whatever crashes: at the time when one is told that something was done, it
is in the file: an invitation that was made or that arrived is there with its token, and one that was used is not. -/
theorem C121_done {es : List Ev} {s s' : State} {e : Ev} (hr : run init es = some s) (hs : step s e = some s') {op : Op}
    (hl : s'.log = s.log ++ [(op, .ok)]) : ∃ db, s'.file op.file = some db ∧ Done op db := by
  have hne : ∀ {r : Res} {o : Op}, r ≠ .ok → s.log ++ [(o, r)] = s.log ++ [(op, .ok)] → False := by
    intro r o hn h
    have := List.append_cancel_left h
    simp only [List.cons.injEq, Prod.mk.injEq, and_true] at this
    exact hn this.2
  have hself : s.log = s.log ++ [(op, .ok)] → False := fun h => by simp at h
  cases e with
  | start o =>
    simp only [step] at hs
    split at hs
    · cases hs; exact (hself hl).elim
    · cases hs
  | list f =>
    simp only [step] at hs
    split at hs
    · cases hs; exact (hself hl).elim
    · cases hs
  | crash => cases hs; exact (hself hl).elim
  | go t =>
    have ht := done_run es (s := init) (fun _ => trivial) hr t
    simp only [step, go] at hs
    split at hs
    · cases hs
    · split at hs
      · cases hs; exact (hself hl).elim
      · cases hs
        split at hl
        · exact (hself hl).elim
        · exact (hne (by decide) hl).elim
    · cases hs; exact (hself hl).elim
    · cases hs
      rename_i o db c _
      cases o <;> simp only [work] at hl <;> split at hl <;>
        first | exact (hself hl).elim | exact (hne (by decide) hl).elim
    · split at hs <;> cases hs
      · exact (hself hl).elim
      · exact (hne (by decide) hl).elim
    · cases hs
      rename_i o db _
      cases o <;> simp only [workAgain] at hl
      case join =>
        split at hl
        · split at hl
          · exact (hself hl).elim
          · exact (hne (by decide) hl).elim
        · exact (hne (by decide) hl).elim
      all_goals exact (hself hl).elim
    · split at hs <;> cases hs
      · exact (hself hl).elim
      · rename_i o db r _ _ _
        cases o <;> exact (hne (by rintro ⟨⟩) hl).elim
    · rename_i o db r hpc
      cases hs
      have h1 := List.append_cancel_left (show s.log ++ [(o, r)] = s.log ++ [(op, .ok)] from hl)
      simp only [List.cons.injEq, Prod.mk.injEq, and_true] at h1
      rw [hpc] at ht
      refine ⟨db, ?_, h1.1 ▸ ht.2⟩
      rw [← h1.1]
      exact if_pos rfl

/-- **C121.** While the user joins a group, nobody is let into one, and the other way round; and nobody is let in while
the user makes an invitation. -/
theorem C121_locked {es : List Ev} {s : State} (hr : run init es = some s) {o1 o2 : Op}
    (h1 : (s.pc .user).op = some o1) (h2 : (s.pc .net).op = some o2) : ∃ k v, o2 = .invited k v := by
  have hl : Locked s := by
    have key : ∀ (es : List Ev) {s s' : State}, Locked s → run s es = some s' → Locked s' := by
      intro es
      induction es with
      | nil => intro s s' h hr; cases hr; exact h
      | cons e es ih =>
        intro s s' h hr
        simp only [run, Option.bind_eq_some_iff] at hr
        obtain ⟨u, hu, hr⟩ := hr
        exact ih (locked_step h hu) hr
    exact key es locked_init hr
  have t1 := hl.tid _ _ h1
  have t2 := hl.tid _ _ h2
  have hm := hl.mode
  unfold held at hm
  rw [h1, h2] at hm
  cases o1 <;> cases t1 <;> cases o2 <;> cases t2 <;> first | exact ⟨_, _, rfl⟩ | cases hm

/-- **C121.** Joining a group throws no invitation away but those with the token of this one: also not one that arrived
after it was looked up. -/
theorem C121_removed {s s' : State} {t : Tid} {k : Key} {v : Nat} {db db' : DB} {r : Res}
    (hp : s.pc t = .reopened (.join k v) db) (hs : step s (.go t) = some s') (hb : s'.pc t = .back (.join k v) db' r) :
    ∀ x ∈ db, x ∉ db' → x.2 = v ∧ x.1.1 = k.1 := by
  simp only [step, go, hp, workAgain, Option.some.injEq] at hs
  subst hs
  intro x hx hn
  split at hb
  · rename_i k' v' hg
    split at hb
    · rename_i hv
      simp only [save, State.goto, if_true, Bool.false_eq_true, if_false, Pc.back.injEq] at hb
      rw [← hb.2.1] at hn
      have hk : x.1.1 = k.1 := by
        refine Decidable.byContradiction fun hc => hn ?_
        exact List.mem_filter.mpr ⟨hx, by simpa using hc⟩
      have hx' : x ∈ ofGroup db k.1 := List.mem_filter.mpr ⟨hx, by simpa using hk⟩
      rw [hg] at hx'
      simp only [List.mem_singleton] at hx'
      exact ⟨by rw [hx', ← hv], hk⟩
    · simp [State.finish, State.goto] at hb
  · simp [State.finish, State.goto] at hb

/-- Uses an invitation. -/
def Uses : Op → Prop
  | .join .. | .joined .. => True
  | _ => False

/-- **C121.** Using invitations makes no files: without one that was made or that arrived there is no file, and every
answer is that it failed. -/
theorem C121_nothing {es : List Ev} {s : State} (hr : run init es = some s) (hu : ∀ op, .start op ∈ es → Uses op) :
    (∀ f, s.file f = none) ∧ ∀ x ∈ s.log, x.2 = .failed := by
  have key : ∀ (es : List Ev) {s s' : State}, (∀ f, s.file f = none) → (∀ x ∈ s.log, x.2 = .failed) →
      (∀ t, s.pc t = .idle ∨ ∃ op, s.pc t = .load op ∧ Uses op) → run s es = some s' →
      (∀ op, .start op ∈ es → Uses op) → (∀ f, s'.file f = none) ∧ ∀ x ∈ s'.log, x.2 = .failed := by
    intro es
    induction es with
    | nil => intro s s' h1 h2 _ hr _; cases hr; exact ⟨h1, h2⟩
    | cons e es ih =>
      intro s s' h1 h2 h3 hr hu
      simp only [run, Option.bind_eq_some_iff] at hr
      obtain ⟨u, hs, hr⟩ := hr
      have hu' : ∀ op, .start op ∈ es → Uses op := fun op h => hu op (List.mem_cons_of_mem _ h)
      cases e with
      | start op =>
        simp only [step] at hs
        split at hs
        · cases hs
          refine ih (by exact h1) (by exact h2) ?_ hr hu'
          intro t
          simp only [State.goto]
          split
          · exact .inr ⟨op, rfl, hu op List.mem_cons_self⟩
          · exact h3 t
        · cases hs
      | list f =>
        simp only [step] at hs
        split at hs
        · cases hs; exact ih (by exact h1) (by exact h2) (by exact h3) hr hu'
        · cases hs
      | crash => cases hs; exact ih (by exact h1) (by exact h2) (by exact fun _ => .inl rfl) hr hu'
      | go t =>
        rcases h3 t with hi | ⟨op, hl, ho⟩
        · simp [step, go, hi] at hs
        · have hc : op.create = false := by cases op <;> first | rfl | exact ho.elim
          simp only [step, go, hl, h1, hc, Bool.false_eq_true, if_false, Option.some.injEq] at hs
          subst hs
          refine ih ?_ ?_ ?_ hr hu'
          · exact h1
          · intro x hx
            rcases List.mem_append.mp hx with hx | hx
            · exact h2 x hx
            · rw [List.mem_singleton.mp hx]
          · intro y
            simp only [State.finish, State.goto]
            split
            · exact .inl rfl
            · exact h3 y
  exact key es (fun _ => rfl) (fun x hx => by cases hx) (fun _ => .inl rfl) hr hu

/-! ## What goes wrong -/

namespace Wit

def key (n : UInt8) : Key := ([n], [9])

def whole (op : Op) (n : Nat) : List Ev := .start op :: List.replicate n (.go op.tid)

/-- Two invitations get there. -/
def two : List Ev := whole (.invited (key 1) 11) 4 ++ whole (.invited (key 2) 12) 4

/-- An invitation arrives while the user is joining. -/
def lost : List Ev :=
  whole (.invited (key 1) 11) 4 ++ [.start (.join (key 1) 11), .go .user, .go .user, .go .user] ++
    whole (.invited (key 2) 12) 4 ++ [.go .user, .go .user, .go .user]

/-- The user joins while an invitation arrives; then the group is joined a second time with it. -/
def back : List Ev :=
  whole (.invited (key 1) 11) 4 ++ [.start (.invited (key 2) 12), .go .net, .go .net] ++
    whole (.join (key 1) 11) 6 ++ [.go .net, .go .net] ++ whole (.invited (key 1) 13) 2 ++ whole (.join (key 1) 11) 6

/-- An invitation arrives while the file is away. -/
def wiped : List Ev :=
  two ++ [.start (.join (key 1) 11), .go .user, .go .user, .go .user, .go .user, .go .user] ++
    [.start (.invited (key 3) 13), .go .net, .go .user, .go .net, .go .net, .go .net]

/-- The program is killed while the file is away. -/
def killed : List Ev :=
  whole (.invite (key 1) 11) 4 ++ whole (.invite (key 2) 12) 3 ++ [.crash]

/-- The user lists the invitations while the file is away. -/
def listed : List Ev :=
  whole (.invite (key 1) 11) 4 ++ whole (.invite (key 2) 12) 4 ++ whole (.joined (key 1) 11) 3

end Wit

/-- **C121.** Not so for the invitations that the user got: here one arrives, is shown and kept while the user joins
another group, and then it is gone. -/
theorem C121_lost_violated : ∃ es s, run init es = some s ∧ Spared .joins init es ∧ (∀ t, s.pc t = .idle) ∧
    (Op.invited (Wit.key 2) 12, Res.ok) ∈ s.log ∧ (∀ v r, (Op.join (Wit.key 2) v, r) ∉ s.log) ∧
    s.file .joins = some [] := by
  have hsp : ∀ es s, Ev.crash ∉ es → Spared .joins s es := by
    intro es
    induction es with
    | nil => intro s _; trivial
    | cons e es ih =>
      intro s h
      exact ⟨fun he => absurd (he ▸ List.mem_cons_self) h, fun s' _ => ih s' fun hm => h (List.mem_cons_of_mem _ hm)⟩
  refine ⟨Wit.lost, _, rfl, hsp _ _ (by decide), ?_, by decide, ?_, rfl⟩
  · intro t; cases t <;> rfl
  · intro v r
    show (Op.join (Wit.key 2) v, r) ∉ [(Op.invited (Wit.key 1) 11, Res.ok), (Op.invited (Wit.key 2) 12, Res.ok),
      (Op.join (Wit.key 1) 11, Res.ok)]
    simp [Wit.key]

/-- **C121.** And one that the user has used comes back: a new one of the same person for the same group is refused, and
the used one is used again. -/
theorem C121_back_violated : ∃ es s, run init es = some s ∧ (∀ t, s.pc t = .idle) ∧
    s.log = [(.invited (Wit.key 1) 11, .ok), (.join (Wit.key 1) 11, .ok), (.invited (Wit.key 2) 12, .ok),
      (.invited (Wit.key 1) 13, .failed), (.join (Wit.key 1) 11, .ok)] ∧ ¬ Right .joins s.log [] := by
  refine ⟨Wit.back, _, rfl, ?_, rfl, ?_⟩
  · intro t; cases t <;> rfl
  · show ¬ Right .joins [(.invited (Wit.key 1) 11, .ok), (.join (Wit.key 1) 11, .ok), (.invited (Wit.key 2) 12, .ok),
      (.invited (Wit.key 1) 13, .failed), (.join (Wit.key 1) 11, .ok)] []
    intro h
    have h1 := h.2.2.2.1 rfl
    revert h1
    decide

/-- **C121.** If one arrives between the two renames of a `Save` all the others are gone. -/
theorem C121_wiped_violated : ∃ es s, run init es = some s ∧ (∀ t, s.pc t = .idle) ∧
    s.log = [(.invited (Wit.key 1) 11, .ok), (.invited (Wit.key 2) 12, .ok), (.join (Wit.key 1) 11, .ok),
      (.invited (Wit.key 3) 13, .ok)] ∧ s.file .joins = some [(Wit.key 3, 13)] :=
  ⟨Wit.wiped, _, rfl, fun t => by cases t <;> rfl, rfl, rfl⟩

/-- **C121.** A program that is killed between the two renames has no invitations any more: they are in a backup, which
nothing reads. -/
theorem C121_killed_violated : ∃ es s, run init es = some s ∧ (∀ t, s.pc t = .idle) ∧
    s.log = [(.invite (Wit.key 1) 11, .ok)] ∧ s.file .invites = none :=
  ⟨Wit.killed, _, rfl, fun t => by cases t <;> rfl, rfl, rfl⟩

/-- **C121.** A list in this moment is empty, although an invitation is there before and after. -/
theorem C121_list_violated : ∃ es s s' s'', run init es = some s ∧ step s (.list .invites) = some s' ∧
    step s' (.go .net) = some s'' ∧ s'.shown = [(.invites, [])] ∧ after .invites s.log [] ≠ [] ∧
    s''.file .invites = some [(Wit.key 2, 12)] :=
  ⟨Wit.listed, _, _, _, rfl, rfl, rfl, rfl, by decide, rfl⟩

/-- An invitation for the same group arrives after the user's was looked up, and its file is new: the user's is not
removed, and the new one stays. -/
example : ∃ s, run init ([.start (.invited (Wit.key 1) 11), .go .net, .go .net, .go .net, .go .net] ++
      Wit.whole (.invited (Wit.key 2) 12) 4 ++ [.start (.join (Wit.key 2) 12)] ++ List.replicate 5 (.go .user) ++
      [.start (.invited ([1], [8]) 13), .go .net, .go .user, .start (.join (Wit.key 1) 11), .go .user, .go .user] ++
      List.replicate 3 (.go .net) ++ [.go .user, .go .user]) = some s ∧
    s.log.getLast? = some (.join (Wit.key 1) 11, .kept) ∧ s.file .joins = some [(([1], [8]), 13)] :=
  ⟨_, rfl, rfl, rfl⟩

/-- An invitation is made, someone is let in with it while another one is made, and it cannot be used again. -/
example : ∃ s, run init (Wit.whole (.invite (Wit.key 1) 11) 4 ++
      [.start (.invited (Wit.key 7) 17), .start (.invite (Wit.key 2) 12), .go .net, .go .user, .go .user, .go .net, .go .user,
        .go .user, .go .net, .go .net] ++ Wit.whole (.joined (Wit.key 1) 11) 4 ++ Wit.whole (.joined (Wit.key 1) 11) 2) =
      some s ∧
    s.log = [(.invite (Wit.key 1) 11, .ok), (.invite (Wit.key 2) 12, .ok), (.invited (Wit.key 7) 17, .ok),
      (.joined (Wit.key 1) 11, .ok), (.joined (Wit.key 1) 11, .failed)] ∧
    s.file .invites = some [(Wit.key 2, 12)] ∧ s.file .joins = some [(Wit.key 7, 17)] :=
  ⟨_, rfl, rfl, rfl, rfl⟩

/-- Someone who joins waits until the user has made another invitation. -/
example : ∃ s, run init (Wit.whole (.invite (Wit.key 1) 11) 4 ++ [.start (.invite (Wit.key 2) 12), .go .user]) = some s ∧
    step s (.start (.joined (Wit.key 1) 11)) = none :=
  ⟨_, rfl, rfl⟩

/-- Two invitations to the same group from two people: the user joins, but both stay. -/
example : ∃ s, run init (Wit.whole (.invited ([1], [8]) 11) 4 ++ Wit.whole (.invited ([1], [9]) 12) 4 ++
      Wit.whole (.join ([1], [9]) 12) 4) = some s ∧ s.log.getLast? = some (.join ([1], [9]) 12, .kept) ∧
    s.file .joins = some [(([1], [9]), 12), (([1], [8]), 11)] :=
  ⟨_, rfl, rfl, rfl⟩

/-- The user joins, with no invitation arriving meanwhile. -/
example : ∃ s, run init (Wit.two ++ Wit.whole (.join (Wit.key 1) 11) 6) = some s ∧
    s.log.getLast? = some (.join (Wit.key 1) 11, .ok) ∧ s.file .joins = some [(Wit.key 2, 12)] :=
  ⟨_, rfl, rfl, rfl⟩

end Verif.ClientDB
