import Verif.Proofs.IniDBFs

/-! # C27–C30: the ini database -/

namespace Verif.IniDB

open Verif

/-! ## C27: a table of tables -/

/-- The changing operations. -/
inductive Op where
  | set (t k v : Str)
  | del (t k : Str)
  | newTable (t : Str)
  | delTable (t : Str)
  deriving DecidableEq, Repr

/-- Run one operation: `false` is `ErrNotFound`. -/
def apply (i : DB) : Op → Bool × DB
  | .set t k v => set i t k v
  | .del t k => del i t k
  | .newTable t => (true, newTable i t)
  | .delTable t => delTable i t

/-- Run operations one after the other, ignoring errors. -/
def run (i : DB) (ops : List Op) : DB := ops.foldl (fun i o => (apply i o).2) i

/-- Specification, by history (latest operation first): which tables exist. `ex0` tells which tables
exist at the start. -/
def tableExists (ex0 : Str → Bool) : List Op → Str → Bool
  | [], t => ex0 t
  | .newTable u :: h, t => u = t || tableExists ex0 h t
  | .delTable u :: h, t => u ≠ t && tableExists ex0 h t
  | .set _ _ _ :: h, t => tableExists ex0 h t
  | .del _ _ :: h, t => tableExists ex0 h t

/-- Specification, by history (latest operation first): the value last set and not deleted since. -/
def lastValue (ex0 : Str → Bool) (v0 : Str → Str → Option Str) : List Op → Str → Str → Option Str
  | [], t, k => v0 t k
  | .newTable _ :: h, t, k => lastValue ex0 v0 h t k
  | .delTable u :: h, t, k => if u = t then none else lastValue ex0 v0 h t k
  | .set u l v :: h, t, k =>
    if u = t ∧ l = k ∧ tableExists ex0 h u = true then some v else lastValue ex0 v0 h t k
  | .del u l :: h, t, k => if u = t ∧ l = k then none else lastValue ex0 v0 h t k

/-- Which tables a database has. -/
def has (i : DB) (t : Str) : Bool := (i.tables.get t).isSome

theorem has_apply (i : DB) (o : Op) (t : Str) :
    has (apply i o).2 t = match o with
      | .newTable u => (u = t || has i t)
      | .delTable u => (u ≠ t && has i t)
      | _ => has i t := by
  cases o with
  | set u k v =>
    simp only [apply, set, has]
    cases hg : i.tables.get u with
    | none => rfl
    | some s =>
      simp only [GoMap.get_set]
      by_cases h : u = t
      · subst h; simp [hg]
      · simp [h]
  | del u k =>
    simp only [apply, del, has]
    cases hg : i.tables.get u with
    | none => rfl
    | some s =>
      simp only [GoMap.get_set]
      by_cases h : u = t
      · subst h; simp [hg]
      · simp [h]
  | newTable u =>
    simp only [apply, newTable, has, get_touch]
    by_cases h : u = t
    · subst h; simp
    · simp [h]
  | delTable u =>
    simp only [apply, delTable, has]
    cases hg : i.tables.get u with
    | none =>
      by_cases h : u = t
      · subst h; simp [hg]
      · simp [h]
    | some s =>
      simp only [GoMap.get_del]
      by_cases h : u = t
      · subst h; simp
      · simp [h]

theorem get_apply (i : DB) (o : Op) (t k : Str) :
    get (apply i o).2 t k = match o with
      | .newTable _ => get i t k
      | .delTable u => if u = t then none else get i t k
      | .set u l v => if u = t ∧ l = k ∧ has i u = true then some v else get i t k
      | .del u l => if u = t ∧ l = k then none else get i t k := by
  cases o with
  | set u l v =>
    rcases hg : i.tables.get u with _ | s
    · simp [apply, set, has, hg]
    · simp only [apply, set, has, get, hg, GoMap.get_set]
      by_cases h : u = t
      · subst h; simp only [if_true, GoMap.get_set, hg]
        by_cases hl : l = k <;> simp [hl]
      · simp [h]
  | del u l =>
    simp only [apply, del, get]
    cases hg : i.tables.get u with
    | none =>
      by_cases h : u = t
      · subst h; simp [hg]
      · simp [h]
    | some s =>
      simp only [GoMap.get_set]
      by_cases h : u = t
      · subst h; simp only [if_true, GoMap.get_del, hg]
        by_cases hl : l = k <;> simp [hl]
      · simp [h]
  | newTable u =>
    simp only [apply, newTable, get, get_touch]
    by_cases h : u = t
    · subst h; simp only [if_true]
      cases i.tables.get u <;> rfl
    · simp [h]
  | delTable u =>
    simp only [apply, delTable, get]
    cases hg : i.tables.get u with
    | none =>
      by_cases h : u = t
      · subst h; simp [hg]
      · simp [h]
    | some s =>
      simp only [GoMap.get_del]
      by_cases h : u = t
      · subst h; simp
      · simp [h]

theorem run_concat (i : DB) (ops : List Op) (o : Op) : run i (ops ++ [o]) = (apply (run i ops) o).2 := by
  simp [run]

theorem has_run (i : DB) (h : List Op) (t : Str) :
    has (run i h.reverse) t = tableExists (has i) h t := by
  induction h with
  | nil => rfl
  | cons o h ih =>
    rw [List.reverse_cons, run_concat, has_apply]
    cases o <;> simp [tableExists, ih]

/-- **C27**: after any sequence of operations, `Get` returns the value last set for that table and key
and not deleted since, `ErrNotFound` (`none`) otherwise. -/
theorem C27_get_returns_last_value (i : DB) (ops : List Op) (t k : Str) :
    get (run i ops) t k = lastValue (has i) (get i) ops.reverse t k := by
  suffices ∀ h : List Op, get (run i h.reverse) t k = lastValue (has i) (get i) h t k by
    have := this ops.reverse
    rwa [List.reverse_reverse] at this
  intro h
  induction h with
  | nil => rfl
  | cons o h ih =>
    rw [List.reverse_cons, run_concat, get_apply]
    cases o with
    | set u l v => simp only [lastValue, has_run, ih]
    | del u l => simp only [lastValue, ih]
    | newTable u => simp only [lastValue, ih]
    | delTable u => simp only [lastValue, ih]

/-- **C27**: an operation other than `NewTable` fails exactly when its table does not exist, and a
failed operation changes nothing, not even the dirty flag. -/
theorem C27_missing_table_fails (i : DB) (ops : List Op) (o : Op) :
    ((apply (run i ops) o).1 = false ↔
      match o with
      | .set t _ _ | .del t _ | .delTable t => tableExists (has i) ops.reverse t = false
      | .newTable _ => False) ∧
    ((apply (run i ops) o).1 = false → (apply (run i ops) o).2 = run i ops) := by
  have hr : ∀ t, tableExists (has i) ops.reverse t = has (run i ops) t := by
    intro t; rw [← has_run, List.reverse_reverse]
  cases o with
  | set t k v =>
    simp only [hr, apply, set, has]
    cases (run i ops).tables.get t <;> simp
  | del t k =>
    simp only [hr, apply, del, has]
    cases (run i ops).tables.get t <;> simp
  | newTable t => simp [apply]
  | delTable t =>
    simp only [hr, apply, delTable, has]
    cases (run i ops).tables.get t <;> simp

/-- The maps of a database have no duplicate keys (true of every Go map). -/
def MapsOK (i : DB) : Prop :=
  GoMap.WF i.tables ∧ ∀ t s, i.tables.get t = some s → GoMap.WF s

theorem touch_wf {f : Tables} (h : GoMap.WF f) (t : Str) : GoMap.WF (touch f t) := by
  unfold touch; split
  · exact h
  · exact GoMap.wf_set h _ _

theorem MapsOK_apply {i : DB} (h : MapsOK i) (o : Op) : MapsOK (apply i o).2 := by
  obtain ⟨h1, h2⟩ := h
  cases o with
  | set u l v =>
    simp only [apply, set]
    cases hg : i.tables.get u with
    | none => exact ⟨h1, h2⟩
    | some s =>
      refine ⟨GoMap.wf_set h1 _ _, fun t s' hs => ?_⟩
      simp only [GoMap.get_set] at hs
      split at hs
      · simp only [Option.some.injEq] at hs; rw [← hs]; exact GoMap.wf_set (h2 u s hg) _ _
      · exact h2 t s' hs
  | del u l =>
    simp only [apply, del]
    cases hg : i.tables.get u with
    | none => exact ⟨h1, h2⟩
    | some s =>
      refine ⟨GoMap.wf_set h1 _ _, fun t s' hs => ?_⟩
      simp only [GoMap.get_set] at hs
      split at hs
      · simp only [Option.some.injEq] at hs; rw [← hs]; exact GoMap.wf_del (h2 u s hg) _
      · exact h2 t s' hs
  | newTable u =>
    refine ⟨touch_wf h1 _, fun t s' hs => ?_⟩
    simp only [apply, newTable, get_touch] at hs
    split at hs
    · simp only [Option.some.injEq] at hs
      cases hg : i.tables.get t with
      | none => rw [hg] at hs; rw [← hs]; exact GoMap.wf_nil
      | some s => rw [hg] at hs; rw [← hs]; exact h2 t s hg
    · exact h2 t s' hs
  | delTable u =>
    simp only [apply, delTable]
    cases hg : i.tables.get u with
    | none => exact ⟨h1, h2⟩
    | some s =>
      refine ⟨GoMap.wf_del h1 _, fun t s' hs => ?_⟩
      simp only [GoMap.get_del] at hs
      split at hs
      · simp at hs
      · exact h2 t s' hs

theorem MapsOK_run {i : DB} (h : MapsOK i) (ops : List Op) : MapsOK (run i ops) := by
  suffices ∀ h' : List Op, MapsOK (run i h'.reverse) by
    have := this ops.reverse
    rwa [List.reverse_reverse] at this
  intro h'
  induction h' with
  | nil => exact h
  | cons o h' ih => rw [List.reverse_cons, run_concat]; exact MapsOK_apply ih o

/-- **C27**: `Tables` lists exactly the existing tables, each once; `Records` gives exactly the records
of the table, each key once. -/
theorem C27_listings_exact (i : DB) (h : MapsOK i) (ops : List Op) :
    ((tableNames (run i ops)).Nodup ∧
      ∀ t, t ∈ tableNames (run i ops) ↔ tableExists (has i) ops.reverse t = true) ∧
    ∀ t, (records (run i ops) t).keys.Nodup ∧
      ∀ k v, (k, v) ∈ records (run i ops) t ↔ lastValue (has i) (get i) ops.reverse t k = some v := by
  have hok := MapsOK_run h ops
  refine ⟨⟨hok.1, fun t => ?_⟩, fun t => ?_⟩
  · rw [← has_run, List.reverse_reverse, tableNames, GoMap.mem_keys_iff, has]
  · have hw : GoMap.WF (records (run i ops) t) := by
      unfold records
      cases hg : (run i ops).tables.get t with
      | none => exact GoMap.wf_nil
      | some s => exact hok.2 t s hg
    refine ⟨hw, fun k v => ?_⟩
    rw [GoMap.mem_iff_get hw, ← C27_get_returns_last_value]
    unfold records get
    cases (run i ops).tables.get t <;> simp

/-- A database with one table. -/
def sample : DB :=
  { base := "db".toList, depth := 2, dirty := false, created := false,
    tables := [([], []), ("t".toList, [("a".toList, "1".toList)])] }

example : MapsOK sample := by
  refine ⟨by decide, ?_⟩
  intro t s h
  simp only [sample, GoMap.get_cons] at h
  split at h
  · simp at h; subst h; exact GoMap.wf_nil
  · split at h
    · simp at h; subst h; decide
    · simp at h

example : get (run sample [.set "t".toList "b".toList "2".toList, .del "t".toList "a".toList,
      .set "u".toList "x".toList "3".toList]) "t".toList "b".toList = some "2".toList ∧
    get (run sample [.del "t".toList "a".toList]) "t".toList "a".toList = none ∧
    (apply sample (.set "u".toList "x".toList "3".toList)).1 = false := by decide

/-! ## C28: saving and reopening -/

/-- All names, keys and values survive the text format. -/
def GoodContent (f : Tables) : Prop :=
  ∀ t s, f.get t = some s → GoodName t ∧ ∀ k v, s.get k = some v → GoodKey k ∧ GoodVal v

/-- Full statement: whatever is in the database, after a successful `Save` reopening gives the same
tables and records. -/
def C28_full : Prop :=
  ∀ (i : DB) (d : Dir) (tmp stamp : Str) (order : List (Str × List (Str × Str))) (tmp' : Str) (c : Bool),
    MapsOK i → TmpOK i tmp → IsOrder i.tables order → (save i d tmp stamp order).1 = true →
    (i.dirty = false → ∃ t, d.get i.base = some t ∧ ∃ f, parse t = some f) →
    ∃ j, new i.base c i.depth (save i d tmp stamp order).2.2 tmp' = .opened j ∧ Same j.tables i.tables

theorem order_good {f : Tables} {order : List (Str × List (Str × Str))} (hg : GoodContent f)
    (hf : ∀ t s, f.get t = some s → GoMap.WF s) (ho : IsOrder f order) :
    ∀ t ∈ order, GoodTable t := by
  intro t ht
  obtain ⟨s, hs, hp⟩ := ho.2 t ht
  refine ⟨(hg _ _ hs).1, fun r hr => ?_⟩
  have hmem : (r.1, r.2) ∈ s := hp.mem_iff.1 hr
  exact (hg _ _ hs).2 r.1 r.2 ((GoMap.mem_iff_get (hf _ _ hs)).1 hmem)

theorem order_get {f : Tables} {order : List (Str × List (Str × Str))} (hw : GoMap.WF f)
    (ho : IsOrder f order) (t : Str) :
    match GoMap.get order t, f.get t with
    | none, none => True
    | some rs, some s => rs.Perm s
    | _, _ => False := by
  have hnd : (order.map Prod.fst).Nodup := ho.1.nodup_iff.2 hw
  cases hg : GoMap.get order t with
  | none =>
    have : t ∉ f.keys := by
      intro hm
      have : t ∈ GoMap.keys order := ho.1.mem_iff.2 hm
      rw [GoMap.mem_keys_iff, hg] at this
      simp at this
    rw [GoMap.not_mem_keys_iff] at this
    simp [this]
  | some rs =>
    obtain ⟨s, hs, hp⟩ := ho.2 _ (GoMap.mem_of_get hg)
    simp only at hs hp
    simpa [hs] using hp

theorem default_touch {f : Tables} {t : Str} (h : t ≠ []) : (touch f []).get t = f.get t := by
  rw [get_touch, if_neg (Ne.symm h)]

theorem fill_same {rs : List (Str × Str)} {s : Section} (hs : GoMap.WF s) (hp : rs.Perm s) (k : Str) :
    (fill [] rs).get k = s.get k := by
  have hnd : (rs.map Prod.fst).Nodup := (hp.map Prod.fst).nodup_iff.2 hs
  rw [fill_get _ _ hnd, GoMap.get_perm (m := rs) (m' := s) hnd hp k]
  cases s.get k <;> rfl

/-- What is read back when the default table is empty or written first. -/
theorem readAll_same {f : Tables} {order : List (Str × List (Str × Str))} (hw : GoMap.WF f)
    (hs : ∀ t s, f.get t = some s → GoMap.WF s) (ho : IsOrder f order) (hdef : (f.get []).isSome)
    (h : f.get [] = some [] ∨ order.head?.map Prod.fst = some []) :
    Same (touch (readAll order [] []) []) f := by
  have hnd : (order.map Prod.fst).Nodup := ho.1.nodup_iff.2 hw
  obtain ⟨s0, hs0⟩ := Option.isSome_iff_exists.1 hdef
  -- the two cases
  have key : ∃ o' g, readAll order [] [] = readAll o' [] g ∧ (o'.map Prod.fst).Nodup ∧
      (∀ t ∈ o', t.1 = [] → t.2 = []) ∧ (∀ u, u ≠ [] → GoMap.get o' u = GoMap.get order u) ∧
      (∀ u, u ≠ [] → GoMap.get g u = none) ∧
      (∀ k, ((g.get []).getD []).get k = s0.get k) := by
    rcases h with h | h
    · refine ⟨order, [], rfl, hnd, fun t ht hte => ?_, fun _ _ => rfl, fun _ _ => rfl, fun k => ?_⟩
      · obtain ⟨s, hs', hp⟩ := ho.2 t ht
        rw [hte, h] at hs'
        simp only [Option.some.injEq] at hs'; subst hs'
        exact List.Perm.eq_nil hp
      · rw [h] at hs0; simp only [Option.some.injEq] at hs0; subst hs0; rfl
    · cases order with
      | nil => simp at h
      | cons t o =>
        simp only [List.head?_cons, Option.map_some, Option.some.injEq] at h
        simp only [List.map_cons, List.nodup_cons] at hnd
        refine ⟨o, readTable [] [] t, ?_, hnd.2, fun u hu hue => ?_, fun u hu => ?_, fun u hu => ?_, fun k => ?_⟩
        · simp [readAll, curAfter, h]
        · exfalso; apply hnd.1; rw [h, ← hue]; exact List.mem_map_of_mem hu
        · rw [GoMap.get_cons, if_neg]; rw [h]; exact Ne.symm hu
        · rw [get_readTable_other _ _ _ _ (by rw [h]; exact hu) (fun _ => Or.inr hu)]; rfl
        · obtain ⟨s, hs', hp⟩ := ho.2 t (by simp)
          rw [h, hs0] at hs'
          simp only [Option.some.injEq] at hs'; subst hs'
          have hws := hs _ _ hs0
          rw [← fill_same hws hp]
          simp only [readTable, curAfter, h, ne_eq, not_true_eq_false, if_false]
          rw [get_putAll]
          by_cases hr : t.2 = []
          · simp [hr, fill]
          · simp [hr]
  obtain ⟨o', g, hra, hnd', hd', hget, hg0, hdefault⟩ := key
  intro u
  by_cases hu : u = []
  · subst hu
    rw [get_touch, if_pos rfl, hs0, hra, get_readAll _ _ _ hnd' hd', if_pos rfl]
    exact hdefault
  · rw [default_touch hu, hra, get_readAll _ _ _ hnd' hd', if_neg hu, hget u hu, hg0 u hu]
    have := order_get hw ho u
    cases hgo : GoMap.get order u with
    | none =>
      rw [hgo] at this
      cases hfu : f.get u with
      | none => trivial
      | some s => rw [hfu] at this; exact this.elim
    | some rs =>
      rw [hgo] at this
      cases hfu : f.get u with
      | none => rw [hfu] at this; exact this.elim
      | some s =>
        rw [hfu] at this
        exact fun k => fill_same (hs _ _ hfu) this k

/-- The reopened file. -/
theorem new_saved {i : DB} {d : Dir} {tmp stamp : Str} {order : List (Str × List (Str × Str))}
    (hd : i.dirty = true) (ht : TmpOK i tmp) (hb : i.created = true ∨ (d.get i.base).isSome)
    (hg : ∀ t ∈ order, GoodTable t) (c : Bool) (depth : Int) (tmp' : Str) :
    new i.base c depth (save i d tmp stamp order).2.2 tmp' =
      .opened { base := i.base, depth := depth, dirty := false, created := false,
                tables := touch (readAll order [] []) [] } := by
  rw [new, save_base hd ht hb]
  simp only [parse_text hg]

/-- **C28** (partial). For content that survives the text format (`GoodContent`: no newlines or
surrounding white space, no `=` in names and keys, keys nonempty and not beginning with a comment
sign), with the default table present, a dirty database is saved and read back with exactly the same
tables and records, provided the default table is empty or happens to be written first. What is
missing: a non-empty default table written after another one, other content, an absent default table,
and a table created by `NewTable` only (each refuted below). -/
theorem C28_save_reopen_partial (i : DB) (d : Dir) (tmp stamp : Str)
    (order : List (Str × List (Str × Str))) (c : Bool) (depth : Int) (tmp' : Str)
    (hm : MapsOK i) (hd : i.dirty = true) (ht : TmpOK i tmp)
    (hb : i.created = true ∨ (d.get i.base).isSome) (ho : IsOrder i.tables order)
    (hg : GoodContent i.tables) (hdef : (i.tables.get []).isSome)
    (h : i.tables.get [] = some [] ∨ order.head?.map Prod.fst = some []) :
    (save i d tmp stamp order).1 = true ∧
    ∃ j, new i.base c depth (save i d tmp stamp order).2.2 tmp' = .opened j ∧
      Same j.tables i.tables ∧ ∀ t k, get j t k = get i t k := by
  refine ⟨(save_spec hd ht hb).1, _, new_saved hd ht hb (order_good hg hm.2 ho) c depth tmp', ?_, ?_⟩
  · exact readAll_same hm.1 hm.2 ho hdef h
  · intro t k
    have := readAll_same hm.1 hm.2 ho hdef h t
    simp only [get]
    revert this
    generalize (touch (readAll order [] []) []).get t = a
    generalize i.tables.get t = b
    intro this
    cases a <;> cases b
    · rfl
    · exact this.elim
    · exact this.elim
    · exact this k

/-- **C28** (partial, exact): for content that survives the text format the condition is also
necessary. Whether the database is read back correctly depends on the iteration order exactly when the
default table has records. -/
theorem C28_default_table_order_partial (i : DB) (d : Dir) (tmp stamp : Str)
    (order : List (Str × List (Str × Str))) (c : Bool) (depth : Int) (tmp' : Str)
    (hm : MapsOK i) (hd : i.dirty = true) (ht : TmpOK i tmp)
    (hb : i.created = true ∨ (d.get i.base).isSome) (ho : IsOrder i.tables order)
    (hg : GoodContent i.tables) :
    (∃ j, new i.base c depth (save i d tmp stamp order).2.2 tmp' = .opened j ∧
      Same j.tables i.tables) ↔
    ((i.tables.get []).isSome ∧
      (i.tables.get [] = some [] ∨ order.head?.map Prod.fst = some [])) := by
  constructor
  · rintro ⟨j, hj, hsame⟩
    rw [new_saved hd ht hb (order_good hg hm.2 ho) c depth tmp'] at hj
    simp only [Opened.opened.injEq] at hj
    have h0 := hsame []
    rw [← hj] at h0
    simp only [get_touch, if_true] at h0
    cases hdt : i.tables.get [] with
    | none => rw [hdt] at h0; exact h0.elim
    | some s =>
      refine ⟨rfl, ?_⟩
      by_contra hcon
      rw [not_or] at hcon
      obtain ⟨hs, hh⟩ := hcon
      rw [hdt] at h0
      simp only at h0
      -- the first table is a named one, so the default table is read back empty
      have hempty : (readAll order [] []).get [] = none := by
        cases order with
        | nil => rfl
        | cons t o =>
          have ht1 : t.1 ≠ [] := by simpa using hh
          rw [readAll, get_readAll_default _ _ _ (by simp [curAfter, ht1])]
          exact get_readTable_other _ _ _ _ (Ne.symm ht1) (fun h => absurd h ht1)
      rw [hempty] at h0
      have : ∀ k, s.get k = none := fun k => (h0 k).symm
      cases s with
      | nil => exact hs rfl
      | cons r s' =>
        have hr := this r.1
        rw [show (r :: s') = (r.1, r.2) :: s' from rfl, GoMap.get_cons, if_pos rfl] at hr
        exact absurd hr (by simp)
  · rintro ⟨hdef, h⟩
    exact ⟨_, new_saved hd ht hb (order_good hg hm.2 ho) c depth tmp',
      readAll_same hm.1 hm.2 ho hdef h⟩

/-- **C28** (partial): saving a database that is not dirty does not touch any file. -/
theorem C28_clean_save_noop_partial (i : DB) (d : Dir) (tmp stamp : Str)
    (order : List (Str × List (Str × Str))) (hd : i.dirty = false) :
    save i d tmp stamp order = (true, i, d) := by
  cases i with
  | mk base depth dirty created tables =>
    simp only at hd
    subst hd
    simp [save, saveOps, runFs]

/-- Some `Set`, `Del` or `DelTable` of the history succeeds. -/
def effective (i : DB) : List Op → Bool
  | [] => false
  | o :: ops =>
    (match o with
      | .newTable _ => false
      | _ => (apply i o).1) || effective (apply i o).2 ops

theorem dirty_mono (i : DB) (o : Op) (h : i.dirty = true) : (apply i o).2.dirty = true := by
  cases o with
  | set t k v => simp only [apply, set]; cases i.tables.get t <;> simp [h]
  | del t k => simp only [apply, del]; cases i.tables.get t <;> simp [h]
  | newTable t => exact h
  | delTable t => simp only [apply, delTable]; cases i.tables.get t <;> simp [h]

theorem dirty_run (i : DB) (ops : List Op) (h : i.dirty = true) : (run i ops).dirty = true := by
  induction ops generalizing i with
  | nil => exact h
  | cons o ops ih => exact ih _ (dirty_mono i o h)

theorem effective_dirty (i : DB) (ops : List Op) (h : effective i ops = true) :
    (run i ops).dirty = true := by
  induction ops generalizing i with
  | nil => simp [effective] at h
  | cons o ops ih =>
    simp only [effective, Bool.or_eq_true] at h
    rcases h with h | h
    · refine dirty_run _ ops ?_
      cases o with
      | set t k v =>
        simp only [apply, set] at h ⊢
        cases hg : i.tables.get t <;> simp [hg] at h ⊢
      | del t k =>
        simp only [apply, del] at h ⊢
        cases hg : i.tables.get t <;> simp [hg] at h ⊢
      | newTable t => simp at h
      | delTable t =>
        simp only [apply, delTable] at h ⊢
        cases hg : i.tables.get t <;> simp [hg] at h ⊢
    · exact ih _ h

theorem apply_frame (i : DB) (o : Op) :
    (apply i o).2.base = i.base ∧ (apply i o).2.depth = i.depth ∧ (apply i o).2.created = i.created := by
  cases o with
  | set t k v => simp only [apply, set]; cases i.tables.get t <;> simp
  | del t k => simp only [apply, del]; cases i.tables.get t <;> simp
  | newTable t => simp [apply, newTable]
  | delTable t => simp only [apply, delTable]; cases i.tables.get t <;> simp

theorem run_frame (i : DB) (ops : List Op) :
    (run i ops).base = i.base ∧ (run i ops).depth = i.depth ∧ (run i ops).created = i.created := by
  induction ops generalizing i with
  | nil => exact ⟨rfl, rfl, rfl⟩
  | cons o ops ih =>
    have h1 := ih (apply i o).2
    have h2 := apply_frame i o
    exact ⟨h1.1.trans h2.1, h1.2.1.trans h2.2.1, h1.2.2.trans h2.2.2⟩

/-- **C28** (partial): after any history in which some `Set`, `Del` or `DelTable` succeeded, `Save` and
reopening give every table and record as they are in memory, that is, as the history says, under the
same conditions as above. -/
theorem C28_history_partial (i : DB) (ops : List Op) (d : Dir) (tmp stamp : Str)
    (order : List (Str × List (Str × Str))) (c : Bool) (depth : Int) (tmp' : Str)
    (hm : MapsOK i) (he : effective i ops = true) (ht : TmpOK i tmp)
    (hb : i.created = true ∨ (d.get i.base).isSome) (ho : IsOrder (run i ops).tables order)
    (hg : GoodContent (run i ops).tables) (hdef : ((run i ops).tables.get []).isSome)
    (h : (run i ops).tables.get [] = some [] ∨ order.head?.map Prod.fst = some []) :
    (save (run i ops) d tmp stamp order).1 = true ∧
    ∃ j, new i.base c depth (save (run i ops) d tmp stamp order).2.2 tmp' = .opened j ∧
      (∀ t, has j t = tableExists (has i) ops.reverse t) ∧
      ∀ t k, get j t k = lastValue (has i) (get i) ops.reverse t k := by
  obtain ⟨f1, f2, f3⟩ := run_frame i ops
  have ht' : TmpOK (run i ops) tmp := ⟨by rw [f1]; exact ht.ne_base, by rw [f1]; exact ht.not_backup⟩
  obtain ⟨h1, j, h2, h3, h4⟩ := C28_save_reopen_partial (run i ops) d tmp stamp order c depth tmp'
    (MapsOK_run hm ops) (effective_dirty i ops he) ht' (by rw [f1, f3]; exact hb) ho hg hdef h
  refine ⟨h1, j, by rw [← f1]; exact h2, fun t => ?_, fun t k => ?_⟩
  · rw [← has_run, List.reverse_reverse]
    have := h3 t
    unfold has
    revert this
    cases j.tables.get t <;> cases (run i ops).tables.get t <;> simp
  · rw [h4, C27_get_returns_last_value]

/-- **C28** (partial): a history without successful change and without a new table leaves the database
as it is. -/
theorem C28_ineffective_partial (i : DB) (ops : List Op) (he : effective i ops = false)
    (hn : ∀ t, Op.newTable t ∈ ops → has i t = true) : run i ops = i := by
  induction ops generalizing i with
  | nil => rfl
  | cons o ops ih =>
    simp only [effective, Bool.or_eq_false_iff] at he
    have : (apply i o).2 = i := by
      cases o with
      | newTable t =>
        have := hn t (by simp)
        simp only [has] at this
        obtain ⟨s, hs⟩ := Option.isSome_iff_exists.1 this
        simp [apply, newTable, touch, hs]
      | set t k v => exact (C27_missing_table_fails i [] (.set t k v)).2 he.1
      | del t k => exact (C27_missing_table_fails i [] (.del t k)).2 he.1
      | delTable t => exact (C27_missing_table_fails i [] (.delTable t)).2 he.1
    show run (apply i o).2 ops = i
    rw [this] at he ⊢
    exact ih i he.2 (fun t ht => hn t (by simp [ht]))

example : effective sample [.set "u".toList "a".toList "1".toList, .set "t".toList "a".toList "2".toList] = true := by
  decide

/-- A database with one record in the default table and one named table. -/
def mixed : DB :=
  { base := "db".toList, depth := -1, dirty := true, created := true,
    tables := [([], [("a".toList, "1".toList)]), ("t".toList, [("b".toList, "2".toList)])] }

theorem mixed_ok : MapsOK mixed := by
  refine ⟨by decide, ?_⟩
  intro t s h
  simp only [mixed, GoMap.get_cons] at h
  split at h
  · simp at h; subst h; decide
  · split at h
    · simp at h; subst h; decide
    · simp at h

theorem mixed_good : GoodContent mixed.tables := by
  intro t s h
  simp only [mixed, GoMap.get_cons] at h
  split at h
  · next e =>
    simp at h; subst h; subst e
    refine ⟨⟨rfl, by decide, by decide⟩, fun k v hk => ?_⟩
    simp only [GoMap.get_cons] at hk
    split at hk
    · next e => simp at hk; subst hk; subst e; exact ⟨by unfold GoodKey; decide, by unfold GoodVal; decide⟩
    · simp at hk
  · split at h
    · next e =>
      simp at h; subst h; subst e
      refine ⟨by unfold GoodName; decide, fun k v hk => ?_⟩
      simp only [GoMap.get_cons] at hk
      split at hk
      · next e => simp at hk; subst hk; subst e; exact ⟨by unfold GoodKey; decide, by unfold GoodVal; decide⟩
      · simp at hk
    · simp at h

theorem tmp_ok (i : DB) (h : i.base = "db".toList) : TmpOK i "db7".toList :=
  ⟨by rw [h]; decide, by rw [h]; decide⟩

theorem mixed_order1 : IsOrder mixed.tables mixed.tables := by
  refine ⟨List.Perm.refl _, fun t ht => ⟨t.2, ?_, List.Perm.refl _⟩⟩
  exact (GoMap.mem_iff_get mixed_ok.1).1 ht

theorem mixed_order2 : IsOrder mixed.tables mixed.tables.reverse := by
  refine ⟨?_, fun t ht => ⟨t.2, ?_, List.Perm.refl _⟩⟩
  · rw [List.map_reverse]; exact List.reverse_perm _
  · exact (GoMap.mem_iff_get mixed_ok.1).1 (List.mem_reverse.1 ht)

/-- The hypotheses of the partial theorem are satisfied by a database with several tables. -/
example : (save mixed [] "db7".toList [] mixed.tables).1 = true ∧
    ∃ j, new mixed.base false 3 (save mixed [] "db7".toList [] mixed.tables).2.2 [] = .opened j ∧
      Same j.tables mixed.tables ∧ ∀ t k, get j t k = get mixed t k :=
  C28_save_reopen_partial _ _ _ _ _ _ _ _ mixed_ok rfl (tmp_ok _ rfl) (Or.inl rfl) mixed_order1 mixed_good
    rfl (Or.inr rfl)

/-- **C28 is violated**: the same database saved and reopened, once with the default table walked first
and once with it walked last. In the second case its record has moved to table `t`. -/
theorem C28_default_table_moves_violated :
    ∃ i d tmp stamp o j, MapsOK i ∧ GoodContent i.tables ∧ TmpOK i tmp ∧ IsOrder i.tables o ∧
      new i.base true i.depth (save i d tmp stamp o).2.2 tmp = .opened j ∧
      get i [] "a".toList = some "1".toList ∧ get j [] "a".toList = none ∧
      get i "t".toList "a".toList = none ∧ get j "t".toList "a".toList = some "1".toList := by
  refine ⟨mixed, [], "db7".toList, [], mixed.tables.reverse, _, mixed_ok, mixed_good, tmp_ok _ rfl, mixed_order2,
    new_saved (i := mixed) rfl (tmp_ok _ rfl) (Or.inl rfl)
      (order_good mixed_good mixed_ok.2 mixed_order2) true _ _, ?_⟩
  decide

/-- **C28 is violated**: a table made by `NewTable` is not saved, because the database is not marked
dirty. -/
theorem C28_new_table_lost_violated :
    ∃ (i : DB) (d : Dir) (t : Str) (j : DB), i.dirty = false ∧
      new i.base true i.depth d [] = .opened i ∧
      (save (newTable i t) d "db7".toList [] (newTable i t).tables).1 = true ∧
      new i.base true i.depth (save (newTable i t) d "db7".toList [] (newTable i t).tables).2.2 [] = .opened j ∧
      has (newTable i t) t = true ∧ has j t = false := by
  refine ⟨{ base := "db".toList, depth := 2, dirty := false, created := false, tables := [([], [])] },
    [("db".toList, [])], "t".toList,
    { base := "db".toList, depth := 2, dirty := false, created := false, tables := [([], [])] }, rfl, rfl, ?_⟩
  rw [C28_clean_save_noop_partial _ _ _ _ _ rfl]
  exact ⟨rfl, rfl, by decide, by decide⟩

/-- **C28 is violated**: a value with surrounding white space comes back without it, a value with a
newline adds a record, and a key with `=` comes back as another key. -/
theorem C28_special_characters_violated :
    (parse (text [([], [("a".toList, " 1".toList)])])).map (fun f => get { sample with tables := f } [] "a".toList)
      = some (some "1".toList) ∧
    (parse (text [([], [("a".toList, "1\nb=2".toList)])])).map
      (fun f => get { sample with tables := f } [] "b".toList) = some (some "2".toList) ∧
    (parse (text [([], [("a=b".toList, "1".toList)])])).map
      (fun f => get { sample with tables := f } [] "a".toList) = some (some "b = 1".toList) := by decide

/-- **C28 is violated** as a whole. -/
theorem C28_full_violated : ¬ C28_full := by
  intro h
  obtain ⟨j, hj, hs⟩ := h mixed [] "db7".toList [] mixed.tables.reverse [] true mixed_ok (tmp_ok _ rfl) mixed_order2
    (save_spec (i := mixed) rfl (tmp_ok _ rfl) (Or.inl rfl)).1 (by intro h; simp [mixed] at h)
  have := (C28_default_table_order_partial mixed [] "db7".toList [] mixed.tables.reverse true mixed.depth []
    mixed_ok rfl (tmp_ok _ rfl) (Or.inl rfl) mixed_order2 mixed_good).1 ⟨j, hj, hs⟩
  rcases this.2 with h | h <;> revert h <;> decide

/-! ## C29: crash safety -/

/-- Tables found by opening. -/
def Opened.found : Opened → Option Tables
  | .opened i => some i.tables
  | .created i _ => some i.tables
  | .error => none

/-- Full statement: wherever `Save` is interrupted, reopening finds the old or the new contents. -/
def C29_full : Prop :=
  ∀ (i : DB) (d : Dir) (tmp stamp : Str) (order : List (Str × List (Str × Str))) (n : Nat) (c : Bool)
    (tmp' : Str), MapsOK i → TmpOK i tmp → IsOrder i.tables order → (d.get i.base).isSome →
    let r := (new i.base c i.depth (crash i d tmp stamp order n) tmp').found
    r = (new i.base c i.depth d tmp').found ∨
      r = (new i.base c i.depth (save i d tmp stamp order).2.2 tmp').found

/-- Number of operations before the first rename. -/
def writeCount (order : List (Str × List (Str × Str))) : Nat := 1 + (text order).length

theorem writeOps_length (tmp : Str) (order : List (Str × List (Str × Str))) :
    (writeOps tmp (text order)).length = writeCount order := by
  simp [writeOps, writeCount]; omega

/-- While the temporary file is written nothing else changes. -/
theorem crash_early {i : DB} {d : Dir} {tmp stamp : Str} {order : List (Str × List (Str × Str))} {n : Nat}
    (hd : i.dirty = true) (hn : n ≤ writeCount order) (x : Str) (hx : x ≠ tmp) :
    (crash i d tmp stamp order n).get x = d.get x := by
  unfold crash
  apply runFs_untouched
  intro op hop
  simp only [saveOps, hd, if_true, mainOps, List.append_assoc] at hop
  rw [List.take_append_of_le_length (by rw [writeOps_length]; exact hn)] at hop
  have := List.mem_of_mem_take hop
  simp only [writeOps, List.mem_cons, List.mem_map] at this
  rcases this with rfl | ⟨c, _, rfl⟩ <;> exact hx

/-- After the second rename the new contents are in place. -/
theorem crash_late {i : DB} {d : Dir} {tmp stamp : Str} {order : List (Str × List (Str × Str))} {n : Nat}
    (hd : i.dirty = true) (ht : TmpOK i tmp) (hb : i.created = true ∨ (d.get i.base).isSome)
    (hn : (mainOps i tmp stamp order).length ≤ n) :
    (crash i d tmp stamp order n).get i.base = some (text order) := by
  obtain ⟨h1, h2, _⟩ := runFs_main (order := order) (stamp := stamp) ht hb
  unfold crash
  simp only [saveOps, hd, if_true]
  rw [List.take_append, List.take_of_length_le hn, runFs_append, h1, if_pos rfl, runFs_untouched, h2]
  intro op hop
  have := List.mem_of_mem_take hop
  rw [if_pos rfl] at this
  simp only [List.mem_map] at this
  obtain ⟨m, hm, rfl⟩ := this
  have := prefix_ne _ _ ((mem_pruneCandidates _ _ _).1 (pruneList_sub _ _ _ hm)).2
  exact fun e => this e.symm

/-- Between the two renames. -/
theorem crash_gap {i : DB} {d : Dir} {tmp stamp : Str} {order : List (Str × List (Str × Str))}
    (hd : i.dirty = true) (ht : TmpOK i tmp) (hc : i.created = false) (hb : (d.get i.base).isSome) :
    (crash i d tmp stamp order (writeCount order + 1)).get i.base = none ∧
    (crash i d tmp stamp order (writeCount order + 1)).get (backupName i.base stamp) = d.get i.base ∧
    (crash i d tmp stamp order (writeCount order + 1)).get tmp = some (text order) := by
  obtain ⟨h1, h2, h3⟩ := runFs_write d tmp (text order)
  have hbb : backupName i.base stamp ≠ i.base := prefix_ne _ _ (backup_prefix _ _)
  have htb : tmp ≠ backupName i.base stamp := fun e => ht.not_backup (e ▸ backup_prefix _ _)
  have hne := ht.ne_base
  obtain ⟨old, hold⟩ := Option.isSome_iff_exists.1 hb
  have htake : (saveOps i d tmp stamp order).take (writeCount order + 1) =
      writeOps tmp (text order) ++ [.rename i.base (backupName i.base stamp)] := by
    simp only [saveOps, hd, if_true, mainOps, renameOps, hc, List.append_assoc]
    rw [← writeOps_length tmp order, List.take_length_add_append]
    rfl
  unfold crash
  rw [htake, runFs_append, h1, if_pos rfl]
  generalize hD : (runFs d (writeOps tmp (text order))).1 = D at h2 h3
  have hDb : D.get i.base = some old := by rw [h3 _ (Ne.symm hne), hold]
  simp only [runFs, FsOp.exec, hDb]
  refine ⟨?_, ?_, ?_⟩
  · rw [GoMap.get_set_ne _ _ hbb]; simp
  · simp [hold]
  · rw [GoMap.get_set_ne _ _ (Ne.symm htb), GoMap.get_del_ne _ (Ne.symm hne), h2]

theorem mainOps_length (i : DB) (tmp stamp : Str) (order : List (Str × List (Str × Str))) :
    (mainOps i tmp stamp order).length = writeCount order + (if i.created then 1 else 2) := by
  rw [mainOps, List.length_append, writeOps_length, renameOps]
  cases i.created <;> simp

/-- **C29** (partial): wherever `Save` is interrupted, either the file holds the complete old contents,
or it holds the complete new contents, or (only directly between the two renames) there is no file, the
complete old contents are in the backup and the complete new contents in the temporary file. What is
missing for the full claim: reopening does not look at the backup. -/
theorem C29_no_data_lost_partial (i : DB) (d : Dir) (tmp stamp : Str)
    (order : List (Str × List (Str × Str))) (n : Nat) (hd : i.dirty = true) (ht : TmpOK i tmp)
    (hb : (d.get i.base).isSome) :
    (crash i d tmp stamp order n).get i.base = d.get i.base ∨
    (crash i d tmp stamp order n).get i.base = some (text order) ∨
    (n = writeCount order + 1 ∧ i.created = false ∧
      (crash i d tmp stamp order n).get i.base = none ∧
      (crash i d tmp stamp order n).get (backupName i.base stamp) = d.get i.base ∧
      (crash i d tmp stamp order n).get tmp = some (text order)) := by
  rcases Nat.lt_or_ge (writeCount order) n with h | h
  · by_cases hg : n = writeCount order + 1 ∧ i.created = false
    · obtain ⟨rfl, hc⟩ := hg
      exact Or.inr (Or.inr ⟨rfl, hc, crash_gap hd ht hc hb⟩)
    · refine Or.inr (Or.inl (crash_late hd ht (Or.inr hb) ?_))
      rw [mainOps_length]
      cases hc : i.created
      · have : n ≠ writeCount order + 1 := fun e => hg ⟨e, hc⟩
        simp; omega
      · simp; omega
  · exact Or.inl (crash_early hd h _ (Ne.symm ht.ne_base))

/-- **C29** (partial): at every crash point except the one between the two renames reopening finds
exactly the old or exactly the new database; for a database created by the same handle there is no
exception. -/
theorem C29_reopen_after_crash_partial (i : DB) (d : Dir) (tmp stamp : Str)
    (order : List (Str × List (Str × Str))) (n : Nat) (c : Bool) (depth : Int) (tmp' : Str)
    (hd : i.dirty = true) (ht : TmpOK i tmp) (hb : (d.get i.base).isSome)
    (hn : i.created = true ∨ n ≠ writeCount order + 1) :
    let r := new i.base c depth (crash i d tmp stamp order n) tmp'
    r = new i.base c depth d tmp' ∨ r = new i.base c depth (save i d tmp stamp order).2.2 tmp' := by
  have hold := Option.isSome_iff_exists.1 hb
  obtain ⟨old, hold⟩ := hold
  intro r
  rcases C29_no_data_lost_partial i d tmp stamp order n hd ht hb with h | h | ⟨h1, h2, _⟩
  · left
    show new _ _ _ _ _ = _
    rw [new, new, h, hold]
  · right
    show new _ _ _ _ _ = _
    rw [new, new, h, save_base hd ht (Or.inr hb)]
  · rcases hn with h' | h'
    · simp [h'] at h2
    · exact absurd h1 h'

/-- The database for the witness: one record on disk, the second one about to be saved. -/
def crashing : DB :=
  { base := "db".toList, depth := -1, dirty := true, created := false,
    tables := [([], [("a".toList, "1".toList), ("b".toList, "2".toList)])] }

/-- **C29 is violated**: a crash between the two renames. The next start finds no file, creates an empty
database, and neither the old nor the new records are there. -/
theorem C29_crash_between_renames_violated :
    ∃ n i' d', new crashing.base true (-1)
        (crash crashing [("db".toList, "a=1\n".toList)] "db7".toList "s".toList crashing.tables n) "db8".toList =
          .created i' d' ∧
      get i' [] "a".toList = none ∧ get i' [] "b".toList = none := by
  have h := (crash_gap (i := crashing) (d := [("db".toList, "a=1\n".toList)]) (tmp := "db7".toList)
    (stamp := "s".toList) (order := crashing.tables) rfl (tmp_ok _ rfl) rfl rfl).1
  refine ⟨writeCount crashing.tables + 1, ?_⟩
  rw [new, h]
  have hs := save_spec (i := { base := crashing.base, depth := -1, dirty := true, created := true, tables := [([], [])] })
    (d := crash crashing [("db".toList, "a=1\n".toList)] "db7".toList "s".toList crashing.tables
      (writeCount crashing.tables + 1)) (tmp := "db8".toList) (stamp := []) (order := [([], [])]) rfl
    ⟨by decide, by decide⟩ (Or.inl rfl)
  simp only [if_true, hs.1]
  refine ⟨_, _, rfl, ?_⟩
  rw [hs.2.1]
  decide

/-- **C29 is violated** as a whole. -/
theorem C29_full_violated : ¬ C29_full := by
  intro h
  have hm : MapsOK crashing := by
    refine ⟨by decide, ?_⟩
    intro t s h
    simp only [crashing, GoMap.get_cons] at h
    split at h
    · simp at h; subst h; decide
    · simp at h
  have ho : IsOrder crashing.tables crashing.tables :=
    ⟨List.Perm.refl _, fun t ht => ⟨t.2, (GoMap.mem_iff_get hm.1).1 ht, List.Perm.refl _⟩⟩
  have h' := h crashing [("db".toList, "a=1\n".toList)] "db7".toList "s".toList crashing.tables
    (writeCount crashing.tables + 1) false [] hm (tmp_ok _ rfl) ho rfl
  simp only at h'
  have hgap := (crash_gap (i := crashing) (d := [("db".toList, "a=1\n".toList)]) (tmp := "db7".toList)
    (stamp := "s".toList) (order := crashing.tables) rfl (tmp_ok _ rfl) rfl rfl).1
  have hnone : new crashing.base false crashing.depth (crash crashing [("db".toList, "a=1\n".toList)]
      "db7".toList "s".toList crashing.tables (writeCount crashing.tables + 1)) [] = .error := by
    rw [new, hgap]; rfl
  rw [hnone] at h'
  rcases h' with h' | h'
  · revert h'; decide
  · have hb := save_base (i := crashing) (d := [("db".toList, "a=1\n".toList)]) (tmp := "db7".toList)
      (stamp := "s".toList) (order := crashing.tables) rfl (tmp_ok _ rfl) (Or.inr rfl)
    rw [new, hb] at h'
    revert h'; decide

example : ∃ (i : DB) (d : Dir) (n : Nat), i.dirty = true ∧ TmpOK i "db7".toList ∧ (d.get i.base).isSome ∧
    n ≠ writeCount i.tables + 1 ∧ 0 < n :=
  ⟨crashing, [("db".toList, [])], 5, rfl, tmp_ok _ rfl, rfl, by decide, by decide⟩

/-! ## C30: rotation of backups -/

/-- Names that `prune` regards as backups of `base`. -/
def IsBackup (base n : Str) : Prop := (base ++ ['.']) <+: n

/-- A calendar time with fields in range. -/
def Stamp.Valid (s : Stamp) : Prop :=
  s.year < 10000 ∧ s.month < 100 ∧ s.day < 100 ∧ s.hour < 100 ∧ s.min < 100 ∧ s.sec < 100 ∧ s.ns < 1000000000

/-- Earlier in time. -/
def Stamp.before (s t : Stamp) : Prop :=
  s.year < t.year ∨ s.year = t.year ∧ (s.month < t.month ∨ s.month = t.month ∧ (s.day < t.day ∨
    s.day = t.day ∧ (s.hour < t.hour ∨ s.hour = t.hour ∧ (s.min < t.min ∨ s.min = t.min ∧
      (s.sec < t.sec ∨ s.sec = t.sec ∧ s.ns < t.ns)))))

theorem format_lt {s t : Stamp} (ht : t.Valid) (h : s.before t) : leStr t.format s.format = false := by
  obtain ⟨h1, h2, h3, h4, h5, h6, h7⟩ := ht
  have ap := @leStr_append_lt
  have al := @leStr_append_left
  unfold Stamp.format
  simp only [List.append_assoc]
  rcases h with h | ⟨e, h⟩
  · exact ap (by simp [digits_length]) (digits_lt h1 h) _ _
  rw [e, al]
  rcases h with h | ⟨e, h⟩
  · exact ap (by simp [digits_length]) (digits_lt h2 h) _ _
  rw [e, al]
  rcases h with h | ⟨e, h⟩
  · exact ap (by simp [digits_length]) (digits_lt h3 h) _ _
  rw [e, al, al]
  rcases h with h | ⟨e, h⟩
  · exact ap (by simp [digits_length]) (digits_lt h4 h) _ _
  rw [e, al]
  rcases h with h | ⟨e, h⟩
  · exact ap (by simp [digits_length]) (digits_lt h5 h) _ _
  rw [e, al]
  rcases h with h | ⟨e, h⟩
  · exact ap (by simp [digits_length]) (digits_lt h6 h) _ _
  rw [e, al, al]
  exact digits_lt h7 h

/-- The directory as `prune` finds it. -/
def beforePrune (i : DB) (d : Dir) (tmp stamp : Str) (order : List (Str × List (Str × Str))) : Dir :=
  (runFs d (mainOps i tmp stamp order)).1

theorem candidates_nodup {d : Dir} (hw : GoMap.WF d) (base : Str) : (pruneCandidates d base).Nodup :=
  ((sortStr_perm _).nodup_iff.2 hw).filter _

theorem candidates_sorted (d : Dir) (base : Str) :
    (pruneCandidates d base).Pairwise (fun x y => leStr x y = true) :=
  (sortStr_sorted _).filter _

/-- Kept candidates are the rest of the sorted list. -/
theorem kept_iff {d : Dir} (hw : GoMap.WF d) {base : Str} {depth : Int} (h0 : 0 ≤ depth) (x : Str) :
    (x ∈ pruneCandidates d base ∧ x ∉ pruneList d base depth) ↔
      x ∈ (pruneCandidates d base).drop ((pruneCandidates d base).length - depth.toNat) := by
  have hnd := candidates_nodup hw base
  generalize hpl : pruneCandidates d base = pl at hnd
  unfold pruneList
  rw [if_neg (by omega), hpl]
  simp only
  split
  · next hlt =>
    have : pl.length - depth.toNat = 0 := by omega
    simp [this]
  · have hsplit := List.take_append_drop (pl.length - depth.toNat) pl
    constructor
    · rintro ⟨hx, hnx⟩
      rw [← hsplit] at hx
      rcases List.mem_append.1 hx with h | h
      · exact absurd h hnx
      · exact h
    · intro hx
      refine ⟨List.mem_of_mem_drop hx, fun hx' => ?_⟩
      rw [← hsplit] at hnd
      exact (List.nodup_append.1 hnd).2.2 x hx' x hx rfl

/-- **C30** (partial): after a successful `Save` of a dirty database, with the backups counted by name
prefix as the code does: files that do not have the name of a backup are untouched by pruning; a
negative depth removes nothing; otherwise at most `depth` backups remain, none is removed unless there
are more than `depth`, and every removed backup is older than every kept one. What is missing for the
full claim: the code regards every name starting with the database name and a dot as a backup. -/
theorem C30_rotation_partial (i : DB) (d : Dir) (tmp stamp : Str)
    (order : List (Str × List (Str × Str))) (hw : GoMap.WF d) (hd : i.dirty = true) (ht : TmpOK i tmp)
    (hb : i.created = true ∨ (d.get i.base).isSome) :
    let d1 := beforePrune i d tmp stamp order
    let d2 := (save i d tmp stamp order).2.2
    (∀ x, ¬ IsBackup i.base x → d2.get x = d1.get x) ∧
    (∀ x t, d2.get x = some t → d1.get x = some t) ∧
    (i.depth < 0 → ∀ x, d2.get x = d1.get x) ∧
    (0 ≤ i.depth →
      (∀ l : List Str, l.Nodup → (∀ x ∈ l, IsBackup i.base x ∧ (d2.get x).isSome) → (l.length : Int) ≤ i.depth) ∧
      ((∃ x, (d1.get x).isSome ∧ d2.get x = none) →
        ∃ l : List Str, l.Nodup ∧ (∀ x ∈ l, IsBackup i.base x ∧ (d2.get x).isSome) ∧ (l.length : Int) = i.depth) ∧
      (∀ s t : Stamp, s.Valid → t.Valid →
        (d1.get (backupName i.base s.format)).isSome → d2.get (backupName i.base s.format) = none →
        (d2.get (backupName i.base t.format)).isSome → ¬ t.before s)) := by
  intro d1 d2
  have hw1 : GoMap.WF d1 := runFs_wf hw _
  have hspec : ∀ x, d2.get x = if x ∈ pruneList d1 i.base i.depth then none else d1.get x :=
    (save_spec hd ht hb).2.2
  have hkept : ∀ x, IsBackup i.base x → ((d2.get x).isSome ↔
      (x ∈ pruneCandidates d1 i.base ∧ x ∉ pruneList d1 i.base i.depth)) := by
    intro x hx
    rw [hspec, mem_pruneCandidates]
    by_cases h : x ∈ pruneList d1 i.base i.depth
    · simp [h]
    · simp only [h, if_false, not_false_eq_true, and_true]
      exact ⟨fun h' => ⟨h', hx⟩, fun h' => h'.1⟩
  refine ⟨fun x hx => ?_, fun x t h => ?_, fun h x => ?_, fun h0 => ⟨?_, ?_, ?_⟩⟩
  · rw [hspec, if_neg]
    intro h; exact hx ((mem_pruneCandidates _ _ _).1 (pruneList_sub _ _ _ h)).2
  · rw [hspec] at h
    split at h
    · simp at h
    · exact h
  · rw [hspec, pruneList, if_pos h]; simp
  · intro l hl hx
    have hsub : l ⊆ (pruneCandidates d1 i.base).drop ((pruneCandidates d1 i.base).length - i.depth.toNat) := by
      intro x hxl
      exact (kept_iff hw1 h0 x).1 ((hkept x (hx x hxl).1).1 (hx x hxl).2)
    have := (List.subperm_of_subset hl hsub).length_le
    rw [List.length_drop] at this
    omega
  · rintro ⟨x, hx1, hx2⟩
    have hxp : x ∈ pruneList d1 i.base i.depth := by
      by_contra h
      rw [hspec, if_neg h] at hx2
      rw [hx2] at hx1; simp at hx1
    refine ⟨(pruneCandidates d1 i.base).drop ((pruneCandidates d1 i.base).length - i.depth.toNat),
      (candidates_nodup hw1 _).sublist (List.drop_sublist _ _), fun y hy => ?_, ?_⟩
    · have h := (kept_iff hw1 h0 y).2 hy
      have hb' := ((mem_pruneCandidates _ _ _).1 h.1).2
      exact ⟨hb', (hkept y hb').2 h⟩
    · have : ¬ ((pruneCandidates d1 i.base).length : Int) - i.depth < 0 := by
        intro hlt
        rw [pruneList, if_neg (by omega)] at hxp
        simp only at hxp
        rw [if_pos hlt] at hxp
        simp at hxp
      rw [List.length_drop]; omega
  · intro s t hs hte h1 h2 h3 hbef
    have hk := (kept_iff hw1 h0 _).1 ((hkept _ (backup_prefix _ _)).1 h3)
    have hrm : backupName i.base s.format ∈
        (pruneCandidates d1 i.base).take ((pruneCandidates d1 i.base).length - i.depth.toNat) := by
      have hc : backupName i.base s.format ∈ pruneCandidates d1 i.base :=
        (mem_pruneCandidates _ _ _).2 ⟨h1, backup_prefix _ _⟩
      rw [← List.take_append_drop ((pruneCandidates d1 i.base).length - i.depth.toNat)
        (pruneCandidates d1 i.base)] at hc
      rcases List.mem_append.1 hc with h | h
      · exact h
      · have := (hkept _ (backup_prefix _ _)).2 ((kept_iff hw1 h0 _).2 h)
        rw [h2] at this; simp at this
    have hsorted := candidates_sorted d1 i.base
    rw [← List.take_append_drop ((pruneCandidates d1 i.base).length - i.depth.toNat)
        (pruneCandidates d1 i.base), List.pairwise_append] at hsorted
    have hle := hsorted.2.2 _ hrm _ hk
    rw [backupName, backupName, leStr_append_left] at hle
    rw [format_lt hs hbef] at hle
    simp at hle

/-- A database with two backups and depth 1. -/
def rotating : DB :=
  { base := "db".toList, depth := 1, dirty := true, created := false, tables := [([], [])] }

def st1 : Stamp := ⟨2016, 1, 2, 3, 4, 5, 6⟩
def st2 : Stamp := ⟨2016, 1, 2, 3, 4, 5, 7⟩

/-- The hypotheses of the rotation theorem hold and an old backup is really removed. -/
example : GoMap.WF ([("db".toList, []), (backupName "db".toList st1.format, [])] : Dir) ∧ TmpOK rotating "db7".toList ∧
    pruneList [("db".toList, []), (backupName "db".toList st2.format, []), (backupName "db".toList st1.format, [])]
      "db".toList 1 = [backupName "db".toList st1.format] :=
  ⟨by decide, tmp_ok _ rfl, by decide⟩

/-- Full statement of the last part of C30: only backups, that is files whose name is the database name
with a time stamp, are removed. -/
def C30_only_backups_removed : Prop :=
  ∀ (i : DB) (d : Dir) (tmp stamp : Str) (order : List (Str × List (Str × Str))) (x : Str),
    GoMap.WF d → TmpOK i tmp → (beforePrune i d tmp stamp order).get x ≠ none →
    (save i d tmp stamp order).2.2.get x = none → ∃ s : Stamp, x = backupName i.base s.format

/-- **C30 is violated**: a file that is no backup but whose name starts with the database name and a dot
is removed, here `db.!`. -/
theorem C30_foreign_file_removed_violated : ¬ C30_only_backups_removed := by
  intro h
  obtain ⟨s, hs⟩ := h { rotating with depth := 0 } [("db".toList, []), ("db.!".toList, "x".toList)] "db7".toList st1.format [([], [])]
    "db.!".toList (by decide) (tmp_ok _ rfl)
    (by
      have := (runFs_main (i := { rotating with depth := 0 }) (d := [("db".toList, []), ("db.!".toList, "x".toList)])
        (stamp := st1.format) (order := [([], [])]) (tmp_ok _ rfl) (Or.inr rfl)).2.2.1 "db.!".toList (by decide) (by decide)
        (by decide)
      rw [beforePrune, this]; decide)
    (by
      rw [(save_spec (i := { rotating with depth := 0 }) rfl (tmp_ok _ rfl) (Or.inr rfl)).2.2, if_pos]
      have hx := (runFs_main (i := { rotating with depth := 0 }) (d := [("db".toList, []), ("db.!".toList, "x".toList)])
        (stamp := st1.format) (order := [([], [])]) (tmp_ok _ rfl) (Or.inr rfl)).2.2.1 "db.!".toList (by decide) (by decide)
        (by decide)
      have hc := (mem_pruneCandidates (runFs [("db".toList, []), ("db.!".toList, "x".toList)]
        (mainOps { rotating with depth := 0 } "db7".toList st1.format [([], [])])).1 "db".toList "db.!".toList).2
        ⟨by rw [hx]; decide, by decide⟩
      rw [pruneList, if_neg (by decide)]
      simp only
      rw [if_neg (by simp)]
      show _ ∈ List.take (_ - 0) _
      rw [Nat.sub_zero, List.take_length]
      exact hc)
  have := congrArg List.length hs
  simp [backupName, Stamp.format, digits_length, rotating] at this

end Verif.IniDB
