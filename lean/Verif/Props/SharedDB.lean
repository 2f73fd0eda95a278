import Verif.Model.SharedDB
import Verif.Proofs.GoMap

/-! # C113: what one request has stored is not destroyed by another

The spec is in terms of the records in the file at the moments of a run. -/

namespace Verif.SharedDB

theorem goto_self (s : State) (t : Nat) (pc : Pc) : (s.goto t pc).threads t = pc := by simp [State.goto]

theorem goto_ne (s : State) {t t' : Nat} (pc : Pc) (h : t' ≠ t) : (s.goto t pc).threads t' = s.threads t' := by
  simp [State.goto, h]

/-- The operation removes the record with that key. -/
def removes (k : Bytes) : Op → Prop
  | .take k' old => k = k' ∨ k ∈ old
  | _ => False

/-- What a goroutine that is at work is doing, and what it has read or is going to write. -/
def Pc.op : Pc → Option Op
  | .load op => some op
  | .fresh op => some op
  | .have_ op _ _ => some op
  | _ => none

def Pc.db : Pc → Option DB
  | .have_ _ db _ => some db
  | .back db _ => some db
  | .put db _ => some db
  | _ => none

/-- Nobody reads the file while there is none, nobody removes the record, and the server does not die. -/
def gentle (k : Bytes) (s : State) : Ev → Prop
  | .start _ op => ¬ removes k op
  | .go t => (∃ op, s.threads t = .load op) → s.file.isSome = true
  | .crash => False

def Gentle (k : Bytes) : State → List Ev → Prop
  | _, [] => True
  | s, e :: es => gentle k s e ∧ ∀ s', step s e = some s' → Gentle k s' es

/-- The record is in the file, if there is one, and in every copy that is used. -/
def Has (k v : Bytes) (s : State) : Prop :=
  (∀ f, s.file = some f → f.get k = some v) ∧
  (s.file = none → ∃ t db r, s.threads t = .put db r) ∧
  (∀ t db, (s.threads t).db = some db → db.get k = some v) ∧
  (∀ t op, (s.threads t).op = some op → ¬ removes k op) ∧
  ∀ t op, s.threads t ≠ .fresh op

theorem get_foldl_del {old : List Bytes} {db : DB} {k : Bytes} (h : k ∉ old) :
    (old.foldl (fun d x => d.del x) db).get k = db.get k := by
  induction old generalizing db with
  | nil => rfl
  | cons x old ih =>
    simp only [List.mem_cons, not_or] at h
    simp only [List.foldl_cons]
    rw [ih h.2, GoMap.get_del_ne _ (Ne.symm h.1)]

theorem work_db {op : Op} {db db' : DB} {c : Bool} {k v : Bytes} (hk : db.get k = some v) (hr : ¬ removes k op)
    (h : (work op db c).db = some db') : db'.get k = some v := by
  have save_db : ∀ {x : DB} {r : Res}, (save x c r).db = some x := by
    intro x r; unfold save; split <;> rfl
  cases op with
  | get a => cases h
  | add a b =>
    simp only [work] at h
    split at h
    · cases h
    · rename_i ha
      rw [save_db] at h; cases h
      have : a ≠ k := by rintro rfl; simp [hk] at ha
      rw [GoMap.get_set_ne _ _ this]; exact hk
  | take a old =>
    simp only [removes, not_or] at hr
    simp only [work] at h
    split at h
    · split at h
      · cases h
      · rw [save_db] at h; cases h
        rw [get_foldl_del hr.2]; exact hk
    · rw [save_db] at h; cases h
      rw [get_foldl_del hr.2, GoMap.get_del_ne _ (Ne.symm hr.1)]; exact hk

theorem work_op (op : Op) (db : DB) (c : Bool) : (work op db c).op = none ∧ ∀ o, work op db c ≠ .fresh o := by
  have hsave : ∀ {x : DB} {r : Res}, (save x c r).op = none ∧ ∀ o, save x c r ≠ .fresh o := by
    intro x r; unfold save; split <;> exact ⟨rfl, fun o h => by cases h⟩
  cases op with
  | get a => exact ⟨rfl, fun o h => by cases h⟩
  | add a b =>
    simp only [work]
    split
    · exact ⟨rfl, fun o h => by cases h⟩
    · exact hsave
  | take a old =>
    simp only [work]
    split
    · split
      · exact ⟨rfl, fun o h => by cases h⟩
      · exact hsave
    · exact hsave

theorem has_goto {k v : Bytes} {s : State} {t : Nat} {pc : Pc} (hs : Has k v s)
    (h1 : s.file = none → ∀ db r, s.threads t ≠ .put db r)
    (h2 : ∀ db, pc.db = some db → db.get k = some v) (h3 : ∀ op, pc.op = some op → ¬ removes k op)
    (h4 : ∀ op, pc ≠ .fresh op) : Has k v (s.goto t pc) := by
  obtain ⟨a, b, c, d, e⟩ := hs
  refine ⟨a, fun hn => ?_, fun x db hx => ?_, fun x op hx => ?_, fun x op hx => ?_⟩
  · obtain ⟨x, db, r, hx⟩ := b hn
    refine ⟨x, db, r, ?_⟩
    have : x ≠ t := by rintro rfl; exact h1 hn db r hx
    rw [goto_ne _ _ this]; exact hx
  · by_cases hxt : x = t
    · subst hxt; rw [goto_self] at hx; exact h2 db hx
    · rw [goto_ne _ _ hxt] at hx; exact c x db hx
  · by_cases hxt : x = t
    · subst hxt; rw [goto_self] at hx; exact h3 op hx
    · rw [goto_ne _ _ hxt] at hx; exact d x op hx
  · by_cases hxt : x = t
    · subst hxt; rw [goto_self] at hx; exact h4 op hx
    · rw [goto_ne _ _ hxt] at hx; exact e x op hx

theorem has_step {k v : Bytes} {s s' : State} {e : Ev} (hs : Has k v s) (hg : gentle k s e)
    (h : step s e = some s') : Has k v s' := by
  cases e <;> simp only [step] at h
  case start t op =>
    split at h <;> cases h
    rename_i hi
    refine has_goto hs (fun _ db r hp => by rw [hi] at hp; cases hp) (fun db hd => by cases hd) ?_
      (fun op hp => by cases hp)
    intro o ho
    cases ho
    exact hg
  case go t =>
    unfold go at h
    split at h
    · cases h
    · cases h
    · rename_i op hp
      split at h <;> cases h
      · rename_i db hf
        refine has_goto hs (fun hn => by rw [hf] at hn; cases hn) ?_ ?_ (fun op hp => by cases hp)
        · intro x hx; cases hx; exact hs.1 _ hf
        · intro o ho; cases ho; exact hs.2.2.2.1 t op (by rw [hp]; rfl)
      · rename_i hf
        have := hg ⟨op, hp⟩
        rw [hf] at this; cases this
    · rename_i op hp
      exact absurd hp (hs.2.2.2.2 t op)
    · rename_i op db c hp
      cases h
      refine has_goto hs (fun _ db r hx => by rw [hp] at hx; cases hx) ?_ ?_ (work_op op db c).2
      · intro x hx
        exact work_db (hs.2.2.1 t db (by rw [hp]; rfl)) (hs.2.2.2.1 t op (by rw [hp]; rfl)) hx
      · intro o ho; rw [(work_op op db c).1] at ho; cases ho
    · rename_i db r hp
      have hdb := hs.2.2.1 t db (by rw [hp]; rfl)
      split at h <;> cases h
      · obtain ⟨a, b, c, d, e⟩ := hs
        refine ⟨(fun f hf => by cases hf), fun _ => ⟨t, db, r, goto_self _ _ _⟩, fun x y hx => ?_,
          fun x op hx => ?_, fun x op hx => ?_⟩
        · by_cases hxt : x = t
          · subst hxt; rw [goto_self] at hx; cases hx; exact hdb
          · rw [goto_ne _ _ hxt] at hx; exact c x y hx
        · by_cases hxt : x = t
          · subst hxt; rw [goto_self] at hx; cases hx
          · rw [goto_ne _ _ hxt] at hx; exact d x op hx
        · by_cases hxt : x = t
          · subst hxt; rw [goto_self] at hx; cases hx
          · rw [goto_ne _ _ hxt] at hx; exact e x op hx
      · exact has_goto hs (fun _ db r hx => by rw [hp] at hx; cases hx) (fun x hx => by cases hx)
          (fun x hx => by cases hx) (fun x hx => by cases hx)
    · rename_i db r hp
      have hdb := hs.2.2.1 t db (by rw [hp]; rfl)
      cases h
      obtain ⟨a, b, c, d, e⟩ := hs
      refine ⟨fun f hf => by cases hf; exact hdb, (fun hn => by cases hn), fun x y hx => ?_,
        fun x op hx => ?_, fun x op hx => ?_⟩
      · by_cases hxt : x = t
        · subst hxt; rw [goto_self] at hx; cases hx
        · rw [goto_ne _ _ hxt] at hx; exact c x y hx
      · by_cases hxt : x = t
        · subst hxt; rw [goto_self] at hx; cases hx
        · rw [goto_ne _ _ hxt] at hx; exact d x op hx
      · by_cases hxt : x = t
        · subst hxt; rw [goto_self] at hx; cases hx
        · rw [goto_ne _ _ hxt] at hx; exact e x op hx
  case crash => exact hg.elim

theorem has_run {k v : Bytes} {s s' : State} {es : List Ev} (hs : Has k v s) (hg : Gentle k s es)
    (h : run s es = some s') : Has k v s' := by
  induction es generalizing s with
  | nil => cases h; exact hs
  | cons e es ih =>
    simp only [run, Option.bind_eq_some_iff] at h
    obtain ⟨m, hm, h⟩ := h
    exact ih (has_step hs hg.1 hm) (hg.2 m hm) h

/-- A record that is in the file when nobody is at work stays in it, with its value, under any number of requests at
the same time; provided that none removes it, that none reads the file at a moment when another has renamed it away,
and that the server lives. -/
theorem C113_kept_partial {k v : Bytes} {s s' : State} {es : List Ev} {f f' : DB} (hf : s.file = some f)
    (hk : f.get k = some v) (hi : ∀ t, s.threads t = .idle ∨ ∃ r, s.threads t = .fin r) (hg : Gentle k s es)
    (h : run s es = some s') (hf' : s'.file = some f') : f'.get k = some v := by
  have hs : Has k v s := by
    refine ⟨fun g hg => by rw [hf] at hg; cases hg; exact hk, (fun hn => by rw [hf] at hn; cases hn),
      fun t db hd => ?_, fun t op ho => ?_, fun t op ho => ?_⟩
    all_goals (rcases hi t with hi | ⟨r, hi⟩ <;> simp_all [Pc.db, Pc.op])
  exact (has_run hs hg h).1 f' hf'

/-- And there is a file again as soon as nobody is at work. -/
theorem C113_there_partial {k v : Bytes} {s s' : State} {es : List Ev} {f : DB} (hf : s.file = some f)
    (hk : f.get k = some v) (hi : ∀ t, s.threads t = .idle ∨ ∃ r, s.threads t = .fin r) (hg : Gentle k s es)
    (h : run s es = some s') (hi' : ∀ t, s'.threads t = .idle ∨ ∃ r, s'.threads t = .fin r) :
    ∃ f', s'.file = some f' ∧ f'.get k = some v := by
  have hs : Has k v s := by
    refine ⟨fun g hg => by rw [hf] at hg; cases hg; exact hk, (fun hn => by rw [hf] at hn; cases hn),
      fun t db hd => ?_, fun t op ho => ?_, fun t op ho => ?_⟩
    all_goals (rcases hi t with hi | ⟨r, hi⟩ <;> simp_all [Pc.db, Pc.op])
  have hs' := has_run hs hg h
  cases hx : s'.file with
  | none =>
    obtain ⟨t, db, r, ht⟩ := hs'.2.1 hx
    rcases hi' t with hi' | ⟨q, hi'⟩ <;> rw [hi'] at ht <;> cases ht
  | some f' => exact ⟨f', rfl, hs'.1 f' hx⟩

/-! ## What a request returns -/

/-- At some moment of the run. -/
def Once (P : State → Prop) (s : State) (es : List Ev) : Prop :=
  ∃ a b m, es = a ++ b ∧ run s a = some m ∧ P m

theorem once_cons {P : State → Prop} {s s1 : State} {e : Ev} {es : List Ev} (h : Once P s1 es)
    (h1 : step s e = some s1) : Once P s (e :: es) := by
  obtain ⟨a, b, m, hab, hm, hP⟩ := h
  exact ⟨e :: a, b, m, by simp [hab], by simp [run, h1, hm], hP⟩

theorem step_other {s s' : State} {e : Ev} {t : Nat} (h : step s e = some s') (he : e ≠ .go t) (hc : e ≠ .crash)
    (hi : s.threads t ≠ .idle) : s'.threads t = s.threads t := by
  cases e <;> simp only [step] at h
  case start x op =>
    split at h <;> cases h
    rename_i hx
    exact goto_ne _ _ (by rintro rfl; exact hi hx)
  case go x =>
    have hxt : t ≠ x := by rintro rfl; exact he rfl
    unfold go at h
    split at h
    · cases h
    · cases h
    all_goals first
      | (cases h; exact goto_ne _ _ hxt)
      | (split at h <;> cases h <;> exact goto_ne _ _ hxt)
  case crash => exact absurd rfl hc

theorem fin_run {s s' : State} {es : List Ev} {t : Nat} {r : Res} (hf : s.threads t = .fin r) (hc : Ev.crash ∉ es)
    (h : run s es = some s') : s'.threads t = .fin r := by
  induction es generalizing s with
  | nil => cases h; exact hf
  | cons e es ih =>
    simp only [run, Option.bind_eq_some_iff] at h
    obtain ⟨m, hm, h⟩ := h
    simp only [List.mem_cons, not_or] at hc
    by_cases he : e = .go t
    · subst he; simp [step, go, hf] at hm
    · exact ih (by rw [step_other hm he (Ne.symm hc.1) (by rw [hf]; simp), hf]) hc.2 h

/-- The file had that value, or there was no file. -/
def Held (k : Bytes) (v : Option Bytes) (m : State) : Prop :=
  (∃ f, m.file = some f ∧ f.get k = v) ∨ m.file = none ∧ v = none

/-- What a pull returns was in the file at some moment of the pull; nothing is returned only if it was not there, or if
there was no file. -/
theorem C113_read {s s' : State} {es : List Ev} {t : Nat} {k : Bytes} {v : Option Bytes} (hc : Ev.crash ∉ es)
    (hl : s.threads t = .load (.get k)) (h : run s es = some s') (hf : s'.threads t = .fin (.got v)) :
    Once (Held k v) s es := by
  induction es generalizing s with
  | nil => cases h; rw [hl] at hf; cases hf
  | cons e es ih =>
    simp only [run, Option.bind_eq_some_iff] at h
    obtain ⟨m, hm, h⟩ := h
    simp only [List.mem_cons, not_or] at hc
    by_cases he : e = .go t
    · subst he
      -- from here on the copy is fixed
      have fixed : ∀ {es : List Ev} {x : State} {db : DB} {c : Bool}, Ev.crash ∉ es →
          x.threads t = .have_ (.get k) db c → run x es = some s' → v = db.get k := by
        intro es
        induction es with
        | nil => intro x db c _ hx h; cases h; rw [hx] at hf; cases hf
        | cons e es ih =>
          intro x db c hc hx h
          simp only [run, Option.bind_eq_some_iff] at h
          obtain ⟨y, hy, h⟩ := h
          simp only [List.mem_cons, not_or] at hc
          by_cases he : e = .go t
          · subst he
            simp only [step, go, hx, work, Option.some.injEq] at hy
            subst hy
            have := fin_run (goto_self _ _ _) hc.2 h
            rw [this] at hf; cases hf; rfl
          · exact ih hc.2 (by rw [step_other hy he (Ne.symm hc.1) (by rw [hx]; simp), hx]) h
      have made : ∀ {es : List Ev} {x : State}, Ev.crash ∉ es → x.threads t = .fresh (.get k) →
          run x es = some s' → v = none := by
        intro es
        induction es with
        | nil => intro x _ hx h; cases h; rw [hx] at hf; cases hf
        | cons e es ih =>
          intro x hc hx h
          simp only [run, Option.bind_eq_some_iff] at h
          obtain ⟨y, hy, h⟩ := h
          simp only [List.mem_cons, not_or] at hc
          by_cases he : e = .go t
          · subst he
            simp only [step, go, hx, Option.some.injEq] at hy
            subst hy
            exact fixed hc.2 (goto_self _ _ _) h
          · exact ih hc.2 (by rw [step_other hy he (Ne.symm hc.1) (by rw [hx]; simp), hx]) h
      refine ⟨[], _, s, rfl, rfl, ?_⟩
      simp only [step, go, hl] at hm
      split at hm <;> cases hm
      · rename_i db hdb
        exact .inl ⟨db, hdb, (fixed hc.2 (goto_self _ _ _) h).symm⟩
      · rename_i hn
        exact .inr ⟨hn, made hc.2 (goto_self _ _ _) h⟩
    · exact once_cons (ih hc.2 (by rw [step_other hm he (Ne.symm hc.1) (by rw [hl]; simp), hl]) h) hm

/-- Where a goroutine has to be if its request is to end with the record `v`. -/
def Promised (v : Bytes) : Pc → Prop
  | .have_ (.take k _) db _ => db.get k = some v
  | .back _ r | .put _ r | .fin r => r = .taken v
  | _ => False

theorem promised_back {s s' : State} {es : List Ev} {t : Nat} {v : Bytes} (hc : Ev.crash ∉ es)
    (hn : s.threads t ≠ .idle) (hl : ∀ op, s.threads t ≠ .load op) (h : run s es = some s')
    (hf : s'.threads t = .fin (.taken v)) : Promised v (s.threads t) := by
  induction es generalizing s with
  | nil => cases h; rw [hf]; rfl
  | cons e es ih =>
    simp only [run, Option.bind_eq_some_iff] at h
    obtain ⟨m, hm, h⟩ := h
    simp only [List.mem_cons, not_or] at hc
    by_cases he : e = .go t
    · subst he
      have key : ∀ pc, m.threads t = pc → pc ≠ .idle → (∀ op, pc ≠ .load op) → Promised v pc := by
        rintro pc rfl h1 h2
        exact ih hc.2 h1 h2 h
      have gt : ∀ (x : State) (pc : Pc), (x.goto t pc).threads t = pc := fun x pc => goto_self _ _ _
      simp only [step, go] at hm
      cases hp : s.threads t with
      | idle => exact absurd hp hn
      | load op => exact absurd hp (hl op)
      | fin r => rw [hp] at hm; cases hm
      | fresh op =>
        rw [hp] at hm
        cases hm
        have := key _ (gt _ _)
        cases op <;> simp [Promised] at this
      | have_ op db c =>
        rw [hp] at hm
        cases hm
        have := key _ (gt _ _)
        cases op with
        | get k => simp [work, Promised] at this
        | add k w =>
          simp only [work, save] at this
          split at this
          · simp [Promised] at this
          · split at this <;> simp [Promised] at this
        | take k old =>
          simp only [work, save] at this
          split at this
          · split at this
            · simp [Promised] at this
            · split at this <;> simp [Promised] at this
          · next w hw =>
            show db.get k = some v
            rw [hw]
            split at this <;> (simp [Promised] at this; rw [this])
      | back db r =>
        rw [hp] at hm
        simp only at hm
        split at hm <;> cases hm
        · exact (key (.put db r) (gt _ _) (by simp) (by simp) : r = _)
        · exact (key (.fin r) (gt _ _) (by simp) (by simp) : r = _)
      | put db r =>
        rw [hp] at hm
        cases hm
        exact (key (.fin r) (gt _ _) (by simp) (by simp) : r = _)
    · have := step_other hm he (Ne.symm hc.1) hn
      rw [← this]
      exact ih hc.2 (by rw [this]; exact hn) (by rw [this]; exact hl) h

/-- What a request takes, a blob or a token, was in the file at some moment of the request, under the key that was asked
for. -/
theorem C113_taken {s s' : State} {es : List Ev} {t : Nat} {k v : Bytes} {old : List Bytes} (hc : Ev.crash ∉ es)
    (hl : s.threads t = .load (.take k old)) (h : run s es = some s') (hf : s'.threads t = .fin (.taken v)) :
    Once (fun m => ∃ f, m.file = some f ∧ f.get k = some v) s es := by
  induction es generalizing s with
  | nil => cases h; rw [hl] at hf; cases hf
  | cons e es ih =>
    simp only [run, Option.bind_eq_some_iff] at h
    obtain ⟨m, hm, h⟩ := h
    simp only [List.mem_cons, not_or] at hc
    by_cases he : e = .go t
    · subst he
      refine ⟨[], _, s, rfl, rfl, ?_⟩
      simp only [step, go, hl] at hm
      split at hm <;> cases hm
      · rename_i db hdb
        have := promised_back hc.2 (by rw [goto_self]; simp) (by rw [goto_self]; simp) h hf
        rw [goto_self] at this
        exact ⟨db, hdb, this⟩
      · have := promised_back hc.2 (by rw [goto_self]; simp) (by rw [goto_self]; simp) h hf
        rw [goto_self] at this
        exact this.elim
    · exact once_cons (ih hc.2 (by rw [step_other hm he (Ne.symm hc.1) (by rw [hl]; simp), hl]) h) hm

/-- If the server dies while the file is there, which is always but between the two renames, a record is kept: it is there
when the server is started again, and nobody is at work then. -/
theorem C113_restart_partial {k v : Bytes} {s s' : State} {es : List Ev} {f : DB} (hf : s.file = some f)
    (hk : f.get k = some v) (hi : ∀ t, s.threads t = .idle ∨ ∃ r, s.threads t = .fin r) (hg : Gentle k s es)
    (h : run s es = some s') (hn : s'.file ≠ none) :
    ∃ s'' f', step s' .crash = some s'' ∧ (∀ t, s''.threads t = .idle) ∧ s''.file = some f' ∧ f'.get k = some v := by
  obtain ⟨f', hf'⟩ := Option.ne_none_iff_exists'.1 hn
  exact ⟨_, f', rfl, fun _ => rfl, hf', C113_kept_partial hf hk hi hg h hf'⟩

/-- A request that works while nobody else does stores its record. -/
theorem C113_stored_partial {s s' : State} {t : Nat} {k v : Bytes} {db : DB}
    (h : run s [.start t (.add k v), .go t, .go t, .go t, .go t] = some s') (hf : s.file = some db)
    (hk : db.get k = none) : s'.file = some (db.set k v) ∧ s'.threads t = .fin .added := by
  have h0 : s.threads t = .idle := by
    by_contra hn
    simp [run, step, hn] at h
  simp [run, step, go, State.goto, h0, hf, work, hk, save] at h
  subst h
  exact ⟨rfl, by simp⟩

/-! ## Disagreements -/

/-- DISAGREEMENT.  Whatever is in the file: if somebody looks a PIN up at the moment when another request has renamed
the file to its backup, the file may end up empty; all PINs are gone, and the request that stored one has been told
that it is there. -/
theorem C113_wiped_violated (db : DB) (k v x : Bytes) (h : db.get k = none) :
    ∃ s', run { file := some db } [.start 0 (.add k v), .go 0, .go 0, .go 0, .start 1 (.get x), .go 1, .go 0, .go 1,
        .go 1] = some s' ∧
      s'.threads 0 = .fin .added ∧ s'.threads 1 = .fin (.got none) ∧ s'.file = some [] := by
  simp [run, step, go, State.goto, work, h, save, GoMap.get]

/-- DISAGREEMENT.  The same with tokens: two registrations at the same time, and all tokens are gone; the second is
refused though its token is good. -/
theorem C113_tokens_violated (db : DB) (a b v : Bytes) (h : db.get a = some v) :
    ∃ s', run { file := some db } [.start 0 (.take a []), .go 0, .go 0, .go 0, .start 1 (.take b []), .go 1, .go 0,
        .go 1] = some s' ∧
      s'.threads 0 = .fin (.taken v) ∧ s'.threads 1 = .fin .failed ∧ s'.file = some [] := by
  simp [run, step, go, State.goto, work, h, save]

/-- DISAGREEMENT.  A PIN that is stored during the window replaces all others, without a backup of what the first
request wrote. -/
theorem C113_replaced_violated (db : DB) (k v k' v' : Bytes) (h : db.get k = none) :
    ∃ s', run { file := some db } [.start 0 (.add k v), .go 0, .go 0, .go 0, .start 1 (.add k' v'), .go 1, .go 0,
        .go 1, .go 1, .go 1] = some s' ∧
      s'.threads 0 = .fin .added ∧ s'.threads 1 = .fin .added ∧ s'.file = some [(k', v')] ∧ s'.backups = [db] := by
  simp [run, step, go, State.goto, work, h, save, GoMap.get, GoMap.set, GoMap.del]

/-- DISAGREEMENT.  If the server dies between the two renames, the next request makes an empty file. -/
theorem C113_crash_violated (db : DB) (k v x : Bytes) (h : db.get k = none) :
    ∃ s', run { file := some db } [.start 0 (.add k v), .go 0, .go 0, .go 0, .crash, .start 1 (.get x), .go 1, .go 1,
        .go 1] = some s' ∧
      s'.threads 1 = .fin (.got none) ∧ s'.file = some [] := by
  simp [run, step, go, State.goto, work, h, save, GoMap.get]

/-- DISAGREEMENT.  Of two requests that store at the same time one is lost, though both are told that it was stored. -/
theorem C113_lost_violated (db : DB) (a b v w : Bytes) (ha : db.get a = none) (hb : db.get b = none) (hab : a ≠ b) :
    ∃ s' f, run { file := some db } [.start 0 (.add a v), .start 1 (.add b w), .go 0, .go 1, .go 0, .go 1, .go 0,
        .go 0, .go 1, .go 1] = some s' ∧
      s'.threads 0 = .fin .added ∧ s'.threads 1 = .fin .added ∧ s'.file = some f ∧ f.get a = none := by
  have h1 : GoMap.get (GoMap.set db b w) a = none := by rw [GoMap.get_set_ne _ _ (Ne.symm hab)]; exact ha
  simp [run, step, go, State.goto, work, ha, hb, save, h1]

/-- DISAGREEMENT.  A request whose first rename comes while another has renamed the file away is told that its record
was stored, though it never was in the file. -/
theorem C113_never_violated (db : DB) (a b v w : Bytes) (ha : db.get a = none) (hb : db.get b = none) (hab : a ≠ b) :
    ∃ s' f, run { file := some db } [.start 0 (.add a v), .start 1 (.add b w), .go 0, .go 1, .go 0, .go 1, .go 0,
        .go 1, .go 0] = some s' ∧
      s'.threads 0 = .fin .added ∧ s'.threads 1 = .fin .added ∧ s'.file = some f ∧ f.get b = none := by
  have h1 : GoMap.get (GoMap.set db a v) b = none := by rw [GoMap.get_set_ne _ _ hab]; exact hb
  simp [run, step, go, State.goto, work, ha, hb, save, h1]

/-- DISAGREEMENT.  And a token lets two in. -/
theorem C113_twice_violated (db : DB) (a v : Bytes) (ha : db.get a = some v) :
    ∃ s', run { file := some db } [.start 0 (.take a []), .start 1 (.take a []), .go 0, .go 1, .go 0, .go 1, .go 0,
        .go 1, .go 0] = some s' ∧
      s'.threads 0 = .fin (.taken v) ∧ s'.threads 1 = .fin (.taken v) := by
  simp [run, step, go, State.goto, work, ha, save]

/-! ## Examples -/

/-- C113_kept_partial, C113_there_partial: two requests overlap, one reads while the other writes, and the record is
kept. -/
example : ∃ s, run { file := some [([1], [9])] } [.start 0 (.add [2] [8]), .go 0, .start 1 (.get [1]), .go 1, .go 0,
      .go 0, .go 1, .go 0] = some s ∧ s.file = some ([([1], [9])] |> fun d => GoMap.set d [2] [8]) ∧
    s.threads 1 = .fin (.got (some [9])) := ⟨_, rfl, by decide, by decide⟩

example : Gentle [1] { file := some [([1], [9])] } [.start 0 (.add [2] [8]), .go 0, .start 1 (.get [1])] := by
  refine ⟨by simp [gentle, removes], fun s hs => ⟨?_, fun s' hs' => ⟨by simp [gentle, removes], fun _ _ => trivial⟩⟩⟩
  cases hs
  intro _; rfl

/-- C113_read, C113_stored_partial: a record is stored and read. -/
example : ∃ s, run {} [.start 0 (.add [2] [8]), .go 0, .go 0, .go 0, .go 0, .start 1 (.get [2]), .go 1, .go 1] =
    some s ∧ s.threads 0 = .fin .added ∧ s.threads 1 = .fin (.got (some [8])) := ⟨_, rfl, by decide, by decide⟩

/-- C113_taken, C113_restart_partial: a token is taken, after which it is not there; the server dies and the other
record is kept. -/
example : ∃ s s'', run { file := some [([1], [9]), ([2], [8])] } [.start 0 (.take [2] []), .go 0, .go 0, .go 0, .go 0] =
      some s ∧ s.threads 0 = .fin (.taken [8]) ∧ step s .crash = some s'' ∧ s''.file = some [([1], [9])] :=
  ⟨_, _, rfl, by decide, rfl, by decide⟩

end Verif.SharedDB
