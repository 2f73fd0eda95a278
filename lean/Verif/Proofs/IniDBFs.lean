import Verif.Proofs.IniDB

/-! # Lemmas about the file operations of `Save` -/

namespace Verif.IniDB

open Verif

theorem runFs_append (d : Dir) (a b : List FsOp) :
    runFs d (a ++ b) = if (runFs d a).2 then runFs (runFs d a).1 b else runFs d a := by
  induction a generalizing d with
  | nil => simp [runFs]
  | cons op a ih =>
    rw [List.cons_append, runFs, runFs]
    cases op.exec d with
    | none => simp
    | some d' => exact ih d'

/-- The name(s) an operation can change. -/
def FsOp.touches : FsOp → Str → Prop
  | .create n, x => x = n
  | .append n _, x => x = n
  | .rename a b, x => x = a ∨ x = b
  | .remove n, x => x = n

theorem exec_untouched {d d' : Dir} {op : FsOp} (h : op.exec d = some d') {x : Str}
    (hx : ¬ op.touches x) : d'.get x = d.get x := by
  cases op with
  | create n =>
    simp only [FsOp.exec, Option.some.injEq] at h; subst h
    exact GoMap.get_set_ne _ _ (fun e => hx e.symm)
  | append n c =>
    simp only [FsOp.exec, Option.some.injEq] at h; subst h
    exact GoMap.get_set_ne _ _ (fun e => hx e.symm)
  | rename a b =>
    simp only [FsOp.exec] at h
    cases hg : d.get a with
    | none => simp [hg] at h
    | some t =>
      simp only [hg, Option.some.injEq] at h; subst h
      rw [GoMap.get_set_ne _ _ (fun e => hx (Or.inr e.symm)), GoMap.get_del_ne _ (fun e => hx (Or.inl e.symm))]
  | remove n =>
    simp only [FsOp.exec, Option.some.injEq] at h; subst h
    exact GoMap.get_del_ne _ (fun e => hx e.symm)

theorem runFs_untouched (d : Dir) (ops : List FsOp) (x : Str) (h : ∀ op ∈ ops, ¬ op.touches x) :
    (runFs d ops).1.get x = d.get x := by
  induction ops generalizing d with
  | nil => rfl
  | cons op ops ih =>
    rw [runFs]
    cases he : op.exec d with
    | none => rfl
    | some d' =>
      simp only
      rw [ih d' (fun o ho => h o (by simp [ho]))]
      exact exec_untouched he (h op (by simp))

theorem exec_wf {d d' : Dir} {op : FsOp} (h : op.exec d = some d') (hw : GoMap.WF d) : GoMap.WF d' := by
  cases op with
  | create n => simp only [FsOp.exec, Option.some.injEq] at h; subst h; exact GoMap.wf_set hw _ _
  | append n c => simp only [FsOp.exec, Option.some.injEq] at h; subst h; exact GoMap.wf_set hw _ _
  | rename a b =>
    simp only [FsOp.exec] at h
    cases hg : d.get a with
    | none => simp [hg] at h
    | some t => simp only [hg, Option.some.injEq] at h; subst h; exact GoMap.wf_set (GoMap.wf_del hw _) _ _
  | remove n => simp only [FsOp.exec, Option.some.injEq] at h; subst h; exact GoMap.wf_del hw _

theorem runFs_wf {d : Dir} (hw : GoMap.WF d) (ops : List FsOp) : GoMap.WF (runFs d ops).1 := by
  induction ops generalizing d with
  | nil => exact hw
  | cons op ops ih =>
    rw [runFs]
    cases he : op.exec d with
    | none => exact hw
    | some d' => exact ih (exec_wf he hw)

theorem runFs_appends (d : Dir) (tmp s txt : Str) (h : d.get tmp = some s) :
    (runFs d (txt.map (FsOp.append tmp))).2 = true ∧
      (runFs d (txt.map (FsOp.append tmp))).1.get tmp = some (s ++ txt) := by
  induction txt generalizing d s with
  | nil => simp [runFs, h]
  | cons c txt ih =>
    simp only [List.map_cons, runFs, FsOp.exec]
    have := ih (d.set tmp ((d.get tmp).getD [] ++ [c])) (s ++ [c]) (by simp [h])
    simpa using this

theorem runFs_write (d : Dir) (tmp txt : Str) :
    (runFs d (writeOps tmp txt)).2 = true ∧ (runFs d (writeOps tmp txt)).1.get tmp = some txt ∧
      ∀ x, x ≠ tmp → (runFs d (writeOps tmp txt)).1.get x = d.get x := by
  have h := runFs_appends (d.set tmp []) tmp [] txt (by simp)
  refine ⟨h.1, h.2, fun x hx => runFs_untouched _ _ _ ?_⟩
  intro op hop
  simp only [writeOps, List.mem_cons, List.mem_map] at hop
  rcases hop with rfl | ⟨c, _, rfl⟩ <;> exact hx

theorem runFs_removes (d : Dir) (l : List Str) :
    (runFs d (l.map FsOp.remove)).2 = true ∧
      ∀ x, (runFs d (l.map FsOp.remove)).1.get x = if x ∈ l then none else d.get x := by
  induction l generalizing d with
  | nil => simp [runFs]
  | cons n l ih =>
    simp only [List.map_cons, runFs, FsOp.exec]
    refine ⟨(ih _).1, fun x => ?_⟩
    rw [(ih _).2]
    by_cases hx : x = n
    · subst hx; simp
    · by_cases hl : x ∈ l
      · simp [hl]
      · simp [hl, hx, GoMap.get_del_ne _ (fun e => hx e.symm)]

/-! ## Sorting -/

theorem insertStr_perm (a : Str) (l : List Str) : (insertStr a l).Perm (a :: l) := by
  induction l with
  | nil => exact List.Perm.refl _
  | cons b l ih =>
    rw [insertStr]; split
    · exact List.Perm.refl _
    · exact (ih.cons b).trans (List.Perm.swap a b l)

theorem sortStr_perm (l : List Str) : (sortStr l).Perm l := by
  induction l with
  | nil => exact List.Perm.refl _
  | cons a l ih => exact (insertStr_perm a _).trans (ih.cons a)

theorem leStr_total (a b : Str) : leStr a b = true ∨ leStr b a = true := by
  induction a generalizing b with
  | nil => simp [leStr]
  | cons x a ih =>
    cases b with
    | nil => simp [leStr]
    | cons y b =>
      simp only [leStr]
      by_cases h1 : x.toNat < y.toNat
      · simp [h1]
      · by_cases h2 : x = y
        · subst h2; simpa using ih b
        · have h3 : y.toNat < x.toNat := by
            rcases Nat.lt_or_ge y.toNat x.toNat with h | h
            · exact h
            · exact absurd (Char.ext (UInt32.toNat_inj.mp (by
                change x.toNat = y.toNat; omega))) h2
          simp [h3]

theorem leStr_trans {a b c : Str} (h1 : leStr a b = true) (h2 : leStr b c = true) : leStr a c = true := by
  induction a generalizing b c with
  | nil => simp [leStr]
  | cons x a ih =>
    cases b with
    | nil => simp [leStr] at h1
    | cons y b =>
      cases c with
      | nil => simp [leStr] at h2
      | cons z c =>
        simp only [leStr] at h1 h2 ⊢
        by_cases hxy : x.toNat < y.toNat
        · have : x.toNat < z.toNat := by
            by_cases hyz : y.toNat < z.toNat
            · omega
            · rw [if_neg hyz] at h2
              by_cases e : y = z
              · rw [← e]; exact hxy
              · simp [e] at h2
          simp [this]
        · rw [if_neg hxy] at h1
          by_cases e : x = y
          · subst e
            rw [if_pos rfl] at h1
            by_cases hyz : x.toNat < z.toNat
            · simp [hyz]
            · rw [if_neg hyz] at h2 ⊢
              by_cases e2 : x = z
              · rw [if_pos e2] at h2 ⊢; exact ih h1 h2
              · simp [e2] at h2
          · simp [e] at h1

theorem insertStr_sorted (a : Str) {l : List Str} (h : l.Pairwise (fun x y => leStr x y = true)) :
    (insertStr a l).Pairwise (fun x y => leStr x y = true) := by
  induction l with
  | nil => simp [insertStr]
  | cons b l ih =>
    rw [insertStr]
    rw [List.pairwise_cons] at h
    split
    · next hab =>
      rw [List.pairwise_cons]
      refine ⟨fun c hc => ?_, List.pairwise_cons.2 h⟩
      rcases List.mem_cons.1 hc with rfl | hc
      · exact hab
      · exact leStr_trans hab (h.1 c hc)
    · next hab =>
      rw [List.pairwise_cons]
      refine ⟨fun c hc => ?_, ih h.2⟩
      have hc' := (insertStr_perm a l).mem_iff.1 hc
      rcases List.mem_cons.1 hc' with rfl | hc'
      · rcases leStr_total b c with h' | h'
        · exact h'
        · exact absurd h' hab
      · exact h.1 c hc'

theorem sortStr_sorted (l : List Str) : (sortStr l).Pairwise (fun x y => leStr x y = true) := by
  induction l with
  | nil => simp [sortStr]
  | cons a l ih => exact insertStr_sorted a ih

/-! ## Pruning -/

theorem mem_pruneCandidates (d : Dir) (base n : Str) :
    n ∈ pruneCandidates d base ↔ (d.get n).isSome ∧ (base ++ ['.']) <+: n := by
  rw [pruneCandidates, List.mem_filter, (sortStr_perm _).mem_iff, GoMap.mem_keys_iff,
    List.isPrefixOf_iff_prefix]

theorem pruneList_sub (d : Dir) (base : Str) (depth : Int) {n : Str}
    (h : n ∈ pruneList d base depth) : n ∈ pruneCandidates d base := by
  unfold pruneList at h
  split at h
  · simp at h
  · dsimp only at h
    split at h
    · simp at h
    · exact List.mem_of_mem_take h

theorem prefix_ne (base n : Str) (h : (base ++ ['.']) <+: n) : n ≠ base := by
  rintro rfl
  have := h.length_le
  simp at this
  omega

/-! ## Time stamps sort like times -/

theorem leStr_append_left (c x y : Str) : leStr (c ++ x) (c ++ y) = leStr x y := by
  induction c with
  | nil => rfl
  | cons a c ih => simp [leStr, ih]

theorem leStr_append_lt {a b : Str} (hl : a.length = b.length) (h : leStr a b = false) (x y : Str) :
    leStr (a ++ x) (b ++ y) = false := by
  induction a generalizing b with
  | nil => simp [leStr] at h
  | cons p a ih =>
    cases b with
    | nil => simp at hl
    | cons q b =>
      simp only [List.cons_append, leStr] at h ⊢
      by_cases h1 : p.toNat < q.toNat
      · simp [h1] at h
      · rw [if_neg h1] at h ⊢
        by_cases h2 : p = q
        · rw [if_pos h2] at h ⊢
          exact ih (by simpa using hl) h
        · rw [if_neg h2]

theorem digits_length (w n : Nat) : (digits w n).length = w := by
  induction w generalizing n with
  | zero => rfl
  | succ w ih => simp [digits, ih]

theorem digit_toNat (n : Nat) : (digit n).toNat = 48 + n % 10 := by
  have : ∀ m < 10, (Char.ofNat (48 + m)).toNat = 48 + m := by decide
  exact this (n % 10) (Nat.mod_lt _ (by decide))

theorem digits_lt {w m n : Nat} (hm : m < 10 ^ w) (h : n < m) :
    leStr (digits w m) (digits w n) = false := by
  induction w generalizing m n with
  | zero => simp at hm; omega
  | succ w ih =>
    simp only [digits]
    have hm' : m / 10 < 10 ^ w := by
      rw [Nat.div_lt_iff_lt_mul (by decide)]
      rw [Nat.pow_succ] at hm; exact hm
    rcases Nat.lt_or_ge (n / 10) (m / 10) with hlt | hge
    · exact leStr_append_lt (by simp [digits_length]) (ih hm' hlt) _ _
    · have he : m / 10 = n / 10 := by
        have : n / 10 ≤ m / 10 := Nat.div_le_div_right (by omega)
        omega
      rw [he, leStr_append_left]
      have hd : n % 10 < m % 10 := by omega
      have h1 := digit_toNat m
      have h2 := digit_toNat n
      have h3 : ¬ (digit m).toNat < (digit n).toNat := by omega
      have h4 : digit m ≠ digit n := by
        intro e; rw [e] at h1; omega
      simp [leStr, h3, h4]

/-! ## The whole of `Save` -/

/-- Assumptions on the file names: the temporary name is new and is neither the database nor one of
its backups (`ioutil.TempFile` appends random digits to the base name and never reuses a name). -/
structure TmpOK (i : DB) (tmp : Str) : Prop where
  ne_base : tmp ≠ i.base
  not_backup : ¬ (i.base ++ ['.']) <+: tmp

theorem backup_prefix (base stamp : Str) : (base ++ ['.']) <+: backupName base stamp :=
  ⟨stamp, rfl⟩

/-- The directory after all the renames. -/
theorem runFs_main {i : DB} {d : Dir} {tmp stamp : Str} {order : List (Str × List (Str × Str))}
    (ht : TmpOK i tmp) (hb : i.created = true ∨ (d.get i.base).isSome) :
    (runFs d (mainOps i tmp stamp order)).2 = true ∧
    (runFs d (mainOps i tmp stamp order)).1.get i.base = some (text order) ∧
    (∀ x, x ≠ i.base → x ≠ tmp → (i.created = false → x ≠ backupName i.base stamp) →
      (runFs d (mainOps i tmp stamp order)).1.get x = d.get x) ∧
    (runFs d (mainOps i tmp stamp order)).1.get tmp = none ∧
    (i.created = false → (runFs d (mainOps i tmp stamp order)).1.get (backupName i.base stamp) = d.get i.base) := by
  obtain ⟨h1, h2, h3⟩ := runFs_write d tmp (text order)
  have hbb : backupName i.base stamp ≠ i.base := prefix_ne _ _ (backup_prefix _ _)
  have htb : tmp ≠ backupName i.base stamp := fun e => ht.not_backup (e ▸ backup_prefix _ _)
  have hne := ht.ne_base
  generalize hD : (runFs d (writeOps tmp (text order))).1 = D at h2 h3
  have hm : runFs d (mainOps i tmp stamp order) = runFs D (renameOps i tmp stamp) := by
    rw [mainOps, runFs_append, h1, if_pos rfl, hD]
  rw [hm]
  by_cases hc : i.created = true
  · have : runFs D (renameOps i tmp stamp) = ((D.del tmp).set i.base (text order), true) := by
      simp [renameOps, hc, runFs, FsOp.exec, h2]
    rw [this]
    refine ⟨rfl, by simp, fun x hx hxt _ => ?_, ?_, by simp [hc]⟩
    · rw [GoMap.get_set_ne _ _ (Ne.symm hx), GoMap.get_del_ne _ (Ne.symm hxt), h3 x hxt]
    · rw [GoMap.get_set_ne _ _ (Ne.symm hne)]; simp
  · have hc' : i.created = false := by simpa using hc
    have hsome : (d.get i.base).isSome := by simpa [hc'] using hb
    obtain ⟨old, hold⟩ := Option.isSome_iff_exists.1 hsome
    have hDb : D.get i.base = some old := by rw [h3 _ (Ne.symm hne), hold]
    have h4 : ((D.del i.base).set (backupName i.base stamp) old).get tmp = some (text order) := by
      rw [GoMap.get_set_ne _ _ (Ne.symm htb), GoMap.get_del_ne _ (Ne.symm hne), h2]
    have : runFs D (renameOps i tmp stamp) =
        ((((D.del i.base).set (backupName i.base stamp) old).del tmp).set i.base (text order), true) := by
      simp [renameOps, hc', runFs, FsOp.exec, hDb, h4]
    rw [this]
    refine ⟨rfl, by simp, fun x hx hxt hxb => ?_, ?_, fun _ => ?_⟩
    · rw [GoMap.get_set_ne _ _ (Ne.symm hx), GoMap.get_del_ne _ (Ne.symm hxt),
        GoMap.get_set_ne _ _ (Ne.symm (hxb hc')), GoMap.get_del_ne _ (Ne.symm hx), h3 x hxt]
    · rw [GoMap.get_set_ne _ _ (Ne.symm hne)]; simp
    · rw [GoMap.get_set_ne _ _ (Ne.symm hbb), GoMap.get_del_ne _ htb, GoMap.get_set_self, hold]

/-- `Save` of a dirty database: what is written and what is pruned. -/
theorem save_spec {i : DB} {d : Dir} {tmp stamp : Str} {order : List (Str × List (Str × Str))}
    (hd : i.dirty = true) (ht : TmpOK i tmp) (hb : i.created = true ∨ (d.get i.base).isSome) :
    (save i d tmp stamp order).1 = true ∧ (save i d tmp stamp order).2.1 = { i with dirty := false } ∧
    ∀ x, (save i d tmp stamp order).2.2.get x =
      if x ∈ pruneList (runFs d (mainOps i tmp stamp order)).1 i.base i.depth then none
      else (runFs d (mainOps i tmp stamp order)).1.get x := by
  obtain ⟨h1, _⟩ := runFs_main (order := order) (stamp := stamp) ht hb
  have hops : saveOps i d tmp stamp order = mainOps i tmp stamp order ++
      (pruneList (runFs d (mainOps i tmp stamp order)).1 i.base i.depth).map FsOp.remove := by
    simp [saveOps, hd, h1]
  have hr : runFs d (saveOps i d tmp stamp order) = runFs (runFs d (mainOps i tmp stamp order)).1
      ((pruneList (runFs d (mainOps i tmp stamp order)).1 i.base i.depth).map FsOp.remove) := by
    rw [hops, runFs_append, h1, if_pos rfl]
  have hrem := runFs_removes (runFs d (mainOps i tmp stamp order)).1
    (pruneList (runFs d (mainOps i tmp stamp order)).1 i.base i.depth)
  unfold save
  simp only [hr]
  refine ⟨hrem.1, by simp [hrem.1], hrem.2⟩

theorem save_base {i : DB} {d : Dir} {tmp stamp : Str} {order : List (Str × List (Str × Str))}
    (hd : i.dirty = true) (ht : TmpOK i tmp) (hb : i.created = true ∨ (d.get i.base).isSome) :
    (save i d tmp stamp order).2.2.get i.base = some (text order) := by
  rw [(save_spec hd ht hb).2.2, if_neg, (runFs_main ht hb).2.1]
  intro h
  exact prefix_ne _ _ ((mem_pruneCandidates _ _ _).1 (pruneList_sub _ _ _ h)).2 rfl

end Verif.IniDB
