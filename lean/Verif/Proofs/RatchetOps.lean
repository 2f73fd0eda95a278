import Verif.Proofs.RatchetKeys

/-! What the individual functions of the ratchet do, in terms of lookups in `saved`. -/

namespace Verif.Ratchet

open Verif

/-- Look up a saved message key. -/
def get2 (s : Saved) (h : Key) (n : Nat) : Option SavedKey := (s.get h).bind fun m => GoMap.get m n

/-- No map has two entries for one key. -/
def WFS (s : Saved) : Prop := GoMap.WF s ∧ ∀ h m, GoMap.get s h = some m → GoMap.WF m

theorem wfs_nil : WFS [] := ⟨GoMap.wf_nil, fun h m hh => by simp at hh⟩

@[simp] theorem get2_nil (h : Key) (n : Nat) : get2 [] h n = none := rfl

/-! ## trySavedKeys -/

theorem tryLoop_junk (all : Saved) (hn i : Nat) (m : MBox) :
    ∀ l, tryLoop all hn (.junk i) m l = .nothing
  | [] => rfl
  | (_, _) :: l => by simp only [tryLoop, openH]; exact tryLoop_junk all hn i m l

theorem tryLoop_nonce (all : Saved) {hn n : Nat} {k : Key} {h : Header} (m : MBox) (hne : n ≠ hn) :
    ∀ l, tryLoop all hn (.sealed k n h) m l = .nothing
  | [] => rfl
  | (_, _) :: l => by
    have : ∀ k', openH k' hn (.sealed k n h) = none := by
      intro k'; simp [openH, hne]
    simp only [tryLoop, this]
    exact tryLoop_nonce all m hne l

/-- Only the entry for the header's own key matters, whatever the order. -/
theorem tryLoop_sealed (all : Saved) (hn : Nat) (k : Key) (h : Header) (m : MBox) :
    ∀ l : Saved, tryLoop all hn (.sealed k hn h) m l =
      match GoMap.get l k with
      | none => .nothing
      | some keys =>
        match GoMap.get keys h.num with
        | none => .nothing
        | some sk =>
          match openM sk.key h.nonce m with
          | none => .failed
          | some msg =>
            .opened msg (if keys.del h.num = [] then all.del k else all.set k (keys.del h.num))
  | [] => rfl
  | (k', keys) :: l => by
    simp only [tryLoop, openH, GoMap.get]
    by_cases hk : k' = k
    · subst hk
      simp only [and_self, if_true]
      rcases GoMap.get keys h.num with _ | v
      · rfl
      · simp only []
        rcases openM v.key h.nonce m with _ | _ <;> rfl
    · have hk' : ¬ (k = k') := fun h => hk h.symm
      simp only [hk', false_and, if_false, hk]
      exact tryLoop_sealed all hn k h m l

/-- The map after a saved key has been used. -/
theorem get2_used (s : Saved) {k : Key} {keys : GoMap Nat SavedKey} (n : Nat)
    (hk : GoMap.get s k = some keys) (h' : Key) (n' : Nat) :
    get2 (if keys.del n = [] then s.del k else s.set k (keys.del n)) h' n' =
      if h' = k ∧ n' = n then none else get2 s h' n' := by
  unfold get2
  by_cases he : keys.del n = []
  · rw [if_pos he]
    rw [GoMap.get_del]
    by_cases hh : k = h'
    · subst hh
      simp only [if_true, Option.bind_none, hk, Option.bind_some, true_and]
      by_cases hn : n' = n
      · simp [hn]
      · rw [if_neg hn, ← GoMap.get_del_ne keys (Ne.symm hn), he]; rfl
    · have : ¬ (h' = k) := fun h => hh h.symm
      simp [hh, this]
  · rw [if_neg he, GoMap.get_set]
    by_cases hh : k = h'
    · subst hh
      simp only [if_true, hk, Option.bind_some, true_and]
      rw [GoMap.get_del]
      by_cases hn : n' = n
      · simp [hn]
      · simp [hn, Ne.symm hn]
    · have : ¬ (h' = k) := fun h => hh h.symm
      simp [hh, this]

theorem wfs_used {s : Saved} (hw : WFS s) {k : Key} {keys : GoMap Nat SavedKey} (n : Nat)
    (hk : GoMap.get s k = some keys) :
    WFS (if keys.del n = [] then s.del k else s.set k (keys.del n)) := by
  split
  · refine ⟨GoMap.wf_del hw.1 k, ?_⟩
    intro h m hm
    rw [GoMap.get_del] at hm
    split at hm
    · simp at hm
    · exact hw.2 h m hm
  · refine ⟨GoMap.wf_set hw.1 k _, ?_⟩
    intro h m hm
    rw [GoMap.get_set] at hm
    split at hm
    · simp at hm; subst hm; exact GoMap.wf_del (hw.2 k keys hk) n
    · exact hw.2 h m hm

/-! ## saveKeys -/

theorem advance_spec (sk : Key) (p : Nat → Nat) (j : Nat) (now : Int) : ∀ (missing n : Nat),
    (advance (ck sk p j n) n now missing).1 = ck sk p j (n + missing + 1) ∧
    (advance (ck sk p j n) n now missing).2.1 = mk sk p j (n + missing) ∧
    (∀ i, GoMap.get (advance (ck sk p j n) n now missing).2.2 i =
      if n ≤ i ∧ i < n + missing then some ⟨mk sk p j i, now⟩ else none)
  | 0, n => by
    refine ⟨rfl, rfl, ?_⟩
    intro i
    have : ¬ (n ≤ i ∧ i < n + 0) := by omega
    rw [if_neg this]; rfl
  | m + 1, n => by
    obtain ⟨h1, h2, h3⟩ := advance_spec sk p j now m (n + 1)
    have hck : Key.hmac .chainKeyStep (ck sk p j n) = ck sk p j (n + 1) := rfl
    simp only [advance, hck]
    refine ⟨by rw [h1]; congr 1; omega, by rw [h2]; congr 1; omega, ?_⟩
    intro i
    rw [GoMap.get_cons, h3]
    by_cases hi : n = i
    · subst hi
      have : n ≤ n ∧ n < n + (m + 1) := by omega
      rw [if_pos rfl, if_pos this]; rfl
    · rw [if_neg hi]
      by_cases hc : n + 1 ≤ i ∧ i < n + 1 + m
      · rw [if_pos hc, if_pos (by omega)]
      · rw [if_neg hc, if_neg (by omega)]

theorem advance_keys (now : Int) : ∀ (missing n : Nat) (c : Key),
    GoMap.keys (advance c n now missing).2.2 = List.range' n missing
  | 0, _, _ => rfl
  | m + 1, n, c => by
    have := advance_keys now m (n + 1) (.hmac .chainKeyStep c)
    simp only [GoMap.keys] at this
    simp only [advance, GoMap.keys, List.map_cons, this]
    rfl

theorem advance_wf (now : Int) (missing n : Nat) (c : Key) :
    GoMap.WF (advance c n now missing).2.2 := by
  unfold GoMap.WF
  rw [advance_keys]
  exact List.nodup_range'

theorem advance_length (now : Int) (missing n : Nat) (c : Key) :
    (advance c n now missing).2.2.length = missing := by
  have := congrArg List.length (advance_keys now missing n c)
  simpa [GoMap.keys] using this

theorem saveKeys_ok {h c : Key} {num cnt : Nat} {now : Int} (h1 : cnt ≤ num)
    (h2 : num - cnt ≤ maxMissing) (h3 : num + 1 < u32) :
    saveKeys h c num cnt now = .ok ((advance c cnt now (num - cnt)).1,
      (advance c cnt now (num - cnt)).2.1,
      if num - cnt = 0 then none else some (h, (advance c cnt now (num - cnt)).2.2)) := by
  unfold saveKeys
  rw [if_neg (by omega)]
  simp only []
  rw [if_neg (by omega), if_neg (by omega)]

theorem saveKeys_inv {h c : Key} {num cnt : Nat} {now : Int} {x}
    (hs : saveKeys h c num cnt now = .ok x) :
    cnt ≤ num ∧ num - cnt ≤ maxMissing ∧ num + 1 ≠ u32 ∧
    x = ((advance c cnt now (num - cnt)).1, (advance c cnt now (num - cnt)).2.1,
      if num - cnt = 0 then none else some (h, (advance c cnt now (num - cnt)).2.2)) := by
  unfold saveKeys at hs
  split at hs
  · simp at hs
  · simp only [] at hs
    split at hs
    · simp at hs
    · split at hs
      · split at hs <;> simp at hs
      · simp only [Res.ok.injEq] at hs
        refine ⟨by omega, by omega, by assumption, hs.symm⟩

theorem saveKeys_err {h c : Key} {num cnt : Nat} {now : Int} (hlt : num < cnt) :
    saveKeys h c num cnt now = .err := by
  unfold saveKeys; rw [if_pos hlt]

/-! ## mergeSavedKeys -/

theorem get_foldl_set {new : GoMap Nat SavedKey} (hw : GoMap.WF new) (old : GoMap Nat SavedKey)
    (n : Nat) :
    GoMap.get (new.foldl (fun m e => GoMap.set m e.1 e.2) old) n =
      match GoMap.get new n with
      | some v => some v
      | none => GoMap.get old n := by
  induction new generalizing old with
  | nil => rfl
  | cons a new ih =>
    obtain ⟨k, v⟩ := a
    have hnd : k ∉ GoMap.keys new ∧ (GoMap.keys new).Nodup := List.nodup_cons.mp hw
    rw [List.foldl_cons, ih hnd.2, GoMap.get_cons, GoMap.get_set]
    by_cases hk : k = n
    · subst hk
      have : GoMap.get new k = none := (GoMap.not_mem_keys_iff new k).mp hnd.1
      simp [this]
    · simp [hk]

theorem wf_foldl_set (new : GoMap Nat SavedKey) {old : GoMap Nat SavedKey} (ho : GoMap.WF old) :
    GoMap.WF (new.foldl (fun m e => GoMap.set m e.1 e.2) old) := by
  induction new generalizing old with
  | nil => exact ho
  | cons a new ih => exact ih (GoMap.wf_set ho _ _)

theorem get2_merge (s : Saved) {k : Key} {new : GoMap Nat SavedKey} (hw : GoMap.WF new)
    (h' : Key) (n : Nat) :
    get2 (mergeSavedKeys s (some (k, new))) h' n =
      if h' = k then
        match GoMap.get new n with
        | some v => some v
        | none => get2 s h' n
      else get2 s h' n := by
  simp only [mergeSavedKeys]
  split
  · rename_i hs
    unfold get2
    rw [GoMap.get_set]
    by_cases hh : k = h'
    · subst hh
      simp only [if_true, Option.bind_some, hs, Option.bind_none]
      split <;> simp_all
    · have : ¬ (h' = k) := fun h => hh h.symm
      simp [hh, this]
  · rename_i old hs
    unfold get2
    rw [GoMap.get_set]
    by_cases hh : k = h'
    · subst hh
      simp only [if_true, Option.bind_some, hs]
      rw [get_foldl_set hw]
    · have : ¬ (h' = k) := fun h => hh h.symm
      simp [hh, this]

theorem wfs_merge {s : Saved} (hs : WFS s) {k : Key} {new : GoMap Nat SavedKey}
    (hw : GoMap.WF new) : WFS (mergeSavedKeys s (some (k, new))) := by
  simp only [mergeSavedKeys]
  split
  · refine ⟨GoMap.wf_set hs.1 _ _, ?_⟩
    intro h m hm
    rw [GoMap.get_set] at hm
    split at hm
    · simp at hm; subst hm; exact hw
    · exact hs.2 h m hm
  · rename_i old ho
    refine ⟨GoMap.wf_set hs.1 _ _, ?_⟩
    intro h m hm
    rw [GoMap.get_set] at hm
    split at hm
    · simp at hm; subst hm; exact wf_foldl_set new (hs.2 _ _ ho)
    · exact hs.2 h m hm

/-- What `saveKeys` then `mergeSavedKeys` do to the map: the skipped keys of the chain are
added. -/
theorem get2_save (sk : Key) (p : Nat → Nat) (j cnt num : Nat) (now : Int) (s : Saved) (k : Key)
    (hle : cnt ≤ num) (h' : Key) (n : Nat) :
    get2 (mergeSavedKeys s (if num - cnt = 0 then none else
        some (k, (advance (ck sk p j cnt) cnt now (num - cnt)).2.2))) h' n =
      if h' = k ∧ cnt ≤ n ∧ n < num then some ⟨mk sk p j n, now⟩ else get2 s h' n := by
  by_cases h0 : num - cnt = 0
  · rw [if_pos h0]
    have : ¬ (h' = k ∧ cnt ≤ n ∧ n < num) := by omega
    rw [if_neg this]; rfl
  · rw [if_neg h0, get2_merge s (advance_wf now _ _ _), (advance_spec sk p j now _ _).2.2]
    have : cnt + (num - cnt) = num := by omega
    rw [this]
    by_cases hk : h' = k
    · rw [if_pos hk]
      by_cases hn : cnt ≤ n ∧ n < num
      · rw [if_pos hn, if_pos ⟨hk, hn⟩]
      · rw [if_neg hn, if_neg (by rintro ⟨_, h⟩; exact hn h)]
    · rw [if_neg hk, if_neg (by rintro ⟨h, _⟩; exact hk h)]

theorem wfs_save (c : Key) (cnt num : Nat) (now : Int) {s : Saved} (hs : WFS s) (k : Key) :
    WFS (mergeSavedKeys s (if num - cnt = 0 then none else
        some (k, (advance c cnt now (num - cnt)).2.2))) := by
  split
  · exact hs
  · exact wfs_merge hs (advance_wf now _ _ _)

end Verif.Ratchet
