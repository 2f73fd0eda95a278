import Verif.Model.Presence
import Verif.Proofs.GoMap

/-! # C143: what users see of each other through the server

`C143_same_view`: whatever happened, what a set of users got from the server is determined by the events that are not
hidden. -/

namespace Verif.Presence

open Verif.Accounts

/-! ## What is to be hidden -/

/-- Events that the users in `A` are not to see, even if they compare what they got: when others come and go, what they
write to others, what they are sent, read, and look up. `listed` are users that have been online before; `dir`: the
server has a directory. -/
def hidden (A : Id → Bool) (dir : Bool) (listed : List Id) : Ev → Bool
  | .login who => !A who && (!dir || who ∈ listed)
  | .logout who => !A who
  | .send who dst .. => !A who && !A dst
  | .announce who => !A who
  | .ack who _ => !A who
  | .find who _ => !A who
  | .pull who _ => !A who
  | _ => false

/-- What the users in `A` got. -/
def view (A : Id → Bool) (o : List (Id × Out)) : List (Id × Out) := o.filter fun p => A p.1

/-- No two events at the same time. -/
def Increasing (h : List (Name × Ev)) : Prop := h.Pairwise fun x y => x.1 < y.1

/-- All files are from before `n`. -/
def Before (s : State) (n : Name) : Prop :=
  ∀ id a c m, (s.acc.enabled.get id = some a ∨ s.acc.disabled.get id = some a) → a.cache = some c →
    (c.get m).isSome → m < n

/-- Whatever account somebody has is in the directory. -/
def Listed (s : State) (id : Id) : Prop :=
  ∀ a, (s.acc.enabled.get id = some a ∨ s.acc.disabled.get id = some a) → ∀ u, a.user = some u → u.listed = true

/-- An account is made for one of these. -/
def registers (listed : List Id) : Ev → Bool
  | .register pid => pid.identity ∈ listed
  | _ => false

/-! ## States that look the same -/

/-- The same for outsiders, and all the same for those in `A`. -/
def ASim (b : Bool) (x y : Acct) : Prop :=
  x.user = y.user ∧ x.cache.isSome = y.cache.isSome ∧ (b = true → x = y)

def OSim (b : Bool) : Option Acct → Option Acct → Prop
  | none, none => True
  | some x, some y => ASim b x y
  | _, _ => False

structure AccSim (A : Id → Bool) (s t : Accounts.State) : Prop where
  en : ∀ id, OSim (A id) (s.enabled.get id) (t.enabled.get id)
  dis : ∀ id, OSim (A id) (s.disabled.get id) (t.disabled.get id)

structure Sim (A : Id → Bool) (s t : State) : Prop where
  acc : AccSim A s.acc t.acc
  on : ∀ id, A id = true → s.online id = t.online id
  pins : s.pins = t.pins

theorem OSim.refl (b : Bool) (x : Option Acct) : OSim b x x := by
  cases x with
  | none => trivial
  | some a => exact ⟨rfl, rfl, fun _ => rfl⟩

theorem OSim.symm {b : Bool} {x y : Option Acct} (h : OSim b x y) : OSim b y x := by
  cases x <;> cases y
  · trivial
  · exact h
  · exact h
  · exact ⟨h.1.symm, h.2.1.symm, fun hb => (h.2.2 hb).symm⟩

theorem OSim.trans {b : Bool} {x y z : Option Acct} (h : OSim b x y) (g : OSim b y z) : OSim b x z := by
  cases x <;> cases y <;> cases z
  · trivial
  all_goals first | exact h.elim | exact g.elim | skip
  exact ⟨h.1.trans g.1, h.2.1.trans g.2.1, fun hb => (h.2.2 hb).trans (g.2.2 hb)⟩

theorem Sim.refl (A : Id → Bool) (s : State) : Sim A s s :=
  ⟨⟨fun _ => .refl _ _, fun _ => .refl _ _⟩, fun _ _ => rfl, rfl⟩

theorem Sim.symm {A : Id → Bool} {s t : State} (h : Sim A s t) : Sim A t s :=
  ⟨⟨fun i => (h.acc.en i).symm, fun i => (h.acc.dis i).symm⟩, fun i hi => (h.on i hi).symm, h.pins.symm⟩

theorem Sim.trans {A : Id → Bool} {s t u : State} (h : Sim A s t) (g : Sim A t u) : Sim A s u :=
  ⟨⟨fun i => (h.acc.en i).trans (g.acc.en i), fun i => (h.acc.dis i).trans (g.acc.dis i)⟩,
    fun i hi => (h.on i hi).trans (g.on i hi), h.pins.trans g.pins⟩

theorem OSim.isSome {b : Bool} {x y : Option Acct} (h : OSim b x y) : x.isSome = y.isSome := by
  cases x <;> cases y <;> first | rfl | exact h.elim

theorem OSim.user {b : Bool} {x y : Option Acct} (h : OSim b x y) : x.map Acct.user = y.map Acct.user := by
  cases x <;> cases y
  · rfl
  · exact h.elim
  · exact h.elim
  · exact congrArg some h.1

/-- `Find` looks only at `user.ini`. -/
theorem find_congr (l l' : List Acct) (h : l.map Acct.user = l'.map Acct.user) (nick : Bytes) :
    find l nick = find l' nick := by
  induction l generalizing l' with
  | nil =>
    cases l' with
    | nil => rfl
    | cons => cases h
  | cons a r ih =>
    cases l' with
    | nil => cases h
    | cons b r' =>
      have h1 : a.user = b.user := (List.cons.inj h).1
      have h2 := ih r' (List.cons.inj h).2
      simp only [find, h1, h2]

theorem filterMap_users (l : List Id) (f g : Id → Option Acct) (h : ∀ i, (f i).map Acct.user = (g i).map Acct.user) :
    (l.filterMap f).map Acct.user = (l.filterMap g).map Acct.user := by
  rw [List.map_filterMap, List.map_filterMap]
  exact congrArg (fun k => l.filterMap k) (funext h)

theorem Sim.find {A : Id → Bool} {s t : State} (h : Sim A s t) (cfg : Config) (nick : Bytes) :
    Accounts.find (listing cfg s.acc) nick = Accounts.find (listing cfg t.acc) nick := by
  apply find_congr
  unfold listing
  rw [List.map_append, List.map_append, filterMap_users _ _ _ fun i => (h.acc.dis i).user,
    filterMap_users _ _ _ fun i => (h.acc.en i).user]

theorem Sim.isDisabled {A : Id → Bool} {s t : State} (h : Sim A s t) (id : Id) :
    s.acc.isDisabled id = t.acc.isDisabled id := (h.acc.dis id).isSome

theorem Sim.isEnabled {A : Id → Bool} {s t : State} (h : Sim A s t) (id : Id) :
    s.acc.isEnabled id = t.acc.isEnabled id := (h.acc.en id).isSome

theorem Sim.admit {A : Id → Bool} {s t : State} (h : Sim A s t) (id : Id) :
    Accounts.admit s.acc id = Accounts.admit t.acc id := by
  unfold Accounts.admit; rw [h.isDisabled, h.isEnabled]

theorem Sim.createCheck {A : Id → Bool} {s t : State} (h : Sim A s t) (cfg : Config) (pid : Pub) :
    Accounts.createCheck s.acc (listing cfg s.acc) pid false = Accounts.createCheck t.acc (listing cfg t.acc) pid false := by
  have := (h.acc.en pid.identity).isSome
  unfold Accounts.createCheck; rw [h.find cfg, this]

/-- A map changed at one place in both. -/
theorem osim_set {A : Id → Bool} {m m' : GoMap Id Acct} (h : ∀ i, OSim (A i) (m.get i) (m'.get i)) (k : Id) (x y : Acct)
    (hx : ASim (A k) x y) (i : Id) : OSim (A i) ((m.set k x).get i) ((m'.set k y).get i) := by
  rw [GoMap.get_set, GoMap.get_set]
  by_cases e : k = i
  · subst e; rw [if_pos rfl, if_pos rfl]; exact hx
  · rw [if_neg e, if_neg e]; exact h i

theorem osim_del {A : Id → Bool} {m m' : GoMap Id Acct} (h : ∀ i, OSim (A i) (m.get i) (m'.get i)) (k : Id)
    (i : Id) : OSim (A i) ((m.del k).get i) ((m'.del k).get i) := by
  rw [GoMap.get_del, GoMap.get_del]
  by_cases e : k = i
  · rw [if_pos e, if_pos e]; trivial
  · rw [if_neg e, if_neg e]; exact h i

/-- A map changed at one place to the like. -/
theorem osim_own {A : Id → Bool} (m : GoMap Id Acct) (k : Id) (x y : Acct) (hk : m.get k = some y) (hx : ASim (A k) x y)
    (i : Id) : OSim (A i) ((m.set k x).get i) (m.get i) := by
  rw [GoMap.get_set]
  by_cases e : k = i
  · subst e; rw [if_pos rfl, hk]; exact hx
  · rw [if_neg e]; exact .refl _ _

/-! ## One step from two states -/

theorem OSim.cache {b : Bool} {x y : Option Acct} (h : OSim b x y) :
    (x.bind Acct.cache).isSome = (y.bind Acct.cache).isSome := by
  cases x <;> cases y <;> first | rfl | exact h.elim | exact h.2.1

theorem putFile_sim {A : Id → Bool} {s t : Accounts.State} (h : AccSim A s t) (dst : Id) (n : Name) (f : Bytes) :
    AccSim A (putFile s dst n f) (putFile t dst n f) := by
  unfold putFile
  have hd := h.en dst
  cases hs : s.enabled.get dst <;> cases ht : t.enabled.get dst <;> rw [hs, ht] at hd
  · exact h
  · exact hd.elim
  · exact hd.elim
  · refine ⟨osim_set h.en dst _ _ ⟨hd.1, ?_, fun hb => ?_⟩, h.dis⟩
    · rw [Option.isSome_map, Option.isSome_map]; exact hd.2.1
    · rw [hd.2.2 hb]

theorem deliverWrite_sim {A : Id → Bool} {s t : Accounts.State} (h : AccSim A s t) (dst : Id) (n : Name)
    (m : Stored.DiskMessage) (w : Write) :
    (deliverWrite s dst n m w).1 = (deliverWrite t dst n m w).1 ∧
      AccSim A (deliverWrite s dst n m w).2 (deliverWrite t dst n m w).2 := by
  have hc := (h.en dst).cache
  unfold deliverWrite
  cases hs : (s.enabled.get dst).bind Acct.cache <;> cases ht : (t.enabled.get dst).bind Acct.cache <;> rw [hs, ht] at hc
  · exact ⟨rfl, h⟩
  · cases hc
  · cases hc
  · cases w with
    | ok => exact ⟨rfl, putFile_sim h ..⟩
    | fail => exact ⟨rfl, h⟩
    | short k => exact ⟨rfl, putFile_sim h ..⟩

/-- Nothing is in the way of a new name. -/
theorem deliverCheck_new {s : State} {n : Name} (hb : Before s n) (dst : Id) : deliverCheck s.acc dst n = true := by
  unfold deliverCheck
  cases hs : s.acc.enabled.get dst with
  | none => rfl
  | some a =>
    cases hc : a.cache with
    | none => simp [hc]
    | some c =>
      simp only [Option.bind_some, hc]
      cases hg : c.get n with
      | none => rfl
      | some f => exact absurd (hb dst a c n (.inl hs) hc (by rw [hg]; rfl)) (Nat.lt_irrefl n)

theorem setOnline_sim {A : Id → Bool} {s t : State} (h : Sim A s t) (who : Id) (v w : Option (List Name))
    (hv : A who = true → v = w) : Sim A (setOnline s who v) (setOnline t who w) := by
  refine ⟨h.acc, fun i hi => ?_, h.pins⟩
  unfold setOnline
  dsimp only
  by_cases e : i = who
  · subst e; rw [if_pos rfl, if_pos rfl]; exact hv hi
  · rw [if_neg e, if_neg e]; exact h.on i hi

theorem withAcc_sim {A : Id → Bool} {s t : State} (h : Sim A s t) {a b : Accounts.State} (hab : AccSim A a b) :
    Sim A { s with acc := a } { t with acc := b } := ⟨hab, h.on, h.pins⟩

theorem push_sim {A : Id → Bool} {s t : Accounts.State} (h : AccSim A s t) (id : Id) :
    (push s id).1 = (push t id).1 ∧ AccSim A (push s id).2 (push t id).2 := by
  unfold push setListed
  have hd := h.en id
  cases hs : s.enabled.get id <;> cases ht : t.enabled.get id <;> rw [hs, ht] at hd
  · exact ⟨rfl, h⟩
  · exact hd.elim
  · exact hd.elim
  · rename_i x y
    dsimp only
    rw [hd.1]
    cases hu : y.user with
    | none => exact ⟨rfl, h⟩
    | some u =>
      refine ⟨rfl, osim_set h.en id _ _ ⟨rfl, hd.2.1, fun hb => ?_⟩, h.dis⟩
      rw [hd.2.2 hb]

theorem disable_sim {A : Id → Bool} {s t : Accounts.State} (h : AccSim A s t) (id : Id) :
    (disable s id).1 = (disable t id).1 ∧ AccSim A (disable s id).2 (disable t id).2 := by
  unfold disable
  have hd := h.en id
  rw [← (h.dis id).isSome]
  by_cases hi : (s.disabled.get id).isSome = true
  · rw [if_pos hi, if_pos hi]; exact ⟨rfl, h⟩
  · rw [if_neg hi, if_neg hi]
    cases hs : s.enabled.get id <;> cases ht : t.enabled.get id <;> rw [hs, ht] at hd
    · exact ⟨rfl, h⟩
    · exact hd.elim
    · exact hd.elim
    · exact ⟨rfl, osim_del h.en id, osim_set h.dis id _ _ hd⟩

theorem enable_sim {A : Id → Bool} {s t : Accounts.State} (h : AccSim A s t) (id : Id) :
    AccSim A (enable s id).2 (enable t id).2 := by
  unfold enable
  have hd := h.dis id
  rw [← (h.en id).isSome]
  cases hs : s.disabled.get id <;> cases ht : t.disabled.get id <;> rw [hs, ht] at hd
  · exact h
  · exact hd.elim
  · exact hd.elim
  · by_cases hi : (s.enabled.get id).isSome = true
    · dsimp only; rw [if_pos hi, if_pos hi]; exact h
    · dsimp only; rw [if_neg hi, if_neg hi]; exact ⟨osim_set h.en id _ _ hd, osim_del h.dis id⟩

/-- `Delete` of somebody's own message. -/
theorem delete_sim {A : Id → Bool} {s t : Accounts.State} (h : AccSim A s t) (id : Id) (n : Name) (hid : A id = true) :
    (delete s id n).1 = (delete t id n).1 ∧ AccSim A (delete s id n).2 (delete t id n).2 := by
  unfold delete
  have hd := h.en id
  cases hs : s.enabled.get id <;> cases ht : t.enabled.get id <;> rw [hs, ht] at hd
  · exact ⟨rfl, h⟩
  · exact hd.elim
  · exact hd.elim
  · rename_i x y
    have e := hd.2.2 hid
    subst e
    dsimp only
    cases hc : x.cache with
    | none => exact ⟨rfl, h⟩
    | some c =>
      dsimp only
      split
      · exact ⟨rfl, osim_set h.en id _ _ ⟨rfl, rfl, fun _ => rfl⟩, h.dis⟩
      · exact ⟨rfl, h⟩

/-- `Delete` of a message of others changes nothing for `A`. -/
theorem delete_other {A : Id → Bool} (s : Accounts.State) (id : Id) (n : Name) (hid : A id = false) :
    AccSim A (delete s id n).2 s := by
  have h : AccSim A s s := ⟨fun _ => .refl _ _, fun _ => .refl _ _⟩
  unfold delete
  cases hs : s.enabled.get id with
  | none => exact h
  | some x =>
    dsimp only
    cases hc : x.cache with
    | none => exact h
    | some c =>
      dsimp only
      split
      · exact ⟨osim_own _ id _ x hs ⟨rfl, by rw [hc]; rfl, fun hb => by rw [hid] at hb; cases hb⟩, h.dis⟩
      · exact h

theorem putFile_other {A : Id → Bool} (s : Accounts.State) (id : Id) (n : Name) (f : Bytes) (hid : A id = false) :
    AccSim A (putFile s id n f) s := by
  have h : AccSim A s s := ⟨fun _ => .refl _ _, fun _ => .refl _ _⟩
  unfold putFile
  cases hs : s.enabled.get id with
  | none => exact h
  | some x =>
    exact ⟨osim_own _ id _ x hs ⟨rfl, Option.isSome_map .., fun hb => by rw [hid] at hb; cases hb⟩, h.dis⟩

theorem deliverWrite_other {A : Id → Bool} (s : Accounts.State) (dst : Id) (n : Name) (m : Stored.DiskMessage)
    (w : Write) (hid : A dst = false) : AccSim A (deliverWrite s dst n m w).2 s := by
  have h : AccSim A s s := ⟨fun _ => .refl _ _, fun _ => .refl _ _⟩
  unfold deliverWrite
  cases (s.enabled.get dst).bind Acct.cache with
  | none => exact h
  | some c =>
    cases w with
    | ok => exact putFile_other s dst n _ hid
    | fail => exact h
    | short k => exact putFile_other s dst n _ hid

/-- Being put into the directory again changes nothing. -/
theorem push_listed {A : Id → Bool} (s : Accounts.State) (id : Id)
    (hl : ∀ a u, s.enabled.get id = some a → a.user = some u → u.listed = true) : AccSim A (push s id).2 s := by
  have h : AccSim A s s := ⟨fun _ => .refl _ _, fun _ => .refl _ _⟩
  unfold push setListed
  cases hs : s.enabled.get id with
  | none => exact h
  | some x =>
    dsimp only
    cases hu : x.user with
    | none => exact h
    | some u =>
      have hx : ({ x with user := some { u with listed := true } } : Acct) = x := by
        rw [← hl x u hs hu, show ({ u with listed := u.listed } : User) = u from rfl, ← hu]
      dsimp only
      rw [hx]
      exact ⟨osim_own _ id _ x hs ⟨rfl, rfl, fun _ => rfl⟩, h.dis⟩

/-! ## What a step does to accounts -/

/-- An account as it was, perhaps listed, perhaps with a new file. -/
def Grown (n : Name) (a0 a : Acct) : Prop :=
  (a.user = a0.user ∨ ∃ u, a0.user = some u ∧ a.user = some { u with listed := true }) ∧
    ∀ c, a.cache = some c → ∃ c0, a0.cache = some c0 ∧ ∀ m, (c.get m).isSome → (c0.get m).isSome ∨ m = n

theorem Grown.refl (n : Name) (a : Acct) : Grown n a a := ⟨.inl rfl, fun c hc => ⟨c, hc, fun _ h => .inl h⟩⟩

def Has (s : Accounts.State) (id : Id) (a : Acct) : Prop := s.enabled.get id = some a ∨ s.disabled.get id = some a

def Grew (n : Name) (s s' : Accounts.State) : Prop := ∀ id a, Has s' id a → ∃ a0, Has s id a0 ∧ Grown n a0 a

theorem Grew.refl (n : Name) (s : Accounts.State) : Grew n s s := fun _ a h => ⟨a, h, .refl n a⟩

theorem grew_set (n : Name) (s : Accounts.State) (k : Id) (x y : Acct) (hk : s.enabled.get k = some x) (hg : Grown n x y) :
    Grew n s { s with enabled := s.enabled.set k y } := by
  intro id a h
  rcases h with h | h
  · dsimp only at h
    rw [GoMap.get_set] at h
    by_cases e : k = id
    · subst e; rw [if_pos rfl] at h; cases h; exact ⟨x, .inl hk, hg⟩
    · rw [if_neg e] at h; exact ⟨a, .inl h, .refl n a⟩
  · exact ⟨a, .inr h, .refl n a⟩

theorem grew_putFile (n : Name) (s : Accounts.State) (k : Id) (f : Bytes) : Grew n s (putFile s k n f) := by
  unfold putFile
  cases hs : s.enabled.get k with
  | none => exact .refl n s
  | some x =>
    refine grew_set n s k x _ hs ⟨.inl rfl, fun c hc => ?_⟩
    cases hx : x.cache with
    | none => dsimp only at hc; rw [hx] at hc; cases hc
    | some c0 =>
      dsimp only at hc; rw [hx] at hc; cases hc
      refine ⟨c0, rfl, fun m hm => ?_⟩
      rw [GoMap.get_set] at hm
      by_cases e : n = m
      · exact .inr e.symm
      · rw [if_neg e] at hm; exact .inl hm

theorem grew_deliver (n : Name) (s : Accounts.State) (k : Id) (m : Stored.DiskMessage) (w : Write) :
    Grew n s (deliverWrite s k n m w).2 := by
  unfold deliverWrite
  cases (s.enabled.get k).bind Acct.cache with
  | none => exact .refl n s
  | some c =>
    cases w with
    | ok => exact grew_putFile n s k _
    | fail => exact .refl n s
    | short j => exact grew_putFile n s k _

theorem grew_push (n : Name) (s : Accounts.State) (k : Id) : Grew n s (push s k).2 := by
  unfold push setListed
  cases hs : s.enabled.get k with
  | none => exact .refl n s
  | some x =>
    dsimp only
    cases hu : x.user with
    | none => exact .refl n s
    | some u => exact grew_set n s k x _ hs ⟨.inr ⟨u, hu, rfl⟩, fun c hc => ⟨c, hc, fun _ h => .inl h⟩⟩

theorem grew_delete (n : Name) (s : Accounts.State) (k : Id) (m : Name) : Grew n s (delete s k m).2 := by
  unfold delete
  cases hs : s.enabled.get k with
  | none => exact .refl n s
  | some x =>
    dsimp only
    cases hc : x.cache with
    | none => exact .refl n s
    | some c =>
      dsimp only
      split
      · refine grew_set n s k x _ hs ⟨.inl rfl, fun c' hc' => ?_⟩
        cases hc'
        refine ⟨c, hc, fun j hj => .inl ?_⟩
        rw [GoMap.get_del] at hj
        split at hj
        · cases hj
        · exact hj
      · exact .refl n s

theorem grew_disable (n : Name) (s : Accounts.State) (k : Id) : Grew n s (disable s k).2 := by
  unfold disable
  split
  · exact .refl n s
  · cases hs : s.enabled.get k with
    | none => exact .refl n s
    | some x =>
      intro id a h
      rcases h with h | h
      · dsimp only at h
        rw [GoMap.get_del] at h
        split at h
        · cases h
        · exact ⟨a, .inl h, .refl n a⟩
      · dsimp only at h
        rw [GoMap.get_set] at h
        by_cases e : k = id
        · subst e; rw [if_pos rfl] at h; cases h; exact ⟨x, .inl hs, .refl n x⟩
        · rw [if_neg e] at h; exact ⟨a, .inr h, .refl n a⟩

theorem grew_enable (n : Name) (s : Accounts.State) (k : Id) : Grew n s (enable s k).2 := by
  unfold enable
  cases hs : s.disabled.get k with
  | none => exact .refl n s
  | some x =>
    dsimp only
    split
    · exact .refl n s
    · intro id a h
      rcases h with h | h
      · dsimp only at h
        rw [GoMap.get_set] at h
        by_cases e : k = id
        · subst e; rw [if_pos rfl] at h; cases h; exact ⟨x, .inr hs, .refl n x⟩
        · rw [if_neg e] at h; exact ⟨a, .inl h, .refl n a⟩
      · dsimp only at h
        rw [GoMap.get_del] at h
        split at h
        · cases h
        · exact ⟨a, .inr h, .refl n a⟩

theorem grew_proxy (n : Name) (s : Accounts.State) (who dst : Id) (p : Bytes) (t : Int) (w : Write) :
    Grew n s (handleProxy s s who dst p n t w).2 := by
  unfold handleProxy
  split
  · exact grew_deliver n s dst _ w
  · exact .refl n s

theorem grew_cache (n : Name) (s : Accounts.State) (who dst : Id) (p : Bytes) (t : Int) (w : Write) :
    Grew n s (handleCache s s who dst p n t w).2 := by
  unfold handleCache
  split
  · have h := grew_deliver n s dst ⟨who, t, p, false⟩ w
    revert h
    cases deliverWrite s dst n ⟨who, t, p, false⟩ w with
    | mk b a => intro h; cases b <;> exact h
  · exact .refl n s

/-- Accounts only grow, or are made. -/
theorem step_grew (cfg : Config) (s : State) (n : Name) (e : Ev) (id : Id) (a : Acct)
    (h : Has (step cfg s n e).1.acc id a) :
    (∃ a0, Has s.acc id a0 ∧ Grown n a0 a) ∨ ∃ pid, e = .register pid ∧ pid.identity = id ∧ a.cache = some [] := by
  cases e with
  | register pid =>
    simp only [step] at h
    split at h
    · rename_i hc
      rcases h with h | h
      · dsimp only at h
        rw [GoMap.get_set] at h
        by_cases e : pid.identity = id
        · rw [if_pos e] at h
          cases h
          refine .inr ⟨pid, rfl, e, ?_⟩
          unfold createCheck at hc
          split at hc
          · cases hc
          · cases hg : s.acc.enabled.get pid.identity with
            | none => rfl
            | some x => rw [hg] at hc; cases hc
        · rw [if_neg e] at h; exact .inl ⟨a, .inl h, .refl n a⟩
      · exact .inl ⟨a, .inr h, .refl n a⟩
    · exact .inl ⟨a, h, .refl n a⟩
  | login who =>
    left
    simp only [step] at h
    split at h
    · cases ho : s.online who with
      | some p => rw [ho] at h; exact ⟨a, h, .refl n a⟩
      | none =>
        rw [ho] at h
        dsimp only at h
        split at h
        · have g := grew_push n s.acc who
          revert g h
          cases push s.acc who with
          | mk b x =>
            intro h g
            cases b
            · exact ⟨a, h, .refl n a⟩
            · exact g id a h
        · exact ⟨a, h, .refl n a⟩
    · exact ⟨a, h, .refl n a⟩
  | logout who => exact .inl ⟨a, h, .refl n a⟩
  | send who dst clear p t w =>
    left
    cases clear with
    | true => exact grew_proxy n s.acc who dst p t w id a h
    | false => exact grew_cache n s.acc who dst p t w id a h
  | announce who =>
    left
    simp only [step] at h
    split at h
    · exact ⟨a, h, .refl n a⟩
    · split at h <;> exact ⟨a, h, .refl n a⟩
  | ack who m =>
    left
    simp only [step] at h
    have g := grew_delete n s.acc who m
    revert g h
    cases delete s.acc who m with
    | mk b x =>
      intro h g
      cases b
      · exact ⟨a, h, .refl n a⟩
      · exact g id a h
  | find who nick => exact .inl ⟨a, h, .refl n a⟩
  | leave who blob exp rand =>
    left
    simp only [step] at h
    split at h <;> exact ⟨a, h, .refl n a⟩
  | pull who token => exact .inl ⟨a, h, .refl n a⟩
  | disable k =>
    left
    simp only [step] at h
    have g := grew_disable n s.acc k
    revert g h
    cases disable s.acc k with
    | mk b x =>
      intro h g
      cases b
      · exact ⟨a, h, .refl n a⟩
      · exact g id a h
  | enable k => exact .inl (grew_enable n s.acc k id a h)
  | restart => exact .inl ⟨a, h, .refl n a⟩

theorem before_step (cfg : Config) (s : State) (n n' : Name) (e : Ev) (hb : Before s n) (hn : n < n') :
    Before (step cfg s n e).1 n' := by
  intro id a c m ha hc hm
  rcases step_grew cfg s n e id a ha with ⟨a0, h0, _, hg⟩ | ⟨pid, _, _, h0⟩
  · obtain ⟨c0, hc0, hs⟩ := hg c hc
    rcases hs m hm with h | h
    · exact Nat.lt_trans (hb id a0 c0 m h0 hc0 h) hn
    · rw [h]; exact hn
  · rw [h0] at hc; cases hc; cases hm

theorem listed_step (cfg : Config) (s : State) (n : Name) (e : Ev) (l : List Id) (hr : registers l e = false) (id : Id)
    (hid : id ∈ l) (hl : Listed s id) : Listed (step cfg s n e).1 id := by
  intro a ha u hu
  rcases step_grew cfg s n e id a ha with ⟨a0, h0, hg, _⟩ | ⟨pid, he, hp, _⟩
  · rcases hg with hg | ⟨v, _, hg⟩
    · exact hl a0 h0 u (hg ▸ hu)
    · rw [hg] at hu; cases hu; rfl
  · subst he
    simp only [registers, hp, hid, decide_true] at hr
    cases hr

/-! ## Who is online is listed, if there is a directory -/

def On (cfg : Config) (s : State) : Prop :=
  cfg.dir = true → ∀ id, (s.online id).isSome →
    ∃ a u, s.acc.enabled.get id = some a ∧ a.user = some u ∧ u.listed = true

/-- An account in use stays as it is, or becomes listed. -/
def Keeps (s s' : Accounts.State) : Prop :=
  ∀ id a, s.enabled.get id = some a → ∃ a', s'.enabled.get id = some a' ∧
    (a'.user = a.user ∨ ∃ u, a.user = some u ∧ a'.user = some { u with listed := true })

theorem Keeps.refl (s : Accounts.State) : Keeps s s := fun _ a h => ⟨a, h, .inl rfl⟩

theorem keeps_set (s : Accounts.State) (k : Id) (x y : Acct) (hk : s.enabled.get k = some x)
    (hu : y.user = x.user ∨ ∃ u, x.user = some u ∧ y.user = some { u with listed := true }) :
    Keeps s { s with enabled := s.enabled.set k y } := by
  intro id a h
  dsimp only
  rw [GoMap.get_set]
  by_cases e : k = id
  · subst e
    rw [hk] at h; cases h
    exact ⟨y, if_pos rfl, hu⟩
  · exact ⟨a, by rw [if_neg e]; exact h, .inl rfl⟩

theorem keeps_putFile (n : Name) (s : Accounts.State) (k : Id) (f : Bytes) : Keeps s (putFile s k n f) := by
  unfold putFile
  cases hs : s.enabled.get k with
  | none => exact .refl s
  | some x => exact keeps_set s k x _ hs (.inl rfl)

theorem keeps_deliver (n : Name) (s : Accounts.State) (k : Id) (m : Stored.DiskMessage) (w : Write) :
    Keeps s (deliverWrite s k n m w).2 := by
  unfold deliverWrite
  cases (s.enabled.get k).bind Acct.cache with
  | none => exact .refl s
  | some c =>
    cases w with
    | ok => exact keeps_putFile n s k _
    | fail => exact .refl s
    | short j => exact keeps_putFile n s k _

theorem keeps_proxy (n : Name) (s : Accounts.State) (who dst : Id) (p : Bytes) (t : Int) (w : Write) :
    Keeps s (handleProxy s s who dst p n t w).2 := by
  unfold handleProxy
  split
  · exact keeps_deliver n s dst _ w
  · exact .refl s

theorem keeps_cache (n : Name) (s : Accounts.State) (who dst : Id) (p : Bytes) (t : Int) (w : Write) :
    Keeps s (handleCache s s who dst p n t w).2 := by
  unfold handleCache
  split
  · have h := keeps_deliver n s dst ⟨who, t, p, false⟩ w
    revert h
    cases deliverWrite s dst n ⟨who, t, p, false⟩ w with
    | mk b a => intro h; cases b <;> exact h
  · exact .refl s

theorem keeps_push (s : Accounts.State) (k : Id) : Keeps s (push s k).2 := by
  unfold push setListed
  cases hs : s.enabled.get k with
  | none => exact .refl s
  | some x =>
    dsimp only
    cases hu : x.user with
    | none => exact .refl s
    | some u => exact keeps_set s k x _ hs (.inr ⟨u, hu, rfl⟩)

theorem push_done (s s' : Accounts.State) (k : Id) (h : push s k = (true, s')) :
    ∃ a u, s'.enabled.get k = some a ∧ a.user = some u ∧ u.listed = true := by
  unfold push setListed at h
  cases hs : s.enabled.get k with
  | none => rw [hs] at h; cases h
  | some x =>
    rw [hs] at h
    dsimp only at h
    cases hu : x.user with
    | none => rw [hu] at h; cases h
    | some u =>
      rw [hu] at h
      cases h
      exact ⟨{ x with user := some { u with listed := true } }, { u with listed := true },
        by dsimp only; rw [GoMap.get_set, if_pos rfl], rfl, rfl⟩

theorem keeps_delete (s : Accounts.State) (k : Id) (m : Name) : Keeps s (delete s k m).2 := by
  unfold delete
  cases hs : s.enabled.get k with
  | none => exact .refl s
  | some x =>
    dsimp only
    cases hc : x.cache with
    | none => exact .refl s
    | some c =>
      dsimp only
      split
      · exact keeps_set s k x _ hs (.inl rfl)
      · exact .refl s

theorem keeps_enable (s : Accounts.State) (k : Id) : Keeps s (enable s k).2 := by
  unfold enable
  cases hs : s.disabled.get k with
  | none => exact .refl s
  | some x =>
    dsimp only
    split
    · exact .refl s
    · rename_i hn
      intro id a h
      dsimp only
      rw [GoMap.get_set]
      by_cases e : k = id
      · subst e; rw [h] at hn; exact absurd rfl hn
      · exact ⟨a, by rw [if_neg e]; exact h, .inl rfl⟩

/-- The accounts change as they may, and nobody new is online. -/
theorem on_keeps {cfg : Config} {s s' : State} (h : On cfg s) (hk : Keeps s.acc s'.acc)
    (ho : ∀ id, (s'.online id).isSome → (s.online id).isSome) : On cfg s' := by
  intro hd id hi
  obtain ⟨a, u, ha, hu, hl⟩ := h hd id (ho id hi)
  obtain ⟨a', ha', hw⟩ := hk id a ha
  rcases hw with hw | ⟨v, _, hw⟩
  · exact ⟨a', u, ha', hw.trans hu, hl⟩
  · exact ⟨a', _, ha', hw, rfl⟩

theorem online_none (s : State) (who id : Id) (h : ((setOnline s who none).online id).isSome) : (s.online id).isSome := by
  unfold setOnline at h
  dsimp only at h
  split at h
  · cases h
  · exact h

theorem on_step (cfg : Config) (s : State) (n : Name) (e : Ev) (h : On cfg s) : On cfg (step cfg s n e).1 := by
  cases e with
  | register pid =>
    simp only [step]
    split
    · rename_i hc
      refine on_keeps h (fun id a ha => ?_) fun _ => id
      dsimp only
      rw [GoMap.get_set]
      by_cases e : pid.identity = id
      · exfalso
        unfold createCheck at hc
        rw [e, ha] at hc
        split at hc <;> cases hc
      · exact ⟨a, by rw [if_neg e]; exact ha, .inl rfl⟩
    · exact h
  | login who =>
    simp only [step]
    split
    · cases ho : s.online who with
      | some p => exact on_keeps h (.refl _) (online_none s who)
      | none =>
        dsimp only
        split
        · rename_i hd
          have hk := keeps_push s.acc who
          have hp := push_done s.acc (push s.acc who).2 who
          revert hk hp
          cases push s.acc who with
          | mk b x =>
            intro hk hp
            cases b
            · exact h
            · intro _ id hi
              by_cases e : id = who
              · subst e; exact hp rfl
              · have hi' : (s.online id).isSome := by
                  unfold setOnline at hi; dsimp only at hi; rwa [if_neg e] at hi
                obtain ⟨a, u, ha, hu, hl⟩ := h hd id hi'
                obtain ⟨a', ha', hw⟩ := hk id a ha
                rcases hw with hw | ⟨v, _, hw⟩
                · exact ⟨a', u, ha', hw.trans hu, hl⟩
                · exact ⟨a', _, ha', hw, rfl⟩
        · rename_i hd
          intro hd'
          exact absurd hd' hd
    · exact h
  | logout who => exact on_keeps h (.refl _) (online_none s who)
  | send who dst clear p t w =>
    cases clear with
    | true => exact on_keeps h (keeps_proxy n s.acc who dst p t w) fun _ => id
    | false => exact on_keeps h (keeps_cache n s.acc who dst p t w) fun _ => id
  | announce who =>
    simp only [step]
    split
    · exact h
    · rename_i p m c hp
      have ho : (s.online who).isSome := by
        unfold pending at hp
        cases ho : s.online who with
        | none => rw [ho] at hp; cases hp
        | some _ => rfl
      split
      · refine on_keeps h (.refl _) fun id hi => ?_
        unfold setOnline at hi
        dsimp only at hi
        split at hi
        · rename_i e; rw [e]; exact ho
        · exact hi
      · exact on_keeps h (.refl _) (online_none s who)
  | ack who m =>
    simp only [step]
    have hk := keeps_delete s.acc who m
    revert hk
    cases delete s.acc who m with
    | mk b x =>
      intro hk
      cases b
      · exact h
      · refine on_keeps h hk fun id hi => ?_
        unfold setOnline at hi
        dsimp only at hi
        split at hi
        · rename_i e; rw [Option.isSome_map] at hi; rw [e]; exact hi
        · exact hi
  | find who nick => exact h
  | leave who blob exp rand =>
    simp only [step]
    split <;> exact h
  | pull who token => exact h
  | disable k =>
    simp only [step]
    cases hd : disable s.acc k with
    | mk b x =>
      cases b
      · exact h
      · intro hdir id hi
        by_cases e : id = k
        · subst e; unfold setOnline at hi; dsimp only at hi; rw [if_pos rfl] at hi; cases hi
        · have hi' : (s.online id).isSome := by
            unfold setOnline at hi; dsimp only at hi; rwa [if_neg e] at hi
          obtain ⟨a, u, ha, hu, hl⟩ := h hdir id hi'
          refine ⟨a, u, ?_, hu, hl⟩
          unfold disable at hd
          split at hd
          · cases hd
          · split at hd
            · cases hd
            · cases hd
              show (s.acc.enabled.del k).get id = some a
              rw [GoMap.get_del_ne _ (Ne.symm e)]; exact ha
  | enable k => exact on_keeps h (keeps_enable s.acc k) fun _ => id
  | restart => exact fun _ id hi => by cases hi

/-! ## The two lemmas on one step -/

theorem view_cons_out {A : Id → Bool} {who : Id} (h : A who = false) (o : Out) : view A [(who, o)] = [] := by
  simp [view, h]

/-- A hidden event. -/
theorem hidden_step (A : Id → Bool) (cfg : Config) (l : List Id) (s : State) (n : Name) (e : Ev)
    (he : hidden A cfg.dir l e = true) (hl : ∀ id ∈ l, Listed s id) :
    view A (step cfg s n e).2 = [] ∧ Sim A (step cfg s n e).1 s := by
  have off : ∀ {s' : State} (who : Id) (v : Option (List Name)), A who = false → Sim A s' s →
      Sim A (setOnline s' who v) s := by
    intro s' who v hw hs
    refine ⟨hs.acc, fun i hi => ?_, hs.pins⟩
    unfold setOnline
    dsimp only
    rw [if_neg fun e => by rw [e, hw] at hi; cases hi]
    exact hs.on i hi
  cases e with
  | register => cases he
  | login who =>
    simp only [hidden, Bool.and_eq_true, Bool.not_eq_true', Bool.or_eq_true, decide_eq_true_eq] at he
    obtain ⟨hw, hd⟩ := he
    simp only [step]
    split
    · cases ho : s.online who with
      | some p => exact ⟨view_cons_out hw _, off who _ hw (.refl A s)⟩
      | none =>
        dsimp only
        split
        · rename_i hdir
          have hp := push_listed (A := A) s.acc who fun a u ha hu => by
            rcases hd with hd | hd
            · rw [hdir] at hd; cases hd
            · exact hl who hd a (.inl ha) u hu
          revert hp
          cases push s.acc who with
          | mk b x =>
            intro hp
            cases b
            · exact ⟨by simp [view, hw], .refl A s⟩
            · exact ⟨view_cons_out hw _, off who _ hw ⟨hp, fun _ _ => rfl, rfl⟩⟩
        · exact ⟨view_cons_out hw _, off who _ hw (.refl A s)⟩
    · exact ⟨view_cons_out hw _, .refl A s⟩
  | logout who =>
    simp only [hidden, Bool.not_eq_true'] at he
    exact ⟨rfl, off who _ he (.refl A s)⟩
  | send who dst clear p t w =>
    simp only [hidden, Bool.and_eq_true, Bool.not_eq_true'] at he
    obtain ⟨hw, hd⟩ := he
    have r : AccSim A s.acc s.acc := (Sim.refl A s).acc
    cases clear with
    | true =>
      refine ⟨view_cons_out hw _, ?_, fun _ _ => rfl, rfl⟩
      show AccSim A (handleProxy s.acc s.acc who dst p n t w).2 s.acc
      unfold handleProxy
      split
      · exact deliverWrite_other s.acc dst n _ w hd
      · exact r
    | false =>
      refine ⟨view_cons_out hw _, ?_, fun _ _ => rfl, rfl⟩
      show AccSim A (handleCache s.acc s.acc who dst p n t w).2 s.acc
      unfold handleCache
      split
      · have h := deliverWrite_other (A := A) s.acc dst n ⟨who, t, p, false⟩ w hd
        revert h
        cases deliverWrite s.acc dst n ⟨who, t, p, false⟩ w with
        | mk b a => intro h; cases b <;> exact h
      · exact r
  | announce who =>
    simp only [hidden, Bool.not_eq_true'] at he
    simp only [step]
    split
    · exact ⟨rfl, .refl A s⟩
    · split <;> exact ⟨view_cons_out he _, off who _ he (.refl A s)⟩
  | ack who m =>
    simp only [hidden, Bool.not_eq_true'] at he
    simp only [step]
    have h := delete_other (A := A) s.acc who m he
    revert h
    cases delete s.acc who m with
    | mk b x =>
      intro h
      cases b
      · exact ⟨rfl, .refl A s⟩
      · exact ⟨rfl, off who _ he ⟨h, fun _ _ => rfl, rfl⟩⟩
  | find who nick =>
    simp only [hidden, Bool.not_eq_true'] at he
    exact ⟨view_cons_out he _, .refl A s⟩
  | leave => cases he
  | pull who token =>
    simp only [hidden, Bool.not_eq_true'] at he
    exact ⟨view_cons_out he _, .refl A s⟩
  | disable => cases he
  | enable => cases he
  | restart => cases he

/-- An event that is not hidden. -/
theorem step_sim (A : Id → Bool) (cfg : Config) (l : List Id) (s t : State) (n : Name) (e : Ev)
    (he : hidden A cfg.dir l e = false) (h : Sim A s t) (hs : Before s n) (ht : Before t n) (os : On cfg s)
    (ot : On cfg t) :
    view A (step cfg s n e).2 = view A (step cfg t n e).2 ∧ Sim A (step cfg s n e).1 (step cfg t n e).1 := by
  cases e with
  | register pid =>
    simp only [step, h.createCheck cfg]
    split
    · refine ⟨rfl, withAcc_sim h ⟨osim_set h.acc.en _ _ _ ?_, h.acc.dis⟩⟩
      have hd := h.acc.en pid.identity
      cases hs : s.acc.enabled.get pid.identity <;> cases ht : t.acc.enabled.get pid.identity <;> rw [hs, ht] at hd
      · exact ⟨rfl, rfl, fun _ => rfl⟩
      · exact hd.elim
      · exact hd.elim
      · refine ⟨?_, rfl, fun hb => by rw [hd.2.2 hb]⟩
        simp only [created, Option.bind_some, hd.1]
    · exact ⟨rfl, h⟩
  | login who =>
    simp only [step, h.admit, h.isDisabled]
    split
    · by_cases ha : A who = true
      · rw [h.on who ha]
        cases t.online who with
        | some p => exact ⟨rfl, setOnline_sim h who _ _ fun _ => rfl⟩
        | none =>
          dsimp only
          split
          · have hp := push_sim h.acc who
            revert hp
            cases push s.acc who with
            | mk b x =>
              cases push t.acc who with
              | mk b' y =>
                rintro ⟨hb, hp⟩
                dsimp only at hb hp
                subst hb
                cases b
                · exact ⟨rfl, h⟩
                · exact ⟨rfl, setOnline_sim (withAcc_sim h hp) who _ _ fun _ => rfl⟩
          · exact ⟨rfl, setOnline_sim h who _ _ fun _ => rfl⟩
      · have ha' : A who = false := by simpa using ha
        have hdir : cfg.dir = true := by
          simp only [hidden, ha', Bool.not_false, Bool.true_and, Bool.or_eq_false_iff, Bool.not_eq_false'] at he
          exact he.1
        have nv : ∀ v w : Option (List Name), A who = true → v = w := fun _ _ hb => absurd hb ha
        have vw : ∀ o, view A [(who, o)] = [] := fun o => view_cons_out ha' o
        have vv : ∀ o o', view A [(who, o), (who, o')] = [] := fun o o' => by simp [view, ha']
        -- one that is online is listed in both
        have lis : ∀ s t : State, Sim A s t → On cfg s → (s.online who).isSome = true → AccSim A (push t.acc who).2 t.acc := by
          intro s t h os hi
          refine push_listed t.acc who fun a u hta htu => ?_
          obtain ⟨b, v, hb, hv, hl⟩ := os hdir who hi
          have hd := h.acc.en who
          rw [hb, hta] at hd
          have := hd.1
          rw [hv, htu] at this
          cases this
          exact hl
        cases hso : s.online who with
        | some p =>
          cases hto : t.online who with
          | some q => exact ⟨(vw _).trans (vw _).symm, setOnline_sim h who _ _ (nv _ _)⟩
          | none =>
            simp only [hdir, if_true]
            have hp := lis s t h os (by rw [hso]; rfl)
            revert hp
            cases push t.acc who with
            | mk b y =>
              intro hp
              have hq : Sim A s { t with acc := y } :=
                h.trans (Sim.symm ⟨hp, fun _ _ => rfl, rfl⟩)
              cases b
              · refine ⟨by rw [vw, vv], ?_⟩
                refine ⟨h.acc, fun i hi => ?_, h.pins⟩
                unfold setOnline
                dsimp only
                rw [if_neg fun e => by rw [e] at hi; exact ha hi]
                exact h.on i hi
              · exact ⟨by rw [vw, vw], setOnline_sim hq who _ _ (nv _ _)⟩
        | none =>
          cases hto : t.online who with
          | some q =>
            simp only [hdir, if_true]
            have hp := lis t s h.symm ot (by rw [hto]; rfl)
            revert hp
            cases push s.acc who with
            | mk b y =>
              intro hp
              have hq : Sim A { s with acc := y } t :=
                Sim.trans ⟨hp, fun _ _ => rfl, rfl⟩ h
              cases b
              · refine ⟨by rw [vw, vv], ?_⟩
                refine ⟨h.acc, fun i hi => ?_, h.pins⟩
                unfold setOnline
                dsimp only
                rw [if_neg fun e => by rw [e] at hi; exact ha hi]
                exact h.on i hi
              · exact ⟨by rw [vw, vw], setOnline_sim hq who _ _ (nv _ _)⟩
          | none =>
            simp only [hdir, if_true]
            have hp := push_sim h.acc who
            revert hp
            cases push s.acc who with
            | mk b x =>
              cases push t.acc who with
              | mk b' y =>
                rintro ⟨hb, hp⟩
                dsimp only at hb hp
                subst hb
                cases b
                · exact ⟨rfl, h⟩
                · exact ⟨rfl, setOnline_sim (withAcc_sim h hp) who _ _ fun _ => rfl⟩
    · exact ⟨rfl, h⟩
  | logout who => exact ⟨rfl, setOnline_sim h who _ _ fun _ => rfl⟩
  | send who dst clear p tm w =>
    have cs := deliverCheck_new hs dst
    have ct := deliverCheck_new ht dst
    cases clear with
    | true =>
      simp only [step, handleProxy, cs, ct, if_true]
      have hd := deliverWrite_sim h.acc dst n ⟨who, tm, p, true⟩ w
      exact ⟨by rw [hd.1], withAcc_sim h hd.2⟩
    | false =>
      simp only [step, handleCache, cs, ct, if_true]
      have hd := deliverWrite_sim h.acc dst n ⟨who, tm, p, false⟩ w
      revert hd
      cases deliverWrite s.acc dst n ⟨who, tm, p, false⟩ w with
      | mk b x =>
        cases deliverWrite t.acc dst n ⟨who, tm, p, false⟩ w with
        | mk b' y =>
          rintro ⟨hb, hd⟩
          dsimp only at hb hd
          subst hb
          cases b
          · have hdis : x.isDisabled dst = y.isDisabled dst := (hd.dis dst).isSome
            dsimp only
            rw [hdis]
            exact ⟨rfl, withAcc_sim h hd⟩
          · exact ⟨rfl, withAcc_sim h hd⟩
  | announce who =>
    simp only [hidden, Bool.not_eq_false'] at he
    have hp : pending s who = pending t who := by
      unfold pending
      have hd := h.acc.en who
      rw [h.on who he]
      cases hs : s.acc.enabled.get who <;> cases ht : t.acc.enabled.get who <;> rw [hs, ht] at hd <;>
        first | rfl | exact hd.elim | rw [hd.2.2 he]
    simp only [step, hp]
    split
    · exact ⟨rfl, h⟩
    · split
      · exact ⟨rfl, setOnline_sim h who _ _ fun _ => rfl⟩
      · exact ⟨rfl, setOnline_sim h who _ _ fun _ => rfl⟩
  | ack who m =>
    simp only [hidden, Bool.not_eq_false'] at he
    simp only [step]
    have hd := delete_sim h.acc who m he
    revert hd
    cases delete s.acc who m with
    | mk b x =>
      cases delete t.acc who m with
      | mk b' y =>
        rintro ⟨hb, hd⟩
        dsimp only at hb hd
        subst hb
        cases b
        · exact ⟨rfl, h⟩
        · exact ⟨rfl, setOnline_sim (withAcc_sim h hd) who _ _ fun _ => by rw [h.on who he]⟩
  | find who nick => exact ⟨by simp only [step, h.find cfg], h⟩
  | leave who blob exp rand =>
    simp only [step, h.pins]
    split
    · exact ⟨rfl, h⟩
    · exact ⟨rfl, h.acc, h.on, rfl⟩
  | pull who token => exact ⟨by simp only [step, h.pins], h⟩
  | disable k =>
    simp only [step]
    have hd := disable_sim h.acc k
    revert hd
    cases disable s.acc k with
    | mk b x =>
      cases disable t.acc k with
      | mk b' y =>
        rintro ⟨hb, hd⟩
        dsimp only at hb hd
        subst hb
        cases b
        · exact ⟨rfl, h⟩
        · refine ⟨?_, setOnline_sim (withAcc_sim h hd) k _ _ fun _ => rfl⟩
          by_cases ha : A k = true
          · dsimp only; rw [h.on k ha]
          · have ha' : A k = false := by simpa using ha
            have : ∀ c : Prop, [Decidable c] → view A (if c then [(k, Out.closed)] else []) = [] := by
              intro c _; split
              · exact view_cons_out ha' _
              · rfl
            dsimp only
            rw [this, this]
  | enable k => exact ⟨rfl, withAcc_sim h (enable_sim h.acc k)⟩
  | restart => exact ⟨rfl, h.acc, fun _ _ => rfl, h.pins⟩

/-! ## Histories -/

theorem view_append (A : Id → Bool) (x y : List (Id × Out)) : view A (x ++ y) = view A x ++ view A y :=
  List.filter_append ..

/-- What is left of a history without what is hidden. -/
def visible (A : Id → Bool) (dir : Bool) (l : List Id) (h : List (Name × Ev)) : List (Name × Ev) :=
  h.filter fun x => !hidden A dir l x.2

theorem purge (A : Id → Bool) (cfg : Config) (l : List Id) (h : List (Name × Ev)) (s t : State) (hst : Sim A s t)
    (hi : Increasing h) (bs : ∀ x ∈ h, Before s x.1) (bt : ∀ x ∈ h, Before t x.1) (os : On cfg s) (ot : On cfg t)
    (hl : ∀ id ∈ l, Listed s id) (hr : ∀ x ∈ h, registers l x.2 = false) :
    view A (run cfg s h).2 = view A (run cfg t (visible A cfg.dir l h)).2 := by
  induction h generalizing s t with
  | nil => rfl
  | cons x h ih =>
    obtain ⟨n, e⟩ := x
    have hi' := List.pairwise_cons.1 hi
    have b0 := bs (n, e) (List.mem_cons_self ..)
    have bs' : ∀ x ∈ h, Before (step cfg s n e).1 x.1 := fun x hx => before_step cfg s n x.1 e b0 (hi'.1 x hx)
    have hl' : ∀ id ∈ l, Listed (step cfg s n e).1 id := fun id hid =>
      listed_step cfg s n e l (hr (n, e) (List.mem_cons_self ..)) id hid (hl id hid)
    have hr' : ∀ x ∈ h, registers l x.2 = false := fun x hx => hr x (List.mem_cons_of_mem _ hx)
    have os' := on_step cfg s n e os
    show view A ((step cfg s n e).2 ++ (run cfg (step cfg s n e).1 h).2) = _
    rw [view_append]
    by_cases he : hidden A cfg.dir l e = true
    · obtain ⟨h0, h1⟩ := hidden_step A cfg l s n e he hl
      have hv : visible A cfg.dir l ((n, e) :: h) = visible A cfg.dir l h := by simp [visible, he]
      rw [h0, hv, List.nil_append]
      exact ih _ t (h1.trans hst) hi'.2 bs' (fun x hx => bt x (List.mem_cons_of_mem _ hx)) os' ot hl' hr'
    · have he' : hidden A cfg.dir l e = false := by simpa using he
      have c0 := bt (n, e) (List.mem_cons_self ..)
      obtain ⟨h0, h1⟩ := step_sim A cfg l s t n e he' hst b0 c0 os ot
      have hv : visible A cfg.dir l ((n, e) :: h) = (n, e) :: visible A cfg.dir l h := by simp [visible, he']
      rw [h0, hv]
      show _ = view A ((step cfg t n e).2 ++ (run cfg (step cfg t n e).1 (visible A cfg.dir l h)).2)
      rw [view_append]
      exact congrArg _ (ih _ _ h1 hi'.2 bs' (fun x hx => before_step cfg t n x.1 e c0 (hi'.1 x hx)) os'
        (on_step cfg t n e ot) hl' hr')

theorem run_append (cfg : Config) (s : State) (h g : List (Name × Ev)) :
    run cfg s (h ++ g) = ((run cfg (run cfg s h).1 g).1, (run cfg s h).2 ++ (run cfg (run cfg s h).1 g).2) := by
  induction h generalizing s with
  | nil => rfl
  | cons x h ih =>
    obtain ⟨n, e⟩ := x
    show ((run cfg (step cfg s n e).1 (h ++ g)).1, (step cfg s n e).2 ++ (run cfg (step cfg s n e).1 (h ++ g)).2) = _
    rw [ih]
    show _ = ((run cfg (run cfg (step cfg s n e).1 h).1 g).1,
      ((step cfg s n e).2 ++ (run cfg (step cfg s n e).1 h).2) ++ (run cfg (run cfg (step cfg s n e).1 h).1 g).2)
    rw [List.append_assoc]

theorem run_on (cfg : Config) (s : State) (h : List (Name × Ev)) (hs : On cfg s) : On cfg (run cfg s h).1 := by
  induction h generalizing s with
  | nil => exact hs
  | cons x h ih => exact ih _ (on_step cfg s x.1 x.2 hs)

theorem run_before (cfg : Config) (s : State) (h : List (Name × Ev)) (n : Name) (hi : Increasing h)
    (bs : ∀ x ∈ h, Before s x.1) (hs : Before s n) (hn : ∀ x ∈ h, x.1 < n) : Before (run cfg s h).1 n := by
  induction h generalizing s with
  | nil => exact hs
  | cons x h ih =>
    have hi' := List.pairwise_cons.1 hi
    have b0 := bs x (List.mem_cons_self ..)
    exact ih (step cfg s x.1 x.2).1 hi'.2 (fun y hy => before_step cfg s x.1 y.1 x.2 b0 (hi'.1 y hy))
      (before_step cfg s x.1 n x.2 b0 (hn x (List.mem_cons_self ..))) fun y hy => hn y (List.mem_cons_of_mem _ hy)

theorem before_init (n : Name) : Before init n := by
  intro id a c m ha
  rcases ha with ha | ha <;> cases ha

theorem on_init (cfg : Config) : On cfg init := fun _ _ hi => by cases hi

/-! ## The property -/

/-- C143, all of it: whatever happened before, what users in `A` got does not tell apart two ways in which others came
and went, wrote to each other, read, looked up, left things under PINs and fetched them. -/
def C143_full (cfg : Config) : Prop :=
  ∀ (A : Id → Bool) (h g : List (Name × Ev)), proper cfg init h = true → proper cfg init g = true →
    (h.filter fun x => match x.2 with
      | .login who => A who
      | .leave who .. => A who
      | e => !hidden A false [] e) =
    (g.filter fun x => match x.2 with
      | .login who => A who
      | .leave who .. => A who
      | e => !hidden A false [] e) →
    view A (run cfg init h).2 = view A (run cfg init g).2

/-- A server without a directory: what some users get, all of them together, is determined by what they do, what is
written to them, the accounts that are made, disabled and enabled, the PINs that are drawn, and restarts. Whatever
else happened or did not, they got the same. Partial: no two events at the same time, and PINs that others draw count
as visible. -/
theorem C143_view_partial (cfg : Config) (A : Id → Bool) (h g : List (Name × Ev)) (hd : cfg.dir = false)
    (hi : Increasing h) (gi : Increasing g) (he : visible A false [] h = visible A false [] g) :
    view A (run cfg init h).2 = view A (run cfg init g).2 := by
  have r : ∀ x : Name × Ev, registers [] x.2 = false := by
    intro x
    obtain ⟨n, e⟩ := x
    cases e <;> simp [registers]
  have p := fun (k : List (Name × Ev)) (ki : Increasing k) =>
    purge A cfg [] k init init (.refl A init) ki (fun x _ => before_init x.1) (fun x _ => before_init x.1) (on_init cfg)
      (on_init cfg) (fun _ hid => by cases hid) fun x _ => r x
  rw [p h hi, p g gi, hd, he]

/-- The same with a directory, for those who are in it already: after `k`, logins of users in `l` cannot be seen. Partial:
a first login can be seen, as are PINs and what happens at the same time. -/
theorem C143_directory_partial (cfg : Config) (A : Id → Bool) (l : List Id) (k h g : List (Name × Ev))
    (hi : Increasing (k ++ h)) (gi : Increasing (k ++ g)) (hl : ∀ id ∈ l, Listed (run cfg init k).1 id)
    (hr : ∀ x ∈ h ++ g, registers l x.2 = false) (he : visible A true l h = visible A true l g) :
    view A (run cfg init (k ++ h)).2 = view A (run cfg init (k ++ g)).2 := by
  have vis : visible A cfg.dir l h = visible A cfg.dir l g := by
    cases hd : cfg.dir with
    | true => exact he
    | false =>
      have e : ∀ j : List (Name × Ev), visible A false l j = visible A false l (visible A true l j) := by
        intro j
        unfold visible
        rw [List.filter_filter]
        refine congrArg (fun f => List.filter f j) (funext fun x => ?_)
        obtain ⟨n, e⟩ := x
        cases e <;> simp [hidden]
        cases A _ <;> simp
      rw [e h, e g, he]
  have p := fun (j : List (Name × Ev)) (ji : Increasing (k ++ j)) (jr : ∀ x ∈ j, registers l x.2 = false) => by
    have ji' := List.pairwise_append.1 ji
    have b : ∀ x ∈ j, Before (run cfg init k).1 x.1 := fun x hx =>
      run_before cfg init k x.1 ji'.1 (fun y _ => before_init y.1) (before_init x.1) fun y hy => ji'.2.2 y hy x hx
    exact purge A cfg l j _ _ (.refl A (run cfg init k).1) ji'.2.1 b b (run_on cfg init k (on_init cfg))
      (run_on cfg init k (on_init cfg)) hl jr
  rw [run_append, run_append]
  dsimp only
  rw [view_append, view_append, p h hi fun x hx => hr x (List.mem_append_left _ hx),
    p g gi fun x hx => hr x (List.mem_append_right _ hx), vis]

/-- Whose event it is. -/
def Ev.subject : Ev → Option Id
  | .register pid => some pid.identity
  | .login who | .logout who | .announce who | .ack who _ | .find who _ | .pull who _ => some who
  | .send who .. => some who
  | .leave who .. => some who
  | .disable id => some id
  | .enable _ | .restart => none

/-- Nobody is sent anything but what they asked for, what was left for them, and that they were disabled. -/
theorem C143_own (cfg : Config) (s : State) (n : Name) (e : Ev) (id : Id) (o : Out) (h : (id, o) ∈ (step cfg s n e).2) :
    e.subject = some id := by
  have one : ∀ {who : Id} {x : Out}, (id, o) ∈ [(who, x)] → some who = some id := by
    intro who x hm
    rw [List.mem_singleton] at hm
    rw [(Prod.mk.inj hm).1]
  cases e with
  | register pid =>
    simp only [step] at h
    split at h <;> exact one h
  | login who =>
    simp only [step] at h
    split at h
    · split at h
      · exact one h
      · split at h
        · split at h
          · exact one h
          · rcases List.mem_cons.1 h with h | h
            · exact congrArg some (Prod.mk.inj h).1.symm
            · exact one h
        · exact one h
    · exact one h
  | logout who => cases h
  | send who dst clear p t w => cases clear <;> exact one h
  | announce who =>
    simp only [step] at h
    split at h
    · cases h
    · split at h <;> exact one h
  | ack who m =>
    simp only [step] at h
    split at h <;> cases h
  | find who nick => exact one h
  | leave who blob exp rand =>
    simp only [step] at h
    split at h <;> exact one h
  | pull who token => exact one h
  | disable k =>
    simp only [step] at h
    split at h
    · dsimp only at h
      split at h
      · exact one h
      · cases h
    · cases h
  | enable k => cases h
  | restart => cases h

/-! ## Examples, and what can be seen -/

def user (i : UInt8) : Id := List.replicate 32 i

def pub (i : UInt8) : Pub := ⟨[i], [i], [], [], user i, [], []⟩

/-- Users 1, 2 and 3 have accounts; user 1 is online. -/
def start : List (Name × Ev) :=
  [(1, .register (pub 1)), (2, .register (pub 2)), (3, .register (pub 3)), (4, .login (user 1))]

def config (dir : Bool) : Config := ⟨dir, 1048576, [user 1, user 2, user 3]⟩

/-- User 1 writes to user 3 and gets an answer, while user 2 comes, writes to user 3 as well, and goes. -/
def busy : List (Name × Ev) :=
  start ++ [(5, .login (user 2)), (6, .send (user 2) (user 3) false [9] 0 .ok), (7, .send (user 1) (user 3) false [8] 0 .ok), (8, .logout (user 2)),
    (9, .login (user 3)), (10, .announce (user 3)), (11, .ack (user 3) 6), (12, .send (user 3) (user 1) false [7] 0 .ok), (13, .announce (user 1)),
    (14, .find (user 1) [50])]

/-- The same without user 2. -/
def quiet : List (Name × Ev) :=
  start ++ [(7, .send (user 1) (user 3) false [8] 0 .ok), (9, .login (user 3)), (12, .send (user 3) (user 1) false [7] 0 .ok), (13, .announce (user 1)),
    (14, .find (user 1) [50])]

example : proper (config false) init busy = true ∧ proper (config false) init quiet = true ∧ Increasing busy ∧
    Increasing quiet := by
  refine ⟨by decide +kernel, by decide +kernel, ?_, ?_⟩ <;> simp [Increasing, busy, quiet, start]

example : visible (fun i => i == user 1) false [] busy = visible (fun i => i == user 1) false [] quiet := by
  simp [visible, busy, quiet, start, hidden, user]

example : view (fun i => i == user 1) (run (config false) init busy).2 =
    [(user 1, .registered true), (user 1, .welcome), (user 1, .ack .good), (user 1, .push (.msg 12 ⟨user 3, 0, [7], false⟩)),
      (user 1, .found none)] := by decide +kernel

/-- Users who are listed may come and go unseen. -/
example : (∀ id ∈ [user 2], Listed (run (config true) init (start ++ [(5, .login (user 2))])).1 id) := by
  intro id hid a ha u hu
  rw [List.mem_singleton] at hid
  subst hid
  have e : (run (config true) init (start ++ [(5, .login (user 2))])).1.acc.enabled.get (user 2) =
    some ⟨some ⟨some (pub 2), true⟩, some []⟩ := by decide +kernel
  have d : (run (config true) init (start ++ [(5, .login (user 2))])).1.acc.disabled.get (user 2) = none := by decide +kernel
  rcases ha with ha | ha
  · rw [e] at ha; cases ha; cases hu; rfl
  · rw [d] at ha; cases ha

/-- With a directory user 1 sees whether user 2 has ever been online. -/
theorem C143_first_login_violated : ¬ C143_full (config true) := by
  intro h
  have := h (fun i => i == user 1) (start ++ [(5, .login (user 2)), (6, .logout (user 2)), (7, .find (user 1) [2])])
    (start ++ [(7, .find (user 1) [2])]) (by decide +kernel) (by decide +kernel) (by simp [start, hidden, user])
  revert this
  decide +kernel

/-- Without one, user 1 sees whether user 2 wrote to user 3 in the same instant: the file is there already. -/
theorem C143_instant_violated : ¬ C143_full (config false) := by
  intro h
  have := h (fun i => i == user 1) (start ++ [(5, .login (user 2)), (6, .send (user 2) (user 3) false [9] 0 .ok), (6, .send (user 1) (user 3) false [8] 0 .ok)])
    (start ++ [(6, .send (user 1) (user 3) false [8] 0 .ok)]) (by decide +kernel) (by decide +kernel) (by simp [start, hidden, user])
  revert this
  decide +kernel

/-- And user 1 sees that somebody is making contact, from a PIN that is in use. -/
theorem C143_pins_violated : ∃ (h g : List (Name × Ev)) (f : Nat → Option Nat),
    proper (config false) init h = true ∧ proper (config false) init g = true ∧ Increasing h ∧ Increasing g ∧
    h = g.take 5 ++ (6, .leave (user 2) [7] [49] f) :: g.drop 5 ∧
    view (fun i => i == user 1) (run (config false) init h).2 ≠ view (fun i => i == user 1) (run (config false) init g).2 :=
  ⟨start ++ [(5, .login (user 2)), (6, .leave (user 2) [7] [49] fun _ => some 5), (7, .pull (user 1) [53])],
    start ++ [(5, .login (user 2)), (7, .pull (user 1) [53])], fun _ => some 5, by decide +kernel, by decide +kernel,
    by simp [Increasing, start], by simp [Increasing, start], rfl, by decide +kernel⟩

end Verif.Presence
