import Mathlib.Tactic.ByContra
import Verif.Model.Flow

/-! # C95: client and server never wait for each other -/

namespace Verif.Flow

/-- What can come about. -/
def Reach (z : Sizes) (s : State) : Prop := ∃ ms, exec z (start z) ms = some s

/-- Every tag is in its pool: all that was sent was answered, all that was announced was acknowledged. -/
def State.home (z : Sizes) (s : State) : Prop := s.cfree = z.tags ∧ s.sfree = z.tags

instance (z : Sizes) (s : State) : Decidable (s.home z) := inferInstanceAs (Decidable (_ ∧ _))

/-- No goroutine can go on by itself. -/
def Halted (z : Sizes) (s : State) : Prop := ∀ m, m.inner = true → step z s m = none

/-! ## Counting tags -/

/-- Carries a tag of the client. -/
def Up.req : Up → Nat
  | .ack => 0
  | _ => 1

/-- Carries a tag of the server. -/
def Up.tag : Up → Nat
  | .ack => 1
  | _ => 0

/-- Carries a tag of the client. -/
def Down.rep : Down → Nat
  | .ack => 1
  | .push => 0

/-- Carries a tag of the server. -/
def Down.tag : Down → Nat
  | .ack => 0
  | .push => 1

def sum (f : α → Nat) : List α → Nat
  | [] => 0
  | x :: r => f x + sum f r

def opt (f : α → Nat) : Option α → Nat
  | none => 0
  | some x => f x

def bit (b : Bool) : Nat := if b then 1 else 0

theorem sum_append (f : α → Nat) (a b : List α) : sum f (a ++ b) = sum f a + sum f b := by
  induction a with
  | nil => simp [sum]
  | cons x a ih => simp only [List.cons_append, sum, ih]; omega

theorem sum_snoc (f : α → Nat) (a : List α) (x : α) : sum f (a ++ [x]) = sum f a + f x := by
  rw [sum_append]; rfl

/-- Where the tags of the client are. -/
def State.ctags (s : State) : Nat :=
  s.cfree + opt Up.req s.snd + sum Up.req s.up + bit s.reply + sum Down.rep s.chan + opt Down.rep s.wr + sum Down.rep s.down

/-- Where the tags of the server are. -/
def State.stags (s : State) : Nat :=
  s.sfree + bit s.ntfn + sum Down.tag s.chan + opt Down.tag s.wr + sum Down.tag s.down + bit s.got + s.acks + opt Up.tag s.snd
    + sum Up.tag s.up

structure Inv (z : Sizes) (s : State) : Prop where
  ctags : s.ctags = z.tags
  stags : s.stags = z.tags
  up : s.up.length ≤ z.up
  chan : s.chan.length ≤ z.tags
  down : s.down.length ≤ z.down

theorem inv_step {z : Sizes} {s s' : State} (h : Inv z s) {m : Move} (hs : step z s m = some s') : Inv z s' := by
  obtain ⟨h1, h2, h3, h4, h5⟩ := h
  unfold State.ctags at h1
  unfold State.stags at h2
  cases m with
  | send =>
    unfold step at hs; dsimp only at hs
    split at hs
    · rename_i hc
      cases hs
      rw [hc.1] at h1 h2
      refine ⟨?_, ?_, h3, h4, h5⟩
      · unfold State.ctags; simp only [opt, Up.req] at h1 ⊢; omega
      · unfold State.stags; simp only [opt, Up.tag] at h2 ⊢; omega
    · cases hs
  | ping =>
    unfold step at hs; dsimp only at hs
    split at hs
    · rename_i hc
      cases hs
      rw [hc.1] at h1 h2
      refine ⟨?_, ?_, h3, h4, h5⟩
      · unfold State.ctags; simp only [opt, Up.req] at h1 ⊢; omega
      · unfold State.stags; simp only [opt, Up.tag] at h2 ⊢; omega
    · cases hs
  | announce =>
    unfold step at hs; dsimp only at hs
    split at hs
    · rename_i hc
      cases hs
      rw [hc.1] at h2
      refine ⟨h1, ?_, h3, h4, h5⟩
      unfold State.stags; simp only [bit] at h2 ⊢; simp at h2 ⊢; omega
    · cases hs
  | sendAck =>
    unfold step at hs; dsimp only at hs
    split at hs
    · rename_i hc
      cases hs
      rw [hc.1] at h1 h2
      refine ⟨?_, ?_, h3, h4, h5⟩
      · unfold State.ctags; simp only [opt, Up.req] at h1 ⊢; omega
      · unfold State.stags; simp only [opt, Up.tag] at h2 ⊢; omega
    · cases hs
  | wrote =>
    unfold step at hs; dsimp only at hs
    split at hs
    · rename_i x hx
      split at hs
      · cases hs
        rw [hx] at h1 h2
        refine ⟨?_, ?_, ?_, h4, h5⟩
        · unfold State.ctags; dsimp only; rw [sum_snoc]; simp only [opt] at h1 ⊢; omega
        · unfold State.stags; dsimp only; rw [sum_snoc]; simp only [opt] at h2 ⊢; omega
        · dsimp only; rw [List.length_append]; simp only [List.length_singleton]; omega
      · cases hs
    · cases hs
  | read =>
    unfold step at hs; dsimp only at hs
    split at hs
    · rename_i r hr hu
      cases hs
      rw [hr, hu] at h1
      rw [hu] at h2 h3
      refine ⟨?_, ?_, ?_, h4, h5⟩
      · unfold State.ctags; simp only [sum, Up.req, bit] at h1 ⊢; simp at h1 ⊢; omega
      · unfold State.stags; simp only [sum, Up.tag] at h2 ⊢; omega
      · simp only [List.length_cons] at h3; dsimp only; omega
    · rename_i r hr hu
      cases hs
      rw [hr, hu] at h1
      rw [hu] at h2 h3
      refine ⟨?_, ?_, ?_, h4, h5⟩
      · unfold State.ctags; simp only [sum, Up.req, bit] at h1 ⊢; simp at h1 ⊢; omega
      · unfold State.stags; simp only [sum, Up.tag] at h2 ⊢; omega
      · simp only [List.length_cons] at h3; dsimp only; omega
    · rename_i r hr hu
      cases hs
      rw [hu] at h1
      rw [hu] at h2 h3
      refine ⟨?_, ?_, ?_, h4, h5⟩
      · unfold State.ctags; simp only [sum, Up.req] at h1 ⊢; omega
      · unfold State.stags; simp only [sum, Up.tag] at h2 ⊢; omega
      · simp only [List.length_cons] at h3; dsimp only; omega
    · cases hs
  | replied =>
    unfold step at hs; dsimp only at hs
    split at hs
    · rename_i hc
      cases hs
      rw [hc.1] at h1
      refine ⟨?_, ?_, h3, ?_, h5⟩
      · unfold State.ctags; dsimp only; rw [sum_snoc]; simp only [bit, Down.rep] at h1 ⊢; simp at h1 ⊢; omega
      · unfold State.stags; dsimp only; rw [sum_snoc]; simp only [Down.tag] at h2 ⊢; omega
      · dsimp only; rw [List.length_append]; simp only [List.length_singleton]; omega
    · cases hs
  | announced =>
    unfold step at hs; dsimp only at hs
    split at hs
    · rename_i hc
      cases hs
      rw [hc.1] at h2
      refine ⟨?_, ?_, h3, ?_, h5⟩
      · unfold State.ctags; dsimp only; rw [sum_snoc]; simp only [Down.rep] at h1 ⊢; omega
      · unfold State.stags; dsimp only; rw [sum_snoc]; simp only [bit, Down.tag] at h2 ⊢; simp at h2 ⊢; omega
      · dsimp only; rw [List.length_append]; simp only [List.length_singleton]; omega
    · cases hs
  | take =>
    unfold step at hs; dsimp only at hs
    split at hs
    · rename_i x r hw hc
      cases hs
      rw [hw, hc] at h1 h2
      rw [hc] at h4
      refine ⟨?_, ?_, h3, ?_, h5⟩
      · unfold State.ctags; simp only [sum, opt] at h1 ⊢; omega
      · unfold State.stags; simp only [sum, opt] at h2 ⊢; omega
      · simp only [List.length_cons] at h4; dsimp only; omega
    · cases hs
  | swrote =>
    unfold step at hs; dsimp only at hs
    split at hs
    · rename_i x hx
      split at hs
      · cases hs
        rw [hx] at h1 h2
        refine ⟨?_, ?_, h3, h4, ?_⟩
        · unfold State.ctags; dsimp only; rw [sum_snoc]; simp only [opt] at h1 ⊢; omega
        · unfold State.stags; dsimp only; rw [sum_snoc]; simp only [opt] at h2 ⊢; omega
        · dsimp only; rw [List.length_append]; simp only [List.length_singleton]; omega
      · cases hs
    · cases hs
  | cread =>
    unfold step at hs; dsimp only at hs
    split at hs
    · rename_i r hg hd
      cases hs
      rw [hd] at h1 h2 h5
      refine ⟨?_, ?_, h3, h4, ?_⟩
      · unfold State.ctags; simp only [sum, Down.rep] at h1 ⊢; omega
      · unfold State.stags; simp only [sum, Down.tag] at h2 ⊢; omega
      · simp only [List.length_cons] at h5; dsimp only; omega
    · rename_i r hg hd
      cases hs
      rw [hd] at h1 h2 h5
      rw [hg] at h2
      refine ⟨?_, ?_, h3, h4, ?_⟩
      · unfold State.ctags; simp only [sum, Down.rep] at h1 ⊢; omega
      · unfold State.stags; simp only [sum, Down.tag, bit] at h2 ⊢; simp at h2 ⊢; omega
      · simp only [List.length_cons] at h5; dsimp only; omega
    · cases hs
  | handle =>
    unfold step at hs; dsimp only at hs
    split at hs
    · rename_i hc
      cases hs
      rw [hc.1] at h2
      refine ⟨h1, ?_, h3, h4, h5⟩
      unfold State.stags; simp only [bit] at h2 ⊢; simp at h2 ⊢; omega
    · cases hs

theorem exec_append (z : Sizes) (s : State) (a b : List Move) :
    exec z s (a ++ b) = (exec z s a).bind (fun s' => exec z s' b) := by
  induction a generalizing s with
  | nil => rfl
  | cons m a ih =>
    change (step z s m).bind _ = ((step z s m).bind _).bind _
    cases step z s m with
    | none => rfl
    | some s' => exact ih s'

theorem inv_exec {z : Sizes} {s s' : State} (h : Inv z s) (ms : List Move) (hs : exec z s ms = some s') : Inv z s' := by
  induction ms generalizing s with
  | nil => cases hs; exact h
  | cons m ms ih =>
    change (step z s m).bind _ = _ at hs
    cases hm : step z s m with
    | none => rw [hm] at hs; cases hs
    | some s1 => rw [hm] at hs; exact ih (inv_step h hm) hs

theorem inv_start (z : Sizes) : Inv z (start z) :=
  ⟨by simp [State.ctags, start, opt, sum, bit], by simp [State.stags, start, opt, sum, bit], Nat.zero_le _, Nat.zero_le _,
    Nat.zero_le _⟩

theorem reach_inv {z : Sizes} {s : State} (h : Reach z s) : Inv z s := by
  obtain ⟨ms, hs⟩ := h
  exact inv_exec (inv_start z) ms hs

/-! ## When nobody can go on -/

theorem sum_req_tag (l : List Up) : sum Up.req l + sum Up.tag l = l.length := by
  induction l with
  | nil => rfl
  | cons x l ih => cases x <;> simp only [sum, Up.req, Up.tag, List.length_cons] <;> omega

theorem sum_rep_tag (l : List Down) : sum Down.rep l + sum Down.tag l = l.length := by
  induction l with
  | nil => rfl
  | cons x l ih => cases x <;> simp only [sum, Down.rep, Down.tag, List.length_cons] <;> omega

theorem opt_req_tag (x : Up) : opt Up.req (some x) + opt Up.tag (some x) = 1 := by cases x <;> rfl

theorem opt_rep_tag (x : Down) : opt Down.rep (some x) + opt Down.tag (some x) = 1 := by cases x <;> rfl

/-- Everything is full, and the client holds the lock that its reader wants. -/
structure Jam (z : Sizes) (s : State) : Prop where
  snd : s.snd = some .cache
  up : s.up.length = z.up
  reply : s.reply = true
  chan : s.chan.length = z.tags
  wr : ∃ x, s.wr = some x
  down : s.down.length = z.down
  got : s.got = true

theorem halted_cases {z : Sizes} {s : State} (hi : Inv z s) (ht : 0 < z.tags) (hu : 0 < z.up) (hd : 0 < z.down)
    (h : Halted z s) : s.home z ∨ Jam z s := by
  have hwrote := h .wrote rfl
  have hread := h .read rfl
  have hreplied := h .replied rfl
  have hannounced := h .announced rfl
  have htake := h .take rfl
  have hswrote := h .swrote rfl
  have hcread := h .cread rfl
  have hhandle := h .handle rfl
  have hsendAck := h .sendAck rfl
  unfold step at hwrote hread hreplied hannounced htake hswrote hcread hhandle hsendAck
  dsimp only at hwrote hread hreplied hannounced htake hswrote hcread hhandle hsendAck
  -- what each goroutine being stopped means
  have a1 : s.snd = none ∨ s.up.length = z.up := by
    cases hx : s.snd with
    | none => exact Or.inl rfl
    | some x =>
      rw [hx] at hwrote
      dsimp only at hwrote
      split at hwrote
      · cases hwrote
      · right; have := hi.up; omega
  have a2 : s.up = [] ∨ s.reply = true := by
    cases hr : s.reply with
    | true => exact Or.inr rfl
    | false =>
      left
      rw [hr] at hread
      cases hl : s.up with
      | nil => rfl
      | cons x r => rw [hl] at hread; cases x <;> cases hread
  have a3 : s.reply = false ∨ s.chan.length = z.tags := by
    split at hreplied
    · cases hreplied
    · rename_i hn
      cases hr : s.reply with
      | false => exact Or.inl rfl
      | true => right; have := hi.chan; by_contra hne; exact hn ⟨hr, by omega⟩
  have a4 : s.ntfn = false ∨ s.chan.length = z.tags := by
    split at hannounced
    · cases hannounced
    · rename_i hn
      cases hr : s.ntfn with
      | false => exact Or.inl rfl
      | true => right; have := hi.chan; by_contra hne; exact hn ⟨hr, by omega⟩
  have a5 : s.chan = [] ∨ ∃ x, s.wr = some x := by
    cases hw : s.wr with
    | some x => exact Or.inr ⟨x, rfl⟩
    | none =>
      left
      rw [hw] at htake
      cases hl : s.chan with
      | nil => rfl
      | cons x r => rw [hl] at htake; cases htake
  have a6 : s.wr = none ∨ s.down.length = z.down := by
    cases hx : s.wr with
    | none => exact Or.inl rfl
    | some x =>
      rw [hx] at hswrote
      dsimp only at hswrote
      split at hswrote
      · cases hswrote
      · right; have := hi.down; omega
  have a7 : s.down = [] ∨ s.got = true := by
    cases hr : s.got with
    | true => exact Or.inr rfl
    | false =>
      left
      rw [hr] at hcread
      cases hl : s.down with
      | nil => rfl
      | cons x r => rw [hl] at hcread; cases x <;> cases hcread
  have a8 : s.got = false ∨ s.snd = some .cache := by
    split at hhandle
    · cases hhandle
    · rename_i hn
      cases hg : s.got with
      | false => exact Or.inl rfl
      | true => right; by_contra hne; exact hn ⟨hg, hne⟩
  have a9 : s.snd ≠ none ∨ s.acks = 0 := by
    split at hsendAck
    · cases hsendAck
    · rename_i hn
      by_cases hx : s.snd = none
      · right; by_contra hne; exact hn ⟨hx, by omega⟩
      · exact Or.inl hx
  rcases a2 with hup | hrep
  · left
    have hsnd : s.snd = none := by
      rcases a1 with h | h
      · exact h
      · rw [hup] at h; simp at h; omega
    have hgot : s.got = false := by
      rcases a8 with h | h
      · exact h
      · rw [hsnd] at h; cases h
    have hdown : s.down = [] := by
      rcases a7 with h | h
      · exact h
      · rw [hgot] at h; cases h
    have hwr : s.wr = none := by
      rcases a6 with h | h
      · exact h
      · rw [hdown] at h; simp at h; omega
    have hchan : s.chan = [] := by
      rcases a5 with h | ⟨x, h⟩
      · exact h
      · rw [hwr] at h; cases h
    have hreply : s.reply = false := by
      rcases a3 with h | h
      · exact h
      · rw [hchan] at h; simp at h; omega
    have hntfn : s.ntfn = false := by
      rcases a4 with h | h
      · exact h
      · rw [hchan] at h; simp at h; omega
    have hacks : s.acks = 0 := by
      rcases a9 with h | h
      · exact absurd hsnd h
      · exact h
    have h1 := hi.ctags
    have h2 := hi.stags
    unfold State.ctags at h1
    unfold State.stags at h2
    rw [hsnd, hup, hreply, hchan, hwr, hdown] at h1
    rw [hsnd, hup, hntfn, hchan, hwr, hdown, hgot, hacks] at h2
    simp [opt, sum, bit] at h1 h2
    exact ⟨h1, h2⟩
  · right
    have hchan : s.chan.length = z.tags := by
      rcases a3 with h | h
      · rw [hrep] at h; cases h
      · exact h
    have hwr : ∃ x, s.wr = some x := by
      rcases a5 with h | h
      · rw [h] at hchan; simp at hchan; omega
      · exact h
    have hdown : s.down.length = z.down := by
      obtain ⟨x, hx⟩ := hwr
      rcases a6 with h | h
      · rw [hx] at h; cases h
      · exact h
    have hgot : s.got = true := by
      rcases a7 with h | h
      · rw [h] at hdown; simp at hdown; omega
      · exact h
    have hsnd : s.snd = some .cache := by
      rcases a8 with h | h
      · rw [hgot] at h; cases h
      · exact h
    have hup : s.up.length = z.up := by
      rcases a1 with h | h
      · rw [hsnd] at h; cases h
      · exact h
    exact ⟨hsnd, hup, hrep, hchan, hwr, hdown, hgot⟩

/-- A jam takes more tags than there are, if the connection is large enough. -/
theorem jam_tags {z : Sizes} {s : State} (hi : Inv z s) (h : Jam z s) : z.up + z.down + 4 ≤ z.tags := by
  have h1 := hi.ctags
  have h2 := hi.stags
  unfold State.ctags at h1
  unfold State.stags at h2
  obtain ⟨x, hx⟩ := h.wr
  have e1 := sum_req_tag s.up
  have e2 := sum_rep_tag s.chan
  have e3 := sum_rep_tag s.down
  have e4 := opt_rep_tag x
  rw [h.snd, h.reply, hx] at h1
  rw [h.snd, h.got, hx] at h2
  rw [h.up] at e1
  rw [h.chan] at e2
  rw [h.down] at e3
  simp only [opt, Up.req, Up.tag, bit] at h1 h2 e4
  simp at h1 h2
  omega

/-! ## Every message is answered in the end -/

def Up.far : Up → Nat
  | .ack => 5
  | _ => 6

def Up.hand : Up → Nat
  | .ack => 6
  | _ => 7

def Down.chan : Down → Nat
  | .ack => 4
  | .push => 11

def Down.hand : Down → Nat
  | .ack => 3
  | .push => 10

def Down.far : Down → Nat
  | .ack => 2
  | .push => 9

/-- How many moves are left at most. -/
def State.left (s : State) : Nat :=
  opt Up.hand s.snd + sum Up.far s.up + 5 * bit s.reply + 12 * bit s.ntfn + sum Down.chan s.chan + opt Down.hand s.wr
    + sum Down.far s.down + 8 * bit s.got + 7 * s.acks

theorem left_step {z : Sizes} {s s' : State} {m : Move} (hm : m.inner = true) (hs : step z s m = some s') :
    s'.left + 1 ≤ s.left := by
  unfold State.left
  cases m with
  | send => cases hm
  | ping => cases hm
  | announce => cases hm
  | sendAck =>
    unfold step at hs; dsimp only at hs
    split at hs
    · rename_i hc
      cases hs
      rw [hc.1]
      simp only [opt, Up.hand]; omega
    · cases hs
  | wrote =>
    unfold step at hs; dsimp only at hs
    split at hs
    · rename_i x hx
      split at hs
      · cases hs
        rw [hx]; dsimp only; rw [sum_snoc]
        cases x <;> simp only [opt, Up.hand, Up.far] <;> omega
      · cases hs
    · cases hs
  | read =>
    unfold step at hs; dsimp only at hs
    split at hs
    · rename_i r hr hu
      cases hs
      rw [hr, hu]; simp [sum, Up.far, bit]; omega
    · rename_i r hr hu
      cases hs
      rw [hr, hu]; simp [sum, Up.far, bit]; omega
    · rename_i r hr hu
      cases hs
      rw [hu]; simp [sum, Up.far]; omega
    · cases hs
  | replied =>
    unfold step at hs; dsimp only at hs
    split at hs
    · rename_i hc
      cases hs
      rw [hc.1]; dsimp only; rw [sum_snoc]; simp [bit, Down.chan]; omega
    · cases hs
  | announced =>
    unfold step at hs; dsimp only at hs
    split at hs
    · rename_i hc
      cases hs
      rw [hc.1]; dsimp only; rw [sum_snoc]; simp [bit, Down.chan]; omega
    · cases hs
  | take =>
    unfold step at hs; dsimp only at hs
    split at hs
    · rename_i x r hw hc
      cases hs
      rw [hw, hc]
      cases x <;> simp only [sum, opt, Down.chan, Down.hand] <;> omega
    · cases hs
  | swrote =>
    unfold step at hs; dsimp only at hs
    split at hs
    · rename_i x hx
      split at hs
      · cases hs
        rw [hx]; dsimp only; rw [sum_snoc]
        cases x <;> simp only [opt, Down.hand, Down.far] <;> omega
      · cases hs
    · cases hs
  | cread =>
    unfold step at hs; dsimp only at hs
    split at hs
    · rename_i r hg hd
      cases hs
      rw [hd]; simp only [sum, Down.far]; omega
    · rename_i r hg hd
      cases hs
      rw [hg, hd]; simp [sum, Down.far, bit]; omega
    · cases hs
  | handle =>
    unfold step at hs; dsimp only at hs
    split at hs
    · rename_i hc
      cases hs
      rw [hc.1]; simp [bit]; omega
    · cases hs

theorem left_exec {z : Sizes} {s s' : State} (ms : List Move) (hm : ∀ m ∈ ms, m.inner = true) (hs : exec z s ms = some s') :
    s'.left + ms.length ≤ s.left := by
  induction ms generalizing s with
  | nil => cases hs; exact Nat.le_refl _
  | cons m ms ih =>
    change (step z s m).bind _ = _ at hs
    cases h1 : step z s m with
    | none => rw [h1] at hs; cases hs
    | some s1 =>
      rw [h1] at hs
      have h2 := ih (fun x hx => hm x (List.mem_cons_of_mem _ hx)) hs
      have h3 := left_step (hm m List.mem_cons_self) h1
      simp only [List.length_cons]
      omega

/-- Claim in full: in a session of the client and the server, whatever they send each other, either all is answered or
some goroutine can go on.  It fails for small connections, see below. -/
def C95_full (z : Sizes) : Prop := ∀ s, Reach z s → s.home z ∨ ¬ Halted z s

/-- C95, what is missing: the connection must hold at least `tags - 3` messages in both directions together.  Then
whatever was sent, and in whatever order the goroutines go on, after at most `s.left` moves all is answered. -/
theorem C95_answered_partial (z : Sizes) (ht : 0 < z.tags) (hu : 0 < z.up) (hd : 0 < z.down)
    (hz : z.tags < z.up + z.down + 4) (s : State) (hr : Reach z s) :
    (∀ ms s', (∀ m ∈ ms, m.inner = true) → exec z s ms = some s' → ms.length ≤ s.left ∧ (Halted z s' → s'.home z))
      ∧ (s.home z ∨ ¬ Halted z s) := by
  have key : ∀ s, Reach z s → Halted z s → s.home z := by
    intro s hr hh
    rcases halted_cases (reach_inv hr) ht hu hd hh with h | h
    · exact h
    · have := jam_tags (reach_inv hr) h; omega
  refine ⟨fun ms s' hm hs => ⟨?_, fun hh => key s' ?_ hh⟩, ?_⟩
  · have := left_exec ms hm hs; omega
  · obtain ⟨ms0, h0⟩ := hr
    exact ⟨ms0 ++ ms, by rw [exec_append, h0]; exact hs⟩
  · by_cases hh : Halted z s
    · exact Or.inl (key s hr hh)
    · exact Or.inr hh

/-! ## The jam -/

/-- Once jammed, the only thing that can still happen is that the server takes one more message to announce. -/
theorem jam_step {z : Sizes} {s s' : State} (h : Jam z s) {m : Move} (hs : step z s m = some s') :
    s.ntfn = false ∧ s' = { s with ntfn := true, sfree := s.sfree - 1 } := by
  obtain ⟨h1, h2, h3, h4, ⟨x, h5⟩, h6, h7⟩ := h
  cases m with
  | announce =>
    unfold step at hs; dsimp only at hs
    split at hs
    · rename_i hc; cases hs; exact ⟨hc.1, rfl⟩
    · cases hs
  | send => unfold step at hs; dsimp only at hs; rw [h1, if_neg (fun hx => by cases hx.1)] at hs; cases hs
  | ping => unfold step at hs; dsimp only at hs; rw [h1, if_neg (fun hx => by cases hx.1)] at hs; cases hs
  | sendAck => unfold step at hs; dsimp only at hs; rw [h1, if_neg (fun hx => by cases hx.1)] at hs; cases hs
  | wrote => unfold step at hs; dsimp only at hs; rw [h1] at hs; dsimp only at hs; rw [if_neg (by omega)] at hs; cases hs
  | read => unfold step at hs; dsimp only at hs; rw [h3] at hs; cases hs
  | replied => unfold step at hs; dsimp only at hs; rw [if_neg (fun hx => by have := hx.2; omega)] at hs; cases hs
  | announced => unfold step at hs; dsimp only at hs; rw [if_neg (fun hx => by have := hx.2; omega)] at hs; cases hs
  | take => unfold step at hs; dsimp only at hs; rw [h5] at hs; cases hs
  | swrote => unfold step at hs; dsimp only at hs; rw [h5] at hs; dsimp only at hs; rw [if_neg (by omega)] at hs; cases hs
  | cread => unfold step at hs; dsimp only at hs; rw [h7] at hs; cases hs
  | handle => unfold step at hs; dsimp only at hs; rw [if_neg (fun hx => hx.2 h1)] at hs; cases hs

theorem jam_exec {z : Sizes} {s s' : State} (h : Jam z s) (ms : List Move) (hs : exec z s ms = some s') :
    Jam z s' ∧ s'.cfree = s.cfree ∧ s'.acks = s.acks := by
  induction ms generalizing s with
  | nil => cases hs; exact ⟨h, rfl, rfl⟩
  | cons m ms ih =>
    change (step z s m).bind _ = _ at hs
    cases h1 : step z s m with
    | none => rw [h1] at hs; cases hs
    | some s1 =>
      rw [h1] at hs
      obtain ⟨_, e⟩ := jam_step h h1
      have hj : Jam z s1 := by rw [e]; exact ⟨h.1, h.2, h.3, h.4, h.5, h.6, h.7⟩
      obtain ⟨r1, r2, r3⟩ := ih hj hs
      refine ⟨r1, ?_, ?_⟩
      · rw [r2, e]
      · rw [r3, e]

/-- `n` times. -/
def times (n : Nat) (ms : List Move) : List Move := (List.replicate n ms).flatten

theorem times_succ (n : Nat) (ms : List Move) : times (n + 1) ms = times n ms ++ ms := by
  unfold times
  rw [List.replicate_succ', List.flatten_append]
  simp

theorem exec_times {z : Sizes} (f : Nat → State) (ms : List Move) (n : Nat) (h : ∀ i < n, exec z (f i) ms = some (f (i + 1))) :
    exec z (f 0) (times n ms) = some (f n) := by
  induction n with
  | zero => rfl
  | succ n ih =>
    rw [times_succ, exec_append, ih (fun i hi => h i (by omega))]
    exact h n (by omega)

/-- How the jam comes about. -/
def jamming (z : Sizes) : List Move :=
  [.announce, .announced, .take, .swrote, .cread]
    ++ times z.down [.announce, .announced, .take, .swrote]
    ++ [.announce, .announced, .take]
    ++ times (z.tags - z.down - 2) [.announce, .announced]
    ++ times (z.down + 2) [.send, .wrote, .read, .replied]
    ++ [.send, .wrote, .read]
    ++ times z.up [.send, .wrote]
    ++ [.send]

/-- The state in a jam. -/
def jammed (z : Sizes) : State :=
  { cfree := z.tags - z.up - z.down - 4, sfree := 0, snd := some .cache, up := List.replicate z.up .cache, reply := true,
    chan := List.replicate (z.tags - z.down - 2) .push ++ List.replicate (z.down + 2) .ack, wr := some .push,
    down := List.replicate z.down .push, got := true }

theorem exec_jamming (z : Sizes) (hu : 0 < z.up) (hd : 0 < z.down) (h : z.up + z.down + 4 ≤ z.tags) :
    exec z (start z) (jamming z) = some (jammed z) := by
  obtain ⟨T, U, D⟩ := z
  dsimp only at hu hd h
  let f1 (i : Nat) : State := { start ⟨T, U, D⟩ with sfree := T - 1 - i, got := true, down := List.replicate i .push }
  let f2 (i : Nat) : State :=
    { f1 D with sfree := T - 2 - D - i, wr := some .push, chan := List.replicate i .push }
  let f3 (i : Nat) : State :=
    { f2 (T - D - 2) with cfree := T - i, sfree := 0, chan := List.replicate (T - D - 2) .push ++ List.replicate i .ack }
  let f4 (i : Nat) : State :=
    { f3 (D + 2) with cfree := T - (D + 2) - 1 - i, reply := true, up := List.replicate i .cache }
  have e1 : exec ⟨T, U, D⟩ (start ⟨T, U, D⟩) [.announce, .announced, .take, .swrote, .cread] = some (f1 0) := by
    simp [exec, step, start, f1, show 0 < T by omega, hd]
  have e2 : exec ⟨T, U, D⟩ (f1 0) (times D [.announce, .announced, .take, .swrote]) = some (f1 D) := by
    apply exec_times
    intro i hi
    simp [exec, step, start, f1, show 0 < T by omega, show 0 < T - 1 - i by omega, hi, List.replicate_succ']
    omega
  have e3 : exec ⟨T, U, D⟩ (f1 D) [.announce, .announced, .take] = some (f2 0) := by
    simp [exec, step, start, f1, f2, show 0 < T by omega, show 0 < T - 1 - D by omega]
    omega
  have e4 : exec ⟨T, U, D⟩ (f2 0) (times (T - D - 2) [.announce, .announced]) = some (f2 (T - D - 2)) := by
    apply exec_times
    intro i hi
    simp [exec, step, start, f1, f2, show i < T by omega, show 0 < T - 2 - D - i by omega, List.replicate_succ']
    omega
  have e4' : f2 (T - D - 2) = f3 0 := by
    simp [f1, f2, f3, start]
    omega
  have e5 : exec ⟨T, U, D⟩ (f3 0) (times (D + 2) [.send, .wrote, .read, .replied]) = some (f3 (D + 2)) := by
    apply exec_times
    intro i hi
    simp [exec, step, start, f1, f2, f3, show 0 < T - i by omega, show T - D - 2 + i < T by omega, List.replicate_succ', hu]
    omega
  have e6 : exec ⟨T, U, D⟩ (f3 (D + 2)) [.send, .wrote, .read] = some (f4 0) := by
    simp [exec, step, start, f1, f2, f3, f4, show 0 < T - (D + 2) by omega, hu]
  have e7 : exec ⟨T, U, D⟩ (f4 0) (times U [.send, .wrote]) = some (f4 U) := by
    apply exec_times
    intro i hi
    simp [exec, step, start, f1, f2, f3, f4, show 0 < T - (D + 2) - 1 - i by omega, List.replicate_succ', hi]
    omega
  have e8 : exec ⟨T, U, D⟩ (f4 U) [.send] = some (jammed ⟨T, U, D⟩) := by
    simp [exec, step, start, f1, f2, f3, f4, jammed, show 0 < T - (D + 2) - 1 - U by omega]
    omega
  unfold jamming
  dsimp only
  simp only [exec_append, e1, e2, e3, e4, e4', e5, e6, e7, e8, Option.bind_some]

theorem jam_jammed {z : Sizes} (h : z.up + z.down + 4 ≤ z.tags) : Jam z (jammed z) :=
  ⟨rfl, by simp [jammed], rfl, by simp [jammed]; omega, ⟨_, rfl⟩, by simp [jammed], rfl⟩

/-- C95, a disagreement: whenever the connection holds less, client and server can come to wait for each other for good:
the client has requests that are not answered, and has been sent messages that it did not acknowledge; nothing that
happens from then on answers or acknowledges any of them. -/
theorem C95_waiting_violated (z : Sizes) (hu : 0 < z.up) (hd : 0 < z.down) (hz : z.up + z.down + 4 ≤ z.tags) :
    ∃ s, Reach z s ∧ s.cfree < z.tags ∧ s.got = true ∧ Halted z s ∧
      ∀ ms s', exec z s ms = some s' → Halted z s' ∧ s'.cfree = s.cfree ∧ s'.acks = s.acks ∧ s'.got = true := by
  have hal : ∀ s, Jam z s → Halted z s := by
    intro s hj m hm
    cases hs : step z s m with
    | none => rfl
    | some s1 =>
      exfalso
      cases m with
      | announce => cases hm
      | send => cases hm
      | ping => cases hm
      | sendAck => simp only [step, hj.snd] at hs; simp at hs
      | wrote => simp only [step, hj.snd] at hs; simp at hs; have := hj.up; omega
      | read => simp only [step, hj.reply] at hs; cases hs
      | replied => simp only [step] at hs; simp at hs; have := hj.chan; omega
      | announced => simp only [step] at hs; simp at hs; have := hj.chan; omega
      | take => obtain ⟨x, hx⟩ := hj.wr; simp only [step, hx] at hs; cases hs
      | swrote => obtain ⟨x, hx⟩ := hj.wr; simp only [step, hx] at hs; simp at hs; have := hj.down; omega
      | cread => simp only [step, hj.got] at hs; cases hs
      | handle => simp only [step, hj.snd] at hs; simp at hs
  refine ⟨jammed z, ⟨_, exec_jamming z hu hd hz⟩, by simp only [jammed]; omega, rfl, hal _ (jam_jammed hz), ?_⟩
  intro ms s' hs
  obtain ⟨hj, h1, h2⟩ := jam_exec (jam_jammed hz) ms hs
  exact ⟨hal _ hj, h1, h2, hj.got⟩

/-- C95, exactly when it holds. -/
theorem C95_exact (z : Sizes) (ht : 0 < z.tags) (hu : 0 < z.up) (hd : 0 < z.down) :
    C95_full z ↔ z.tags < z.up + z.down + 4 := by
  constructor
  · intro h
    by_contra hn
    obtain ⟨s, hr, hc, _, hh, _⟩ := C95_waiting_violated z hu hd (by omega)
    rcases h s hr with h1 | h1
    · have := h1.1; omega
    · exact h1 hh
  · intro hz s hr
    exact (C95_answered_partial z ht hu hd hz s hr).2

/-- With the 32 tags of the code and room for fourteen messages in each direction, they can come to wait for each
other; with room for fifteen they can not. -/
example : ¬ C95_full ⟨32, 14, 14⟩ ∧ C95_full ⟨32, 15, 15⟩ :=
  ⟨fun h => absurd ((C95_exact _ (by decide) (by decide) (by decide)).1 h) (by decide),
    (C95_exact _ (by decide) (by decide) (by decide)).2 (by decide)⟩

/-- A client that gets a message while it sends one: it handles it once it is done, and all is answered. -/
example : ∃ s s', exec ⟨32, 15, 15⟩ (start ⟨32, 15, 15⟩)
      [.announce, .announced, .take, .swrote, .send, .cread] = some s
    ∧ step ⟨32, 15, 15⟩ s .handle = none
    ∧ exec ⟨32, 15, 15⟩ s
        [.wrote, .handle, .sendAck, .read, .wrote, .replied, .read, .take, .swrote, .cread] = some s'
    ∧ s'.home ⟨32, 15, 15⟩ ∧ s'.left = 0 := by
  refine ⟨_, _, rfl, rfl, rfl, ?_, rfl⟩
  decide

/-- A ping does not hold the lock: the message is handled while the ping is being written. -/
example : ∃ s, exec ⟨32, 1, 1⟩ (start ⟨32, 1, 1⟩)
      [.announce, .announced, .take, .swrote, .ping, .cread, .handle] = some s ∧ s.acks = 1 :=
  ⟨_, rfl, rfl⟩

end Verif.Flow
