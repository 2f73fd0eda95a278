import Verif.Model.PinContact
import Verif.Proofs.Contact

/-! The phases of polite contact making with a PIN. -/

namespace Verif.PinContact

open Verif Verif.Ratchet
open Verif.Contact (Rand role role_not role_self Link halfOf msgOfKX fill_eq complete_true complete_false live_send live_recv
  link_start upd_not')

@[simp] theorem put_side_self (s : State) (w S o) : (s.put w S o).side w = S := upd_self ..
@[simp] theorem put_side_not (s : State) (w S o) : (s.put w S o).side (!w) = s.side (!w) := upd_not ..
@[simp] theorem put_side_not' (s : State) (w S o) : (s.put (!w) S o).side w = s.side w := upd_not' ..
@[simp] theorem put_q_not (s : State) (w S o) : (s.put w S o).q (!w) = s.q (!w) ++ o := upd_self ..
@[simp] theorem put_q_not' (s : State) (w S o) : (s.put (!w) S o).q w = s.q w ++ o := by
  simp only [State.put, Bool.not_not, upd_self]
@[simp] theorem put_q_self (s : State) (w S o) : (s.put w S o).q w = s.q w := upd_not' ..
@[simp] theorem put_pins (s : State) (w S o) : (s.put w S o).pins = s.pins := rfl

/-- The state without the first message on its way to a client. -/
def pop (s : State) (w : Bool) (rest : List Item) : State := ⟨s.side, upd s.q w rest, s.pins⟩

@[simp] theorem pop_side (s : State) (w r) : (pop s w r).side = s.side := rfl
@[simp] theorem pop_pins (s : State) (w r) : (pop s w r).pins = s.pins := rfl
@[simp] theorem pop_q_self (s : State) (w r) : (pop s w r).q w = r := upd_self ..
@[simp] theorem pop_q_not (s : State) (w r) : (pop s w r).q (!w) = s.q (!w) := upd_not ..
@[simp] theorem pop_q_not' (s : State) (w r) : (pop s (!w) r).q w = s.q w := upd_not' ..

theorem step_recv {dir : Bool} {K : Bool → Nat} {s : State} {w : Bool} {now : Int} {rd : Rand} {it : Item}
    {rest : List Item} (h : s.q w = it :: rest) : step dir K s (.recv w now rd) =
      (pop s w rest).put w (handle dir (K w) (K !w) (s.side w) now rd it).1
        (handle dir (K w) (K !w) (s.side w) now rd it).2 := by
  simp only [step, h, pop]

theorem step_recv_nil {dir : Bool} {K : Bool → Nat} {s : State} {w : Bool} {now : Int} {rd : Rand} (h : s.q w = []) :
    step dir K s (.recv w now rd) = s := by
  simp only [step, h]

/-- The encrypted messages among what is on its way. -/
def dataOf : Item → Option Contact.Item
  | .data ct m => some (.data ct m)
  | _ => none

/-- Messages encrypted so far. -/
def total (s : State) : Nat := (s.side true).sent.length + (s.side false).sent.length

theorem total_put {s : State} {w : Bool} {S : Side} {o : List Item} (h : S.sent = (s.side w).sent) :
    total (s.put w S o) = total s := by
  cases w <;> simp [total, State.put, upd, h]

theorem total_put_sent {s : State} {w : Bool} {S : Side} {o : List Item} {m : Bytes}
    (h : S.sent = (s.side w).sent ++ [m]) : total (s.put w S o) = total s + 1 := by
  cases w <;> simp [total, State.put, upd, h] <;> omega

theorem total_pop {s : State} {w : Bool} {r : List Item} : total (pop s w r) = total s := rfl

theorem cacheCRPC_none {S : Side} {priv hn mn : Nat} {msg : Bytes} (h : S.full = none) :
    cacheCRPC S priv hn mn msg = none := by
  simp only [cacheCRPC, h]

theorem cacheCRPC_live {S : Side} {f f' : Ratchet} {priv hn mn : Nat} {msg : Bytes} {ct : Ct} (h : S.full = some f)
    (he : encrypt f priv hn mn msg = (.ok ct, f')) : cacheCRPC S priv hn mn msg =
      some ({ S with full := some f', sent := S.sent ++ [msg] }, .data ct msg) := by
  simp only [cacheCRPC, h, he]

theorem cacheCRPC_some {S S' : Side} {priv hn mn : Nat} {msg : Bytes} {it : Item}
    (h : cacheCRPC S priv hn mn msg = some (S', it)) :
    ∃ f ct f', S.full = some f ∧ encrypt f priv hn mn msg = (.ok ct, f') ∧
      S' = { S with full := some f', sent := S.sent ++ [msg] } ∧ it = .data ct msg := by
  unfold cacheCRPC at h
  split at h
  · cases h
  · next f hf =>
    split at h
    · next ct f' he => cases h; exact ⟨f, ct, f', hf, he, rfl, rfl⟩
    · cases h

theorem yes_eq (a b : Nat) (S : Side) (k : Nat) (rd : Rand) : yes a b S k rd =
    if S.exists_ then (S, [.idkx k (msgOfKX b rd.priv rd.kem)])
    else ({ S with known := true, keys := S.keys ++ [.rnd k], half := some (halfOf a b rd.priv rd.kem), asking := none },
      [.idkx k (msgOfKX b rd.priv rd.kem)]) := by
  simp only [yes, fill_eq]

theorem step1_eq (a b : Nat) (S : Side) (rd : Rand) : step1 a b S rd =
    if S.exists_ then (S, [.idkxDir b rd.blob (msgOfKX b rd.priv rd.kem)])
    else ({ S with known := true, keys := S.keys ++ [.kem b rd.blob], half := some (halfOf a b rd.priv rd.kem) },
      [.idkxDir b rd.blob (msgOfKX b rd.priv rd.kem)]) := by
  simp only [step1, fill_eq]

theorem answer_cases (a b : Nat) (S : Side) (rd : Rand) (bk : Key) (x : KeyExchange) :
    answer a b S rd bk x = (S, []) ∨ ∃ f, answer a b S rd bk x =
      ({ S with known := true, full := some f, inBook := true }, [.kx bk (msgOfKX b rd.priv rd.kem)]) := by
  simp only [answer, fill_eq]
  rcases completeKeyExchange (halfOf a b rd.priv rd.kem) x false with ⟨_ | _ | _ | _, f⟩
  · exact .inr ⟨f, rfl⟩
  · exact .inl rfl
  · exact .inl rfl
  · exact .inl rfl

theorem open_junk {S : Side} {f : Ratchet} {now : Int} {it : Item} (h : dataOf it = none) : open_ S f now it = S := by
  unfold open_
  obtain ⟨R, hR⟩ := decrypt_junk f now 0 0 0
  cases it with
  | data ct m => cases h
  | idkx k x => simp only [Item.asCt, hR]
  | idkxDir pk r x => simp only [Item.asCt, hR]
  | kx k x => simp only [Item.asCt, hR]
  | reset => simp only [Item.asCt, hR]

/-- Nothing but the files, the address book and what was shown depends on what arrives. -/
theorem handle_same (dir : Bool) (a b : Nat) (S : Side) (now : Int) (rd : Rand) (it : Item) :
    let S' := (handle dir a b S now rd it).1
    S'.sent = S.sent ∧ S'.dels = S.dels ∧ S'.asking = S.asking ∧ ∀ k ∈ S.keys, k ∈ S'.keys := by
  have ans (bk : Key) (x : KeyExchange) : let S' := (answer a b S rd bk x).1
      S'.sent = S.sent ∧ S'.dels = S.dels ∧ S'.asking = S.asking ∧ ∀ k ∈ S.keys, k ∈ S'.keys := by
    rcases answer_cases a b S rd bk x with h | ⟨f, h⟩
    · rw [h]; exact ⟨rfl, rfl, rfl, fun k hk => hk⟩
    · rw [h]; exact ⟨rfl, rfl, rfl, fun k hk => hk⟩
  unfold handle
  split
  · split
    · rw [step1_eq]
      split
      · exact ⟨rfl, rfl, rfl, fun k hk => hk⟩
      · exact ⟨rfl, rfl, rfl, fun k hk => List.mem_append_left _ hk⟩
    · exact ⟨rfl, rfl, rfl, fun k hk => hk⟩
  · split
    · cases it with
      | idkx k x =>
        simp only [step2]
        split
        · exact ans _ _
        · exact ⟨rfl, rfl, rfl, fun k hk => hk⟩
      | idkxDir pk r x =>
        simp only [step2]
        split
        · exact ans _ _
        · exact ⟨rfl, rfl, rfl, fun k hk => hk⟩
      | kx k x => exact ⟨rfl, rfl, rfl, fun k hk => hk⟩
      | reset => exact ⟨rfl, rfl, rfl, fun k hk => hk⟩
      | data ct m => exact ⟨rfl, rfl, rfl, fun k hk => hk⟩
    · split
      · simp only [step3]
        repeat' split
        all_goals exact ⟨rfl, rfl, rfl, fun k hk => hk⟩
      · simp only [open_]
        split <;> exact ⟨rfl, rfl, rfl, fun k hk => hk⟩

/-! ## What is known of PINs -/

/-- Who made a PIN has its key, and a window is only open for a PIN of the other. -/
def Pins (s : State) : Prop :=
  ∀ v, (∀ k ∈ s.pins v, Key.rnd k ∈ (s.side v).keys) ∧ (∀ k, (s.side v).asking = some k → k ∈ s.pins (!v))

theorem pins_put {s : State} (h : Pins s) {w : Bool} {S : Side} {o : List Item}
    (h1 : ∀ k ∈ (s.side w).keys, k ∈ S.keys) (h2 : S.asking = none ∨ S.asking = (s.side w).asking) :
    Pins (s.put w S o) := by
  intro v
  rcases bool_cases w v with rfl | rfl
  · rw [put_side_self, put_pins]
    refine ⟨fun k hk => h1 _ ((h v).1 k hk), ?_⟩
    rcases h2 with h2 | h2
    · rw [h2]; intro k hk; cases hk
    · rw [h2]; exact (h v).2
  · rw [put_side_not, put_pins]; exact h _

theorem pins_step {dir : Bool} {K : Bool → Nat} {s : State} (h : Pins s) (e : Ev) : Pins (step dir K s e) := by
  cases e with
  | pin w k =>
    intro v
    simp only [step]
    rcases bool_cases w v with rfl | rfl
    · rw [put_side_self]
      refine ⟨?_, ?_⟩
      · intro k' hk
        rw [upd_self] at hk
        rcases List.mem_append.mp hk with hk | hk
        · exact List.mem_append_left _ ((h v).1 _ hk)
        · rw [List.mem_singleton.mp hk]; simp
      · intro k' hk
        rw [upd_not]
        exact (h v).2 _ hk
    · rw [put_side_not]
      refine ⟨?_, ?_⟩
      · rw [upd_not]; exact (h _).1
      · intro k' hk
        have := (h _).2 _ hk
        rw [Bool.not_not] at this ⊢
        rw [upd_self]
        exact List.mem_append_left _ this
  | fetch w k =>
    simp only [step]
    split
    · next hk =>
      intro v
      rcases bool_cases w v with rfl | rfl
      · rw [put_side_self, put_pins]
        refine ⟨(h v).1, ?_⟩
        intro k' hk'
        cases hk'
        exact hk.1
      · rw [put_side_not, put_pins]; exact h _
    · exact h
  | yes w rd =>
    simp only [step]
    split
    · exact h
    · rw [yes_eq]
      split
      · exact pins_put h (fun k hk => hk) (.inr rfl)
      · exact pins_put h (fun k hk => List.mem_append_left _ hk) (.inl rfl)
  | no w => exact pins_put h (fun k hk => hk) (.inl rfl)
  | send w priv hn mn msg =>
    simp only [step]
    split
    · next S it hs =>
      obtain ⟨f, ct, f', _, _, rfl, rfl⟩ := cacheCRPC_some hs
      exact pins_put h (fun k hk => hk) (.inr rfl)
    · exact h
  | reset w =>
    simp only [step]
    split
    · split
      · exact pins_put h (fun k hk => hk) (.inr rfl)
      · exact pins_put h (fun k hk => hk) (.inr rfl)
    · exact h
  | del w priv hn mn msg =>
    simp only [step]
    split
    · split
      · next S it hs =>
        obtain ⟨f, ct, f', _, _, rfl, rfl⟩ := cacheCRPC_some hs
        exact pins_put h (fun k hk => hk) (.inr rfl)
      · exact h
    · exact h
  | delDone w =>
    simp only [step]
    split
    · exact h
    · exact pins_put h (fun k hk => hk) (.inr rfl)
  | recv w now rd =>
    rcases hq : s.q w with _ | ⟨it, rest⟩
    · rw [step_recv_nil hq]; exact h
    · rw [step_recv hq]
      have hs := handle_same dir (K w) (K !w) (s.side w) now rd it
      exact pins_put (s := pop s w rest) h hs.2.2.2 (.inr hs.2.2.1)

/-! ## Phases -/

/-- What polite users go through. -/
inductive Phase (K : Bool → Nat) (s : State) : Prop
  | idle (hn : ∀ v, (s.side v).half = none ∧ (s.side v).full = none ∧ (s.side v).inBook = false ∧
        (s.side v).known = false ∧ s.q v = [])
  | offered (v : Bool) (pa ra k : Nat)
      (hv : (s.side v).known = true ∧ (s.side v).half = some (halfOf (K v) (K !v) pa ra) ∧ (s.side v).full = none ∧
        Key.rnd k ∈ (s.side v).keys ∧ s.q v = [])
      (ho : (s.side (!v)).half = none ∧ (s.side (!v)).full = none ∧ Key.rnd k ∈ (s.side (!v)).keys)
      (hq : s.q (!v) = [.idkx k (msgOfKX (K !v) pa ra)])
  | answered (v : Bool) (pa pb ra rb k : Nat) (c : Conv) (L : List Item)
      (hr : Ratchet.Reach (K v) (K !v) pa pb ra rb c) (hl : c.wire.length ≤ total s)
      (hv : (s.side v).known = true ∧ (s.side v).half = some (halfOf (K v) (K !v) pa ra) ∧ (s.side v).full = none ∧
        Key.rnd k ∈ (s.side v).keys)
      (ho : (s.side (!v)).known = true ∧ (s.side (!v)).half = none ∧ (s.side (!v)).inBook = true ∧
        (s.side (!v)).full = some (c.st false))
      (hq' : s.q (!v) = []) (hq : s.q v = .kx (.rnd k) (msgOfKX (K v) pb rb) :: L) (hx : .reset ∉ L)
      (hL : Link c true (L.filterMap dataOf)) (hL' : Link c false [])
      (hst : c.st true = (start (K v) (K !v) pa pb ra rb).st true)
  | talking (a : Bool) (pa pb ra rb : Nat) (c : Conv)
      (hr : Ratchet.Reach (K a) (K !a) pa pb ra rb c) (hl : c.wire.length ≤ total s)
      (hs : ∀ v, (s.side v).known = true ∧ (s.side v).half = none ∧ (s.side v).inBook = true ∧
        (s.side v).full = some (c.st (role a v)))
      (hx : ∀ v, .reset ∉ s.q v)
      (hL : ∀ v, Link c (role a v) ((s.q v).filterMap dataOf))

/-- A change of the keys or of what is asked does not matter. -/
theorem phase_idle_put {K : Bool → Nat} {s t : State} (h : Phase K s) (hq : t.q = s.q)
    (hs : ∀ v, (t.side v).half = (s.side v).half ∧ (t.side v).full = (s.side v).full ∧
      (t.side v).inBook = (s.side v).inBook ∧ (t.side v).known = (s.side v).known ∧ (t.side v).sent = (s.side v).sent ∧
      ∀ k ∈ (s.side v).keys, k ∈ (t.side v).keys) : Phase K t := by
  have ht : total t = total s := by simp [total, (hs true).2.2.2.2.1, (hs false).2.2.2.2.1]
  cases h with
  | idle hn =>
    refine .idle fun v => ?_
    obtain ⟨a1, a2, a3, a4, a5, a6⟩ := hs v
    rw [a1, a2, a3, a4, hq]; exact hn v
  | offered v pa ra k hv ho hq' =>
    obtain ⟨a1, a2, a3, a4, a5, a6⟩ := hs v
    obtain ⟨b1, b2, b3, b4, b5, b6⟩ := hs (!v)
    refine .offered v pa ra k ?_ ?_ (by rw [hq]; exact hq')
    · rw [a1, a2, a4, hq]; exact ⟨hv.1, hv.2.1, hv.2.2.1, a6 _ hv.2.2.2.1, hv.2.2.2.2⟩
    · rw [b1, b2]; exact ⟨ho.1, ho.2.1, b6 _ ho.2.2⟩
  | answered v pa pb ra rb k c L hr hl hv ho hq' hq'' hx hL hL' hst =>
    obtain ⟨a1, a2, a3, a4, a5, a6⟩ := hs v
    obtain ⟨b1, b2, b3, b4, b5, b6⟩ := hs (!v)
    refine .answered v pa pb ra rb k c L hr (by rw [ht]; exact hl) ?_ ?_ (by rw [hq]; exact hq') (by rw [hq]; exact hq'')
      hx hL hL' hst
    · rw [a1, a2, a4]; exact ⟨hv.1, hv.2.1, hv.2.2.1, a6 _ hv.2.2.2⟩
    · rw [b1, b2, b3, b4]; exact ho
  | talking a pa pb ra rb c hr hl hs' hx hL =>
    refine .talking a pa pb ra rb c hr (by rw [ht]; exact hl) ?_ (by rw [hq]; exact hx) (by rw [hq]; exact hL)
    intro v
    obtain ⟨a1, a2, a3, a4, a5, a6⟩ := hs v
    rw [a1, a2, a3, a4]; exact hs' v

theorem phase_pin {K : Bool → Nat} {s : State} (h : Phase K s) (w : Bool) (k : Nat) :
    Phase K (step false K s (.pin w k)) := by
  refine phase_idle_put h ?_ ?_
  · funext v
    simp only [step]
    rcases bool_cases w v with rfl | rfl
    · simp
    · simp
  · intro v
    simp only [step]
    rcases bool_cases w v with rfl | rfl
    · rw [put_side_self]; exact ⟨rfl, rfl, rfl, rfl, rfl, fun k hk => List.mem_append_left _ hk⟩
    · rw [put_side_not]; exact ⟨rfl, rfl, rfl, rfl, rfl, fun k hk => hk⟩

theorem phase_ask {K : Bool → Nat} {s : State} (h : Phase K s) (w : Bool) (k : Option Nat) :
    Phase K (s.put w { s.side w with asking := k } []) := by
  refine phase_idle_put h ?_ ?_
  · funext v
    rcases bool_cases w v with rfl | rfl <;> simp
  · intro v
    rcases bool_cases w v with rfl | rfl
    · rw [put_side_self]; exact ⟨rfl, rfl, rfl, rfl, rfl, fun k hk => hk⟩
    · rw [put_side_not]; exact ⟨rfl, rfl, rfl, rfl, rfl, fun k hk => hk⟩

theorem Phase.quiet {K : Bool → Nat} {s : State} (h : Phase K s) (hb : ¬ Busy s) :
    (∀ v, (s.side v).half = none ∧ (s.side v).full = none ∧ (s.side v).inBook = false ∧
        (s.side v).known = false ∧ s.q v = []) ∨
    ∃ (a : Bool) (pa pb ra rb : Nat) (c : Conv), Ratchet.Reach (K a) (K !a) pa pb ra rb c ∧
      c.wire.length ≤ total s ∧ (∀ v, (s.side v).known = true ∧ (s.side v).half = none ∧ (s.side v).inBook = true ∧
        (s.side v).full = some (c.st (role a v))) ∧ (∀ v, .reset ∉ s.q v) ∧
        ∀ v, Link c (role a v) ((s.q v).filterMap dataOf) := by
  cases h with
  | idle hn => exact .inl hn
  | offered v pa ra k hv => exact absurd ⟨v, .inl (by rw [hv.2.1]; rfl)⟩ hb
  | answered v pa pb ra rb k c L hr hl hv => exact absurd ⟨v, .inl (by rw [hv.2.1]; rfl)⟩ hb
  | talking a pa pb ra rb c hr hl hs hx hL => exact .inr ⟨a, pa, pb, ra, rb, c, hr, hl, hs, hx, hL⟩

theorem phase_yes {K : Bool → Nat} {s : State} (h : Phase K s) (hp : Pins s) (w : Bool) (rd : Rand) (hb : ¬ Busy s) :
    Phase K (step false K s (.yes w rd)) := by
  simp only [step]
  rcases ha : (s.side w).asking with _ | k
  · exact h
  · simp only [yes_eq]
    have hk := (hp (!w)).1 _ ((hp w).2 k ha)
    rcases h.quiet hb with hn | ⟨a, pa, pb, ra, rb, c, hr, hl, hs, hx, hL⟩
    · have e1 : (s.side w).exists_ = false := by simp [Side.exists_, hn w]
      simp only [e1, Bool.false_eq_true, if_false]
      exact .offered w rd.priv rd.kem k (by simp [hn w]) (by simp [hn (!w), hk]) (by simp [hn (!w)])
    · have e1 : (s.side w).exists_ = true := by simp [Side.exists_, hs w]
      simp only [e1, if_true]
      refine .talking a pa pb ra rb c hr (by rw [total_put (by rfl)]; exact hl) ?_ ?_ ?_
      · intro v
        rcases bool_cases w v with rfl | rfl
        · rw [put_side_self]; exact hs v
        · rw [put_side_not]; exact hs _
      · intro v
        rcases bool_cases w v with rfl | rfl
        · rw [put_q_self]; exact hx v
        · rw [put_q_not]; simpa using hx _
      · intro v
        rcases bool_cases w v with rfl | rfl
        · rw [put_q_self]; exact hL v
        · rw [put_q_not, List.filterMap_append]
          have e2 : [Item.idkx k (msgOfKX (K !w) rd.priv rd.kem)].filterMap dataOf = [] := rfl
          rw [e2, List.append_nil]
          exact hL _

theorem phase_send {K : Bool → Nat} {s : State} (h : Phase K s) (hlen : total s + 1 < u32) (w : Bool)
    (priv hn mn : Nat) (msg : Bytes) : Phase K (step false K s (.send w priv hn mn msg)) := by
  have none (hf : (s.side w).full = none) : Phase K (step false K s (.send w priv hn mn msg)) := by
    simp only [step, cacheCRPC_none hf]; exact h
  cases h with
  | idle hn => exact none (hn w).2.1
  | offered v pa ra k hv ho =>
    rcases bool_cases v w with rfl | rfl
    · exact none hv.2.2.1
    · exact none ho.2.1
  | answered v pa pb ra rb k c L hr hl hv ho hq' hq hx hL hL' hst =>
    rcases bool_cases v w with rfl | rfl
    · exact none hv.2.2.1
    · obtain ⟨ct, c', h1, h2, h3, h4, h5, h6⟩ := live_send (x := false) hr (by omega) priv hn mn msg
      have h6 : Link c' true (L.filterMap dataOf ++ [.data ct msg]) := h6 _ hL
      simp only [step, cacheCRPC_live ho.2.2.2 h1]
      refine .answered v pa pb ra rb k c' (L ++ [.data ct msg]) h2
        (by rw [total_put_sent (by rfl)]; omega) (by simpa using hv) (by simp [ho]) (by simpa using hq')
        (by simp [hq]) (by simpa using hx) (by simpa [dataOf] using h6) (h5 _ hL') (by rw [← hst]; exact h4)
  | talking a pa pb ra rb c hr hl hs hx hL =>
    obtain ⟨ct, c', h1, h2, h3, h4, h5, h6⟩ := live_send (x := role a w) hr (by omega) priv hn mn msg
    simp only [step, cacheCRPC_live (hs w).2.2.2 h1]
    refine .talking a pa pb ra rb c' h2 (by rw [total_put_sent (by rfl)]; omega) ?_ ?_ ?_
    · intro v
      rcases bool_cases w v with rfl | rfl
      · simp [hs v]
      · rw [put_side_not, role_not, h4, ← role_not]; exact hs _
    · intro v
      rcases bool_cases w v with rfl | rfl
      · rw [put_q_self]; exact hx v
      · rw [put_q_not]; simpa using hx _
    · intro v
      rcases bool_cases w v with rfl | rfl
      · rw [put_q_self]; exact h5 _ (hL v)
      · rw [put_q_not, role_not, List.filterMap_append]
        exact h6 _ (by rw [← role_not]; exact hL _)

theorem handle_live {dir : Bool} {a b : Nat} {S : Side} {now : Int} {rd : Rand} {ct : Ct} {m : Bytes} {f f' : Ratchet}
    (h1 : S.known = true) (h2 : S.full = some f) (hd : decrypt f now ct = (.ok m, f')) :
    handle dir a b S now rd (.data ct m) = ({ S with full := some f', shown := S.shown ++ [m] }, []) := by
  unfold handle
  rw [if_neg (by simp), if_neg (by simp [Side.exists_, h1, h2])]
  simp only [h2, open_, Item.asCt, hd]

theorem handle_junk {dir : Bool} {a b : Nat} {S : Side} {now : Int} {rd : Rand} {it : Item} {f : Ratchet}
    (h1 : S.known = true) (h2 : S.full = some f) (h3 : it ≠ .reset) (h4 : dataOf it = none) :
    handle dir a b S now rd it = (S, []) := by
  unfold handle
  rw [if_neg h3, if_neg (by simp [Side.exists_, h1, h2])]
  simp only [h2, open_junk h4]

theorem phase_recv {K : Bool → Nat} {s : State} (h : Phase K s) (hlen : total s + 1 < u32) (w : Bool)
    (now : Int) (rd : Rand) : Phase K (step false K s (.recv w now rd)) := by
  rcases hqw : s.q w with _ | ⟨it, rest⟩
  · rw [step_recv_nil hqw]; exact h
  rw [step_recv hqw]
  cases h with
  | idle hn => rw [(hn w).2.2.2.2] at hqw; cases hqw
  | offered v pa ra k hv ho hq =>
    rcases bool_cases v w with rfl | rfl
    · rw [hv.2.2.2.2] at hqw; cases hqw
    · rw [hq] at hqw
      simp only [List.cons.injEq] at hqw
      obtain ⟨rfl, rfl⟩ := hqw
      have e1 : (s.side (!v)).exists_ = false := by simp [Side.exists_, ho]
      have e2 := complete_false (K v) (K !v) pa rd.priv ra rd.kem
      simp only [handle, reduceCtorEq, if_false, e1, if_true, step2, ho.2.2, and_self, answer, Bool.not_not, fill_eq, e2]
      exact .answered v pa rd.priv ra rd.kem k _ [] .start (Nat.zero_le _)
        (by simpa using ⟨hv.1, hv.2.1, hv.2.2.1, hv.2.2.2.1⟩) (by simp [ho]) (by simp)
        (by simp [hv]) (by simp) (link_start ..) (link_start ..) rfl
  | answered v pa pb ra rb k c L hr hl hv ho hq' hq hx hL hL' hst =>
    rcases bool_cases v w with rfl | rfl
    · rw [hq] at hqw
      simp only [List.cons.injEq] at hqw
      obtain ⟨rfl, rfl⟩ := hqw
      have e1 : (s.side w).exists_ = true := by simp [Side.exists_, hv]
      simp only [handle, reduceCtorEq, if_false, e1, Bool.true_eq_false, hv.2.2.1, step3, hv.2.2.2, if_true, hv.2.1,
        complete_true]
      refine .talking w pa pb ra rb c hr
        (by rw [total_put (by rfl), total_pop]; exact hl) ?_ ?_ ?_
      · intro x
        rcases bool_cases w x with rfl | rfl
        · simp [hv, role_self, hst]
        · rw [put_side_not, role_not, role_self]
          exact ⟨ho.1, ho.2.1, ho.2.2.1, ho.2.2.2⟩
      · intro x
        rcases bool_cases w x with rfl | rfl
        · rw [put_q_self, pop_q_self]; exact hx
        · rw [put_q_not, pop_q_not, hq']; simp
      · intro x
        rcases bool_cases w x with rfl | rfl
        · rw [put_q_self, pop_q_self, role_self]; exact hL
        · rw [put_q_not, pop_q_not, role_not, role_self, hq']; exact hL'
    · rw [hq'] at hqw; cases hqw
  | talking a pa pb ra rb c hr hl hs hx hL =>
    have hne : it ≠ .reset := by
      rintro rfl
      exact hx w (by rw [hqw]; simp)
    have hxr : ∀ v, .reset ∉ (pop s w rest).q v := by
      intro v
      rcases bool_cases w v with rfl | rfl
      · rw [pop_q_self]
        intro hm
        exact hx v (by rw [hqw]; exact List.mem_cons_of_mem _ hm)
      · rw [pop_q_not]; exact hx _
    rcases hd : dataOf it with _ | jt
    · rw [handle_junk (hs w).1 (hs w).2.2.2 hne hd]
      refine .talking a pa pb ra rb c hr (by rw [total_put (by rfl), total_pop]; exact hl) ?_ ?_ ?_
      · intro v
        rcases bool_cases w v with rfl | rfl
        · rw [put_side_self]; exact hs v
        · rw [put_side_not]; exact hs _
      · intro v
        rcases bool_cases w v with rfl | rfl
        · rw [put_q_self]; exact hxr v
        · rw [put_q_not, List.append_nil]; exact hxr _
      · intro v
        rcases bool_cases w v with rfl | rfl
        · rw [put_q_self, pop_q_self]
          have := hL v
          rw [hqw, List.filterMap_cons_none hd] at this
          exact this
        · rw [put_q_not, pop_q_not, List.append_nil]; exact hL _
    · have hLw := hL w
      rw [hqw, List.filterMap_cons_some hd] at hLw
      obtain ⟨ct, msg, c', rfl, h2, h3, h4, h5, h6, h7⟩ := live_recv hr (by omega) hLw now
      have hit : it = .data ct msg := by
        cases it with
        | data ct' m' => simp only [dataOf, Option.some.injEq, Contact.Item.data.injEq] at hd; rw [hd.1, hd.2]
        | idkx k x => cases hd
        | idkxDir pk r x => cases hd
        | kx k x => cases hd
        | reset => cases hd
      subst hit
      rw [handle_live (hs w).1 (hs w).2.2.2 h2]
      refine .talking a pa pb ra rb c' h3
        (by rw [total_put (by rfl), total_pop, h4]; exact hl) ?_ ?_ ?_
      · intro x
        rcases bool_cases w x with rfl | rfl
        · simp [hs x]
        · rw [put_side_not, role_not, h5, ← role_not]; exact hs _
      · intro v
        rcases bool_cases w v with rfl | rfl
        · rw [put_q_self]; exact hxr v
        · rw [put_q_not, List.append_nil]; exact hxr _
      · intro x
        rcases bool_cases w x with rfl | rfl
        · rw [put_q_self, pop_q_self]; exact h6
        · rw [put_q_not, pop_q_not, role_not, List.append_nil]
          exact h7 _ (by rw [← role_not]; exact hL _)

/-- Does anything but sending change the number of messages sent? -/
theorem total_step (dir : Bool) (K : Bool → Nat) (s : State) (e : Ev) : total s ≤ total (step dir K s e) := by
  cases e with
  | pin w k => exact Nat.le_of_eq (total_put (s := s) (w := w) (S := { s.side w with keys := (s.side w).keys ++ [.rnd k] })
      (o := []) rfl).symm
  | fetch w k =>
    simp only [step]
    split
    · exact Nat.le_of_eq (total_put (by rfl)).symm
    · exact Nat.le_refl _
  | yes w rd =>
    simp only [step]
    split
    · exact Nat.le_refl _
    · rw [yes_eq]
      split <;> exact Nat.le_of_eq (total_put (by rfl)).symm
  | no w => exact Nat.le_of_eq (total_put (by rfl)).symm
  | send w priv hn mn msg =>
    simp only [step]
    split
    · next S it hs =>
      obtain ⟨f, ct, f', _, _, rfl, rfl⟩ := cacheCRPC_some hs
      rw [total_put_sent (by rfl)]; omega
    · exact Nat.le_refl _
  | del w priv hn mn msg =>
    simp only [step]
    split
    · split
      · next S it hs =>
        obtain ⟨f, ct, f', _, _, rfl, rfl⟩ := cacheCRPC_some hs
        rw [total_put_sent (by rfl)]; omega
      · exact Nat.le_refl _
    · exact Nat.le_refl _
  | reset w =>
    simp only [step]
    split
    · split <;> exact Nat.le_of_eq (total_put (by rfl)).symm
    · exact Nat.le_refl _
  | delDone w =>
    simp only [step]
    split
    · exact Nat.le_refl _
    · exact Nat.le_of_eq (total_put (by rfl)).symm
  | recv w now rd =>
    rcases hq : s.q w with _ | ⟨it, rest⟩
    · exact Nat.le_of_eq (congrArg total (step_recv_nil hq)).symm
    · rw [step_recv hq]
      exact Nat.le_of_eq (total_put (s := pop s w rest) (handle_same ..).1).symm

theorem dels_put {s : State} (h : ∀ v, (s.side v).dels = 0) {w : Bool} {S : Side} {o : List Item} (h1 : S.dels = (s.side w).dels)
    (v : Bool) : ((s.put w S o).side v).dels = 0 := by
  rcases bool_cases w v with rfl | rfl
  · rw [put_side_self, h1]; exact h v
  · rw [put_side_not]; exact h _

theorem dels_step {dir : Bool} {K : Bool → Nat} {s : State} {e : Ev} (h : ∀ v, (s.side v).dels = 0)
    (he : ∀ w priv hn mn msg, e ≠ .del w priv hn mn msg) (v : Bool) : ((step dir K s e).side v).dels = 0 := by
  cases e with
  | pin w k =>
    exact dels_put (s := s) h (w := w) (S := { s.side w with keys := (s.side w).keys ++ [.rnd k] }) (o := []) rfl v
  | fetch w k =>
    simp only [step]
    split
    · exact dels_put h (by rfl) v
    · exact h v
  | yes w rd =>
    simp only [step]
    split
    · exact h v
    · rw [yes_eq]
      split <;> exact dels_put h (by rfl) v
  | no w => exact dels_put h (by rfl) v
  | send w priv hn mn msg =>
    simp only [step]
    split
    · next S it hs =>
      obtain ⟨f, ct, f', _, _, rfl, rfl⟩ := cacheCRPC_some hs
      exact dels_put h (by rfl) v
    · exact h v
  | del w priv hn mn msg => exact absurd rfl (he w priv hn mn msg)
  | reset w =>
    simp only [step]
    split
    · split <;> exact dels_put h (by rfl) v
    · exact h v
  | delDone w => simp only [step, h w, if_true]; exact h v
  | recv w now rd =>
    rcases hq : s.q w with _ | ⟨it, rest⟩
    · rw [step_recv_nil hq]; exact h v
    · rw [step_recv hq]
      exact dels_put (s := pop s w rest) h (handle_same ..).2.1 v

/-- Polite users stay within the phases. -/
theorem phase_reach {K : Bool → Nat} {s : State} (h : Reach K s) :
    total s + 1 < u32 → Phase K s ∧ Pins s ∧ ∀ v, (s.side v).dels = 0 := by
  induction h with
  | refl =>
    intro _
    refine ⟨.idle fun _ => ⟨rfl, rfl, rfl, rfl, rfl⟩, fun v => ⟨?_, ?_⟩, fun _ => rfl⟩
    · intro k hk; cases hk
    · intro k hk; cases hk
  | @tail s e hr hp ih =>
    intro hlen
    have h1 := total_step false K s e
    obtain ⟨ih, hpin, hdel⟩ := ih (by omega)
    have h2 : total s + 1 < u32 := by omega
    refine ⟨?_, pins_step hpin e, dels_step hdel ?_⟩
    · cases e with
      | pin w k => exact phase_pin ih w k
      | fetch w k =>
        simp only [step]
        split
        · exact phase_ask ih w _
        · exact ih
      | yes w rd => exact phase_yes ih hpin w rd hp
      | no w => exact phase_ask ih w _
      | send w priv hn mn msg => exact phase_send ih h2 w priv hn mn msg
      | reset w => exact hp.elim
      | del w priv hn mn msg => exact hp.elim
      | delDone w => simp only [step, hdel w, if_true]; exact ih
      | recv w now rd => exact phase_recv ih h2 w now rd
    · rintro w priv hn mn msg rfl
      exact hp

end Verif.PinContact
