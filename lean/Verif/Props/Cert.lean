import Verif.Model.Cert
import Verif.Proofs.GoMap

/-! # C134: the certificate of a server holds for the machine it was made on, and from the moment it was made -/

namespace Verif.Cert

open Verif

variable {N : Net}

/-- A clock in seconds is within the times of the certificate. -/
def Cert.validAt (c : Cert N) (t : Int) : Prop := c.notBefore ≤ t ∧ t ≤ c.notAfter

/-- The walk through a map gives each entry once, in any order. -/
def Machine.Fair (w : Machine N) : Prop := ∀ {α : Type} (l : List α), (w.order l).Perm l

theorem str_inj {a b : N.Ip} (h : N.str a = N.str b) : a = b := by
  have := N.back a
  rw [h, N.back b] at this
  exact (Option.some.inj this).symm

/-- Every entry is under the text of its address. -/
def Keyed (m : GoMap Str N.Ip) : Prop := m.WF ∧ ∀ k ip, (k, ip) ∈ m → k = N.str ip

theorem keyed_ips0 : Keyed (ips0 N) := by
  constructor
  · show (["127.0.0.1".toList, "::1".toList] : List Str).Nodup
    decide
  · intro k ip h
    simp only [ips0, List.mem_cons, List.not_mem_nil, or_false, Prod.mk.injEq] at h
    rcases h with ⟨rfl, rfl⟩ | ⟨rfl, rfl⟩
    · exact N.four_str.symm
    · exact N.six_str.symm

theorem keyed_set {m : GoMap Str N.Ip} (h : Keyed m) (ip : N.Ip) : Keyed (m.set (N.str ip) ip) := by
  refine ⟨GoMap.wf_set h.1 _ _, fun k i hm => ?_⟩
  rcases List.mem_cons.mp hm with e | hd
  · cases e; rfl
  · exact h.2 k i ((GoMap.mem_del_iff.mp hd).2)

/-- What is in after one address was added. -/
theorem mem_set_ip {m : GoMap Str N.Ip} (h : Keyed m) (ip x : N.Ip) :
    x ∈ (m.set (N.str ip) ip).map Prod.snd ↔ x = ip ∨ x ∈ m.map Prod.snd := by
  simp only [List.mem_map]
  constructor
  · rintro ⟨⟨k, y⟩, hm, rfl⟩
    rcases List.mem_cons.mp hm with e | hd
    · cases e; exact .inl rfl
    · exact .inr ⟨(k, y), (GoMap.mem_del_iff.mp hd).2, rfl⟩
  · rintro (rfl | ⟨⟨k, y⟩, hm, rfl⟩)
    · exact ⟨(N.str x, x), List.mem_cons_self .., rfl⟩
    · by_cases e : k = N.str ip
      · refine ⟨(N.str ip, ip), List.mem_cons_self .., ?_⟩
        exact str_inj ((h.2 _ _ hm).symm.trans e).symm
      · exact ⟨(k, y), List.mem_cons_of_mem _ (GoMap.mem_del_iff.mpr ⟨e, hm⟩), rfl⟩

theorem addAddrs_spec (as : List (Option N.Ip)) : ∀ m : GoMap Str N.Ip, Keyed m → Keyed (addAddrs m as) ∧
    ∀ x, x ∈ (addAddrs m as).map Prod.snd ↔ some x ∈ as ∨ x ∈ m.map Prod.snd := by
  induction as with
  | nil => intro m h; exact ⟨h, fun x => by simp [addAddrs]⟩
  | cons a as ih =>
    intro m h
    cases a with
    | none =>
      obtain ⟨h1, h2⟩ := ih m h
      refine ⟨h1, fun x => (h2 x).trans ?_⟩
      simp
    | some ip =>
      obtain ⟨h1, h2⟩ := ih _ (keyed_set h ip)
      refine ⟨h1, fun x => (h2 x).trans ?_⟩
      rw [mem_set_ip h]
      simp only [List.mem_cons, Option.some.injEq]
      constructor
      · rintro (h | h | h)
        · exact .inl (.inr h)
        · exact .inl (.inl h)
        · exact .inr h
      · rintro ((h | h) | h)
        · exact .inr (.inl h)
        · exact .inl h
        · exact .inr (.inr h)

theorem mem_keys_set {m : GoMap Str Bool} (k x : Str) (v : Bool) : x ∈ (m.set k v).keys ↔ x = k ∨ x ∈ m.keys := by
  rw [GoMap.mem_keys_iff, GoMap.get_set, GoMap.mem_keys_iff]
  by_cases e : k = x
  · rw [if_pos e]; exact ⟨fun _ => .inl e.symm, fun _ => rfl⟩
  · rw [if_neg e]; exact ⟨.inr, fun h => h.resolve_left fun h => e h.symm⟩

theorem addHosts_spec (hs : List Str) : ∀ m : GoMap Str N.Ip × GoMap Str Bool, Keyed m.1 → m.2.WF →
    Keyed (addHosts m hs).1 ∧ (addHosts m hs).2.WF ∧
    (∀ x, x ∈ (addHosts m hs).1.map Prod.snd ↔ (∃ h ∈ hs, N.parse (hostOf h) = some x) ∨ x ∈ m.1.map Prod.snd) ∧
    ∀ n, n ∈ (addHosts m hs).2.keys ↔ (∃ h ∈ hs, N.parse (hostOf h) = none ∧ hostOf h = n) ∨ n ∈ m.2.keys := by
  induction hs with
  | nil => intro m h1 h2; exact ⟨h1, h2, fun x => by simp [addHosts], fun n => by simp [addHosts]⟩
  | cons a hs ih =>
    intro m h1 h2
    have e : addHosts m (a :: hs) = addHosts (match N.parse (hostOf a) with
      | some ip => (m.1.set (N.str ip) ip, m.2)
      | none => (m.1, m.2.set (hostOf a) true)) hs := rfl
    rw [e]
    cases ha : N.parse (hostOf a) with
    | some ip =>
      obtain ⟨g1, g2, g3, g4⟩ := ih (m.1.set (N.str ip) ip, m.2) (keyed_set h1 ip) h2
      refine ⟨g1, g2, fun x => (g3 x).trans ?_, fun n => (g4 n).trans ?_⟩
      · rw [mem_set_ip h1]
        simp only [List.mem_cons, exists_eq_or_imp, ha, Option.some.injEq]
        constructor
        · rintro (h | h | h)
          · exact .inl (.inr h)
          · exact .inl (.inl h.symm)
          · exact .inr h
        · rintro ((h | h) | h)
          · exact .inr (.inl h.symm)
          · exact .inl h
          · exact .inr (.inr h)
      · simp only [List.mem_cons, exists_eq_or_imp, ha, reduceCtorEq, false_and, false_or]
    | none =>
      obtain ⟨g1, g2, g3, g4⟩ := ih (m.1, m.2.set (hostOf a) true) h1 (GoMap.wf_set h2 _ _)
      refine ⟨g1, g2, fun x => (g3 x).trans ?_, fun n => (g4 n).trans ?_⟩
      · simp only [List.mem_cons, exists_eq_or_imp, ha, reduceCtorEq, false_or]
      · rw [mem_keys_set]
        simp only [List.mem_cons, exists_eq_or_imp, ha, true_and]
        constructor
        · rintro (h | h | h)
          · exact .inl (.inr h)
          · exact .inl (.inl h.symm)
          · exact .inr h
        · rintro ((h | h) | h)
          · exact .inr (.inl h.symm)
          · exact .inl h
          · exact .inr (.inr h)

/-- What a call that succeeds returns. -/
theorem made {w : Machine N} {org : Str} {u : Int} {extra : List Str} {c : Cert N} {k : Nat}
    (h : newTLSCertPair w org u extra = .ok (c, k)) :
    w.now ≤ u ∧ c.notBefore = (w.now - 24 * 3600 * second) / second ∧
    c.notAfter = (if endOfTime < u then endOfTime else u) / second ∧ w.key = some k ∧ w.serial = some c.serial ∧
    c.org = org ∧ c.key = k ∧ c.signer = k ∧ c.ca = true ∧ c.signs = true ∧ c.enciphers = true ∧
    ∃ host addrs, w.host = some host ∧ w.addrs = some addrs ∧
      c.dns = w.order (addHosts (addAddrs (ips0 N) addrs,
        dns0 host) extra).2.keys ∧
      c.ips = (w.order (addHosts (addAddrs (ips0 N) addrs,
        dns0 host) extra).1).map Prod.snd := by
  unfold newTLSCertPair at h
  by_cases hn : u < w.now
  · rw [if_pos hn] at h; cases h
  rw [if_neg hn] at h
  cases hk : w.key with
  | none => rw [hk] at h; cases h
  | some key =>
    cases hs : w.serial with
    | none => rw [hk, hs] at h; cases h
    | some serial =>
      cases hh : w.host with
      | none => rw [hk, hs, hh] at h; cases h
      | some host =>
        cases ha : w.addrs with
        | none => rw [hk, hs, hh, ha] at h; cases h
        | some addrs =>
          rw [hk, hs, hh, ha] at h
          injection h with h
          injection h with h1 h2
          subst h1; subst h2
          exact ⟨by omega, rfl, rfl, rfl, rfl, rfl, rfl, rfl, rfl, rfl, rfl, host, addrs, rfl, rfl, rfl, rfl⟩

/-! ## The machine it was made on -/

/-- Full for all machines and requests: the certificate names this host and `localhost` and all of the names that were
asked for, and nothing else; it holds the two addresses of the machine itself, those of its interfaces, and those that were
asked for, and nothing else; and nothing twice. The private key that is returned is that of the certificate, which is
signed with it and may be used to sign. -/
theorem C134_names {w : Machine N} (hw : w.Fair) {org : Str} {u : Int} {extra : List Str} {c : Cert N} {k : Nat}
    (h : newTLSCertPair w org u extra = .ok (c, k)) :
    ∃ host addrs, w.host = some host ∧ w.addrs = some addrs ∧
      (∀ n, n ∈ c.dns ↔ n = host ∨ n = "localhost".toList ∨ ∃ e ∈ extra, N.parse (hostOf e) = none ∧ n = hostOf e) ∧
      (∀ ip, ip ∈ c.ips ↔ ip = N.four ∨ ip = N.six ∨ some ip ∈ addrs ∨ ∃ e ∈ extra, N.parse (hostOf e) = some ip) ∧
      c.dns.Nodup ∧ c.ips.Nodup ∧ c.key = k ∧ c.signer = k ∧ c.ca = true ∧ c.signs = true ∧ c.enciphers = true ∧ c.org = org := by
  obtain ⟨-, -, -, -, -, ho, h1, h2, h3, h4, h5, host, addrs, hh, ha, hd, hi⟩ := made h
  obtain ⟨k1, s1⟩ := addAddrs_spec addrs (ips0 N) keyed_ips0
  have wf : GoMap.WF (dns0 host) := by
    refine GoMap.wf_set ?_ _ _
    exact List.nodup_cons.mpr ⟨List.not_mem_nil, List.nodup_nil⟩
  obtain ⟨k2, w2, s2, s3⟩ := addHosts_spec extra
    (addAddrs (ips0 N) addrs, dns0 host) k1 wf
  refine ⟨host, addrs, hh, ha, fun n => ?_, fun ip => ?_, ?_, ?_, h1, h2, h3, h4, h5, ho⟩
  · rw [hd, (hw _).mem_iff, s3, dns0, mem_keys_set]
    simp only [GoMap.keys, List.map_cons, List.map_nil, List.mem_cons, List.not_mem_nil, or_false]
    constructor
    · rintro (⟨e, he, hp, rfl⟩ | h | h)
      · exact .inr (.inr ⟨e, he, hp, rfl⟩)
      · exact .inr (.inl h)
      · exact .inl h
    · rintro (h | h | ⟨e, he, hp, rfl⟩)
      · exact .inr (.inr h)
      · exact .inr (.inl h)
      · exact .inl ⟨e, he, hp, rfl⟩
  · rw [hi, ((hw _).map Prod.snd).mem_iff, s2, s1]
    simp only [ips0, List.map_cons, List.map_nil, List.mem_cons, List.not_mem_nil, or_false]
    constructor
    · rintro (h | h | h | h)
      · exact .inr (.inr (.inr h))
      · exact .inr (.inr (.inl h))
      · exact .inl h
      · exact .inr (.inl h)
    · rintro (h | h | h | h)
      · exact .inr (.inr (.inl h))
      · exact .inr (.inr (.inr h))
      · exact .inr (.inl h)
      · exact .inl h
  · rw [hd]; exact (hw _).nodup_iff.mpr w2
  · rw [hi]
    refine (((hw _).map Prod.snd).nodup_iff).mpr ?_
    refine List.Nodup.of_map N.str ?_
    rw [List.map_map]
    have : ((addHosts (addAddrs (ips0 N) addrs,
        dns0 host) extra).1).map (N.str ∘ Prod.snd) =
        ((addHosts (addAddrs (ips0 N) addrs,
        dns0 host) extra).1).map Prod.fst :=
      List.map_congr_left fun p hp => (k2.2 p.1 p.2 hp).symm
    rw [this]
    exact k2.1

/-! ## The names that are asked for -/

theorem last_none {c : Char} {s : Str} (h : c ∉ s) : last c s = none := by
  induction s with
  | nil => rfl
  | cons d s ih =>
    simp only [List.mem_cons, not_or] at h
    rw [last, ih h.2]
    exact if_neg fun e => h.1 e.symm

theorem last_append {c : Char} (a : Str) {b : Str} (h : c ∉ b) : last c (a ++ c :: b) = some a.length := by
  induction a with
  | nil => rw [List.nil_append, last, last_none h]; exact if_pos rfl
  | cons d a ih => rw [List.cons_append, last, ih]; rfl

theorem index_append {c : Char} {a : Str} (b : Str) (h : c ∉ a) : index c (a ++ c :: b) = some a.length := by
  induction a with
  | nil => rw [List.nil_append, index]; exact if_pos rfl
  | cons d a ih =>
    simp only [List.mem_cons, not_or] at h
    rw [List.cons_append, index, if_neg (fun e => h.1 e.symm), ih h.2]; rfl

/-- Text without colons and brackets. -/
def Plain (s : Str) : Prop := ':' ∉ s ∧ '[' ∉ s ∧ ']' ∉ s

/-- Full: a name counts as it is, a port after a name is left out, and so is one after an address in brackets. -/
theorem C134_port (host port : Str) (hh : Plain host) (hp : Plain port) :
    hostOf host = host ∧ hostOf (host ++ ':' :: port) = host ∧
    ∀ ip : Str, '[' ∉ ip → ']' ∉ ip → hostOf ('[' :: ip ++ ']' :: ':' :: port) = ip := by
  refine ⟨?_, ?_, fun ip h1 h2 => ?_⟩
  · unfold hostOf splitHostPort
    rw [last_none hh.1]
  · unfold hostOf splitHostPort
    rw [last_append host hp.1]
    have hb : (host ++ ':' :: port).head? ≠ some '[' := by
      cases host with
      | nil => exact fun h => by cases h
      | cons d r =>
        intro h
        injection h with h
        exact hh.2.1 (h ▸ List.mem_cons_self ..)
    have ht : (host ++ ':' :: port).take host.length = host := by simp
    simp only [ht]
    rw [if_neg hb, if_neg hh.1]
    have m1 : '[' ∉ host ++ ':' :: port := by
      simp only [List.mem_append, List.mem_cons, not_or]
      exact ⟨hh.2.1, by decide, hp.2.1⟩
    have m2 : ']' ∉ host ++ ':' :: port := by
      simp only [List.mem_append, List.mem_cons, not_or]
      exact ⟨hh.2.2, by decide, hp.2.2⟩
    simp only [List.drop_zero, if_neg m1, if_neg m2]
  · have e : '[' :: ip ++ ']' :: ':' :: port = ('[' :: ip ++ [']']) ++ ':' :: port := by simp
    have hl : last ':' ('[' :: ip ++ ']' :: ':' :: port) = some (ip.length + 2) := by
      rw [e, last_append _ hp.1]; simp
    have hi : index ']' ('[' :: ip ++ ']' :: ':' :: port) = some (ip.length + 1) := by
      rw [index_append _ (by simp only [List.mem_cons, not_or]; exact ⟨by decide, h2⟩)]; rfl
    unfold hostOf splitHostPort
    rw [hl]
    have hb : ('[' :: ip ++ ']' :: ':' :: port).head? = some '[' := rfl
    simp only [hi]
    rw [if_pos hb, if_pos trivial]
    have d1 : ('[' :: ip ++ ']' :: ':' :: port).drop 1 = ip ++ ']' :: ':' :: port := rfl
    have d2 : ('[' :: ip ++ ']' :: ':' :: port).drop (ip.length + 1 + 1) = ':' :: port := by
      show (ip ++ ']' :: ':' :: port).drop (ip.length + 1) = _
      rw [← List.drop_drop]; simp
    have d3 : (('[' :: ip ++ ']' :: ':' :: port).take (ip.length + 1)).drop 1 = ip := by
      show (ip ++ ']' :: ':' :: port).take ip.length = _
      simp
    have m1 : '[' ∉ ip ++ ']' :: ':' :: port := by
      simp only [List.mem_append, List.mem_cons, not_or]
      exact ⟨h1, by decide, by decide, hp.2.1⟩
    have m2 : ']' ∉ ':' :: port := by
      simp only [List.mem_cons, not_or]
      exact ⟨by decide, hp.2.2⟩
    simp only [d1, d2, d3, if_neg m1, if_neg m2]

/-- An address in brackets without a port is no address for the certificate: whoever asks for `[::1]` gets a certificate
with the name `[::1]`, which no client will look for. -/
theorem C134_bracket_violated (hn : N.parse "[::1]".toList = none) {w : Machine N} (hw : w.Fair) {org : Str} {u : Int}
    {c : Cert N} {k : Nat} (h : newTLSCertPair w org u ["[::1]".toList] = .ok (c, k)) : "[::1]".toList ∈ c.dns := by
  obtain ⟨host, addrs, -, -, hd, -⟩ := C134_names hw h
  have e : hostOf "[::1]".toList = "[::1]".toList := by decide
  exact (hd _).mpr (.inr (.inr ⟨_, List.mem_cons_self .., by rw [e]; exact hn, e.symm⟩))

/-! ## The time -/

/-- Full: a certificate begins a day before it is made, so that clocks of clients may be late; it ends when it was asked to,
but not after 2049. -/
theorem C134_time {w : Machine N} {org : Str} {u : Int} {extra : List Str} {c : Cert N} {k : Nat}
    (h : newTLSCertPair w org u extra = .ok (c, k)) :
    c.notBefore * second ≤ w.now - 86400 * second ∧ w.now - 86400 * second < (c.notBefore + 1) * second ∧
    c.notAfter * second ≤ min u endOfTime ∧ min u endOfTime < (c.notAfter + 1) * second := by
  obtain ⟨-, h1, h2, -⟩ := made h
  rw [h1, h2]
  unfold endOfTime second
  split <;> omega

/-- While the clock is before 2050 a certificate that was made holds when it is made. Missing for the full claim: later
(next theorem). -/
theorem C134_valid_partial {w : Machine N} {org : Str} {u : Int} {extra : List Str} {c : Cert N} {k : Nat}
    (h : newTLSCertPair w org u extra = .ok (c, k)) (hn : w.now < endOfTime + second) :
    c.validAt (w.now / second) ∧ ∀ late : Int, 0 ≤ late → late ≤ 86400 → c.validAt (w.now / second - late) := by
  obtain ⟨h0, h1, h2, -⟩ := made h
  unfold Cert.validAt
  rw [h1, h2]
  unfold endOfTime second at *
  constructor
  · split <;> omega
  · intro late l1 l2
    split <;> omega

/-- `validUntil` is looked at before it is cut down to the end of 2049: whoever asks in 2050 or later for a certificate
that is to hold for longer gets one that has expired, and no error. -/
theorem C134_expired_violated {w : Machine N} (hn : endOfTime + second ≤ w.now) {u : Int} (hu : w.now ≤ u) {key serial : Nat}
    {host : Str} {addrs : List (Option N.Ip)} (hk : w.key = some key) (hs : w.serial = some serial) (hh : w.host = some host)
    (ha : w.addrs = some addrs) (org : Str) (extra : List Str) :
    ∃ c k, newTLSCertPair w org u extra = .ok (c, k) ∧ c.notAfter < w.now / second ∧
      ∀ t, w.now / second ≤ t → ¬ c.validAt t := by
  have e : ∃ c k, newTLSCertPair w org u extra = .ok (c, k) := by
    unfold newTLSCertPair
    rw [if_neg (by omega), hk, hs, hh, ha]
    exact ⟨_, _, rfl⟩
  obtain ⟨c, k, e⟩ := e
  obtain ⟨-, -, h2, -⟩ := made e
  have hlt : c.notAfter < w.now / second := by
    rw [h2]
    unfold endOfTime second at *
    rw [if_pos (by omega)]
    omega
  exact ⟨c, k, e, hlt, fun t ht hv => absurd hv.2 (by omega)⟩

/-- The days of a year. -/
def daysOf (y : Nat) : Int := if y % 4 = 0 ∧ (y % 100 ≠ 0 ∨ y % 400 = 0) then 366 else 365

/-- **C134** The end of time is one second before the year 2050 begins. -/
theorem C134_end : endOfTime + second = (((List.range 80).map fun i => daysOf (1970 + i)).sum * 86400) * second := by
  decide +kernel

/-- **C134** Where no certificate is made it is said what was missing: that of the things needed which is asked for first. -/
theorem C134_missing (w : Machine N) (org : Str) (u : Int) (extra : List Str) :
    (newTLSCertPair w org u extra = .error .expired ↔ u < w.now) ∧
    (newTLSCertPair w org u extra = .error .key ↔ w.now ≤ u ∧ w.key = none) ∧
    (newTLSCertPair w org u extra = .error .serial ↔ w.now ≤ u ∧ w.key ≠ none ∧ w.serial = none) ∧
    (newTLSCertPair w org u extra = .error .host ↔ w.now ≤ u ∧ w.key ≠ none ∧ w.serial ≠ none ∧ w.host = none) ∧
    (newTLSCertPair w org u extra = .error .addrs ↔
      w.now ≤ u ∧ w.key ≠ none ∧ w.serial ≠ none ∧ w.host ≠ none ∧ w.addrs = none) := by
  unfold newTLSCertPair
  by_cases h0 : u < w.now
  · have h1 : ¬ w.now ≤ u := by omega
    simp [h0, h1]
  · have h1 : w.now ≤ u := by omega
    cases w.key <;> cases w.serial <;> cases w.host <;> cases w.addrs <;> simp [h0, h1]

/-- Full for what the server does: it makes a certificate exactly until the end of 2049, if the machine gives what is needed;
what it makes holds from then on until that day, and whoever has the certificate has the name of the host. -/
theorem C134_server (w : Machine N) (hw : w.Fair) :
    ((∃ c k, serverPair w = .ok (c, k)) ↔
      w.now ≤ endOfTime ∧ w.key.isSome ∧ w.serial.isSome ∧ w.host.isSome ∧ w.addrs.isSome) ∧
    ∀ c k, serverPair w = .ok (c, k) →
      (∀ t, w.now / second - 86400 ≤ t → t * second ≤ endOfTime → c.validAt t) ∧
      ∃ host, w.host = some host ∧ host ∈ c.dns ∧ ∀ n ∈ c.dns, n = host ∨ n = "localhost".toList := by
  refine ⟨⟨fun ⟨c, k, h⟩ => ?_, fun ⟨h0, h1, h2, h3, h4⟩ => ?_⟩, fun c k h => ⟨fun t h1 h2 => ?_, ?_⟩⟩
  · obtain ⟨h0, -, -, h1, h2, -, -, -, -, -, -, host, addrs, h3, h4, -⟩ := made h
    rw [h1, h2, h3, h4]
    exact ⟨h0, rfl, rfl, rfl, rfl⟩
  · obtain ⟨key, h1⟩ := Option.isSome_iff_exists.mp h1
    obtain ⟨serial, h2⟩ := Option.isSome_iff_exists.mp h2
    obtain ⟨host, h3⟩ := Option.isSome_iff_exists.mp h3
    obtain ⟨addrs, h4⟩ := Option.isSome_iff_exists.mp h4
    unfold serverPair newTLSCertPair
    rw [if_neg (by omega), h1, h2, h3, h4]
    exact ⟨_, _, rfl⟩
  · obtain ⟨h0, e1, e2, -⟩ := made h
    unfold Cert.validAt
    rw [e1, e2, if_neg (by omega)]
    unfold endOfTime second at *
    omega
  · obtain ⟨host, addrs, hh, -, hd, -⟩ := C134_names hw h
    refine ⟨host, hh, (hd _).mpr (.inl rfl), fun n hn => ?_⟩
    rcases (hd n).mp hn with h | h | ⟨e, he, -⟩
    · exact .inl h
    · exact .inr h
    · exact absurd he List.not_mem_nil

/-! ## Instances -/

/-- A small `net`: what has only digits, dots and colons is an address. -/
def digitsOnly (s : Str) : Bool := s.all fun c => c.isDigit || c = '.' || c = ':'

def toyNet : Net where
  Ip := { s : Str // digitsOnly s = true }
  parse s := if h : digitsOnly s = true then some ⟨s, h⟩ else none
  str ip := ip.1
  back ip := by simp [ip.2]
  four := ⟨"127.0.0.1".toList, by decide⟩
  six := ⟨"::1".toList, by decide⟩
  four_str := rfl
  six_str := rfl

/-- A machine with an address of its own, which gives its map backwards. -/
def toy (now : Int) : Machine toyNet :=
  { now, key := some 7, serial := some 99, host := some "box".toList
    addrs := some [some ⟨"127.0.0.1".toList, by decide⟩, none, some ⟨"10.0.0.1".toList, by decide⟩]
    order := List.reverse }

theorem toy_fair (now : Int) : (toy now).Fair := fun l => List.reverse_perm l

def shown (r : Except Err (Cert toyNet × Nat)) : Option (List Str × List Str × Int × Int) :=
  match r with
  | .error _ => none
  | .ok (c, _) => some (c.dns, c.ips.map (·.1), c.notBefore, c.notAfter)

/-- The server of 2016. -/
example : shown (serverPair (toy (1460000000 * second))) =
    some (["box".toList, "localhost".toList], ["::1".toList, "127.0.0.1".toList, "10.0.0.1".toList], 1459913600, 2524607999) := by
  decide +kernel

/-- Names, ports, and the address in brackets without a port. -/
example : (shown (newTLSCertPair (toy (1460000000 * second)) [] endOfTime
      ["a.org:443".toList, "[::7]:443".toList, "[::1]".toList, "1.2.3.4".toList])).map (fun r => (r.1, r.2.1)) =
    some (["box".toList, "localhost".toList, "a.org".toList, "[::1]".toList],
      ["::1".toList, "127.0.0.1".toList, "10.0.0.1".toList, "::7".toList, "1.2.3.4".toList]) := by decide +kernel

example : toyNet.parse "[::1]".toList = none := by decide

/-- In 2050 the server can make none, and others get one that has expired. -/
example : shown (serverPair (toy (endOfTime + second))) = none ∧
    (shown (newTLSCertPair (toy (endOfTime + second)) [] (endOfTime + 10 * second) [])).map (·.2.2) =
      some (2524521600, 2524607999) := by decide +kernel

end Verif.Cert
