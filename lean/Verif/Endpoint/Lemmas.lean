import Verif.Endpoint.V6
/-!
Reading URIs: numbers, IPv4 addresses, the parts of a URI.
-/
namespace Verif.Endpoint

theorem isDigit_iff (c : UInt8) : isDigit c = true ↔ IsDigit c := by
  revert c
  apply forall_u8
  unfold IsDigit
  decide +kernel

theorem digit_facts {c : UInt8} : IsDigit c → isSpace c = false ∧ c ≠ 45 ∧ c ≠ 43 ∧ c ≠ 47 ∧
    c ≠ 58 ∧ c ≠ 91 ∧ c ≠ 93 ∧ isAlpha c = false := by
  revert c
  apply forall_u8
  unfold IsDigit
  decide +kernel

/-- The text does not go on with a digit. -/
def NoDigit (s : Bytes) : Prop := ∀ c, s.head? = some c → ¬ IsDigit c

theorem digits_append : ∀ {d : Bytes} {s : Bytes}, (∀ c ∈ d, IsDigit c) → NoDigit s →
    digits (d ++ s) = d
  | [], s, _, h => by
    cases s with
    | nil => rfl
    | cons c s =>
      have := h c rfl
      rw [← isDigit_iff] at this
      simp [digits, this]
  | c :: d, s, hd, h => by
    have hc := (isDigit_iff c).2 (hd c (by simp))
    have := digits_append (d := d) (fun x hx => hd x (by simp [hx])) h
    simp [digits, hc, this]

theorem strtoul_num {d s : Bytes} (hd : IsNum d) (hs : NoDigit s) :
    strtoul (d ++ s) = (min (decVal d) 18446744073709551615, d.length) := by
  obtain ⟨h0, hd⟩ := hd
  have hdig := digits_append hd hs
  cases d with
  | nil => exact absurd rfl h0
  | cons c d =>
    obtain ⟨f1, f2, f3, _⟩ := digit_facts (hd c (by simp))
    have hsk : skipSpace (c :: (d ++ s)) = c :: (d ++ s) := by simp [skipSpace, f1]
    simp only [List.cons_append] at hdig ⊢
    simp only [strtoul, hsk]
    simp [f2, f3, hdig, satVal]

/-- One octet of `v4Loop`. -/
theorem v4Loop_num {d s : Bytes} (hd : IsNum d) (hs : NoDigit s) (hv : decVal d ≤ 255) (k m : Nat) :
    v4Loop (k + 1) (d ++ s) (d.length + m)
      = UInt8.ofNat (decVal d) :: v4Loop k (s.drop 1) (m - 1) := by
  have h0 : 0 < d.length := List.length_pos_iff.2 hd.1
  rw [v4Loop, if_neg (by omega), strtoul_num hd hs]
  have hm : min (decVal d) 18446744073709551615 = decVal d := Nat.min_eq_left (by omega)
  have hdr : (d ++ s).drop (d.length + 1) = s.drop 1 := by
    rw [← List.drop_drop, List.drop_left]
  simp only [hm, hdr]
  rw [show d.length + m - (d.length + 1) = m - 1 by omega]

theorem noDigit_dot (s : Bytes) : NoDigit (46 :: s) := by
  intro c h
  simp at h
  subst h
  unfold IsDigit
  decide

theorem parseV4_text {t a : Bytes} (h : IsV4 t a) {s : Bytes} (hs : NoDigit s) :
    parseV4 (t ++ s) t.length = a ++ List.replicate 12 0 := by
  cases h with
  | quad p q r u hp hq hr hu vp vq vr vu =>
    have h0 : 0 < u.length := List.length_pos_iff.2 hu.1
    have e : v4Loop 4 (p ++ 46 :: (q ++ 46 :: (r ++ 46 :: u)) ++ s)
        (p ++ 46 :: (q ++ 46 :: (r ++ 46 :: u))).length
        = [UInt8.ofNat (decVal p), UInt8.ofNat (decVal q), UInt8.ofNat (decVal r),
          UInt8.ofNat (decVal u)] := by
      simp only [List.append_assoc, List.cons_append, List.length_append, List.length_cons]
      rw [v4Loop_num hp (noDigit_dot _) vp]
      simp only [List.drop_one, List.tail_cons]
      rw [show q.length + (r.length + (u.length + 1) + 1) + 1 - 1
        = q.length + (r.length + (u.length + 1) + 1) by omega,
        v4Loop_num hq (noDigit_dot _) vq]
      simp only [List.drop_one, List.tail_cons]
      rw [show r.length + (u.length + 1) + 1 - 1 = r.length + (u.length + 1) by omega,
        v4Loop_num hr (noDigit_dot _) vr]
      simp only [List.drop_one, List.tail_cons]
      rw [show u.length + 1 - 1 = u.length + 0 by omega, v4Loop_num hu hs vu, v4Loop]
    rw [parseV4, e]
    rfl

/-! ### Hosts -/

/-- The shape of a host text that matters for finding its end. -/
def HostShape (t : Bytes) : Prop :=
  t ≠ [] ∧ 47 ∉ t ∧ ((t.head? ≠ some 91 ∧ 58 ∉ t) ∨ ∃ x, t = 91 :: (x ++ [93]) ∧ 93 ∉ x)

theorem hex_facts {c : UInt8} : IsHex c → c ≠ 47 ∧ c ≠ 93 := by
  revert c
  apply forall_u8
  unfold IsHex
  decide +kernel

theorem joinC_facts : ∀ {gs : List Bytes}, (∀ g ∈ gs, IsGroup g) → 47 ∉ joinC gs ∧ 93 ∉ joinC gs
  | [], _ => by simp [joinC]
  | [g], h => by
    have := (h g (by simp)).2.2
    exact ⟨fun hm => (hex_facts (this _ hm)).1 rfl, fun hm => (hex_facts (this _ hm)).2 rfl⟩
  | g :: k :: gs, h => by
    have hg := (h g (by simp)).2.2
    have ih := joinC_facts (gs := k :: gs) (fun x hx => h x (by simp [hx]))
    have a : (47 : UInt8) ∉ g := fun hm => (hex_facts (hg _ hm)).1 rfl
    have b : (93 : UInt8) ∉ g := fun hm => (hex_facts (hg _ hm)).2 rfl
    simp [joinC, a, b, ih.1, ih.2]

theorem isV6_facts {t a : Bytes} (h : IsV6 t a) : 47 ∉ t ∧ 93 ∉ t := by
  cases h with
  | full gs hg _ => exact joinC_facts hg
  | short l r hl hr _ =>
    have a := joinC_facts hl
    have b := joinC_facts hr
    simp [a.1, a.2, b.1, b.2]

theorem num_facts {d : Bytes} (h : IsNum d) : 47 ∉ d ∧ 58 ∉ d ∧ 91 ∉ d := by
  refine ⟨fun hm => ?_, fun hm => ?_, fun hm => ?_⟩
  · exact (digit_facts (h.2 _ hm)).2.2.2.1 rfl
  · exact (digit_facts (h.2 _ hm)).2.2.2.2.1 rfl
  · exact (digit_facts (h.2 _ hm)).2.2.2.2.2.1 rfl

theorem isV4_facts {t a : Bytes} (h : IsV4 t a) : 47 ∉ t ∧ 58 ∉ t ∧ 91 ∉ t ∧ t ≠ [] ∧
    ∃ s c, t = s ++ [c] ∧ IsDigit c := by
  cases h with
  | quad p q r u hp hq hr hu vp vq vr vu =>
    have a := num_facts hp
    have b := num_facts hq
    have c := num_facts hr
    have d := num_facts hu
    refine ⟨by simp [a.1, b.1, c.1, d.1], by simp [a.2.1, b.2.1, c.2.1, d.2.1],
      by simp [a.2.2, b.2.2, c.2.2, d.2.2], by simp, ?_⟩
    rcases List.eq_nil_or_concat u with h | ⟨v, x, h⟩
    · exact absurd h hu.1
    · rw [List.concat_eq_append] at h
      refine ⟨p ++ 46 :: (q ++ 46 :: (r ++ 46 :: v)), x, by rw [h]; simp, ?_⟩
      exact hu.2 x (by rw [h]; simp)

theorem isHost_shape {t : Bytes} {six : Bool} {a : Bytes} (h : IsHost t six a) : HostShape t := by
  cases h with
  | v4 t a h =>
    obtain ⟨h1, h2, h3, h4, _⟩ := isV4_facts h
    refine ⟨h4, h1, Or.inl ⟨fun h => h3 ?_, h2⟩⟩
    exact List.mem_of_mem_head? (by rw [h]; rfl)
  | v6 t a h =>
    obtain ⟨h1, h2⟩ := isV6_facts h
    exact ⟨by simp, by simp [h1], Or.inr ⟨t, rfl, h2⟩⟩

theorem isName_shape {t : Bytes} (h : IsName t) : HostShape t := by
  obtain ⟨_, h1, h2, h3, s, c, h4, _⟩ := h
  exact ⟨by rw [h4]; simp, h2, Or.inl ⟨h3, h1⟩⟩

theorem isHost_last {t : Bytes} {six : Bool} {a : Bytes} (h : IsHost t six a) :
    ∃ s c, t = s ++ [c] ∧ isAlpha c = false := by
  cases h with
  | v4 t a h =>
    obtain ⟨_, _, _, _, s, c, e, hc⟩ := isV4_facts h
    exact ⟨s, c, e, (digit_facts hc).2.2.2.2.2.2.2⟩
  | v6 t a h => exact ⟨91 :: t, 93, by simp, by decide⟩

/-- Reading a numeric host. -/
theorem readHost_text {t : Bytes} {six : Bool} {a : Bytes} (h : IsHost t six a) (u : Uri)
    {s : Bytes} (hs : NoDigit s) :
    readHost u (t ++ s) t.length =
      .ok (some ({ flags := { u.flags with ipv4 := u.flags.ipv4 || !six,
                                           ipv6 := u.flags.ipv6 || six },
                   port := u.port, bytes := a }, u.uri)) := by
  cases h with
  | v4 t a h =>
    obtain ⟨h1, h2, h3, h4, _⟩ := isV4_facts h
    rw [readHost, if_neg, parseV4_text h hs]
    · simp
    · rintro ⟨_, hh, _⟩
      cases t with
      | nil => exact h4 rfl
      | cons c t => simp at hh; exact h3 (by simp [hh])
  | v6 t a h =>
    rw [readHost, if_pos]
    · have e : ((91 :: (t ++ [93])) ++ s).drop 1 = t ++ ([93] ++ s) := by simp
      rw [e, show (91 :: (t ++ [93])).length - 2 = t.length by simp, parseV6_text h]
      simp [Out.bind]
    · refine ⟨by simp, by simp, ?_⟩
      simp

/-! ### The parts of a URI -/

theorem parseFlags_scheme (tcp secured : Bool) {a : Bytes} (h : a ≠ []) :
    parseFlags (scheme (flagsOf tcp secured) ++ a) = some (flagsOf tcp secured) := by
  have h0 : 0 < a.length := List.length_pos_iff.2 h
  cases tcp <;> cases secured <;> simp [parseFlags, hasScheme, scheme, flagsOf, h0] <;>
  (intro h; omega)

theorem findPort_some {t : Bytes} (ht : HostShape t) {d p : Bytes} (hd : d ≠ []) :
    findPort (t ++ 58 :: (d ++ p)) = some (some t.length) := by
  obtain ⟨h0, _, h | ⟨x, h, hx⟩⟩ := ht
  · rw [findPort, if_neg, indexOf_append _ h.2]
    cases t with
    | nil => exact absurd rfl h0
    | cons c t => simpa using h.1
  · subst h
    have hx' : (93 : UInt8) ∉ 91 :: x := by simp [hx]
    have e : (91 :: (x ++ [93])) ++ 58 :: (d ++ p) = (91 :: x) ++ 93 :: 58 :: (d ++ p) := by simp
    rw [e, findPort, if_pos (by simp), indexOf_append _ hx']
    simp only [List.drop_left]
    have hl : 2 ≤ ((91 :: x) ++ 93 :: 58 :: (d ++ p)).length - ((91 :: x).length + 1) := by
      have : 0 < d.length := List.length_pos_iff.2 hd
      simp; omega
    generalize ((91 :: x) ++ 93 :: 58 :: (d ++ p)).length - ((91 :: x).length + 1) = n at hl
    match n, hl with
    | n + 2, _ =>
      simp [indexOf]
      omega

theorem findPort_none {t : Bytes} (ht : HostShape t) {p : Bytes} (hp : 58 ∉ p) :
    findPort (t ++ p) = some none := by
  obtain ⟨h0, _, h | ⟨x, h, hx⟩⟩ := ht
  · rw [findPort, if_neg, indexOf_none (by simp [h.2, hp])]
    cases t with
    | nil => exact absurd rfl h0
    | cons c t => simpa using h.1
  · subst h
    have hx' : (93 : UInt8) ∉ 91 :: x := by simp [hx]
    have e : (91 :: (x ++ [93])) ++ p = (91 :: x) ++ 93 :: p := by simp
    rw [e, findPort, if_pos (by simp), indexOf_append _ hx']
    simp only [List.drop_left]
    rw [indexOf_none]
    · rfl
    · intro hm
      have := List.mem_of_mem_take hm
      simp at this
      exact hp this

theorem indexOf_path {s p : Bytes} (hs : 47 ∉ s) (hp : PathOk p) :
    indexOf 47 (s ++ p) = if p = [] then none else some s.length := by
  rcases hp with h | ⟨q, h⟩
  · subst h
    rw [List.append_nil, indexOf_none hs]; rfl
  · subst h
    rw [indexOf_append _ hs]; simp

theorem portLoop_ok : ∀ {d : Bytes} (s : Bytes), (∀ c ∈ d, IsDigit c) →
    portLoop (d ++ s) d.length = .ok true
  | [], s, _ => by cases s <;> rfl
  | c :: d, s, h => by
    have hc := (isDigit_iff c).2 (h c (by simp))
    have := portLoop_ok (d := d) s (fun x hx => h x (by simp [hx]))
    simp [portLoop, hc, this]

theorem noDigit_nil : NoDigit [] := fun c h => by cases h

theorem noDigit_path {p : Bytes} (hp : PathOk p) : NoDigit p := by
  rcases hp with h | ⟨q, h⟩ <;> subst h
  · exact noDigit_nil
  · intro c h
    simp at h
    subst h
    unfold IsDigit
    decide

theorem parseUri_text (tcp secured : Bool) {t : Bytes} (ht : HostShape t) {port : Option Bytes}
    (hport : PortOk port) {path : Bytes} (hpath : PathOk path) (hc : port = none → 58 ∉ path) :
    parseUri (scheme (flagsOf tcp secured) ++ (t ++ (portText port ++ path))) =
      .ok (some ⟨flagsOf tcp secured, t ++ (portText port ++ path), t.length,
        if path = [] then none else some path, UInt16.ofNat (portVal secured port)⟩) := by
  have hne : t ++ (portText port ++ path) ≠ [] := by
    intro h; exact ht.1 (List.append_eq_nil_iff.1 h).1
  rw [parseUri, parseFlags_scheme tcp secured hne]
  simp only [List.drop_left]
  cases port with
  | none =>
    simp only [portText, List.nil_append]
    rw [findPort_none ht (hc rfl), indexOf_path ht.2.1 hpath]
    simp only [portVal, flagsOf]
    rcases hpath with h | ⟨q, h⟩ <;> subst h <;> cases secured <;> simp
  | some d =>
    obtain ⟨hd, hv, hdl⟩ := hport
    have hd0 : 0 < d.length := List.length_pos_iff.2 hd.1
    simp only [portText, List.cons_append]
    rw [findPort_some ht hd.1]
    have h47 : (47 : UInt8) ∉ t ++ 58 :: d := by simp [ht.2.1, (num_facts hd).1]
    have hi : indexOf 47 (t ++ 58 :: (d ++ path))
        = if path = [] then none else some (t ++ 58 :: d).length := by
      have := indexOf_path h47 hpath
      simpa [List.append_assoc] using this
    have hdrop : (t ++ 58 :: (d ++ path)).drop (t.length + 1) = d ++ path := by
      rw [← List.drop_drop, List.drop_left]; rfl
    have hdrop2 : (t ++ 58 :: (d ++ path)).drop (t ++ 58 :: d).length = path := by
      have : t ++ 58 :: (d ++ path) = (t ++ 58 :: d) ++ path := by simp
      rw [this, List.drop_left]
    simp only [hdrop]
    have hs := strtoul_num hd (noDigit_path hpath)
    rw [hs]
    have hm : min (decVal d) 18446744073709551615 = decVal d := Nat.min_eq_left (by omega)
    simp only [hm, hi, portVal]
    have hpl : portLen (if path = [] then none else some (t ++ 58 :: d).length)
        (t ++ 58 :: (d ++ path)).length (t.length + 1) = d.length := by
      unfold portLen
      rcases hpath with h | ⟨q, h⟩
      · subst h
        have e : ∀ x y : Nat, x + (y + 1) - (x + 1) = y := by omega
        simp [e]
      · subst h
        have e : ∀ x y : Nat, y < 18446744073709551616 →
          (x + (y + 1) + 18446744073709551615 - x) % 18446744073709551616 = y := by omega
        simp [e _ _ hdl]
    have hlp := portLoop_ok (path ++ [0]) hd.2
    rw [← List.append_assoc] at hlp
    rw [hpl, hlp]
    rcases hpath with h | ⟨q, h⟩
    · subst h
      simp only [Out.bind, if_true, Option.map_none]
    · subst h
      simp only [Out.bind, if_true, reduceCtorEq, if_false]
      simp only [Option.map_some, hdrop2]

end Verif.Endpoint
