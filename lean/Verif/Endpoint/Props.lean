import Verif.Endpoint.Write
/-!
Properties of endpoint texts and of comparing endpoints.
-/
namespace Verif.Endpoint

/-! ### C66: writing an endpoint as text, and reading it back -/

/-- The schemes are those of the standards. -/
theorem scheme_text (f : Flags) : scheme f = schemeText f.tcp f.secured := by
  cases ht : f.tcp <;> cases hs : f.secured <;> simp only [scheme, schemeText, ht, hs] <;> decide +kernel

example : scheme (flagsOf true false) = ascii "coap+tcp://" := by decide +kernel

/-- The endpoint has an address the functions know. -/
def HasIp (e : Ep) : Prop := e.flags.ipv4 = true ∨ e.flags.ipv6 = true

/-- Room for the text: it fits with its terminator; for IPv6 the code also asks for
eight bytes behind the scheme. -/
def Fits (ntop : Bytes → Bytes) (e : Ep) (buf : Bytes) : Prop :=
  (textOf ntop e).length < buf.length ∧
    (e.flags.ipv4 = true ∨ 8 ≤ buf.length - (scheme e.flags).length)

/-- Whenever the text of the endpoint fits, exactly it is written, terminated, the
number of its bytes is returned and the bytes behind it are left alone. -/
theorem toCString_text (ntop : Bytes → Bytes) (e : Ep) (buf : Bytes) (hip : HasIp e)
    (hf : Fits ntop e buf) (hn : e.flags.ipv4 = false → (ntop e.bytes).length ≤ 1000) :
    ∃ b, toCString ntop e buf = .ok ((textOf ntop e).length, b) ∧ b.length = buf.length ∧
      b.take ((textOf ntop e).length + 1) = textOf ntop e ++ [0] ∧
      b.drop ((textOf ntop e).length + 1) = buf.drop ((textOf ntop e).length + 1) := by
  obtain ⟨h1, h2⟩ := hf
  have hs := length_scheme e.flags
  have hp := length_port e.port
  have hq := length_quad e.bytes
  have key : toCString ntop e buf
      = .ok ((textOf ntop e).length, filled buf (textOf ntop e)) := by
    cases h4 : e.flags.ipv4 with
    | true =>
      rw [textOf_v4 h4] at h1 ⊢
      have hl := h1
      rw [List.length_append] at hl
      rw [toCString, flagsToScheme_fit (by omega)]
      simp only [Out.bind]
      rw [if_neg (by omega), addrPortString, if_pos h4, Int.toNat_natCast,
        v4PortString_fit (by omega)]
      simp only [List.length_append, List.length_cons] at hl ⊢
      rw [if_neg (by omega), if_neg (by simp only [intMax]; omega)]
      simp
    | false =>
      have h6 : e.flags.ipv6 = true := by
        rcases hip with h | h
        · rw [h4] at h; cases h
        · exact h
      have hn := hn h4
      have h8 : 8 ≤ buf.length - (scheme e.flags).length := by
        rcases h2 with h | h
        · rw [h4] at h; cases h
        · exact h
      rw [textOf_v6 h4] at h1 ⊢
      have hl := h1
      rw [List.length_append] at hl
      rw [toCString, flagsToScheme_fit (by omega)]
      simp only [Out.bind]
      rw [if_neg (by omega), addrPortString, if_neg (by simp [h4]), if_pos h6, Int.toNat_natCast,
        v6PortString_fit (by omega) h8]
      simp only [List.length_append, List.length_cons] at hl ⊢
      rw [if_neg (by omega), if_neg (by simp only [intMax]; omega)]
      simp
  refine ⟨_, key, length_filled h1, ?_, ?_⟩
  · rw [filled, List.take_length_add_append]; simp
  · rw [filled, ← List.drop_drop, List.drop_left]; simp

/-- Otherwise the result is -1 and nothing is written outside the buffer. -/
theorem toCString_small (ntop : Bytes → Bytes) (e : Ep) (buf : Bytes)
    (hf : ¬ (HasIp e ∧ Fits ntop e buf)) :
    ∃ b, toCString ntop e buf = .ok (-1, b) ∧ b.length = buf.length := by
  rw [toCString]
  by_cases hs : (scheme e.flags).length < buf.length
  · rw [flagsToScheme_fit hs]
    have hl := length_filled hs
    simp only [Out.bind]
    rw [if_neg (by omega), addrPortString, Int.toNat_natCast]
    cases h4 : e.flags.ipv4 with
    | true =>
      rw [if_pos rfl]
      have hb : buf.length ≤ (scheme e.flags).length
          + (quad e.bytes ++ 58 :: dec e.port.toNat).length := by
        rcases Nat.lt_or_ge (textOf ntop e).length buf.length with h | h
        · exact absurd ⟨Or.inl h4, h, Or.inl h4⟩ hf
        · rw [textOf_v4 h4, List.length_append] at h; exact h
      obtain ⟨b, e1, l1⟩ := v4PortString_small (e := e) (buf := filled buf (scheme e.flags))
        (off := (scheme e.flags).length) (by omega) (by omega)
      rw [e1]
      simp only
      rw [if_pos (by omega)]
      exact ⟨b, rfl, by omega⟩
    | false =>
      rw [if_neg (by simp)]
      cases h6 : e.flags.ipv6 with
      | false =>
        rw [if_neg (by simp)]
        simp only
        rw [if_pos (by omega)]
        exact ⟨_, rfl, hl⟩
      | true =>
        rw [if_pos rfl]
        obtain ⟨b, e1, l1⟩ := v6PortString_small (ntop := ntop) (e := e)
          (buf := filled buf (scheme e.flags))
          (off := (scheme e.flags).length) (by omega) (by
            rcases Nat.lt_or_ge (textOf ntop e).length buf.length with h | h
            · right
              rcases Nat.lt_or_ge (buf.length - (scheme e.flags).length) 8 with h8 | h8
              · omega
              · exact absurd ⟨Or.inr h6, h, Or.inr h8⟩ hf
            · left
              rw [textOf_v6 h4, List.length_append] at h; omega)
        rw [e1]
        simp only
        rw [if_pos (by omega)]
        exact ⟨b, rfl, by omega⟩
  · rw [flagsToScheme, if_neg hs]
    simp only [Out.bind]
    rw [if_pos (by omega)]
    exact ⟨buf, rfl, rfl⟩

/-- Every IPv4 endpoint, and every IPv6 endpoint whose address text has at most 39
bytes (the longest RFC 4291 text), has a text that fits into 64 bytes. -/
theorem toString64_text (ntop : Bytes → Bytes) (e : Ep) (hip : HasIp e)
    (hn : e.flags.ipv4 = false → (ntop e.bytes).length ≤ 39) :
    toString64 ntop e = .ok (some (textOf ntop e)) := by
  have hs := length_scheme e.flags
  have hp := length_port e.port
  have hq := length_quad e.bytes
  have hl : (textOf ntop e).length < 64 := by
    cases h4 : e.flags.ipv4 with
    | true => rw [textOf_v4 h4]; simp; omega
    | false => have := hn h4; rw [textOf_v6 h4]; simp; omega
  obtain ⟨b, e1, _, e3, _⟩ := toCString_text ntop e (List.replicate 64 0) hip
    ⟨by simpa using hl, by right; simp; omega⟩ (fun h => by have := hn h; omega)
  rw [toString64, e1]
  simp only [Out.bind]
  rw [if_neg (by omega), Int.toNat_natCast]
  have := congrArg (List.take (textOf ntop e).length) e3
  rw [List.take_take, Nat.min_eq_left (by omega), List.take_left] at this
  rw [this]

theorem isNum_dec (n : Nat) : IsNum (dec n) := ⟨dec_ne_nil n, dec_digit n⟩

theorem isV4_quad {a : Bytes} (h : a.length = 16) : IsV4 (quad a) (a.take 4) := by
  match a, h with
  | x0 :: x1 :: x2 :: x3 :: r, _ =>
    have hv : ∀ x : UInt8, decVal (dec x.toNat) ≤ 255 := fun x => by
      rw [dec_val]; have := x.toNat_lt; omega
    have := IsV4.quad (dec x0.toNat) (dec x1.toNat) (dec x2.toNat) (dec x3.toNat) (isNum_dec _)
      (isNum_dec _) (isNum_dec _) (isNum_dec _) (hv _) (hv _) (hv _) (hv _)
    simp only [dec_val, UInt8.ofNat_toNat] at this
    simpa [quad] using this

/-- The text of a URI with a numeric or resolvable host is read as it is meant:
scheme, address, port and path, for every scheme, every RFC 4291 or dotted decimal
address, every port and every path.  Without a port the path must have no colon,
see `parse_colon_false`. -/
theorem parse_text_partial (dns : Option (Flags → Bytes → Option Bytes)) (tcp secured : Bool)
    {t : Bytes} {six : Bool} {a : Bytes} (ht : MeansHost dns (flagsOf tcp secured) t six a)
    {port : Option Bytes} (hport : PortOk port) {path : Bytes} (hpath : PathOk path)
    (hc : port = none → 58 ∉ path) :
    parse dns (scheme (flagsOf tcp secured) ++ (t ++ (portText port ++ path))) =
      .ok (some (epOf tcp secured six (UInt16.ofNat (portVal secured port)) a,
        if path = [] then none else some path)) := by
  have hshape : HostShape t := by
    rcases ht with h | ⟨h, _⟩
    · exact isHost_shape h
    · exact isName_shape h
  have hpd : NoDigit (portText port ++ path) := by
    cases port with
    | none => exact noDigit_path hpath
    | some d =>
      intro c h
      simp [portText] at h
      subst h
      unfold IsDigit
      decide
  rw [parse, parseUri_text tcp secured hshape hport hpath hc]
  simp only [Out.bind]
  have hlen : t.length ≠ 0 := fun h => hshape.1 (List.eq_nil_of_length_eq_zero h)
  rcases ht with h | ⟨h, look, ip, hd, hl, hip⟩
  · have hr : resolve dns ⟨flagsOf tcp secured, t ++ (portText port ++ path), t.length,
        if path = [] then none else some path, UInt16.ofNat (portVal secured port)⟩
        = some (t ++ (portText port ++ path), t.length) := by
      obtain ⟨s, c, e, hc⟩ := isHost_last h
      rw [resolve.eq_def, if_neg]
      simp only [lastHost]
      rw [if_neg hlen]
      have : (t ++ (portText port ++ path)).getD (t.length - 1) 0 = c := by
        rw [e]
        simp [List.getD_eq_getElem?_getD]
      rw [this, hc]
      simp
    rw [hr]
    simp only
    rw [readHost_text h _ hpd]
    simp [flagsOf, epOf]
  · obtain ⟨h254, _, _, _, s, c, e, hc⟩ := h
    have hr : resolve dns ⟨flagsOf tcp secured, t ++ (portText port ++ path), t.length,
        if path = [] then none else some path, UInt16.ofNat (portVal secured port)⟩
        = some (ip, ip.length) := by
      have hg : (t ++ (portText port ++ path)).getD (t.length - 1) 0 = c := by
        rw [e]
        simp [List.getD_eq_getElem?_getD]
      rw [resolve.eq_def, if_pos]
      · rw [hd]
        simp only
        rw [if_neg (by omega), List.take_left, hl]
      · simp only [lastHost]
        rw [if_neg hlen, hg]
        simp only [isAlpha]
        rcases hc with hc | hc <;> simp [hc.1, hc.2]
    rw [hr]
    simp only
    have := readHost_text hip ⟨flagsOf tcp secured, t ++ (portText port ++ path), t.length,
        if path = [] then none else some path, UInt16.ofNat (portVal secured port)⟩ noDigit_nil
    rw [List.append_nil] at this
    rw [this]
    simp [flagsOf, epOf]

/-- Writing an endpoint as text and reading the text gives back the scheme's flags,
the address and the port, and the endpoint read compares equal to the one written
if that is of device 0 and has no flags besides; for every IPv4 address, every IPv6
address that `inet_ntop` writes as groups of digits, every port. -/
theorem roundtrip_partial (ntop : Bytes → Bytes) (dns : Option (Flags → Bytes → Option Bytes))
    (e : Ep) (hlen : e.bytes.length = 16) (hip : HasIp e)
    (hn : e.flags.ipv4 = false → IsV6 (ntop e.bytes) e.bytes) :
    ∃ t e', toString64 ntop e = .ok (some t) ∧ parse dns t = .ok (some (e', none)) ∧
      e'.flags.tcp = e.flags.tcp ∧ e'.flags.secured = e.flags.secured ∧ e'.port = e.port ∧
      (if e.flags.ipv4 then e'.flags.ipv4 = true ∧ e'.flags.ipv6 = false ∧
          e'.bytes.take 4 = e.bytes.take 4
        else e'.flags.ipv4 = false ∧ e'.flags.ipv6 = true ∧ e'.bytes = e.bytes) ∧
      (e.device = 0 → e.flags.discovery = false → e.flags.gatt = false →
        (e.flags.ipv4 = true → e.flags.ipv6 = false) → compare e e' = true) := by
  have hs : scheme e.flags = scheme (flagsOf e.flags.tcp e.flags.secured) := rfl
  have hport : PortOk (some (dec e.port.toNat)) :=
    ⟨isNum_dec _, by rw [dec_val]; exact e.port.toNat_lt, by have := length_port e.port; omega⟩
  refine ⟨textOf ntop e, epOf e.flags.tcp e.flags.secured (!e.flags.ipv4) e.port
      (if e.flags.ipv4 then e.bytes.take 4 ++ List.replicate 12 0 else e.bytes),
    toString64_text ntop e hip (fun h => (length_v6 (hn h)).1), ?_, rfl, rfl, rfl, ?_, ?_⟩
  · have hv : UInt16.ofNat (portVal e.flags.secured (some (dec e.port.toNat))) = e.port := by
      simp [portVal, dec_val]
    cases h4 : e.flags.ipv4 with
    | true =>
      have := parse_text_partial dns e.flags.tcp e.flags.secured
        (Or.inl (IsHost.v4 _ _ (isV4_quad hlen))) hport (path := []) (Or.inl rfl) (by simp)
      rw [hv, ← hs] at this
      rw [textOf_v4 h4]
      simpa [portText] using this
    | false =>
      have := parse_text_partial dns e.flags.tcp e.flags.secured
        (Or.inl (IsHost.v6 _ _ (hn h4))) hport (path := []) (Or.inl rfl) (by simp)
      rw [hv, ← hs] at this
      rw [textOf_v6 h4]
      simpa [portText] using this
  · cases h4 : e.flags.ipv4 with
    | true => simp [hlen, epOf]
    | false => simp [epOf]
  · intro hd h1 h2 h3
    obtain ⟨⟨f1, f2, f3, f4, f5, f6, f7, f8⟩, dev, port, bytes, ses⟩ := e
    simp only at hd h1 h2 h3 hlen hip ⊢
    subst hd h1 h2
    cases f3 with
    | true =>
      have := h3 rfl
      subst this
      simp [compare, Flags.plain, sameSession, hlen, epOf]
    | false =>
      have : f4 = true := by
        rcases hip with h | h
        · cases h
        · exact h
      subst this
      simp [compare, Flags.plain, sameSession, epOf]

/-- The result does not depend on which text `inet_ntop` makes; e.g. a libc that
always writes eight groups. -/
example : IsV6 (joinC [[48], [48], [48], [48], [48], [48], [48], [49]])
    (List.replicate 15 0 ++ [1]) :=
  IsV6.full [[48], [48], [48], [48], [48], [48], [48], [49]] (by decide) rfl

/-- A case with "::": fe80::1. -/
example : IsV6 [102, 101, 56, 48, 58, 58, 49] (0xfe :: 0x80 :: (List.replicate 13 0 ++ [1])) :=
  IsV6.short [[102, 101, 56, 48]] [[49]] (by decide) (by decide) (by decide)

/-- `coaps+tcp://[fe80::1]:5683` for the endpoint with address fe80::1. -/
example : toString64 (fun _ => [102, 101, 56, 48, 58, 58, 49])
    (epOf true true true 5683 (0xfe :: 0x80 :: (List.replicate 13 0 ++ [1])))
    = .ok (some (scheme (flagsOf true true) ++ [91, 102, 101, 56, 48, 58, 58, 49, 93, 58, 53, 54,
        56, 51])) := by decide +kernel

/-- The text "::ffff:1.2.3.4" that `inet_ntop` makes for an IPv4-mapped address is
not read back: a segment longer than four bytes is refused. -/
theorem roundtrip_mapped_false (ntop : Bytes → Bytes)
    (h : ntop (List.replicate 10 0 ++ [255, 255, 1, 2, 3, 4])
      = [58, 58, 102, 102, 102, 102, 58, 49, 46, 50, 46, 51, 46, 52]) :
    ∃ t, toString64 ntop (epOf false false true 5683 (List.replicate 10 0 ++ [255, 255, 1, 2, 3, 4]))
        = .ok (some t) ∧ ∀ dns, parse dns t = .ok none := by
  refine ⟨textOf ntop (epOf false false true 5683 (List.replicate 10 0 ++ [255, 255, 1, 2, 3, 4])),
    toString64_text _ _ (Or.inr rfl) (fun _ => by simp only [epOf]; rw [h]; decide), fun dns => ?_⟩
  rw [textOf_v6 rfl]
  simp only [epOf]
  rw [h]
  have hu : parseUri (scheme { ipv4 := !true, ipv6 := true } ++ 91 :: ([58, 58, 102, 102, 102, 102, 58, 49, 46, 50,
      46, 51, 46, 52] ++ 93 :: 58 :: dec (5683 : UInt16).toNat))
      = .ok (some ⟨{}, 91 :: ([58, 58, 102, 102, 102, 102, 58, 49, 46, 50, 46, 51, 46, 52] ++
          93 :: 58 :: dec (5683 : UInt16).toNat), 16, none, 5683⟩) := by decide +kernel
  rw [parse, hu]
  simp only [Out.bind]
  rw [resolve.eq_def, if_neg (by decide +kernel)]
  simp only
  have hp : parseV6 ([58, 58, 102, 102, 102, 102, 58, 49, 46, 50, 46, 51, 46, 52] ++
      93 :: 58 :: dec (5683 : UInt16).toNat) 14 = .ok none := by decide +kernel
  rw [readHost, if_pos (by decide +kernel)]
  simp only [List.drop_one, List.tail_cons]
  rw [show (16 : Nat) - 2 = 14 from rfl, hp]
  rfl

/-- The text `coap://[::]:5` needs 14 bytes with its terminator, but a buffer of 14
bytes is refused: the code takes "[::1]:X" for the shortest text. -/
theorem toCString_min_false : ∃ e : Ep, HasIp e ∧
    (textOf (fun _ => [58, 58]) e).length < (List.replicate 14 (0 : UInt8)).length ∧
    ∃ b, toCString (fun _ => [58, 58]) e (List.replicate 14 0) = .ok (-1, b) :=
  ⟨{ flags := { ipv6 := true }, port := 5 }, Or.inr rfl, by decide +kernel,
    (scheme {} ++ List.replicate 7 0), by decide +kernel⟩

/-! ### C67: reading endpoint texts -/

theorem portLoop_safe : ∀ (s : Bytes) (n : Nat), ∃ r, portLoop (s ++ [0]) n = .ok r
  | s, 0 => ⟨true, by cases s <;> rfl⟩
  | [], n + 1 => ⟨false, by simp [portLoop, isDigit]⟩
  | c :: s, n + 1 => by
    simp only [List.cons_append, portLoop]
    split
    · exact portLoop_safe s n
    · exact ⟨false, rfl⟩

theorem parseUri_safe (t : Bytes) : ∃ r, parseUri t = .ok r := by
  rw [parseUri]
  cases parseFlags t with
  | none => exact ⟨_, rfl⟩
  | some f =>
    simp only
    cases hp : findPort (t.drop (scheme f).length) with
    | none => exact ⟨_, rfl⟩
    | some q =>
      cases q with
      | none => exact ⟨_, rfl⟩
      | some p =>
        simp only
        generalize portLen (indexOf 47 (t.drop (scheme f).length))
          (t.drop (scheme f).length).length (p + 1) = n
        obtain ⟨r, hr⟩ := portLoop_safe ((t.drop (scheme f).length).drop (p + 1)) n
        rw [hr]
        cases r
        · exact ⟨_, rfl⟩
        · exact ⟨_, rfl⟩

theorem readHost_safe (u : Uri) (a : Bytes) (n : Nat) :
    ∃ r, readHost u a n = .ok r ∧ ∀ e p, r = some (e, p) → p = u.uri ∧ e.bytes.length = 16 ∧
      e.device = 0 ∧ e.session = 0 ∧ e.port = u.port ∧
      (e.flags = { u.flags with ipv6 := true } ∨ e.flags = { u.flags with ipv4 := true }) := by
  rw [readHost]
  split
  · rename_i h
    obtain ⟨h1, h2, h3⟩ := h
    obtain ⟨r, e1, e2⟩ := parseV6_safe (s := a.drop 1) (n := n - 2) (Or.inr (by
      rw [List.getElem?_drop, show 1 + (n - 2) = n - 1 by omega]; exact h3))
    rw [e1]
    cases r with
    | none => exact ⟨none, rfl, fun e p h => by cases h⟩
    | some bs =>
      refine ⟨_, rfl, fun e p h => ?_⟩
      cases h
      exact ⟨rfl, e2 bs rfl, rfl, rfl, rfl, Or.inl rfl⟩
  · refine ⟨_, rfl, fun e p h => ?_⟩
    cases h
    refine ⟨rfl, ?_, rfl, rfl, rfl, Or.inr rfl⟩
    have : ∀ k s m, (v4Loop k s m).length ≤ k := by
      intro k
      induction k with
      | zero => intros; simp [v4Loop]
      | succ k ih =>
        intro s m
        rw [v4Loop]
        split
        · simp
        · simp only [List.length_cons]; have := ih (s.drop ((strtoul s).2 + 1)) (m - ((strtoul s).2 + 1)); omega
    have := this 4 a n
    simp [parseV4]; omega

/-- Reading any text, whatever the resolver answers, stays inside the text and the
address array. -/
theorem parse_safe (dns : Option (Flags → Bytes → Option Bytes)) (t : Bytes) :
    ∃ r, parse dns t = .ok r := by
  rw [parse]
  obtain ⟨r, hr⟩ := parseUri_safe t
  rw [hr]
  simp only [Out.bind]
  cases r with
  | none => exact ⟨_, rfl⟩
  | some u =>
    simp only
    cases resolve dns u with
    | none => exact ⟨_, rfl⟩
    | some q =>
      obtain ⟨r, h, _⟩ := readHost_safe u q.1 q.2
      exact ⟨r, h⟩

theorem parseFlags_some {t : Bytes} {f : Flags} (h : parseFlags t = some f) :
    ∃ tcp secured a, f = flagsOf tcp secured ∧ t = scheme f ++ a ∧ a ≠ [] := by
  have key : ∀ g, hasScheme t g = true → t = scheme g ++ t.drop (scheme g).length ∧
      t.drop (scheme g).length ≠ [] := by
    intro g hg
    simp only [hasScheme, Bool.and_eq_true, decide_eq_true_eq, beq_iff_eq] at hg
    refine ⟨?_, fun e => ?_⟩
    · conv => lhs; rw [← List.take_append_drop (scheme g).length t, hg.2]
    · have := congrArg List.length e
      simp at this
      omega
  unfold parseFlags at h
  repeat' split at h
  all_goals cases h
  · rename_i hg; exact ⟨true, true, _, rfl, key _ hg⟩
  · rename_i hg; exact ⟨true, false, _, rfl, key _ hg⟩
  · rename_i hg; exact ⟨false, true, _, rfl, key _ hg⟩
  · rename_i hg; exact ⟨false, false, _, rfl, key _ hg⟩

theorem parseUri_some {t : Bytes} {u : Uri} (h : parseUri t = .ok (some u)) :
    ∃ tcp secured a, u.flags = flagsOf tcp secured ∧ t = scheme (flagsOf tcp secured) ++ a ∧
      a ≠ [] ∧ u.address = a ∧ u.uri = (indexOf 47 a).map a.drop := by
  rw [parseUri] at h
  cases hf : parseFlags t with
  | none => rw [hf] at h; cases h
  | some f =>
    obtain ⟨tcp, secured, a, rfl, ht, ha⟩ := parseFlags_some hf
    rw [hf] at h
    simp only at h
    have hd : t.drop (scheme (flagsOf tcp secured)).length = a := by rw [ht, List.drop_left]
    rw [hd] at h
    split at h
    · cases h
    · cases h
      exact ⟨tcp, secured, a, rfl, ht, ha, rfl, rfl⟩
    · rename_i p _
      generalize portLen (indexOf 47 a) a.length (p + 1) = n at h
      obtain ⟨r, hr⟩ := portLoop_safe (a.drop (p + 1)) n
      rw [hr] at h
      cases r
      · cases h
      · simp only [Out.bind, if_true, Out.ok.injEq, Option.some.injEq] at h
        subst h
        exact ⟨tcp, secured, a, rfl, ht, ha, rfl, rfl⟩

/-- What an accepted text looks like and what the endpoint then is: the text starts
with one of the four schemes and goes on; the endpoint carries the flags of that
scheme and exactly one kind of address, 16 bytes of it; the path is the text from
the first slash on. -/
theorem parse_sound (dns : Option (Flags → Bytes → Option Bytes)) (t : Bytes) (e : Ep)
    (p : Option Bytes) (h : parse dns t = .ok (some (e, p))) :
    ∃ tcp secured six a, t = scheme (flagsOf tcp secured) ++ a ∧ a ≠ [] ∧
      (∃ port bytes, e = epOf tcp secured six port bytes ∧ bytes.length = 16) ∧
      ((p = none ∧ 47 ∉ a) ∨ ∃ s q, a = s ++ 47 :: q ∧ 47 ∉ s ∧ p = some (47 :: q)) := by
  rw [parse] at h
  obtain ⟨r, hr⟩ := parseUri_safe t
  rw [hr] at h
  simp only [Out.bind] at h
  cases r with
  | none => cases h
  | some u =>
    obtain ⟨tcp, secured, a, hu, ht, ha, hadr, huri⟩ := parseUri_some hr
    simp only at h
    cases hq : resolve dns u with
    | none => rw [hq] at h; cases h
    | some q =>
      rw [hq] at h
      simp only at h
      obtain ⟨r, h1, h2⟩ := readHost_safe u q.1 q.2
      rw [h1] at h
      cases h
      obtain ⟨e1, e2, e3, e4, _, e6⟩ := h2 e p rfl
      have hp : (p = none ∧ 47 ∉ a) ∨ ∃ s q, a = s ++ 47 :: q ∧ 47 ∉ s ∧ p = some (47 :: q) := by
        rw [e1, huri]
        cases hi : indexOf 47 a with
        | none =>
          left
          refine ⟨rfl, fun hm => ?_⟩
          have : ∀ s : Bytes, 47 ∈ s → indexOf 47 s ≠ none := by
            intro s
            induction s with
            | nil => intro h; cases h
            | cons c s ih =>
              intro h
              unfold indexOf
              split
              · simp
              · rename_i hc
                rcases List.mem_cons.1 h with h | h
                · exact absurd h.symm hc
                · cases hh : indexOf 47 s with
                  | none => exact absurd hh (ih h)
                  | some i => simp
          exact this a hm hi
        | some i =>
          right
          obtain ⟨i1, i2, i3⟩ := indexOf_lt hi
          have hdrop : a.drop i = 47 :: a.drop (i + 1) := by
            rw [List.drop_eq_getElem_cons i1]
            congr 1
            rw [List.getElem?_eq_getElem i1] at i2
            exact Option.some.inj i2
          refine ⟨a.take i, a.drop (i + 1), ?_, i3, ?_⟩
          · conv => lhs; rw [← List.take_append_drop i a, hdrop]
          · simp [hdrop]
      obtain ⟨ef, ed, ep, eb, es⟩ := e
      simp only at e2 e3 e4 e6
      subst e3 e4
      rcases e6 with e6 | e6
      · refine ⟨tcp, secured, true, a, ht, ha, ⟨ep, eb, ?_, e2⟩, hp⟩
        rw [e6, hu]; rfl
      · refine ⟨tcp, secured, false, a, ht, ha, ⟨ep, eb, ?_, e2⟩, hp⟩
        rw [e6, hu]; rfl

/-- A text that starts with none of the four schemes is refused. -/
theorem parse_noScheme (dns : Option (Flags → Bytes → Option Bytes)) (t : Bytes)
    (h : ∀ tcp secured a, a ≠ [] → t ≠ scheme (flagsOf tcp secured) ++ a) :
    parse dns t = .ok none := by
  obtain ⟨r, hr⟩ := parse_safe dns t
  cases r with
  | none => exact hr
  | some r =>
    obtain ⟨tcp, secured, _, a, h1, h2, _⟩ := parse_sound dns t r.1 r.2 hr
    exact absurd h1 (h tcp secured a h2)

/-- `coap://192.168.0.1:1234/a` -/
example : MeansHost none {} [49, 46, 50, 46, 51, 46, 52] false ([1, 2, 3, 4] ++ List.replicate 12 0) ∧
    PortOk (some [49, 50]) ∧ PathOk [47, 97] := by
  refine ⟨Or.inl (IsHost.v4 _ _ ?_), ⟨⟨by decide, ?_⟩, by decide, by decide⟩, Or.inr ⟨_, rfl⟩⟩
  · exact IsV4.quad [49] [50] [51] [52] ⟨by decide, by unfold IsDigit; decide⟩
      ⟨by decide, by unfold IsDigit; decide⟩ ⟨by decide, by unfold IsDigit; decide⟩
      ⟨by decide, by unfold IsDigit; decide⟩ (by decide) (by decide) (by decide) (by decide)
  · unfold IsDigit; decide

/-- A host name the resolver knows: `a.b`. -/
example : MeansHost (some fun _ _ => some (91 :: ([58, 58] ++ [93]))) {} [97, 46, 98] true
    (List.replicate 16 0) :=
  Or.inr ⟨⟨by decide, by decide, by decide, by decide, [97, 46], 98, rfl, by decide⟩,
    _, _, rfl, rfl, IsHost.v6 _ _ (IsV6.short [] [] (by simp) (by simp) (by simp))⟩

/-- `coap://1.2.3.4/a:b` is refused although its port is left out and a colon is
allowed in a path: the first colon anywhere is taken for the port's. -/
theorem parse_colon_false : ∃ t a : Bytes, IsHost t false a ∧
    ∀ dns, parse dns (scheme {} ++ (t ++ [47, 97, 58, 98])) = .ok none := by
  refine ⟨[49, 46, 50, 46, 51, 46, 52], _, IsHost.v4 _ _ (IsV4.quad [49] [50] [51] [52]
    ⟨by decide, by unfold IsDigit; decide⟩
      ⟨by decide, by unfold IsDigit; decide⟩ ⟨by decide, by unfold IsDigit; decide⟩
      ⟨by decide, by unfold IsDigit; decide⟩ (by decide) (by decide) (by decide) (by decide)), ?_⟩
  intro dns
  have hu : parseUri (scheme {} ++ ([49, 46, 50, 46, 51, 46, 52] ++ [47, 97, 58, 98]))
      = .ok none := by decide +kernel
  rw [parse, hu]
  rfl

/-- Helper of the witnesses below: a text without a name is read without the
resolver. -/
theorem parse_of {t : Bytes} {u : Uri} {a : Bytes} {n : Nat} {r : Option (Ep × Option Bytes)}
    (h1 : parseUri t = .ok (some u)) (h2 : isAlpha (lastHost u) = false)
    (h3 : u.address = a) (h4 : u.hostLen = n) (h5 : readHost u a n = .ok r)
    (dns : Option (Flags → Bytes → Option Bytes)) : parse dns t = .ok r := by
  rw [parse, h1]
  simp only [Out.bind]
  rw [resolve.eq_def, if_neg (by simp [h2])]
  simp only
  rw [h3, h4, h5]

/-- `coap://1.2.3.4:65537` is accepted, with port 1. -/
theorem parse_port_false : ∀ dns, ∃ e p,
    parse dns (scheme {} ++ [49, 46, 50, 46, 51, 46, 52, 58, 54, 53, 53, 51, 55])
      = .ok (some (e, p)) ∧ e.port = 1 := by
  intro dns
  refine ⟨{ flags := { ipv4 := true }, port := 1, bytes := [1, 2, 3, 4] ++ List.replicate 12 0 },
    none, ?_, rfl⟩
  exact parse_of (u := ⟨{}, [49, 46, 50, 46, 51, 46, 52, 58, 54, 53, 53, 51, 55], 7, none, 1⟩)
    (by decide +kernel) (by decide +kernel) rfl rfl (by decide +kernel) dns

/-- `coap://1.2.3.256` is accepted, as address 1.2.3.0. -/
theorem parse_octet_false : ∀ dns, ∃ e p,
    parse dns (scheme {} ++ [49, 46, 50, 46, 51, 46, 50, 53, 54]) = .ok (some (e, p)) ∧
      e.bytes.take 4 = [1, 2, 3, 0] := by
  intro dns
  refine ⟨{ flags := { ipv4 := true }, port := 5683, bytes := [1, 2, 3, 0] ++ List.replicate 12 0 },
    none, ?_, by decide⟩
  exact parse_of (u := ⟨{}, [49, 46, 50, 46, 51, 46, 50, 53, 54], 9, none, 5683⟩)
    (by decide +kernel) (by decide +kernel) rfl rfl (by decide +kernel) dns

/-- `coap://host1` is accepted as the address 0.0.0.0; the resolver is not asked,
because the name ends with a digit. -/
theorem parse_name_false : ∀ dns, ∃ e p,
    parse dns (scheme {} ++ [104, 111, 115, 116, 49]) = .ok (some (e, p)) ∧
      e.flags.ipv4 = true ∧ e.bytes = List.replicate 16 0 := by
  intro dns
  refine ⟨{ flags := { ipv4 := true }, port := 5683 }, none, ?_, rfl, rfl⟩
  exact parse_of (u := ⟨{}, [104, 111, 115, 116, 49], 5, none, 5683⟩)
    (by decide +kernel) (by decide +kernel) rfl rfl (by decide +kernel) dns

/-- `coap://[::1]:`, a URI with an empty port, is read as the IPv4 address 0.0.0.1:
the search for the port's colon leaves out the last byte. -/
theorem parse_emptyPort_false : ∀ dns, ∃ e p,
    parse dns (scheme {} ++ [91, 58, 58, 49, 93, 58]) = .ok (some (e, p)) ∧
      e.flags.ipv4 = true ∧ e.flags.ipv6 = false ∧ e.bytes.take 4 = [0, 0, 0, 1] := by
  intro dns
  refine ⟨epOf false false false 5683 ([0, 0, 0, 1] ++ List.replicate 12 0), none, ?_, rfl, rfl,
    rfl⟩
  exact parse_of (u := ⟨{}, [91, 58, 58, 49, 93, 58], 6, none, 5683⟩)
    (by decide +kernel) (by decide +kernel) rfl rfl (by decide +kernel) dns

/-- `coap://[::zz]` is accepted: bytes that are no hexadecimal digits are taken over
as they are. -/
theorem parse_hex_false : ∀ dns, ∃ e p,
    parse dns (scheme {} ++ [91, 58, 58, 122, 122, 93]) = .ok (some (e, p)) ∧
      e.bytes = List.replicate 15 0 ++ [250] := by
  intro dns
  refine ⟨{ flags := { ipv6 := true }, port := 5683, bytes := List.replicate 15 0 ++ [250] },
    none, ?_, rfl⟩
  exact parse_of (u := ⟨{}, [91, 58, 58, 122, 122, 93], 6, none, 5683⟩)
    (by decide +kernel) (by decide +kernel) rfl rfl (by decide +kernel) dns

/-! ### C68: comparing endpoints -/

/-- What equality of two endpoints means to a caller: same transport flags (apart
from multicast and accepted), same device, same port, same address of their kind,
and sessions that do not contradict each other. -/
theorem compare_iff (a b : Ep) : compare a b = true ↔
    a.flags.discovery = b.flags.discovery ∧ a.flags.secured = b.flags.secured ∧
    a.flags.ipv4 = b.flags.ipv4 ∧ a.flags.ipv6 = b.flags.ipv6 ∧ a.flags.tcp = b.flags.tcp ∧
    a.flags.gatt = b.flags.gatt ∧ a.device = b.device ∧ a.port = b.port ∧
    ((a.flags.ipv6 = true ∧ a.bytes = b.bytes) ∨
      (a.flags.ipv6 = false ∧ a.flags.ipv4 = true ∧ a.bytes.take 4 = b.bytes.take 4)) ∧
    (a.session = 0 ∨ b.session = 0 ∨ a.session = b.session) := by
  obtain ⟨⟨a1, a2, a3, a4, a5, a6, a7, a8⟩, ad, ap, ab, as⟩ := a
  obtain ⟨⟨b1, b2, b3, b4, b5, b6, b7, b8⟩, bd, bp, bb, bs⟩ := b
  simp only [compare, Flags.plain, sameSession]
  cases a4 <;> cases a3 <;> grind

/-- An IP endpoint equals itself. -/
theorem compare_refl (a : Ep) (h : HasIp a) : compare a a = true := by
  rw [compare_iff]
  rcases h with h | h
  · cases h6 : a.flags.ipv6 <;> simp [h]
  · simp [h]

/-- The order of the endpoints does not matter. -/
theorem compare_symm (a b : Ep) : compare a b = compare b a := by
  have : ∀ a b, compare a b = true → compare b a = true := by
    intro a b h
    rw [compare_iff] at h ⊢
    grind
  cases h : compare a b with
  | true => rw [this a b h]
  | false =>
    cases h' : compare b a with
    | true => rw [this b a h'] at h; cases h
    | false => rfl

/-- Two endpoints equal to a third one are equal, if that one names its session. -/
theorem compare_trans_partial (a b c : Ep) (hb : b.session ≠ 0) (h1 : compare a b = true)
    (h2 : compare b c = true) : compare a c = true := by
  rw [compare_iff] at h1 h2 ⊢
  grind

/-- With session 0, which stands for any session, equality is not transitive: two
endpoints of different sessions both equal the one without a session. -/
theorem compare_trans_false : ∃ a b c : Ep, compare a b = true ∧ compare b c = true ∧
    compare a c = false :=
  ⟨{ flags := { ipv4 := true, tcp := true }, session := 1 },
    { flags := { ipv4 := true, tcp := true } },
    { flags := { ipv4 := true, tcp := true }, session := 2 }, by decide, by decide, by decide⟩

/-- Endpoints that compare equal have equal addresses. -/
theorem compare_address (a b : Ep) (h : compare a b = true) : compareAddress a b = true := by
  rw [compare_iff] at h
  obtain ⟨_, _, h4, h6, _, _, _, _, h, _⟩ := h
  unfold compareAddress
  rcases h with ⟨h, h'⟩ | ⟨h, h', h''⟩
  · simp [← h6, h, h']
  · simp [← h6, ← h4, h, h', h'']

/-- A multicast flag or an accepted connection makes no difference. -/
example : compare { flags := { ipv6 := true, multicast := true } }
    { flags := { ipv6 := true, accepted := true }, session := 7 } = true := by decide

/-! ### C69: the path of an endpoint text -/

theorem findSep_append : ∀ {s : Bytes} (r : Bytes), 58 ∉ s → 0 ∉ s →
    findSep (s ++ 58 :: 47 :: 47 :: r) = some s.length
  | [], r, _, _ => by simp [findSep]
  | c :: s, r, h1, h2 => by
    have c0 : c ≠ 0 := fun e => h2 (by simp [e])
    have c58 : c ≠ 58 := fun e => h1 (by simp [e])
    have ih := findSep_append (s := s) r (fun h => h1 (by simp [h])) (fun h => h2 (by simp [h]))
    simp [findSep, c0, c58, ih]

/-- The path of `scheme://host/path?query` is `/path`: from the first slash behind
the host up to the query. -/
theorem parsePath_text (s host path query : Bytes) (hs : 58 ∉ s) (hs0 : 0 ∉ s)
    (hh : 47 ∉ host) (hp : 63 ∉ path) (hq : query = [] ∨ ∃ q, query = 63 :: q) :
    parsePath (some (s ++ 58 :: 47 :: 47 :: (host ++ (47 :: path ++ query))))
      = .ok (some (47 :: path)) := by
  have hd : (s ++ 58 :: 47 :: 47 :: (host ++ (47 :: path ++ query))).drop (s.length + 3)
      = host ++ (47 :: path ++ query) := by
    rw [← List.drop_drop, List.drop_left]; rfl
  rw [parsePath, findSep_append _ hs hs0]
  simp only [hd]
  rw [if_neg (by simp)]
  simp only [List.cons_append]
  rw [indexOf_append _ hh]
  simp only [List.drop_left]
  have h63 : (63 : UInt8) ∉ 47 :: path := by simp [hp]
  rcases hq with h | ⟨q, h⟩
  · subst h
    rw [List.append_nil, indexOf_none h63]
  · subst h
    have := indexOf_append q h63
    rw [List.cons_append] at this
    rw [this]
    simp

/-- Without a slash behind the host, or without "://", there is no path. -/
theorem parsePath_none (s host : Bytes) (hs : 58 ∉ s) (hs0 : 0 ∉ s) (hh : 47 ∉ host) :
    parsePath (some (s ++ 58 :: 47 :: 47 :: host)) = .ok none ∧ parsePath (some s) = .ok none := by
  constructor
  · have hd : (s ++ 58 :: 47 :: 47 :: host).drop (s.length + 3) = host := by
      rw [← List.drop_drop, List.drop_left]; rfl
    rw [parsePath, findSep_append _ hs hs0]
    simp only [hd, indexOf_none hh]
    split <;> rfl
  · have : ∀ s : Bytes, 58 ∉ s → findSep s = none := by
      intro s
      induction s with
      | nil => intro _; rfl
      | cons c s ih =>
        intro h
        have c58 : c ≠ 58 := fun e => h (by simp [e])
        simp [findSep, c58, ih (fun h' => h (by simp [h']))]
    rw [parsePath, this s hs]

example : parsePath (some (scheme (flagsOf true false) ++ [104, 47, 97, 63, 98]))
    = .ok (some [47, 97]) := by decide

/-- Asking for the path of an empty string object (its pointer is NULL) hands NULL
to `strstr`. -/
theorem parsePath_ub : parsePath none = .ub := rfl

/-- **C68.** Every address of the form RFC 4291, 2.5.6 gives to link-local addresses
(ten bits 1111111010, 54 zero bits, interface identifier) is recognised; no address
with another first byte, and none of IPv4, is. -/
theorem linkLocal_recognised (e : Ep) :
    (∀ iid, e.bytes = [0xfe, 0x80, 0, 0, 0, 0, 0, 0] ++ iid → isLinkLocal e = e.flags.ipv6) ∧
    (e.bytes.head? ≠ some 0xfe → isLinkLocal e = false) ∧
    (e.bytes[1]? = some 0 → isLinkLocal e = false) := by
  refine ⟨?_, ?_, ?_⟩
  · intro iid h; simp [isLinkLocal, h]
  · intro h
    cases hb : e.bytes with
    | nil => simp [isLinkLocal, hb]
    | cons a l => rw [hb] at h; simp at h; simp [isLinkLocal, hb, h]
  · intro h; simp [isLinkLocal, List.getD_eq_getElem?_getD, h]

example : isLinkLocal { flags := { ipv6 := true }, bytes := [0xfe, 0x80, 0, 0, 0, 0, 0, 0] ++ List.replicate 8 1 } = true := by
  decide

/-- Of the prefix fe80::/10 that RFC 4291, 2.4 reserves for link-local addresses only
fe80::/16 is recognised. -/
theorem linkLocal_prefix_false : ∃ e : Ep, e.flags.ipv6 = true ∧
    (∃ b0 b1 l, e.bytes = b0 :: b1 :: l ∧ b0 = 0xfe ∧ b1 &&& 0xc0 = 0x80) ∧ isLinkLocal e = false :=
  ⟨{ flags := { ipv6 := true }, bytes := 0xfe :: 0x90 :: List.replicate 14 1 }, rfl, ⟨_, _, _, rfl, by decide, by decide⟩, by decide⟩

end Verif.Endpoint
