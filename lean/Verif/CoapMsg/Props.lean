import Verif.CoapMsg.RoundTrip

/-!
C17: a message that is serialized and parsed again is the same message.
-/

namespace Verif.CoapMsg

open Verif.Coap Verif.CoapMsg.Spec

/-- The configuration used in the examples: TCP, OIC 1.1 compatibility, no JSON. -/
def exCfg : Cfg := ⟨true, true, false, false, false⟩

/-- A string literal of the application, with its terminating NUL. -/
def cstr (l : List UInt8) : CStr := ⟨l ++ [0], l.length⟩

/-- A confirmable POST to `/ab/c?d=e` with token, observe, content format, accept,
block 1 and payload. -/
def exMsg : Packet CStr :=
  { zeroPacket (cstr []) with
    type := 0, code := 2, mid := 0x1234, token := [1, 2, 3, 4, 5, 6, 7, 8]
    isSet := fun n => [3, 4, 6, 11, 12, 15, 17, 27].contains n
    uriHost := cstr [104], etag := [9, 8, 7], observe := -1
    uriPath := cstr [97, 98, 47, 99], contentFormat := 10000
    uriQuery := cstr [100, 61, 101], accept := 10000
    block1 := ⟨5, 1, 1024, 0⟩, payload := cstr [0xFF, 0, 0xFF] }

theorem exMsg_valid : Valid exCfg exMsg := by
  constructor
  case path =>
    intro _
    exact ⟨[[97, 98], [99]], 0, [], by decide, by decide, by decide, rfl, rfl⟩
  case query =>
    intro _
    exact ⟨[[100, 61, 101]], 0, [], by decide, by decide, by decide, rfl, rfl⟩
  case block1 => intro _; exact ⟨by decide, 6, by decide, rfl⟩
  case host => intro _; exact ⟨by decide, by decide⟩
  case block2 => intro h; exact absurd h (by decide)
  case proxy => intro h; exact absurd h (by decide)
  case version => intro _ _ _; exact Or.inl rfl
  all_goals decide

/-- C17: whatever follows the datagram in the receive buffer, parsing the
serialized message succeeds and gives type, code, message id, token, options and
payload back; options that the serializer does not know are not set. -/
theorem udp_roundtrip (cfg : Cfg) (maxHdr : Nat) (p : Packet CStr) (hv : Valid cfg p)
    (bufferSize : Nat) (msg : List UInt8) (hser : serialize cfg maxHdr false p bufferSize = .ok (some msg))
    (hlen : msg.length ≤ 65535) (post : List UInt8) (p0 : Packet Span) :
    ∃ q mem', udpParse cfg false (msg ++ post) msg.length p0 = .ok (noError, q, mem') ∧
      Same p q mem' ∧ q.version = 1 ∧ q.type = p.type ∧ q.mid = p.mid := by
  obtain ⟨s, opts, tail, h3, h4, h5, htail, hmsg⟩ := serialize_some cfg maxHdr false p bufferSize hv msg hser
  rw [show headerOf false p s.out.length p.payload.len = udpHeader p from rfl] at hmsg
  have htl := hv.token
  obtain ⟨q, mem', e1, e2, e3, e4, e5, _⟩ := options_roundtrip cfg p hv s opts h3 h4 h5 (udpHeader p ++ p.token) post
    1 p.type p.mid tail htail (by rw [← hmsg]; omega)
  refine ⟨q, mem', ?_, e2, e3, e4, e5⟩
  have hpre : (udpHeader p ++ p.token).length = 4 + p.token.length := by simp [udpHeader]; omega
  rw [hpre] at e1
  rw [← hmsg] at e1
  have hmem : udpHeader p ++ p.token ++ (s.out ++ (tail ++ post)) = msg ++ post := by rw [hmsg]; simp
  rw [hmem] at e1
  obtain ⟨f1, f2, f3⟩ := udp_first p.type p.token.length hv.type htl
  have hcode : (UInt8.ofNat p.code).toNat = p.code := by
    simp only [UInt8.toNat_ofNat']; have := hv.code.2; omega
  have hm : msg ++ post = udpHeader p ++ (p.token ++ (s.out ++ (tail ++ post))) := by rw [hmsg]; simp
  unfold udpParse
  rw [if_neg (by omega), get_eq_ok (msg ++ post) 0 _ (by rw [hm]; rfl), get_eq_ok (msg ++ post) 1 _ (by rw [hm]; rfl),
    get_eq_ok (msg ++ post) 2 _ (by rw [hm]; rfl), get_eq_ok (msg ++ post) 3 _ (by rw [hm]; rfl)]
  simp only [Out.ok_bind, f1, f2, f3, hcode, mid_bytes p.mid hv.mid]
  rw [if_neg (by decide), if_neg (by omega)]
  have htok : sliceChk (msg ++ post) 4 p.token.length = .ok p.token := by
    rw [sliceChk, if_pos (by rw [hm]; simp [udpHeader]; omega), hm]
    simp [slice, udpHeader]
  rw [htok]
  exact e1

/-- The bytes of `exMsg` (the values of the Observe and version options are
written in four and two bytes). -/
def exBytes : List UInt8 :=
  [0x48, 2, 0x12, 0x34, 1, 2, 3, 4, 5, 6, 7, 8, 0x31, 104, 0x13, 9, 8, 7, 0x24, 0xFF, 0xFF, 0xFF, 0xFF,
   0x52, 97, 98, 0x01, 99, 0x12, 0x27, 0x10, 0x33, 100, 61, 101, 0x22, 0x27, 0x10, 0xA1, 0x5E,
   0xE2, 0x06, 0xD9, 0x08, 0x00, 0x42, 0x08, 0x00, 0xFF, 0xFF, 0, 0xFF]

theorem exMsg_bytes : serialize exCfg 200 false exMsg 1024 = .ok (some exBytes) := by decide +kernel

example (post : List UInt8) (p0 : Packet Span) :
    ∃ q mem', udpParse exCfg false (exBytes ++ post) 52 p0 = .ok (noError, q, mem') ∧
      Same exMsg q mem' ∧ q.version = 1 ∧ q.type = 0 ∧ q.mid = 0x1234 :=
  udp_roundtrip exCfg 200 exMsg exMsg_valid 1024 exBytes exMsg_bytes (by decide) post p0

/-- C17, C19: the same over TCP; the type is always NON and there is no message
id. -/
theorem tcp_roundtrip (cfg : Cfg) (maxHdr : Nat) (p : Packet CStr) (hv : Valid cfg p)
    (bufferSize : Nat) (msg : List UInt8) (hser : serialize cfg maxHdr true p bufferSize = .ok (some msg))
    (hlen : msg.length ≤ 4294967295) (post : List UInt8) (p0 : Packet Span) :
    ∃ q mem', tcpParse cfg false (msg ++ post) msg.length p0 = .ok (noError, q, mem') ∧
      Same p q mem' ∧ q.type = 1 := by
  obtain ⟨s, opts, tail, h3, h4, h5, htail, hmsg⟩ := serialize_some cfg maxHdr true p bufferSize hv msg hser
  have htl := hv.token
  obtain ⟨q, mem', e1, e2, e3, e4, e5, _⟩ := options_roundtrip cfg p hv s opts h3 h4 h5
    (headerOf true p s.out.length p.payload.len ++ p.token) post 0 1 0 tail htail (by rw [← hmsg]; omega)
  refine ⟨q, mem', ?_, e2, e4⟩
  have hhl := headerOf_length true p s.out.length p.payload.len
  rw [if_pos rfl] at hhl
  have htail' : tail.length = if p.payload.len > 0 then 1 + p.payload.len else 0 := by
    rw [htail]; split
    · simp [text_length _ hv.payload]; omega
    · rfl
  have hbody : bodyLen s.out.length p.payload.len = s.out.length + tail.length := by rw [htail', bodyLen]
  have hml : msg.length = (headerOf true p s.out.length p.payload.len).length + p.token.length
      + (s.out.length + tail.length) := by rw [hmsg]; simp; omega
  have hpre : (headerOf true p s.out.length p.payload.len ++ p.token).length
      = 2 + (tcpComputeLength s.out.length p.payload.len).2.1 + p.token.length := by
    rw [List.length_append, hhl]
  rw [hpre, ← hmsg] at e1
  have hm : msg ++ post = headerOf true p s.out.length p.payload.len ++ (p.token ++ (s.out ++ (tail ++ post))) := by
    rw [hmsg]; simp
  have hm2 : headerOf true p s.out.length p.payload.len ++ p.token ++ (s.out ++ (tail ++ post)) = msg ++ post := by
    rw [hm]; simp
  rw [hm2] at e1
  have hb : bodyLen s.out.length p.payload.len < 65805 + 2 ^ 32 := by omega
  have hlt : (tcpComputeLength s.out.length p.payload.len).1 < 16 := by
    rcases tcpCompute_cases _ _ hb with ⟨hc, hl⟩ | ⟨a, d, had, hc1, _⟩
    · rw [hc]; simp only; omega
    · rw [hc1]; simp at had; omega
  unfold tcpParse
  rw [if_neg (by omega)]
  have hp := tcpParseLength_header p htl s.out.length p.payload.len hb (p.token ++ (s.out ++ (tail ++ post))) msg.length
    (by omega)
  rw [← hm] at hp
  rw [hp]
  have hcode : (UInt8.ofNat p.code).toNat = p.code := by
    simp only [UInt8.toNat_ofNat']; have := hv.code.2; omega
  have g0 : Out.get (msg ++ post) 0 = .ok (UInt8.ofNat ((0xF0 &&& ((tcpComputeLength s.out.length p.payload.len).1 <<< 4))
      ||| (0x0F &&& p.token.length))) := by rw [hm]; rfl
  have g1 : Out.get (msg ++ post) (1 + (tcpComputeLength s.out.length p.payload.len).2.1) = .ok (UInt8.ofNat p.code) := by
    apply get_eq_ok
    rw [hm]
    simp only [headerOf, tcpHeader, if_true, List.cons_append, List.append_assoc]
    rw [Nat.add_comm, List.getElem?_cons_succ, List.getElem?_append_right (by rw [tcpExtBytes_length]; exact Nat.le_refl _),
      tcpExtBytes_length, Nat.sub_self]
    rfl
  simp only [Out.ok_bind, g0, g1, hcode, (nibbles _ _ hlt (show p.token.length < 16 by omega)).1]
  rw [if_neg (by omega)]
  have htok : sliceChk (msg ++ post) (2 + (tcpComputeLength s.out.length p.payload.len).2.1) p.token.length
      = .ok p.token := by
    rw [← hhl, hm, sliceChk, if_pos (by simp)]
    simp [slice]
  rw [htok]
  exact e1

theorem exMsg_tcp : serialize exCfg 200 true exMsg 1024
    = .ok (some (0xD8 :: 27 :: 2 :: exBytes.drop 4)) := by decide +kernel

example (p0 : Packet Span) : ∃ q mem',
    tcpParse exCfg false ((0xD8 :: 27 :: 2 :: exBytes.drop 4) ++ []) 51 p0 = .ok (noError, q, mem') ∧
      Same exMsg q mem' ∧ q.type = 1 :=
  tcp_roundtrip exCfg 200 exMsg exMsg_valid 1024 _ exMsg_tcp (by decide) [] p0

/-- C17: serializing a valid message is defined, and with enough room it
produces a message that does not depend on the room. -/
theorem serialize_succeeds (cfg : Cfg) (maxHdr : Nat) (tcp : Bool) (p : Packet CStr) (hv : Valid cfg p)
    (hpl : p.payload.len < 2 ^ 32 - 1) :
    ∃ msg, ∀ bufferSize, msg.length ≤ bufferSize → bufferSize < 2 ^ 64 → msg.length - p.payload.len ≤ maxHdr →
      serialize cfg maxHdr tcp p bufferSize = .ok (some msg) := by
  obtain ⟨s, opts, h1, h3, h4, h5, _⟩ := serialize_valid cfg maxHdr tcp p 0 hv
  have htl := text_length _ hv.payload
  by_cases hp : p.payload.len > 0
  · refine ⟨headerOf tcp p s.out.length p.payload.len ++ p.token ++ s.out ++ 0xFF :: text p.payload, ?_⟩
    intro bs hb hb2 hm
    obtain ⟨s', _, h1', _, _, _, hs⟩ := serialize_valid cfg maxHdr tcp p bs hv
    have : s' = s := by rw [h1] at h1'; simpa using h1'.symm
    subst this
    rw [hs]
    dsimp only
    generalize headerOf tcp p s'.out.length p.payload.len ++ p.token ++ s'.out = head at *
    rw [List.length_append, List.length_cons, htl] at hb hm
    rw [if_neg (by simp [checkHeaderSize]; omega), if_pos hp, if_neg]
    rw [subSize, if_pos (by omega), Nat.mod_eq_of_lt (by omega)]
    omega
  · refine ⟨headerOf tcp p s.out.length p.payload.len ++ p.token ++ s.out, ?_⟩
    intro bs hb hb2 hm
    obtain ⟨s', _, h1', _, _, _, hs⟩ := serialize_valid cfg maxHdr tcp p bs hv
    have : s' = s := by rw [h1] at h1'; simpa using h1'.symm
    subst this
    rw [hs]
    dsimp only
    generalize headerOf tcp p s'.out.length p.payload.len ++ p.token ++ s'.out = head at *
    rw [if_neg (by simp [checkHeaderSize]; omega), if_neg hp]

/-- C17: a message written to a buffer of `bufferSize > 0` bytes fits into it. -/
theorem serialize_fits (cfg : Cfg) (maxHdr : Nat) (tcp : Bool) (p : Packet CStr) (hv : Valid cfg p)
    (hpl : p.payload.len < 2 ^ 32 - 1) (bufferSize : Nat) (hb : 0 < bufferSize) (msg : List UInt8)
    (hser : serialize cfg maxHdr tcp p bufferSize = .ok (some msg)) : msg.length ≤ bufferSize := by
  obtain ⟨s, opts, h1, h3, h4, h5, hs⟩ := serialize_valid cfg maxHdr tcp p bufferSize hv
  have htl := text_length _ hv.payload
  rw [hser] at hs
  dsimp only at hs
  generalize headerOf tcp p s.out.length p.payload.len ++ p.token ++ s.out = head at *
  split at hs
  · simp at hs
  · rename_i hc
    have hc' : head.length ≤ bufferSize := by
      simp [checkHeaderSize] at hc; omega
    split at hs
    · split at hs
      · simp at hs
      · rename_i h2
        simp only [Out.ok.injEq, Option.some.injEq] at hs
        rw [subSize, if_pos hc', Nat.mod_eq_of_lt (by omega)] at h2
        rw [hs, List.length_append, List.length_cons, htl]
        omega
    · simp only [Out.ok.injEq, Option.some.injEq] at hs
      rw [hs]; exact hc'

example : serialize exCfg 200 false exMsg 52 = .ok (some exBytes) ∧
    serialize exCfg 200 false exMsg 51 = .ok none := by decide +kernel

/-- A buffer size of zero disables both checks: the bytes are stored although
there is no room. -/
theorem serialize_zero_buffer_false :
    serialize exCfg 200 false exMsg 0 = .ok (some exBytes) := by decide +kernel

/-- A configuration with JSON support. -/
def jsonCfg : Cfg := ⟨false, false, true, false, false⟩

/-- POST with OCF-CBOR content that asks for a JSON answer. -/
def jsonMsg : Packet CStr :=
  { zeroPacket (cstr []) with
    code := 2, isSet := fun n => n == 12 || n == 17, contentFormat := 10000, accept := 50 }

/-- C17 fails when Accept has no version option but Content-Format has one: the
Content-Format version is written with the option delta 2053 - 2049 although no
option 2049 precedes it, so that the receiver sees the unknown critical option
21 and refuses the message. -/
theorem accept_without_version_false (p0 : Packet Span) :
    serialize jsonCfg 200 false jsonMsg 1024
      = .ok (some [0x40, 2, 0, 0, 0xC2, 0x27, 0x10, 0x51, 50, 0x42, 8, 0]) ∧
    ∃ q mem', udpParse jsonCfg false [0x40, 2, 0, 0, 0xC2, 0x27, 0x10, 0x51, 50, 0x42, 8, 0] 12 p0
      = .ok (badOption, q, mem') :=
  ⟨by decide +kernel, _, _, rfl⟩

/-- An empty message with a token announces the token but does not contain it. -/
theorem empty_message_token_false :
    serialize exCfg 200 false { exMsg with code := 0 } 1024 = .ok (some [0x48, 0, 0x12, 0x34]) := by
  decide +kernel

end Verif.CoapMsg
