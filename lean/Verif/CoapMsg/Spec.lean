import Verif.CoapMsg.Model
import Verif.Coap.Spec

/-!
What it means to send a message and to receive the same message, stated on the
fields that the option accessors of messaging/coap/options.c return.
-/

namespace Verif.CoapMsg.Spec

open Verif.Coap Verif.Coap.Spec

/-- Text of a string given by pointer and length. -/
def text (s : CStr) : List UInt8 := s.mem.take s.len

/-- A string that fits into one option and lies in its object. -/
def StrOk (s : CStr) : Prop := s.len ≤ s.mem.length ∧ s.len ≤ 65804

/-- A path or query: segments joined by `sep`, each non-empty (or the empty
string altogether), and one more byte in the object (the terminating NUL). -/
def SegsOk (sep : UInt8) (s : CStr) : Prop :=
  ∃ (segs : List (List UInt8)) (after : UInt8) (post : List UInt8),
    segs ≠ [] ∧ (∀ x ∈ segs, sep ∉ x ∧ x.length ≤ 65804) ∧
    (segs = [[]] ∨ ∀ x ∈ segs, x ≠ []) ∧
    s.mem = joinSegs sep segs ++ after :: post ∧ s.len = (joinSegs sep segs).length

/-- A block option with a size that RFC 7959 (or BERT) can express. -/
def BlockOk (b : Block) : Prop := b.num ≤ 0xFFFFF ∧ ∃ k ≤ 7, b.size = 16 * 2 ^ k

/-- Options that the serializer knows. -/
def supported : List Nat := [3, 4, 6, 7, 11, 12, 14, 15, 17, 23, 27, 28, 35, 60]

/-- Whether a content format is announced with a version option. -/
def hasVersion (cfg : Cfg) (fmt : Nat) : Prop := fmt = 10000 ∨ (cfg.oic = true ∧ fmt = 60)

/-- A message the application may send: fields in the range of their C types and
option values that the protocol allows.  `version` is the condition violated by
an Accept without version together with a Content-Format with version (see
`accept_without_version_false`). -/
structure Valid (cfg : Cfg) (p : Packet CStr) : Prop where
  type : p.type < 4
  code : 0 < p.code ∧ p.code < 256
  plain : isSignal p.code = false
  mid : p.mid < 65536
  token : p.token.length ≤ 8
  host : p.isSet 3 = true → StrOk p.uriHost
  etag : p.isSet 4 = true → p.etag.length ≤ 8
  observe : p.isSet 6 = true → -2^31 ≤ p.observe ∧ p.observe < 2^31
  port : p.isSet 7 = true → p.uriPort < 65536
  path : p.isSet 11 = true → SegsOk 47 p.uriPath
  format : p.isSet 12 = true → validContentFormat cfg p.contentFormat = true
  maxAge : p.isSet 14 = true → p.maxAge < 2^32
  query : p.isSet 15 = true → SegsOk 38 p.uriQuery
  accept : p.isSet 17 = true → validAccept cfg p.accept = true
  block2 : p.isSet 23 = true → BlockOk p.block2
  block1 : p.isSet 27 = true → BlockOk p.block1
  size2 : p.isSet 28 = true → p.size2 < 2^32
  proxy : p.isSet 35 = true → StrOk p.proxyUri
  size1 : p.isSet 60 = true → p.size1 < 2^32
  version : p.isSet 17 = true → p.isSet 12 = true → hasVersion cfg p.contentFormat →
    hasVersion cfg p.accept
  payload : p.payload.len ≤ p.payload.mem.length

/-- The block option the receiver sees. -/
def blockSeen (b : Block) : Block := ⟨b.num, if b.more ≠ 0 then 1 else 0, b.size, b.num * b.size⟩

/-- Packet `q` parsed from message `mem` has the options and the payload of the
sent packet `p`. -/
structure Same (p : Packet CStr) (q : Packet Span) (mem : List UInt8) : Prop where
  isSet : ∀ n, q.isSet n = (supported.contains n && p.isSet n)
  host : p.isSet 3 = true → slice mem q.uriHost.off q.uriHost.len = text p.uriHost
  etag : p.isSet 4 = true → q.etag = p.etag
  observe : p.isSet 6 = true → q.observe = p.observe
  port : p.isSet 7 = true → q.uriPort = p.uriPort
  path : p.isSet 11 = true → slice mem q.uriPath.off q.uriPath.len = text p.uriPath
  format : p.isSet 12 = true → q.contentFormat = p.contentFormat
  maxAge : p.isSet 14 = true → q.maxAge = p.maxAge
  query : p.isSet 15 = true → slice mem q.uriQuery.off q.uriQuery.len = text p.uriQuery
  accept : p.isSet 17 = true → q.accept = p.accept
  block2 : p.isSet 23 = true → q.block2 = blockSeen p.block2
  block1 : p.isSet 27 = true → q.block1 = blockSeen p.block1
  size2 : p.isSet 28 = true → q.size2 = p.size2
  proxy : p.isSet 35 = true → slice mem q.proxyUri.off q.proxyUri.len = text p.proxyUri
  size1 : p.isSet 60 = true → q.size1 = p.size1
  token : q.token = p.token
  code : q.code = p.code
  payload : slice mem q.payload.off q.payload.len = text p.payload

end Verif.CoapMsg.Spec
