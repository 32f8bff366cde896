import Verif.Tls.PrfModel

/-!
C118: the key shared with the owner of a device.
-/

namespace Verif.Tls.Spec

/-- The values A(i) of RFC 5246 section 5. -/
def A (hmac : List UInt8 → List UInt8 → List UInt8) (secret seed : List UInt8) : Nat → List UInt8
  | 0 => seed
  | i + 1 => hmac secret (A hmac secret seed i)

/-- The first `i` blocks of P_hash of RFC 5246 section 5. -/
def pHash (hmac : List UInt8 → List UInt8 → List UInt8) (secret seed : List UInt8) (i : Nat) : List UInt8 :=
  (List.range i).flatMap fun j => hmac secret (A hmac secret seed (j + 1) ++ seed)

/-- The first `n` bytes of P_hash; blocks have 32 bytes. -/
def P (hmac : List UInt8 → List UInt8 → List UInt8) (secret seed : List UInt8) (n : Nat) : List UInt8 :=
  (pHash hmac secret seed ((n + 31) / 32)).take n

end Verif.Tls.Spec

namespace Verif.Tls

open Verif.Acl (Id)
open Verif.Rep (b)
open Spec

/-- Every value of the hash has 32 bytes. -/
def Is32 (hmac : Hmac) : Prop := ∀ k m, (hmac k m).length = 32

theorem pHash_succ (hmac : Hmac) (secret seed : List UInt8) (i : Nat) :
    pHash hmac secret seed (i + 1) = pHash hmac secret seed i ++ hmac secret (A hmac secret seed (i + 1) ++ seed) := by
  simp [pHash, List.range_succ, List.flatMap_append]

theorem pHash_length (hmac : Hmac) (h : Is32 hmac) (secret seed : List UInt8) (i : Nat) :
    (pHash hmac secret seed i).length = 32 * i := by
  induction i with
  | zero => rfl
  | succ i ih => rw [pHash_succ, List.length_append, ih, h]; omega

theorem prfLoop_spec (hmac : Hmac) (h : Is32 hmac) (secret msg : List UInt8) (n : Nat) :
    ∀ (fuel i : Nat), 32 * i ≤ n → n < 32 * i + fuel → 
      prfLoop hmac secret msg n fuel (A hmac secret msg (i + 1)) (pHash hmac secret msg i) = P hmac secret msg n := by
  intro fuel
  induction fuel with
  | zero => intro i h1 h2; omega
  | succ fuel ih =>
    intro i h1 h2
    have hl := pHash_length hmac h secret msg i
    simp only [prfLoop]
    by_cases hn : 32 * i = n
    · rw [if_neg (by omega)]
      simp only [P]
      rw [show (n + 31) / 32 = i by omega, List.take_of_length_le (by omega)]
    · rw [if_pos (by omega)]
      by_cases hc : n - (pHash hmac secret msg i).length < 32
      · -- the last block
        have hi : (n + 31) / 32 = i + 1 := by omega
        rw [if_pos hc, if_neg (by omega)]
        have hout : pHash hmac secret msg i ++
            (hmac secret (A hmac secret msg (i + 1) ++ msg)).take (n - (pHash hmac secret msg i).length) =
            P hmac secret msg n := by
          simp only [P, hi, pHash_succ]
          rw [List.take_append, List.take_of_length_le (l := pHash hmac secret msg i) (by omega)]
        rw [hout]
        have hlen : (P hmac secret msg n).length = n := by
          rw [← hout, List.length_append, List.length_take, h]; omega
        cases fuel with
        | zero => rfl
        | succ fuel => simp only [prfLoop]; rw [if_neg (by omega)]
      · rw [if_neg hc, if_pos rfl]
        have hb : (hmac secret (A hmac secret msg (i + 1) ++ msg)).take 32 =
            hmac secret (A hmac secret msg (i + 1) ++ msg) := List.take_of_length_le (by rw [h]; omega)
        rw [hb, ← pHash_succ]
        exact ih (i + 1) (by omega) (by omega)

/-- For every secret, seed and length, the pseudo-random function is that of RFC 5246. -/
theorem prf_rfc5246 (hmac : Hmac) (h : Is32 hmac) (secret : List UInt8) (n : Nat) (frags : List (List UInt8)) :
    prf hmac true true secret n frags = .ok (some (P hmac secret frags.flatten n)) := by
  have := prfLoop_spec hmac h secret frags.flatten n (n + 1) 0 (by omega) (by omega)
  simp only [prf, Bool.not_true, Bool.false_eq_true, if_false]
  exact congrArg (fun x => Out.ok (some x)) this

theorem P_length (hmac : Hmac) (h : Is32 hmac) (secret seed : List UInt8) (n : Nat) :
    (P hmac secret seed n).length = n := by
  simp only [P, List.length_take, pHash_length hmac h]; omega

/-- A session of a finished handshake: not all of the master secret and of the random
bytes is zero. -/
def Live (s : Session) : Prop := (∃ x ∈ s.master, x ≠ 0) ∧ (∃ x ∈ s.clientRandom ++ s.serverRandom, x ≠ 0)

theorem all_zero_iff (l : List UInt8) : (l.all (· == 0)) = true ↔ ¬ ∃ x ∈ l, x ≠ 0 := by
  simp

/-- For every live session, every suite and all identifiers, the derived key is the
pseudo-random function of the key block, which is the key expansion of the session,
over the name of the method, the identifier of the owner and that of the device. -/
theorem owner_key_exact (hmac : Hmac) (h : Is32 hmac) (s : Session) (hs : Live s) (oxm server obt : List UInt8)
    (n : Nat) :
    ownerPsk hmac (fun _ => (true, true)) (some s) oxm server obt n =
      .ok (some (P hmac (P hmac s.master (b "key expansion" ++ s.serverRandom ++ s.clientRandom) (keyBlockLen s.suite))
        (oxm ++ obt ++ server) n)) := by
  have h1 : ¬ (s.master.all (· == 0)) = true := by rw [all_zero_iff]; exact fun h' => h' hs.1
  have h2 : ¬ ((s.clientRandom ++ s.serverRandom).all (· == 0)) = true := by
    rw [all_zero_iff]; exact fun h' => h' hs.2
  have h3 : ¬ keyBlockLen s.suite > 184 := by cases s.suite <;> decide
  simp only [ownerPsk, prf_rfc5246 hmac h]
  rw [if_neg h1, if_neg h2, if_neg h3]
  simp only [Out.bind]
  rw [if_neg (by simp [P_length hmac h]), if_neg (by simp [P_length hmac h])]
  simp [List.append_assoc]

/-- A key is derived only over a live session. -/
theorem no_session_no_key (hmac : Hmac) (setup : Nat → Bool × Bool) (peer : Option Session)
    (oxm server obt k : List UInt8) (n : Nat) (hk : ownerPsk hmac setup peer oxm server obt n = .ok (some k)) :
    (∃ s, peer = some s ∧ Live s) ∧ k.length = n := by
  cases peer with
  | none => simp [ownerPsk] at hk
  | some s =>
    simp only [ownerPsk] at hk
    split at hk
    · cases hk
    · next h1 =>
      split at hk
      · cases hk
      · next h2 =>
        have hl : Live s := by
          rw [all_zero_iff] at h1 h2
          constructor
          · exact Classical.byContradiction h1
          · exact Classical.byContradiction h2
        refine ⟨⟨s, rfl, hl⟩, ?_⟩
        split at hk
        · cases hk
        · cases hp : prf hmac (setup 0).1 (setup 0).2 s.master (keyBlockLen s.suite)
              [b "key expansion", s.serverRandom, s.clientRandom] with
          | ub => rw [hp] at hk; cases hk
          | ok r =>
            rw [hp] at hk
            simp only [Out.bind] at hk
            cases r with
            | none => cases hk
            | some kb =>
              simp only at hk
              split at hk
              · cases hk
              · cases hp2 : prf hmac (setup 1).1 (setup 1).2 kb n [oxm, obt, server] with
                | ub => rw [hp2] at hk; cases hk
                | ok r2 =>
                  rw [hp2] at hk
                  simp only at hk
                  cases r2 with
                  | none => cases hk
                  | some k2 =>
                    simp only at hk
                    split at hk
                    · cases hk
                    · next hl2 => cases hk; simpa using hl2

/-- The tool and the device derive the same key of 16 bytes when they use the same
session and method and each knows the identifier of the other. -/
theorem owner_agrees (hmac : Hmac) (h : Is32 hmac) (s : Session) (hs : Live s) (method : Int)
    (hm : method = 0 ∨ method = 1 ∨ method = 2) (device owner : Id) :
    ∃ k, toolKey hmac (fun _ => (true, true)) (some s) method device owner = some (.ok (some k)) ∧
      deviceKey hmac (fun _ => (true, true)) (some s) method device owner = some (.ok (some k)) ∧ k.length = 16 := by
  rcases hm with rfl | rfl | rfl <;>
  · simp only [toolKey, deviceKey, oxmName, Option.map]
    simp only [owner_key_exact hmac h s hs]
    exact ⟨_, rfl, rfl, P_length hmac h _ _ _⟩

/-- Partial: for a suite that the derivation knows, the key block has the length given for it in
the code (security/oc_tls.c:2484-2508) - 96 bytes for AES-128-CBC with SHA-256, 40 and 72 for CCM
with keys of 128 and 256 bits, 120 for AES-128-GCM - which fits the 184 bytes reserved; for CBC and CCM
this is what RFC 5246 section 6.3 demands (for GCM it is not, and for the other suites it is
nothing: `public_owner_key_false`). -/
theorem key_block_partial (s : Suite) :
    (s ∈ [.anonCbc, .pskCbc, .ecdsa128Cbc] → keyBlockLen s = 96) ∧
    (s ∈ [.ecdsa128Ccm, .ecdsa128Ccm8] → keyBlockLen s = 40) ∧
    (s ∈ [.ecdsa256Ccm, .ecdsa256Ccm8] → keyBlockLen s = 72) ∧
    (s ∈ [.ecdsa128Gcm] → keyBlockLen s = 120) ∧
    (keyBlockLen s = 0 ↔ s ∈ [.ecdsa256Gcm, .ecdsa256Cbc, .rsa128Gcm, .rsa256Gcm]) := by
  cases s <;> decide

/-- The suites of the methods for the transfer of ownership are all known. -/
theorem otm_suites_known (d : Device) (g : Glob) (di : Id) (hd : d.dos = .rfotm)
    (ho : d.oxmsel = 0 ∨ d.oxmsel = 1 ∨ d.oxmsel = 2) :
    ∀ s ∈ suitesFor g d .server di, 40 ≤ keyBlockLen s := by
  intro s hs
  rcases ho with ho | ho | ho <;> simp [suitesFor, hd, ho, certSuites] at hs
  · rw [hs]; decide
  · rw [hs]; decide
  · rcases hs with h | h | h | h <;> rw [h] <;> decide

/-- Disagreement: over a connection with one of the other suites that a device accepts
by default, the key shared with the owner does not depend on the session at all: it is
computed from the identifiers, which are public. -/
theorem public_owner_key_false : ∃ s1 ∈ defaultSuites, ∀ (hmac : Hmac), Is32 hmac →
    ∀ (m1 m2 c1 c2 r1 r2 : List UInt8), Live ⟨s1, m1, c1, r1⟩ → Live ⟨s1, m2, c2, r2⟩ → ∀ oxm server obt n,
      ownerPsk hmac (fun _ => (true, true)) (some ⟨s1, m1, c1, r1⟩) oxm server obt n =
        ownerPsk hmac (fun _ => (true, true)) (some ⟨s1, m2, c2, r2⟩) oxm server obt n ∧
      ownerPsk hmac (fun _ => (true, true)) (some ⟨s1, m1, c1, r1⟩) oxm server obt n =
        .ok (some (P hmac [] (oxm ++ obt ++ server) n)) := by
  refine ⟨.ecdsa256Gcm, by decide, ?_⟩
  intro hmac h m1 m2 c1 c2 r1 r2 h1 h2 oxm server obt n
  rw [owner_key_exact hmac h _ h1, owner_key_exact hmac h _ h2]
  exact ⟨rfl, rfl⟩

/-- Disagreement: when there is no memory for the first of the two hash contexts, the
second is freed without ever having been initialised. -/
theorem no_memory_ub (hmac : Hmac) (setup2 : Bool) (secret : List UInt8) (n : Nat) (frags : List (List UInt8)) :
    prf hmac false setup2 secret n frags = .ub := rfl

/-- A stand-in for the hash. -/
def exHmac : Hmac := fun k m => (List.range 32).map fun i => UInt8.ofNat (k.length * 7 + m.foldl (fun s x => 3 * s + x.toNat) i)

theorem exHmac_32 : Is32 exHmac := by intro k m; simp [exHmac]

/-- A session. -/
def exSession : Session := ⟨.anonCbc, List.replicate 48 1, List.replicate 32 2, List.replicate 32 3⟩

theorem exSession_live : Live exSession :=
  ⟨⟨1, by decide, by decide⟩, ⟨2, by decide, by decide⟩⟩

/-- `owner_agrees` and `public_owner_key_false` have sessions that meet them. -/
example : (∃ k, toolKey exHmac (fun _ => (true, true)) (some exSession) 0 (List.replicate 16 5) (List.replicate 16 6) =
      some (.ok (some k)) ∧ k.length = 16) ∧
    Live ⟨.ecdsa256Gcm, List.replicate 48 1, List.replicate 32 2, List.replicate 32 3⟩ := by
  obtain ⟨k, h1, _, h3⟩ := owner_agrees exHmac exHmac_32 exSession exSession_live 0 (.inl rfl)
    (List.replicate 16 5) (List.replicate 16 6)
  exact ⟨⟨k, h1, h3⟩, ⟨⟨1, by decide, by decide⟩, ⟨2, by decide, by decide⟩⟩⟩

/-- Swapping the identifiers gives another key: the order matters. -/
example : ownerPsk exHmac (fun _ => (true, true)) (some exSession) (b "x") [5] [6] 16 ≠
    ownerPsk exHmac (fun _ => (true, true)) (some exSession) (b "x") [6] [5] 16 := by decide +kernel

end Verif.Tls
