import Verif.OscoreEng.Props
import Verif.OscoreEng.Nonces

/-!
C140: messages arrive as they were sent, and what does not hold.
-/

namespace Verif.OscoreEng
open Verif.Oscore (storePiv storePiv_length)

theorem storePiv_ne_nil (w : BitVec 64) (h : w.toNat < 2 ^ 40) : storePiv w ≠ [] := by
  intro hh
  have hv := Oscore.storePiv_mod w
  rw [hh, Nat.mod_eq_of_lt h] at hv
  have h0 : w.toNat = 0 := hv.symm
  have hw : w = 0#64 := by apply BitVec.eq_of_toNat_eq; simpa using h0
  rw [hw] at hh
  exact absurd hh (by decide)

theorem readPiv_storePiv (w : BitVec 64) (h : w.toNat < 2 ^ 40) :
    Oscore.readPiv (storePiv w) = .ok w := by
  have := Oscore.piv_roundtrip w.toNat h
  simpa using this

/-- Two contexts made for each other. -/
def Spec.Mates (m m' : Mat) : Prop :=
  m'.recvkey = m.sendkey ∧ m'.recvid = m.sendid ∧ m.recvid = m'.sendid ∧ m'.civ = m.civ

/-- C140: a request arrives as it was sent: if the receiver finds the context of the
sender by its id and has not seen the number, the CoAP layer gets the message with the
code, token, message id, Observe value and contents, from the peer of that context. -/
theorem request_delivered (a a' b : Node) (m : OutM) (p : Pkt) (pv : Bytes) (i j : Nat) (ca cb : Ctx)
    (e : Ep) (dup : Bool) (hreq : 1 ≤ m.code ∧ m.code ≤ 4)
    (hi : byUuid a.ctxs m.device m.uuid = some i) (hca : a.ctxs[i]? = some ca)
    (hs : send true a m = .ok (a', .prot p, pv)) (hnum : ca.ssn.toNat < 2 ^ 40)
    (hmat : Spec.Mates ca.mat cb.mat) (hpr : Spec.Proper ca.mat) (hid : ca.mat.sendid ≠ [])
    (hj : byKid b.ctxs e.device ca.mat.sendid = some j) (hcb : b.ctxs[j]? = some cb)
    (hkind : cb.mat.kind = .pair) (hdup : e.tcp = true ∨ dup = false)
    (hwin : (Oscore.check cb.win ca.ssn.toNat).1 = false) :
    ∃ b', recv b e p dup = .ok (b', .pass
      { uuid := cb.mat.uuid, piv := storePiv ca.ssn, con := m.con, code := m.code, mid := m.mid
        token := m.token, obs := m.obs, body := m.body }) ∧
      p.piv = storePiv ca.ssn := by
  have ha : asReq m.code = true := by simp [asReq, hreq]
  have hn : Oscore.nonce ca.mat.sendid (storePiv ca.ssn) ca.mat.civ
      = .ok (List.zipWith (· ^^^ ·) (Oscore.Spec.base ca.mat.sendid (storePiv ca.ssn)) ca.mat.civ) :=
    Oscore.nonce_is_rfc _ _ _ hpr.1 (storePiv_length _) hpr.2.2.1
  generalize List.zipWith (· ^^^ ·) (Oscore.Spec.base ca.mat.sendid (storePiv ca.ssn)) ca.mat.civ = nn at hn
  have hp : p = mkPkt m (storePiv ca.ssn) ca.mat.sendid
      ⟨ca.mat.sendkey, nn, aad ca.mat.sendid (storePiv ca.ssn), innerOf m⟩ := by
    unfold send at hs
    rw [hi] at hs
    dsimp only at hs
    rw [hca] at hs
    dsimp only at hs
    split at hs
    · cases hs
    · rw [if_neg (by decide)] at hs
      split at hs
      · unfold sendReq at hs
        dsimp only at hs
        split at hs
        · cases hs
        · rw [hn] at hs
          dsimp only at hs
          simp only [Out.ok.injEq, Prod.mk.injEq, Sent.prot.injEq] at hs
          exact hs.2.1.symm
      · cases hs
  obtain ⟨k1, k2, k3, k4⟩ := hmat
  have hoc : (mkPkt m (storePiv ca.ssn) ca.mat.sendid
      ⟨ca.mat.sendkey, nn, aad ca.mat.sendid (storePiv ca.ssn), innerOf m⟩).code = if m.obs.isSome then 5 else 2 := by
    simp [mkPkt, outerCode, ha]
  have hq : 1 ≤ p.code ∧ p.code ≤ 5 := by
    rw [hp, hoc]; split <;> omega
  have hq' : isReq p.code = true := by simp [isReq, hq.2]
  have hpiv : p.piv = storePiv ca.ssn := by rw [hp]; rfl
  have hkid : p.kid = ca.mat.sendid := by rw [hp]; rfl
  have hne := storePiv_ne_nil ca.ssn hnum
  refine ⟨{ b with ctxs := b.ctxs.set j { cb with win := (Oscore.check cb.win ca.ssn.toNat).2 } }, ?_, hpiv⟩
  unfold recv
  rw [if_neg (by rcases hdup with h | h <;> simp [h])]
  have hl : lookup b e p = some (some (j, [])) := by
    unfold lookup
    rw [if_pos (by rw [hkid]; exact hid), hkid, hj]; rfl
  rw [hl]
  dsimp only
  rw [hcb]
  dsimp only
  rw [if_neg (by simp [hkind])]
  unfold withCtx
  have hr : replay cb p = .ok (some (Oscore.check cb.win ca.ssn.toNat).2) := by
    unfold replay
    rw [if_pos ⟨by rw [hpiv]; exact hne, hq⟩, hpiv, readPiv_storePiv _ hnum]
    simp [hwin]
  rw [hr]
  dsimp only
  have hnn : recvNonce cb.mat p [] = .ok nn := by
    unfold recvNonce
    rw [if_pos (by rw [hpiv]; exact hne), if_neg (by rw [hpiv]; have := storePiv_length ca.ssn; omega), hpiv, k2, k4]
    exact hn
  rw [hnn]
  dsimp only
  have haa : recvAad cb.mat p [] = aad ca.mat.sendid (storePiv ca.ssn) := by
    unfold recvAad
    rw [if_pos hq', if_pos ⟨by rw [hpiv]; exact hne, hq.1⟩, hpiv, k2]
  have hin : inner cb.mat p [] nn = .pass (mkIn cb.mat p [] (innerOf m)) := by
    unfold inner
    rw [haa, hp]
    simp [decrypt, mkPkt, k1, hkind]
  rw [hin]
  have hobs : (innerOf m).obs.map (fun _ => p.obs) = m.obs := by
    rw [hp]
    cases m.obs.eq_none_or_eq_some with
    | inl h => simp [innerOf, h]
    | inr h => obtain ⟨v, h⟩ := h; simp [innerOf, mkPkt, h]
  have hmk : mkIn cb.mat p [] (innerOf m) =
      (⟨cb.mat.uuid, storePiv ca.ssn, m.con, m.code, m.mid, m.token, m.obs, m.body⟩ : In) := by
    unfold mkIn
    rw [hobs]
    have : epPiv p [] = storePiv ca.ssn := by
      unfold epPiv; rw [if_pos (by rw [hpiv]; exact hne), hpiv]
    rw [this, hp]
    simp [mkPkt, innerOf]
  rw [hmk]

/-- C140: a response (notification, acknowledgement) arrives as it was sent, if the
receiver still waits for it with the partial IV that was answered; notifications with
their number in the Observe value. -/
theorem response_delivered (a a' b : Node) (m : OutM) (p : Pkt) (pv : Bytes) (i j : Nat) (ca cb : Ctx)
    (e : Ep) (dup : Bool) (u : Nat) (hreq : asReq m.code = false) (hmp : m.piv ≠ [])
    (hmp5 : m.piv.length ≤ 5)
    (hi : byUuid a.ctxs m.device m.uuid = some i) (hca : a.ctxs[i]? = some ca)
    (hs : send true a m = .ok (a', .prot p, pv)) (hnum : ca.ssn.toNat < 2 ^ 40)
    (hmat : Spec.Mates ca.mat cb.mat) (hpr : Spec.Proper ca.mat)
    (hw : request b e.tcp m.token m.mid = some (m.piv, u))
    (hj : byUuid b.ctxs e.device u = some j) (hcb : b.ctxs[j]? = some cb)
    (hkind : cb.mat.kind = .pair) :
    ∃ b', recv b e p dup = .ok (b', .pass
      { uuid := u, piv := storePiv ca.ssn, con := m.con, code := m.code, mid := m.mid
        token := m.token, obs := m.obs, body := m.body }) := by
  have hn : Oscore.nonce ca.mat.sendid (storePiv ca.ssn) ca.mat.civ
      = .ok (List.zipWith (· ^^^ ·) (Oscore.Spec.base ca.mat.sendid (storePiv ca.ssn)) ca.mat.civ) :=
    Oscore.nonce_is_rfc _ _ _ hpr.1 (storePiv_length _) hpr.2.2.1
  generalize List.zipWith (· ^^^ ·) (Oscore.Spec.base ca.mat.sendid (storePiv ca.ssn)) ca.mat.civ = nn at hn
  have hp : p = mkPkt m (storePiv ca.ssn) []
      ⟨ca.mat.sendkey, nn, aad ca.mat.recvid m.piv, innerOf m⟩ := by
    unfold send at hs
    rw [hi] at hs
    dsimp only at hs
    rw [hca] at hs
    dsimp only at hs
    split at hs
    · cases hs
    · simp only [hreq, hmp, Bool.true_eq_false, Bool.false_eq_true, if_false, if_neg (show ¬ (m.piv.length > 5) by omega)] at hs
      unfold sendRsp at hs
      rw [hn] at hs
      dsimp only at hs
      simp only [Out.ok.injEq, Prod.mk.injEq, Sent.prot.injEq] at hs
      exact hs.2.1.symm
  obtain ⟨k1, k2, k3, k4⟩ := hmat
  have hu := (byUuid_some hj hcb).1
  have hq' : isReq p.code = false := by
    rw [hp]
    simp only [mkPkt, outerCode, hreq, isReq, Bool.false_eq_true, if_false]
    split <;> decide
  have hpiv : p.piv = storePiv ca.ssn := by rw [hp]; rfl
  have hne := storePiv_ne_nil ca.ssn hnum
  refine ⟨{ b with ctxs := b.ctxs.set j { cb with win := cb.win } }, ?_⟩
  unfold recv
  rw [if_neg (by simp [hq'])]
  have hl : lookup b e p = some (some (j, m.piv)) := by
    unfold lookup
    rw [if_neg (by rw [hp]; simp [mkPkt]), if_neg (by rw [hq']; decide)]
    unfold byToken
    have : request b e.tcp p.token p.mid = some (m.piv, u) := by rw [hp]; exact hw
    rw [this]
    dsimp only
    rw [hj]; rfl
  rw [hl]
  dsimp only
  rw [hcb]
  dsimp only
  rw [if_neg (by simp [hkind])]
  unfold withCtx
  have hr : replay cb p = .ok (some cb.win) := by
    unfold replay
    rw [if_neg]
    intro hh
    have : isReq p.code = true := by simp [isReq, hh.2.2]
    rw [hq'] at this; cases this
  rw [hr]
  dsimp only
  have hnn : recvNonce cb.mat p m.piv = .ok nn := by
    unfold recvNonce
    rw [if_pos (by rw [hpiv]; exact hne), if_neg (by rw [hpiv]; have := storePiv_length ca.ssn; omega), hpiv, k2, k4]
    exact hn
  rw [hnn]
  dsimp only
  have haa : recvAad cb.mat p m.piv = aad ca.mat.recvid m.piv := by
    unfold recvAad
    rw [if_neg (by rw [hq']; decide), k3]
  have hin : inner cb.mat p m.piv nn = .pass (mkIn cb.mat p m.piv (innerOf m)) := by
    unfold inner
    rw [haa, hp]
    simp [decrypt, mkPkt, k1, hkind]
  rw [hin]
  have hobs : (innerOf m).obs.map (fun _ => p.obs) = m.obs := by
    rw [hp]
    cases m.obs.eq_none_or_eq_some with
    | inl h => simp [innerOf, h]
    | inr h => obtain ⟨v, h⟩ := h; simp [innerOf, mkPkt, h]
  have hmk : mkIn cb.mat p m.piv (innerOf m) =
      (⟨u, storePiv ca.ssn, m.con, m.code, m.mid, m.token, m.obs, m.body⟩ : In) := by
    unfold mkIn
    rw [hobs]
    have : epPiv p m.piv = storePiv ca.ssn := by
      unfold epPiv; rw [if_pos (by rw [hpiv]; exact hne), hpiv]
    rw [this, hp, hu]
    simp [mkPkt, innerOf]
  rw [hmk]

/-! ### Notifications -/

/-- What the handler of one waiting request is given of the responses with these partial
IVs and Observe values. -/
def Spec.given (cb : Cb) : List (BitVec 64 × Nat) → List Nat
  | [] => []
  | (k, v) :: rest =>
    match notifNum cb (storePiv k) (some v) with
    | .ok (true, cb') => k.toNat :: Spec.given cb' rest
    | .ok (false, cb') => Spec.given cb' rest
    | .ub => []

/-- C140: notifications (Observe value of 2 and more) reach the handler in the order in
which they were made; those that come late are dropped. -/
theorem notifications_in_order (l : List (BitVec 64 × Nat)) (cb : Cb)
    (h : ∀ x ∈ l, x.1.toNat < 2 ^ 40 ∧ 2 ≤ x.2) :
    (cb.notif :: Spec.given cb l).Pairwise (fun a b => a ≤ b) := by
  induction l generalizing cb with
  | nil => simp [Spec.given]
  | cons x rest ih =>
    obtain ⟨k, v⟩ := x
    have hx := h (k, v) (List.mem_cons_self ..)
    have hr : ∀ y ∈ rest, y.1.toNat < 2 ^ 40 ∧ 2 ≤ y.2 := fun y hy => h y (List.mem_cons_of_mem _ hy)
    have e : notifNum cb (storePiv k) (some v)
        = .ok (if k.toNat < cb.notif then (false, cb) else (true, { cb with notif := k.toNat })) := by
      unfold notifNum
      dsimp only
      rw [if_pos hx.2, readPiv_storePiv k hx.1]
    unfold Spec.given
    rw [e]
    by_cases hlt : k.toNat < cb.notif
    · rw [if_pos hlt]
      exact ih cb hr
    · rw [if_neg hlt]
      dsimp only
      have := ih { cb with notif := k.toNat } hr
      rw [List.pairwise_cons]
      refine ⟨?_, this⟩
      intro y hy
      rcases List.mem_cons.mp hy with rfl | hy
      · omega
      · have := (List.pairwise_cons.mp this).1 y hy
        simp only at this
        omega

/-! ### A client and a server -/

/-- The client 100 and the server 200. -/
def matA : Mat := ⟨0, 200, .pair, [1], [2], List.replicate 13 7, 11, 22⟩
def matB : Mat := ⟨0, 100, .pair, [2], [1], List.replicate 13 7, 22, 11⟩
def nodeA : Node := { ctxs := [{ mat := matA, ssn := 5 }], cbs := [{ token := [9], uuid := 200 }] }
def nodeB : Node := { ctxs := [{ mat := matB, ssn := 3 }] }
def sys0 : Sys := { nodes := [nodeA, nodeB] }
/-- GET with Observe 0 to the server. -/
def getM : OutM := { uuid := 200, con := true, code := 1, mid := 40, token := [9], obs := some 0, body := [1] }

def outOf : Out (Node × Sent × Bytes) → Node × Pkt × Bytes
  | .ok (n, .prot p, b) => (n, p, b)
  | _ => ({ ctxs := [] }, { code := 0, payload := .junk 0 }, [])
def nodeOf : Out (Node × Res) → Node
  | .ok (n, _) => n
  | .ub => { ctxs := [] }
def resOf : Out (Node × Res) → Option Res
  | .ok (_, r) => some r
  | .ub => none

/-- The client after its request, and the request. -/
def a1 : Node := (outOf (send true nodeA getM)).1
def p1 : Pkt := (outOf (send true nodeA getM)).2.1
def b1 : Node := nodeOf (recv nodeB {} p1 false)
/-- The confirmable notification with the number `v`, kept for retransmission. -/
def ntf (v : Nat) : OutM :=
  { uuid := 100, piv := [5], shared := true, con := true, code := 69, mid := 77, token := [9], obs := some v, body := [8] }
def b2 : Node := (outOf (send true b1 (ntf 2))).1
def p2 : Pkt := (outOf (send true b1 (ntf 2))).2.1
def b3 : Node := (outOf (send true b2 (ntf 3))).1
def p3 : Pkt := (outOf (send true b2 (ntf 3))).2.1

example : Spec.Start sys0 ∧ Spec.Proper matA ∧ Spec.Proper matB ∧ Spec.Mates matA matB ∧ Spec.Mates matB matA := by
  refine ⟨⟨rfl, rfl, ?_, ?_⟩, ?_, ?_, ?_, ?_⟩
  · decide
  · decide
  all_goals (first | (unfold Spec.Proper; decide) | (unfold Spec.Mates; decide))

theorem keys_sys0 : Spec.Keys sys0 := by
  refine ⟨?_, ?_⟩
  · intro l hl m hm
    have hl' : l = [matA] ∨ l = [matB] := by simpa [mats, sys0, nodeA, nodeB] using hl
    rcases hl' with rfl | rfl <;> (simp at hm; subst hm; unfold Spec.Proper; decide)
  · intro l hl m hm l' hl' m' hm' he
    have h1 : l = [matA] ∨ l = [matB] := by simpa [mats, sys0, nodeA, nodeB] using hl
    have h2 : l' = [matA] ∨ l' = [matB] := by simpa [mats, sys0, nodeA, nodeB] using hl'
    rcases h1 with rfl | rfl <;> rcases h2 with rfl | rfl <;> simp at hm hm' <;> subst hm <;> subst hm' <;>
      first
      | exact absurd he (by decide)
      | (refine ⟨?_, ?_, ?_⟩ <;> decide)

example : Spec.OneOwner sys0 := by
  intro k k' l l' i i' m m' h1 h2 h3 h4 he
  have e : mats sys0 = [[matA], [matB]] := rfl
  rw [e] at h1 h2
  rcases k with _ | _ | k <;> rcases k' with _ | _ | k' <;> simp at h1 h2 <;> subst h1 <;> subst h2 <;>
    rcases i with _ | i <;> rcases i' with _ | i' <;> simp at h3 h4 <;> subst h3 <;> subst h4 <;>
    first
    | exact ⟨rfl, rfl⟩
    | exact absurd he (by decide)

/-- The exchange: the request reaches the server, two notifications reach the client. -/
example : resOf (recv nodeB {} p1 false)
      = some (.pass ⟨100, [5], true, 1, 40, [9], some 0, [1]⟩) ∧
    resOf (recv a1 {} p2 false) = some (.pass ⟨200, [3], true, 69, 77, [9], some 2, [8]⟩) ∧
    resOf (recv (nodeOf (recv a1 {} p2 false)) {} p3 false)
      = some (.pass ⟨200, [4], true, 69, 77, [9], some 3, [8]⟩) := by decide

example : (run sys0 [.send 0 true getM, .recv 1 {} p1 false, .send 1 true (ntf 2)]).bind
    (fun s => .ok (s.wire.length, s.knows p2.payload)) = .ok (2, true) := by decide

/-- The acknowledgement of the notification is protected too, with the partial IV of the
notification as the one answered, and found by the message id of the transaction. -/
example :
    let srv : Node := { b2 with trs := [⟨[9], 77, [3], 100⟩] }
    let ack : OutM := { uuid := 200, piv := [3], code := 0, mid := 77 }
    resOf (recv srv {} (outOf (send true a1 ack)).2.1 false)
      = some (.pass ⟨100, [6], false, 0, 77, [], none, []⟩) := by decide

/-- The request once more: the window of the server refuses it. -/
example : (∀ c ∈ nodeB.ctxs, c.win.rwin.length = Oscore.winSize) ∧ p1.piv = [5] ∧ p1.code = 5 ∧
    recv (nodeOf (recv nodeB {} p1 false)) {} p1 false = .ok (nodeOf (recv nodeB {} p1 false), .refuse 129) := by decide

example : Spec.given { token := [9], uuid := 200 } [(3, 2), (6, 5), (4, 3), (6, 5)] = [3, 6, 6] := by decide

/-! ### What does not hold -/

/-- C140 fails for unprotected responses: a response without OSCORE that carries the token
(which travels in clear) is passed on and finds the waiting request that was sent
protected. -/
theorem plain_response_false :
    ∃ d : In, recvMessage a1 {} (.plain d) false = .ok (a1, .pass d) ∧ d.piv = [] ∧ d.body = [66] ∧
      ∃ cb, taker a1 d.token = some cb ∧ cb.piv ≠ [] :=
  ⟨⟨0, [], false, 69, 1, [9], none, [66]⟩, rfl, rfl, rfl, ⟨[9], [5], 200, 0⟩, by decide, by decide⟩

/-- C140 fails for repeated notifications: the same notification, sent again by anybody, is
accepted again and given to the handler again. -/
theorem notification_again_false :
    ∃ d : In, resOf (recv a1 {} p2 false) = some (.pass d) ∧
      resOf (recv (nodeOf (recv a1 {} p2 false)) {} p2 false) = some (.pass d) ∧
      notifNum { token := [9], uuid := 200, notif := 3 } d.piv d.obs
        = .ok (true, { token := [9], uuid := 200, notif := 3 }) :=
  ⟨⟨200, [3], true, 69, 77, [9], some 2, [8]⟩, by decide, by decide, by decide⟩

/-- C140 fails for old notifications: with the outer Observe value (not authenticated) set
to 0 an old notification is accepted after a newer one, and given to the handler. -/
theorem notification_old_false :
    ∃ d : In, resOf (recv (nodeOf (recv a1 {} p3 false)) {} { p2 with obs := 0 } false) = some (.pass d) ∧
      notifNum { token := [9], uuid := 200, notif := 4 } d.piv d.obs
        = .ok (true, { token := [9], uuid := 200, notif := 4 }) :=
  ⟨⟨200, [3], true, 69, 77, [9], some 0, [8]⟩, by decide, by decide⟩

/-- C140 fails for retransmissions: after the first transmission of a confirmable response
its own partial IV stands in the message, so that the retransmission is protected as the
answer to another request and refused by the client. -/
theorem retransmission_false :
    (outOf (send true b1 (ntf 2))).2.2 = [3] ∧
    resOf (recv a1 {} (outOf (send true b2 { ntf 2 with piv := [3] })).2.1 false) = some (.refuse 128) := by
  decide

/-- C140 fails for late responses: a request that is transmitted again gets a new partial
IV, and the response to the first transmission is refused. -/
theorem late_response_false :
    resOf (recv (outOf (send true a1 getM)).1 {} p2 false) = some (.refuse 128) ∧
    resOf (recv a1 {} p2 false) ≠ some (.refuse 128) := by decide

/-- C140 fails for retransmitted requests: both transmissions of one request are accepted
if the message id of the second one (not authenticated) is changed on the way. -/
theorem request_twice_false :
    resOf (recv nodeB {} p1 false) = some (.pass ⟨100, [5], true, 1, 40, [9], some 0, [1]⟩) ∧
    resOf (recv b1 {} { (outOf (send true a1 getM)).2.1 with mid := 41 } false)
      = some (.pass ⟨100, [6], true, 1, 41, [9], some 0, [1]⟩) := by decide

/-- C140 fails for the Observe value: the request to end an observation (1) becomes one to
start it (0) when the outer option is removed on the way. -/
theorem observe_changed_false :
    resOf (recv nodeB {} { (outOf (send true nodeA { getM with obs := some 1 })).2.1 with obs := 0 } false)
      = some (.pass ⟨100, [5], true, 1, 40, [9], some 0, [1]⟩) := by decide

/-- C140 fails for responses: a response that cannot be decrypted or belongs to nothing is
answered with an error, although a response must not be. -/
theorem response_answered_false :
    answer {} (.refuse 128) = some 128 ∧
    resOf (recv a1 {} { code := 69, token := [9], payload := .junk 20 } false) = some (.refuse 128) ∧
    resOf (recv a1 {} { code := 69, token := [1], payload := .junk 20 } false) = some (.refuse 129) := by decide

/-- C140 fails for an empty id: the requests of a context with an empty sender id are
refused for lacking one, although the receiver has the context. -/
theorem empty_id_false :
    ∃ a b : Node, (∃ p, (outOf (send true a getM)).2.1 = p ∧ p.piv = [5] ∧
      resOf (recv b {} p false) = some (.refuse 130)) ∧
      b.ctxs.map (fun c => c.mat.recvid) = a.ctxs.map (fun c => c.mat.sendid) :=
  ⟨{ nodeA with ctxs := [{ mat := { matA with sendid := [] }, ssn := 5 }] },
   { nodeB with ctxs := [{ mat := { matB with recvid := [] } }] }, ⟨_, rfl, by decide, by decide⟩, by decide⟩

/-- C140 fails for groups: a message of the device 1 to a group is protected with the
context of the device 0, and in every state of the device. -/
theorem group_device_false :
    ∃ p, sendGroup { ctxs := [{ mat := { matA with kind := .groupClient } }], rfnop := [] }
        { device := 1, uuid := 0, mcast := true, code := 2 } = .ok (p, .prot
          { code := 2, piv := [0], kid := [1], payload := .sealed ⟨11, [6, 7, 7, 7, 7, 7, 7, 6, 7, 7, 7, 7, 7],
            aad [1] [0], { code := 2 }⟩ }) :=
  ⟨{ ctxs := [{ mat := { matA with kind := .groupClient }, ssn := 1 }], rfnop := [] }, by decide⟩

/-- When no memory is left for the copy of a message to a peer with a context, the null
pointer is used. -/
theorem clone_ub : send false nodeA getM = .ub ∧ send false b1 (ntf 2) = .ub := by decide

end Verif.OscoreEng
