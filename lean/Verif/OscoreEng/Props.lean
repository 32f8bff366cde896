import Verif.OscoreEng.Lemmas

/-!
C140: the properties of the OSCORE engine.
-/

namespace Verif.OscoreEng
open Verif.Oscore (storePiv storePiv_length)

theorem node_mat {s : Sys} {k i : Nat} {n : Node} {c : Ctx} (hk : s.nodes[k]? = some n)
    (hc : n.ctxs[i]? = some c) : ∃ l ∈ mats s, c.mat ∈ l :=
  ⟨n.ctxs.map (fun c => c.mat), List.mem_map.mpr ⟨n, List.mem_of_getElem? hk, rfl⟩,
    List.mem_map.mpr ⟨c, List.mem_of_getElem? hc, rfl⟩⟩

/-- A message on the network is one that was recorded. -/
theorem known {s : Sys} (hi : Inv s) {p : Payload} {x : Cipher} (hp : p = .sealed x)
    (hk : s.knows p = true) : ∃ ev ∈ s.log, Of x ev := by
  subst hp
  simp only [Sys.knows, List.contains_iff_mem] at hk
  exact hi.wire x hk

/-- C140, requests: whatever the network does, a request that a node accepts was protected
as a request by the holder of the sender key of that context, with this partial IV, this
code and this contents; the subject it is given is that of the context, and the context is
of the addressed device. -/
theorem request_authentic (s0 s : Sys) (ops : List Op) (h0 : Spec.Start s0) (hkeys : Spec.Keys s0)
    (hrun : run s0 ops = .ok s) (k : Nat) (n n' : Node) (hk : s.nodes[k]? = some n) (e : Ep)
    (p : Pkt) (dup : Bool) (d : In) (hkn : s.knows p.payload = true) (hreq : p.code ≤ 5)
    (h : recv n e p dup = .ok (n', .pass d)) :
    ∃ ev ∈ s.log, ev.req = true ∧
      (∃ c ∈ n.ctxs, c.mat.uuid = d.uuid ∧ c.mat.device = e.device ∧
        ev.mat.sendkey = c.mat.recvkey ∧ ev.mat.sendid = p.kid) ∧
      storePiv ev.num = p.piv ∧ d.piv = p.piv ∧
      d.code = ev.inner.code ∧ d.body = ev.inner.body ∧ d.obs.isSome = ev.inner.obs.isSome := by
  obtain ⟨hi, hm⟩ := inv_run (inv_start h0) hrun
  obtain ⟨i, c, rpiv, w, nonce, x, _, hl, hc, _, hw, hn, hp, hkey, hno, haad, _, hd, _⟩ := recv_pass h
  obtain ⟨ev, hev, ho⟩ := known hi hp hkn
  obtain ⟨l', hl', hm'⟩ := hi.mats ev hev
  obtain ⟨l, hl2, hm2⟩ := node_mat hk hc
  rw [hm] at hl2 hl'
  obtain ⟨hs, hs', hciv⟩ := hkeys.pair l hl2 _ hm2 l' hl' _ hm' (hkey.symm.trans ho.key)
  have hpr := hkeys.proper l hl2 _ hm2
  have hpr' := hkeys.proper l' hl' _ hm'
  have hreq' : isReq p.code = true := by simp [isReq, hreq]
  obtain ⟨hdev, hlk⟩ := lookup_some hl hc
  rcases hlk with ⟨hk1, hk2, rfl⟩ | ⟨_, hq, _⟩
  · unfold recvAad at haad
    rw [if_pos hreq'] at haad
    split at haad
    · rename_i hpv
      have hp5 : p.piv.length ≤ 5 := by
        unfold recvNonce at hn
        rw [if_pos hpv.1] at hn
        split at hn
        · cases hn
        · omega
      rw [ho.aad] at haad
      split at haad
      · rename_i hrq
        obtain ⟨_, e2⟩ := aad_inj hpr'.1 hpr.2.1 (storePiv_length _) hp5 haad
        refine ⟨ev, hev, hrq, ⟨c, List.mem_of_getElem? hc, ?_, hdev, ?_, ?_⟩, e2, ?_, ?_, ?_, ?_⟩
        · rw [hd]; rfl
        · rw [← hkey, ho.key]
        · rw [← hs, hk2]
        · rw [hd]; simp [mkIn, epPiv, hpv.1]
        · rw [hd, ← ho.plain]; rfl
        · rw [hd, ← ho.plain]; rfl
        · rw [hd, ← ho.plain]; simp [mkIn]
      · rename_i hrq
        obtain ⟨e1, _⟩ := aad_inj hpr'.2.1 hpr.2.1 (ho.rpiv (by simpa using hrq)).2 hp5 haad
        rw [← hs'] at e1
        exact absurd e1 hpr.2.2.2
    · rw [ho.aad] at haad
      split at haad
      · exact absurd haad (aad_ne_nil _ _)
      · exact absurd haad (aad_ne_nil _ _)
  · rw [hreq'] at hq; cases hq

/-- C140, responses: whatever the network does, a response that a node accepts was
protected as a response by the holder of the sender key of the context, in answer to the
request with the partial IV that the node waits for with that token (or, for
acknowledgements, message id) from that peer; with this code and contents. -/
theorem response_authentic (s0 s : Sys) (ops : List Op) (h0 : Spec.Start s0) (hkeys : Spec.Keys s0)
    (hrun : run s0 ops = .ok s) (k : Nat) (n n' : Node) (hk : s.nodes[k]? = some n) (e : Ep)
    (p : Pkt) (dup : Bool) (d : In) (hkn : s.knows p.payload = true) (hreq : p.code > 5)
    (h : recv n e p dup = .ok (n', .pass d)) :
    p.kid = [] ∧
    ∃ ev ∈ s.log, ev.req = false ∧ Spec.Waits n p.token p.mid d.uuid ev.rpiv ∧
      (∃ c ∈ n.ctxs, c.mat.uuid = d.uuid ∧ c.mat.device = e.device ∧ ev.mat.sendkey = c.mat.recvkey) ∧
      d.code = ev.inner.code ∧ d.body = ev.inner.body ∧ d.obs.isSome = ev.inner.obs.isSome ∧
      d.token = p.token ∧ (p.piv ≠ [] → Coap.Spec.beVal p.piv = ev.num.toNat % 2 ^ 40) := by
  obtain ⟨hi, hm⟩ := inv_run (inv_start h0) hrun
  obtain ⟨i, c, rpiv, w, nonce, x, _, hl, hc, _, hw, hn, hp, hkey, hno, haad, _, hd, _⟩ := recv_pass h
  obtain ⟨ev, hev, ho⟩ := known hi hp hkn
  obtain ⟨l', hl', hm'⟩ := hi.mats ev hev
  obtain ⟨l, hl2, hm2⟩ := node_mat hk hc
  rw [hm] at hl2 hl'
  obtain ⟨hs, hs', hciv⟩ := hkeys.pair l hl2 _ hm2 l' hl' _ hm' (hkey.symm.trans ho.key)
  have hpr := hkeys.proper l hl2 _ hm2
  have hpr' := hkeys.proper l' hl' _ hm'
  have hreq' : isReq p.code = false := by simp [isReq]; omega
  obtain ⟨hdev, hlk⟩ := lookup_some hl hc
  have hr5 : rpiv.length ≤ 5 := by
    rcases hlk with ⟨_, _, rfl⟩ | ⟨_, _, ⟨cb, hcb, _, _, rfl⟩ | ⟨t, ht, _, _, rfl⟩⟩
    · exact Nat.zero_le _
    · exact hi.cbs n (List.mem_of_getElem? hk) cb hcb
    · exact hi.trs n (List.mem_of_getElem? hk) t ht
  unfold recvAad at haad
  rw [if_neg (by rw [hreq']; decide)] at haad
  rw [ho.aad] at haad
  split at haad
  · obtain ⟨e1, _⟩ := aad_inj hpr'.1 hpr.1 (storePiv_length _) hr5 haad
    rw [← hs] at e1
    exact absurd e1.symm hpr.2.2.2
  · rename_i hrq
    have hrq : ev.req = false := by simpa using hrq
    obtain ⟨_, e2⟩ := aad_inj hpr'.2.1 hpr.1 (ho.rpiv hrq).2 hr5 haad
    rcases hlk with ⟨_, _, rfl⟩ | ⟨hkid, _, hwt⟩
    · exact absurd e2 (ho.rpiv hrq).1
    · refine ⟨hkid, ev, hev, hrq, ?_, ⟨c, List.mem_of_getElem? hc, ?_, hdev, ?_⟩, ?_, ?_, ?_, ?_, ?_⟩
      · rw [hd, e2]; exact hwt
      · rw [hd]; rfl
      · rw [← hkey, ho.key]
      · rw [hd, ← ho.plain]; rfl
      · rw [hd, ← ho.plain]; rfl
      · rw [hd, ← ho.plain]; simp [mkIn]
      · rw [hd]; rfl
      · intro hpv
        unfold recvNonce at hn
        rw [if_pos hpv] at hn
        split at hn
        · cases hn
        · have hn' : Oscore.nonce c.mat.recvid p.piv c.mat.civ
              = Oscore.nonce c.mat.recvid (storePiv ev.num) c.mat.civ := by
            rw [hn, ← hno, hs, hciv, ho.nonce]
          have := ((Oscore.nonce_injective _ _ _ _ _ hpr.2.1 hpr.2.1 (by omega) (storePiv_length _)
            hpr.2.2.1).mp hn').2
          rw [this, Oscore.storePiv_mod]

/-- C140: a request without a partial IV, and a response that names a context by an id,
are never accepted, whatever the network does. -/
theorem odd_refused (s0 s : Sys) (ops : List Op) (h0 : Spec.Start s0) (hkeys : Spec.Keys s0)
    (hrun : run s0 ops = .ok s) (k : Nat) (n n' : Node) (hk : s.nodes[k]? = some n) (e : Ep)
    (p : Pkt) (dup : Bool) (d : In) (hkn : s.knows p.payload = true)
    (hodd : (p.code ≤ 5 ∧ p.piv = []) ∨ (p.code > 5 ∧ p.kid ≠ [])) :
    recv n e p dup ≠ .ok (n', .pass d) := by
  intro h
  rcases hodd with ⟨h1, h2⟩ | ⟨h1, h2⟩
  · obtain ⟨ev, _, _, ⟨c, hc, _⟩, hpv, _⟩ :=
      request_authentic s0 s ops h0 hkeys hrun k n n' hk e p dup d hkn h1 h
    obtain ⟨i, c, rpiv, w, nonce, x, _, hl, hc, _, hw, hn, hp, hkey, hno, haad, _, hd, _⟩ := recv_pass h
    obtain ⟨hi, hm⟩ := inv_run (inv_start h0) hrun
    obtain ⟨ev', hev', ho⟩ := known hi hp hkn
    unfold recvAad at haad
    rw [if_pos (by simp [isReq, h1]), if_neg (by simp [h2]), ho.aad] at haad
    split at haad
    · exact absurd haad (aad_ne_nil _ _)
    · exact absurd haad (aad_ne_nil _ _)
  · exact h2 (response_authentic s0 s ops h0 hkeys hrun k n n' hk e p dup d hkn h1 h).1

/-! ### What leaves a node -/

/-- C140: a message to a peer with a context leaves unprotected only if it is no request
and the message it answers was not protected. -/
theorem never_plain (mem : Bool) (n n' : Node) (m : OutM) (pv : Bytes)
    (hctx : ∃ c ∈ n.ctxs, c.mat.uuid = m.uuid ∧ c.mat.device = m.device)
    (h : send mem n m = .ok (n', .plain, pv)) :
    ¬ (1 ≤ m.code ∧ m.code ≤ 4) ∧ m.piv = [] := by
  unfold send at h
  split at h
  · rename_i hn
    obtain ⟨c, hc, h1, h2⟩ := hctx
    unfold byUuid at hn
    rw [List.findIdx?_eq_none_iff] at hn
    have := hn c hc
    simp [h1, h2] at this
  · split at h
    · cases h
    · split at h
      · cases h
      · split at h
        · cases h
        · split at h
          · split at h
            · unfold sendReq at h
              dsimp only at h
              split at h
              · cases h
              · split at h <;> cases h
            · cases h
          · rename_i hq
            split at h
            · rename_i hp
              refine ⟨fun hh => hq ?_, hp⟩
              simp [asReq, hh]
            · split at h
              · cases h
              · unfold sendRsp at h
                split at h <;> cases h

/-- C140: a protected request leaves only while the device is in normal operation, and
(signals apart) only if somebody waits for the answer; the partial IV that this one then
holds is the one sent. -/
theorem request_sent (mem : Bool) (n n' : Node) (m : OutM) (p : Pkt) (pv : Bytes)
    (hreq : 1 ≤ m.code ∧ m.code ≤ 4) (h : send mem n m = .ok (n', .prot p, pv)) :
    m.device ∈ n.rfnop ∧ m.mcast = false ∧ p.token = m.token ∧
    ∃ cb, taker n' p.token = some cb ∧ cb.piv = p.piv := by
  have ha : asReq m.code = true := by simp [asReq, hreq]
  have hnote : ∀ (cbs : List Cb) (t q : Bytes), cbs.any (fun c => c.token == t) = true →
      ∃ cb, (note cbs t q).find? (fun c => c.token == t) = some cb ∧ cb.piv = q := by
    intro cbs t q
    induction cbs with
    | nil => intro h; cases h
    | cons a rest ih =>
      intro h
      unfold note
      split
      · rename_i ht
        exact ⟨{ a with piv := q }, by rw [List.find?_cons_of_pos (by simp [ht])], rfl⟩
      · rename_i ht
        rw [List.find?_cons_of_neg (by simp [ht])]
        apply ih
        simpa [ht] using h
  unfold send at h
  split at h
  · cases h
  · split at h
    · cases h
    · split at h
      · cases h
      · rename_i hmc
        split at h
        · cases h
        · split at h
          · rename_i hrf
            unfold sendReq at h
            dsimp only at h
            split at h
            · cases h
            · rename_i cbs hcb
              split at h
              · cases h
              · cases h
                refine ⟨by simpa using hrf, by simpa using hmc, rfl, ?_⟩
                unfold noted at hcb
                rw [if_pos hreq] at hcb
                split at hcb
                · rename_i hany
                  cases hcb
                  exact hnote n.cbs m.token _ hany
                · cases hcb
          · cases h

/-- C140, replays: the engine accepts a request with a partial IV only if the replay window
of the context accepts its number, and then the window is moved as in `Verif.Oscore` (C34). -/
theorem request_window (n n' : Node) (e : Ep) (p : Pkt) (dup : Bool) (d : In) (h : recv n e p dup = .ok (n', .pass d))
    (hc1 : 1 ≤ p.code) (hc5 : p.code ≤ 5) (hpiv : p.piv ≠ []) (v : BitVec 64) (hv : Oscore.readPiv p.piv = .ok v) :
    ∃ i c, byKid n.ctxs e.device p.kid = some i ∧ n.ctxs[i]? = some c ∧
      (Oscore.accept c.win ⟨some v.toNat, true⟩).1 = true ∧
      n'.ctxs = n.ctxs.set i { c with win := (Oscore.accept c.win ⟨some v.toNat, true⟩).2 } := by
  obtain ⟨i, c, rpiv, w, nonce, x, _, hl, hc, _, hw, _, _, _, _, _, _, _, hn'⟩ := recv_pass h
  have hreq : isReq p.code = true := by simp [isReq, hc5]
  obtain ⟨_, hlk⟩ := lookup_some hl hc
  rcases hlk with ⟨hk1, _, _⟩ | ⟨_, hq, _⟩
  · unfold lookup at hl
    rw [if_pos hk1] at hl
    unfold replay at hw
    rw [if_pos ⟨hpiv, hc1, hc5⟩, hv] at hw
    dsimp only at hw
    split at hw
    · cases hw
    · rename_i hr
      cases hw
      refine ⟨i, c, ?_, hc, ?_, ?_⟩
      · cases hb : byKid n.ctxs e.device p.kid with
        | none => rw [hb] at hl; cases hl
        | some j => rw [hb] at hl; cases hl; rfl
      · simp only [Oscore.accept, Bool.and_true]
        simpa using hr
      · rw [hn']; rfl
  · rw [hreq] at hq; cases hq

theorem byKid_set {l : List Ctx} {i : Nat} {c : Ctx} (hc : l[i]? = some c) (w : Oscore.Win) (dv : Nat) (kid : Bytes) :
    byKid (l.set i { c with win := w }) dv kid = byKid l dv kid := by
  unfold byKid
  induction l generalizing i with
  | nil => rfl
  | cons x l ih =>
    cases i with
    | zero => cases hc; simp only [List.set_cons_zero, List.findIdx?_cons]
    | succ i =>
      simp only [List.set_cons_succ, List.findIdx?_cons]
      rw [ih (by simpa using hc)]

/-- C140, replays: a request with a number other than 0 that was accepted is refused when it
comes again. -/
theorem request_again_refused (n n' : Node) (e e' : Ep) (p : Pkt) (d : In) (h : recv n e p false = .ok (n', .pass d))
    (hwin : ∀ c ∈ n.ctxs, c.win.rwin.length = Oscore.winSize) (hc1 : 1 ≤ p.code) (hc5 : p.code ≤ 5) (hpiv : p.piv ≠ [])
    (v : BitVec 64) (hv : Oscore.readPiv p.piv = .ok v) (h0 : v.toNat ≠ 0) (he : e'.device = e.device) (hm : e'.mcast = e.mcast) :
    recv n' e' p false = .ok (n', .refuse 129) := by
  obtain ⟨i, c, hb, hc, hacc, hn'⟩ := request_window n n' e p false d h hc1 hc5 hpiv v hv
  obtain ⟨i', c', rpiv, w, nonce, x, _, hl, hc', hk, -⟩ := recv_pass h
  have hkid : p.kid ≠ [] := by
    intro hk0
    unfold lookup at hl
    rw [if_neg (by simp [hk0]), if_pos (by simp [isReq, hc5])] at hl
    cases hl
  have hii : i' = i := by
    unfold lookup at hl
    rw [if_pos hkid, hb] at hl
    cases hl; rfl
  subst hii
  rw [hc] at hc'
  cases hc'
  have hlk : lookup n' e' p = some (some (i', [])) := by
    unfold lookup
    rw [if_pos hkid, he, hn', byKid_set hc, hb]
    rfl
  unfold recv
  rw [if_neg (by simp), hlk]
  dsimp only
  have hlt : i' < n.ctxs.length := by
    rcases Nat.lt_or_ge i' n.ctxs.length with h | h
    · exact h
    · rw [List.getElem?_eq_none h] at hc; cases hc
  have hget : n'.ctxs[i']? = some { c with win := (Oscore.accept c.win ⟨some v.toNat, true⟩).2 } := by
    rw [hn', List.getElem?_set_self hlt]
  rw [hget]
  dsimp only
  rw [if_neg (by rw [hm]; intro hh; exact hh.2 (hk hh.1))]
  have hrep : replay { c with win := (Oscore.accept c.win ⟨some v.toNat, true⟩).2 } p = .ok none := by
    unfold replay
    rw [if_pos ⟨hpiv, hc1, hc5⟩, hv]
    dsimp only
    have hnew : (Oscore.check c.win v.toNat).1 = false := by
      simpa [Oscore.accept] using hacc
    have hw2 : (Oscore.accept c.win ⟨some v.toNat, true⟩).2 = (Oscore.check c.win v.toNat).2 := rfl
    have hcont : (Oscore.check c.win v.toNat).2.rwin.contains v.toNat = true := by
      have hfresh : (Oscore.check c.win v.toNat).2 =
          ⟨c.win.rwin.set ((c.win.idx + 1) % Oscore.winSize) v.toNat, (c.win.idx + 1) % Oscore.winSize⟩ := by
        unfold Oscore.check at hnew ⊢
        rw [if_neg (fun hh => h0 hh.1)] at hnew ⊢
        split at hnew
        · cases hnew
        · rename_i hcn
          rw [if_neg hcn]
      rw [hfresh]
      dsimp only
      rw [List.contains_iff_mem]
      have hlen := hwin c (List.mem_of_getElem? hc)
      exact List.mem_of_getElem? (List.getElem?_set_self (by rw [hlen]; exact Nat.mod_lt _ (by decide)))
    have : (Oscore.check (Oscore.check c.win v.toNat).2 v.toNat).1 = true := by
      generalize Oscore.check c.win v.toNat = z at hcont
      unfold Oscore.check
      rw [if_neg (fun hh => h0 hh.1), if_pos hcont]
    rw [hw2, this]
    rfl
  unfold withCtx
  rw [hrep]

/-- C140: an incoming group request is accepted only as POST, and group contexts are not
accepted for messages to the node alone. -/
theorem group_post_only (n n' : Node) (e : Ep) (p : Pkt) (dup : Bool) (d : In)
    (h : recv n e p dup = .ok (n', .pass d)) :
    ∃ c ∈ n.ctxs, c.mat.uuid = d.uuid ∧ (e.mcast = false → c.mat.kind = .pair) ∧
      (c.mat.kind = .groupServer → d.code = 2) := by
  obtain ⟨i, c, rpiv, w, nonce, x, _, hl, hc, hk, hw, hn, hp, hkey, hno, haad, hg, hd, _⟩ := recv_pass h
  refine ⟨c, List.mem_of_getElem? hc, by rw [hd]; rfl, hk, ?_⟩
  intro hh; rw [hd]; exact hg hh

/-- C140: errors are not sent for messages to a group. -/
theorem no_group_error (e : Ep) (r : Res) (h : e.mcast = true) : answer e r = none := by
  cases r <;> simp [answer, h]

end Verif.OscoreEng
