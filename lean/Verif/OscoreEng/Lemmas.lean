import Verif.OscoreEng.Spec
import Verif.Oscore.Props

namespace Verif.OscoreEng
open Verif.Oscore (storePiv storePiv_length)

theorem bstr_len (l : Bytes) : (bstr l).length = l.length + 1 := rfl

theorem bstr_inj {k k' r r' : Bytes} (h1 : k.length < 24) (h2 : k'.length < 24)
    (h : bstr k ++ r = bstr k' ++ r') : k = k' ∧ r = r' := by
  unfold bstr at h
  rw [List.cons_append, List.cons_append, List.cons.injEq] at h
  have hl : k.length = k'.length := by
    have := congrArg UInt8.toNat h.1
    rw [Coap.toNat_ofNat_lt _ (by omega), Coap.toNat_ofNat_lt _ (by omega)] at this
    omega
  exact List.append_inj h.2 hl

theorem aadArray_len (k p : Bytes) : (aadArray k p).length = 7 + k.length + p.length := by
  simp [aadArray, bstr]; omega

theorem aad_inj {k k' p p' : Bytes} (h1 : k.length ≤ 7) (h2 : k'.length ≤ 7)
    (h3 : p.length ≤ 5) (h4 : p'.length ≤ 5) (h : aad k p = aad k' p') : k = k' ∧ p = p' := by
  unfold aad at h
  have h := List.append_cancel_left h
  have e : aadArray k p = aadArray k' p' := by
    have h' : bstr (aadArray k p) ++ [] = bstr (aadArray k' p') ++ [] := by
      rw [List.append_nil, List.append_nil]; exact h
    exact (bstr_inj (by rw [aadArray_len]; omega) (by rw [aadArray_len]; omega) h').1
  unfold aadArray at e
  rw [List.append_assoc, List.append_assoc, List.append_assoc, List.append_assoc] at e
  have e := List.append_cancel_left e
  obtain ⟨e1, e2⟩ := bstr_inj (by omega) (by omega) e
  exact ⟨e1, (bstr_inj (by omega) (by omega) e2).1⟩

theorem aad_ne_nil (k p : Bytes) : aad k p ≠ [] := by
  unfold aad
  intro h
  simp at h

/-! ### Receiving -/

theorem recv_pass {n n' : Node} {e : Ep} {p : Pkt} {dup : Bool} {d : In}
    (h : recv n e p dup = .ok (n', .pass d)) :
    ∃ i c rpiv w nonce x, ¬ (e.tcp = false ∧ isReq p.code ∧ dup) ∧
      lookup n e p = some (some (i, rpiv)) ∧ n.ctxs[i]? = some c ∧
      (e.mcast = false → c.mat.kind = .pair) ∧ replay c p = .ok (some w) ∧
      recvNonce c.mat p rpiv = .ok nonce ∧ p.payload = .sealed x ∧ x.key = c.mat.recvkey ∧
      x.nonce = nonce ∧ x.aad = recvAad c.mat p rpiv ∧ (c.mat.kind = .groupServer → x.plain.code = 2) ∧
      d = mkIn c.mat p rpiv x.plain ∧
      n' = { n with ctxs := n.ctxs.set i { c with win := w } } := by
  unfold recv at h
  split at h
  · cases h
  · rename_i hd
    split at h
    · cases h
    · cases h
    · rename_i i rpiv hl
      split at h
      · cases h
      · rename_i c hc
        split at h
        · cases h
        · rename_i hk
          unfold withCtx at h
          split at h
          · cases h
          · cases h
          · rename_i w hw
            split at h
            · cases h
            · rename_i nonce hn
              simp only [Out.ok.injEq, Prod.mk.injEq] at h
              obtain ⟨h1, h2⟩ := h
              unfold inner at h2
              split at h2
              · cases h2
              · rename_i q hq
                split at h2
                · cases h2
                · rename_i hg
                  simp only [Res.pass.injEq] at h2
                  unfold decrypt at hq
                  split at hq
                  · cases hq
                  · rename_i x hx
                    split at hq
                    · rename_i hm
                      simp only [Option.some.injEq] at hq
                      refine ⟨i, c, rpiv, w, nonce, x, hd, hl, hc, ?_, hw, hn, hx, hm.1, hm.2.1, hm.2.2, ?_, ?_, h1.symm⟩
                      · intro he
                        exact Decidable.byContradiction (fun hh => hk ⟨he, hh⟩)
                      · intro hh
                        rw [hq]
                        exact Decidable.byContradiction (fun h3 => hg ⟨hh, h3⟩)
                      · rw [hq]; exact h2.symm
                    · cases hq

theorem byKid_some {ctxs : List Ctx} {dev : Nat} {kid : Bytes} {i : Nat} {c : Ctx}
    (h : byKid ctxs dev kid = some i) (hc : ctxs[i]? = some c) :
    c.mat.device = dev ∧ c.mat.recvid = kid := by
  unfold byKid at h
  rw [List.findIdx?_eq_some_iff_getElem] at h
  obtain ⟨hi, h1, _⟩ := h
  rw [List.getElem?_eq_getElem hi] at hc
  cases hc
  simpa using h1

theorem byUuid_some {ctxs : List Ctx} {dev u : Nat} {i : Nat} {c : Ctx}
    (h : byUuid ctxs dev u = some i) (hc : ctxs[i]? = some c) :
    c.mat.uuid = u ∧ c.mat.device = dev := by
  unfold byUuid at h
  rw [List.findIdx?_eq_some_iff_getElem] at h
  obtain ⟨hi, h1, _⟩ := h
  rw [List.getElem?_eq_getElem hi] at hc
  cases hc
  simpa using h1

theorem byUuid_get {ctxs : List Ctx} {dev u : Nat} {i : Nat} (h : byUuid ctxs dev u = some i) :
    ∃ c, ctxs[i]? = some c := by
  unfold byUuid at h
  rw [List.findIdx?_eq_some_iff_getElem] at h
  obtain ⟨hi, _⟩ := h
  exact ⟨_, List.getElem?_eq_getElem hi⟩

theorem byKid_get {ctxs : List Ctx} {dev : Nat} {u : Bytes} {i : Nat} (h : byKid ctxs dev u = some i) :
    ∃ c, ctxs[i]? = some c := by
  unfold byKid at h
  rw [List.findIdx?_eq_some_iff_getElem] at h
  obtain ⟨hi, _⟩ := h
  exact ⟨_, List.getElem?_eq_getElem hi⟩

theorem request_waits {n : Node} {tcp : Bool} {token : Bytes} {mid u : Nat} {r : Bytes}
    (h : request n tcp token mid = some (r, u)) : Spec.Waits n token mid u r := by
  unfold request at h
  split at h
  · rename_i cb hcb
    cases h
    refine Or.inl ⟨cb, List.mem_of_find?_eq_some hcb, ?_, rfl, rfl⟩
    simpa using List.find?_some hcb
  · split at h
    · rename_i t ht
      cases h
      refine Or.inr ⟨t, List.mem_of_find?_eq_some ht, Or.inl ?_, rfl, rfl⟩
      simpa using List.find?_some ht
    · split at h
      · cases h
      · rw [Option.map_eq_some_iff] at h
        obtain ⟨t, ht, h⟩ := h
        cases h
        refine Or.inr ⟨t, List.mem_of_find?_eq_some ht, Or.inr ?_, rfl, rfl⟩
        simpa using List.find?_some ht

/-- What the search for the context gives. -/
theorem lookup_some {n : Node} {e : Ep} {p : Pkt} {i : Nat} {r : Bytes} {c : Ctx}
    (h : lookup n e p = some (some (i, r))) (hc : n.ctxs[i]? = some c) :
    c.mat.device = e.device ∧
    ((p.kid ≠ [] ∧ c.mat.recvid = p.kid ∧ r = []) ∨
     (p.kid = [] ∧ isReq p.code = false ∧ Spec.Waits n p.token p.mid c.mat.uuid r)) := by
  unfold lookup at h
  split at h
  · rename_i hk
    simp only [Option.some.injEq, Option.map_eq_some_iff, Prod.mk.injEq] at h
    obtain ⟨j, hj, rfl, rfl⟩ := h
    obtain ⟨h1, h2⟩ := byKid_some hj hc
    exact ⟨h1, Or.inl ⟨hk, h2, rfl⟩⟩
  · rename_i hk
    split at h
    · cases h
    · rename_i hq
      simp only [Option.some.injEq] at h
      unfold byToken at h
      split at h
      · cases h
      · rename_i piv u hr
        simp only [Option.map_eq_some_iff, Prod.mk.injEq] at h
        obtain ⟨j, hj, rfl, rfl⟩ := h
        obtain ⟨h1, h2⟩ := byUuid_some hj hc
        refine ⟨h2, Or.inr ⟨Decidable.byContradiction hk, by simpa using hq, ?_⟩⟩
        rw [h1]
        exact request_waits hr

/-! ### Sending -/

/-- The ciphertext that a record stands for. -/
structure Of (x : Cipher) (ev : Ev) : Prop where
  key : x.key = ev.mat.sendkey
  nonce : Oscore.nonce ev.mat.sendid (storePiv ev.num) ev.mat.civ = .ok x.nonce
  aad : x.aad = if ev.req then aad ev.mat.sendid (storePiv ev.num) else aad ev.mat.recvid ev.rpiv
  plain : x.plain = ev.inner
  rpiv : ev.req = false → ev.rpiv ≠ [] ∧ ev.rpiv.length ≤ 5

theorem set_mats {ctxs : List Ctx} {i : Nat} {c c' : Ctx} (hc : ctxs[i]? = some c)
    (h : c'.mat = c.mat) : (ctxs.set i c').map (fun c => c.mat) = ctxs.map (fun c => c.mat) := by
  apply List.ext_getElem?
  intro j
  rw [List.getElem?_map, List.getElem?_map, List.getElem?_set]
  split
  · rename_i hij
    subst hij
    split
    · rw [hc]; simp [h]
    · rename_i hl
      rw [List.getElem?_eq_none (by omega)]
  · rfl

theorem mem_note {cbs : List Cb} {t p : Bytes} {c : Cb} (h : c ∈ note cbs t p) :
    c ∈ cbs ∨ c.piv = p := by
  induction cbs with
  | nil => cases h
  | cons a rest ih =>
    unfold note at h
    split at h
    · rcases List.mem_cons.mp h with rfl | h
      · exact Or.inr rfl
      · exact Or.inl (List.mem_cons_of_mem _ h)
    · rcases List.mem_cons.mp h with rfl | h
      · exact Or.inl (List.mem_cons_self ..)
      · rcases ih h with h | h
        · exact Or.inl (List.mem_cons_of_mem _ h)
        · exact Or.inr h

theorem mem_noted {cbs l : List Cb} {m : OutM} {p : Bytes} (h : noted cbs m p = some l) {c : Cb}
    (hc : c ∈ l) : c ∈ cbs ∨ c.piv = p := by
  unfold noted at h
  split at h
  · split at h
    · cases h; exact mem_note hc
    · cases h
  · cases h; exact Or.inl hc

/-- What sending does: nothing, or it uses one number of one context, with at most one
ciphertext. -/
structure Used (n n' : Node) (i : Nat) (c : Ctx) : Prop where
  ctxs : n'.ctxs = n.ctxs.set i { c with ssn := c.ssn + 1 }
  trs : n'.trs = n.trs
  cbs : ∀ b ∈ n'.cbs, b ∈ n.cbs ∨ b.piv = storePiv c.ssn

theorem send_inv {mem : Bool} {n n' : Node} {m : OutM} {r : Sent} {pv : Bytes}
    (h : send mem n m = .ok (n', r, pv)) :
    (n' = n ∧ cipherOf r = none) ∨
    ∃ i c, byUuid n.ctxs m.device m.uuid = some i ∧ n.ctxs[i]? = some c ∧ Used n n' i c ∧
      (∀ x, cipherOf r = some x →
        Of x { mat := c.mat, num := c.ssn, req := asReq m.code, rpiv := m.piv, inner := innerOf m }) := by
  unfold send at h
  split at h
  · cases h; exact Or.inl ⟨rfl, rfl⟩
  · rename_i i hi
    split at h
    · cases h
    · rename_i c hc
      split at h
      · cases h; exact Or.inl ⟨rfl, rfl⟩
      · split at h
        · cases h
        · split at h
          · rename_i hq
            split at h
            · right
              refine ⟨i, c, hi, hc, ?_⟩
              unfold sendReq at h
              dsimp only at h
              split at h
              · cases h
                exact ⟨⟨rfl, rfl, fun b hb => Or.inl hb⟩, fun x hx => by cases hx⟩
              · rename_i cbs hcb
                split at h
                · cases h
                · rename_i nonce hn
                  cases h
                  refine ⟨⟨rfl, rfl, fun b hb => mem_noted hcb hb⟩, fun x hx => ?_⟩
                  simp only [cipherOf, mkPkt, Option.some.injEq] at hx
                  subst hx
                  exact ⟨rfl, hn, by rw [if_pos hq], rfl, fun h => by rw [hq] at h; cases h⟩
            · cases h; exact Or.inl ⟨rfl, rfl⟩
          · rename_i hq
            split at h
            · cases h; exact Or.inl ⟨rfl, rfl⟩
            · rename_i hp
              split at h
              · cases h
              · rename_i hp5
                right
                refine ⟨i, c, hi, hc, ?_⟩
                unfold sendRsp at h
                split at h
                · cases h
                · rename_i nonce hn
                  cases h
                  refine ⟨⟨rfl, rfl, fun b hb => Or.inl hb⟩, fun x hx => ?_⟩
                  simp only [cipherOf, mkPkt, Option.some.injEq] at hx
                  subst hx
                  exact ⟨rfl, hn, by rw [if_neg hq], rfl, fun _ => ⟨hp, (by omega : m.piv.length ≤ 5)⟩⟩

theorem sendGroup_inv {n n' : Node} {m : OutM} {r : Sent} (h : sendGroup n m = .ok (n', r)) :
    (n' = n ∧ cipherOf r = none) ∨
    ∃ i c, group n.ctxs = some i ∧ n.ctxs[i]? = some c ∧ Used n n' i c ∧
      (∀ x, cipherOf r = some x →
        Of x { mat := c.mat, num := c.ssn, req := true, rpiv := [], inner := ⟨m.code, m.obs, m.body⟩ }) := by
  unfold sendGroup at h
  split at h
  · cases h; exact Or.inl ⟨rfl, rfl⟩
  · rename_i i hi
    split at h
    · cases h
    · rename_i c hc
      right
      refine ⟨i, c, hi, hc, ?_⟩
      unfold groupWith at h
      split at h
      · cases h
      · rename_i nonce hn
        cases h
        refine ⟨⟨rfl, rfl, fun b hb => Or.inl hb⟩, fun x hx => ?_⟩
        simp only [cipherOf, Option.some.injEq] at hx
        subst hx
        exact ⟨rfl, hn, by simp, rfl, fun h => by cases h⟩

theorem evOf_eq {n : Node} {m : OutM} {i : Nat} {c : Ctx}
    (hi : byUuid n.ctxs m.device m.uuid = some i) (hc : n.ctxs[i]? = some c) :
    evOf n m = { mat := c.mat, num := c.ssn, req := asReq m.code, rpiv := m.piv, inner := innerOf m } := by
  unfold evOf
  rw [hi]
  simp [hc]

theorem evGroup_eq {n : Node} {m : OutM} {i : Nat} {c : Ctx}
    (hi : group n.ctxs = some i) (hc : n.ctxs[i]? = some c) :
    evGroup n m = { mat := c.mat, num := c.ssn, req := true, rpiv := [], inner := ⟨m.code, m.obs, m.body⟩ } := by
  unfold evGroup
  rw [hi]
  simp [hc]

theorem recv_node {n n' : Node} {e : Ep} {p : Pkt} {dup : Bool} {r : Res}
    (h : recv n e p dup = .ok (n', r)) :
    n' = n ∨ ∃ i c w, n.ctxs[i]? = some c ∧ n' = { n with ctxs := n.ctxs.set i { c with win := w } } := by
  unfold recv at h
  split at h
  · cases h; exact Or.inl rfl
  · split at h
    · cases h; exact Or.inl rfl
    · cases h; exact Or.inl rfl
    · rename_i i rpiv hl
      split at h
      · cases h
      · rename_i c hc
        split at h
        · cases h; exact Or.inl rfl
        · unfold withCtx at h
          split at h
          · cases h
          · cases h; exact Or.inl rfl
          · rename_i w hw
            split at h
            · cases h
            · cases h
              exact Or.inr ⟨i, c, w, hc, rfl⟩

/-! ### Histories -/

structure Inv (s : Sys) : Prop where
  cbs : ∀ n ∈ s.nodes, ∀ c ∈ n.cbs, c.piv.length ≤ 5
  trs : ∀ n ∈ s.nodes, ∀ t ∈ n.trs, t.piv.length ≤ 5
  wire : ∀ x ∈ s.wire, ∃ ev ∈ s.log, Of x ev
  mats : ∀ ev ∈ s.log, ∃ l ∈ mats s, ev.mat ∈ l

theorem inv_start {s : Sys} (h : Spec.Start s) : Inv s :=
  ⟨h.cbs, h.trs, (by rw [h.wire]; intro x hx; cases hx), (by rw [h.log]; intro x hx; cases hx)⟩

theorem set_node_mats {l : List Node} {k : Nat} {n n' : Node} (hk : l[k]? = some n)
    (h : n'.ctxs.map (fun c => c.mat) = n.ctxs.map (fun c => c.mat)) :
    (l.set k n').map (fun n => n.ctxs.map (fun c => c.mat)) = l.map (fun n => n.ctxs.map (fun c => c.mat)) := by
  apply List.ext_getElem?
  intro j
  rw [List.getElem?_map, List.getElem?_map, List.getElem?_set]
  split
  · rename_i hij
    subst hij
    split
    · rw [hk]; simp [h]
    · rename_i hl
      rw [List.getElem?_eq_none (by omega)]
  · rfl

theorem mem_set_node {l : List Node} {k : Nat} {n' a : Node} (h : a ∈ l.set k n') :
    a ∈ l ∨ a = n' := by
  rcases List.mem_or_eq_of_mem_set h with h | h
  · exact Or.inl h
  · exact Or.inr h

theorem put_mats {s : Sys} {k : Nat} {n n' : Node} {r : Sent} {ev : Ev} (hk : s.nodes[k]? = some n)
    (h : n'.ctxs.map (fun c => c.mat) = n.ctxs.map (fun c => c.mat)) :
    mats (s.put k n' r ev) = mats s := by
  unfold Sys.put
  split <;> exact set_node_mats hk h

theorem inv_put {s : Sys} {k : Nat} {n n' : Node} {r : Sent} {ev : Ev} (hi : Inv s)
    (hk : s.nodes[k]? = some n) {i : Nat} {c : Ctx} (hc : n.ctxs[i]? = some c) (hu : Used n n' i c)
    (hm : ev.mat = c.mat) (ho : ∀ x, cipherOf r = some x → Of x ev) :
    Inv (s.put k n' r ev) ∧ mats (s.put k n' r ev) = mats s := by
  have hn : n ∈ s.nodes := List.mem_of_getElem? hk
  have e : n'.ctxs.map (fun c => c.mat) = n.ctxs.map (fun c => c.mat) := by
    rw [hu.ctxs]; exact set_mats hc rfl
  refine ⟨?_, put_mats hk e⟩
  have em := put_mats (r := r) (ev := ev) hk e
  have h1 : ∀ a ∈ s.nodes.set k n', ∀ b ∈ a.cbs, b.piv.length ≤ 5 := by
    intro a ha b hb
    rcases mem_set_node ha with ha | rfl
    · exact hi.cbs a ha b hb
    · rcases hu.cbs b hb with h | h
      · exact hi.cbs n hn b h
      · rw [h]; exact storePiv_length _
  have h2 : ∀ a ∈ s.nodes.set k n', ∀ b ∈ a.trs, b.piv.length ≤ 5 := by
    intro a ha b hb
    rcases mem_set_node ha with ha | rfl
    · exact hi.trs a ha b hb
    · rw [hu.trs] at hb; exact hi.trs n hn b hb
  cases hr : cipherOf r with
  | none =>
    have hp : s.put k n' r ev = { s with nodes := s.nodes.set k n' } := by
      unfold Sys.put; rw [hr]
    refine ⟨by rw [hp]; exact h1, by rw [hp]; exact h2, by rw [hp]; exact hi.wire, ?_⟩
    rw [em]; rw [hp]; exact hi.mats
  | some x =>
    have hp : s.put k n' r ev = { nodes := s.nodes.set k n', wire := x :: s.wire, log := ev :: s.log } := by
      unfold Sys.put; rw [hr]
    refine ⟨by rw [hp]; exact h1, by rw [hp]; exact h2, ?_, ?_⟩
    · rw [hp]
      intro y hy
      rcases List.mem_cons.mp hy with rfl | hy
      · exact ⟨ev, List.mem_cons_self .., ho y hr⟩
      · obtain ⟨v, hv, h⟩ := hi.wire y hy
        exact ⟨v, List.mem_cons_of_mem _ hv, h⟩
    · rw [em]; rw [hp]
      intro v hv
      rcases List.mem_cons.mp hv with rfl | hv
      · refine ⟨n.ctxs.map (fun c => c.mat), List.mem_map.mpr ⟨n, hn, rfl⟩, ?_⟩
        rw [hm]
        exact List.mem_map.mpr ⟨c, List.mem_of_getElem? hc, rfl⟩
      · exact hi.mats v hv

theorem put_same {s : Sys} {k : Nat} {n : Node} {r : Sent} {ev : Ev} (hk : s.nodes[k]? = some n)
    (hr : cipherOf r = none) : s.put k n r ev = s := by
  unfold Sys.put
  rw [hr]
  have : s.nodes.set k n = s.nodes := by
    apply List.ext_getElem?
    intro j
    rw [List.getElem?_set]
    split
    · rename_i h
      subst h
      split
      · exact hk.symm
      · rename_i hl
        rw [List.getElem?_eq_none (by omega)]
    · rfl
  simp [this]

theorem inv_step {s s' : Sys} {op : Op} (hi : Inv s) (h : step s op = .ok s') :
    Inv s' ∧ mats s' = mats s := by
  unfold step at h
  split at h
  · rename_i k mem m
    split at h
    · cases h; exact ⟨hi, rfl⟩
    · rename_i n hk
      split at h
      · cases h
      · rename_i n' r pv hs
        cases h
        rcases send_inv hs with ⟨rfl, hr⟩ | ⟨i, c, hb, hc, hu, ho⟩
        · rw [put_same hk hr]; exact ⟨hi, rfl⟩
        · rw [evOf_eq hb hc]
          exact inv_put hi hk hc hu rfl ho
  · rename_i k m
    split at h
    · cases h; exact ⟨hi, rfl⟩
    · rename_i n hk
      split at h
      · cases h
      · rename_i n' r hs
        cases h
        rcases sendGroup_inv hs with ⟨rfl, hr⟩ | ⟨i, c, hb, hc, hu, ho⟩
        · rw [put_same hk hr]; exact ⟨hi, rfl⟩
        · rw [evGroup_eq hb hc]
          exact inv_put hi hk hc hu rfl ho
  · rename_i k e p dup
    split at h
    · cases h; exact ⟨hi, rfl⟩
    · rename_i n hk
      have hn : n ∈ s.nodes := List.mem_of_getElem? hk
      split at h
      · split at h
        · cases h
        · rename_i n' r hr
          cases h
          have key : n'.cbs = n.cbs ∧ n'.trs = n.trs ∧
              n'.ctxs.map (fun c => c.mat) = n.ctxs.map (fun c => c.mat) := by
            rcases recv_node hr with rfl | ⟨i, c, w, hc, rfl⟩
            · exact ⟨rfl, rfl, rfl⟩
            · exact ⟨rfl, rfl, set_mats hc rfl⟩
          obtain ⟨k1, k2, k3⟩ := key
          have em : mats { s with nodes := s.nodes.set k n' } = mats s := set_node_mats hk k3
          refine ⟨⟨?_, ?_, hi.wire, ?_⟩, em⟩
          · intro a ha b hb
            rcases mem_set_node ha with ha | rfl
            · exact hi.cbs a ha b hb
            · rw [k1] at hb; exact hi.cbs n hn b hb
          · intro a ha b hb
            rcases mem_set_node ha with ha | rfl
            · exact hi.trs a ha b hb
            · rw [k2] at hb; exact hi.trs n hn b hb
          · rw [em]; exact hi.mats
      · cases h; exact ⟨hi, rfl⟩
  · rename_i k cbs trs rf
    split at h
    · cases h; exact ⟨hi, rfl⟩
    · rename_i n hk
      split at h
      · rename_i hg
        cases h
        simp only [Bool.and_eq_true, List.all_eq_true, decide_eq_true_eq] at hg
        have em : mats { s with nodes := s.nodes.set k { n with cbs := cbs, trs := trs, rfnop := rf } }
            = mats s := set_node_mats hk rfl
        refine ⟨⟨?_, ?_, hi.wire, ?_⟩, em⟩
        · intro a ha b hb
          rcases mem_set_node ha with ha | rfl
          · exact hi.cbs a ha b hb
          · exact hg.1 b hb
        · intro a ha b hb
          rcases mem_set_node ha with ha | rfl
          · exact hi.trs a ha b hb
          · exact hg.2 b hb
        · rw [em]; exact hi.mats
      · cases h; exact ⟨hi, rfl⟩

theorem inv_run {ops : List Op} {s s' : Sys} (hi : Inv s) (h : run s ops = .ok s') :
    Inv s' ∧ mats s' = mats s := by
  induction ops generalizing s with
  | nil => cases h; exact ⟨hi, rfl⟩
  | cons op rest ih =>
    unfold run at h
    split at h
    · cases h
    · rename_i s1 h1
      obtain ⟨a, b⟩ := inv_step hi h1
      obtain ⟨c, d⟩ := ih a h
      exact ⟨c, d.trans b⟩

end Verif.OscoreEng
