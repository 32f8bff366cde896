import Verif.OscoreEng.Lemmas

/-!
C140: no nonce is used twice with one key.
-/

namespace Verif.OscoreEng
open Verif.Oscore (storePiv storePiv_length)

/-- Numbers used and numbers left: `b` more can be used by every context. -/
structure Fresh (s : Sys) (b : Nat) : Prop where
  below : ∀ ev ∈ s.log, ∀ (k i : Nat) (n : Node) (c : Ctx), s.nodes[k]? = some n → n.ctxs[i]? = some c →
    c.mat.sendkey = ev.mat.sendkey → ev.num.toNat < c.ssn.toNat
  room : ∀ (k i : Nat) (n : Node) (c : Ctx), s.nodes[k]? = some n → n.ctxs[i]? = some c →
    c.ssn.toNat + b ≤ 2 ^ 40
  small : ∀ ev ∈ s.log, ev.num.toNat < 2 ^ 40
  distinct : s.wire.Pairwise (fun x y => ¬ (x.key = y.key ∧ x.nonce = y.nonce))
  wire : ∀ x ∈ s.wire, ∃ ev ∈ s.log, Of x ev

theorem get_set_ctx {l : List Ctx} {i j : Nat} {c c' d : Ctx} (hc : l[i]? = some c)
    (h : (l.set i c')[j]? = some d) : (j = i ∧ d = c') ∨ (j ≠ i ∧ l[j]? = some d) := by
  rw [List.getElem?_set] at h
  split at h
  · rename_i hij
    split at h
    · cases h; exact Or.inl ⟨hij.symm, rfl⟩
    · cases h
  · rename_i hij
    exact Or.inr ⟨fun hh => hij hh.symm, h⟩

theorem get_set_node {l : List Node} {i j : Nat} {c' d : Node}
    (h : (l.set i c')[j]? = some d) : (j = i ∧ d = c') ∨ (j ≠ i ∧ l[j]? = some d) := by
  rw [List.getElem?_set] at h
  split at h
  · rename_i hij
    split at h
    · cases h; exact Or.inl ⟨hij.symm, rfl⟩
    · cases h
  · rename_i hij
    exact Or.inr ⟨fun hh => hij hh.symm, h⟩

/-- Contexts in the new system are those of the old one, up to number and window. -/
theorem fresh_same {s s' : Sys} {b : Nat} (hf : Fresh s (b + 1)) (hw : s'.wire = s.wire)
    (hl : s'.log = s.log)
    (hn : ∀ (k i : Nat) (n : Node) (c : Ctx), s'.nodes[k]? = some n → n.ctxs[i]? = some c →
      ∃ n0 c0, s.nodes[k]? = some n0 ∧ n0.ctxs[i]? = some c0 ∧ c0.mat = c.mat ∧ c0.ssn = c.ssn) :
    Fresh s' b := by
  refine ⟨?_, ?_, by rw [hl]; exact hf.small, by rw [hw]; exact hf.distinct, by rw [hw, hl]; exact hf.wire⟩
  · intro ev hev k i n c hk hc he
    obtain ⟨n0, c0, h1, h2, h3, h4⟩ := hn k i n c hk hc
    rw [hl] at hev
    rw [← h4]
    exact hf.below ev hev k i n0 c0 h1 h2 (by rw [h3]; exact he)
  · intro k i n c hk hc
    obtain ⟨n0, c0, h1, h2, h3, h4⟩ := hn k i n c hk hc
    have := hf.room k i n0 c0 h1 h2
    rw [← h4]; omega

theorem mats_get {s : Sys} {k i : Nat} {n : Node} {c : Ctx} (hk : s.nodes[k]? = some n)
    (hc : n.ctxs[i]? = some c) : ∃ l, (mats s)[k]? = some l ∧ l[i]? = some c.mat := by
  refine ⟨n.ctxs.map (fun c => c.mat), ?_, ?_⟩
  · unfold mats; rw [List.getElem?_map, hk]; rfl
  · rw [List.getElem?_map, hc]; rfl

theorem fresh_put {s : Sys} {b k i : Nat} {n n' : Node} {r : Sent} {ev : Ev} {c : Ctx}
    (hf : Fresh s (b + 1)) (hone : Spec.OneOwner s) (hpr : Spec.Proper c.mat)
    (hk : s.nodes[k]? = some n) (hc : n.ctxs[i]? = some c) (hu : Used n n' i c)
    (hm : ev.mat = c.mat) (hnum : ev.num = c.ssn) (ho : ∀ x, cipherOf r = some x → Of x ev)
    (hprl : ∀ v ∈ s.log, v.mat.sendkey = c.mat.sendkey → v.mat = c.mat) :
    Fresh (s.put k n' r ev) b := by
  have room := hf.room k i n c hk hc
  have hss : (c.ssn + 1).toNat = c.ssn.toNat + 1 := by
    rw [BitVec.toNat_add]
    simp
    omega
  -- contexts of the new system
  have ctxs : ∀ (k' i' : Nat) (m : Node) (d : Ctx), (s.nodes.set k n')[k']? = some m → m.ctxs[i']? = some d →
      ∃ m0 d0, s.nodes[k']? = some m0 ∧ m0.ctxs[i']? = some d0 ∧ d0.mat = d.mat ∧
        ((k' = k ∧ i' = i ∧ d0 = c ∧ d.ssn = c.ssn + 1) ∨ (¬ (k' = k ∧ i' = i) ∧ d0.ssn = d.ssn)) := by
    intro k' i' m d hm' hd
    rcases get_set_node hm' with ⟨rfl, rfl⟩ | ⟨hne, hm'⟩
    · rw [hu.ctxs] at hd
      rcases get_set_ctx hc hd with ⟨rfl, rfl⟩ | ⟨hne, hd⟩
      · exact ⟨n, c, hk, hc, rfl, Or.inl ⟨rfl, rfl, rfl, rfl⟩⟩
      · exact ⟨n, d, hk, hd, rfl, Or.inr ⟨fun hh => hne hh.2, rfl⟩⟩
    · exact ⟨m, d, hm', hd, rfl, Or.inr ⟨fun hh => hne hh.1, rfl⟩⟩
  have room' : ∀ (k' i' : Nat) (m : Node) (d : Ctx), (s.nodes.set k n')[k']? = some m → m.ctxs[i']? = some d →
      d.ssn.toNat + b ≤ 2 ^ 40 := by
    intro k' i' m d hm' hd
    obtain ⟨m0, d0, h1, h2, _, h4⟩ := ctxs k' i' m d hm' hd
    rcases h4 with ⟨_, _, _, h5⟩ | ⟨_, h5⟩
    · rw [h5, hss]; omega
    · have := hf.room k' i' m0 d0 h1 h2
      rw [← h5]; omega
  have below' : ∀ v ∈ s.log, ∀ (k' i' : Nat) (m : Node) (d : Ctx), (s.nodes.set k n')[k']? = some m →
      m.ctxs[i']? = some d → d.mat.sendkey = v.mat.sendkey → v.num.toNat < d.ssn.toNat := by
    intro v hv k' i' m d hm' hd he
    obtain ⟨m0, d0, h1, h2, h3, h4⟩ := ctxs k' i' m d hm' hd
    have hb := hf.below v hv k' i' m0 d0 h1 h2 (by rw [h3]; exact he)
    rcases h4 with ⟨_, _, h5, h6⟩ | ⟨_, h6⟩
    · rw [h6, hss]; rw [h5] at hb; omega
    · rw [← h6]; exact hb
  cases hr : cipherOf r with
  | none =>
    have hp : s.put k n' r ev = { s with nodes := s.nodes.set k n' } := by
      unfold Sys.put; rw [hr]
    rw [hp]
    exact ⟨below', room', hf.small, hf.distinct, hf.wire⟩
  | some x =>
    have hp : s.put k n' r ev = { nodes := s.nodes.set k n', wire := x :: s.wire, log := ev :: s.log } := by
      unfold Sys.put; rw [hr]
    have hox := ho x hr
    rw [hp]
    refine ⟨?_, room', ?_, ?_, ?_⟩
    · intro v hv k' i' m d hm' hd he
      rcases List.mem_cons.mp hv with rfl | hv
      · obtain ⟨m0, d0, h1, h2, h3, h4⟩ := ctxs k' i' m d hm' hd
        rcases h4 with ⟨_, _, _, h6⟩ | ⟨hne, _⟩
        · rw [h6, hss, hnum]; omega
        · exfalso
          obtain ⟨l, hl, hl2⟩ := mats_get hk hc
          obtain ⟨l', hl', hl2'⟩ := mats_get h1 h2
          have := hone k' k l' l i' i _ _ hl' hl hl2' hl2 (by rw [h3, he, hm])
          exact hne this
      · exact below' v hv k' i' m d hm' hd he
    · intro v hv
      rcases List.mem_cons.mp hv with rfl | hv
      · rw [hnum]; omega
      · exact hf.small v hv
    · rw [List.pairwise_cons]
      refine ⟨?_, hf.distinct⟩
      intro y hy hxy
      obtain ⟨v, hv, hov⟩ := hf.wire y hy
      have ek : v.mat.sendkey = c.mat.sendkey := by
        rw [← hov.key, ← hxy.1, hox.key, hm]
      have hb := hf.below v hv k i n c hk hc ek.symm
      have hvm := hprl v hv ek
      have h1 := hox.nonce
      have h2 := hov.nonce
      rw [hm, hnum] at h1
      rw [hvm, ← hxy.2, ← h1] at h2
      have h3 := ((Oscore.nonce_injective _ _ _ _ _ hpr.1 hpr.1 (storePiv_length _) (storePiv_length _)
        hpr.2.2.1).mp h2).2
      rw [Oscore.storePiv_mod, Oscore.storePiv_mod, Nat.mod_eq_of_lt (hf.small v hv),
        Nat.mod_eq_of_lt (by omega)] at h3
      omega
    · intro y hy
      rcases List.mem_cons.mp hy with rfl | hy
      · exact ⟨ev, List.mem_cons_self .., hox⟩
      · obtain ⟨v, hv, h⟩ := hf.wire y hy
        exact ⟨v, List.mem_cons_of_mem _ hv, h⟩

theorem owner_mat {s : Sys} (hi : Inv s) (hone : Spec.OneOwner s) {k i : Nat} {n : Node} {c : Ctx}
    (hk : s.nodes[k]? = some n) (hc : n.ctxs[i]? = some c) :
    ∀ v ∈ s.log, v.mat.sendkey = c.mat.sendkey → v.mat = c.mat := by
  intro v hv he
  obtain ⟨l', hl', hm'⟩ := hi.mats v hv
  obtain ⟨k', hk'⟩ := List.getElem?_of_mem hl'
  obtain ⟨i', hi'⟩ := List.getElem?_of_mem hm'
  obtain ⟨l, hl, hl2⟩ := mats_get hk hc
  obtain ⟨rfl, rfl⟩ := hone k' k l' l i' i _ _ hk' hl hi' hl2 he
  rw [hk'] at hl; cases hl
  rw [hi'] at hl2
  exact Option.some.inj hl2

theorem proper_of {s : Sys} (hp : ∀ l ∈ mats s, ∀ m ∈ l, Spec.Proper m) {k i : Nat} {n : Node} {c : Ctx}
    (hk : s.nodes[k]? = some n) (hc : n.ctxs[i]? = some c) : Spec.Proper c.mat := by
  obtain ⟨l, hl, hl2⟩ := mats_get hk hc
  exact hp l (List.mem_of_getElem? hl) _ (List.mem_of_getElem? hl2)

theorem fresh_step {s s' : Sys} {op : Op} {b : Nat} (hi : Inv s) (hone : Spec.OneOwner s)
    (hp : ∀ l ∈ mats s, ∀ m ∈ l, Spec.Proper m) (hf : Fresh s (b + 1)) (h : step s op = .ok s') :
    Fresh s' b := by
  have same : Fresh s b := fresh_same hf rfl rfl (fun k i n c hk hc => ⟨n, c, hk, hc, rfl, rfl⟩)
  unfold step at h
  split at h
  · rename_i k mem m
    split at h
    · cases h; exact same
    · rename_i n hk
      split at h
      · cases h
      · rename_i n' r pv hs
        cases h
        rcases send_inv hs with ⟨rfl, hr⟩ | ⟨i, c, hb, hc, hu, ho⟩
        · rw [put_same hk hr]; exact same
        · rw [evOf_eq hb hc]
          exact fresh_put hf hone (proper_of hp hk hc) hk hc hu rfl rfl ho (owner_mat hi hone hk hc)
  · rename_i k m
    split at h
    · cases h; exact same
    · rename_i n hk
      split at h
      · cases h
      · rename_i n' r hs
        cases h
        rcases sendGroup_inv hs with ⟨rfl, hr⟩ | ⟨i, c, hb, hc, hu, ho⟩
        · rw [put_same hk hr]; exact same
        · rw [evGroup_eq hb hc]
          exact fresh_put hf hone (proper_of hp hk hc) hk hc hu rfl rfl ho (owner_mat hi hone hk hc)
  · rename_i k e p dup
    split at h
    · cases h; exact same
    · rename_i n hk
      split at h
      · split at h
        · cases h
        · rename_i n' r hr
          cases h
          refine fresh_same hf rfl rfl ?_
          intro k' i' a d ha hd
          rcases get_set_node ha with ⟨rfl, rfl⟩ | ⟨_, ha⟩
          · rcases recv_node hr with rfl | ⟨i, c, w, hc, rfl⟩
            · exact ⟨_, d, hk, hd, rfl, rfl⟩
            · rcases get_set_ctx hc hd with ⟨rfl, rfl⟩ | ⟨_, hd⟩
              · exact ⟨n, c, hk, hc, rfl, rfl⟩
              · exact ⟨n, d, hk, hd, rfl, rfl⟩
          · exact ⟨a, d, ha, hd, rfl, rfl⟩
      · cases h; exact same
  · rename_i k cbs trs rf
    split at h
    · cases h; exact same
    · rename_i n hk
      split at h
      · cases h
        refine fresh_same hf rfl rfl ?_
        intro k' i' a d ha hd
        rcases get_set_node ha with ⟨rfl, rfl⟩ | ⟨_, ha⟩
        · exact ⟨n, d, hk, hd, rfl, rfl⟩
        · exact ⟨a, d, ha, hd, rfl, rfl⟩
      · cases h; exact same

/-- C140: as long as no context reaches the end of its sequence numbers, no two messages
that ever leave the nodes are encrypted with the same key and nonce, whatever is received
in between; retransmissions are encrypted again with numbers of their own. -/
theorem nonces_fresh (s0 s : Sys) (ops : List Op) (h0 : Spec.Start s0) (hone : Spec.OneOwner s0)
    (hp : ∀ l ∈ mats s0, ∀ m ∈ l, Spec.Proper m)
    (hroom : ∀ n ∈ s0.nodes, ∀ c ∈ n.ctxs, c.ssn.toNat + ops.length ≤ 2 ^ 40)
    (hrun : run s0 ops = .ok s) :
    s.wire.Pairwise (fun x y => ¬ (x.key = y.key ∧ x.nonce = y.nonce)) := by
  have hf : Fresh s0 ops.length := by
    refine ⟨(by rw [h0.log]; intro v hv; cases hv), ?_, (by rw [h0.log]; intro v hv; cases hv),
      (by rw [h0.wire]; exact List.Pairwise.nil), (by rw [h0.wire]; intro v hv; cases hv)⟩
    intro k i n c hk hc
    exact hroom n (List.mem_of_getElem? hk) c (List.mem_of_getElem? hc)
  have hi := inv_start h0
  clear h0 hroom
  induction ops generalizing s0 with
  | nil => cases hrun; exact hf.distinct
  | cons op rest ih =>
    unfold run at hrun
    split at hrun
    · cases hrun
    · rename_i s1 h1
      obtain ⟨a, b⟩ := inv_step hi h1
      refine ih s1 ?_ ?_ hrun (fresh_step hi hone hp hf h1) a
      · unfold Spec.OneOwner; rw [b]; exact hone
      · rw [b]; exact hp

end Verif.OscoreEng
