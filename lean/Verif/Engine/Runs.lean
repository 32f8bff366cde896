import Verif.Engine.Steps

namespace Verif.Engine

/-- The exchanges started have message ids given out one after the other, after
the first `a` and up to the `b`-th. -/
def Fresh (a b : Nat) (outs : List Sent) : Prop :=
  ∃ l : List Nat, l.Pairwise (· < ·) ∧ (∀ x ∈ l, a < x ∧ x ≤ b) ∧
    (outs.filter originated).map (fun o => o.pkt.mid) = l.map wire

theorem Fresh.append {a b c : Nat} {l1 l2 : List Sent} (h1 : Fresh a b l1) (h2 : Fresh b c l2) (hab : a ≤ b)
    (hbc : b ≤ c) : Fresh a c (l1 ++ l2) := by
  obtain ⟨x, p1, q1, r1⟩ := h1
  obtain ⟨y, p2, q2, r2⟩ := h2
  refine ⟨x ++ y, ?_, ?_, ?_⟩
  · rw [List.pairwise_append]
    refine ⟨p1, p2, ?_⟩
    intro u hu v hv
    have := (q1 u hu).2
    have := (q2 v hv).1
    omega
  · intro u hu
    rcases List.mem_append.mp hu with h | h
    · have := q1 u h
      omega
    · have := q2 u h
      omega
  · rw [List.filter_append, List.map_append, List.map_append, r1, r2]

theorem fresh_none {a b : Nat} {outs : List Sent} (h : ∀ o ∈ outs, originated o = false) : Fresh a b outs := by
  refine ⟨[], List.Pairwise.nil, (fun x h => by cases h), ?_⟩
  have : outs.filter originated = [] := by
    rw [List.filter_eq_nil_iff]
    intro o ho hx
    rw [h o ho] at hx
    cases hx
  rw [this]
  rfl

theorem fresh_one {a b : Nat} {o : Sent} (h : originated o = true → ∃ n, a < n ∧ n ≤ b ∧ o.pkt.mid = wire n) :
    Fresh a b [o] := by
  cases ho : originated o with
  | false => exact fresh_none (fun x hx => by rw [List.mem_singleton.mp hx]; exact ho)
  | true =>
    obtain ⟨n, h1, h2, h3⟩ := h ho
    refine ⟨[n], List.pairwise_singleton _ _, ?_, ?_⟩
    · intro x hx
      rw [List.mem_singleton.mp hx]
      exact ⟨h1, h2⟩
    · rw [List.filter_cons_of_pos ho]
      simp [h3]

theorem Fresh.mono {a b a' b' : Nat} {l : List Sent} (h : Fresh a b l) (ha : a' ≤ a) (hb : b ≤ b') : Fresh a' b' l := by
  obtain ⟨x, p1, q1, r1⟩ := h
  exact ⟨x, p1, fun u hu => by have := q1 u hu; omega, r1⟩

theorem ahead_ep {s : St} {ep : Ep} {e : Env} {o : Sent} (h : o ∈ ahead s ep e) : o.ep = ep ∧ originated o = false := by
  unfold ahead at h
  split at h
  · rw [List.mem_singleton.mp h]
    exact ⟨rfl, rfl⟩
  · cases h

theorem empty_ep {s : St} {ep : Ep} {e : Env} {typ mid code : Nat} {tok : Bytes} {o : Sent}
    (h : o ∈ sendEmpty s e ep typ mid tok code) :
    o.ep = ep ∧ (2 ≤ typ → originated o = false) := by
  unfold sendEmpty at h
  split at h
  · rw [post_eq] at h
    rcases List.mem_append.mp h with h | h
    · exact ⟨(ahead_ep h).1, fun _ => (ahead_ep h).2⟩
    · rw [List.mem_singleton.mp h]
      refine ⟨rfl, fun h2 => ?_⟩
      show (!false && (typ == 0 || typ == 1)) = false
      have a : (typ == 0) = false := by simp; omega
      have b : (typ == 1) = false := by simp; omega
      rw [a, b]
      rfl
  · cases h

theorem init_fresh {s s1 : St} {m : Msg} {p : Pkt} (h : initResponse s m = some (s1, p)) (c : Nat) (t : Bytes)
    (ho : originated ⟨m.ep, { p with code := c, token := t }⟩ = true) : s1.cnt = s.cnt + 1 ∧ p.mid = wire s1.cnt := by
  unfold initResponse at h
  split at h
  · injection h with h
    injection h with h1 h2
    subst h2
    cases ho
  split at h
  · injection h with h
    injection h with h1 h2
    subst h2
    cases ho
  dsimp only at h
  split at h
  · injection h with h
    injection h with h1 h2
    subst h1 h2
    exact ⟨rfl, rfl⟩
  · cases h

theorem withToken_fields (m : Msg) (e : Env) (p : Pkt) : ∃ t, withToken m e p = { p with token := t } := by
  unfold withToken
  split
  · exact ⟨p.token, rfl⟩
  · split
    · exact ⟨m.token, rfl⟩
    · exact ⟨_, rfl⟩

/-- What holds of the processing of a message. -/
structure Good (s : St) (m : Msg) (e : Env) (r : Res) : Prop where
  inv : Inv r.st
  cnt : s.cnt ≤ r.st.cnt
  eps : ∀ o ∈ r.outs, o.ep = m.ep
  fresh : e.err = none → Fresh s.cnt r.st.cnt r.outs

theorem request_good {s : St} {m : Msg} {e : Env} (hi : Inv s) :
    ∃ r, result (withMethod s m e).1 (withMethod s m e).2 m e = .ok r ∧ Good s m e r := by
  cases hini : initResponse s m with
  | none =>
    have : withMethod s m e = (⟨s, [], udpPkt 0 0 0, none, false, false⟩, .dup) := by
      unfold withMethod; rw [hini]
    rw [this, result_dup]
    exact ⟨_, rfl, hi, Nat.le_refl _, (fun o h => by cases h), fun _ => fresh_none (fun o h => by cases h)⟩
  | some x =>
    obtain ⟨s1, p⟩ := x
    have hfr := init_frame hini
    cases ht : e.txAlloc with
    | false =>
      have : withMethod s m e = (⟨s1, [], p, none, false, false⟩, .error) := by
        unfold withMethod; rw [hini]; dsimp only; rw [ht]; rfl
      rw [this, result_none _ _ _ rfl]
      exact ⟨_, rfl, hfr.inv hi, hfr.cnt, (fun o h => by cases h), fun _ => fresh_none (fun o h => by cases h)⟩
    | true =>
      rcases served (hfr.inv hi) hini ht with ⟨st, k, _, _, _, kf, kc, _⟩ | ⟨w', r', st, k1, k2, k3, k4, k5, k8, k6, k7, k9, _⟩
      · rw [k]
        exact ⟨_, rfl, kf.inv (hfr.inv hi), Nat.le_trans hfr.cnt kf.cnt, (fun o h => by cases h),
          fun _ => fresh_none (fun o h => by cases h)⟩
      · rw [k1]
        dsimp only
        rw [k6]
        have hc1 := hfr.cnt
        have hc2 := k7.cnt
        have houts : (∀ o ∈ w'.outs, o.ep = m.ep ∧ originated o = false) := by
          cases k3 with
          | same hs ho c hc hpp => rw [ho]; intro o h; cases h
          | sep c0 c hc hs ho hpp =>
            rw [ho]
            intro o hom
            unfold separate at hom
            dsimp only [List.nil_append] at hom
            split at hom
            · exact ⟨(empty_ep hom).1, (empty_ep hom).2 (Nat.le_refl _)⟩
            · cases hom
        have hresp : ∀ t, originated ⟨m.ep, { w'.resp with token := t }⟩ = true →
            ∃ n, s.cnt < n ∧ n ≤ st.cnt ∧ w'.resp.mid = wire n := by
          intro t ho
          cases k3 with
          | same hs _ c hc hpp =>
            rw [hpp] at ho ⊢
            obtain ⟨a, b⟩ := init_fresh hini c t ho
            exact ⟨s1.cnt, by omega, by omega, b⟩
          | sep c0 c hc hs _ hpp =>
            rw [hpp]
            have : st.cnt = s1.cnt + 1 := by rw [k9, hs]; rfl
            exact ⟨s1.cnt + 1, by omega, by omega, rfl⟩
        refine ⟨_, rfl, k7.inv (hfr.inv hi), Nat.le_trans hc1 hc2, ?_, ?_⟩
        · intro o ho
          rcases List.mem_append.mp ho with h | h
          · exact (houts o h).1
          · split at h
            · cases h
            · rcases List.mem_append.mp h with h | h
              · exact (ahead_ep h).1
              · rw [List.mem_singleton.mp h]
        · intro _
          have f1 : Fresh s.cnt s.cnt w'.outs := fresh_none (fun o h => (houts o h).2)
          refine f1.append ?_ (Nat.le_refl _) (Nat.le_trans hc1 hc2)
          split
          · exact fresh_none (fun o h => by cases h)
          · have f2 : Fresh s.cnt s.cnt (ahead s1 m.ep e) := fresh_none (fun o h => (ahead_ep h).2)
            refine f2.append ?_ (Nat.le_refl _) (Nat.le_trans hc1 hc2)
            apply fresh_one
            intro ho
            obtain ⟨t, htk⟩ := withToken_fields m e (final w' r' m)
            rw [htk] at ho ⊢
            unfold final at ho ⊢
            split at ho
            · split at ho <;> cases ho
            · rename_i hne
              rw [if_neg hne]
              exact hresp t ho

theorem code_good {s : St} {m : Msg} {e : Env} (hi : Inv s) :
    ∃ r, result (withCode s m e).1 (withCode s m e).2 m e = .ok r ∧ Good s m e r := by
  have hacks : ∀ o ∈ (if m.typ == 0 then sendEmpty s e m.ep 2 m.mid [] 0 else []), o.ep = m.ep ∧ originated o = false := by
    intro o ho
    split at ho
    · exact ⟨(empty_ep ho).1, (empty_ep ho).2 (Nat.le_refl _)⟩
    · cases ho
  have hfr : Frame s { s with cnt := s.cnt + 1 } := ⟨rfl, Nat.le_succ _, Nat.le_refl _, fun t h => Or.inr ⟨t, h, rfl⟩⟩
  have hin := hfr.inv hi
  have hsil : ∀ r', ∃ r, result ⟨{ s with cnt := s.cnt + 1 }, if m.typ == 0 then sendEmpty s e m.ep 2 m.mid [] 0 else [],
      udpPkt 0 0 0, none, false, false⟩ r' m e = .ok r ∧ Good s m e r := by
    intro r'
    rw [result_none _ _ _ rfl]
    exact ⟨_, rfl, hin, Nat.le_succ _, fun o h => (hacks o h).1, fun _ => fresh_none (fun o h => (hacks o h).2)⟩
  unfold withCode
  generalize (if m.typ == 0 then sendEmpty s e m.ep 2 m.mid [] 0 else []) = acks at hacks hsil
  cases e.cli with
  | none => exact hsil _
  | cb => exact hsil _
  | next method =>
    dsimp only
    split
    · obtain ⟨st, k1, k2, k3, _⟩ := result_own (w := ⟨(newTx { s with cnt := s.cnt + 1 } (wire (s.cnt + 1)) m.ep).1,
        acks, udpPkt 0 method (wire (s.cnt + 1)),
        some (newTx { s with cnt := s.cnt + 1 } (wire (s.cnt + 1)) m.ep).2, false, false⟩) (r := .success) (m := m) e
        (by simp) ⟨_, _, rfl, find_new hin _ m.ep, rfl⟩
      dsimp only at k1 k2 k3
      rw [k1]
      have hst : st.cnt = s.cnt + 1 := k3
      refine ⟨_, rfl, k2.inv ((frame_new _ _ _).inv hin), by show s.cnt ≤ st.cnt; omega, ?_, ?_⟩
      · intro o ho
        rcases List.mem_append.mp ho with h | h
        · exact (hacks o h).1
        · split at h
          · cases h
          · rcases List.mem_append.mp h with h | h
            · exact (ahead_ep h).1
            · rw [List.mem_singleton.mp h]
      · intro _
        have f1 : Fresh s.cnt s.cnt acks := fresh_none (fun o h => (hacks o h).2)
        refine f1.append ?_ (Nat.le_refl _) (by show s.cnt ≤ st.cnt; omega)
        split
        · exact fresh_none (fun o h => by cases h)
        · refine Fresh.append (b := s.cnt) (fresh_none (fun o h => (ahead_ep h).2)) ?_ (Nat.le_refl _) (by show s.cnt ≤ st.cnt; omega)
          apply fresh_one
          intro _
          obtain ⟨t, htk⟩ := withToken_fields m e (udpPkt 0 method (wire (s.cnt + 1)))
          refine ⟨s.cnt + 1, Nat.lt_succ_self _, by show s.cnt + 1 ≤ st.cnt; omega, ?_⟩
          show (withToken m e (udpPkt 0 method (wire (s.cnt + 1)))).mid = _
          rw [htk]
          rfl
    · exact hsil _

theorem main_good {s : St} {m : Msg} {e : Env} (hi : Inv s) (ho : Ordinary m) :
    ∃ r, main s m e = .ok r ∧ Good s m e r := by
  rw [main_ordinary ho]
  unfold receive
  split
  · exact request_good hi
  · exact code_good hi

theorem inv_sess {s : St} (hi : Inv s) (l : List (Nat × Csm)) : Inv { s with sess := l } := hi

theorem close_inv {s : St} (hi : Inv s) (ep : Ep) : Inv (closeSession s ep) ∧ (closeSession s ep).cnt = s.cnt := by
  unfold closeSession
  split
  · exact ⟨hi, rfl⟩
  · exact ⟨hi, rfl⟩

theorem csm_inv {s : St} (hi : Inv s) (ep : Ep) (c : Csm) : Inv (setCsm s ep c) ∧ (setCsm s ep c).cnt = s.cnt := by
  unfold setCsm
  split
  · exact ⟨hi, rfl⟩
  · exact ⟨hi, rfl⟩

theorem sendCsm_ep {e : Env} {ep : Ep} {o : Sent} (h : o ∈ sendCsm e ep) : o.ep = ep ∧ originated o = false := by
  unfold sendCsm at h
  split at h
  · rw [List.mem_singleton.mp h]; exact ⟨rfl, rfl⟩
  · cases h

theorem sendPong_ep {e : Env} {ep : Ep} {m : Msg} {o : Sent} (h : o ∈ sendPong e ep m) : o.ep = ep ∧ originated o = false := by
  unfold sendPong at h
  split at h
  · rw [List.mem_singleton.mp h]; exact ⟨rfl, rfl⟩
  · cases h

theorem signal_good {s : St} {m : Msg} {e : Env} {r : Res} (hi : Inv s) (h : signal s m e = some r) : Good s m e r := by
  have nil : ∀ (st : St) (a b : Bool), Inv st → s.cnt ≤ st.cnt → Good s m e ⟨st, [], a, b⟩ :=
    fun st a b h1 h2 => ⟨h1, h2, (fun o h => by cases h), fun _ => fresh_none (fun o h => by cases h)⟩
  unfold signal at h
  split at h
  · split at h
    · injection h with h
      rw [← h]
      exact nil _ _ _ hi (Nat.le_refl _)
    · injection h with h
      rw [← h]
      exact ⟨(csm_inv hi _ _).1, by rw [(csm_inv hi _ _).2]; exact Nat.le_refl _, fun o ho => (sendCsm_ep ho).1,
        fun _ => fresh_none (fun o ho => (sendCsm_ep ho).2)⟩
    · injection h with h
      rw [← h]
      exact nil _ _ _ (csm_inv hi _ _).1 (by rw [(csm_inv hi _ _).2]; exact Nat.le_refl _)
  split at h
  · injection h with h
    rw [← h]
    exact ⟨hi, Nat.le_refl _, fun o ho => (sendPong_ep ho).1, fun _ => fresh_none (fun o ho => (sendPong_ep ho).2)⟩
  split at h
  · cases h
  split at h
  · injection h with h
    rw [← h]
    exact nil _ _ _ (close_inv hi _).1 (by rw [(close_inv hi _).2]; exact Nat.le_refl _)
  · injection h with h
    rw [← h]
    exact nil _ _ _ hi (Nat.le_refl _)

theorem Good.of_settle {s : St} {m : Msg} {e : Env} {r : Res} (h : Good (settle s (parsed m)) (parsed m) e r) : Good s m e r :=
  ⟨h.inv, by have := h.cnt; rw [settle_cnt] at this; exact this, fun o ho => by rw [h.eps o ho, parsed_ep],
    fun he => by have := h.fresh he; rw [settle_cnt] at this; exact this⟩

theorem inbound_good {s : St} {m : Msg} {e : Env} (hi : Inv s) (ho : Ordinary m) :
    ∃ r, inbound s m e = .ok r ∧ Good s m e r := by
  unfold inbound
  cases he : e.err with
  | some status =>
    refine ⟨_, rfl, ?_⟩
    unfold invalid
    rw [parsed_ep]
    split
    · exact ⟨(close_inv hi _).1, by rw [(close_inv hi _).2]; exact Nat.le_refl _, (fun o h => by cases h),
        fun h => by rw [he] at h; cases h⟩
    · exact ⟨hi, Nat.le_refl _, fun o h => (empty_ep h).1, fun h => by rw [he] at h; cases h⟩
  | none =>
    dsimp only
    have hi' := settle_inv (parsed m) hi
    obtain ⟨r, k1, k2⟩ := main_good (e := e) hi' (ordinary_parsed ho)
    split
    · cases hs : signal (settle s (parsed m)) (parsed m) e with
      | some r => exact ⟨r, rfl, (signal_good hi' hs).of_settle⟩
      | none => exact ⟨r, k1, k2.of_settle⟩
    · exact ⟨r, k1, k2.of_settle⟩

theorem sendTx_cases (s : St) (e : Env) (t : Tx) (p : Pkt) :
    ((sendTx s e t p).2 = [] ∨ (sendTx s e t p).2 = post s e t.ep p) ∧
      ((sendTx s e t p).1 = s ∨ (sendTx s e t p).1 = clear s (some t.id)) := by
  unfold sendTx
  split
  · exact ⟨Or.inl rfl, Or.inl rfl⟩
  · split
    · exact ⟨Or.inr rfl, Or.inl rfl⟩
    · exact ⟨Or.inr rfl, Or.inr rfl⟩

theorem app_good {s : St} (hi : Inv s) (ep : Ep) (con : Bool) (code : Nat) (token : Bytes) (e : Env) :
    Inv (app s ep con code token e).1 ∧ s.cnt ≤ (app s ep con code token e).1.cnt ∧
      (∀ o ∈ (app s ep con code token e).2, o.ep = ep) ∧
      Fresh s.cnt (app s ep con code token e).1.cnt (app s ep con code token e).2 := by
  have hfr : Frame s { s with cnt := s.cnt + 1 } := ⟨rfl, Nat.le_succ _, Nat.le_refl _, fun t h => Or.inr ⟨t, h, rfl⟩⟩
  have hin := hfr.inv hi
  unfold app
  dsimp only
  split
  · have hn := (frame_new { s with cnt := s.cnt + 1 } (wire (s.cnt + 1)) ep).inv hin
    have nil : ∀ o ∈ ([] : List Sent), o.ep = ep := fun o h => by cases h
    have hfo : ∀ p : Pkt, (originated ⟨ep, p⟩ = true → p.mid = wire (s.cnt + 1)) →
        Fresh s.cnt (s.cnt + 1) (post (newTx { s with cnt := s.cnt + 1 } (wire (s.cnt + 1)) ep).1 e ep p) := by
      intro p hp
      rw [post_eq]
      refine Fresh.append (b := s.cnt) (fresh_none (fun o h => (ahead_ep h).2)) ?_ (Nat.le_refl _) (Nat.le_succ _)
      exact fresh_one (fun ho => ⟨s.cnt + 1, Nat.lt_succ_self _, Nat.le_refl _, hp ho⟩)
    have heps : ∀ p : Pkt, ∀ o ∈ post (newTx { s with cnt := s.cnt + 1 } (wire (s.cnt + 1)) ep).1 e ep p, o.ep = ep := by
      intro p o ho
      rw [post_eq] at ho
      rcases List.mem_append.mp ho with h | h
      · exact (ahead_ep h).1
      · rw [List.mem_singleton.mp h]
    have hmid : originated ⟨ep, if ep.tcp = true then { tcpPkt code with token := token }
        else { udpPkt (if con = true then 0 else 1) code (wire (s.cnt + 1)) with token := token }⟩ = true →
        (if ep.tcp = true then { tcpPkt code with token := token }
        else { udpPkt (if con = true then 0 else 1) code (wire (s.cnt + 1)) with token := token } : Pkt).mid = wire (s.cnt + 1) := by
      intro h
      split at h
      · cases h
      · rename_i hne
        rw [if_neg hne]
        rfl
    generalize (if ep.tcp = true then { tcpPkt code with token := token }
        else { udpPkt (if con = true then 0 else 1) code (wire (s.cnt + 1)) with token := token } : Pkt) = p at hmid
    obtain ⟨c2, c1⟩ := sendTx_cases (newTx { s with cnt := s.cnt + 1 } (wire (s.cnt + 1)) ep).1 e
      ⟨(newTx { s with cnt := s.cnt + 1 } (wire (s.cnt + 1)) ep).2, wire (s.cnt + 1), ep⟩ p
    have hcnt : (sendTx (newTx { s with cnt := s.cnt + 1 } (wire (s.cnt + 1)) ep).1 e
      ⟨(newTx { s with cnt := s.cnt + 1 } (wire (s.cnt + 1)) ep).2, wire (s.cnt + 1), ep⟩ p).1.cnt = s.cnt + 1 := by
      rcases c1 with c1 | c1 <;> rw [c1] <;> rfl
    have hinv : Inv (sendTx (newTx { s with cnt := s.cnt + 1 } (wire (s.cnt + 1)) ep).1 e
      ⟨(newTx { s with cnt := s.cnt + 1 } (wire (s.cnt + 1)) ep).2, wire (s.cnt + 1), ep⟩ p).1 := by
      rcases c1 with c1 | c1 <;> rw [c1]
      · exact hn
      · exact (frame_clear _ _).inv hn
    refine ⟨hinv, by rw [hcnt]; exact Nat.le_succ _, ?_, ?_⟩
    · rcases c2 with c2 | c2 <;> rw [c2]
      · exact nil
      · exact heps p
    · rw [hcnt]
      rcases c2 with c2 | c2 <;> rw [c2]
      · exact fresh_none (fun o h => by cases h)
      · exact hfo p hmid
  · exact ⟨hin, Nat.le_succ _, (fun o h => by cases h), fresh_none (fun o h => by cases h)⟩

end Verif.Engine
