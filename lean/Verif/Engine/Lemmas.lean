import Verif.Engine.Spec

namespace Verif.Engine

theorem post_eq (s : St) (e : Env) (ep : Ep) (p : Pkt) : post s e ep p = ahead s ep e ++ [⟨ep, p⟩] := by
  unfold post ahead sendCsm tcpPkt
  cases ep.tcp <;> cases ep.v1 <;> cases e.msgAlloc <;> cases h : csm s ep <;> rfl

theorem ahead_udp {s : St} {ep : Ep} {e : Env} (h : ep.tcp = false) : ahead s ep e = [] := by
  unfold ahead; rw [h]; simp only [Bool.false_eq_true, false_and, if_false]

theorem ahead_sess {s s' : St} (h : s'.sess = s.sess) (ep : Ep) (e : Env) : ahead s' ep e = ahead s ep e := by
  unfold ahead csm; rw [h]

theorem empty_udp {s : St} {e : Env} {m : Msg} (h : m.ep.tcp = false) (typ mid : Nat) (tok : Bytes) (code : Nat) :
    sendEmpty s e m.ep typ mid tok code
      = if e.msgAlloc then [⟨m.ep, ⟨false, typ, code, mid, tok, false⟩⟩] else [] := by
  unfold sendEmpty
  rw [post_eq, ahead_udp h]
  rfl

theorem clear_mem {s : St} {o : Option Nat} {t : Tx} (h : t ∈ (clear s o).txs) : t ∈ s.txs := by
  cases o with
  | none => exact h
  | some i => exact (List.mem_filter.mp h).1

/-- What processing leaves alone. -/
structure Frame (s s' : St) : Prop where
  sess : s'.sess = s.sess
  cnt : s.cnt ≤ s'.cnt
  next : s.nextId ≤ s'.nextId
  ids : ∀ t ∈ s'.txs, t.id < s'.nextId ∨ ∃ t0 ∈ s.txs, t0.id = t.id

theorem Frame.refl (s : St) : Frame s s := ⟨rfl, Nat.le_refl _, Nat.le_refl _, fun t h => Or.inr ⟨t, h, rfl⟩⟩

theorem Frame.inv {s s' : St} (h : Frame s s') (hi : Inv s) : Inv s' := by
  intro t ht
  rcases h.ids t ht with h1 | ⟨t0, h0, he⟩
  · exact h1
  · have := hi t0 h0
    have := h.next
    omega

theorem Frame.trans {a b c : St} (h : Frame a b) (k : Frame b c) : Frame a c := by
  refine ⟨k.sess.trans h.sess, Nat.le_trans h.cnt k.cnt, Nat.le_trans h.next k.next, ?_⟩
  intro t ht
  rcases k.ids t ht with h1 | ⟨t0, h0, he⟩
  · exact Or.inl h1
  · rcases h.ids t0 h0 with h2 | ⟨t1, h1, he1⟩
    · have := k.next
      exact Or.inl (by omega)
    · exact Or.inr ⟨t1, h1, he1.trans he⟩

theorem frame_clear (s : St) (o : Option Nat) : Frame s (clear s o) := by
  refine ⟨?_, ?_, ?_, fun t h => Or.inr ⟨t, clear_mem h, rfl⟩⟩ <;> cases o <;> first | rfl | exact Nat.le_refl _

theorem frame_new (s : St) (mid : Nat) (ep : Ep) : Frame s (newTx s mid ep).1 := by
  refine ⟨rfl, Nat.le_refl _, Nat.le_succ _, ?_⟩
  intro t ht
  rcases List.mem_append.mp ht with h | h
  · exact Or.inr ⟨t, h, rfl⟩
  · rw [List.mem_singleton.mp h]
    exact Or.inl (Nat.lt_succ_self _)

theorem frame_settle (s : St) (m : Msg) : Frame s (settle s m) := by
  unfold settle
  split
  · exact Frame.refl s
  · split
    · exact frame_clear s _
    · exact Frame.refl s

theorem find_new {s : St} (hi : Inv s) (mid : Nat) (ep : Ep) :
    (newTx s mid ep).1.txs.find? (fun t => t.id == (newTx s mid ep).2) = some ⟨s.nextId, mid, ep⟩ := by
  show (s.txs ++ [(⟨s.nextId, mid, ep⟩ : Tx)]).find? (fun t => t.id == s.nextId) = _
  rw [List.find?_append]
  have : s.txs.find? (fun t => t.id == s.nextId) = none := by
    rw [List.find?_eq_none]
    intro t ht hx
    have := hi t ht
    have := eq_of_beq hx
    omega
  rw [this]
  simp

/-- The transaction of the context exists and is for the sender of the message. -/
def Own (w : W) (m : Msg) : Prop :=
  ∃ i t, w.tid = some i ∧ w.st.txs.find? (fun x => x.id == i) = some t ∧ t.ep = m.ep

theorem send_own {s : St} (m : Msg) (e : Env) (clr : Bool) {i : Nat} {t : Tx} (p : Pkt)
    (hf : s.txs.find? (fun x => x.id == i) = some t) :
    ∃ s', sendResponse s m e clr (some i) p
        = .ok (s', if clr || !e.ser || !e.running then []
            else ahead s t.ep e ++ [⟨t.ep, withToken m e p⟩])
      ∧ Frame s s' ∧ s'.cnt = s.cnt ∧ s'.ctx = s.ctx ∧ s'.hist = s.hist
      ∧ (∀ x ∈ s'.txs, x ∈ s.txs) := by
  have hany : (s.txs.any fun t => t.id == i) = true := by
    rw [List.any_eq_true]
    exact ⟨t, List.mem_of_find?_eq_some hf, by have := List.find?_some hf; exact this⟩
  unfold sendResponse
  cases clr
  · simp only [Bool.false_eq_true, if_false, hf, Bool.false_or]
    cases e.ser
    · simp only [Bool.false_eq_true, if_false, Bool.not_false, Bool.true_or, if_true]
      exact ⟨_, rfl, frame_clear _ _, rfl, rfl, rfl, fun x hx => clear_mem hx⟩
    · simp only [if_true, Bool.not_true, Bool.false_or]
      unfold sendTx
      cases e.running
      · simp only [Bool.not_false, if_true]
        exact ⟨s, rfl, Frame.refl s, rfl, rfl, rfl, fun x hx => hx⟩
      · simp only [Bool.not_true, Bool.false_eq_true, if_false, post_eq]
        split
        · exact ⟨s, rfl, Frame.refl s, rfl, rfl, rfl, fun x hx => hx⟩
        · exact ⟨_, rfl, frame_clear _ _, rfl, rfl, rfl, fun x hx => clear_mem hx⟩
  · simp only [if_true, hany, Bool.true_or]
    exact ⟨_, rfl, frame_clear _ _, rfl, rfl, rfl, fun x hx => clear_mem hx⟩

theorem result_own {w : W} {r : Ret} {m : Msg} (e : Env) (hr : r ≠ .dup) (ho : Own w m) :
    ∃ s', result w r m e
        = .ok ⟨s', w.outs ++ (if w.clr || !e.ser || !e.running then []
            else ahead w.st m.ep e ++ [⟨m.ep, withToken m e (final w r m)⟩]), w.ran, false⟩
      ∧ Frame w.st s' ∧ s'.cnt = w.st.cnt ∧ s'.ctx = some w.tid ∧ s'.hist = w.st.hist
      ∧ (∀ x ∈ s'.txs, x ∈ w.st.txs) := by
  obtain ⟨i, t, ht, hf, hep⟩ := ho
  have key := send_own (s := { w.st with ctx := some w.tid }) m e w.clr (final w r m) hf
  obtain ⟨s', h1, h2, h3, h4, h5, h6⟩ := key
  have hd : (r == Ret.dup) = false := by cases r <;> first | rfl | exact absurd rfl hr
  refine ⟨s', ?_, ⟨h2.sess, h2.cnt, h2.next, h2.ids⟩, h3, h4, h5, h6⟩
  have hahead : ahead { w.st with ctx := some w.tid } m.ep e = ahead w.st m.ep e := ahead_sess rfl _ _
  rw [hep, hahead] at h1
  unfold result
  rw [if_neg (by rw [hd]; simp)]
  rw [ht] at h1 ⊢
  rw [h1]

theorem result_dup (w : W) (m : Msg) (e : Env) :
    result w .dup m e = .ok ⟨{ w.st with ctx := some w.tid }, w.outs, w.ran, false⟩ := rfl

theorem result_none {w : W} (r : Ret) (m : Msg) (e : Env) (ht : w.tid = none) :
    result w r m e = .ok ⟨{ w.st with ctx := some none }, w.outs, w.ran, false⟩ := by
  unfold result
  split
  · rw [ht]
  · rw [ht]
    unfold sendResponse
    cases w.clr <;> simp

/-- The acknowledgement that goes ahead of a separate response. -/
def ackFirst (m : Msg) (e : Env) : List Sent := if m.typ = 0 ∧ e.msgAlloc = true then [emptyAck m] else []

theorem separate_outs {w : W} {m : Msg} {e : Env} (c : Nat) (hu : m.ep.tcp = false) :
    (separate w m e c).outs = w.outs ++ ackFirst m e := by
  unfold separate ackFirst
  dsimp only
  rw [empty_udp hu]
  by_cases h : m.typ = 0
  · cases e.msgAlloc <;> simp [h, emptyAck]
  · simp [h]

/-- Where the code of a response comes from. -/
def Source (w : W) (e : Env) (c : Nat) : Prop :=
  c = w.resp.code ∨ c = 95 ∨ c = 69 ∨ c = e.ans.1 ∨ (∃ b, e.hdr = some (c, b)) ∨ e.buf = .last c

/-- The two ways in which a request is served, seen from the context after. -/
inductive Kind (w : W) (m : Msg) (e : Env) (w' : W) : Prop where
  | same (hs : w'.st = w.st) (ho : w'.outs = w.outs) (c : Nat) (hc : Source w e c)
      (hp : w'.resp = { w.resp with code := c })
  | sep (c0 c : Nat) (hc : Source w e c) (hs : w'.st = (separate w m e c0).st)
      (ho : w'.outs = (separate w m e c0).outs)
      (hp : w'.resp = { (separate w m e c0).resp with code := c })

theorem payload_cases (w : W) (m : Msg) (e : Env) :
    ((payload w m e).2 = .dup ∧ m.b1 = none ∧ m.b2.isSome = true ∧ e.buf = .dup
        ∧ (payload w m e).1 = { w with st := clear w.st w.tid })
    ∨ ((payload w m e).2 ≠ .dup ∧ (payload w m e).2 ≠ .reset ∧ Kind w m e (payload w m e).1
        ∧ (payload w m e).1.tid = w.tid ∧ (payload w m e).1.ran = w.ran
        ∧ ((payload w m e).1.clr = w.clr ∨ ((payload w m e).1.clr = true ∧ e.again = true))
        ∧ ((payload w m e).2 = .error → (payload w m e).1.outs = w.outs)) := by
  unfold payload
  cases h1 : m.b1 with
  | some more =>
    right
    dsimp only
    split
    · unfold block1
      split
      · exact ⟨by simp, by simp, .same rfl rfl w.resp.code (Or.inl rfl) rfl, rfl, rfl, Or.inl rfl, fun _ => rfl⟩
      · split
        · exact ⟨by simp, by simp, .same rfl rfl 95 (Or.inr (Or.inl rfl)) rfl, rfl, rfl, Or.inl rfl, fun _ => rfl⟩
        · exact ⟨by simp, by simp, .sep 69 69 (Or.inr (Or.inr (Or.inl rfl))) rfl rfl rfl, rfl, rfl, Or.inl rfl, fun h => absurd h (by simp)⟩
    · exact ⟨by simp, by simp, .same rfl rfl w.resp.code (Or.inl rfl) rfl, rfl, rfl, Or.inl rfl, fun _ => rfl⟩
  | none =>
    cases h2 : m.b2 with
    | some num =>
      dsimp only
      unfold block2
      split
      · right; exact ⟨by simp, by simp, .same rfl rfl w.resp.code (Or.inl rfl) rfl, rfl, rfl, Or.inl rfl, fun _ => rfl⟩
      · cases hb : e.buf with
        | dup => left; exact ⟨rfl, rfl, rfl, rfl, rfl⟩
        | fail => right; exact ⟨by simp, by simp, .same rfl rfl w.resp.code (Or.inl rfl) rfl, rfl, rfl, Or.inl rfl, fun _ => rfl⟩
        | more => right; exact ⟨by simp, by simp, .same rfl rfl w.resp.code (Or.inl rfl) rfl, rfl, rfl, Or.inl rfl, fun _ => rfl⟩
        | last code => right; exact ⟨by simp, by simp, .sep code code (Or.inr (Or.inr (Or.inr (Or.inr (Or.inr hb))))) rfl rfl rfl, rfl, rfl, Or.inl rfl, fun h => absurd h (by simp)⟩
        | none =>
          right
          dsimp only
          split
          · exact ⟨by simp, by simp, .same rfl rfl w.resp.code (Or.inl rfl) rfl, rfl, rfl, Or.inl rfl, fun _ => rfl⟩
          · exact ⟨by simp, by simp, .same rfl rfl w.resp.code (Or.inl rfl) rfl, rfl, rfl, Or.inl rfl, fun _ => rfl⟩
    | none =>
      right
      dsimp only
      unfold plain
      split
      · exact ⟨by simp, by simp, .same rfl rfl w.resp.code (Or.inl rfl) rfl, rfl, rfl, Or.inl rfl, fun _ => rfl⟩
      split
      · exact ⟨by simp, by simp, .same rfl rfl w.resp.code (Or.inl rfl) rfl, rfl, rfl, Or.inl rfl, fun _ => rfl⟩
      split
      · exact ⟨by simp, by simp, .same rfl rfl w.resp.code (Or.inl rfl) rfl, rfl, rfl, Or.inl rfl, fun _ => rfl⟩
      split
      · exact ⟨by simp, by simp, .same rfl rfl w.resp.code (Or.inl rfl) rfl, rfl, rfl, Or.inl rfl, fun _ => rfl⟩
      split
      · rename_i h
        exact ⟨by simp, by simp, .same rfl rfl w.resp.code (Or.inl rfl) rfl, rfl, rfl, Or.inr ⟨rfl, by
          cases ha : e.again
          · rw [ha] at h; cases h
          · rfl⟩, fun _ => rfl⟩
      · exact ⟨by simp, by simp, .same rfl rfl w.resp.code (Or.inl rfl) rfl, rfl, rfl, Or.inl rfl, fun _ => rfl⟩

theorem Kind.code {w : W} {m : Msg} {e : Env} {w' : W} (h : Kind w m e w') {c : Nat}
    (hc : Source w e c) (b r : Bool) :
    Kind w m e { w' with resp := { w'.resp with code := c }, clr := b, ran := r } := by
  cases h with
  | same hs ho c0 _ hp => exact .same hs ho c hc (by rw [hp])
  | sep c0 c1 _ hs ho hp => exact .sep c0 c hc hs ho (by rw [hp])

/-- What `serve` may do. -/
theorem serve_cases (w : W) (m : Msg) (e : Env) (hc : w.clr = false) :
    ((serve w m e).2 = .dup ∧ m.b1 = none ∧ m.b2.isSome = true ∧ e.buf = .dup
        ∧ (serve w m e).1.outs = w.outs ∧ (serve w m e).1.st = clear w.st w.tid
        ∧ (serve w m e).1.tid = w.tid)
    ∨ ((serve w m e).2 ≠ .dup ∧ Kind w m e (serve w m e).1 ∧ (serve w m e).1.tid = w.tid
        ∧ ((serve w m e).1.clr = true → e.again = true ∨ e.ans.2 = true ∨ ∃ c, e.hdr = some (c, true))
        ∧ ((serve w m e).2 = .reset → e.ans.1 = 0)
        ∧ ((serve w m e).2 = .error → (serve w m e).1.outs = w.outs)) := by
  have core : ∀ w : W, ((handled (payload w m e) e).2 = .dup
        ∧ m.b1 = none ∧ m.b2.isSome = true ∧ e.buf = .dup
        ∧ (handled (payload w m e) e).1
          = { w with st := clear w.st w.tid })
      ∨ ((handled (payload w m e) e).2 ≠ .dup
        ∧ Kind w m e (handled (payload w m e) e).1
        ∧ (handled (payload w m e) e).1.tid = w.tid
        ∧ ((handled (payload w m e) e).1.clr = true
            → e.again = true ∨ e.ans.2 = true ∨ w.clr = true)
        ∧ ((handled (payload w m e) e).2 = .reset
            → e.ans.1 = 0)
        ∧ ((handled (payload w m e) e).2 = .error → (handled (payload w m e) e).1.outs = w.outs)) := by
    intro w
    rcases payload_cases w m e with ⟨h1, h2, h3, h4, h5⟩ | ⟨h1, h0, h2, h3, _, h4, h8⟩
    · left
      unfold handled
      rw [h1]
      exact ⟨rfl, h2, h3, h4, h5⟩
    · right
      unfold handled
      have hclr : (payload w m e).1.clr = true → e.again = true ∨ w.clr = true := by
        intro h
        rcases h4 with h5 | ⟨_, h5⟩
        · exact Or.inr (h5 ▸ h)
        · exact Or.inl h5
      cases hp : (payload w m e).2 with
      | dup => exact absurd hp h1
      | reset => exact absurd hp h0
      | success => exact ⟨by simp, h2, h3, fun h => (hclr h).elim Or.inl (fun k => Or.inr (Or.inr k)), by simp, fun h => absurd h (by simp)⟩
      | error => exact ⟨by simp, h2, h3, fun h => (hclr h).elim Or.inl (fun k => Or.inr (Or.inr k)), by simp, fun _ => h8 hp⟩
      | handle =>
        dsimp only
        unfold handler
        dsimp only
        split
        · refine ⟨by simp, h2.code (Or.inr (Or.inr (Or.inr (Or.inl rfl)))) _ _, h3, ?_, by simp, fun h => absurd h (by simp)⟩
          intro h
          rcases Bool.or_eq_true_iff.mp h with h | h
          · exact (hclr h).elim Or.inl (fun k => Or.inr (Or.inr k))
          · exact Or.inr (Or.inl h)
        · rename_i h9
          refine ⟨by simp, h2.code (Or.inr (Or.inr (Or.inr (Or.inl rfl)))) _ _, h3, ?_, fun _ => by omega, fun h => absurd h (by simp)⟩
          intro h
          rcases Bool.or_eq_true_iff.mp h with h | h
          · exact (hclr h).elim Or.inl (fun k => Or.inr (Or.inr k))
          · exact Or.inr (Or.inl h)
  unfold serve
  cases hh : e.hdr with
  | none =>
    dsimp only
    rcases core w with ⟨h1, h2, h3, h4, h5⟩ | ⟨h1, h2, h3, h4, h5, h6⟩
    · left
      exact ⟨h1, h2, h3, h4, by rw [h5], by rw [h5], by rw [h5]⟩
    · right
      refine ⟨h1, h2, h3, ?_, h5, h6⟩
      intro h
      rcases h4 h with k | k | k
      · exact Or.inl k
      · exact Or.inr (Or.inl k)
      · rw [hc] at k; cases k
  | some x =>
    obtain ⟨code, clr⟩ := x
    dsimp only
    split
    · right
      refine ⟨by simp, .same rfl rfl code (Or.inr (Or.inr (Or.inr (Or.inr (Or.inl ⟨clr, hh⟩))))) rfl, rfl, ?_, by simp, fun h => absurd h (by simp)⟩
      intro h
      dsimp only at h
      exact Or.inr (Or.inr ⟨code, by rw [h]⟩)
    · rcases core { w with clr := clr } with ⟨h1, h2, h3, h4, h5⟩ | ⟨h1, h2, h3, h4, h5, h6⟩
      · left
        exact ⟨h1, h2, h3, h4, by rw [h5], by rw [h5], by rw [h5]⟩
      · right
        refine ⟨h1, ?_, h3, ?_, h5, h6⟩
        · cases h2 with
          | same hs ho c hc hp => exact .same hs ho c hc hp
          | sep c0 c hc hs ho hp => exact .sep c0 c hc hs ho hp
        · intro h
          rcases h4 h with k | k | k
          · exact Or.inl k
          · exact Or.inr (Or.inl k)
          · dsimp only at k
            exact Or.inr (Or.inr ⟨code, by rw [k]⟩)

theorem find_map_mid {l : List Tx} {i mid : Nat} {o : Option Nat} {t : Tx}
    (h : l.find? (fun x => x.id == i) = some t) :
    ∃ t', (l.map fun t => if some t.id == o then { t with mid := mid } else t).find? (fun x => x.id == i) = some t'
      ∧ t'.ep = t.ep := by
  induction l with
  | nil => cases h
  | cons a l ih =>
    rw [List.map_cons]
    have hid : (if some a.id == o then { a with mid := mid } else a).id = a.id := by split <;> rfl
    have hep : (if some a.id == o then { a with mid := mid } else a).ep = a.ep := by split <;> rfl
    cases ha : (a.id == i)
    · rw [List.find?_cons_of_neg (by rw [ha]; simp)] at h
      rw [List.find?_cons_of_neg (by rw [hid, ha]; simp)]
      exact ih h
    · rw [List.find?_cons_of_pos (p := fun x : Tx => x.id == i) ha] at h
      rw [List.find?_cons_of_pos (p := fun x : Tx => x.id == i) (by rw [hid]; exact ha)]
      injection h with h
      subst h
      exact ⟨_, rfl, hep⟩

theorem Kind.own {w : W} {m : Msg} {e : Env} {w' : W} (h : Kind w m e w') (ht : w'.tid = w.tid) (ho : Own w m) :
    Own w' m := by
  obtain ⟨i, t, h1, h2, h3⟩ := ho
  cases h with
  | same hs _ _ _ _ => exact ⟨i, t, ht.trans h1, by rw [hs]; exact h2, h3⟩
  | sep c0 c _ hs _ _ =>
    obtain ⟨t', h4, h5⟩ := find_map_mid (mid := wire (w.st.cnt + 1)) (o := w.tid) h2
    exact ⟨i, t', ht.trans h1, by rw [hs]; exact h4, h5.trans h3⟩

theorem frame_separate (w : W) (m : Msg) (e : Env) (c : Nat) : Frame w.st (separate w m e c).st := by
  refine ⟨rfl, Nat.le_succ _, Nat.le_refl _, ?_⟩
  intro t ht
  obtain ⟨t0, h0, he⟩ := List.mem_map.mp ht
  refine Or.inr ⟨t0, h0, ?_⟩
  rw [← he]
  split <;> rfl

theorem Kind.frame {w : W} {m : Msg} {e : Env} {w' : W} (h : Kind w m e w') : Frame w.st w'.st := by
  cases h with
  | same hs _ _ _ _ => rw [hs]; exact Frame.refl _
  | sep c0 c _ hs _ _ => rw [hs]; exact frame_separate w m e c0

theorem parsed_udp {m : Msg} (h : m.ep.tcp = false) : parsed m = m := by
  unfold parsed; rw [h]; rfl

theorem parsed_ep (m : Msg) : (parsed m).ep = m.ep := by unfold parsed; split <;> rfl
theorem parsed_code (m : Msg) : (parsed m).code = m.code := by unfold parsed; split <;> rfl
theorem parsed_token (m : Msg) : (parsed m).token = m.token := by unfold parsed; split <;> rfl
theorem parsed_b1 (m : Msg) : (parsed m).b1 = m.b1 := by unfold parsed; split <;> rfl
theorem parsed_b2 (m : Msg) : (parsed m).b2 = m.b2 := by unfold parsed; split <;> rfl

theorem main_ordinary {s : St} {m : Msg} {e : Env} (ho : Ordinary m) :
    main s m e = result (receive s m e).1 (receive s m e).2 m e := by
  unfold main
  cases ht : m.ep.tcp
  · simp
  · obtain ⟨h1, h2⟩ := ho ht
    rw [h1, h2]
    simp

theorem ordinary_parsed {m : Msg} (h : Ordinary m) : Ordinary (parsed m) := by
  intro ht
  rw [parsed_ep] at ht
  rw [parsed_b1, parsed_b2]
  exact h ht

theorem inbound_request {s : St} {m : Msg} {e : Env} (he : e.err = none) (ho : Ordinary m)
    (h1 : 1 ≤ m.code) (h4 : m.code ≤ 4) :
    inbound s m e = result (withMethod (settle s (parsed m)) (parsed m) e).1
      (withMethod (settle s (parsed m)) (parsed m) e).2 (parsed m) e := by
  unfold inbound
  rw [he]
  dsimp only
  have hs : isSignal (parsed m).code = false := by
    rw [parsed_code]; unfold isSignal; simp; omega
  rw [hs, main_ordinary (ordinary_parsed ho)]
  have hr : isRequest (parsed m).code = true := by
    rw [parsed_code]; unfold isRequest; simp; omega
  unfold receive
  rw [hr]
  rfl

theorem inbound_code {s : St} {m : Msg} {e : Env} (he : e.err = none) (ho : Ordinary m)
    (h1 : m.code = 0 ∨ 4 < m.code) (hs : isSignal m.code = true → m.code = 227) :
    inbound s m e = result (withCode (settle s (parsed m)) (parsed m) e).1
      (withCode (settle s (parsed m)) (parsed m) e).2 (parsed m) e := by
  have hr : isRequest (parsed m).code = false := by
    rw [parsed_code]; unfold isRequest; simp; omega
  have hm : main (settle s (parsed m)) (parsed m) e = result (withCode (settle s (parsed m)) (parsed m) e).1
      (withCode (settle s (parsed m)) (parsed m) e).2 (parsed m) e := by
    rw [main_ordinary (ordinary_parsed ho)]
    unfold receive
    rw [hr]
    rfl
  unfold inbound
  rw [he]
  dsimp only
  split
  · rename_i h
    rw [parsed_code] at h
    have : signal (settle s (parsed m)) (parsed m) e = none := by
      unfold signal
      rw [parsed_code, hs h]
      rfl
    rw [this]
    exact hm
  · exact hm

/-- What happens to a request that has got a transaction. -/
theorem served {s s1 : St} {m : Msg} {e : Env} {p : Pkt} (hi : Inv s1)
    (hr : initResponse s m = some (s1, p)) (ht : e.txAlloc = true) :
    (∃ st, result (withMethod s m e).1 (withMethod s m e).2 m e = .ok ⟨st, [], (withMethod s m e).1.ran, false⟩
        ∧ m.b1 = none ∧ m.b2.isSome = true ∧ e.buf = .dup ∧ Frame s1 st ∧ st.cnt = s1.cnt
        ∧ ∃ i, st.ctx = some (some i) ∧ i < st.nextId)
    ∨ ∃ w' r' st, withMethod s m e = (w', r') ∧ r' ≠ .dup
        ∧ Kind ⟨(newTx s1 p.mid m.ep).1, [], p, some (newTx s1 p.mid m.ep).2, false, false⟩ m e w'
        ∧ (w'.clr = true → e.again = true ∨ e.ans.2 = true ∨ ∃ c, e.hdr = some (c, true))
        ∧ (r' = .reset → e.ans.1 = 0) ∧ (r' = .error → w'.outs = [])
        ∧ result w' r' m e = .ok ⟨st, w'.outs ++ (if w'.clr || !e.ser || !e.running then []
            else ahead s1 m.ep e ++ [⟨m.ep, withToken m e (final w' r' m)⟩]), w'.ran, false⟩
        ∧ Frame s1 st ∧ st.cnt = w'.st.cnt
        ∧ ∃ i, st.ctx = some (some i) ∧ i < st.nextId := by
  have hw : withMethod s m e
      = serve ⟨(newTx s1 p.mid m.ep).1, [], p, some (newTx s1 p.mid m.ep).2, false, false⟩ m e := by
    unfold withMethod
    rw [hr]
    dsimp only
    rw [if_pos ht]
  have hown : Own ⟨(newTx s1 p.mid m.ep).1, [], p, some (newTx s1 p.mid m.ep).2, false, false⟩ m :=
    ⟨_, _, rfl, find_new hi p.mid m.ep, rfl⟩
  have hsc := serve_cases ⟨(newTx s1 p.mid m.ep).1, [], p, some (newTx s1 p.mid m.ep).2, false, false⟩ m e rfl
  generalize serve ⟨(newTx s1 p.mid m.ep).1, [], p, some (newTx s1 p.mid m.ep).2, false, false⟩ m e = x at hw hsc
  obtain ⟨w', r'⟩ := x
  dsimp only at hsc
  rcases hsc with ⟨h1, h2, h3, h4, h5, h6, h7⟩ | ⟨h1, h2, h3, h4, h5, h8⟩
  · left
    rw [hw]
    dsimp only
    rw [h1, result_dup]
    refine ⟨{ w'.st with ctx := some w'.tid }, by rw [h5], h2, h3, h4, ?_, ?_, s1.nextId, ?_, ?_⟩
    · rw [h6]
      have a := (frame_new s1 p.mid m.ep).trans (frame_clear (newTx s1 p.mid m.ep).1 (some (newTx s1 p.mid m.ep).2))
      exact ⟨a.sess, a.cnt, a.next, a.ids⟩
    · rw [h6]; rfl
    · rw [h7]; rfl
    · rw [h6]
      exact Nat.lt_succ_self _
  · right
    obtain ⟨st, k1, k2, k3, k4, _, k5⟩ := result_own (r := r') e h1 (h2.own h3 hown)
    have hf : Frame s1 w'.st := (frame_new s1 p.mid m.ep).trans h2.frame
    rw [ahead_sess hf.sess] at k1
    refine ⟨w', r', st, hw, h1, h2, h4, h5, h8, k1, hf.trans k2, k3, s1.nextId, by rw [k4, h3]; rfl, ?_⟩
    have := k2.next
    have h9 : (newTx s1 p.mid m.ep).1.nextId ≤ w'.st.nextId := h2.frame.next
    have h10 : (newTx s1 p.mid m.ep).1.nextId = s1.nextId + 1 := rfl
    omega

theorem init_frame {s s1 : St} {m : Msg} {p : Pkt} (h : initResponse s m = some (s1, p)) : Frame s s1 := by
  unfold initResponse at h
  split at h
  · injection h with h
    injection h with h1 h2
    rw [← h1]; exact Frame.refl s
  split at h
  · injection h with h
    injection h with h1 h2
    rw [← h1]; exact Frame.refl s
  dsimp only at h
  split at h
  · injection h with h
    injection h with h1 h2
    rw [← h1]
    exact ⟨rfl, Nat.le_succ _, Nat.le_refl _, fun t ht => Or.inr ⟨t, ht, rfl⟩⟩
  · cases h

theorem init_udp {s s1 : St} {m : Msg} {p : Pkt} (h : initResponse s m = some (s1, p)) (hu : m.ep.tcp = false) :
    (m.typ = 0 ∧ s1 = s ∧ p = udpPkt 2 69 m.mid)
    ∨ (m.typ ≠ 0 ∧ s1.cnt = s.cnt + 1 ∧ ∃ t, t ≤ 1 ∧ p = udpPkt t 69 (wire (s.cnt + 1))) := by
  unfold initResponse at h
  rw [hu] at h
  simp only [Bool.false_eq_true, if_false] at h
  split at h
  · rename_i h0
    injection h with h
    injection h with h1 h2
    exact Or.inl ⟨eq_of_beq h0, h1.symm, h2.symm⟩
  · rename_i h0
    split at h
    · injection h with h
      injection h with h1 h2
      refine Or.inr ⟨by simpa using h0, by rw [← h1], if m.res then 0 else 1, by split <;> omega, h2.symm⟩
    · cases h

end Verif.Engine
