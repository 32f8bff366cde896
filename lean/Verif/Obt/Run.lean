import Verif.Obt.Steps
/-!
Histories of the onboarding tool keep the invariant.
-/
namespace Verif.Obt

theorem code_ne {p : Pend} {k : Kind} {d : Dev} {r : Resp} (h : r.code ≠ requestTimeout) : codeOf p k d r ≠ requestTimeout := by
  unfold codeOf
  simp only [requestTimeout, unauthorized, connectionClosed] at *
  split
  · omega
  · split <;> omega

theorem dev_applied {p : Pend} {k : Kind} {d : Dev} {r : Resp} (h : codeOf p k d r < badRequest) :
    devOf p k d r = p.req.apply r.sess d := by
  unfold devOf; rw [if_pos (.inl h)]

theorem dev_either (p : Pend) (k : Kind) (d : Dev) (r : Resp) :
    devOf p k d r = p.req.apply r.sess d ∨ devOf p k d r = d := by
  unfold devOf; split
  · exact .inl rfl
  · exact .inr rfl

theorem code_sel {p : Pend} {k : Kind} {d : Dev} {r : Resp} (h : codeOf p k d r < badRequest) (hr : p.req = .om4) :
    d.sel = k.oxm := by
  unfold codeOf at h
  simp only [badRequest, unauthorized, connectionClosed] at h
  by_cases hs : d.sel = k.oxm
  · exact hs
  · split at h
    · omega
    · rw [if_pos ⟨hr, hs⟩] at h; omega

theorem pend_eq {l : List Pend} (hn : (l.map (·.ctx)).Nodup) {p q : Pend} (hp : p ∈ l) (hq : q ∈ l) (he : p.ctx = q.ctx) : p = q := by
  induction l with
  | nil => cases hp
  | cons a l ih =>
    simp only [List.map_cons, List.nodup_cons, List.mem_map, not_exists, not_and] at hn
    rcases List.mem_cons.1 hp with e | hp <;> rcases List.mem_cons.1 hq with e' | hq
    · rw [e, e']
    · rw [e] at he; exact absurd he.symm (hn.1 _ hq)
    · rw [e'] at he; exact absurd he (hn.1 _ hp)
    · exact ih hn.2 hp hq

/-- What is known when an answer is handled. -/
structure Answer (s : St) (i : Nat) (p : Pend) (c : Ctx) (h h2 : Handle) : Prop where
  pm : p ∈ s.pend
  pc : p.ctx = i
  cm : c ∈ s.ctxs
  ci : c.id = i
  base : Base s c h h2
  addr : p.addr = if p.req.second then h2.addr else h.addr
  facts : Facts s.me s.domain c.kind c.sdi (s.net h.addr) (s.net h2.addr) h.uuid h2.uuid (own h.uuid s.creds) p.req

theorem answer_of {s : St} (hI : Inv none s) {p : Pend} (hp : p ∈ s.pend) :
    ∃ c h h2, Answer s p.ctx p c h h2 ∧ s.ctxs.find? (·.id == p.ctx) = some c := by
  obtain ⟨_, c, hc, hce⟩ := hI.pendOk p hp
  obtain ⟨q, hq, hqc, h, h2, hb, ha, hf⟩ := hI.ctxPend c hc (by simp)
  have := pend_eq hI.pendNodup hq hp (by rw [hqc, hce]); subst this
  refine ⟨c, h, h2, ⟨hp, rfl, hc, hce, hb, ha, hf⟩, ?_⟩
  cases hfd : s.ctxs.find? (·.id == q.ctx) with
  | none =>
    rw [List.find?_eq_none] at hfd
    exact absurd (by simpa using hce) (hfd c hc)
  | some c' =>
    have h1 := List.mem_of_find?_eq_some hfd
    have h2 := List.find?_some hfd
    simp only [beq_iff_eq] at h2
    rw [ctx_eq hI.ctxNodup h1 hc (by rw [h2, hce])]

/-- The state in which an answer is handled. -/
def answered (s : St) (p : Pend) (c : Ctx) (r : Resp) : St :=
  { s with pend := s.pend.filter (·.ctx != p.ctx), net := fun a => if a = p.addr then devOf p c.kind (s.net p.addr) r else s.net a }

theorem respond_eq {s : St} (react : St → Id → Out St) {i : Nat} {p : Pend} {c : Ctx} {h h2 : Handle} (r : Resp) (hA : Answer s p.ctx p c h h2)
    (hfp : s.pend.find? (·.ctx == i) = some p) (hfc : s.ctxs.find? (·.id == p.ctx) = some c) :
    respond react s i r = handler react (answered s p c r) c h p.req (codeOf p c.kind (s.net p.addr) r) r := by
  have hi : p.ctx = i := by have := List.find?_some hfp; simpa using this
  unfold respond
  rw [hfp]
  dsimp only
  subst hi
  rw [hfc]
  dsimp only
  have : (answered s p c r).handle c.h = some h := hA.base.h1
  unfold answered at this ⊢
  rw [this]

theorem answered_inv {s : St} (hI : Inv none s) {p : Pend} {c : Ctx} {h h2 : Handle} (r : Resp) (hA : Answer s p.ctx p c h h2) :
    Inv (some c.id) (answered s p c r) := by
  have h1 := inv_answered hI p.ctx
  have h2' := inv_net h1 p.addr (devOf p c.kind (s.net p.addr) r) (by
    intro c' hc' hne x hx
    have hne' : c'.id ≠ c.id := by rw [hA.ci]; simpa using hne
    rw [hA.addr]
    split
    · exact (hI.excl c' hc' c hA.cm hne' x h2 hx (.inr hA.base.h2')).1
    · exact (hI.excl c' hc' c hA.cm hne' x h hx (.inl hA.base.h1)).1)
  rw [hA.ci]
  exact h2'

theorem handled_inv {s : St} (hI : Inv none s) {p : Pend} {c : Ctx} {h h2 : Handle} (r : Resp) (hA : Answer s p.ctx p c h h2)
    (h23 : r.code ≠ requestTimeout) (hfr : ∀ c ∈ s.creds, c.subj ≠ r.fresh) (hfh : ∀ i x, s.handle i = some x → x.uuid ≠ r.fresh) :
    ∃ s', handler quiet (answered s p c r) c h p.req (codeOf p c.kind (s.net p.addr) r) r = .ok s' ∧ Inv none s' := by
  have hI' := answered_inv hI r hA
  have hb' : Base (answered s p c r) c h h2 := ⟨hA.base.h1, hA.base.h2', hA.base.same, hA.base.diff⟩
  have hnet : ∀ a, (answered s p c r).net a = if a = p.addr then devOf p c.kind (s.net p.addr) r else s.net a := fun _ => rfl
  by_cases hk : ∃ m, c.kind = .otm m
  · obtain ⟨m, hk⟩ := hk
    have hs2 := base_same hA.base (by rw [hk]; simp)
    subst hs2
    have hF := hA.facts
    rw [hk] at hF
    obtain ⟨hp, hO⟩ := hF
    have haddr : p.addr = h2.addr := by rw [hA.addr]; split <;> rfl
    refine handler_otm hI' hA.cm hb' hk (s.net h2.addr) p.req _ r hp hO ?_ ?_ ?_ hfr hfh
    · intro hcode
      rw [hnet, if_pos haddr.symm, dev_applied hcode, haddr]
    · rw [hnet, if_pos haddr.symm, haddr]
      exact dev_either _ _ _ _
    · intro hcode hom
      have := code_sel hcode hom
      rw [haddr, hk] at this
      exact this
  · refine handler_other hI' hA.cm hb' (fun m g => hk ⟨m, g⟩) (s.net h.addr) (s.net h2.addr) p.req _ r hA.facts (code_ne h23) ?_ ?_
    · intro hcode hsec
      have haddr : p.addr = h.addr := by rw [hA.addr, hsec]; rfl
      refine ⟨by rw [hnet, if_pos haddr.symm, dev_applied hcode, haddr], ?_⟩
      intro hp
      rw [hnet, if_neg]
      rw [haddr]; exact fun e => hA.base.diff hp e.symm
    · intro hcode hsec
      have haddr : p.addr = h2.addr := by rw [hA.addr, hsec]; rfl
      refine ⟨by rw [hnet, if_pos haddr.symm, dev_applied hcode, haddr], ?_⟩
      have hp : c.kind = .pair := by
        have hF := hA.facts
        cases hkk : c.kind with
        | pair => rfl
        | otm m => exact absurd ⟨m, hkk⟩ hk
        | pin => rw [hkk] at hF; rcases hF with e | e <;> (rw [e] at hsec; cases hsec)
        | reset => rw [hkk] at hF; have e : p.req = .toReset := hF; rw [e] at hsec; cases hsec
        | ace n => rw [hkk] at hF; rcases hF with e | e | ⟨e, _⟩ <;> (rw [e] at hsec; cases hsec)
      rw [hnet, if_neg]
      rw [haddr]; exact hA.base.diff hp

theorem respond_inv {s : St} (hI : Inv none s) (i : Nat) (r : Resp)
    (h23 : r.code ≠ requestTimeout) (hfr : ∀ c ∈ s.creds, c.subj ≠ r.fresh) (hfh : ∀ i x, s.handle i = some x → x.uuid ≠ r.fresh) :
    ∃ s', respond quiet s i r = .ok s' ∧ Inv none s' := by
  cases hfp : s.pend.find? (·.ctx == i) with
  | none => exact ⟨s, by unfold respond; rw [hfp], hI⟩
  | some p =>
    obtain ⟨c, h, h2, hA, hfc⟩ := answer_of hI (List.mem_of_find?_eq_some hfp)
    rw [respond_eq quiet r hA hfp hfc]
    exact handled_inv hI r hA h23 hfr hfh

theorem lookup_spec {s : St} (u : Id) {l : List Nat} (hl : ∀ i ∈ l, ∃ x, s.handle i = some x) :
    lookup s u l = .ok none ∨ ∃ h, lookup s u l = .ok (some h) ∧ s.handle h.id = some h ∧ h.uuid = u ∧ h.id ∈ l := by
  induction l with
  | nil => exact .inl rfl
  | cons i l ih =>
    obtain ⟨x, hx⟩ := hl i (List.mem_cons_self ..)
    unfold lookup
    rw [hx]
    dsimp only
    by_cases hu : x.uuid = u
    · rw [if_pos hu]
      have hid := handle_id hx
      exact .inr ⟨x, rfl, by rw [hid]; exact hx, hu, by rw [hid]; exact List.mem_cons_self ..⟩
    · rw [if_neg hu]
      rcases ih (fun j hj => hl j (List.mem_cons_of_mem _ hj)) with h | ⟨h, h1, h2, h3, h4⟩
      · exact .inl h
      · exact .inr ⟨h, h1, h2, h3, List.mem_cons_of_mem _ h4⟩

/-- A context starts. -/
theorem inv_begin {s : St} (hI : Inv none s) (k : Kind) (x y : Handle) (hx : s.handle x.id = some x) (hy : s.handle y.id = some y)
    (hfx : FreeFor s x.uuid) (hfy : FreeFor s y.uuid) (hs : k ≠ .pair → y.id = x.id) (hd : k = .pair → x.addr ≠ y.addr) :
    Inv (some s.next) { s with next := s.next + 1, ctxs := s.ctxs ++ [⟨s.next, k, x.id, y.id, false⟩] } := by
  have hold : ∀ c ∈ s.ctxs, ∀ z, OfC s c z → (z.addr ≠ x.addr ∧ z.uuid ≠ x.uuid) ∧ (z.addr ≠ y.addr ∧ z.uuid ≠ y.uuid) := by
    intro c hc z hz
    have hbz : BusyAt s z.addr := ⟨c, hc, z, hz, rfl⟩
    refine ⟨⟨fun e => (hfx _ _ hx rfl).1 (by rw [← e]; exact hbz), ?_⟩, ⟨fun e => (hfy _ _ hy rfl).1 (by rw [← e]; exact hbz), ?_⟩⟩
    · intro e
      rcases hz with hz | hz <;> exact (hfx _ _ hz e).1 hbz
    · intro e
      rcases hz with hz | hz <;> exact (hfy _ _ hz e).1 hbz
  have hnew : ∀ z, OfC s ⟨s.next, k, x.id, y.id, false⟩ z → z = x ∨ z = y := by
    intro z hz
    rcases hz with hz | hz
    · left; rw [hx] at hz; cases hz; rfl
    · right; rw [hy] at hz; cases hz; rfl
  have hm : ∀ c, c ∈ s.ctxs ++ [⟨s.next, k, x.id, y.id, false⟩] → c ∈ s.ctxs ∨ c = ⟨s.next, k, x.id, y.id, false⟩ := by
    intro c hc
    rcases List.mem_append.1 hc with h | h
    · exact .inl h
    · exact .inr (List.mem_singleton.1 h)
  constructor
  · intro i z hz; exact Nat.lt_succ_of_lt (hI.idLt i z hz)
  · exact hI.cache
  · exact hI.devs
  · exact hI.eps
  · exact hI.one
  · intro z hz hzo
    obtain ⟨q, hq, hr⟩ := hI.temp z hz hzo
    exact ⟨q, List.mem_append_left _ hq, hr⟩
  · show ((s.ctxs ++ [(⟨s.next, k, x.id, y.id, false⟩ : Ctx)]).map (·.id)).Nodup
    simp only [List.map_append, List.map_cons, List.map_nil]
    rw [List.nodup_append]
    refine ⟨hI.ctxNodup, by simp, ?_⟩
    intro a ha b hb he
    simp only [List.mem_singleton] at hb
    obtain ⟨c, hc, hce⟩ := List.mem_map.1 ha
    have := hI.ctxLt c hc
    omega
  · intro c hc
    rcases hm c hc with h | h
    · exact Nat.lt_succ_of_lt (hI.ctxLt c h)
    · rw [h]; exact Nat.lt_succ_self _
  · intro c hc
    rcases hm c hc with h | h
    · obtain ⟨a, b, hab⟩ := hI.base c h
      exact ⟨a, b, ⟨hab.h1, hab.h2', hab.same, hab.diff⟩⟩
    · subst h
      exact ⟨x, y, hx, hy, hs, hd⟩
  · intro c hc c' hc' hne z z' hz hz'
    rcases hm c hc with h | h <;> rcases hm c' hc' with h' | h'
    · exact hI.excl c h c' h' hne z z' hz hz'
    · subst h'
      rcases hnew z' hz' with e | e <;> subst e
      · exact (hold c h z hz).1
      · exact (hold c h z hz).2
    · subst h
      have : ∀ w : Handle, (z'.addr ≠ w.addr ∧ z'.uuid ≠ w.uuid) → w.addr ≠ z'.addr ∧ w.uuid ≠ z'.uuid :=
        fun w g => ⟨fun e => g.1 e.symm, fun e => g.2 e.symm⟩
      rcases hnew z hz with e | e <;> subst e
      · exact this _ (hold c' h' z' hz').1
      · exact this _ (hold c' h' z' hz').2
    · subst h; subst h'; exact absurd rfl hne
  · intro c hc
    rcases hm c hc with h | h
    · exact hI.notEps c h
    · subst h; exact ⟨(hfx _ _ hx rfl).2, (hfy _ _ hy rfl).2⟩
  · intro p hp
    obtain ⟨_, c, hc, he⟩ := hI.pendOk p hp
    refine ⟨?_, c, List.mem_append_left _ hc, he⟩
    have := hI.ctxLt c hc
    intro e
    have : p.ctx = s.next := by simpa using e
    omega
  · exact hI.pendNodup
  · intro c hc hne
    rcases hm c hc with h | h
    · refine pendOk_frame (hI.ctxPend c h (by simp)) (fun p hp _ => hp) rfl rfl ?_
      intro z _; exact ⟨z, fun g => g, fun g => g, rfl, rfl, rfl, rfl⟩
    · subst h; simp at hne
  · intro e he
    refine ⟨Nat.lt_succ_of_lt (hI.logCtx e he).1, ?_⟩
    intro c hc
    rcases hm c hc with h | h
    · exact (hI.logCtx e he).2 c h
    · subst h
      have := (hI.logCtx e he).1
      show s.next ≠ e.ctx
      omega
  · exact hI.logNodup
  · exact hI.logSpec
  · intro e he
    exact ⟨Nat.lt_succ_of_lt (hI.logGone e he).1, (hI.logGone e he).2⟩

theorem otm_first (me dom : Id) (oxm : Nat) (sdi : Bool) (d : Dev) (u : Id) (o : List Cred) (n : Nat) (h : n ≤ 2) :
    OtmFacts me dom oxm sdi d u o n := by
  constructor <;> intros <;> omega

/-- Calls of the application. -/
theorem start_inv {s : St} (hI : Inv none s) (k : Kind) (u u2 : Id) (sent cred : Bool) (hf : Fair s (.start k u u2 sent cred)) :
    ∃ s' b, start quiet s k u u2 sent cred = .ok (s', b) ∧ Inv none s' := by
  obtain ⟨hcr, hme, hfu, hpair⟩ := hf
  subst hcr
  have single : ∀ h : Handle, s.handle h.id = some h → h.uuid = u → k ≠ .pair →
      Inv (some s.next) { s with next := s.next + 1, ctxs := s.ctxs ++ [⟨s.next, k, h.id, h.id, false⟩] } ∧
      Base { s with next := s.next + 1, ctxs := s.ctxs ++ [⟨s.next, k, h.id, h.id, false⟩] } ⟨s.next, k, h.id, h.id, false⟩ h h := by
    intro h hh hhu hk
    exact ⟨inv_begin hI k h h hh hh (by rw [hhu]; exact hfu) (by rw [hhu]; exact hfu) (fun _ => rfl) (fun e => absurd e hk),
      ⟨hh, hh, fun _ => rfl, fun e => absurd e hk⟩⟩
  have hcm : ∀ h : Handle, (⟨s.next, k, h.id, h.id, false⟩ : Ctx) ∈ s.ctxs ++ [⟨s.next, k, h.id, h.id, false⟩] :=
    fun h => List.mem_append_right _ (List.mem_singleton.2 rfl)
  cases k with
  | otm m =>
    unfold start
    dsimp only
    rcases lookup_spec u hI.cache with hl | ⟨h, hl, hh, hhu, _⟩
    · rw [hl]; exact ⟨s, false, rfl, hI⟩
    · rw [hl]
      simp only [Out.bind]
      obtain ⟨hI1, hb1⟩ := single h hh hhu (by simp)
      -- the credential of a device that was owned is removed
      obtain ⟨hI2, h0⟩ := removed_inv (c := ⟨s.next, .otm m, h.id, h.id, false⟩) hI1 (hcm h) hb1
      have key : ∃ l : List Cred, (if isOwned s u then { s with creds := removeBy u s.creds } else s) = { s with creds := l } ∧
          Inv (some s.next) { s with creds := l, next := s.next + 1, ctxs := s.ctxs ++ [⟨s.next, .otm m, h.id, h.id, false⟩] } ∧
          own u l = [] := by
        by_cases ho : isOwned s u = true
        · refine ⟨removeBy u s.creds, by rw [if_pos ho], ?_, ?_⟩
          · rw [← hhu]; exact hI2
          · rw [← hhu]; exact h0
        · refine ⟨s.creds, by rw [if_neg ho], hI1, ?_⟩
          rw [List.eq_nil_iff_forall_not_mem]
          intro x hx
          obtain ⟨hx, hxu⟩ := mem_own.1 hx
          cases hxo : x.owner with
          | true =>
            apply ho
            unfold isOwned
            rw [List.any_eq_true]
            exact ⟨x, hx, by simp [hxu, hxo]⟩
          | false =>
            obtain ⟨q, hq, _, z, hz, hzu⟩ := hI.temp x hx hxo
            exact (hfu _ z hz (hzu.trans hxu)).1 ⟨q, hq, z, .inl hz, rfl⟩
      obtain ⟨l, hle, hIl, hol⟩ := key
      rw [hle]
      dsimp only
      have hbl : Base { s with creds := l, next := s.next + 1, ctxs := s.ctxs ++ [⟨s.next, .otm m, h.id, h.id, false⟩] } ⟨s.next, .otm m, h.id, h.id, false⟩ h h :=
        ⟨hh, hh, fun _ => rfl, fun e => (by cases e)⟩
      by_cases hm : m = .rdp
      · subst hm
        simp only [if_true, Bool.true_eq_false, if_false]
        cases sent with
        | true =>
          simp only [if_true]
          have hown : own u (l ++ [⟨u, false, none⟩]) = [⟨u, false, none⟩] := by
            have := own_append_self l ⟨u, false, none⟩
            rw [this, hol]; rfl
          have hI3 := inv_creds (c := ⟨s.next, .otm .rdp, h.id, h.id, false⟩) hIl (hcm h) hbl (l ++ [⟨u, false, none⟩])
            (fun v hv => own_append_ne (by rw [hhu] at hv; exact hv) _) (by rw [hhu, hown]; simp) (fun _ _ _ => .inr rfl)
          have hb3 : Base { s with creds := l ++ [⟨u, false, none⟩], next := s.next + 1, ctxs := s.ctxs ++ [⟨s.next, .otm .rdp, h.id, h.id, false⟩] } ⟨s.next, .otm .rdp, h.id, h.id, false⟩ h h :=
            ⟨hh, hh, fun _ => rfl, fun e => (by cases e)⟩
          obtain ⟨s', e1, e2⟩ := send_inv (c := ⟨s.next, .otm .rdp, h.id, h.id, false⟩) hI3 (hcm h) hb3 true .om4
            ⟨trivial, otm_first _ _ _ _ _ _ _ _ (Nat.le_refl 2)⟩
          exact ⟨s', true, by rw [e1], e2⟩
        | false =>
          simp only [Bool.false_eq_true, if_false]
          obtain ⟨s', e1, e2⟩ := fail_inv (c := ⟨s.next, .otm .rdp, h.id, h.id, false⟩) hIl (hcm h) hbl
          exact ⟨s', false, by rw [e1], e2⟩
      · rw [if_neg hm]
        obtain ⟨s', e1, e2⟩ := send_inv (c := ⟨s.next, .otm m, h.id, h.id, false⟩) hIl (hcm h) hbl sent .getDoxm
          ⟨trivial, otm_first _ _ _ _ _ _ _ _ (by simp [Req.stage])⟩
        exact ⟨s', sent, by rw [e1], e2⟩
  | pin =>
    unfold start
    dsimp only
    split
    · exact ⟨s, false, rfl, hI⟩
    · rcases lookup_spec u hI.cache with hl | ⟨h, hl, hh, hhu, _⟩
      · rw [hl]; exact ⟨s, false, rfl, hI⟩
      · rw [hl]
        simp only [Out.bind]
        obtain ⟨hI1, hb1⟩ := single h hh hhu (by simp)
        obtain ⟨s', e1, e2⟩ := send_inv (c := ⟨s.next, .pin, h.id, h.id, false⟩) hI1 (hcm h) hb1 sent .getDoxm (.inl rfl)
        exact ⟨s', sent, by rw [e1], e2⟩
  | reset =>
    unfold start
    dsimp only
    split
    · exact ⟨s, false, rfl, hI⟩
    · rcases lookup_spec u hI.devs with hl | ⟨h, hl, hh, hhu, _⟩
      · rw [hl]; exact ⟨s, false, rfl, hI⟩
      · rw [hl]
        simp only [Out.bind]
        split
        · exact ⟨s, false, rfl, hI⟩
        · obtain ⟨hI1, hb1⟩ := single h hh hhu (by simp)
          simp only [if_true]
          obtain ⟨s', e1, e2⟩ := send_inv (c := ⟨s.next, .reset, h.id, h.id, false⟩) hI1 (hcm h) hb1 true .toReset rfl
          exact ⟨s', true, by rw [e1], e2⟩
  | ace n =>
    unfold start
    dsimp only
    split
    · exact ⟨s, false, rfl, hI⟩
    · rcases lookup_spec u hI.devs with hl | ⟨h, hl, hh, hhu, _⟩
      · rw [hl]; exact ⟨s, false, rfl, hI⟩
      · rw [hl]
        simp only [Out.bind]
        split
        · exact ⟨s, false, rfl, hI⟩
        · obtain ⟨hI1, hb1⟩ := single h hh hhu (by simp)
          rw [if_neg (by simp)]
          obtain ⟨s', e1, e2⟩ := send_inv (c := ⟨s.next, .ace n, h.id, h.id, false⟩) hI1 (hcm h) hb1 true .toRfpro1 (.inl rfl)
          exact ⟨s', true, by rw [e1], e2⟩
  | pair =>
    obtain ⟨hfu2, hne, hdiff⟩ := hpair rfl
    unfold start
    dsimp only
    split
    · exact ⟨s, false, rfl, hI⟩
    · rcases lookup_spec u hI.devs with hl | ⟨h, hl, hh, hhu, _⟩
      · rcases lookup_spec u2 hI.devs with hl2 | ⟨h2, hl2, hh2, hhu2, _⟩ <;>
        · rw [hl, hl2]; exact ⟨s, false, rfl, hI⟩
      · rcases lookup_spec u2 hI.devs with hl2 | ⟨h2, hl2, hh2, hhu2, _⟩
        · rw [hl, hl2]; exact ⟨s, false, rfl, hI⟩
        · rw [hl, hl2]
          simp only [Out.bind]
          split
          · exact ⟨s, false, rfl, hI⟩
          · have hda := hdiff _ _ _ _ hh hh2 hhu hhu2
            have hI1 := inv_begin hI .pair h h2 hh hh2 (by rw [hhu]; exact hfu) (by rw [hhu2]; exact hfu2) (fun e => absurd rfl e) (fun _ => hda)
            have hb1 : Base { s with next := s.next + 1, ctxs := s.ctxs ++ [⟨s.next, .pair, h.id, h2.id, false⟩] } ⟨s.next, .pair, h.id, h2.id, false⟩ h h2 :=
              ⟨hh, hh2, fun e => absurd rfl e, fun _ => hda⟩
            obtain ⟨s', e1, e2⟩ := send_inv (c := ⟨s.next, .pair, h.id, h2.id, false⟩) hI1 (List.mem_append_right _ (List.mem_singleton.2 rfl)) hb1 true .toRfpro1 (.inl rfl)
            exact ⟨s', true, by rw [e1], e2⟩

/-- Changes of cached devices no context uses. -/
theorem inv_heap {s : St} (hI : Inv none s) (heap : List Handle) (next : Nat) (cache devs eps : List Nat) (hn : s.next ≤ next)
    (hlt : ∀ i x, heap.find? (·.id == i) = some x → i < next)
    (hc : ∀ i ∈ cache, ∃ x, heap.find? (·.id == i) = some x) (hd : ∀ i ∈ devs, ∃ x, heap.find? (·.id == i) = some x)
    (he : ∀ i ∈ eps, ∃ x, heap.find? (·.id == i) = some x)
    (hx : ∀ c ∈ s.ctxs, heap.find? (·.id == c.h) = s.handle c.h ∧ heap.find? (·.id == c.h2) = s.handle c.h2)
    (hne : ∀ c ∈ s.ctxs, c.h ∉ eps ∧ c.h2 ∉ eps)
    (hg : ∀ i, i < s.next → s.handle i = none → heap.find? (·.id == i) = none) :
    Inv none { s with heap := heap, next := next, cache := cache, devs := devs, eps := eps } := by
  have hof : ∀ c ∈ s.ctxs, ∀ z, OfC { s with heap := heap, next := next, cache := cache, devs := devs, eps := eps } c z → OfC s c z := by
    intro c hc' z hz
    rcases hz with hz | hz
    · exact .inl ((hx c hc').1 ▸ hz)
    · exact .inr ((hx c hc').2 ▸ hz)
  constructor
  · exact hlt
  · exact hc
  · exact hd
  · exact he
  · exact hI.one
  · intro z hz hzo
    obtain ⟨q, hq, hk, y, hy, hyu⟩ := hI.temp z hz hzo
    exact ⟨q, hq, hk, y, ((hx q hq).1).trans hy, hyu⟩
  · exact hI.ctxNodup
  · exact fun c hc' => Nat.lt_of_lt_of_le (hI.ctxLt c hc') hn
  · intro c hc'
    obtain ⟨a, b, hab⟩ := hI.base c hc'
    exact ⟨a, b, ⟨((hx c hc').1).trans hab.h1, ((hx c hc').2).trans hab.h2', hab.same, hab.diff⟩⟩
  · exact fun c hc' c' hc'' hne' x y hx' hy' => hI.excl c hc' c' hc'' hne' x y (hof c hc' x hx') (hof c' hc'' y hy')
  · exact hne
  · exact hI.pendOk
  · exact hI.pendNodup
  · intro c hc' hne'
    refine pendOk_frame (hI.ctxPend c hc' hne') (fun p hp _ => hp) rfl rfl ?_
    intro z _
    exact ⟨z, fun g => ((hx c hc').1).trans g, fun g => ((hx c hc').2).trans g, rfl, rfl, rfl, rfl⟩
  · intro e he'
    exact ⟨Nat.lt_of_lt_of_le (hI.logCtx e he').1 hn, (hI.logCtx e he').2⟩
  · exact hI.logNodup
  · exact hI.logSpec
  · intro e he'
    exact ⟨Nat.lt_of_lt_of_le (hI.logGone e he').1 hn, fun h => hg _ (hI.logGone e he').1 ((hI.logGone e he').2 h)⟩

/-- What a new or changed entry of a cache leaves as it is. -/
theorem cacheNew_spec {s : St} (hI : Inv none s) (u : Id) (a : Nat) (sec : Bool) (l : List Nat)
    (hl : ∀ i ∈ l, ∃ x, s.handle i = some x) (hu : IdleFor s u) :
    ∃ heap next j old, cacheNew s u a sec l = .ok ({ s with heap := heap, next := next }, j, old) ∧ s.next ≤ next ∧
      (∀ i x, heap.find? (·.id == i) = some x → i < next) ∧
      (∀ i, (∃ x, s.handle i = some x) → ∃ x, heap.find? (·.id == i) = some x) ∧
      (∃ x, heap.find? (·.id == j) = some x ∧ x.uuid = u ∧ x.addr = a) ∧
      (∀ c ∈ s.ctxs, heap.find? (·.id == c.h) = s.handle c.h ∧ heap.find? (·.id == c.h2) = s.handle c.h2 ∧ c.h ≠ j ∧ c.h2 ≠ j) ∧
      (∀ i, i < s.next → s.handle i = none → heap.find? (·.id == i) = none) ∧ (old = true → j ∈ l) := by
  rcases lookup_spec u hl with hlk | ⟨h, hlk, hh, hhu, hml⟩
  · have hold : ∀ i, i < s.next → (s.heap ++ [(⟨s.next, u, a, sec⟩ : Handle)]).find? (·.id == i) = s.handle i := by
      intro i hi
      rw [List.find?_append]
      have : ([⟨s.next, u, a, sec⟩] : List Handle).find? (·.id == i) = none := by
        have : ¬ s.next = i := by omega
        simp [this]
      rw [this]
      show (s.handle i).or none = s.handle i
      cases s.handle i <;> rfl
    have hnone : s.handle s.next = none := by
      cases h : s.handle s.next with
      | none => rfl
      | some x => exact absurd (hI.idLt _ _ h) (Nat.lt_irrefl _)
    have hself : (s.heap ++ [(⟨s.next, u, a, sec⟩ : Handle)]).find? (·.id == s.next) = some (⟨s.next, u, a, sec⟩ : Handle) := by
      rw [List.find?_append, show s.heap.find? (·.id == s.next) = none from hnone]
      simp
    refine ⟨s.heap ++ [(⟨s.next, u, a, sec⟩ : Handle)], s.next + 1, s.next, false, ?_, Nat.le_succ _, ?_, ?_, ⟨⟨s.next, u, a, sec⟩, hself, rfl, rfl⟩, ?_, ?_, ?_⟩
    · unfold cacheNew; rw [hlk]; rfl
    · intro i x hx
      rw [List.find?_append] at hx
      cases hs : s.heap.find? (·.id == i) with
      | some y => exact Nat.lt_succ_of_lt (hI.idLt i y hs)
      | none =>
        rw [hs] at hx
        simp only [Option.none_or] at hx
        have := List.find?_some hx
        have h2 := List.mem_of_find?_eq_some hx
        simp only [List.mem_singleton] at h2
        subst h2
        simp only [beq_iff_eq] at this
        omega
    · intro i ⟨x, hx⟩
      exact ⟨x, (hold i (hI.idLt i x hx)).trans hx⟩
    · intro c hc
      obtain ⟨x, y, hb⟩ := hI.base c hc
      have h1 := hI.idLt _ _ hb.h1
      have h2 := hI.idLt _ _ hb.h2'
      exact ⟨hold _ h1, hold _ h2, Nat.ne_of_lt h1, Nat.ne_of_lt h2⟩
    · intro i hi hx
      rw [hold i hi]; exact hx
    · intro e; cases e
  · have hg : ∀ i, (s.heap.map fun x => if x.id = h.id then { x with addr := a, sec := sec } else x).find? (·.id == i) =
        (s.handle i).map fun x => if x.id = h.id then { x with addr := a, sec := sec } else x := by
      intro i
      exact find_map _ (by intro x; split <;> rfl) s.heap i
    have hnu : ∀ c ∈ s.ctxs, c.h ≠ h.id ∧ c.h2 ≠ h.id := by
      intro c hc
      have hnb := hu _ _ hh hhu
      refine ⟨fun e => hnb ⟨c, hc, h, .inl (by rw [e]; exact hh), rfl⟩, fun e => hnb ⟨c, hc, h, .inr (by rw [e]; exact hh), rfl⟩⟩
    have hoth : ∀ i, i ≠ h.id → (s.heap.map fun x => if x.id = h.id then { x with addr := a, sec := sec } else x).find? (·.id == i) = s.handle i := by
      intro i hi
      rw [hg]
      cases hx : s.handle i with
      | none => rfl
      | some x => simp [handle_id hx, hi]
    refine ⟨s.heap.map fun x => if x.id = h.id then { x with addr := a, sec := sec } else x, s.next, h.id, true, ?_, Nat.le_refl _, ?_, ?_, ?_, ?_, ?_, fun _ => hml⟩
    · unfold cacheNew; rw [hlk]; rfl
    · intro i x hx
      rw [hg] at hx
      cases hs : s.handle i with
      | none => rw [hs] at hx; cases hx
      | some y => exact hI.idLt i y hs
    · intro i ⟨x, hx⟩
      exact ⟨_, by rw [hg, hx]; rfl⟩
    · exact ⟨{ h with addr := a, sec := sec }, by rw [hg, hh]; simp, hhu, rfl⟩
    · intro c hc
      obtain ⟨n1, n2⟩ := hnu c hc
      exact ⟨hoth _ n1, hoth _ n2, n1, n2⟩
    · intro i _ hx
      rw [hg, hx]; rfl

/-- Every fair step is defined and keeps the invariant. -/
theorem step_inv {s : St} (hI : Inv none s) (op : Op) (hf : Fair s op) : ∃ s', step s op = .ok s' ∧ Inv none s' := by
  cases op with
  | start k u u2 sent cred =>
    obtain ⟨s', b, h1, h2⟩ := start_inv hI k u u2 sent cred hf
    exact ⟨s', by show (start quiet s k u u2 sent cred).bind _ = _; rw [h1]; rfl, h2⟩
  | respond i r again =>
    obtain ⟨ha, h23, h1, h2⟩ := hf
    subst ha
    exact respond_inv hI i r h23 h1 h2
  | discover a =>
    obtain ⟨_, hu⟩ := hf
    unfold step
    dsimp only
    split
    · exact ⟨s, rfl, hI⟩
    · obtain ⟨heap, next, j, old, e, hn, hlt, hlive, ⟨x, hj, _⟩, hctx, hgone, hmem⟩ := cacheNew_spec hI (s.net a).uuid a false s.cache hI.cache hu
      rw [e]
      refine ⟨_, rfl, ?_⟩
      refine inv_heap hI heap next _ _ _ hn hlt ?_ (fun i hi => hlive i (hI.devs i hi)) ?_ (fun c hc => ⟨(hctx c hc).1, (hctx c hc).2.1⟩) ?_ hgone
      · intro i hi
        dsimp only at hi
        split at hi
        · exact hlive i (hI.cache i hi)
        · rcases List.mem_append.1 hi with hi | hi
          · exact hlive i (hI.cache i hi)
          · simp only [List.mem_singleton] at hi
            subst hi; exact ⟨x, hj⟩
      · intro i hi
        rcases List.mem_append.1 hi with hi | hi
        · exact hlive i (hI.eps i hi)
        · simp only [List.mem_singleton] at hi
          subst hi; exact ⟨x, hj⟩
      · intro c hc
        obtain ⟨_, _, n1, n2⟩ := hctx c hc
        obtain ⟨m1, m2⟩ := hI.notEps c hc
        simp only [List.mem_append, List.mem_singleton, not_or]
        exact ⟨⟨m1, n1⟩, ⟨m2, n2⟩⟩
  | endpoints h sec =>
    unfold step
    dsimp only
    split
    · rename_i hm
      obtain ⟨x, hx⟩ := hI.eps h hm
      rw [hx]
      refine ⟨_, rfl, ?_⟩
      have hg : ∀ i, (s.heap.map fun x => if x.id = h then { x with sec := sec } else x).find? (·.id == i) =
          (s.handle i).map fun x => if x.id = h then { x with sec := sec } else x := by
        intro i
        exact find_map _ (by intro x; split <;> rfl) s.heap i
      have hoth : ∀ i, i ≠ h → (s.heap.map fun x => if x.id = h then { x with sec := sec } else x).find? (·.id == i) = s.handle i := by
        intro i hi
        rw [hg]
        cases hx : s.handle i with
        | none => rfl
        | some x => simp [handle_id hx, hi]
      have hlive : ∀ i, (∃ x, s.handle i = some x) → ∃ x, (s.heap.map fun x => if x.id = h then { x with sec := sec } else x).find? (·.id == i) = some x := by
        intro i ⟨x, hx⟩
        rw [hg, hx]; exact ⟨_, rfl⟩
      refine inv_heap hI _ s.next s.cache s.devs (s.eps.erase h) (Nat.le_refl _) ?_ (fun i hi => hlive i (hI.cache i hi)) (fun i hi => hlive i (hI.devs i hi))
        (fun i hi => hlive i (hI.eps i (List.mem_of_mem_erase hi))) ?_ ?_ ?_
      · intro i y hy
        rw [hg] at hy
        cases hs : s.handle i with
        | none => rw [hs] at hy; cases hy
        | some z => exact hI.idLt i z hs
      · intro c hc
        obtain ⟨m1, m2⟩ := hI.notEps c hc
        exact ⟨hoth _ (fun e => m1 (by rw [e]; exact hm)), hoth _ (fun e => m2 (by rw [e]; exact hm))⟩
      · intro c hc
        obtain ⟨m1, m2⟩ := hI.notEps c hc
        exact ⟨fun g => m1 (List.mem_of_mem_erase g), fun g => m2 (List.mem_of_mem_erase g)⟩
      · intro i _ hi
        rw [hg, hi]; rfl
    · exact ⟨s, rfl, hI⟩
  | discoverOwned a =>
    obtain ⟨_, hu⟩ := hf
    unfold step
    dsimp only
    split
    · obtain ⟨heap, next, j, old, e, hn, hlt, hlive, ⟨x, hj, _⟩, hctx, hgone, hmem⟩ := cacheNew_spec hI (s.net a).uuid a true s.devs hI.devs hu
      rw [e]
      refine ⟨_, rfl, ?_⟩
      refine inv_heap hI heap next _ _ _ hn hlt (fun i hi => hlive i (hI.cache i hi)) ?_ (fun i hi => hlive i (hI.eps i hi)) (fun c hc => ⟨(hctx c hc).1, (hctx c hc).2.1⟩) hI.notEps hgone
      intro i hi
      dsimp only at hi
      split at hi
      · exact hlive i (hI.devs i hi)
      · rcases List.mem_append.1 hi with hi | hi
        · exact hlive i (hI.devs i hi)
        · simp only [List.mem_singleton] at hi
          subst hi; exact ⟨x, hj⟩
    · exact ⟨s, rfl, hI⟩
  | env a d =>
    refine ⟨_, rfl, inv_net hI a d ?_⟩
    intro c hc _ x hx e
    exact hf ⟨c, hc, x, hx, e⟩

theorem init_inv {s : St} (h : Init s) : Inv none s := by
  have hh : ∀ i, s.handle i = none := by intro i; unfold St.handle; rw [h.heap]; rfl
  constructor
  · intro i x hx; rw [hh] at hx; cases hx
  · rw [h.cache]; intro i hi; cases hi
  · rw [h.devs]; intro i hi; cases hi
  · rw [h.eps]; intro i hi; cases hi
  · exact h.one
  · intro c hc hco; rw [h.owner c hc] at hco; cases hco
  · rw [h.ctxs]; exact List.nodup_nil
  · rw [h.ctxs]; intro c hc; cases hc
  · rw [h.ctxs]; intro c hc; cases hc
  · rw [h.ctxs]; intro c hc; cases hc
  · rw [h.ctxs]; intro c hc; cases hc
  · rw [h.pend]; intro c hc; cases hc
  · rw [h.pend]; exact List.nodup_nil
  · rw [h.ctxs]; intro c hc; cases hc
  · rw [h.log]; intro c hc; cases hc
  · rw [h.log]; exact List.nodup_nil
  · rw [h.log]; intro c hc; cases hc
  · rw [h.log]; intro c hc; cases hc

theorem run_inv {s : St} (hI : Inv none s) (ops : List Op) (hf : FairRun s ops) : ∃ s', run s ops = .ok s' ∧ Inv none s' := by
  induction ops generalizing s with
  | nil => exact ⟨s, rfl, hI⟩
  | cons op ops ih =>
    obtain ⟨s1, h1, hI1⟩ := step_inv hI op hf.1
    obtain ⟨s2, h2, hI2⟩ := ih hI1 (hf.2 s1 h1)
    exact ⟨s2, by unfold run; rw [h1]; exact h2, hI2⟩

end Verif.Obt
