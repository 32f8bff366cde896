import Verif.Obt.Run
/-!
Sequences of the onboarding tool come to an end.
-/
namespace Verif.Obt

/-- A sequence runs and its outstanding request is number `n` or later. -/
def Running (s : St) (i n : Nat) : Prop := i ∈ s.ctxs.map (·.id) ∧ ∃ p ∈ s.pend, p.ctx = i ∧ n ≤ p.req.stage

/-- The application was told the end of a sequence. -/
def Ended (s : St) (i : Nat) : Prop := i ∈ s.log.map (·.ctx)

/-- What the end of a sequence changes. -/
structure Fin (s s' : St) (i : Nat) : Prop where
  ctxs : s'.ctxs.map (·.id) = (s.ctxs.map (·.id)).filter (· != i)
  pend : s'.pend = s.pend
  log : s'.log.map (·.ctx) = s.log.map (·.ctx) ++ [i]

theorem ids_filter (l : List Ctx) (i : Nat) : (l.filter (·.id != i)).map (·.id) = (l.map (·.id)).filter (· != i) := by
  rw [List.filter_map]; rfl

theorem free_shape {s s' : St} {h : Nat} (e : freeDevice s h = .ok s') : s'.ctxs = s.ctxs ∧ s'.pend = s.pend ∧ s'.log = s.log := by
  unfold freeDevice at e
  split at e
  · cases e
  · cases e; exact ⟨rfl, rfl, rfl⟩

theorem finish_shape {s s' : St} {c : Ctx} {ok : Bool} (hc : c ∈ s.ctxs) (e : finish quiet s c ok = .ok s') : Fin s s' c.id := by
  have hany : s.ctxs.any (·.id == c.id) = true := by
    rw [List.any_eq_true]; exact ⟨c, hc, by simp⟩
  unfold finish at e
  rw [if_pos hany] at e
  dsimp only at e
  split at e
  · cases e
  · rename_i h _
    cases hk : c.kind with
    | otm m =>
      rw [hk] at e; dsimp only at e
      cases ok with
      | true => simp only [if_true, quiet] at e; cases e; exact ⟨ids_filter _ _, rfl, by simp [logCb]⟩
      | false =>
        simp only [Bool.false_eq_true, if_false, quiet, Out.bind] at e
        obtain ⟨a, b, d⟩ := free_shape e
        exact ⟨by rw [a]; exact ids_filter _ _, b, by rw [d]; simp [logCb]⟩
    | pin =>
      rw [hk] at e; dsimp only at e
      cases ok with
      | true => simp only [if_true, quiet] at e; cases e; exact ⟨ids_filter _ _, rfl, by simp [logCb]⟩
      | false =>
        simp only [Bool.false_eq_true, if_false, quiet, Out.bind] at e
        obtain ⟨a, b, d⟩ := free_shape e
        exact ⟨by rw [a]; exact ids_filter _ _, b, by rw [d]; simp [logCb]⟩
    | reset =>
      rw [hk] at e; dsimp only at e
      cases ok with
      | true =>
        simp only [if_true, quiet, Out.bind] at e
        obtain ⟨a, b, d⟩ := free_shape e
        exact ⟨by rw [a]; exact ids_filter _ _, b, by rw [d]; simp [logCb]⟩
      | false =>
        simp only [Bool.false_eq_true, if_false, quiet, Out.bind] at e
        obtain ⟨a, b, d⟩ := free_shape e
        exact ⟨by rw [a]; exact ids_filter _ _, b, by rw [d]; simp [logCb]⟩
    | pair =>
      rw [hk] at e; dsimp only at e
      split at e
      · cases e
      · simp only [quiet] at e; cases e; exact ⟨ids_filter _ _, rfl, by simp [logCb]⟩
    | ace n =>
      rw [hk] at e; dsimp only at e
      simp only [quiet] at e; cases e; exact ⟨ids_filter _ _, rfl, by simp [logCb]⟩

/-- What a request that was sent changes. -/
structure Sent (s s' : St) (i n : Nat) : Prop where
  ctxs : s'.ctxs.map (·.id) = s.ctxs.map (·.id)
  pend : ∃ p : Pend, s'.pend = s.pend ++ [p] ∧ p.ctx = i ∧ n ≤ p.req.stage
  log : s'.log = s.log

theorem send_shape {s s' : St} {c : Ctx} {sent : Bool} {r : Req} (n : Nat) (hc : c ∈ s.ctxs) (hn : n ≤ r.stage)
    (e : send quiet s c sent r = .ok s') : Fin s s' c.id ∨ Sent s s' c.id n := by
  unfold send at e
  generalize (if r.second = true then c.h2 else c.h) = i at e
  cases hh : s.handle i with
  | none => rw [hh] at e; cases e
  | some h =>
    rw [hh] at e
    dsimp only at e
    cases sent with
    | false => exact .inl (finish_shape hc e)
    | true =>
      simp only [if_true] at e
      cases e
      exact .inr ⟨rfl, ⟨_, rfl, rfl, hn⟩, rfl⟩

theorem handler_shape {s s' : St} {c : Ctx} {h : Handle} {req : Req} {code : Nat} {r : Resp} (hc : c ∈ s.ctxs)
    (e : handler quiet s c h req code r = .ok s') : Fin s s' c.id ∨ Sent s s' c.id (req.stage + 1) := by
  unfold handler at e
  split at e
  · exact .inl (finish_shape hc e)
  · cases req with
    | getDoxm =>
      dsimp only at e
      split at e
      · exact .inl (finish_shape hc e)
      · split at e
        · exact send_shape _ hc (by simp [Req.stage]) e
        · exact .inl (finish_shape hc e)
    | sel x =>
      dsimp only at e
      split at e
      · exact .inl (finish_shape hc e)
      · exact send_shape _ hc (by simp [Req.stage]) e
    | devowner x =>
      dsimp only at e
      split at e
      · rcases send_shape ((Req.devowner x).stage + 1) (by exact hc) (by simp [Req.stage]) e with g | g
        · exact .inl ⟨g.ctxs, g.pend, g.log⟩
        · exact .inr ⟨g.ctxs, g.pend, g.log⟩
      · rcases send_shape ((Req.devowner x).stage + 1) (by exact hc) (by simp [Req.stage]) e with g | g
        · exact .inl ⟨g.ctxs, g.pend, g.log⟩
        · exact .inr ⟨g.ctxs, g.pend, g.log⟩
    | rowPstat x =>
      dsimp only at e
      split at e
      · exact .inl (finish_shape hc e)
      · rcases send_shape ((Req.rowPstat x).stage + 1) (by exact hc) (by simp [Req.stage]) e with g | g
        · exact .inl ⟨g.ctxs, g.pend, g.log⟩
        · exact .inr ⟨g.ctxs, g.pend, g.log⟩
    | sdi x =>
      dsimp only at e
      have hids : ∀ v, (s.ctxs.map fun x => if x.id = c.id then ({ c with sdi := v } : Ctx) else x).map (·.id) = s.ctxs.map (·.id) := by
        intro v
        rw [List.map_map]
        apply List.map_congr_left
        intro x _
        simp only [Function.comp]
        split
        · rename_i h; exact h.symm
        · rfl
      have hm : ({ c with sdi := code != notFound } : Ctx) ∈ (s.ctxs.map fun x => if x.id = c.id then { c with sdi := code != notFound } else x) :=
        List.mem_map.2 ⟨c, hc, by simp⟩
      rcases send_shape ((Req.sdi x).stage + 1) hm (by simp [Req.stage]) e with g | g
      · exact .inl ⟨by rw [g.ctxs]; dsimp only; rw [hids], g.pend, g.log⟩
      · exact .inr ⟨by rw [g.ctxs]; dsimp only; rw [hids], g.pend, g.log⟩
    | toRfpro1 =>
      dsimp only at e
      split at e
      · exact send_shape _ hc (by simp [Req.stage]) e
      · exact send_shape _ hc (by simp [Req.stage]) e
    | toRfpro2 =>
      dsimp only at e
      split at e
      · cases e
      · exact send_shape _ hc (by simp [Req.stage]) e
    | toRfnop1 =>
      dsimp only at e
      split at e
      · exact .inl (finish_shape hc e)
      · exact send_shape _ hc (by simp [Req.stage]) e
    | rfnop => exact .inl (finish_shape hc e)
    | toReset => exact .inl (finish_shape hc e)
    | toRfnop2 => exact .inl (finish_shape hc e)
    | _ => exact send_shape _ hc (by simp [Req.stage]) e

/-- What the start of a sequence changes. -/
structure Began (s s' : St) : Prop where
  new : s.next ∈ s'.ctxs.map (·.id) ∨ s.next ∈ s'.log.map (·.ctx)
  ctxs : ∀ i, i ≠ s.next → i ∈ s.ctxs.map (·.id) → i ∈ s'.ctxs.map (·.id)
  pend : ∀ p ∈ s.pend, p ∈ s'.pend
  log : ∀ i ∈ s.log.map (·.ctx), i ∈ s'.log.map (·.ctx)

/-- A state with a new context. -/
structure Fresh (s s1 : St) (c : Ctx) : Prop where
  id : c.id = s.next
  mem : c ∈ s1.ctxs
  ctxs : ∀ i, i ∈ s.ctxs.map (·.id) → i ∈ s1.ctxs.map (·.id)
  pend : s1.pend = s.pend
  log : s1.log = s.log

theorem began_fin {s s1 s2 : St} {c : Ctx} (f : Fresh s s1 c) (g : Fin s1 s2 c.id) : Began s s2 where
  new := .inr (by rw [g.log, f.id]; simp)
  ctxs := by
    intro i hne hi
    rw [g.ctxs, List.mem_filter]
    exact ⟨f.ctxs i hi, by rw [f.id]; simpa using hne⟩
  pend := by intro p hp'; rw [g.pend, f.pend]; exact hp'
  log := by intro i hi; rw [g.log, f.log]; exact List.mem_append_left _ hi

theorem began_sent {s s1 s2 : St} {c : Ctx} {n : Nat} (f : Fresh s s1 c) (g : Sent s1 s2 c.id n) : Began s s2 where
  new := .inl (by rw [g.ctxs, ← f.id]; exact List.mem_map.2 ⟨c, f.mem, rfl⟩)
  ctxs := by intro i _ hi; rw [g.ctxs]; exact f.ctxs i hi
  pend := by intro p hp'; obtain ⟨q, hq, _⟩ := g.pend; rw [hq, f.pend]; exact List.mem_append_left _ hp'
  log := by intro i hi; rw [g.log, f.log]; exact hi

theorem began_send {s s1 s' : St} {c : Ctx} {sent b b' : Bool} {r : Req} (f : Fresh s s1 c)
    (e : ((send quiet s1 c sent r).bind fun s => Out.ok (s, b')) = .ok (s', b)) : Began s s' := by
  cases hx : send quiet s1 c sent r with
  | ub => rw [hx] at e; cases e
  | ok s2 =>
    rw [hx] at e
    simp only [Out.bind, Out.ok.injEq, Prod.mk.injEq] at e
    obtain ⟨e, _⟩ := e
    subst e
    rcases send_shape 0 f.mem (Nat.zero_le _) hx with g | g
    · exact began_fin f g
    · exact began_sent f g

theorem start_shape {s s' : St} {k : Kind} {u u2 : Id} {sent cred b : Bool} (e : start quiet s k u u2 sent cred = .ok (s', b)) :
    (s' = s ∧ b = false) ∨ Began s s' := by
  have fr : ∀ (l : List Cred) (i j : Nat), Fresh s { s with creds := l, next := s.next + 1, ctxs := s.ctxs ++ [⟨s.next, k, i, j, false⟩] } ⟨s.next, k, i, j, false⟩ := by
    intro l i j
    exact ⟨rfl, List.mem_append_right _ (List.mem_singleton.2 rfl), fun x hx => (by rw [List.map_append]; exact List.mem_append_left _ hx), rfl, rfl⟩
  have same : ∀ {x : St × Bool}, Out.ok (s, false) = Out.ok (s', b) → s' = s ∧ b = false := by
    intro _ h
    simp only [Out.ok.injEq, Prod.mk.injEq] at h
    exact ⟨h.1.symm, h.2.symm⟩
  cases k with
  | otm m =>
    unfold start at e
    dsimp only at e
    cases hl : lookup s u s.cache with
    | ub => rw [hl] at e; cases e
    | ok o =>
      rw [hl] at e
      simp only [Out.bind] at e
      cases o with
      | none => exact .inl (same (x := (s, false)) e)
      | some h =>
        dsimp only at e
        right
        have key : ∃ l : List Cred, (if isOwned s u then { s with creds := removeBy u s.creds } else s) = { s with creds := l } := by
          by_cases ho : isOwned s u = true
          · exact ⟨removeBy u s.creds, by rw [if_pos ho]⟩
          · exact ⟨s.creds, by rw [if_neg ho]⟩
        obtain ⟨l, hle⟩ := key
        rw [hle] at e
        dsimp only at e
        by_cases hm : m = .rdp
        · rw [if_pos hm] at e
          split at e
          · cases e
          · cases sent with
            | true =>
              simp only [if_true] at e
              exact began_send (fr (l ++ [(⟨u, false, none⟩ : Cred)]) h.id h.id) e
            | false =>
              simp only [Bool.false_eq_true, if_false] at e
              cases hx : finish quiet { s with creds := l, next := s.next + 1, ctxs := s.ctxs ++ [⟨s.next, .otm m, h.id, h.id, false⟩] } ⟨s.next, .otm m, h.id, h.id, false⟩ false with
              | ub => rw [hx] at e; cases e
              | ok s2 =>
                rw [hx] at e
                simp only [Out.ok.injEq, Prod.mk.injEq] at e
                obtain ⟨e, _⟩ := e
                subst e
                exact began_fin (fr l h.id h.id) (finish_shape (fr l h.id h.id).mem hx)
        · rw [if_neg hm] at e
          exact began_send (fr l h.id h.id) e
  | pin =>
    unfold start at e
    dsimp only at e
    split at e
    · exact .inl (same (x := (s, false)) e)
    · cases hl : lookup s u s.cache with
      | ub => rw [hl] at e; cases e
      | ok o =>
        rw [hl] at e
        simp only [Out.bind] at e
        cases o with
        | none => exact .inl (same (x := (s, false)) e)
        | some h => exact .inr (began_send (fr s.creds h.id h.id) e)
  | reset =>
    unfold start at e
    dsimp only at e
    split at e
    · exact .inl (same (x := (s, false)) e)
    · cases hl : lookup s u s.devs with
      | ub => rw [hl] at e; cases e
      | ok o =>
        rw [hl] at e
        simp only [Out.bind] at e
        cases o with
        | none => exact .inl (same (x := (s, false)) e)
        | some h =>
          dsimp only at e
          split at e
          · exact .inl (same (x := (s, false)) e)
          · exact .inr (began_send (fr s.creds h.id h.id) e)
  | ace n =>
    unfold start at e
    dsimp only at e
    split at e
    · exact .inl (same (x := (s, false)) e)
    · cases hl : lookup s u s.devs with
      | ub => rw [hl] at e; cases e
      | ok o =>
        rw [hl] at e
        simp only [Out.bind] at e
        cases o with
        | none => exact .inl (same (x := (s, false)) e)
        | some h =>
          dsimp only at e
          split at e
          · exact .inl (same (x := (s, false)) e)
          · exact .inr (began_send (fr s.creds h.id h.id) e)
  | pair =>
    unfold start at e
    dsimp only at e
    split at e
    · exact .inl (same (x := (s, false)) e)
    · cases hl : lookup s u s.devs with
      | ub => rw [hl] at e; cases e
      | ok o =>
        rw [hl] at e
        simp only [Out.bind] at e
        cases hl2 : lookup s u2 s.devs with
        | ub => rw [hl2] at e; cases e
        | ok o2 =>
          rw [hl2] at e
          cases o with
          | none => exact .inl (same (x := (s, false)) e)
          | some h =>
            cases o2 with
            | none => exact .inl (same (x := (s, false)) e)
            | some h2 =>
              dsimp only at e
              split at e
              · exact .inl (same (x := (s, false)) e)
              · exact .inr (began_send (fr s.creds h.id h2.id) e)

theorem respond_shape {s s' : St} (hI : Inv none s) {i : Nat} {r : Resp} (e : respond quiet s i r = .ok s') :
    (s' = s ∧ ∀ p ∈ s.pend, p.ctx ≠ i) ∨
    ∃ s1 : St, s1.ctxs = s.ctxs ∧ s1.log = s.log ∧ s1.pend = s.pend.filter (·.ctx != i) ∧
      ∃ p ∈ s.pend, p.ctx = i ∧ (Fin s1 s' i ∨ Sent s1 s' i (p.req.stage + 1)) := by
  cases hfp : s.pend.find? (·.ctx == i) with
  | none =>
    left
    unfold respond at e
    rw [hfp] at e
    cases e
    refine ⟨rfl, ?_⟩
    rw [List.find?_eq_none] at hfp
    intro p hp; simpa using hfp p hp
  | some p =>
    right
    have hpm := List.mem_of_find?_eq_some hfp
    have hpi : p.ctx = i := by have := List.find?_some hfp; simpa using this
    obtain ⟨c, h, h2, hA, hfc⟩ := answer_of hI hpm
    rw [respond_eq quiet r hA hfp hfc] at e
    have := handler_shape (s := answered s p c r) (by exact hA.cm) e
    rw [hA.ci, hpi] at this
    exact ⟨answered s p c r, rfl, rfl, by rw [← hpi]; rfl, p, hpm, hpi, this⟩

/-- Answers to the requests of a sequence. -/
def Op.answers (i : Nat) : Op → Nat
  | .respond j _ _ => if j = i then 1 else 0
  | _ => 0

theorem ended_step {s s' : St} (hI : Inv none s) {op : Op} (hf : Fair s op) {i : Nat} (h : Ended s i) (e : step s op = .ok s') : Ended s' i := by
  cases op with
  | start k u u2 sent cred =>
    cases hx : start quiet s k u u2 sent cred with
    | ub => simp only [step, hx, Out.bind] at e; cases e
    | ok q =>
      simp only [step, hx, Out.bind, Out.ok.injEq] at e
      subst e
      rcases start_shape hx with ⟨g, _⟩ | g
      · rw [g]; exact h
      · exact g.log i h
  | respond j r again =>
    have ha : again = none := hf.1
    subst ha
    rcases respond_shape hI (show respond quiet s j r = .ok s' from e) with ⟨g, _⟩ | ⟨s1, _, hl, _, p, _, _, g | g⟩
    · rw [g]; exact h
    · unfold Ended; rw [g.log, hl]; exact List.mem_append_left _ h
    · unfold Ended; rw [g.log, hl]; exact h
  | discover a =>
    simp only [step] at e
    split at e
    · cases e; exact h
    · cases hx : cacheNew s (s.net a).uuid a false s.cache with
      | ub => rw [hx] at e; cases e
      | ok q =>
        rw [hx] at e
        obtain ⟨heap, next, j, old, e2, _⟩ := cacheNew_spec hI (s.net a).uuid a false s.cache hI.cache hf.2
        rw [hx] at e2; cases e2; cases e; exact h
  | endpoints j sec =>
    simp only [step] at e
    split at e
    · split at e
      · cases e
      · cases e; exact h
    · cases e; exact h
  | discoverOwned a =>
    simp only [step] at e
    split at e
    · cases hx : cacheNew s (s.net a).uuid a true s.devs with
      | ub => rw [hx] at e; cases e
      | ok q =>
        rw [hx] at e
        obtain ⟨heap, next, j, old, e2, _⟩ := cacheNew_spec hI (s.net a).uuid a true s.devs hI.devs hf.2
        rw [hx] at e2; cases e2; cases e; exact h
    · cases e; exact h
  | env a d => cases e; exact h

theorem running_step {s s' : St} (hI : Inv none s) {op : Op} (hf : Fair s op) {i n : Nat} (h : Running s i n) (e : step s op = .ok s') :
    Ended s' i ∨ Running s' i (n + op.answers i) := by
  obtain ⟨hc, p, hp, hpi, hn⟩ := h
  cases op with
  | start k u u2 sent cred =>
    right
    cases hx : start quiet s k u u2 sent cred with
    | ub => simp only [step, hx, Out.bind] at e; cases e
    | ok q =>
      simp only [step, hx, Out.bind, Out.ok.injEq] at e
      subst e
      rcases start_shape hx with ⟨g, _⟩ | g
      · rw [g]; exact ⟨hc, p, hp, hpi, hn⟩
      · refine ⟨g.ctxs i ?_ hc, p, g.pend p hp, hpi, hn⟩
        obtain ⟨c, hcm, hce⟩ := List.mem_map.1 hc
        have := hI.ctxLt c hcm
        omega
  | respond j r again =>
    have ha : again = none := hf.1
    subst ha
    rcases respond_shape hI (show respond quiet s j r = .ok s' from e) with ⟨g, hno⟩ | ⟨s1, hcs, hl, hps, q, hq, hqj, g⟩
    · right
      rw [g]
      have : j ≠ i := fun e => hno p hp (by rw [hpi, e])
      simp only [Op.answers, this, if_false]
      exact ⟨hc, p, hp, hpi, hn⟩
    · by_cases hji : j = i
      · subst hji
        have := pend_eq hI.pendNodup hq hp (by rw [hqj, hpi]); subst this
        rcases g with g | g
        · left; unfold Ended; rw [g.log]; simp
        · right
          simp only [Op.answers, if_true]
          obtain ⟨x, hx, hxj, hxn⟩ := g.pend
          refine ⟨by rw [g.ctxs, hcs]; exact hc, x, by rw [hx]; simp, hxj, by omega⟩
      · right
        simp only [Op.answers, hji, if_false]
        have hp1 : p ∈ s1.pend := by
          rw [hps, List.mem_filter]
          exact ⟨hp, by rw [hpi]; simpa using fun e : i = j => hji e.symm⟩
        rcases g with g | g
        · refine ⟨?_, p, by rw [g.pend]; exact hp1, hpi, hn⟩
          rw [g.ctxs, List.mem_filter, hcs]
          exact ⟨hc, by simpa using fun e : i = j => hji e.symm⟩
        · obtain ⟨x, hx, _⟩ := g.pend
          refine ⟨by rw [g.ctxs, hcs]; exact hc, p, by rw [hx]; exact List.mem_append_left _ hp1, hpi, hn⟩
  | discover a =>
    right
    simp only [step] at e
    split at e
    · cases e; exact ⟨hc, p, hp, hpi, hn⟩
    · cases hx : cacheNew s (s.net a).uuid a false s.cache with
      | ub => rw [hx] at e; cases e
      | ok q =>
        rw [hx] at e
        obtain ⟨heap, next, j, old, e2, _⟩ := cacheNew_spec hI (s.net a).uuid a false s.cache hI.cache hf.2
        rw [hx] at e2; cases e2; cases e; exact ⟨hc, p, hp, hpi, hn⟩
  | endpoints j sec =>
    right
    simp only [step] at e
    split at e
    · split at e
      · cases e
      · cases e; exact ⟨hc, p, hp, hpi, hn⟩
    · cases e; exact ⟨hc, p, hp, hpi, hn⟩
  | discoverOwned a =>
    right
    simp only [step] at e
    split at e
    · cases hx : cacheNew s (s.net a).uuid a true s.devs with
      | ub => rw [hx] at e; cases e
      | ok q =>
        rw [hx] at e
        obtain ⟨heap, next, j, old, e2, _⟩ := cacheNew_spec hI (s.net a).uuid a true s.devs hI.devs hf.2
        rw [hx] at e2; cases e2; cases e; exact ⟨hc, p, hp, hpi, hn⟩
    · cases e; exact ⟨hc, p, hp, hpi, hn⟩
  | env a d => right; cases e; exact ⟨hc, p, hp, hpi, hn⟩

/-- Answers to the requests of a sequence in a history. -/
def answers (i : Nat) (ops : List Op) : Nat := (ops.map (·.answers i)).sum

theorem ended_run {s s' : St} (hI : Inv none s) {ops : List Op} (hf : FairRun s ops) {i : Nat} (h : Ended s i) (e : run s ops = .ok s') : Ended s' i := by
  induction ops generalizing s with
  | nil => cases e; exact h
  | cons op ops ih =>
    obtain ⟨s1, h1, hI1⟩ := step_inv hI op hf.1
    unfold run at e
    rw [h1] at e
    exact ih hI1 (hf.2 s1 h1) (ended_step hI hf.1 h h1) e

theorem running_run {s s' : St} (hI : Inv none s) {ops : List Op} (hf : FairRun s ops) {i n : Nat} (h : Running s i n) (e : run s ops = .ok s') :
    Ended s' i ∨ Running s' i (n + answers i ops) := by
  induction ops generalizing s n with
  | nil => cases e; exact .inr h
  | cons op ops ih =>
    obtain ⟨s1, h1, hI1⟩ := step_inv hI op hf.1
    unfold run at e
    rw [h1] at e
    rcases running_step hI hf.1 h h1 with g | g
    · exact .inl (ended_run hI1 (hf.2 s1 h1) g e)
    · have := ih hI1 (hf.2 s1 h1) g e
      rw [show answers i (op :: ops) = op.answers i + answers i ops by simp [answers], ← Nat.add_assoc]
      exact this

theorem stage_le (r : Req) : r.stage ≤ 22 := by cases r <;> simp [Req.stage]

end Verif.Obt
