import Verif.Client.More
/-! Every plain request that is pending has a delayed callback that removes it. -/
namespace Verif.Client
open Verif

def Kept (s : St) : Prop := ∀ c ∈ s.cbs, Plain c.id s.log → (c.id, Kind.remove) ∈ s.timers

theorem Plain.of_append {id l m} (h : Plain id (l ++ m)) : Plain id l :=
  ⟨fun hm => h.1 (List.mem_append_left _ hm), fun hm => h.2 (List.mem_append_left _ hm)⟩

theorem Kept.mono {s s'} (h : Kept s) (hc : ∀ c ∈ s'.cbs, ∃ d ∈ s.cbs, d.id = c.id) (hl : ∃ ext, s'.log = s.log ++ ext)
    (ht : ∀ id, (id, Kind.remove) ∈ s.timers → (∃ c ∈ s'.cbs, c.id = id) → (id, Kind.remove) ∈ s'.timers) : Kept s' := by
  intro c hm hp
  obtain ⟨d, hd, e⟩ := hc c hm
  obtain ⟨ext, el⟩ := hl
  rw [el] at hp
  refine ht _ ?_ ⟨c, hm, rfl⟩
  rw [← e]
  exact h d hd (by rw [e]; exact hp.of_append)

theorem Kept.same {s s'} (h : Kept s) (hc : ∀ c ∈ s'.cbs, ∃ d ∈ s.cbs, d.id = c.id) (hl : s'.log = s.log)
    (ht : ∀ x ∈ s.timers, x.2 = .remove → x ∈ s'.timers) : Kept s' :=
  h.mono hc ⟨[], by rw [hl, List.append_nil]⟩ (fun id hm _ => ht _ hm rfl)

theorem keep_dropTimers {id i : Nat} {k : Kind} {l} (h : (id, k) ∈ l) (hne : id ≠ i) : (id, k) ∈ dropTimers i l := by
  unfold dropTimers
  rw [List.mem_erase_of_ne (by grind), List.mem_erase_of_ne (by grind), List.mem_erase_of_ne (by grind)]
  exact h

theorem Kept.free {s id s'} (h : Kept s) (hf : freeCb id s = .ok s') : Kept s' := by
  obtain ⟨_, rfl⟩ := freeCb_ok hf
  refine h.mono (fun c hc => ⟨c, (List.mem_filter.1 hc).1, rfl⟩) ⟨_, rfl⟩ ?_
  rintro i hm ⟨c, hc, rfl⟩
  have := (List.mem_filter.1 hc).2
  exact keep_dropTimers hm (by simpa using this)

theorem Kept.detach {s} (h : Kept s) (c : Cb) : Kept (detach c s) := by
  refine h.mono (fun d hd => ⟨d, (List.mem_filter.1 hd).1, rfl⟩) ⟨[], (List.append_nil _).symm⟩ ?_
  rintro i hm ⟨d, hd, rfl⟩
  have := (List.mem_filter.1 hd).2
  exact keep_dropTimers hm (by simpa using this)

theorem upd_ids {i f l} (hf : ∀ c : Cb, (f c).id = c.id) {x} (h : x ∈ upd i f l) : ∃ y ∈ l, y.id = x.id := by
  obtain ⟨y, hy, e⟩ := List.mem_map.1 h
  refine ⟨y, hy, ?_⟩
  split at e
  · subst e; exact (hf y).symm
  · subst e; rfl

theorem Kept.upd {s : St} (h : Kept s) (i f) (hf : ∀ c : Cb, (f c).id = c.id) : Kept { s with cbs := upd i f s.cbs } :=
  h.same (fun _ hx => upd_ids hf hx) rfl (fun _ hx _ => hx)

theorem dropPing_timers (pong c s) : ∀ x ∈ s.timers, x.2 = Kind.remove → x ∈ (dropPing pong c s).timers := by
  intro x hx e
  unfold dropPing
  split
  · rw [List.mem_erase_of_ne (by intro h; rw [h] at e; cases e)]; exact hx
  · exact hx

theorem Kept.dropPing {s} (h : Kept s) (pong c) : Kept (dropPing pong c s) := by
  have := dropPing_same pong c s
  exact h.same (by rw [this.1]; exact fun c hc => ⟨c, hc, rfl⟩) this.2.2.2 (dropPing_timers pong c s)

/-- Timers only grow and a new request is plain only if it gets a timer. -/
theorem Kept.new {s s'} (h : Kept s) (hc : ∀ c ∈ s'.cbs, (∃ d ∈ s.cbs, d.id = c.id) ∨ (Plain c.id s'.log → (c.id, Kind.remove) ∈ s'.timers))
    (hl : ∃ ext, s'.log = s.log ++ ext) (ht : ∀ x ∈ s.timers, x ∈ s'.timers) : Kept s' := by
  intro c hm hp
  rcases hc c hm with ⟨d, hd, e⟩ | hx
  · obtain ⟨ext, el⟩ := hl
    rw [el] at hp
    have := h d hd (by rw [e]; exact hp.of_append)
    rw [e] at this
    exact ht _ this
  · exact hx hp

theorem sentCb_keep {id t con u tm s} {x} (h : x ∈ s.timers) : x ∈ (sentCb id t con u tm s).timers := by
  unfold sentCb
  cases con <;> simp [clearTrans, h]

theorem sentCb_remove {u} (id t con tm) {s} (h : u = true) : (id, Kind.remove) ∈ (sentCb id t con u tm s).timers := by
  subst h
  unfold sentCb
  simp

theorem doReq_kept {c : Cb} {many con timed sec how s s'} (hm : many = true ∨ c.obs = none) (h : Kept s)
    (hf : ∀ d ∈ s.cbs, d.id < s.next)
    (e : doReq c many con timed sec how s = .ok s') : Kept s' := by
  have hfree : ∀ {b : St} {s'}, b.cbs = (alloc c many s).cbs → b.log = (alloc c many s).log → b.timers = s.timers →
      freeCb s.next b = .ok s' → Kept s' := by
    intro b s' h1 h2 h3 hfr
    obtain ⟨_, rfl⟩ := freeCb_ok hfr
    refine h.mono ?_ ⟨_, by rw [h2]; unfold alloc; rw [List.append_assoc]⟩ ?_
    · intro d hd
      have hd := List.mem_filter.1 hd
      rw [h1] at hd
      rcases List.mem_append.1 hd.1 with hd1 | hd1
      · exact ⟨d, hd1, rfl⟩
      · cases List.mem_singleton.1 hd1
        simp at hd
    · rintro i hi ⟨d, hd, rfl⟩
      have := (List.mem_filter.1 hd).2
      rw [h3]
      exact keep_dropTimers hi (by simpa using this)
  unfold doReq at e
  cases how with
  | noMem => cases e; exact h
  | noTrans => exact hfree rfl rfl rfl e
  | notSent =>
    obtain ⟨s1, h1, h2⟩ := Out.bind_ok e
    cases h2
    exact (hfree (b := clearTrans s.nextT (newTrans c.mid c.ep sec (alloc c many s))) rfl rfl rfl h1 : Kept s1)
  | sent =>
    cases e
    have hs := sentCb_same s.next s.nextT con (c.obs == none) timed (newTrans c.mid c.ep sec (alloc c many s))
    have hl : (sentCb s.next s.nextT con (c.obs == none) timed (newTrans c.mid c.ep sec (alloc c many s))).log = (alloc c many s).log := hs.2.2.2
    refine h.new ?_ ⟨_, hl⟩ (fun x hx => sentCb_keep (s := newTrans c.mid c.ep sec (alloc c many s)) hx)
    intro d hd
    have hd : d ∈ (sentCb s.next s.nextT con (c.obs == none) timed (newTrans c.mid c.ep sec (alloc c many s))).cbs := hd
    rw [hs.1] at hd
    rcases List.mem_append.1 hd with hd | hd
    · exact .inl ⟨d, hd, rfl⟩
    · cases List.mem_singleton.1 hd
      right
      intro hp
      have hp : Plain s.next (sentCb s.next s.nextT con (c.obs == none) timed (newTrans c.mid c.ep sec (alloc c many s))).log := hp
      rw [hl] at hp
      rcases hm with hm | hm
      · exact absurd (List.mem_append_right _ (by rw [hm]; simp)) hp.1
      · exact sentCb_remove _ _ _ _ (by rw [hm]; rfl)

theorem post_kept {r : Req} {how s s'} (h : Kept s) (e : post r how s = .ok s') : Kept s' := by
  have hfree : ∀ {s'}, freeCb s.next (alloc (r.cb false none false false) false s) = .ok s' → Kept s' := by
    intro s' hfr
    obtain ⟨_, rfl⟩ := freeCb_ok hfr
    refine h.mono ?_ ⟨_, by unfold alloc; rw [List.append_assoc]⟩ ?_
    · intro d hd
      have hd := List.mem_filter.1 hd
      rcases List.mem_append.1 hd.1 with hd1 | hd1
      · exact ⟨d, hd1, rfl⟩
      · cases List.mem_singleton.1 hd1
        simp at hd
    · rintro i hi ⟨d, hd, rfl⟩
      have := (List.mem_filter.1 hd).2
      exact keep_dropTimers (l := s.timers) hi (by simpa using this)
  have hsent : ∀ {s'}, ((initPost r .sent s).bind (doPost r.con r.timed .sent)) = .ok s' → Kept s' := by
    intro s' e
    obtain ⟨s1, h1, h2⟩ := Out.bind_ok e
    cases h1
    unfold doPost at h2
    dsimp only at h2
    split at h2
    · cases h2
    · cases h2
      have hs := sentCb_same s.next s.nextT r.con true r.timed { newTrans r.mid r.ep r.secured (alloc (r.cb false none false false) false s) with disp := some (s.next, s.nextT) }
      refine h.new ?_ ⟨_, hs.2.2.2⟩ (fun x hx => sentCb_keep (s := { newTrans r.mid r.ep r.secured (alloc (r.cb false none false false) false s) with disp := some (s.next, s.nextT) }) hx)
      intro d hd
      have hd : d ∈ (sentCb s.next s.nextT r.con true r.timed { newTrans r.mid r.ep r.secured (alloc (r.cb false none false false) false s) with disp := some (s.next, s.nextT) }).cbs := hd
      rw [hs.1] at hd
      rcases List.mem_append.1 hd with hd | hd
      · exact .inl ⟨d, hd, rfl⟩
      · cases List.mem_singleton.1 hd
        right
        intro _
        exact sentCb_remove _ _ _ _ rfl
  unfold post at e
  cases how with
  | noMem => cases e; exact h
  | noTrans => exact hfree e
  | notSent =>
    obtain ⟨s1, h1, h2⟩ := Out.bind_ok e
    cases h1
    unfold doPost at h2
    dsimp only at h2
    split at h2 <;> cases h2
  | sent => exact hsent e

theorem ping_kept {token ep ok s s'} (h : Kept s) (e : ping token ep ok s = .ok s') : Kept s' := by
  unfold ping at e
  cases ok with
  | true =>
    cases e
    refine h.new ?_ ⟨_, rfl⟩ (fun x hx => List.mem_append_left _ hx)
    intro d hd
    rcases List.mem_append.1 hd with hd | hd
    · exact .inl ⟨d, hd, rfl⟩
    · cases List.mem_singleton.1 hd
      exact .inr (fun hp => absurd (List.mem_append_right _ (by simp)) hp.1)
  | false =>
    obtain ⟨_, rfl⟩ := freeCb_ok e
    refine h.mono ?_ ⟨_, by unfold alloc; rw [List.append_assoc]⟩ ?_
    · intro d hd
      have hd := List.mem_filter.1 hd
      rcases List.mem_append.1 hd.1 with hd1 | hd1
      · exact ⟨d, hd1, rfl⟩
      · cases List.mem_singleton.1 hd1
        simp at hd
    · rintro i hi ⟨d, hd, rfl⟩
      have := (List.mem_filter.1 hd).2
      exact keep_dropTimers (l := s.timers) hi (by simpa using this)

theorem stopObserve_kept {uri ep mid con sec how s s'} (h : Kept s) (e : stopObserve uri ep mid con sec how s = .ok s') : Kept s' := by
  unfold stopObserve at e
  split at e
  · cases e; exact h
  · rename_i c _
    have hu : Kept { s with cbs := upd c.id (fun x => { x with mid := mid, obs := some 1 }) s.cbs } := h.upd _ _ (fun _ => rfl)
    cases how with
    | noMem => cases e; exact hu
    | noTrans => cases e; exact hu
    | notSent =>
      obtain ⟨s1, h1, h2⟩ := Out.bind_ok e
      cases h2
      exact (Kept.free (s := clearTrans s.nextT (newTrans mid ep sec { s with cbs := upd c.id (fun x => { x with mid := mid, obs := some 1 }) s.cbs })) hu h1 : Kept s1)
    | sent =>
      cases e
      refine hu.same ?_ ?_ ?_
      · intro d hd
        refine ⟨d, ?_, rfl⟩
        cases con <;> exact hd
      · cases con <;> rfl
      · intro x hx _
        show _ ∈ (sentCb _ _ _ _ _ _).timers
        unfold sentCb
        cases con <;> simp [clearTrans, newTrans] <;> exact hx

/-- Requests that are prepared in one call and sent in another are left out. -/
def Act.whole : Act → Bool
  | .initPost .. => false
  | .doPost .. => false
  | _ => true

theorem act_kept {cur a s r} (h : Kept s) (hf : ∀ d ∈ s.cbs, d.id < s.next) (ha : a.whole = true) (e : act cur a s = .ok r) : Kept r.2 := by
  have lift : ∀ {x : Out St}, (∀ s', x = .ok s' → Kept s') → (x.bind fun s => .ok (([] : List Frame), s)) = .ok r → Kept r.2 := by
    intro x hx e
    obtain ⟨s1, h1, h2⟩ := Out.bind_ok e
    cases h2; exact hx _ h1
  cases a with
  | req form q how =>
    refine lift (fun s' e => ?_) e
    unfold req at e
    cases form
    · exact doReq_kept (.inr rfl) h hf e
    · exact doReq_kept (.inr rfl) h hf e
    · exact doReq_kept (.inl rfl) h hf e
    · exact doReq_kept (.inl rfl) h hf e
    · exact doReq_kept (.inl rfl) h hf e
  | initPost q how => cases ha
  | doPost con timed how => cases ha
  | post q how => exact lift (fun s' e => post_kept h e) e
  | ping token ep ok => exact lift (fun s' e => ping_kept h e) e
  | stopObserve uri ep mid con sec how => exact lift (fun s' e => stopObserve_kept h e) e
  | stopMulticast =>
    refine lift (fun s' e => ?_) e
    unfold stopMulticast at e
    split at e
    · cases e; exact h
    · split at e
      · cases e
        exact h.same (fun _ hx => upd_ids (f := fun x => { x with stop := true }) (fun _ => rfl) hx) rfl (fun _ hx _ => hx)
      · cases e
  | close ep =>
    cases e
    unfold close
    split
    · exact (h : Kept { s with peers := _ })
    · exact h

theorem setObserve_kept {c obs ep s s'} (h : Kept s) (e : setObserve c obs ep s = .ok s') : Kept s' := by
  unfold setObserve at e
  have hu : Kept { s with cbs := upd c.id (fun x => { x with obs := obs }) s.cbs } := h.upd _ _ (fun _ => rfl)
  dsimp only at e
  split at e
  · split at e
    · cases e; exact hu
    · exact hu.free e
  · cases e; exact hu

theorem unref_kept {s} (h : Kept s) (id) : Kept (unref id s) := h.upd _ _ (fun _ => rfl)

theorem afterInvoke_kept {id obs sep pong ep s r} (h : Kept s) (e : afterInvoke id obs sep pong ep s = .ok r) : Kept r.2 := by
  unfold afterInvoke at e
  split at e
  · split at e
    · cases e
      refine h.same (fun c hc => ⟨c, hc, rfl⟩) rfl (fun x hx e => ?_)
      rw [List.mem_erase_of_ne (by intro h; rw [h] at e; cases e)]; exact hx
    · cases e
  · rename_i c _
    have hd := h.dropPing pong c
    dsimp only at e
    split at e
    · cases e; exact hd
    · split at e
      · split at e
        · split at e <;> cases e <;> exact unref_kept hd id
        · obtain ⟨s1, h1, h2⟩ := Out.bind_ok e
          cases h2; exact hd.free h1
      · obtain ⟨s1, h1, h2⟩ := Out.bind_ok e
        cases h2; exact setObserve_kept (unref_kept hd id) h1

theorem Kept.next {beh c c'} (h : Kept c.st) (hf : ∀ d ∈ c.st.cbs, d.id < c.st.next) (hw : ∀ cur l, .acts cur l ∈ c.stack → ∀ a ∈ l, a.whole = true)
    (hn : next beh c = .ok c') : Kept c'.st := by
  unfold Client.next at hn
  split at hn
  · cases hn; exact h
  · cases hn; exact h
  · rename_i cur a l k e
    obtain ⟨r, h1, h2⟩ := Out.bind_ok hn
    cases h2
    exact act_kept h hf (hw cur (a :: l) (by rw [e]; exact List.mem_cons_self) a List.mem_cons_self) h1
  · split at hn
    · cases hn
      exact h.mono (fun c hc => ⟨c, hc, rfl⟩) ⟨_, rfl⟩ (fun _ hm _ => hm)
    · cases hn
  · obtain ⟨r, h1, h2⟩ := Out.bind_ok hn
    cases h2
    unfold afterNotify at h1
    split at h1
    · cases h1
    · rename_i d _
      cases h1
      have hd := h.dropPing false d
      have := dropPing_same false d c.st
      exact hd.mono (fun c hc => ⟨c, hc, rfl⟩) ⟨[.freed _], by rw [this.2.2.2]⟩ (fun _ hm _ => hm)
  · split at hn
    · split at hn
      · cases hn
      · cases hn; exact h
    · split at hn
      · cases hn; exact unref_kept h _
      · cases hn; exact h
  · obtain ⟨r, h1, h2⟩ := Out.bind_ok hn
    cases h2
    exact afterInvoke_kept h h1
  · obtain ⟨r, h1, h2⟩ := Out.bind_ok hn
    cases h2
    exact h.free h1
  · split at hn
    · cases hn; exact h
    · cases hn; exact h.detach _
  · cases hn; exact h
  · split at hn
    · cases hn
    · split at hn <;> cases hn <;> exact h
  · split at hn
    · cases hn; exact h
    · split at hn
      · cases hn
      · cases hn; exact (h : Kept (clearTrans _ _))
  · split at hn <;> cases hn
    exact h
  · split at hn
    · cases hn
    · split at hn
      · cases hn
        unfold close
        split
        · exact (h : Kept { c.st with peers := _ })
        · exact h
      · cases hn; exact (h : Kept (clearTrans _ _))
  · cases hn; exact h
  · split at hn
    · cases hn
    · split at hn <;> cases hn <;> exact h
  · split at hn <;> cases hn <;> exact h

/-- The calls that are still to be made. -/
theorem acts_next {beh c c'} (hb : ∀ n, ∀ a ∈ beh n, Act.whole a = true) (hw : ∀ cur l, .acts cur l ∈ c.stack → ∀ a ∈ l, Act.whole a = true)
    (hn : next beh c = .ok c') : ∀ cur l, .acts cur l ∈ c'.stack → ∀ a ∈ l, Act.whole a = true := by
  have key : ∀ f ∈ c'.stack, f ∈ c.stack ∨ (∀ cur l, f = .acts cur l → ∀ a ∈ l, a.whole = true) := by
    have hcl : ∀ ep (s : St), ∀ f ∈ (close ep s).1, ∀ cur l, f ≠ .acts cur l := by
      intro ep s f hf cur l
      unfold close at hf
      split at hf
      · simp at hf; rcases hf with rfl | rfl <;> simp
      · cases hf
    have hact : ∀ {cur a s r}, act cur a s = .ok r → ∀ f ∈ r.1, ∀ cur l, f ≠ .acts cur l := by
      intro cur a s r h
      cases a
      case close ep => cases h; exact hcl ep s
      all_goals
        obtain ⟨s1, h1, h2⟩ := Out.bind_ok h
        cases h2
        intro f hf; cases hf
    unfold Client.next at hn
    split at hn
    · cases hn; exact fun f hf => .inl hf
    · rename_i e
      cases hn; rw [e]; exact fun f hf => .inl (List.mem_cons_of_mem _ hf)
    · rename_i cur a l k e
      obtain ⟨r, h1, h2⟩ := Out.bind_ok hn
      cases h2
      intro f hf
      rcases List.mem_append.1 hf with hf | hf
      · exact .inr (fun cur l e => absurd e (hact h1 f hf cur l))
      · rcases List.mem_cons.1 hf with rfl | hf
        · right
          rintro _ _ h a' ha'
          cases h
          exact hw cur (a :: l) (by rw [e]; exact List.mem_cons_self) a' (List.mem_cons_of_mem _ ha')
        · rw [e]; exact .inl (List.mem_cons_of_mem _ hf)
    · rename_i id code k e
      split at hn
      · cases hn
        intro f hf
        rcases List.mem_cons.1 hf with rfl | hf
        · right
          rintro _ _ h
          cases h
          exact hb _
        · rw [e]; exact .inl (List.mem_cons_of_mem _ hf)
      · cases hn
    · rename_i id k e
      obtain ⟨r, h1, h2⟩ := Out.bind_ok hn
      cases h2
      rw [(evo_afterNotify h1).2, e]
      exact fun f hf => .inl (List.mem_cons_of_mem _ hf)
    · rename_i e
      split at hn
      · split at hn
        · cases hn
        · cases hn; rw [e]; grind
      · split at hn <;> cases hn <;> rw [e] <;> grind
    · rename_i e
      obtain ⟨r, h1, h2⟩ := Out.bind_ok hn
      cases h2
      rw [e]
      intro f hf
      rcases List.mem_append.1 hf with hf | hf
      · right
        rintro cur l rfl
        unfold afterInvoke at h1
        exfalso
        split at h1
        · split at h1 <;> cases h1
          cases hf
        · dsimp only at h1
          split at h1
          · cases h1; cases hf
          · split at h1
            · split at h1
              · split at h1 <;> cases h1 <;> simp at hf
              · obtain ⟨s1, _, h2⟩ := Out.bind_ok h1
                cases h2; cases hf
            · obtain ⟨s1, _, h2⟩ := Out.bind_ok h1
              cases h2; cases hf
      · exact .inl (List.mem_cons_of_mem _ hf)
    · rename_i e
      obtain ⟨r, h1, h2⟩ := Out.bind_ok hn
      cases h2
      rw [e]; exact fun f hf => .inl (List.mem_cons_of_mem _ hf)
    · rename_i e
      split at hn <;> cases hn <;> rw [e] <;> grind
    · rename_i e
      cases hn; rw [e]; grind
    · rename_i e
      split at hn
      · cases hn
      · split at hn <;> cases hn <;> rw [e] <;> grind
    · rename_i e
      split at hn
      · cases hn; rw [e]; grind
      · split at hn
        · cases hn
        · cases hn; rw [e]; grind
    · rename_i e
      split at hn <;> cases hn
      rw [e]; grind
    · rename_i e
      split at hn
      · cases hn
      · rename_i x _
        split at hn
        · cases hn
          rw [e]
          intro f hf
          rcases List.mem_append.1 hf with hf | hf
          · exact .inr (fun cur l e => absurd e (hcl _ _ f hf cur l))
          · exact .inl (List.mem_cons_of_mem _ hf)
        · cases hn; rw [e]; grind
    · rename_i e
      cases hn; rw [e]; grind
    · rename_i e
      split at hn
      · cases hn
      · split at hn <;> cases hn <;> rw [e] <;> grind
    · rename_i e
      split at hn <;> cases hn <;> rw [e] <;> grind
  intro cur l hm a ha
  rcases key _ hm with h | h
  · exact hw cur l h a ha
  · exact h cur l rfl a ha

def Op.whole : Op → Bool
  | .act a => a.whole
  | _ => true

/-- The configurations that can be reached without preparing a request in one call and sending it in another. -/
inductive ReachW (beh : Nat → List Act) : Conf → Prop where
  | init : ReachW beh ⟨[], init⟩
  | op {s o c} : ReachW beh ⟨[], s⟩ → o.whole = true → start o s = .ok c → ReachW beh c
  | step {c c'} : ReachW beh c → next beh c = .ok c' → ReachW beh c'

theorem ReachW.reach {beh c} (h : ReachW beh c) : Reach beh c := by
  induction h with
  | init => exact .init
  | op _ _ hs ih => exact .op ih hs
  | step _ hn ih => exact .step ih hn

theorem Acc.ids {s} (h : Acc s) : ∀ d ∈ s.cbs, d.id < s.next := fun d hd => by
  have := h d.id
  have hp : 0 < cnt d.id s.mem := cnt_pos.2 ⟨d, List.mem_append_left _ hd, rfl⟩
  by_cases hl : d.id < s.next
  · exact hl
  · rw [if_neg hl] at this; omega

theorem Kept.start {s o c} (h : Kept s) (hf : ∀ d ∈ s.cbs, d.id < s.next) (ho : o.whole = true) (hs : start o s = .ok c) : Kept c.st ∧ ∀ cur l, .acts cur l ∉ c.stack := by
  unfold Client.start at hs
  split at hs
  · obtain ⟨r, h1, h2⟩ := Out.bind_ok hs
    cases h2
    refine ⟨act_kept h hf ho h1, fun cur l hm => ?_⟩
    rename_i a
    cases a
    case close ep =>
      cases h1
      unfold close at hm
      split at hm <;> simp at hm
    all_goals
      simp only [act] at h1
      obtain ⟨s1, h3, h4⟩ := Out.bind_ok h1
      cases h4
      cases hm
  · split at hs
    · rename_i mid _ _ _ _ _ _ _ _ _
      cases hs
      have := clearMid_same mid s
      refine ⟨?_, fun _ _ hm => (by cases hm)⟩
      exact h.same (by rw [this.1]; exact fun c hc => ⟨c, hc, rfl⟩) this.2.2.2.2 (by
        intro x hx _
        unfold clearMid
        split
        · exact hx
        · exact hx)
    · rename_i mid _ ep obs body pong old stop _ d hd
      cases hs
      have := clearMid_same mid s
      constructor
      · rw [respond_st]
        refine h.mono ?_ ⟨_, by rw [this.2.2.2.2]⟩ ?_
        · intro x hx
          have := upd_ids (f := fun x => { x with ref := true }) (fun _ => rfl) hx
          rw [(clearMid_same mid s).1] at this
          exact this
        · intro i hi _
          show _ ∈ (clearMid mid s).timers
          unfold clearMid
          split
          · exact hi
          · exact hi
      · intro cur l hm
        rcases respond_stack d ep obs body pong old stop (clearMid mid s) with e | ⟨sep, e⟩ | ⟨_, e⟩ | ⟨_, e⟩ | ⟨_, e⟩ <;> rw [e] at hm <;> simp at hm
  · split at hs
    · split at hs
      · cases hs
      · rename_i id kind _ _ d hd
        have hdi : d.id = id := by simpa using List.find?_some hd
        unfold fire at hs
        cases kind with
        | remove =>
          obtain ⟨r, h2, h3⟩ := Out.bind_ok hs
          cases h3
          refine ⟨?_, fun _ _ hm => (by cases hm)⟩
          obtain ⟨_, rfl⟩ := freeCb_ok h2
          refine h.mono (fun c hc => ⟨c, (List.mem_filter.1 hc).1, rfl⟩) ⟨_, rfl⟩ ?_
          rintro i hm ⟨c, hc, rfl⟩
          have hne : c.id ≠ d.id := by simpa using (List.mem_filter.1 hc).2
          refine keep_dropTimers ?_ hne
          rw [List.mem_erase_of_ne (by grind)]
          exact hm
        | timeout =>
          cases hs
          refine ⟨Kept.detach ?_ d, fun _ _ hm => by simp at hm⟩
          refine h.same (fun c hc => ⟨c, hc, rfl⟩) rfl (fun x hx e => ?_)
          rw [List.mem_erase_of_ne (by intro h; rw [h] at e; cases e)]; exact hx
        | ping =>
          cases hs
          refine ⟨?_, fun _ _ hm => by simp at hm⟩
          refine h.same (fun c hc => ⟨c, hc, rfl⟩) rfl (fun x hx e => ?_)
          rw [List.mem_erase_of_ne (by intro h; rw [h] at e; cases e)]; exact hx
    · cases hs; exact ⟨h, fun _ _ hm => (by cases hm)⟩
  · cases hs; exact ⟨h, fun _ _ hm => by simp at hm⟩
  · cases hs; exact ⟨(h : Kept { s with peers := _ }), fun _ _ hm => (by cases hm)⟩

theorem kept_reach {beh c} (hb : ∀ n, ∀ a ∈ beh n, Act.whole a = true) (h : ReachW beh c) :
    Kept c.st ∧ ∀ cur l, .acts cur l ∈ c.stack → ∀ a ∈ l, Act.whole a = true := by
  induction h with
  | init => exact ⟨fun _ h => (by cases h), fun _ _ h => (by cases h)⟩
  | op h0 ho hs ih =>
    have := ih.1.start (acc_reach h0.reach).ids ho hs
    exact ⟨this.1, fun cur l hm => absurd hm (this.2 cur l)⟩
  | step h0 hn ih => exact ⟨ih.1.next (acc_reach h0.reach).ids ih.2 hn, acts_next hb ih.2 hn⟩

end Verif.Client
