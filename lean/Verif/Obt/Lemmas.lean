import Verif.Obt.Spec
/-!
Invariant of the onboarding tool.
-/
namespace Verif.Obt

theorem handle_id {s : St} {i : Nat} {x : Handle} (h : s.handle i = some x) : x.id = i := by
  have := List.find?_some h
  simpa using this

theorem find_map (f : Handle → Handle) (hf : ∀ x, (f x).id = x.id) (l : List Handle) (i : Nat) :
    (l.map f).find? (·.id == i) = (l.find? (·.id == i)).map f := by
  induction l with
  | nil => rfl
  | cons a l ih =>
    simp only [List.map_cons, List.find?_cons, hf]
    cases h : (a.id == i) <;> simp [ih]

theorem find_filter_ne {i j : Nat} (h : i ≠ j) (l : List Handle) :
    (l.filter (·.id != j)).find? (·.id == i) = l.find? (·.id == i) := by
  induction l with
  | nil => rfl
  | cons a l ih =>
    by_cases ha : a.id = j
    · have : ¬ a.id = i := fun e => h (e.symm.trans ha)
      simp [List.filter_cons, List.find?_cons, ha, ih, this, show ¬ j = i from fun e => h e.symm]
    · by_cases hi : a.id = i <;> simp [List.filter_cons, List.find?_cons, ha, ih, hi, h]

theorem find_filter_self (j : Nat) (l : List Handle) :
    (l.filter (·.id != j)).find? (·.id == j) = none := by
  rw [List.find?_eq_none]
  intro x hx
  simp only [List.mem_filter, bne_iff_ne] at hx
  simpa using hx.2

/-- The credentials for a subject. -/
def own (u : Id) (l : List Cred) : List Cred := l.filter (·.subj == u)

theorem own_remove_self (u : Id) (l : List Cred) : own u (removeBy u l) = (own u l).tail := by
  induction l with
  | nil => rfl
  | cons a l ih =>
    by_cases ha : a.subj = u
    · simp [own, removeBy, ha]
    · simp only [own] at ih
      simp [own, removeBy, ha, ih]

theorem own_remove_ne {u v : Id} (h : u ≠ v) (l : List Cred) : own u (removeBy v l) = own u l := by
  induction l with
  | nil => rfl
  | cons a l ih =>
    simp only [own] at ih
    by_cases ha : a.subj = v
    · simp [own, removeBy, ha, List.filter_cons, show ¬ v = u from fun e => h e.symm]
    · simp [own, removeBy, ha, List.filter_cons, ih]

theorem own_append_self (l : List Cred) (c : Cred) : own c.subj (l ++ [c]) = own c.subj l ++ [c] := by
  simp [own]

theorem own_append_ne {u : Id} {c : Cred} (h : u ≠ c.subj) (l : List Cred) : own u (l ++ [c]) = own u l := by
  simp [own, show ¬ c.subj = u from fun e => h e.symm]

theorem mem_own {u : Id} {l : List Cred} {c : Cred} : c ∈ own u l ↔ c ∈ l ∧ c.subj = u := by
  simp [own]

theorem tail_nil {l : List Cred} (h : l.length ≤ 1) : l.tail = [] := by
  match l, h with
  | [], _ => rfl
  | [_], _ => rfl

/-- Number of a request in its sequence. -/
def Req.stage : Req → Nat
  | .getDoxm => 0
  | .sel _ => 1
  | .om4 => 2
  | .devowner _ => 3
  | .devuuid _ => 4
  | .rowDoxm _ => 5
  | .rowAcl _ => 6
  | .rowPstat _ => 7
  | .cred _ => 8
  | .sdi _ => 9
  | .owned => 10
  | .rfpro => 11
  | .delAcl => 12
  | .postAcl _ _ => 13
  | .rfnop => 14
  | .toReset => 15
  | .toRfpro1 => 16
  | .toRfpro2 => 17
  | .cred1 _ _ => 18
  | .cred2 _ _ => 19
  | .ace _ => 20
  | .toRfnop1 => 21
  | .toRfnop2 => 22

/-- What holds of a device while request `n` of a transfer is outstanding. -/
structure OtmFacts (me dom : Id) (oxm : Nat) (sdi : Bool) (d : Dev) (u : Id) (o : List Cred) (n : Nat) : Prop where
  sel : 3 ≤ n → d.sel = oxm ∧ d.om = 4
  devowner : 4 ≤ n → d.devowner = me
  uuid : 5 ≤ n → d.uuid = u
  rowDoxm : 6 ≤ n → d.rowDoxm = me
  rowAcl : 7 ≤ n → d.rowAcl = me
  rowPstat : 8 ≤ n → d.rowPstat = me
  cred : 9 ≤ n → d.rowCred = me ∧ d.key = some ⟨oxm, d.sess, u, me⟩
  dom : 10 ≤ n → sdi = true → d.sdi = dom
  owned : 11 ≤ n → d.owned = true
  noAcl : n = 13 → d.acl = []
  acl : 14 ≤ n → d.acl = [(me, sdi)]
  none : 4 ≤ n → n ≤ 7 → o = []
  one : 8 ≤ n → o = [⟨u, true, some ⟨oxm, d.sess, u, me⟩⟩]

/-- What the outstanding request of a transfer says. -/
def Payload (me dom : Id) (oxm : Nat) (sdi : Bool) (u : Id) : Req → Prop
  | .getDoxm | .om4 | .owned | .rfpro | .delAcl | .rfnop => True
  | .sel x => x = oxm
  | .devowner x | .rowDoxm x | .rowAcl x | .rowPstat x | .cred x => x = me
  | .devuuid x => x = u
  | .sdi x => x = dom
  | .postAcl x y => x = me ∧ y = sdi
  | _ => False

/-- What holds while a request is outstanding. -/
def Facts (me dom : Id) (k : Kind) (sdi : Bool) (d d2 : Dev) (u u2 : Id) (o : List Cred) (r : Req) : Prop :=
  match k with
  | .otm m => Payload me dom m.oxm sdi u r ∧ OtmFacts me dom m.oxm sdi d u o r.stage
  | .pin => r = .getDoxm ∨ r = .sel 1
  | .reset => r = .toReset
  | .ace n => r = .toRfpro1 ∨ r = .ace n ∨ (r = .toRfnop1 ∧ n ∈ d.aces)
  | .pair => r = .toRfpro1 ∨ r = .toRfpro2 ∨ (∃ k, r = .cred1 u2 k) ∨ (∃ k, r = .cred2 u k ∧ (u2, k) ∈ d.peers) ∨
      ∃ k, (u2, k) ∈ d.peers ∧ (u, k) ∈ d2.peers ∧ (r = .toRfnop1 ∨ (r = .toRfnop2 ∧ d.dos = .rfnop))

/-- The cached devices of a context. -/
structure Base (s : St) (c : Ctx) (h h2 : Handle) : Prop where
  h1 : s.handle c.h = some h
  h2' : s.handle c.h2 = some h2
  same : c.kind ≠ .pair → c.h2 = c.h
  diff : c.kind = .pair → h.addr ≠ h2.addr

/-- A cached device belongs to a context. -/
def OfC (s : St) (c : Ctx) (x : Handle) : Prop := s.handle c.h = some x ∨ s.handle c.h2 = some x

/-- The request of a context. -/
def PendOk (s : St) (c : Ctx) : Prop :=
  ∃ p ∈ s.pend, p.ctx = c.id ∧ ∃ h h2, Base s c h h2 ∧ p.addr = (if p.req.second then h2.addr else h.addr) ∧
    Facts s.me s.domain c.kind c.sdi (s.net h.addr) (s.net h2.addr) h.uuid h2.uuid (own h.uuid s.creds) p.req

/-- Invariant; the context `ex` has no request at the moment. -/
structure Inv (ex : Option Nat) (s : St) : Prop where
  idLt : ∀ i x, s.handle i = some x → i < s.next
  cache : ∀ i ∈ s.cache, ∃ x, s.handle i = some x
  devs : ∀ i ∈ s.devs, ∃ x, s.handle i = some x
  eps : ∀ i ∈ s.eps, ∃ x, s.handle i = some x
  one : ∀ u, (own u s.creds).length ≤ 1
  temp : ∀ c ∈ s.creds, c.owner = false → ∃ k ∈ s.ctxs, k.kind = .otm .rdp ∧ ∃ x, s.handle k.h = some x ∧ x.uuid = c.subj
  ctxNodup : (s.ctxs.map (·.id)).Nodup
  ctxLt : ∀ c ∈ s.ctxs, c.id < s.next
  base : ∀ c ∈ s.ctxs, ∃ h h2, Base s c h h2
  excl : ∀ c ∈ s.ctxs, ∀ c' ∈ s.ctxs, c.id ≠ c'.id → ∀ x y, OfC s c x → OfC s c' y → x.addr ≠ y.addr ∧ x.uuid ≠ y.uuid
  notEps : ∀ c ∈ s.ctxs, c.h ∉ s.eps ∧ c.h2 ∉ s.eps
  pendOk : ∀ p ∈ s.pend, some p.ctx ≠ ex ∧ ∃ c ∈ s.ctxs, c.id = p.ctx
  pendNodup : (s.pend.map (·.ctx)).Nodup
  ctxPend : ∀ c ∈ s.ctxs, some c.id ≠ ex → PendOk s c
  logCtx : ∀ e ∈ s.log, e.ctx < s.next ∧ ∀ c ∈ s.ctxs, c.id ≠ e.ctx
  logNodup : (s.log.map (·.ctx)).Nodup
  logSpec : ∀ e ∈ s.log, CbSpec s.me s.domain e
  logGone : ∀ e ∈ s.log, e.h < s.next ∧ (e.gone = true → s.handle e.h = none)

theorem ctx_eq {s : St} (hn : (s.ctxs.map (·.id)).Nodup) {c c' : Ctx} (h : c ∈ s.ctxs) (h' : c' ∈ s.ctxs)
    (he : c.id = c'.id) : c = c' := by
  generalize s.ctxs = l at hn h h'
  induction l with
  | nil => cases h
  | cons a l ih =>
    simp only [List.map_cons, List.nodup_cons, List.mem_map, not_exists, not_and] at hn
    rcases List.mem_cons.1 h with e | h <;> rcases List.mem_cons.1 h' with e' | h'
    · rw [e, e']
    · rw [e] at he; exact absurd he.symm (hn.1 _ h')
    · rw [e'] at he; exact absurd he (hn.1 _ h)
    · exact ih hn.2 h h'

/-- A context keeps its request when what it looks at stays the same. -/
theorem pendOk_frame {s s' : St} {c : Ctx} (h : PendOk s c)
    (hp : ∀ p ∈ s.pend, p.ctx = c.id → p ∈ s'.pend) (hme : s'.me = s.me) (hd : s'.domain = s.domain)
    (hh : ∀ x, OfC s c x → ∃ y, (s.handle c.h = some x → s'.handle c.h = some y) ∧
      (s.handle c.h2 = some x → s'.handle c.h2 = some y) ∧ y.addr = x.addr ∧ y.uuid = x.uuid ∧
      s'.net x.addr = s.net x.addr ∧ own x.uuid s'.creds = own x.uuid s.creds) : PendOk s' c := by
  obtain ⟨p, hpm, hpc, h1, h2, hb, ha, hf⟩ := h
  obtain ⟨y1, g1, g1', a1, u1, n1, o1⟩ := hh h1 (.inl hb.h1)
  obtain ⟨y2, g2, g2', a2, u2, n2, o2⟩ := hh h2 (.inr hb.h2')
  refine ⟨p, hp p hpm hpc, hpc, y1, y2, ⟨g1 hb.h1, g2' hb.h2', hb.same, ?_⟩, ?_, ?_⟩
  · intro hk; rw [a1, a2]; exact hb.diff hk
  · rw [a1, a2]; exact ha
  · rw [hme, hd, a1, a2, u1, u2, n1, n2, o1]; exact hf

/-- Requests are sent and the context has one again. -/
theorem inv_pend {s : St} {c : Ctx} {h h2 : Handle} (hI : Inv (some c.id) s) (hc : c ∈ s.ctxs) (hb : Base s c h h2) (r : Req)
    (hf : Facts s.me s.domain c.kind c.sdi (s.net h.addr) (s.net h2.addr) h.uuid h2.uuid (own h.uuid s.creds) r)
    (sec : Bool) :
    Inv none { s with pend := s.pend ++ [⟨c.id, r, if r.second then h2.addr else h.addr, sec⟩] } where
  idLt := hI.idLt
  cache := hI.cache
  devs := hI.devs
  eps := hI.eps
  one := hI.one
  temp := hI.temp
  ctxNodup := hI.ctxNodup
  ctxLt := hI.ctxLt
  base := fun c' hc' => by
    obtain ⟨a, b, hab⟩ := hI.base c' hc'
    exact ⟨a, b, ⟨hab.h1, hab.h2', hab.same, hab.diff⟩⟩
  excl := hI.excl
  notEps := hI.notEps
  pendOk := by
    intro p hp
    refine ⟨by simp, ?_⟩
    rcases List.mem_append.1 hp with hp | hp
    · exact (hI.pendOk p hp).2
    · simp only [List.mem_singleton] at hp; subst hp; exact ⟨c, hc, rfl⟩
  pendNodup := by
    simp only [List.map_append, List.map_cons, List.map_nil]
    rw [List.nodup_append]
    refine ⟨hI.pendNodup, by simp, ?_⟩
    intro a ha b hb2 he
    simp only [List.mem_singleton] at hb2
    subst hb2; subst he
    obtain ⟨p, hp, hpe⟩ := List.mem_map.1 ha
    exact (hI.pendOk p hp).1 (by rw [hpe])
  ctxPend := by
    intro c' hc' _
    by_cases he : c'.id = c.id
    · have := ctx_eq hI.ctxNodup hc' hc he; subst this
      exact ⟨_, List.mem_append_right _ (List.mem_singleton.2 rfl), rfl, h, h2, ⟨hb.h1, hb.h2', hb.same, hb.diff⟩, rfl, hf⟩
    · refine pendOk_frame (hI.ctxPend c' hc' (by simpa using he)) ?_ rfl rfl ?_
      · intro p hp _; exact List.mem_append_left _ hp
      · intro x _; exact ⟨x, fun g => g, fun g => g, rfl, rfl, rfl, rfl⟩
  logCtx := hI.logCtx
  logNodup := hI.logNodup
  logSpec := hI.logSpec
  logGone := hI.logGone

/-- Credentials of the device of a context change. -/
theorem inv_creds {s : St} {c : Ctx} {h h2 : Handle} (hI : Inv (some c.id) s) (hc : c ∈ s.ctxs) (hb : Base s c h h2)
    (l : List Cred) (ho : ∀ u, u ≠ h.uuid → own u l = own u s.creds) (h1 : (own h.uuid l).length ≤ 1)
    (ht : ∀ x ∈ own h.uuid l, x.owner = false → x ∈ s.creds ∨ c.kind = .otm .rdp) : Inv (some c.id) { s with creds := l } where
  idLt := hI.idLt
  cache := hI.cache
  devs := hI.devs
  eps := hI.eps
  one := by
    intro u
    by_cases hu : u = h.uuid
    · rw [hu]; exact h1
    · show (own u l).length ≤ 1
      rw [ho u hu]; exact hI.one u
  temp := by
    intro x hx hxo
    by_cases hu : x.subj = h.uuid
    · rcases ht x (mem_own.2 ⟨hx, hu⟩) hxo with g | g
      · exact hI.temp x g hxo
      · exact ⟨c, hc, g, h, hb.h1, hu.symm⟩
    · have : x ∈ own x.subj l := mem_own.2 ⟨hx, rfl⟩
      rw [ho _ hu] at this
      exact hI.temp x (mem_own.1 this).1 hxo
  ctxNodup := hI.ctxNodup
  ctxLt := hI.ctxLt
  base := fun c' hc' => by
    obtain ⟨a, b, hab⟩ := hI.base c' hc'
    exact ⟨a, b, ⟨hab.h1, hab.h2', hab.same, hab.diff⟩⟩
  excl := hI.excl
  notEps := hI.notEps
  pendOk := hI.pendOk
  pendNodup := hI.pendNodup
  ctxPend := by
    intro c' hc' hne
    refine pendOk_frame (hI.ctxPend c' hc' hne) (fun p hp _ => hp) rfl rfl ?_
    intro x hx
    refine ⟨x, fun g => g, fun g => g, rfl, rfl, rfl, ho _ ?_⟩
    exact (hI.excl c' hc' c hc (by simpa using hne) x h hx (.inl hb.h1)).2
  logCtx := hI.logCtx
  logNodup := hI.logNodup
  logSpec := hI.logSpec
  logGone := hI.logGone

/-- The device of a context changes. -/
theorem inv_net {s : St} {ex : Option Nat} (hI : Inv ex s) (a : Nat) (d : Dev)
    (ha : ∀ c ∈ s.ctxs, some c.id ≠ ex → ∀ x, OfC s c x → x.addr ≠ a) :
    Inv ex { s with net := fun x => if x = a then d else s.net x } where
  idLt := hI.idLt
  cache := hI.cache
  devs := hI.devs
  eps := hI.eps
  one := hI.one
  temp := hI.temp
  ctxNodup := hI.ctxNodup
  ctxLt := hI.ctxLt
  base := fun c' hc' => by
    obtain ⟨a, b, hab⟩ := hI.base c' hc'
    exact ⟨a, b, ⟨hab.h1, hab.h2', hab.same, hab.diff⟩⟩
  excl := hI.excl
  notEps := hI.notEps
  pendOk := hI.pendOk
  pendNodup := hI.pendNodup
  ctxPend := by
    intro c' hc' hne
    refine pendOk_frame (hI.ctxPend c' hc' hne) (fun p hp _ => hp) rfl rfl ?_
    intro x hx
    refine ⟨x, fun g => g, fun g => g, rfl, rfl, ?_, rfl⟩
    simp [ha c' hc' hne x hx]
  logCtx := hI.logCtx
  logNodup := hI.logNodup
  logSpec := hI.logSpec
  logGone := hI.logGone

/-- The request of a context is answered. -/
theorem inv_answered {s : St} (hI : Inv none s) (i : Nat) :
    Inv (some i) { s with pend := s.pend.filter (·.ctx != i) } where
  idLt := hI.idLt
  cache := hI.cache
  devs := hI.devs
  eps := hI.eps
  one := hI.one
  temp := hI.temp
  ctxNodup := hI.ctxNodup
  ctxLt := hI.ctxLt
  base := fun c' hc' => by
    obtain ⟨a, b, hab⟩ := hI.base c' hc'
    exact ⟨a, b, ⟨hab.h1, hab.h2', hab.same, hab.diff⟩⟩
  excl := hI.excl
  notEps := hI.notEps
  pendOk := by
    intro p hp
    simp only [List.mem_filter, bne_iff_ne] at hp
    exact ⟨by simpa using hp.2, (hI.pendOk p hp.1).2⟩
  pendNodup := by
    exact List.Sublist.nodup (List.Sublist.map _ List.filter_sublist) hI.pendNodup
  ctxPend := by
    intro c' hc' hne
    refine pendOk_frame (hI.ctxPend c' hc' (by simp)) ?_ rfl rfl ?_
    · intro p hp hpc
      simp only [List.mem_filter, bne_iff_ne]
      refine ⟨hp, ?_⟩
      rw [hpc]; simpa using hne
    · intro x hx; exact ⟨x, fun g => g, fun g => g, rfl, rfl, rfl, rfl⟩
  logCtx := hI.logCtx
  logNodup := hI.logNodup
  logSpec := hI.logSpec
  logGone := hI.logGone

/-- A transfer remembers whether the device has a security domain. -/
theorem inv_sdi {s : St} {c : Ctx} (hI : Inv (some c.id) s) (hc : c ∈ s.ctxs) (v : Bool) :
    Inv (some c.id) { s with ctxs := s.ctxs.map fun x => if x.id = c.id then { c with sdi := v } else x } := by
  have hm : ∀ x ∈ s.ctxs.map (fun x => if x.id = c.id then { c with sdi := v } else x),
      ∃ y ∈ s.ctxs, y.id = x.id ∧ y.h = x.h ∧ y.h2 = x.h2 ∧ y.kind = x.kind ∧ (x.id ≠ c.id → x = y) := by
    intro x hx
    obtain ⟨y, hy, rfl⟩ := List.mem_map.1 hx
    by_cases he : y.id = c.id
    · have := ctx_eq hI.ctxNodup hy hc he; subst this
      refine ⟨y, hy, ?_⟩
      simp
    · refine ⟨y, hy, ?_⟩
      simp [he]
  have hids : (s.ctxs.map fun x => if x.id = c.id then { c with sdi := v } else x).map (·.id) = s.ctxs.map (·.id) := by
    rw [List.map_map]
    apply List.map_congr_left
    intro x _
    simp only [Function.comp]
    split
    · rename_i h; exact h.symm
    · rfl
  have hof : ∀ x y : Ctx, y.h = x.h → y.h2 = x.h2 → ∀ z, OfC s x z → OfC s y z := by
    intro x y e1 e2 z hz
    unfold OfC at *
    rw [e1, e2]; exact hz
  constructor
  · exact hI.idLt
  · exact hI.cache
  · exact hI.devs
  · exact hI.eps
  · exact hI.one
  · intro x hx hxo
    obtain ⟨k, hk, hkk, z, hz, hzu⟩ := hI.temp x hx hxo
    refine ⟨_, List.mem_map.2 ⟨k, hk, rfl⟩, ?_⟩
    by_cases he : k.id = c.id
    · have := ctx_eq hI.ctxNodup hk hc he; subst this
      simp only [if_true]
      exact ⟨hkk, z, hz, hzu⟩
    · simp only [he, if_false]
      exact ⟨hkk, z, hz, hzu⟩
  · show ((s.ctxs.map fun x => if x.id = c.id then { c with sdi := v } else x).map (·.id)).Nodup
    rw [hids]; exact hI.ctxNodup
  · intro x hx
    obtain ⟨y, hy, e, _⟩ := hm x hx
    rw [← e]; exact hI.ctxLt y hy
  · intro x hx
    obtain ⟨y, hy, e, e1, e2, e3, _⟩ := hm x hx
    obtain ⟨a, b, hab⟩ := hI.base y hy
    refine ⟨a, b, ⟨?_, ?_, ?_, ?_⟩⟩
    · rw [← e1]; exact hab.h1
    · rw [← e2]; exact hab.h2'
    · rw [← e1, ← e2, ← e3]; exact hab.same
    · rw [← e3]; exact hab.diff
  · intro x hx x' hx' hne z z' hz hz'
    obtain ⟨y, hy, e, e1, e2, _⟩ := hm x hx
    obtain ⟨y', hy', e', e1', e2', _⟩ := hm x' hx'
    exact hI.excl y hy y' hy' (by rw [e, e']; exact hne) z z' (hof x y e1 e2 z hz) (hof x' y' e1' e2' z' hz')
  · intro x hx
    obtain ⟨y, hy, e, e1, e2, _⟩ := hm x hx
    show x.h ∉ s.eps ∧ x.h2 ∉ s.eps
    rw [← e1, ← e2]; exact hI.notEps y hy
  · intro p hp
    obtain ⟨h1, c', hc', he⟩ := hI.pendOk p hp
    refine ⟨h1, _, List.mem_map.2 ⟨c', hc', rfl⟩, ?_⟩
    split
    · rename_i h; rw [← he, h]
    · exact he
  · exact hI.pendNodup
  · intro x hx hne
    obtain ⟨y, hy, e, _, _, _, he⟩ := hm x hx
    have := he (by simpa using hne); subst this
    refine pendOk_frame (hI.ctxPend x hy hne) (fun p hp _ => hp) rfl rfl ?_
    intro z _; exact ⟨z, fun g => g, fun g => g, rfl, rfl, rfl, rfl⟩
  · intro e he
    refine ⟨(hI.logCtx e he).1, ?_⟩
    intro x hx
    obtain ⟨y, hy, e1, _⟩ := hm x hx
    rw [← e1]; exact (hI.logCtx e he).2 y hy
  · exact hI.logNodup
  · exact hI.logSpec
  · exact hI.logGone

/-- The cached device of a transfer gets a new UUID. -/
theorem inv_uuid {s : St} {c : Ctx} {h h2 : Handle} (hI : Inv (some c.id) s) (hc : c ∈ s.ctxs) (hb : Base s c h h2)
    (hk : c.kind ≠ .pair) (u : Id) (hn : own h.uuid s.creds = [] ∨ c.kind ≠ .otm .rdp)
    (hu : ∀ i x, s.handle i = some x → x.uuid ≠ u) :
    Inv (some c.id) { s with heap := s.heap.map fun x => if x.id = h.id then { x with uuid := u } else x } := by
  have hid : h.id = c.h := handle_id hb.h1
  have hg : ∀ i, ({ s with heap := s.heap.map fun x => if x.id = h.id then { x with uuid := u } else x } : St).handle i =
      (s.handle i).map fun x => if x.id = h.id then { x with uuid := u } else x := by
    intro i
    exact find_map _ (by intro x; split <;> rfl) s.heap i
  have hsome : ∀ i, (∃ x, s.handle i = some x) →
      ∃ x, ({ s with heap := s.heap.map fun x => if x.id = h.id then { x with uuid := u } else x } : St).handle i = some x := by
    intro i ⟨x, hx⟩
    rw [hg, hx]; exact ⟨_, rfl⟩
  have hother : ∀ i, i ≠ c.h → ({ s with heap := s.heap.map fun x => if x.id = h.id then { x with uuid := u } else x } : St).handle i = s.handle i := by
    intro i hi
    rw [hg]
    cases hx : s.handle i with
    | none => rfl
    | some x =>
      have := handle_id hx
      simp [this, hid, hi]
  have hself : ({ s with heap := s.heap.map fun x => if x.id = h.id then { x with uuid := u } else x } : St).handle c.h = some { h with uuid := u } := by
    rw [hg, hb.h1]; simp
  have h2e : c.h2 = c.h := hb.same hk
  have hne : ∀ c' ∈ s.ctxs, c'.id ≠ c.id → c'.h ≠ c.h ∧ c'.h2 ≠ c.h := by
    intro c' hc' hn'
    obtain ⟨a, b, hab⟩ := hI.base c' hc'
    constructor
    · intro e
      exact (hI.excl c' hc' c hc hn' a a (.inl hab.h1) (.inl (by rw [← e]; exact hab.h1))).1 rfl
    · intro e
      exact (hI.excl c' hc' c hc hn' b b (.inr hab.h2') (.inl (by rw [← e]; exact hab.h2'))).1 rfl
  have hofs : ∀ c' ∈ s.ctxs, c'.id ≠ c.id → ∀ x, OfC { s with heap := s.heap.map fun x => if x.id = h.id then { x with uuid := u } else x } c' x → OfC s c' x := by
    intro c' hc' hn' x hx
    unfold OfC at *
    rw [hother _ (hne c' hc' hn').1, hother _ (hne c' hc' hn').2] at hx
    exact hx
  have hofc : ∀ x, OfC { s with heap := s.heap.map fun x => if x.id = h.id then { x with uuid := u } else x } c x → x = { h with uuid := u } := by
    intro x hx
    unfold OfC at hx
    rw [h2e, hself] at hx
    rcases hx with hx | hx <;> (cases hx; rfl)
  constructor
  · intro i x hx
    rw [hg] at hx
    cases hy : s.handle i with
    | none => rw [hy] at hx; cases hx
    | some y => exact hI.idLt i y hy
  · exact fun i hi => hsome i (hI.cache i hi)
  · exact fun i hi => hsome i (hI.devs i hi)
  · exact fun i hi => hsome i (hI.eps i hi)
  · exact hI.one
  · intro x hx hxo
    obtain ⟨k, hk', hkk, z, hz, hzu⟩ := hI.temp x hx hxo
    by_cases he : k.id = c.id
    · have := ctx_eq hI.ctxNodup hk' hc he; subst this
      rcases hn with hn | hn
      · rw [hb.h1] at hz; cases hz
        have : x ∈ own h.uuid s.creds := mem_own.2 ⟨hx, hzu.symm⟩
        rw [hn] at this; cases this
      · exact absurd hkk hn
    · exact ⟨k, hk', hkk, z, by rw [hother _ (hne k hk' he).1]; exact hz, hzu⟩
  · exact hI.ctxNodup
  · exact hI.ctxLt
  · intro c' hc'
    by_cases he : c'.id = c.id
    · have := ctx_eq hI.ctxNodup hc' hc he; subst this
      exact ⟨_, _, hself, by rw [h2e]; exact hself, hb.same, fun h => absurd h hk⟩
    · obtain ⟨a, b, hab⟩ := hI.base c' hc'
      exact ⟨a, b, by rw [hother _ (hne c' hc' he).1]; exact hab.h1, by rw [hother _ (hne c' hc' he).2]; exact hab.h2', hab.same, hab.diff⟩
  · intro c1 hc1 c2 hc2 hn12 x y hx hy
    by_cases he1 : c1.id = c.id
    · have := ctx_eq hI.ctxNodup hc1 hc he1; subst this
      have hy' := hofs c2 hc2 (fun e => hn12 e.symm) y hy
      have hx' := hofc x hx
      subst hx'
      refine ⟨(hI.excl c1 hc1 c2 hc2 hn12 h y (.inl hb.h1) hy').1, ?_⟩
      rcases hy' with hy' | hy' <;> exact fun e => hu _ y hy' e.symm
    · have hx' := hofs c1 hc1 he1 x hx
      by_cases he2 : c2.id = c.id
      · have := ctx_eq hI.ctxNodup hc2 hc he2; subst this
        have hy' := hofc y hy
        subst hy'
        refine ⟨(hI.excl c1 hc1 c2 hc2 hn12 x h hx' (.inl hb.h1)).1, ?_⟩
        rcases hx' with hx' | hx' <;> exact hu _ x hx'
      · exact hI.excl c1 hc1 c2 hc2 hn12 x y hx' (hofs c2 hc2 he2 y hy)
  · exact hI.notEps
  · exact hI.pendOk
  · exact hI.pendNodup
  · intro c' hc' hne'
    have he : c'.id ≠ c.id := by simpa using hne'
    refine pendOk_frame (hI.ctxPend c' hc' hne') (fun p hp _ => hp) rfl rfl ?_
    intro x hx
    refine ⟨x, ?_, ?_, rfl, rfl, rfl, rfl⟩
    · intro g; rw [hother _ (hne c' hc' he).1]; exact g
    · intro g; rw [hother _ (hne c' hc' he).2]; exact g
  · exact hI.logCtx
  · exact hI.logNodup
  · exact hI.logSpec
  · intro e he
    refine ⟨(hI.logGone e he).1, fun hge => ?_⟩
    rw [hg, (hI.logGone e he).2 hge]; rfl

/-- The entry of the log at the end of a sequence. -/
def entry (s : St) (c : Ctx) (h h2 : Handle) (ok : Bool) : Cb :=
  ⟨c.id, c.kind, h.id, h.uuid, ok, h2.uuid, s.creds.filter (·.subj == h.uuid), s.net h.addr, s.net h2.addr⟩

/-- A context ends, its cached device stays. -/
theorem inv_end {s : St} {c : Ctx} {h h2 : Handle} (hI : Inv (some c.id) s) (hc : c ∈ s.ctxs) (hb : Base s c h h2)
    (ok : Bool) (cache devs : List Nat) (hca : ∀ i ∈ cache, ∃ x, s.handle i = some x) (hde : ∀ i ∈ devs, ∃ x, s.handle i = some x)
    (ht : ∀ x ∈ own h.uuid s.creds, x.owner = true) (e : Cb) (he : e = entry s c h h2 ok) (hs : CbSpec s.me s.domain e) (hg : e.gone = false) :
    Inv none { s with ctxs := s.ctxs.filter (·.id != c.id), cache := cache, devs := devs, log := s.log ++ [e] } := by
  have hec : e.ctx = c.id := by rw [he]; rfl
  have heh : e.h = c.h := by rw [he]; exact handle_id hb.h1
  have hm : ∀ x, x ∈ s.ctxs.filter (·.id != c.id) ↔ x ∈ s.ctxs ∧ x.id ≠ c.id := by
    intro x; simp
  constructor
  · exact hI.idLt
  · exact hca
  · exact hde
  · exact hI.eps
  · exact hI.one
  · intro x hx hxo
    obtain ⟨k, hk', hkk, z, hz, hzu⟩ := hI.temp x hx hxo
    by_cases hke : k.id = c.id
    · have := ctx_eq hI.ctxNodup hk' hc hke; subst this
      rw [hb.h1] at hz; cases hz
      have := ht x (mem_own.2 ⟨hx, hzu.symm⟩)
      rw [hxo] at this; cases this
    · exact ⟨k, (hm k).2 ⟨hk', hke⟩, hkk, z, hz, hzu⟩
  · exact List.Sublist.nodup (List.Sublist.map _ List.filter_sublist) hI.ctxNodup
  · exact fun x hx => hI.ctxLt x ((hm x).1 hx).1
  · intro x hx
    obtain ⟨a, b, hab⟩ := hI.base x ((hm x).1 hx).1
    exact ⟨a, b, ⟨hab.h1, hab.h2', hab.same, hab.diff⟩⟩
  · exact fun x hx y hy => hI.excl x ((hm x).1 hx).1 y ((hm y).1 hy).1
  · exact fun x hx => hI.notEps x ((hm x).1 hx).1
  · intro p hp
    obtain ⟨h1, c', hc', he'⟩ := hI.pendOk p hp
    refine ⟨by simp, c', (hm c').2 ⟨hc', ?_⟩, he'⟩
    intro e'; exact h1 (by rw [← he', e'])
  · exact hI.pendNodup
  · intro x hx _
    obtain ⟨hx1, hx2⟩ := (hm x).1 hx
    refine pendOk_frame (hI.ctxPend x hx1 (by simpa using hx2)) (fun p hp _ => hp) rfl rfl ?_
    intro z _; exact ⟨z, fun g => g, fun g => g, rfl, rfl, rfl, rfl⟩
  · intro e' he'
    rcases List.mem_append.1 he' with he' | he'
    · exact ⟨(hI.logCtx e' he').1, fun x hx => (hI.logCtx e' he').2 x ((hm x).1 hx).1⟩
    · simp only [List.mem_singleton] at he'
      rw [he', hec]
      exact ⟨hI.ctxLt c hc, fun x hx => ((hm x).1 hx).2⟩
  · simp only [List.map_append, List.map_cons, List.map_nil]
    rw [List.nodup_append]
    refine ⟨hI.logNodup, by simp, ?_⟩
    intro a ha b hb2 heq
    simp only [List.mem_singleton] at hb2
    obtain ⟨e', he', hee⟩ := List.mem_map.1 ha
    exact (hI.logCtx e' he').2 c hc (by rw [hee, heq, hb2, hec])
  · intro e' he'
    rcases List.mem_append.1 he' with he' | he'
    · exact hI.logSpec e' he'
    · simp only [List.mem_singleton] at he'
      rw [he']; exact hs
  · intro e' he'
    rcases List.mem_append.1 he' with he' | he'
    · exact hI.logGone e' he'
    · simp only [List.mem_singleton] at he'
      rw [he', heh]
      refine ⟨hI.idLt _ _ hb.h1, ?_⟩
      intro hg'
      rw [hg] at hg'; cases hg'

/-- A context ends and its cached device is freed. -/
theorem inv_free {s : St} {c : Ctx} {h h2 : Handle} (hI : Inv (some c.id) s) (hc : c ∈ s.ctxs) (hb : Base s c h h2)
    (hk : c.kind ≠ .pair) (ok : Bool)
    (ht : ∀ x ∈ own h.uuid s.creds, x.owner = true) (e : Cb) (he : e = entry s c h h2 ok) (hs : CbSpec s.me s.domain e) :
    ∃ s', freeDevice { s with ctxs := s.ctxs.filter (·.id != c.id), log := s.log ++ [e] } h.id = .ok s' ∧ Inv none s' := by
  have hec : e.ctx = c.id := by rw [he]; rfl
  have heh : e.h = c.h := by rw [he]; exact handle_id hb.h1
  have hid : h.id = c.h := handle_id hb.h1
  have hm : ∀ x, x ∈ s.ctxs.filter (·.id != c.id) ↔ x ∈ s.ctxs ∧ x.id ≠ c.id := by
    intro x; simp
  have hne : ∀ c' ∈ s.ctxs, c'.id ≠ c.id → c'.h ≠ c.h ∧ c'.h2 ≠ c.h := by
    intro c' hc' hn'
    obtain ⟨a, b, hab⟩ := hI.base c' hc'
    constructor
    · intro e
      exact (hI.excl c' hc' c hc hn' a a (.inl hab.h1) (.inl (by rw [← e]; exact hab.h1))).1 rfl
    · intro e
      exact (hI.excl c' hc' c hc hn' b b (.inr hab.h2') (.inl (by rw [← e]; exact hab.h2'))).1 rfl
  have h0 : ({ s with ctxs := s.ctxs.filter (·.id != c.id), log := s.log ++ [e] } : St).handle h.id = some h := by
    rw [hid]; exact hb.h1
  refine ⟨{ s with ctxs := s.ctxs.filter (·.id != c.id), log := s.log ++ [e], heap := s.heap.filter (·.id != h.id), cache := s.cache.filter (· != h.id), devs := s.devs.filter (· != h.id) }, ?_, ?_⟩
  · unfold freeDevice
    rw [h0]
  rw [hid]
  have hoth : ∀ i, i ≠ c.h → (s.heap.filter (·.id != c.h)).find? (·.id == i) = s.handle i := fun i hi => find_filter_ne hi s.heap
  have hself : (s.heap.filter (·.id != c.h)).find? (·.id == c.h) = none := find_filter_self c.h s.heap
  have hback : ∀ i x, (s.heap.filter (·.id != c.h)).find? (·.id == i) = some x → s.handle i = some x := by
    intro i x hx
    by_cases hi : i = c.h
    · rw [hi, hself] at hx; cases hx
    · rw [hoth i hi] at hx; exact hx
  have hlive : ∀ l : List Nat, (∀ i ∈ l, ∃ x, s.handle i = some x) →
      ∀ i ∈ l.filter (· != c.h), ∃ x, (s.heap.filter (·.id != c.h)).find? (·.id == i) = some x := by
    intro l hl i hi
    simp only [List.mem_filter, bne_iff_ne] at hi
    rw [hoth i hi.2]; exact hl i hi.1
  have hofs : ∀ c' ∈ s.ctxs, c'.id ≠ c.id → ∀ x, ((s.heap.filter (·.id != c.h)).find? (·.id == c'.h) = some x ∨ (s.heap.filter (·.id != c.h)).find? (·.id == c'.h2) = some x) → OfC s c' x := by
    intro c' hc' hn' x hx
    rw [hoth _ (hne c' hc' hn').1, hoth _ (hne c' hc' hn').2] at hx
    exact hx
  constructor
  · exact fun i x hx => hI.idLt i x (hback i x hx)
  · exact hlive _ hI.cache
  · exact hlive _ hI.devs
  · intro i hi
    have : i ≠ c.h := fun e' => (hI.notEps c hc).1 (by rw [← e']; exact hi)
    obtain ⟨x, hx⟩ := hI.eps i hi
    exact ⟨x, (hoth i this).trans hx⟩
  · exact hI.one
  · intro x hx hxo
    obtain ⟨k, hk', hkk, z, hz, hzu⟩ := hI.temp x hx hxo
    by_cases hke : k.id = c.id
    · have := ctx_eq hI.ctxNodup hk' hc hke; subst this
      rw [hb.h1] at hz; cases hz
      have := ht x (mem_own.2 ⟨hx, hzu.symm⟩)
      rw [hxo] at this; cases this
    · exact ⟨k, (hm k).2 ⟨hk', hke⟩, hkk, z, (hoth _ (hne k hk' hke).1).trans hz, hzu⟩
  · exact List.Sublist.nodup (List.Sublist.map _ List.filter_sublist) hI.ctxNodup
  · exact fun x hx => hI.ctxLt x ((hm x).1 hx).1
  · intro x hx
    obtain ⟨hx1, hx2⟩ := (hm x).1 hx
    obtain ⟨a, b, hab⟩ := hI.base x hx1
    exact ⟨a, b, ⟨(hoth _ (hne x hx1 hx2).1).trans hab.h1, (hoth _ (hne x hx1 hx2).2).trans hab.h2', hab.same, hab.diff⟩⟩
  · intro x hx y hy hxy z z' hz hz'
    obtain ⟨hx1, hx2⟩ := (hm x).1 hx
    obtain ⟨hy1, hy2⟩ := (hm y).1 hy
    exact hI.excl x hx1 y hy1 hxy z z' (hofs x hx1 hx2 z hz) (hofs y hy1 hy2 z' hz')
  · exact fun x hx => hI.notEps x ((hm x).1 hx).1
  · intro p hp
    obtain ⟨h1, c', hc', he'⟩ := hI.pendOk p hp
    refine ⟨by simp, c', (hm c').2 ⟨hc', ?_⟩, he'⟩
    intro e'; exact h1 (by rw [← he', e'])
  · exact hI.pendNodup
  · intro x hx _
    obtain ⟨hx1, hx2⟩ := (hm x).1 hx
    refine pendOk_frame (hI.ctxPend x hx1 (by simpa using hx2)) (fun p hp _ => hp) rfl rfl ?_
    intro z _
    exact ⟨z, fun g => (hoth _ (hne x hx1 hx2).1).trans g, fun g => (hoth _ (hne x hx1 hx2).2).trans g, rfl, rfl, rfl, rfl⟩
  · intro e' he'
    rcases List.mem_append.1 he' with he' | he'
    · exact ⟨(hI.logCtx e' he').1, fun x hx => (hI.logCtx e' he').2 x ((hm x).1 hx).1⟩
    · simp only [List.mem_singleton] at he'
      rw [he', hec]
      exact ⟨hI.ctxLt c hc, fun x hx => ((hm x).1 hx).2⟩
  · simp only [List.map_append, List.map_cons, List.map_nil]
    rw [List.nodup_append]
    refine ⟨hI.logNodup, by simp, ?_⟩
    intro a ha b hb2 heq
    simp only [List.mem_singleton] at hb2
    obtain ⟨e', he', hee⟩ := List.mem_map.1 ha
    exact (hI.logCtx e' he').2 c hc (by rw [hee, heq, hb2, hec])
  · intro e' he'
    rcases List.mem_append.1 he' with he' | he'
    · exact hI.logSpec e' he'
    · simp only [List.mem_singleton] at he'
      rw [he']; exact hs
  · intro e' he'
    rcases List.mem_append.1 he' with he' | he'
    · refine ⟨(hI.logGone e' he').1, fun hge => ?_⟩
      have := (hI.logGone e' he').2 hge
      by_cases hi : e'.h = c.h
      · show (s.heap.filter (·.id != c.h)).find? (·.id == e'.h) = none
        rw [hi]; exact hself
      · exact (hoth _ hi).trans this
    · simp only [List.mem_singleton] at he'
      rw [he', heh]
      exact ⟨hI.idLt _ _ hb.h1, fun _ => hself⟩

end Verif.Obt
