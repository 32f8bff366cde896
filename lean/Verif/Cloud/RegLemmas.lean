import Verif.Cloud.Lemmas
/-!
Single steps of registering.
-/
namespace Verif.Cloud

open Verif.EpAddr (Bytes Addrs View Inv)

/-- The timeouts `t` and an environment in which every request can be sent. -/
structure Calm (t : List Nat) (lim : Nat) (x : Env) : Prop where
  timeouts : x.timeouts = t ++ List.replicate (6 - t.length) 0
  custom : x.custom = none
  sends : x.sends = true
  nop : x.nop = true
  resolves : ∀ u, x.resolves u = true
  lim : x.lim = lim

/-- The next event if no server answers: first callbacks without delay, then the
failure of the request that was sent, then the callback that waits. -/
def pick (code : Nat) (s : Ctx) : Option Ev :=
  match s.tms.find? fun p => p.2 == 0 with
  | some p => some (.fire p.1 false false)
  | none =>
    match s.out with
    | r :: _ => some (.done r ⟨code, none⟩)
    | [] => s.tms.head?.map fun p => .fire p.1 false false

/-- `n` such events. -/
def drive (code : Nat) : Nat → (Nat → Env) → Ctx → Out Ctx
  | 0, _, s => .ok s
  | n + 1, xs, s =>
    match pick code s with
    | none => .ok s
    | some e => (step (xs 0) s e).bind fun s => drive code n (fun k => xs (k + 1)) s

theorem drive_add (code : Nat) : ∀ (a n : Nat) (xs : Nat → Env) (s : Ctx),
    drive code (a + n) xs s = (drive code a xs s).bind fun s' => drive code n (fun k => xs (k + a)) s' := by
  intro a
  induction a with
  | zero => intro n xs s; simp [drive, Out.bind]
  | succ a ih =>
    intro n xs s
    rw [show a + 1 + n = (a + n) + 1 by omega, drive, drive]
    cases hp : pick code s with
    | none =>
      simp only [Out.bind]
      cases n with
      | zero => rfl
      | succ n => rw [drive, hp]
    | some e =>
      simp only
      cases hs : step (xs 0) s e with
      | ub => rfl
      | ok s1 =>
        simp only [Out.bind]
        rw [ih]
        simp only [Out.bind, Nat.add_assoc]

/-- Registering at the server at position `k` of `l`, after `j` tries, with `rem`
servers left. -/
structure Att (t : List Nat) (lim : Nat) (l : List EpAddr.Server) (first : Bytes) (k j rem : Nat) (s : Ctx) : Prop where
  status : s.status = 0
  tms : ∃ d, s.tms = [(.register, d)]
  out : s.out = []
  count : s.count.toNat = j
  conn : s.conn = false
  manager : s.manager = true
  changed : s.changed = false
  initial : s.initial = some first
  remaining : s.remaining.toNat = rem
  access : s.access ≠ []
  inv : Inv lim s.servers
  all : (EpAddr.servers s.servers).all = l
  cur : (EpAddr.servers s.servers).cur = k
  ep : ∀ u, s.ep = some u → (l[k]?).map (·.1) = some u

theorem selected_at {lim : Nat} {a : Addrs} (h : Inv lim a) {u : Bytes}
    (hu : ((EpAddr.servers a).all[(EpAddr.servers a).cur]?).map (·.1) = some u) :
    ∃ i, EpAddr.selected a = .ok (some i) ∧ i.uri = u := by
  have := selected_holds (u := False) h
  cases hs : EpAddr.selected a with
  | ub => rw [hs] at this; exact this.elim
  | ok i =>
    rw [hs] at this
    cases i with
    | none =>
      have := this.1 rfl
      simp [EpAddr.servers, this] at hu
    | some i =>
      have h1 := (this.2 i rfl).1
      refine ⟨i, rfl, ?_⟩
      simp only [EpAddr.servers] at h1 hu
      rw [List.getElem?_map, h1] at hu
      simpa using hu

/-- The request. -/
theorem fire_register {t : List Nat} {lim : Nat} {x : Env} (hx : Calm t lim x) {s : Ctx} {d : Nat} {u : Bytes}
    (ht : s.tms = [(.register, d)]) (h0 : s.status = 0) (ha : s.access ≠ []) (ho : s.out = [])
    (hi : Inv lim s.servers)
    (hu : ((EpAddr.servers s.servers).all[(EpAddr.servers s.servers).cur]?).map (·.1) = some u)
    (he : ∀ u', s.ep = some u' → u' = u) :
    step x s (.fire .register false false) = .ok { s with
      tms := [], out := [.mRegister], cps := .registering, err := .ok, ep := some u,
      sent := s.sent ++ [(.mRegister, u, s.servers.items.map (·.uri))] } := by
  obtain ⟨i, hs, e⟩ := selected_at hi hu
  have hse : setEndpoint x { s with tms := [] } = .ok (true, { s with tms := [], ep := some u }) := by
    unfold setEndpoint
    cases hep : s.ep with
    | none =>
      simp only [Option.isSome_none, Bool.false_eq_true, if_false, hs, Out.bind, hx.resolves, if_true, e]
    | some u' =>
      simp only [Option.isSome_some, if_true]
      rw [← he u' hep]
  rw [step, if_pos (by rw [ht]; simp)]
  have hte : (s.tms.eraseP fun p => p.1 == .register) = [] := by rw [ht]; simp
  rw [hte]
  show registerAsync x { s with tms := [] } = _
  unfold registerAsync
  rw [if_neg (by simp [h0])]
  unfold send
  rw [hse]
  have hac : (s.access != []) = true := by simpa using ha
  simp only [Out.bind, hac, hx.nop, hx.sends, Bool.and_self, Bool.true_or, if_true, Option.getD_some,
    ho, List.nil_append, setCps]

/-- A request that fails leads to a retry. -/
theorem done_register {x : Env} {s : Ctx} {code : Nat} (hc : isConn code = true)
    (ho : s.out = [.mRegister]) (ht : s.tms = []) (h0 : s.status = 0) :
    step x s (.done .mRegister ⟨code, none⟩) =
      registerRetry x { s with out := [], status := FAILURE, tms := [(.notify, 0)] } .connect .failed := by
  rw [step, if_pos (by rw [ho]; simp)]
  have hoe : s.out.erase .mRegister = [] := by rw [ho]; rfl
  rw [hoe]
  have h1 : registerError code = .connect := by unfold registerError; rw [if_pos hc]
  have h2 : registerHandler x (cancel [.register] { s with out := [] }) ⟨code, none⟩ =
      .ok (.connect, .failed, { s with out := [], status := FAILURE, tms := [] }) := by
    unfold registerHandler
    simp only [h1]
    rw [if_pos (by simp)]
    simp [on, cancel, h0, ht]
  show mRegisterDone _ _ _ = _
  unfold mRegisterDone
  rw [h2]
  simp only [Out.bind, reduceCtorEq, if_false]
  rw [if_pos ⟨by decide, hc⟩]
  rfl

theorem fire_notify {x : Env} {s : Ctx} {rest : List (Tm × Nat)} (ht : s.tms = (.notify, 0) :: rest)
    (h0 : s.status = 0 ∨ s.status = FAILURE) :
    step x s (.fire .notify false false) = .ok { s with tms := rest, status := 0 } := by
  rw [step, if_pos (by rw [ht]; simp)]
  have hte : (s.tms.eraseP fun p => p.1 == .notify) = rest := by rw [ht]; simp
  rw [hte]
  show Out.ok (notifyAsync _) = _
  unfold notifyAsync off
  rcases h0 with h | h <;> simp only [h] <;> rfl

theorem fire_reconnect {x : Env} {s : Ctx} (ht : s.tms = [(.reconnect, 0)]) (hm : s.manager = true) (hc : s.conn = false) :
    step x s (.fire .reconnect false false) = .ok { s with tms := [(.notify, 0), (.restart, 0)] } := by
  rw [step, if_pos (by rw [ht]; simp)]
  have hte : (s.tms.eraseP fun p => p.1 == .reconnect) = [] := by rw [ht]; simp
  rw [hte]
  show Out.ok (reconnectAsync _ _) = _
  simp [reconnectAsync, managerRestart, reset, hm, hc]

theorem fire_restart {x : Env} {s : Ctx} (ht : s.tms = [(.restart, 0)]) (hm : s.manager = true) :
    step x s (.fire .restart false false) = .ok { s with tms := [(.start, 0)] } := by
  rw [step, if_pos (by rw [ht]; simp)]
  have hte : (s.tms.eraseP fun p => p.1 == .restart) = [] := by rw [ht]; simp
  rw [hte]
  show restartAsync _ = _
  simp [restartAsync, restart, reset, cancel, hm]

theorem over_length {t : List Nat} (h0 : 0 ∉ t) (k : UInt8) :
    isOver (t ++ List.replicate (6 - t.length) 0) k = decide (t.length ≤ k.toNat) := by
  unfold isOver
  by_cases h : t.length ≤ k.toNat
  · rw [List.getElem?_append_right h]
    cases hz : (List.replicate (6 - t.length) 0)[k.toNat - t.length]? with
    | none => simp [h]
    | some v =>
      have := List.mem_of_getElem? hz
      rw [List.mem_replicate] at this
      simp [h, this.2]
  · have hl : k.toNat < t.length := by omega
    rw [List.getElem?_append_left hl, List.getElem?_eq_getElem hl]
    simp only [h, decide_false, beq_eq_false_iff_ne]
    intro e; exact h0 (e ▸ List.getElem_mem hl)

theorem schedule_first {x : Env} {s : Ctx} {tm : Tm} {t : Nat} (h0 : x.timeouts[0]? = some t) (ht : 1000 ≤ t)
    (hc : x.custom = none) (htm : tm ≠ .refresh) : schedule x s tm false =
      .ok (true, reset tm (t / 2 + x.rnd % (t / 2)) { s with count := 0, timeout := t / 1000 }) := by
  have hno : isOver x.timeouts 0 = false := by
    simp only [isOver, UInt8.toNat_zero, h0]; simp; omega
  have hd : defaultAction x { s with count := 0 } 0 =
      .ok (some (t / 2 + x.rnd % (t / 2)), { s with count := 0, timeout := t / 1000 }) := by
    unfold defaultAction
    rw [if_neg (by rw [hno]; decide)]
    dsimp only
    have hv : x.timeouts.getD (0 : UInt8).toNat 0 = t := by
      rw [List.getD_eq_getElem?_getD]; show (x.timeouts[0]?).getD 0 = t; rw [h0]; rfl
    rw [hv, if_neg (by omega)]
  unfold schedule counted
  rw [if_neg htm]
  simp only [Bool.false_eq_true, if_false, setRetry, hc]
  rw [hd]; rfl

/-- Another try at the same server. -/
theorem schedule_again {t : List Nat} {lim : Nat} {x : Env} (hx : Calm t lim x) (ht : ∀ v ∈ t, 1000 ≤ v) {s : Ctx}
    (hc : (s.count + 1).toNat < t.length) : ∃ d m, schedule x s .register true =
      .ok (true, reset .register d { s with count := s.count + 1, timeout := m }) := by
  have hge := ht _ (List.getElem_mem hc)
  have h0 : 0 ∉ t := fun h => by have := ht 0 h; omega
  have hno : isOver x.timeouts (s.count + 1) = false := by
    rw [hx.timeouts, over_length h0]; simp only [decide_eq_false_iff_not]; omega
  have hv : x.timeouts.getD (s.count + 1).toNat 0 = t[(s.count + 1).toNat] := by
    rw [List.getD_eq_getElem?_getD, hx.timeouts, List.getElem?_append_left hc, List.getElem?_eq_getElem hc]; rfl
  refine ⟨t[(s.count + 1).toNat] / 2 + x.rnd % (t[(s.count + 1).toNat] / 2), t[(s.count + 1).toNat] / 1000, ?_⟩
  have hd : defaultAction x { s with count := s.count + 1 } (s.count + 1) =
      .ok (some (t[(s.count + 1).toNat] / 2 + x.rnd % (t[(s.count + 1).toNat] / 2)),
        { s with count := s.count + 1, timeout := t[(s.count + 1).toNat] / 1000 }) := by
    unfold defaultAction
    rw [if_neg (by rw [hno]; decide)]
    dsimp only
    rw [hv, if_neg (by omega)]
  unfold schedule counted
  rw [if_neg (by decide)]
  simp only [if_true, setRetry, hx.custom]
  rw [hd]; rfl

/-- No other try at the same server. -/
theorem schedule_over {t : List Nat} {lim : Nat} {x : Env} (hx : Calm t lim x) (ht : ∀ v ∈ t, 1000 ≤ v) {s : Ctx}
    (hc : t.length ≤ (s.count + 1).toNat) {ok : Bool} {a : Addrs} (ha : EpAddr.selectNext s.servers = .ok (ok, a)) :
    schedule x s .register true = .ok (false, withServers { s with count := s.count + 1 } a) := by
  have h0 : 0 ∉ t := fun h => by have := ht 0 h; omega
  have hov : isOver x.timeouts (s.count + 1) = true := by
    rw [hx.timeouts, over_length h0]; simp only [decide_eq_true_eq]; omega
  have hd : defaultAction x { s with count := s.count + 1 } (s.count + 1) =
      .ok (none, withServers { s with count := s.count + 1 } a) := by
    unfold defaultAction
    rw [if_pos hov]
    simp only [ha, Out.bind]
  unfold schedule counted
  rw [if_neg (by decide)]
  simp only [if_true, setRetry, hx.custom]
  rw [hd]; rfl

/-- Starting without being registered. -/
theorem startProcess_calm {t : List Nat} {lim : Nat} {x : Env} (hx : Calm t lim x) (ht : ∀ v ∈ t, 1000 ≤ v) (hl : t ≠ [])
    {s : Ctx} (hs : s.tms = []) (h0 : s.status = 0) (hp : s.cps = .ready) :
    ∃ d m, startProcess x s = .ok { s with count := 0, rcount := 0, timeout := m, tms := [(.register, d)] } := by
  obtain ⟨v, t', e⟩ : ∃ v t', t = v :: t' := by
    cases t with
    | nil => exact absurd rfl hl
    | cons v t' => exact ⟨v, t', rfl⟩
  have hv : x.timeouts[0]? = some v := by rw [hx.timeouts, e]; simp
  have hge := ht v (by rw [e]; simp)
  refine ⟨v / 2 + x.rnd % (v / 2), v / 1000, ?_⟩
  unfold startProcess
  have hh : has 0 REGISTERED = false := by decide
  simp only [h0, hp, hh, hx.nop, retryReset, startAction]
  simp only [Bool.false_eq_true, true_or, not_true_eq_false, if_false, and_self, if_true]
  rw [schedule_first hv hge hx.custom (by decide)]
  simp only [Out.bind, if_true, reset, hs]
  rfl

theorem fire_start {t : List Nat} {lim : Nat} {x : Env} (hx : Calm t lim x) (ht : ∀ v ∈ t, 1000 ≤ v) (hl : t ≠ [])
    {s : Ctx} (hs : s.tms = [(.start, 0)]) (h0 : s.status = 0) :
    ∃ d m, step x s (.fire .start false false) =
      .ok { s with ep := none, cps := .ready, count := 0, rcount := 0, timeout := m, tms := [(.register, d)] } := by
  have hst : (0 : UInt8) &&& ~~~LOGGED_IN = 0 := by decide
  have hh : has 0 REGISTERED = false := by decide
  obtain ⟨d, m, h⟩ := startProcess_calm hx ht hl (s := { s with tms := [], ep := none, cps := .ready }) rfl h0 rfl
  refine ⟨d, m, ?_⟩
  rw [step, if_pos (by rw [hs]; simp)]
  have hte : (s.tms.eraseP fun p => p.1 == .start) = [] := by rw [hs]; simp
  rw [hte]
  show startAsync _ _ = _
  unfold startAsync
  simp only [off, h0, hst, hh]
  rw [show (if false = true then Cps.registered else Cps.ready) = Cps.ready from rfl]
  rw [h0] at h
  exact h

theorem drive_step {code n : Nat} {xs : Nat → Env} {s s1 : Ctx} {e : Ev} (hp : pick code s = some e)
    (hs : step (xs 0) s e = .ok s1) : drive code (n + 1) xs s = drive code n (fun k => xs (k + 1)) s1 := by
  rw [drive, hp]
  simp only [hs, Out.bind]

theorem pick_zero {code : Nat} {s : Ctx} {tm : Tm} {rest : List (Tm × Nat)} (h : s.tms = (tm, 0) :: rest) :
    pick code s = some (.fire tm false false) := by
  unfold pick; rw [h]; rfl

theorem pick_out {code : Nat} {s : Ctx} {r : Req} {rest : List Req} (h : s.tms = []) (ho : s.out = r :: rest) :
    pick code s = some (.done r ⟨code, none⟩) := by
  unfold pick; rw [h, ho]; rfl

theorem pick_one {code : Nat} {s : Ctx} {tm : Tm} {d : Nat} (h : s.tms = [(tm, d)]) (ho : s.out = []) :
    pick code s = some (.fire tm false false) := by
  unfold pick; rw [h, ho]
  by_cases hd : d = 0
  · simp [hd]
  · simp [hd]

section
variable {t : List Nat} {lim : Nat} {l : List EpAddr.Server} {first : Bytes} {k j rem code : Nat} {s : Ctx} {xs : Nat → Env}

/-- The request and its failure. -/
theorem att_two (hx : ∀ n, Calm t lim (xs n)) (hc : isConn code = true) (h : Att t lim l first k j rem s) {u : Bytes}
    (hu : (l[k]?).map (·.1) = some u) (n : Nat) :
    drive code (n + 2) xs s = (registerRetry (xs 1) { s with
        out := [], status := FAILURE, tms := [(.notify, 0)], cps := .registering, err := .ok, ep := some u,
        sent := s.sent ++ [(.mRegister, u, l.map (·.1))] } .connect .failed).bind
      fun s' => drive code n (fun k => xs (k + 2)) s' := by
  obtain ⟨d, htm⟩ := h.tms
  have hu' : ((EpAddr.servers s.servers).all[(EpAddr.servers s.servers).cur]?).map (·.1) = some u := by
    rw [h.all, h.cur]; exact hu
  have hi : s.servers.items.map (·.uri) = l.map (·.1) := by rw [← h.all]; simp [EpAddr.servers]
  have h1 := fire_register (hx 0) htm h.status h.access h.out h.inv hu'
    (fun u' e => by have := h.ep u' e; rw [hu] at this; cases this; rfl)
  rw [hi] at h1
  rw [drive_step (pick_one htm h.out) h1, drive, pick_out rfl rfl]
  show (step (xs 1) _ _).bind _ = _
  have h2 := done_register (x := xs 1) (s := { s with
      tms := [], out := [.mRegister], cps := .registering, err := .ok, ep := some u,
      sent := s.sent ++ [(.mRegister, u, l.map (·.1))] }) hc rfl rfl h.status
  rw [h2]

/-- One more try. -/
theorem att_next (hx : ∀ n, Calm t lim (xs n)) (ht : ∀ v ∈ t, 1000 ≤ v) (h6 : t.length ≤ 6) (hc : isConn code = true)
    (h : Att t lim l first k j rem s) {u : Bytes} (hu : (l[k]?).map (·.1) = some u) (hj : j + 1 < t.length) :
    ∃ s', drive code 3 xs s = .ok s' ∧ Att t lim l first k (j + 1) rem s' ∧
      s'.sent = s.sent ++ [(.mRegister, u, l.map (·.1))] := by
  have hcnt : (s.count + 1).toNat = j + 1 := by
    rw [UInt8.toNat_add, h.count]; show (j + 1) % 256 = _; omega
  rw [att_two hx hc h hu 1]
  obtain ⟨d, m, hs⟩ := schedule_again (hx 1) ht (s := { s with
        out := [], status := FAILURE, tms := [(.notify, 0)], cps := .registering, err := .ok, ep := some u,
        sent := s.sent ++ [(.mRegister, u, l.map (·.1))] }) (by show (s.count + 1).toNat < _; omega)
  unfold registerRetry
  rw [hs]
  simp only [Out.bind, if_true]
  have hr : (setCps .registering .ok (reset .register d { s with
        out := [], status := FAILURE, tms := [(.notify, 0)], cps := .registering, err := .ok, ep := some u,
        sent := s.sent ++ [(.mRegister, u, l.map (·.1))], count := s.count + 1, timeout := m })).tms =
      [(.notify, 0), (.register, d)] := rfl
  rw [drive_step (pick_zero hr) (fire_notify hr (Or.inr rfl))]
  refine ⟨_, rfl, ?_, rfl⟩
  exact ⟨rfl, ⟨d, rfl⟩, rfl, hcnt, h.conn, h.manager, h.changed, h.initial, h.remaining, h.access, h.inv, h.all, h.cur,
    fun u' e => by cases e; exact hu⟩

/-- Selecting the next server. -/
theorem next_server {a : Addrs} (h : Inv lim a) : ∃ ok a', EpAddr.selectNext a = .ok (ok, a') ∧ Inv lim a' ∧
    (EpAddr.servers a').all = (EpAddr.servers a).all ∧
    (a.items ≠ [] → (EpAddr.servers a').cur = ((EpAddr.servers a).cur + 1) % a.items.length) ∧
    (1 < a.items.length → a'.calls ≠ a.calls) := by
  obtain ⟨ok, a', e, hI, h1, h2, h3⟩ := EpAddr.step_refines h (o := .selectNext) rfl
  have hl : (EpAddr.servers a).all.length = a.items.length := by simp [EpAddr.servers]
  refine ⟨ok, a', e, hI, h1, ?_, ?_⟩
  · intro hn
    rw [h2, if_neg (by simpa [EpAddr.servers] using hn), hl]
  · intro hn
    have hcc := EpAddr.calls_changed h (o := .selectNext) rfl (fun m d => ⟨by simp, by simp, by simp⟩) e
    rw [hcc]
    have hne : ¬ a'.sel = a.sel := by
      intro hs
      have hn0 : a.items ≠ [] := by intro e; rw [e] at hn; simp at hn
      have hcur : (EpAddr.servers a').cur = (EpAddr.servers a).cur := by
        have hi : a'.items = a.items := by
          simp only [EpAddr.step, EpAddr.selectNext] at e
          cases hsel : a.sel with
          | none => rw [hsel] at e; cases e; rfl
          | some p =>
            rw [hsel] at e
            cases hnx : EpAddr.nextOf p a.items with
            | ub => simp only [hnx] at e; cases e
            | ok n =>
              simp only [hnx, Out.bind, EpAddr.select'] at e
              split at e <;> cases e <;> rfl
        simp only [EpAddr.servers, hs, hi]
      rw [h2, if_neg (by simpa [EpAddr.servers] using hn0), hl] at hcur
      have hlt := EpAddr.cur_lt h hn0
      by_cases hw : (EpAddr.servers a).cur + 1 = a.items.length
      · rw [hw, Nat.mod_self] at hcur; omega
      · rw [Nat.mod_eq_of_lt (by omega)] at hcur; omega
    rw [if_neg hne]; omega

/-- The way to the next server. -/
theorem drive_move (hx : ∀ n, Calm t lim (xs n)) (ht : ∀ v ∈ t, 1000 ≤ v) (hl : t ≠ [])
    (t1 : s.tms = [(.notify, 0), (.reconnect, 0)]) (h0 : s.status = FAILURE) (hm : s.manager = true) (hcn : s.conn = false) :
    ∃ d m, drive code 5 xs s = .ok { s with
      status := 0, ep := none, cps := .ready, count := 0, rcount := 0, timeout := m, tms := [(.register, d)] } := by
  obtain ⟨d, m, hst⟩ := fire_start (hx 4) ht hl (s := { s with tms := [(.start, 0)], status := 0 }) rfl rfl
  refine ⟨d, m, ?_⟩
  rw [drive_step (pick_zero t1) (fire_notify t1 (Or.inr h0))]
  rw [drive_step (s1 := { s with tms := [(.notify, 0), (.restart, 0)], status := 0 }) (pick_zero (rest := []) rfl) (fire_reconnect (s := { s with tms := [(.reconnect, 0)], status := 0 }) rfl hm hcn)]
  rw [drive_step (s1 := { s with tms := [(.restart, 0)], status := 0 }) (pick_zero (rest := [(.restart, 0)]) rfl)
    (fire_notify (s := { s with tms := [(.notify, 0), (.restart, 0)], status := 0 }) rfl (Or.inl rfl))]
  rw [drive_step (s1 := { s with tms := [(.start, 0)], status := 0 }) (pick_zero (rest := []) rfl) (fire_restart (s := { s with tms := [(.restart, 0)], status := 0 }) rfl hm)]
  rw [drive_step (pick_zero (rest := []) rfl) hst]
  rfl

/-- The last try at a server that is not the last one. -/
theorem att_move (hx : ∀ n, Calm t lim (xs n)) (ht : ∀ v ∈ t, 1000 ≤ v) (h6 : t.length ≤ 6) (hc : isConn code = true)
    (h : Att t lim l first k j (rem + 1) s) {u : Bytes} (hu : (l[k]?).map (·.1) = some u) (hj : j + 1 = t.length)
    (hl : 1 < l.length) (hf : first ∈ l.map (·.1)) :
    ∃ s', drive code 7 xs s = .ok s' ∧ Att t lim l first ((k + 1) % l.length) 0 rem s' ∧
      s'.sent = s.sent ++ [(.mRegister, u, l.map (·.1))] := by
  have hcnt : (s.count + 1).toNat = j + 1 := by
    rw [UInt8.toNat_add, h.count]; show (j + 1) % 256 = _; omega
  have hlen : s.servers.items.length = l.length := by rw [← h.all]; simp [EpAddr.servers]
  have hne : s.servers.items ≠ [] := by intro e; rw [e] at hlen; simp at hlen; omega
  obtain ⟨ok, a, hsel, hI, hall, hcur, hcalls⟩ := next_server h.inv
  rw [att_two hx hc h hu 5]
  obtain ⟨q, hq⟩ : ∃ q : Ctx, q = { s with
        out := [], status := FAILURE, tms := [(.notify, 0)], cps := .registering, err := .ok, ep := some u,
        sent := s.sent ++ [(.mRegister, u, l.map (·.1))] } := ⟨_, rfl⟩
  rw [← hq]
  have q1 : q.servers = s.servers := by rw [hq]
  have q2 : q.remaining = s.remaining := by rw [hq]
  have q3 : q.tms = [(.notify, 0)] := by rw [hq]
  have q4 : q.out = [] := by rw [hq]
  have q5 : q.status = FAILURE := by rw [hq]
  have q6 : q.manager = true := by rw [hq]; exact h.manager
  have q7 : q.conn = false := by rw [hq]; exact h.conn
  have q8 : q.changed = false := by rw [hq]; exact h.changed
  have q9 : q.initial = some first := by rw [hq]; exact h.initial
  have q10 : q.access ≠ [] := by rw [hq]; exact h.access
  have q11 : q.count = s.count := by rw [hq]
  have q12 : q.sent = s.sent ++ [(.mRegister, u, l.map (·.1))] := by rw [hq]
  clear hq
  have hs := schedule_over (hx 1) ht (s := q) (by rw [q11]; omega) (by rw [q1]; exact hsel)
  have hch : (decide (a.calls ≠ q.servers.calls)) = true := by
    rw [q1]; simpa using hcalls (by omega)
  have hro : retryOther (withServers { q with count := q.count + 1 } a) = true := by
    have hrem : (q.remaining != 0) = true := by
      simp only [bne_iff_ne, ne_eq]
      intro e; have := h.remaining; rw [← q2, e] at this; simp at this
    have hcon : EpAddr.contains a first = true := by
      rw [mem_contains, hall, h.all]; exact hf
    simp [retryOther, withServers, q8, q6, q9, hcon]
    exact ⟨by simpa using hrem, by simpa using hch⟩
  unfold registerRetry
  rw [hs]
  simp only [Out.bind, Bool.false_eq_true, if_false]
  rw [if_pos hro]
  obtain ⟨d, m, hd⟩ := drive_move (code := code) (xs := fun k => xs (k + 2)) (s := setCps .registering .ok (reset .reconnect 0
      { withServers { q with count := q.count + 1 } a with remaining := q.remaining - 1, changed := false }))
    (fun n => hx _) ht (by intro e; rw [e] at hj; simp at hj)
    (by simp [setCps, reset, withServers, q3]) q5 q6 q7
  refine ⟨_, hd, ?_, q12⟩
  refine ⟨rfl, ⟨d, rfl⟩, q4, rfl, q7, q6, rfl, q9, ?_, q10, hI, by rw [← h.all]; exact hall, ?_, fun u' e => by cases e⟩
  · show (q.remaining - 1).toNat = rem
    have := h.remaining
    rw [q2, UInt8.toNat_sub]
    show (256 - 1 + s.remaining.toNat) % 256 = rem
    have h3 := s.remaining.toNat_lt
    omega
  · have := hcur hne
    rw [h.cur, hlen] at this
    exact this

/-- The last try at the last server. -/
theorem att_last (hx : ∀ n, Calm t lim (xs n)) (ht : ∀ v ∈ t, 1000 ≤ v) (h6 : t.length ≤ 6) (hc : isConn code = true)
    (h : Att t lim l first k j 0 s) {u : Bytes} (hu : (l[k]?).map (·.1) = some u) (hj : j + 1 = t.length) :
    ∃ s', drive code 3 xs s = .ok s' ∧ s'.tms = [] ∧ s'.out = [] ∧ s'.status = 0 ∧ s'.cps = .failed ∧ s'.err = .connect ∧
      (EpAddr.servers s'.servers).all = l ∧ (EpAddr.servers s'.servers).cur = (k + 1) % l.length ∧
      s'.sent = s.sent ++ [(.mRegister, u, l.map (·.1))] := by
  have hcnt : (s.count + 1).toNat = j + 1 := by
    rw [UInt8.toNat_add, h.count]; show (j + 1) % 256 = _; omega
  have hlen : s.servers.items.length = l.length := by rw [← h.all]; simp [EpAddr.servers]
  have hne : s.servers.items ≠ [] := by
    intro e; rw [e] at hlen
    have : l = [] := List.length_eq_zero_iff.1 (by simpa using hlen.symm)
    rw [this] at hu; simp at hu
  obtain ⟨ok, a, hsel, hI, hall, hcur, hcalls⟩ := next_server h.inv
  rw [att_two hx hc h hu 1]
  obtain ⟨q, hq⟩ : ∃ q : Ctx, q = { s with
        out := [], status := FAILURE, tms := [(.notify, 0)], cps := .registering, err := .ok, ep := some u,
        sent := s.sent ++ [(.mRegister, u, l.map (·.1))] } := ⟨_, rfl⟩
  rw [← hq]
  have q1 : q.servers = s.servers := by rw [hq]
  have q2 : q.remaining = 0 := by
    rw [hq]; exact UInt8.toNat_inj.1 h.remaining
  have q3 : q.tms = [(.notify, 0)] := by rw [hq]
  have q4 : q.out = [] := by rw [hq]
  have q5 : q.status = FAILURE := by rw [hq]
  have q11 : q.count = s.count := by rw [hq]
  have q12 : q.sent = s.sent ++ [(.mRegister, u, l.map (·.1))] := by rw [hq]
  clear hq
  have hs := schedule_over (hx 1) ht (s := q) (by rw [q11]; omega) (by rw [q1]; exact hsel)
  have hro : retryOther (withServers { q with count := q.count + 1 } a) = false := by
    simp [retryOther, withServers, q2]
  unfold registerRetry
  rw [hs]
  simp only [Out.bind, Bool.false_eq_true, if_false]
  rw [if_neg (by rw [hro]; decide)]
  dsimp only
  have hr : (setCps .failed .connect (withServers { q with count := q.count + 1 } a)).tms = [(.notify, 0)] := q3
  rw [drive_step (pick_zero hr) (fire_notify hr (Or.inr q5))]
  refine ⟨_, rfl, rfl, q4, rfl, rfl, rfl, by rw [← h.all]; exact hall, ?_, q12⟩
  have := hcur hne
  rw [h.cur, hlen] at this
  exact this

/-- The remaining tries at a server. -/
theorem att_tries (ht : ∀ v ∈ t, 1000 ≤ v) (h6 : t.length ≤ 6) (hc : isConn code = true) {u : Bytes}
    (hu : (l[k]?).map (·.1) = some u) : ∀ (d : Nat) {xs : Nat → Env} {s : Ctx} {j : Nat}, (∀ n, Calm t lim (xs n)) →
    Att t lim l first k j rem s → j + d + 1 = t.length →
    ∃ n s', drive code n xs s = .ok s' ∧ Att t lim l first k (j + d) rem s' ∧
      s'.sent = s.sent ++ List.replicate d (.mRegister, u, l.map (·.1)) := by
  intro d
  induction d with
  | zero => intro xs s j hx h _; exact ⟨0, s, rfl, h, by simp⟩
  | succ d ih =>
    intro xs s j hx h hj
    obtain ⟨s1, h1, hA, hs⟩ := att_next hx ht h6 hc h hu (by omega)
    obtain ⟨n, s2, h2, hB, hs2⟩ := ih (xs := fun k => xs (k + 3)) (fun n => hx _) hA (by omega)
    refine ⟨3 + n, s2, ?_, by rw [show j + (d + 1) = j + 1 + d by omega]; exact hB, ?_⟩
    · rw [drive_add, h1]; exact h2
    · rw [hs2, hs, List.append_assoc, List.replicate_succ]; rfl

/-- The tries at the servers from `k` on. -/
theorem att_servers (ht : ∀ v ∈ t, 1000 ≤ v) (h1 : 1 ≤ t.length) (h6 : t.length ≤ 6) (hc : isConn code = true)
    (hf : first ∈ l.map (·.1)) : ∀ (rem : Nat) {xs : Nat → Env} {s : Ctx} {k : Nat}, (∀ n, Calm t lim (xs n)) →
    Att t lim l first k 0 rem s → k < l.length → rem < l.length →
    ∃ n s', drive code n xs s = .ok s' ∧ s'.tms = [] ∧ s'.out = [] ∧ s'.status = 0 ∧ s'.cps = .failed ∧ s'.err = .connect ∧
      (EpAddr.servers s'.servers).all = l ∧ (EpAddr.servers s'.servers).cur = (k + rem + 1) % l.length ∧
      s'.sent.map (fun r => (r.1, some r.2.1)) = s.sent.map (fun r => (r.1, some r.2.1)) ++
        (List.range (rem + 1)).flatMap fun i => List.replicate t.length (.mRegister, (l.map (·.1))[(k + i) % l.length]?) := by
  intro rem
  have hm : t.length - 1 + 1 = t.length := by omega
  have key : ∀ {L L' : List (Req × Bytes × List Bytes)} {u : Bytes} {k : Nat}, k < l.length → (l[k]?).map (·.1) = some u →
      L' = L ++ List.replicate (t.length - 1) (.mRegister, u, l.map (·.1)) ++ [(.mRegister, u, l.map (·.1))] →
      L'.map (fun r => (r.1, some r.2.1)) = L.map (fun r => (r.1, some r.2.1)) ++
        List.replicate t.length (.mRegister, (l.map (·.1))[(k + 0) % l.length]?) := by
    intro L L' u k hk hu e
    rw [e, List.append_assoc, List.map_append]
    congr 1
    rw [Nat.add_zero, Nat.mod_eq_of_lt hk, List.getElem?_map, hu]
    rw [show [(Req.mRegister, u, l.map (·.1))] = List.replicate 1 (Req.mRegister, u, l.map (·.1)) from rfl,
      List.replicate_append_replicate, hm, List.map_replicate]
  induction rem with
  | zero =>
    intro xs s k hx h hk _
    have hu : (l[k]?).map (·.1) = some (l[k]).1 := by rw [List.getElem?_eq_getElem hk]; rfl
    obtain ⟨n, s1, e1, hA, hs1⟩ := att_tries ht h6 hc hu (t.length - 1) hx h (by omega)
    obtain ⟨s2, e2, a1, a2, a3, a4, a5, a6, a7, a8⟩ := att_last (xs := fun i => xs (i + n)) (fun _ => hx _) ht h6 hc hA hu (by omega)
    refine ⟨n + 3, s2, ?_, a1, a2, a3, a4, a5, a6, a7, ?_⟩
    · rw [drive_add, e1]; exact e2
    · rw [hs1] at a8
      rw [key hk hu a8]
      simp
  | succ rem ih =>
    intro xs s k hx h hk hr
    have hu : (l[k]?).map (·.1) = some (l[k]).1 := by rw [List.getElem?_eq_getElem hk]; rfl
    obtain ⟨n, s1, e1, hA, hs1⟩ := att_tries ht h6 hc hu (t.length - 1) hx h (by omega)
    obtain ⟨s2, e2, hB, hs2⟩ := att_move (xs := fun i => xs (i + n)) (fun _ => hx _) ht h6 hc hA hu (by omega) (by omega) hf
    obtain ⟨n', s3, e3, a1, a2, a3, a4, a5, a6, a7, a8⟩ := ih (xs := fun i => xs (i + 7 + n)) (fun _ => hx _) hB
      (Nat.mod_lt _ (by omega)) (by omega)
    refine ⟨n + (7 + n'), s3, ?_, a1, a2, a3, a4, a5, a6, ?_, ?_⟩
    · rw [drive_add, e1, Out.bind, drive_add, e2]; exact e3
    · rw [a7, Nat.add_assoc ((k + 1) % l.length), Nat.mod_add_mod]; congr 1; omega
    · rw [a8, hs1] at *
      rw [key hk hu hs2, List.append_assoc]
      congr 1
      rw [List.range_succ_eq_map (n := rem + 1), List.flatMap_cons, List.flatMap_map]
      congr 1
      apply congrArg (fun f => List.flatMap f (List.range (rem + 1)))
      funext i
      rw [Nat.mod_add_mod, show k + 1 + i = k + (i + 1) by omega]

/-- Starting the manager. -/
theorem managerStart_att {x : Env} (hx : Calm t lim x) (ht : ∀ v ∈ t, 1000 ≤ v) (h1 : 1 ≤ t.length)
    (h0 : s.status = 0) (hp : s.cps = .ready) (htm : s.tms = []) (ho : s.out = []) (hcn : s.conn = false) (hi : s.initial = none)
    (he : s.ep = none) (ha : s.access ≠ []) (hI : Inv lim s.servers) (hl : s.servers.items.length ≤ 255) {u : Bytes}
    (hu : ((EpAddr.servers s.servers).all[(EpAddr.servers s.servers).cur]?).map (·.1) = some u) :
    ∃ s', step x s .start = .ok s' ∧ s'.sent = s.sent ∧
      Att t lim (EpAddr.servers s.servers).all u (EpAddr.servers s.servers).cur 0 (s.servers.items.length - 1) s' := by
  obtain ⟨d, m, hs⟩ := startProcess_calm hx ht (by intro e; rw [e] at h1; simp at h1) htm h0 hp
  obtain ⟨i, hsel, hiu⟩ := selected_at hI hu
  have hr : regInit { s with count := 0, rcount := 0, timeout := m, tms := [(.register, d)], manager := true } = .ok { s with
      count := 0, rcount := 0, timeout := m, tms := [(.register, d)], manager := true, initial := some u,
      remaining := UInt8.ofNat (s.servers.items.length - 1), changed := false } := by
    unfold regInit
    simp only [hsel, Out.bind]
    rw [if_neg (by omega)]
    simp [hiu]
  obtain ⟨q, hq⟩ : ∃ q : Ctx, q = { s with
      count := 0, rcount := 0, timeout := m, tms := [(.register, d)], manager := true, initial := some u,
      remaining := UInt8.ofNat (s.servers.items.length - 1), changed := false } := ⟨_, rfl⟩
  refine ⟨q, ?_, by rw [hq], ?_⟩
  rotate_left
  · subst hq
    refine ⟨h0, ⟨d, rfl⟩, ho, rfl, hcn, rfl, rfl, rfl, ?_, ha, hI, rfl, rfl, fun u' e => by rw [he] at e; cases e⟩
    simp [UInt8.toNat_ofNat']; omega
  · rw [step, managerStart, hs]
    simp only [Out.bind]
    rw [if_neg (by simp [hi]), hq]
    exact hr

end

end Verif.Cloud
