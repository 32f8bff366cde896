import Verif.CloudRd.SysLemmas

/-! The directory of resources at the cloud. -/

namespace Verif.CloudRd

/-! ### The lists of the device -/

theorem init_inv (u : Bool) : Inv (init u) := ⟨by simp [init], by simp [init, rs], by simp [init, rs], by simp [init]⟩

theorem run_ok (env : Env) : ∀ (ops : List Op) (s : St), Inv s → ProperRun env s ops → ∃ s', run env s ops = .ok s' ∧ Inv s' ∧
    ∀ (w : List Nat), (∀ r, r ∈ tracked s ↔ r ∈ w) → ∀ r, r ∈ tracked s' ↔ r ∈ ops.foldl wanted w := by
  intro ops; induction ops with
  | nil => intro s h _; exact ⟨s, rfl, h, fun w hw => hw⟩
  | cons o l ih =>
    intro s h hp
    obtain ⟨s1, h1, k⟩ := step_ok env h o hp.1
    obtain ⟨s2, h2, i2, h3⟩ := ih s1 k.inv (hp.2 s1 h1)
    refine ⟨s2, by simp only [run, h1, Out.bind, h2], i2, ?_⟩
    intro w hw
    apply h3
    intro r
    rw [k.mem]
    exact mem_wanted _ _ hw o r

/-- Whatever is added, removed, published, answered, whatever the status and whichever
requests can be sent: nothing undefined happens as long as resources are freed only by
deleting them, and the device keeps exactly the resources that were added and not removed,
each once, all of them existing. Full claim: also when a collection is deleted
(`collection_ub`). -/
theorem kept_partial (env : Env) (u : Bool) (ops : List Op) (h : ProperRun env (init u) ops) :
    ∃ s, run env (init u) ops = .ok s ∧ (tracked s).Nodup ∧ (∀ r ∈ tracked s, s.uri r ≠ none) ∧
      ∀ r, r ∈ tracked s ↔ r ∈ ops.foldl wanted [] := by
  obtain ⟨s, h1, h2, h3⟩ := run_ok env ops (init u) (init_inv u) h
  exact ⟨s, h1, h2.nodup, h2.live, h3 [] (fun r => by simp [init, tracked])⟩

theorem run_count (env : Env) : ∀ (ops : List Op) (s s' : St), Inv s → ProperRun env s ops → Op.reset ∉ ops → run env s ops = .ok s' →
    removedIds s'.sent ++ ids s'.c.del = removedIds s.sent ++ ids s.c.del ++ allDropped env s ops := by
  intro ops; induction ops with
  | nil => intro s s' _ _ _ h; cases h; simp [allDropped]
  | cons o l ih =>
    intro s s' hi hp hr h
    obtain ⟨s1, h1, k⟩ := step_ok env hi o hp.1
    simp only [run, h1, Out.bind] at h
    rw [ih s1 s' k.inv (hp.2 s1 h1) (fun e => hr (by simp [e])) h, k.count (fun e => hr (by simp [e]))]
    simp only [allDropped, h1, List.append_assoc]

/-- Every published resource that is removed gives exactly one instance id to be removed at
the cloud: the ids already sent, followed by those that wait, are the ids of the removed
resources in the order of removal. None is sent twice, none is lost, until the cloud context
is reset. -/
theorem removed_once (env : Env) (u : Bool) (ops : List Op) (s : St) (h : ProperRun env (init u) ops) (hr : Op.reset ∉ ops)
    (hs : run env (init u) ops = .ok s) :
    removedIds s.sent ++ s.c.del.map (·.ins) = allDropped env (init u) ops := by
  have := run_count env ops (init u) s (init_inv u) h hr hs
  simpa [init, removedIds, ids] using this

/-- `can` everything. -/
def goodEnv : Env := ⟨fun _ => true, true, 181⟩

/-- URIs for examples. -/
def ua : Bytes := [47, 97]
def ub' : Bytes := [47, 98]

/-- A history: two resources, one published with id 7 and removed while logged out. -/
def exOps : List Op :=
  [.create 1 ua, .add 1 (some 3), .create 2 ub', .state true false, .status true false, .add 2 (some 4),
    .pubAnswer true (some [(some ua, some 7)]), .status false false, .destroy 1]

theorem exOps_proper : ProperRun goodEnv (init true) exOps := by
  refine ⟨rfl, fun s h => ?_⟩; cases h
  refine ⟨by simp [Proper], fun s h => ?_⟩; cases h
  refine ⟨rfl, fun s h => ?_⟩; cases h
  refine ⟨trivial, fun s h => ?_⟩; cases h
  refine ⟨trivial, fun s h => ?_⟩; cases h
  refine ⟨(by intro h; cases h), fun s h => ?_⟩; cases h
  refine ⟨trivial, fun s h => ?_⟩; cases h
  refine ⟨trivial, fun s h => ?_⟩; cases h
  refine ⟨trivial, fun s h => ?_⟩; cases h
  trivial

example : ∃ s, run goodEnv (init true) exOps = .ok s ∧ tracked s = [2] ∧ s.c.del = [⟨none, 7⟩] ∧
    s.sent = [.publish [(ua, 3)], .publish [(ua, 3), (ub', 4)]] := ⟨_, rfl, rfl, rfl, rfl⟩

/-- Adding a resource succeeds exactly if it is kept afterwards; only a lack of memory makes
it fail. -/
theorem add_result (env : Env) (s : St) (r : Nat) (ins : Option Int) (h : Inv s) (hl : s.uri r ≠ none) :
    ∃ b s', addResource env ins r s = .ok (b, s') ∧ (b = true ↔ r ∈ tracked s') ∧ (ins ≠ none → b = true) := by
  obtain ⟨b, s', h1, _, h3, _, _, h6⟩ := add_ok env h r ins hl
  refine ⟨b, s', h1, h6, ?_⟩
  intro hn
  rw [h6, h3]
  cases ins with
  | none => exact absurd rfl hn
  | some i => simp only [wanted]; split <;> simp_all

/-- A collection deleted while the cloud client knows it: the next publication reads freed
memory. -/
theorem collection_ub : run goodEnv (init true)
    [.state true false, .status true false, .create 1 ua, .add 1 (some 3), .freeCollection 1, .publish] = .ub := rfl

/-! ### Requests -/

theorem cp_new {env : Env} {s s' : St} (h : cloudPublish env s = .ok s') : ∃ new, s'.sent = s.sent ++ new ∧ s'.c = s.c ∧ s'.uri = s.uri ∧
    (∀ l, Msg.publish l ∈ new → l.map some = s.c.pub.map fun x => (x.res.bind s.uri).map (·, x.ins)) ∧
    (¬ (s.c.loggedIn = true ∧ s.c.rfnop = true) → new = []) ∧ (∀ l, Msg.delete l ∉ new) := by
  obtain ⟨f, hc, h1, _⟩ := (cloudPublish_spec env s).2 s' h
  rcases h1 with h1 | ⟨a, c, _, _, h1⟩ | ⟨x, a, c, _, _, he, h1⟩
  · exact ⟨[], by simp [h1], hc, f.uri, by simp, fun _ => rfl, by simp⟩
  · exact ⟨_, h1, hc, f.uri, by simp, fun hn => absurd ⟨c, a⟩ hn, by simp⟩
  · refine ⟨_, h1, hc, f.uri, ?_, fun hn => absurd ⟨c, a⟩ hn, by simp⟩
    intro l hl
    simp only [List.mem_singleton, Msg.publish.injEq] at hl
    subst hl; exact encode_spec _ _ _ he

theorem cd_new {env : Env} {s s' : St} (hs : s.c.del ≠ []) (h : cloudDelete env s = .ok s') : ∃ new, s'.sent = s.sent ++ new ∧
    s'.c.pub = s.c.pub ∧ s'.uri = s.uri ∧ (∀ l, Msg.publish l ∉ new) ∧
    (¬ (s.c.loggedIn = true ∧ s.c.rfnop = true) → new = []) ∧ s'.c.loggedIn = s.c.loggedIn ∧ s'.c.rfnop = s.c.rfnop := by
  obtain ⟨s2, h1, f, _, h2, _⟩ := cloudDelete_spec env s hs
  rw [h] at h1; cases h1
  rcases h2 with ⟨h2, _⟩ | ⟨k, _, _, a, c, h2, _⟩
  · exact ⟨[], by simp [h2], f.pub, f.uri, by simp, fun _ => rfl, f.loggedIn, f.rfnop⟩
  · exact ⟨_, h2, f.pub, f.uri, by simp, fun hn => absurd ⟨c, a⟩ hn, f.loggedIn, f.rfnop⟩

/-- What a request of a step says: a publication lists exactly the resources that wait for
publication, with their URIs, and nothing is sent unless the device is logged in and in
normal operation. -/
structure Says (s s' : St) (new : List Msg) : Prop where
  sent : s'.sent = s.sent ++ new
  publish : ∀ l, Msg.publish l ∈ new → l.map some = s'.c.pub.map fun x => (x.res.bind s.uri).map (·, x.ins)
  silent : ¬ (s'.c.loggedIn = true ∧ s'.c.rfnop = true) → new = []

theorem says_cp {env : Env} {s0 s s' : St} (h : cloudPublish env s = .ok s') (hs : s.sent = s0.sent) (hu : s.uri = s0.uri) :
    ∃ new, Says s0 s' new := by
  obtain ⟨new, h1, h2, h3, h4, h5, _⟩ := cp_new h
  refine ⟨new, by rw [h1, hs], ?_, ?_⟩
  · intro l hl; rw [h2, ← hu]; exact h4 l hl
  · rw [h2]; exact h5

theorem says_none (s s' : St) (h : s'.sent = s.sent) : ∃ new, Says s s' new := ⟨[], by simp [h], by simp, fun _ => rfl⟩

theorem says_cd {env : Env} {s0 s s' : St} {pre : List Msg} (hn : s.c.del ≠ []) (p : Says s0 s pre) (h : cloudDelete env s = .ok s') :
    ∃ new, Says s0 s' new := by
  obtain ⟨new, h1, h2, h3, h4, h5, h6, h7⟩ := cd_new hn h
  refine ⟨pre ++ new, by rw [h1, p.sent, List.append_assoc], ?_, ?_⟩
  · intro l hl
    rcases List.mem_append.1 hl with hl | hl
    · rw [h2]; exact p.publish l hl
    · exact absurd hl (h4 l)
  · rw [h6, h7]; intro hc; rw [p.silent hc, h5 hc]; rfl

theorem says_sd {env : Env} {s0 s s' : St} {pre : List Msg} (p : Says s0 s pre) (h : statusDel env s = .ok s') : ∃ new, Says s0 s' new := by
  unfold statusDel at h
  by_cases hd : s.c.del = []
  · rw [if_pos hd] at h; cases h; exact ⟨pre, p⟩
  · rw [if_neg hd] at h; exact says_cd hd p h

theorem bind_ok {α β : Type} {x : Out α} {f : α → Out β} {y : β} (h : x.bind f = .ok y) : ∃ a, x = .ok a ∧ f a = .ok y := by
  cases x with
  | ok a => exact ⟨a, rfl, h⟩
  | ub => cases h

theorem acceptAll_sent : ∀ (ls : List (Option Bytes × Option Int)) (s s' : St), acceptAll ls s = .ok s' → s'.sent = s.sent := by
  intro ls; induction ls with
  | nil => intro s s' h; cases h; rfl
  | cons a t ih =>
    intro s s' h
    obtain ⟨ah, ai⟩ := a
    cases ah with
    | none => exact ih s s' h
    | some u =>
      cases ai with
      | none => exact ih s s' h
      | some i =>
        simp only [acceptAll] at h
        obtain ⟨x, _, h2⟩ := bind_ok h
        cases hx : x.1 with
        | none => rw [hx] at h2; exact ih s s' h2
        | some l => rw [hx] at h2; dsimp only at h2; exact (ih _ s' h2).trans rfl

theorem deleteResource_says {env : Env} {s s' : St} {r : Nat} (h : deleteResource env r s = .ok s') : ∃ new, Says s s' new := by
  unfold deleteResource at h
  dsimp only at h
  split at h
  · cases h; exact says_none _ _ rfl
  · split at h
    · cases h; exact says_none _ _ rfl
    · exact says_cd (by simp) ⟨by simp, by simp, fun _ => rfl⟩ h

/-- What the device sends in each step, from any state: publications list exactly what
waits, and nothing is sent unless the device is logged in and in normal operation. -/
theorem requests (env : Env) (s s' : St) (o : Op) (h : step env s o = .ok s') : ∃ new, Says s s' new := by
  cases o with
  | create r u => cases h; exact says_none _ _ rfl
  | add r ins =>
    obtain ⟨x, h1, h2⟩ := bind_ok h
    cases h2
    unfold addResource at h1
    split at h1
    · cases h1; exact says_none _ _ rfl
    · split at h1
      · cases h1; exact says_none _ _ rfl
      · dsimp only at h1
        cases ins with
        | none => cases h1; exact says_none _ _ rfl
        | some i =>
          obtain ⟨s1, h3, h4⟩ := bind_ok h1
          cases h4
          exact says_cp h3 rfl rfl
  | remove r => exact deleteResource_says h
  | destroy r =>
    obtain ⟨s1, h1, h2⟩ := bind_ok h
    cases h2
    obtain ⟨new, k⟩ := deleteResource_says h1
    exact ⟨new, k.sent, k.publish, k.silent⟩
  | freeCollection r => cases h; exact says_none _ _ rfl
  | publish =>
    obtain ⟨s1, h1, h2⟩ := bind_ok h
    unfold republish at h1
    obtain ⟨new, k⟩ := says_cp (s0 := s) h1 rfl rfl
    exact says_sd k h2
  | hourly =>
    simp only [step] at h
    split at h
    · unfold republish at h; exact says_cp h rfl rfl
    · cases h; exact says_none _ _ rfl
  | pubAnswer ok ls =>
    simp only [step, publishAnswer] at h
    split at h
    · cases h; exact says_none _ _ rfl
    · split at h
      · cases h; exact says_none _ _ rfl
      · cases ls with
        | none => cases h; exact says_none _ _ rfl
        | some ls => exact says_none _ _ (acceptAll_sent ls s s' h)
  | delAnswer i =>
    simp only [step, deleteAnswer] at h
    split at h
    · cases h; exact says_none _ _ rfl
    · split at h
      · cases h; exact says_none _ _ rfl
      · rename_i hd _
        exact says_cd hd ⟨by simp, by simp, fun _ => rfl⟩ h
  | status l f =>
    simp only [step, statusChanged] at h
    split at h
    · cases h; exact says_none _ _ rfl
    · split at h
      · cases h; exact says_none _ _ rfl
      · obtain ⟨s1, h1, h2⟩ := bind_ok h
        obtain ⟨s2, h4, h3⟩ := bind_ok h2
        cases h3
        have : ∃ new, Says s s1 new := by
          unfold statusPub at h1
          split at h1
          · cases h1; exact says_none _ _ rfl
          · exact says_cp h1 rfl rfl
        obtain ⟨new, k⟩ := this
        obtain ⟨new2, k2⟩ := says_sd k h4
        exact ⟨new2, k2.sent, k2.publish, k2.silent⟩
  | state n u => cases h; exact says_none _ _ rfl
  | reset => cases h; exact says_none _ _ rfl

example : step goodEnv { init true with c := { (init true).c with loggedIn := true, rfnop := true }, uri := fun _ => some ua } (.add 1 (some 3)) =
    .ok { init true with c := { (init true).c with loggedIn := true, rfnop := true, pub := [⟨some 1, 3⟩] }, uri := fun _ => some ua,
                         sent := [.publish [(ua, 3)]] } := rfl

/-- When the status changes to logged in, everything that waits is published and a removal
is sent. -/
theorem logged_in (env : Env) (s : St) (hi : Inv s) (hc : ∀ m, env.can m = true) (hm : 100 ≤ env.max) (hr : s.c.rfnop = true)
    (h64 : ∀ l ∈ s.c.del, Int64 l.ins) :
    ∃ s' new, step env s (.status true false) = .ok s' ∧ s'.sent = s.sent ++ new ∧
      (s.c.pub ≠ [] → ∃ l, Msg.publish l ∈ new ∧ l.map some = s.c.pub.map fun x => (x.res.bind s.uri).map (·, x.ins)) ∧
      (s.c.del ≠ [] → ∃ k ≥ 1, Msg.delete ((s.c.del.take k).map (·.ins)) ∈ new ∧ s'.c.del = s.c.del.drop k) := by
  have h' : Inv { s with c := { s.c with loggedIn := true, refreshed := false } } := ⟨hi.res, hi.live, hi.nodup, hi.del⟩
  obtain ⟨s1, k1, f1⟩ := statusPub_ok env h'
  obtain ⟨s2, k2, f2⟩ := statusDel_ok env s1
  have hs1 : s1.c.del = s.c.del ∧ ∃ new, s1.sent = s.sent ++ new ∧ (s.c.pub ≠ [] → ∃ l, Msg.publish l ∈ new ∧
      l.map some = s.c.pub.map fun x => (x.res.bind s.uri).map (·, x.ins)) := by
    unfold statusPub at k1
    split at k1
    · rename_i hp; cases k1; exact ⟨rfl, [], by simp, fun h => absurd hp h⟩
    · rename_i hp
      obtain ⟨_, hcx, _, h2⟩ := (cloudPublish_spec env _).2 s1 k1
      refine ⟨by rw [hcx], ?_⟩
      obtain ⟨x, hx, hs⟩ := h2 hr rfl hp hc
      exact ⟨_, hs, fun _ => ⟨x, by simp, encode_spec _ _ _ hx⟩⟩
  obtain ⟨hd1, new1, hn1, hp1⟩ := hs1
  have hs2 : ∃ new, s2.sent = s1.sent ++ new ∧ (s.c.del ≠ [] → ∃ k ≥ 1, Msg.delete ((s.c.del.take k).map (·.ins)) ∈ new ∧ s2.c.del = s.c.del.drop k) := by
    unfold statusDel at k2
    split at k2
    · rename_i hd; cases k2; rw [hd1] at hd; exact ⟨[], by simp, fun h => absurd hd h⟩
    · rename_i hd
      obtain ⟨s3, e3, _, _, _, h2⟩ := cloudDelete_spec env s1 hd
      rw [k2] at e3; cases e3
      obtain ⟨g1, g2⟩ := h2 (by rw [f1.rfnop]; exact hr) (by rw [f1.loggedIn]) hc (by omega)
      rw [hd1] at g1 g2 hd
      refine ⟨_, g1, fun _ => ⟨fill env 39 optBase s.c.del, ?_, by simp [ids], g2⟩⟩
      cases hx : s.c.del with
      | nil => exact absurd hx hd
      | cons l r => exact fill_pos env l r (h64 l (by rw [hx]; simp)) hm
  obtain ⟨new2, hn2, hp2⟩ := hs2
  refine ⟨{ s2 with c := { s2.c with timer := ¬ s2.c.unlimited } }, new1 ++ new2, ?_, ?_, ?_, ?_⟩
  · simp only [step, statusChanged, not_true_eq_false, if_false, Bool.false_eq_true, k1, Out.bind, k2]
  · show s2.sent = _
    rw [hn2, hn1, List.append_assoc]
  · intro hp; obtain ⟨l, h1, h2⟩ := hp1 hp; exact ⟨l, by simp [h1], h2⟩
  · intro hp; obtain ⟨k, h0, h1, h2⟩ := hp2 hp; exact ⟨k, h0, List.mem_append_right _ h1, h2⟩

/-- The sum of the options of a removal with these ids. -/
def removalOpts : List Int → Nat
  | [] => optBase
  | i :: r => optLen (4 + intLen i) + removalOpts r

theorem fill_fits (env : Env) : ∀ (ls : List Link) (t o : Nat), t < env.max → headerSize env.tcp o ≤ env.max →
    headerSize env.tcp (o + (removalOpts (ids (ls.take (fill env t o ls))) - optBase)) ≤ env.max := by
  have hge : ∀ l, optBase ≤ removalOpts l := by
    intro l; induction l with
    | nil => exact Nat.le_refl _
    | cons i r ih => simp only [removalOpts]; omega
  intro ls; induction ls with
  | nil => intro t o _ h; simpa [fill, ids, removalOpts] using h
  | cons l r ih =>
    intro t o ht ho
    simp only [fill]
    split
    · simpa [ids, removalOpts] using ho
    · rename_i hc
      have := ih (t + 5 + intLen l.ins) (o + optLen (4 + intLen l.ins)) (by omega) (by omega)
      rw [Nat.add_comm 1, List.take_succ_cons]
      have e : ids (l :: r.take (fill env (t + 5 + intLen l.ins) (o + optLen (4 + intLen l.ins)) r)) =
          l.ins :: ids (r.take (fill env (t + 5 + intLen l.ins) (o + optLen (4 + intLen l.ins)) r)) := rfl
      rw [e]
      simp only [removalOpts]
      have h3 := hge (ids (r.take (fill env (t + 5 + intLen l.ins) (o + optLen (4 + intLen l.ins)) r)))
      rw [show o + (optLen (4 + intLen l.ins) + removalOpts (ids (r.take (fill env (t + 5 + intLen l.ins) (o + optLen (4 + intLen l.ins)) r))) - optBase) =
        o + optLen (4 + intLen l.ins) + (removalOpts (ids (r.take (fill env (t + 5 + intLen l.ins) (o + optLen (4 + intLen l.ins)) r))) - optBase) by omega]
      exact this

/-- One removal: at least one instance id is always sent (a request without any would remove
everything the device has at the cloud), the ids are the first ones that wait, and the
header of the request fits. With the smallest header of all builds. -/
theorem removal (env : Env) (ls : List Link) (hne : ls ≠ []) (hc : ∀ m, env.can m = true) (hm : 100 ≤ env.max) (h64 : ∀ l ∈ ls, Int64 l.ins) :
    ∃ k, 1 ≤ k ∧ k ≤ ls.length ∧ rdDelete env ls = ([.delete ((ls.take k).map (·.ins))], some k) ∧
      headerSize env.tcp (removalOpts ((ls.take k).map (·.ins))) ≤ env.max := by
  have hk : 1 ≤ fill env 39 optBase ls := by
    cases ls with
    | nil => exact absurd rfl hne
    | cons l r => exact fill_pos env l r (h64 l (by simp)) hm
  have hb : optBase = 56 := by decide
  refine ⟨_, hk, fill_le env ls 39 optBase, ?_, ?_⟩
  · unfold rdDelete
    rw [if_neg (by omega)]
    dsimp only
    rw [if_neg (by rw [hc]; simp), if_neg (by omega)]
  · have h1 := fill_fits env ls 39 optBase (by omega) (by have := headerSize_le env.tcp optBase; omega)
    have hge : ∀ l, optBase ≤ removalOpts l := by
      intro l; induction l with
      | nil => exact Nat.le_refl _
      | cons i r ih => simp only [removalOpts]; omega
    have h2 := hge (ids (ls.take (fill env 39 optBase ls)))
    rw [show optBase + (removalOpts (ids (ls.take (fill env 39 optBase ls))) - optBase) =
      removalOpts (ids (ls.take (fill env 39 optBase ls))) by omega] at h1
    exact h1

/-- Six ids of 19 digits do not fit one request: four are sent. -/
example : rdDelete goodEnv (List.replicate 6 ⟨none, 9223372036854775807⟩) =
    ([.delete (List.replicate 4 9223372036854775807)], some 4) := by decide +kernel

/-! ### The directory -/

/-- The invariant of the device and the cloud. -/
structure SInv (U : Bytes → Prop) (insOf : Bytes → Int) (x : Sys) : Prop where
  base : Base U insOf x.st x.down
  dir : DirOk U insOf { x.st with sent := [] } x.up x.dir
  outp : OutP { x.st with sent := [] } x.up x.down
  outd : OutD { x.st with sent := [] } x.up x.down

theorem base_sent {U : Bytes → Prop} {insOf : Bytes → Int} {s : St} {down : List Ans} (b : Base U insOf s down) (l : List Msg) : Base U insOf { s with sent := l } down :=
  ⟨⟨b.inv.res, b.inv.live, b.inv.nodup, b.inv.del⟩, b.loggedIn, b.rfnop, b.owned, b.inj, b.pins, b.dins, b.uris, b.dfree, b.dnodup, b.ansok⟩

theorem sinv_of {U : Bytes → Prop} {insOf : Bytes → Int} {s : St} {up : List Msg} {down : List Ans} {dir : List Bytes}
    (h : Base U insOf s down ∧ DirOk U insOf s up dir ∧ OutP s up down ∧ OutD s up down) :
    SInv U insOf ⟨s, up ++ s.sent, down, dir⟩ := by
  obtain ⟨b, d, p, o⟩ := h
  refine ⟨b, ?_, ?_, ?_⟩
  · intro h
    have := d h
    simpa [Href] using this
  · intro u hu
    have := p u hu
    simpa using this
  · intro hne
    have := o hne
    simpa using this

theorem href_tracked (s : St) (h : Bytes) : Href s (s.c.pub ++ s.c.published) h ↔ ∃ r ∈ tracked s, s.uri r = some h := by
  constructor
  · rintro ⟨l, hl, r, h1, h2⟩; exact ⟨r, List.mem_filterMap.2 ⟨l, hl, h1⟩, h2⟩
  · rintro ⟨r, hr, h2⟩
    obtain ⟨l, hl, h1⟩ := List.mem_filterMap.1 hr
    exact ⟨l, hl, r, h1, h2⟩

theorem takeHref_pins {U : Bytes → Prop} {insOf : Bytes → Int} : ∀ (A : List (Option Bytes × Option Int)) (s s' : St) (down : List Ans),
    (∀ p ∈ A, ∃ h, p = (some h, some (insOf h))) → Base U insOf s down → acceptAll A s = .ok s' →
    Base U insOf s' down ∧ (∀ h, Href s' (s'.c.pub ++ s'.c.published) h ↔ Href s (s.c.pub ++ s.c.published) h) ∧
    s'.c.del = s.c.del ∧ s'.sent = s.sent ∧ (∀ h, Href s' s'.c.pub h → Href s s.c.pub h ∧ ∀ i, (some h, some i) ∉ A) := by
  intro A; induction A with
  | nil => intro s s' down _ b h; cases h; exact ⟨b, fun _ => Iff.rfl, rfl, rfl, fun h hh => ⟨hh, by simp⟩⟩
  | cons p A ih =>
    intro s s' down hA b h
    obtain ⟨u, rfl⟩ := hA p (by simp)
    have hA' : ∀ p ∈ A, ∃ h, p = (some h, some (insOf h)) := fun p hp => hA p (by simp [hp])
    simp only [acceptAll] at h
    obtain ⟨x, h1, h2, h3⟩ := takeHref_perm s.uri u s.c.pub b.inv.livePub
    rw [h1] at h
    simp only [Out.bind] at h
    cases hx : x.1 with
    | none =>
      rw [hx] at h
      obtain ⟨k1, k2, k3, k4, k5⟩ := ih s s' down hA' b h
      refine ⟨k1, k2, k3, k4, ?_⟩
      intro h' hh
      obtain ⟨m1, m2⟩ := k5 h' hh
      refine ⟨m1, ?_⟩
      intro i hi
      rcases List.mem_cons.1 hi with hi | hi
      · simp only [Prod.mk.injEq, Option.some.injEq] at hi
        obtain ⟨l, hl, r, hr, hu⟩ := m1
        exact (h3 hx).2 l hl r hr (by rw [hu, hi.1])
      · exact m2 i hi
    | some l =>
      rw [hx] at h
      dsimp only at h
      obtain ⟨p, r, hr, hu⟩ := h2 l hx
      have hmem : ∀ m, m ∈ x.2 ++ (s.c.published ++ [{ l with ins := insOf u }]) ↔ (m ∈ x.2 ∨ m ∈ s.c.published) ∨ m = { l with ins := insOf u } := by
        intro m; simp only [List.mem_append, List.mem_singleton, or_assoc]
      have hlp : l ∈ s.c.pub := p.mem_iff.2 (by simp)
      have hsub : ∀ m ∈ x.2, m ∈ s.c.pub := fun m hm => p.mem_iff.2 (by simp [hm])
      have hst : ∀ h', Href { s with c := { s.c with pub := x.2, published := s.c.published ++ [{ l with ins := insOf u }] } }
          (x.2 ++ (s.c.published ++ [{ l with ins := insOf u }])) h' ↔ Href s (s.c.pub ++ s.c.published) h' := by
        intro h'
        constructor
        · rintro ⟨m, hm, r', e1, e2⟩
          rcases (hmem m).1 hm with (hm | hm) | hm
          · exact ⟨m, List.mem_append_left _ (hsub m hm), r', e1, e2⟩
          · exact ⟨m, List.mem_append_right _ hm, r', e1, e2⟩
          · subst hm; exact ⟨l, List.mem_append_left _ hlp, r', e1, e2⟩
        · rintro ⟨m, hm, r', e1, e2⟩
          rcases List.mem_append.1 hm with hm | hm
          · rcases List.mem_cons.1 (p.mem_iff.1 hm) with hm | hm
            · subst hm; exact ⟨{ m with ins := insOf u }, (hmem _).2 (.inr rfl), r', e1, e2⟩
            · exact ⟨m, (hmem m).2 (.inl (.inl hm)), r', e1, e2⟩
          · exact ⟨m, (hmem m).2 (.inl (.inr hm)), r', e1, e2⟩
      have hi : Inv { s with c := { s.c with pub := x.2, published := s.c.published ++ [{ l with ins := insOf u }] } } := by
        have := (acceptAll_ok [(some u, some (insOf u))] s b.inv)
        obtain ⟨s2, e1, e2⟩ := this
        simp only [acceptAll, h1, Out.bind, hx, Out.ok.injEq] at e1
        rw [e1]; exact e2.inv
      have b' : Base U insOf { s with c := { s.c with pub := x.2, published := s.c.published ++ [{ l with ins := insOf u }] } } down := by
        refine ⟨hi, b.loggedIn, b.rfnop, b.owned, b.inj, ?_, b.dins, b.uris, ?_, b.dnodup, b.ansok⟩
        · intro m hm r' u' e1 e2
          rcases List.mem_append.1 hm with hm | hm
          · exact b.pins m hm r' u' e1 e2
          · simp only [List.mem_singleton] at hm
            subst hm
            dsimp only at e1 e2 ⊢
            rw [hr] at e1; cases e1
            rw [hu] at e2; cases e2; rfl
        · intro m hm h' hh
          exact b.dfree m hm h' ((hst h').1 hh)
      obtain ⟨k1, k2, k3, k4, k5⟩ := ih _ s' down hA' b' h
      refine ⟨k1, fun h' => (k2 h').trans (hst h'), k3, k4, ?_⟩
      intro h' hh
      obtain ⟨⟨m, hm, r', e1, e2⟩, m2⟩ := k5 h' hh
      refine ⟨⟨m, hsub m hm, r', e1, e2⟩, ?_⟩
      intro i hin
      rcases List.mem_cons.1 hin with hin | hin
      · simp only [Prod.mk.injEq, Option.some.injEq] at hin
        have hrr : r' = r := b.inj r' r u (by rw [← hin.1]; exact e2) hu
        have hn := b.inv.nodup
        rw [rs_append] at hn
        have hn1 := (List.nodup_append.1 hn).1
        have hpr : (rs s.c.pub).Perm (r :: rs x.2) := by
          have : rs (l :: x.2) = r :: rs x.2 := by simp [rs, hr]
          rw [← this]; exact p.filterMap _
        rw [hpr.nodup_iff, List.nodup_cons] at hn1
        exact hn1.1 (List.mem_filterMap.2 ⟨m, hm, by rw [e1, hrr]⟩)
      · exact m2 i hin

theorem sys_step {env : Env} (hc : ∀ m, env.can m = true) (hm : 100 ≤ env.max) {U : Bytes → Prop} {insOf : Bytes → Int} (h64 : ∀ h, U h → Int64 (insOf h))
    (hinj : ∀ g h, U g → U h → insOf g = insOf h → g = h) {x : Sys} (i : SInv U insOf x) (e : Ev) (hcalm : Calm U insOf x e) :
    ∃ x', sysStep env insOf x e = .ok x' ∧ SInv U insOf x' := by
  have b0 := base_sent i.base []
  cases e with
  | create r u =>
    obtain ⟨hU, hfree, hnew⟩ := hcalm
    have hnr : ∀ l ∈ x.st.c.pub ++ x.st.c.published, l.res ≠ some r := by
      intro l hl e
      exact i.base.inv.live r (List.mem_filterMap.2 ⟨l, hl, e⟩) hfree
    have huri : ∀ l ∈ x.st.c.pub ++ x.st.c.published, ∀ a h, l.res = some a →
        ((if a = r then some u else x.st.uri a) = some h ↔ x.st.uri a = some h) := by
      intro l hl a h ha
      have : a ≠ r := fun e => hnr l hl (by rw [ha, e])
      rw [if_neg this]
    have hh : ∀ ls, (∀ l ∈ ls, l ∈ x.st.c.pub ++ x.st.c.published) → ∀ h,
        Href { x.st with sent := [], uri := fun a => if a = r then some u else x.st.uri a } ls h ↔ Href x.st ls h := by
      intro ls hls h
      constructor
      · rintro ⟨l, hl, a, e1, e2⟩; exact ⟨l, hl, a, e1, (huri l (hls l hl) a h e1).1 e2⟩
      · rintro ⟨l, hl, a, e1, e2⟩; exact ⟨l, hl, a, e1, (huri l (hls l hl) a h e1).2 e2⟩
    obtain ⟨s', hs, k⟩ := step_ok env (s := { x.st with sent := [] }) b0.inv (.create r u) hfree
    have hs' := hs
    simp only [step, Out.ok.injEq] at hs'
    refine ⟨⟨s', x.up ++ s'.sent, x.down, x.dir⟩, by simp only [sysStep, device, hs, Out.bind], sinv_of (down := x.down) (dir := x.dir) ⟨?_, ?_, ?_, ?_⟩⟩
    · subst hs'
      refine ⟨k.inv, i.base.loggedIn, i.base.rfnop, i.base.owned, ?_, ?_, i.base.dins, ?_, ?_, i.base.dnodup, i.base.ansok⟩
      · intro a c v e1 e2
        dsimp only at e1 e2
        by_cases ha : a = r
        · by_cases hcr : c = r
          · rw [ha, hcr]
          · rw [if_pos ha] at e1; rw [if_neg hcr] at e2; cases e1; exact absurd e2 (hnew c)
        · rw [if_neg ha] at e1
          by_cases hcr : c = r
          · rw [if_pos hcr] at e2; cases e2; exact absurd e1 (hnew a)
          · rw [if_neg hcr] at e2; exact i.base.inj a c v e1 e2
      · intro l hl a v e1 e2
        exact i.base.pins l hl a v e1 ((huri l (by simp [show l ∈ x.st.c.published from hl]) a v e1).1 e2)
      · intro a v e
        dsimp only at e
        split at e
        · cases e; exact hU
        · exact i.base.uris a v e
      · intro l hl h h'
        exact i.base.dfree l hl h ((hh _ (fun l h => h) h).1 h')
    · subst hs'
      intro h
      rw [hh _ (fun l h => h) h]
      exact i.dir h
    · subst hs'
      intro v hv
      exact i.outp v ((hh _ (fun l h => by simp [h]) v).1 hv)
    · subst hs'
      exact i.outd
  | add r n =>
    obtain ⟨u, hu, hdel⟩ := hcalm
    have hlive : x.st.uri r ≠ none := by rw [hu]; simp
    by_cases htr : r ∈ tracked x.st
    · have : step env { x.st with sent := [] } (.add r (some n)) = .ok { x.st with sent := [] } := by
        simp only [step, addResource]
        rw [tracked_eq, rs_append, List.mem_append, ← hasRes_iff, ← hasRes_iff] at htr
        by_cases h1 : hasRes r x.st.c.pub = true
        · rw [if_pos h1]; rfl
        · rw [if_neg h1, if_pos (htr.resolve_left h1)]; rfl
      refine ⟨_, by simp only [sysStep, device, this, Out.bind], sinv_of (down := x.down) (dir := x.dir) ⟨b0, i.dir, i.outp, i.outd⟩⟩
    · have hstep : step env { x.st with sent := [] } (.add r (some n)) =
          cloudPublish env { x.st with sent := [], c := { x.st.c with pub := x.st.c.pub ++ [⟨some r, n⟩] } } := by
        have hno := htr
        rw [tracked_eq, rs_append, List.mem_append, ← hasRes_iff, ← hasRes_iff] at hno
        simp only [step, addResource]
        rw [if_neg (fun h => hno (.inl h)), if_neg (fun h => hno (.inr h)), takeRes_none_res r _ i.base.inv.del]
        cases cloudPublish env { x.st with sent := [], c := { x.st.c with pub := x.st.c.pub ++ [⟨some r, n⟩] } } <;> rfl
      obtain ⟨bb, s2, ek, hi2, hm2, hu2, _, _⟩ := add_ok env (s := { x.st with sent := [] }) b0.inv r (some n) hlive
      have hi : Inv { x.st with sent := [], c := { x.st.c with pub := x.st.c.pub ++ [⟨some r, n⟩] } } := by
        have e : rs (x.st.c.pub ++ [⟨some r, n⟩] ++ x.st.c.published) = rs x.st.c.pub ++ r :: rs x.st.c.published := by
          simp [rs]
        refine ⟨?_, ?_, ?_, i.base.inv.del⟩
        · intro l hl
          simp only [List.mem_append, List.mem_singleton] at hl
          rcases hl with (hl | hl) | hl
          · exact i.base.inv.res l (by simp [hl])
          · exact ⟨r, by rw [hl]⟩
          · exact i.base.inv.res l (by simp [hl])
        · intro a ha
          dsimp only at ha
          rw [e] at ha
          by_cases har : a = r
          · subst har; exact hlive
          · exact i.base.inv.live a (by rw [rs_append]; simp only [List.mem_append, List.mem_cons, har, false_or] at ha ⊢; exact ha)
        · dsimp only
          rw [e, (List.perm_middle).nodup_iff, List.nodup_cons]
          rw [tracked_eq, rs_append] at htr
          exact ⟨htr, by rw [← rs_append]; exact i.base.inv.nodup⟩
      have hh : ∀ h, Href { x.st with sent := [], c := { x.st.c with pub := x.st.c.pub ++ [⟨some r, n⟩] } }
          (x.st.c.pub ++ [⟨some r, n⟩] ++ x.st.c.published) h ↔ Href x.st (x.st.c.pub ++ x.st.c.published) h ∨ h = u := by
        intro h
        constructor
        · rintro ⟨l, hl, a, e1, e2⟩
          simp only [List.mem_append, List.mem_singleton] at hl
          rcases hl with (hl | hl) | hl
          · exact .inl ⟨l, by simp [hl], a, e1, e2⟩
          · subst hl; cases e1; right
            have e2' : x.st.uri r = some h := e2
            rw [hu] at e2'; cases e2'; rfl
          · exact .inl ⟨l, by simp [hl], a, e1, e2⟩
        · rintro (⟨l, hl, a, e1, e2⟩ | rfl)
          · rcases List.mem_append.1 hl with hl | hl
            · exact ⟨l, by simp [hl], a, e1, e2⟩
            · exact ⟨l, by simp [hl], a, e1, e2⟩
          · exact ⟨⟨some r, n⟩, by simp, r, rfl, hu⟩
      have b1 : Base U insOf { x.st with sent := [], c := { x.st.c with pub := x.st.c.pub ++ [⟨some r, n⟩] } } x.down := by
        refine ⟨hi, i.base.loggedIn, i.base.rfnop, i.base.owned, i.base.inj, i.base.pins, i.base.dins, i.base.uris, ?_, i.base.dnodup, i.base.ansok⟩
        intro l hl h h'
        rcases (hh h).1 h' with h' | rfl
        · exact i.base.dfree l hl h h'
        · exact fun e => hdel l hl e.symm
      obtain ⟨s', hs⟩ := (cloudPublish_spec env _).1 hi.livePub
      have key := publish_sys hc (up := x.up) (dir := x.dir) b1 (by
        intro h
        rw [hh h]
        have := i.dir h
        dsimp only at this ⊢
        rw [this]
        constructor
        · rintro ((h1 | h1) | ⟨l, hl, a, e1, e2⟩)
          · exact .inl (.inl h1)
          · exact .inr h1
          · simp only [List.mem_append, List.mem_singleton] at hl
            rcases hl with hl | hl
            · exact .inl (.inl ⟨l, by simp [hl], a, e1, e2⟩)
            · subst hl; cases e1
              have e2' : x.st.uri r = some h := e2
              rw [hu] at e2'; cases e2'; exact .inl (.inr rfl)
        · rintro ((h1 | rfl) | h1)
          · exact .inl (.inl h1)
          · exact .inr ⟨⟨some r, n⟩, by simp, r, rfl, hu⟩
          · exact .inl (.inr h1)) i.outd hs
      refine ⟨_, by simp only [sysStep, device, hstep, hs, Out.bind], sinv_of ⟨key.1, key.2.1, key.2.2.1, key.2.2.2.1⟩⟩
  | destroy r =>
    have hnp : r ∉ rs x.st.c.pub := hcalm
    have hpub : takeRes r x.st.c.pub = (none, x.st.c.pub) := by
      apply takeRes_absent
      cases h : hasRes r x.st.c.pub with
      | false => rfl
      | true => exact absurd ((hasRes_iff r _).1 h) hnp
    have hn := i.base.inv.nodup
    rw [rs_append] at hn
    obtain ⟨n1, n2, _⟩ := List.nodup_append.1 hn
    have hpr : ∀ l ∈ x.st.c.published, ∃ a, l.res = some a := fun l hl => i.base.inv.res l (by simp [hl])
    have hfst := (takeRes_fst r x.st.c.published hpr n2).2
    have hrs := rs_takeRes (s := x.st) i.base.inv r
    rw [hpub] at hrs
    dsimp only at hrs
    obtain ⟨sd, hsd, kd⟩ := step_ok env (s := { x.st with sent := [] }) b0.inv (.destroy r) trivial
    -- the freed resource is no longer listed
    have freeOk : ∀ s1 : St, (∀ l ∈ s1.c.pub ++ s1.c.published, l.res ≠ some r) →
        Base U insOf s1 x.down ∧ DirOk U insOf s1 x.up x.dir ∧ OutP s1 x.up x.down ∧ OutD s1 x.up x.down →
        SInv U insOf ⟨{ s1 with uri := fun a => if a = r then none else s1.uri a }, x.up ++ s1.sent, x.down, x.dir⟩ := by
      intro s1 hno ⟨b, d, p, o⟩
      have huri : ∀ a h, (if a = r then none else s1.uri a) = some h → s1.uri a = some h := by
        intro a h e; split at e
        · cases e
        · exact e
      have hh : ∀ ls, (∀ l ∈ ls, l ∈ s1.c.pub ++ s1.c.published) → ∀ h,
          Href { s1 with uri := fun a => if a = r then none else s1.uri a } ls h ↔ Href s1 ls h := by
        intro ls hls h
        constructor
        · rintro ⟨l, hl, a, e1, e2⟩; exact ⟨l, hl, a, e1, huri a h e2⟩
        · rintro ⟨l, hl, a, e1, e2⟩
          refine ⟨l, hl, a, e1, ?_⟩
          have : a ≠ r := fun e => hno l (hls l hl) (by rw [e1, e])
          simpa [this] using e2
      refine sinv_of (s := { s1 with uri := fun a => if a = r then none else s1.uri a }) ⟨?_, ?_, ?_, o⟩
      · refine ⟨⟨b.inv.res, ?_, b.inv.nodup, b.inv.del⟩, b.loggedIn, b.rfnop, b.owned, ?_, ?_, b.dins, fun a v e => b.uris a v (huri a v e), ?_, b.dnodup, b.ansok⟩
        · intro a ha
          have hal := b.inv.live a ha
          obtain ⟨l, hl, e⟩ := List.mem_filterMap.1 ha
          have : a ≠ r := fun e2 => hno l hl (by rw [e, e2])
          simpa [this] using hal
        · intro a c v e1 e2; exact b.inj a c v (huri a v e1) (huri c v e2)
        · intro l hl a v e1 e2; exact b.pins l hl a v e1 (huri a v e2)
        · intro l hl h h'
          exact b.dfree l hl h ((hh _ (fun l h => h) h).1 h')
      · intro h
        rw [hh _ (fun l h => h) h]
        exact d h
      · intro v hv
        exact p v ((hh _ (fun l h => by simp [h]) v).1 hv)
    have hnot : ∀ l ∈ x.st.c.pub ++ (takeRes r x.st.c.published).2, l.res ≠ some r := by
      intro l hl e
      have : r ∈ rs (x.st.c.pub ++ (takeRes r x.st.c.published).2) := List.mem_filterMap.2 ⟨l, hl, e⟩
      rw [hrs] at this
      simpa using (List.mem_filter.1 this).2
    cases hx : (takeRes r x.st.c.published).1 with
    | none =>
      have hab : takeRes r x.st.c.published = (none, x.st.c.published) := by
        apply takeRes_absent
        cases h : hasRes r x.st.c.published with
        | false => rfl
        | true =>
          exfalso
          obtain ⟨l, hl, e⟩ := List.mem_filterMap.1 ((hasRes_iff r _).1 h)
          have hf1 := (takeRes_fst r x.st.c.published hpr n2).1
          rw [hx] at hf1
          have : l ∈ x.st.c.published.filter (fun l => decide (l.res = some r)) := List.mem_filter.2 ⟨hl, by simpa using e⟩
          simp only [Option.toList_none, List.map_nil] at hf1
          have h0 := List.map_eq_nil_iff.1 hf1.symm
          rw [h0] at this; cases this
      have hstep : step env { x.st with sent := [] } (.destroy r) =
          .ok { x.st with sent := [], uri := fun a => if a = r then none else x.st.uri a } := by
        have : deleteResource env r { x.st with sent := [] } = .ok { x.st with sent := [] } := by
          simp only [deleteResource, hpub, hab]
          rw [if_neg (by rw [i.base.owned]; simp)]
        simp only [step, this, Out.bind]
      rw [hab] at hnot
      have := freeOk { x.st with sent := [] } hnot ⟨b0, i.dir, i.outp, i.outd⟩
      exact ⟨_, by simp only [sysStep, device, hstep, Out.bind], this⟩
    | some l =>
      obtain ⟨hl, hlr⟩ := hfst l hx
      obtain ⟨u, hu⟩ := Option.ne_none_iff_exists'.1 (i.base.inv.live r (List.mem_filterMap.2 ⟨l, by simp [hl], hlr⟩))
      have hlins : l.ins = insOf u := i.base.pins l hl r u hlr hu
      have hhu : Href x.st (x.st.c.pub ++ x.st.c.published) u := ⟨l, by simp [hl], r, hlr, hu⟩
      have hstep : step env { x.st with sent := [] } (.destroy r) =
          (cloudDelete env { x.st with sent := [], c := { x.st.c with published := (takeRes r x.st.c.published).2, del := x.st.c.del ++ [⟨none, l.ins⟩] } }).bind
            fun s => .ok { s with uri := fun a => if a = r then none else s.uri a } := by
        simp only [step, deleteResource, hpub, hx, i.base.owned, Bool.false_eq_true, if_false]
      have hh : ∀ h, Href { x.st with sent := [], c := { x.st.c with published := (takeRes r x.st.c.published).2, del := x.st.c.del ++ [⟨none, l.ins⟩] } }
          (x.st.c.pub ++ (takeRes r x.st.c.published).2) h ↔ Href x.st (x.st.c.pub ++ x.st.c.published) h ∧ h ≠ u := by
        intro h
        constructor
        · rintro ⟨m, hm', a, e1, e2⟩
          refine ⟨?_, ?_⟩
          · rcases List.mem_append.1 hm' with h1 | h1
            · exact ⟨m, by simp [h1], a, e1, e2⟩
            · exact ⟨m, by simp [takeRes_mem r _ m h1], a, e1, e2⟩
          · rintro rfl
            exact hnot m hm' (by rw [e1, i.base.inj a r h e2 hu])
        · rintro ⟨⟨m, hm', a, e1, e2⟩, hne⟩
          have har : a ≠ r := by
            rintro rfl; have e2' : x.st.uri a = some h := e2; rw [hu] at e2'; cases e2'; exact hne rfl
          have : a ∈ rs (x.st.c.pub ++ (takeRes r x.st.c.published).2) := by
            rw [hrs]; exact List.mem_filter.2 ⟨List.mem_filterMap.2 ⟨m, hm', e1⟩, by simpa using har⟩
          obtain ⟨m', hm'', e'⟩ := List.mem_filterMap.1 this
          exact ⟨m', hm'', a, e', e2⟩
      have b1 : Base U insOf { x.st with sent := [], c := { x.st.c with published := (takeRes r x.st.c.published).2, del := x.st.c.del ++ [⟨none, l.ins⟩] } } x.down := by
        refine ⟨⟨?_, ?_, ?_, ?_⟩, i.base.loggedIn, i.base.rfnop, i.base.owned, i.base.inj, ?_, ?_, i.base.uris, ?_, ?_, i.base.ansok⟩
        · intro m hm'
          rcases List.mem_append.1 hm' with h1 | h1
          · exact i.base.inv.res m (by simp [show m ∈ x.st.c.pub from h1])
          · exact i.base.inv.res m (by simp [takeRes_mem r _ m h1])
        · intro a ha
          dsimp only at ha
          rw [hrs] at ha
          exact i.base.inv.live a (List.mem_filter.1 ha).1
        · dsimp only; rw [hrs]; exact i.base.inv.nodup.filter _
        · intro m hm'
          rcases List.mem_append.1 hm' with h1 | h1
          · exact i.base.inv.del m h1
          · simp only [List.mem_singleton] at h1; rw [h1]
        · intro m hm' a v e1 e2
          exact i.base.pins m (takeRes_mem r _ m hm') a v e1 e2
        · intro m hm'
          rcases List.mem_append.1 hm' with h1 | h1
          · exact i.base.dins m h1
          · simp only [List.mem_singleton] at h1; exact ⟨u, i.base.uris r u hu, by rw [h1]; exact hlins⟩
        · intro m hm' h h'
          obtain ⟨h1, h2⟩ := (hh h).1 h'
          rcases List.mem_append.1 hm' with h3 | h3
          · exact i.base.dfree m h3 h h1
          · simp only [List.mem_singleton] at h3
            rw [h3]; dsimp only; rw [hlins]
            obtain ⟨_, _, a, _, e2⟩ := h1
            exact fun e => h2 (hinj _ _ (i.base.uris a h e2) (i.base.uris r u hu) e)
        · dsimp only
          unfold ids
          rw [List.map_append, List.nodup_append]
          refine ⟨i.base.dnodup, by simp, ?_⟩
          intro a ha c hc'
          simp only [List.map_cons, List.map_nil, List.mem_singleton] at hc'
          obtain ⟨m, hm', rfl⟩ := List.mem_map.1 ha
          rw [hc', hlins]
          exact fun e => i.base.dfree m hm' u hhu e.symm
      have d1 : DirOk U insOf { x.st with sent := [], c := { x.st.c with published := (takeRes r x.st.c.published).2, del := x.st.c.del ++ [⟨none, l.ins⟩] } } x.up x.dir := by
        intro h
        rw [hh h]
        have := i.dir h
        dsimp only at this ⊢
        rw [this]
        have e : (U h ∧ insOf h ∈ ids (x.st.c.del ++ [⟨none, l.ins⟩])) ↔ (U h ∧ insOf h ∈ ids x.st.c.del) ∨ h = u := by
          unfold ids
          rw [List.map_append, List.mem_append, List.map_cons, List.map_nil, List.mem_singleton, hlins]
          constructor
          · rintro ⟨h0, h1 | h1⟩
            · exact .inl ⟨h0, h1⟩
            · exact .inr (hinj _ _ h0 (i.base.uris r u hu) h1)
          · rintro (⟨h0, h1⟩ | h1)
            · exact ⟨h0, .inl h1⟩
            · exact ⟨by rw [h1]; exact i.base.uris r u hu, .inr (by rw [h1])⟩
        rw [e]
        constructor
        · rintro (h1 | h1)
          · by_cases hhu' : h = u
            · exact .inr (.inr hhu')
            · exact .inl ⟨h1, hhu'⟩
          · exact .inr (.inl h1)
        · rintro (⟨h1, _⟩ | h1 | rfl)
          · exact .inl h1
          · exact .inr h1
          · exact .inl hhu
      have p1 : OutP { x.st with sent := [], c := { x.st.c with published := (takeRes r x.st.c.published).2, del := x.st.c.del ++ [⟨none, l.ins⟩] } } x.up x.down :=
        fun v hv => i.outp v hv
      obtain ⟨s', hs, hf, _⟩ := cloudDelete_spec env { x.st with sent := [], c := { x.st.c with published := (takeRes r x.st.c.published).2, del := x.st.c.del ++ [⟨none, l.ins⟩] } } (by simp)
      have key := delete_sys hc hm h64 b1 d1 p1 (by simp) hs
      have := freeOk s' (by rw [hf.pub, hf.published]; exact hnot) key
      exact ⟨_, by simp only [sysStep, device, hstep, hs, Out.bind], this⟩
  | publish =>
    have hb : Base U insOf { x.st with sent := [], c := moveBack x.st.c } x.down := by
      have hi := inv_moveBack (s := { x.st with sent := [] }) b0.inv
      refine ⟨hi, i.base.loggedIn, i.base.rfnop, i.base.owned, i.base.inj, ?_, i.base.dins, i.base.uris, ?_, i.base.dnodup, i.base.ansok⟩
      · intro l hl; simp [moveBack] at hl
      · intro l hl h h'
        apply i.base.dfree l hl h
        simpa [moveBack, Href] using h'
    obtain ⟨s1, h1⟩ := (cloudPublish_spec env _).1 hb.inv.livePub
    have key := publish_sys hc (up := x.up) (dir := x.dir) hb (by
      intro h
      have := i.dir h
      dsimp only [moveBack] at this ⊢
      rw [this, List.append_nil]
      constructor
      · rintro ((h1 | h1) | h1)
        · exact .inl h1
        · exact .inr h1
        · exact .inl h1
      · rintro (h1 | h1)
        · exact .inl (.inl h1)
        · exact .inl (.inr h1)) i.outd h1
    obtain ⟨s2, h2, _⟩ := statusDel_ok env s1
    have key2 := statusDel_sys hc hm h64 key.1 key.2.1 key.2.2.1 key.2.2.2.1 h2
    have hstep : step env { x.st with sent := [] } .publish = .ok s2 := by
      have h1' : republish env { x.st with sent := [] } = .ok s1 := h1
      simp only [step, publishResources, h1', Out.bind, h2]
    exact ⟨_, by simp only [sysStep, device, hstep, Out.bind], sinv_of key2⟩
  | hourly =>
    by_cases ht : x.st.c.timer = true
    · have hb : Base U insOf { x.st with sent := [], c := moveBack x.st.c } x.down := by
        have hi := inv_moveBack (s := { x.st with sent := [] }) b0.inv
        refine ⟨hi, i.base.loggedIn, i.base.rfnop, i.base.owned, i.base.inj, ?_, i.base.dins, i.base.uris, ?_, i.base.dnodup, i.base.ansok⟩
        · intro l hl; simp [moveBack] at hl
        · intro l hl h h'
          apply i.base.dfree l hl h
          simpa [moveBack, Href] using h'
      obtain ⟨s1, h1⟩ := (cloudPublish_spec env _).1 hb.inv.livePub
      have key := publish_sys hc (up := x.up) (dir := x.dir) hb (by
        intro h
        have := i.dir h
        dsimp only [moveBack] at this ⊢
        rw [this, List.append_nil]
        constructor
        · rintro ((h1 | h1) | h1)
          · exact .inl h1
          · exact .inr h1
          · exact .inl h1
        · rintro (h1 | h1)
          · exact .inl (.inl h1)
          · exact .inl (.inr h1)) i.outd h1
      have hstep : step env { x.st with sent := [] } .hourly = .ok s1 := by
        have h1' : republish env { x.st with sent := [] } = .ok s1 := h1
        simp only [step, ht, if_true, h1']
      exact ⟨_, by simp only [sysStep, device, hstep, Out.bind], sinv_of ⟨key.1, key.2.1, key.2.2.1, key.2.2.2.1⟩⟩
    · have hstep : step env { x.st with sent := [] } .hourly = .ok { x.st with sent := [] } := by
        simp only [step, ht, Bool.false_eq_true, if_false]
      exact ⟨_, by simp only [sysStep, device, hstep, Out.bind], sinv_of ⟨b0, i.dir, i.outp, i.outd⟩⟩
  | cloud =>
    cases hu : x.up with
    | nil => exact ⟨x, by simp only [sysStep, hu], i⟩
    | cons m up =>
      refine ⟨⟨x.st, up, x.down ++ [answer insOf m], applyMsg insOf x.dir m⟩, by simp only [sysStep, hu], ⟨?_, ?_, ?_, ?_⟩⟩
      · have b := i.base
        refine ⟨b.inv, b.loggedIn, b.rfnop, b.owned, b.inj, b.pins, b.dins, b.uris, b.dfree, b.dnodup, ?_⟩
        intro A hA
        rcases List.mem_append.1 hA with hA | hA
        · exact b.ansok A hA
        · simp only [List.mem_singleton] at hA
          cases m with
          | publish l =>
            simp only [answer, Ans.pub.injEq] at hA
            subst hA
            intro p hp
            obtain ⟨q, _, rfl⟩ := List.mem_map.1 hp
            exact ⟨q.1, rfl⟩
          | publishCore => simp only [answer, Ans.pub.injEq] at hA; subst hA; simp
          | delete l => cases hA
      · have := i.dir
        rw [hu] at this
        intro h
        rw [← this h]; rfl
      · intro u hv
        have := i.outp u hv
        rw [hu] at this
        rcases this with ⟨l, h1, h2⟩ | ⟨A, h1, h2⟩
        · simp only [List.append_nil, List.mem_cons] at h1
          rcases h1 with h1 | h1
          · right
            subst h1
            refine ⟨_, List.mem_append_right _ (List.mem_singleton.2 rfl), insOf u, ?_⟩
            obtain ⟨q, hq, rfl⟩ := List.mem_map.1 h2
            exact List.mem_map.2 ⟨q, hq, rfl⟩
          · exact .inl ⟨l, by simpa using h1, h2⟩
        · exact .inr ⟨A, by simp [h1], h2⟩
      · intro hne
        have := i.outd hne
        rw [hu] at this
        rcases this with ⟨l, h1⟩ | h1
        · simp only [List.append_nil, List.mem_cons] at h1
          rcases h1 with h1 | h1
          · right; subst h1; simp [answer]
          · exact .inl ⟨l, by simpa using h1⟩
        · exact .inr (by simp [h1])
  | receive =>
    cases hd : x.down with
    | nil => exact ⟨x, by simp only [sysStep, hd], i⟩
    | cons a down =>
      have b1 : Base U insOf { x.st with sent := [] } down := by
        refine ⟨b0.inv, b0.loggedIn, b0.rfnop, b0.owned, b0.inj, b0.pins, b0.dins, b0.uris, b0.dfree, b0.dnodup, ?_⟩
        intro A hA; exact b0.ansok A (by rw [hd]; simp [hA])
      cases a with
      | pub A =>
        have hA : ∀ p ∈ A, ∃ h, p = (some h, some (insOf h)) := b0.ansok A (by rw [hd]; simp)
        obtain ⟨s', hs, _⟩ := acceptAll_ok A { x.st with sent := [] } b0.inv
        obtain ⟨k1, k2, k3, k4, k5⟩ := takeHref_pins A _ s' down hA b1 hs
        have hstep : step env { x.st with sent := [] } (.pubAnswer true (some A)) = .ok s' := by
          simp only [step, publishAnswer, i.base.loggedIn, not_true_eq_false, if_false, hs]
        refine ⟨⟨s', x.up ++ s'.sent, down, x.dir⟩, by simp only [sysStep, hd, device, hstep, Out.bind], sinv_of (down := down) (dir := x.dir) ⟨k1, ?_, ?_, ?_⟩⟩
        · intro h
          rw [k2 h, k4, k3]
          exact i.dir h
        · intro v hv
          obtain ⟨m1, m2⟩ := k5 v hv
          have := i.outp v m1
          rw [hd] at this
          rw [k4]
          rcases this with h | ⟨B, h1, j, h2⟩
          · exact .inl h
          · rcases List.mem_cons.1 h1 with h1 | h1
            · cases h1; exact absurd h2 (m2 j)
            · exact .inr ⟨B, h1, j, h2⟩
        · intro hne
          rw [k3] at hne
          have := i.outd hne
          rw [hd] at this
          rw [k4]
          rcases this with h | h
          · exact .inl h
          · rcases List.mem_cons.1 h with h | h
            · cases h
            · exact .inr h
      | del =>
        have p1 : OutP { x.st with sent := [] } x.up down := by
          intro v hv
          have := i.outp v hv
          rw [hd] at this
          rcases this with h | ⟨B, h1, j, h2⟩
          · exact .inl h
          · rcases List.mem_cons.1 h1 with h1 | h1
            · cases h1
            · exact .inr ⟨B, h1, j, h2⟩
        by_cases hne : x.st.c.del = []
        · have hstep : step env { x.st with sent := [] } (.delAnswer false) = .ok { x.st with sent := [] } := by
            simp only [step, deleteAnswer, hne, if_true]
          exact ⟨_, by simp only [sysStep, hd, device, hstep, Out.bind], sinv_of (down := down) (dir := x.dir) ⟨b1, i.dir, p1, fun h => absurd hne h⟩⟩
        · obtain ⟨s', hs, _⟩ := cloudDelete_spec env { x.st with sent := [] } hne
          have key := delete_sys hc hm h64 b1 i.dir p1 hne hs
          have hstep : step env { x.st with sent := [] } (.delAnswer false) = .ok s' := by
            simp only [step, deleteAnswer, hne, if_false, Bool.false_eq_true, hs]
          exact ⟨_, by simp only [sysStep, hd, device, hstep, Out.bind], sinv_of key⟩

theorem sysInit_inv (U : Bytes → Prop) (insOf : Bytes → Int) (u : Bool) : SInv U insOf (sysInit u) := by
  refine ⟨⟨⟨by simp [sysInit], by simp [sysInit, rs], by simp [sysInit, rs], by simp [sysInit]⟩, rfl, rfl, rfl,
    by simp [sysInit], by simp [sysInit], by simp [sysInit], by simp [sysInit], by simp [sysInit], by simp [sysInit, ids], by simp [sysInit]⟩, ?_, ?_, ?_⟩
  · intro h; simp [sysInit, evd, Href, ids]
  · rintro v ⟨l, hl, _⟩; simp [sysInit] at hl
  · intro h; simp [sysInit] at h

theorem sys_run {env : Env} (hc : ∀ m, env.can m = true) (hm : 100 ≤ env.max) {U : Bytes → Prop} {insOf : Bytes → Int} (h64 : ∀ h, U h → Int64 (insOf h))
    (hinj : ∀ g h, U g → U h → insOf g = insOf h → g = h) : ∀ (evs : List Ev) (x : Sys), SInv U insOf x → CalmRun U env insOf x evs →
    ∃ x', sysRun env insOf x evs = .ok x' ∧ SInv U insOf x' := by
  intro evs; induction evs with
  | nil => intro x i _; exact ⟨x, rfl, i⟩
  | cons e l ih =>
    intro x i h
    obtain ⟨x1, h1, i1⟩ := sys_step hc hm h64 hinj i e h.1
    obtain ⟨x2, h2, i2⟩ := ih x1 i1 (h.2 x1 h1)
    exact ⟨x2, by simp only [sysRun, h1, Out.bind, h2], i2⟩

/-- The directory at the cloud becomes right: after every history in which nothing gets
lost, no resource is added again while its removal waits and none is deleted while its
publication is not yet answered, as soon as all messages have arrived, nothing waits and the
cloud lists exactly the resources the device keeps. Full claim: all histories
(`deleted_unanswered_false`, `republished_false`, `added_again_false`, `lost_false`). -/
theorem directory_partial (env : Env) (hc : ∀ m, env.can m = true) (hm : 100 ≤ env.max) (U : Bytes → Prop) (insOf : Bytes → Int) (h64 : ∀ h, U h → Int64 (insOf h))
    (hinj : ∀ g h, U g → U h → insOf g = insOf h → g = h) (u : Bool) (evs : List Ev) (h : CalmRun U env insOf (sysInit u) evs) :
    ∃ x, sysRun env insOf (sysInit u) evs = .ok x ∧
      (x.up = [] → x.down = [] → x.st.c.pub = [] ∧ x.st.c.del = [] ∧ ∀ g, g ∈ x.dir ↔ ∃ r ∈ tracked x.st, x.st.uri r = some g) := by
  obtain ⟨x, h1, i⟩ := sys_run hc hm h64 hinj evs (sysInit u) (sysInit_inv U insOf u) h
  refine ⟨x, h1, ?_⟩
  intro hu hd
  have hp : x.st.c.pub = [] := by
    cases hx : x.st.c.pub with
    | nil => rfl
    | cons l t =>
      exfalso
      obtain ⟨r, v, e1, e2⟩ := i.base.inv.livePub l (by rw [hx]; simp)
      have := i.outp v ⟨l, by rw [hx]; simp, r, e1, e2⟩
      rw [hu, hd] at this
      rcases this with ⟨_, h, _⟩ | ⟨_, h, _⟩ <;> cases h
  have hdel : x.st.c.del = [] := by
    cases hx : x.st.c.del with
    | nil => rfl
    | cons l t =>
      exfalso
      have := i.outd (by show x.st.c.del ≠ []; rw [hx]; simp)
      rw [hu, hd] at this
      rcases this with ⟨_, h⟩ | h <;> cases h
  refine ⟨hp, hdel, ?_⟩
  intro g
  have := i.dir g
  rw [hu] at this
  have e : g ∈ x.dir ↔ Href x.st (x.st.c.pub ++ x.st.c.published) g ∨ (U g ∧ insOf g ∈ ids x.st.c.del) := this
  rw [e, href_tracked, hdel]
  simp [ids]

/-- Instance ids for the examples: of the two URIs used. -/
def exIns (h : Bytes) : Int := h.foldl (fun a c => a * 256 + c.toNat) 1

/-- A resource is published, answered, deleted, and the removal arrives. -/
def exEvs : List Ev := [.create 1 ua, .add 1 3, .create 2 ub', .add 2 4, .cloud, .cloud, .receive, .receive, .destroy 1, .cloud, .receive]

example : ∃ x, sysRun goodEnv exIns (sysInit true) exEvs = .ok x ∧ x.up = [] ∧ x.down = [] ∧ tracked x.st = [2] ∧ ub' ∈ x.dir ∧ ua ∉ x.dir :=
  ⟨_, rfl, rfl, rfl, by decide +kernel, by decide +kernel, by decide +kernel⟩

/-- The history meets the hypotheses of `directory_partial`. -/
example : CalmRun (fun h => h = ua ∨ h = ub') goodEnv exIns (sysInit true) exEvs ∧ (∀ m, goodEnv.can m = true) ∧ 100 ≤ goodEnv.max ∧
    (∀ h, h = ua ∨ h = ub' → Int64 (exIns h)) ∧
    (∀ g h, g = ua ∨ g = ub' → h = ua ∨ h = ub' → exIns g = exIns h → g = h) := by
  refine ⟨?_, fun _ => rfl, by decide, ?_, ?_⟩
  · refine ⟨⟨.inl rfl, rfl, fun a h => by cases h⟩, fun s h => ?_⟩; cases h
    refine ⟨⟨ua, rfl, fun l hl => by cases hl⟩, fun s h => ?_⟩; cases h
    refine ⟨⟨.inr rfl, rfl, fun a h => ?_⟩, fun s h => ?_⟩
    · have h' : (if a = 1 then some ua else none) = some ub' := h
      split at h' <;> revert h' <;> decide
    cases h
    refine ⟨⟨ub', rfl, fun l hl => by cases hl⟩, fun s h => ?_⟩; cases h
    refine ⟨trivial, fun s h => ?_⟩; cases h
    refine ⟨trivial, fun s h => ?_⟩; cases h
    refine ⟨trivial, fun s h => ?_⟩; cases h
    refine ⟨trivial, fun s h => ?_⟩; cases h
    refine ⟨by show 1 ∉ _; decide +kernel, fun s h => ?_⟩; cases h
    refine ⟨trivial, fun s h => ?_⟩; cases h
    refine ⟨trivial, fun s h => ?_⟩; cases h
    trivial
  · rintro h (rfl | rfl) <;> (unfold Int64; decide +kernel)
  · rintro g h (rfl | rfl) (rfl | rfl) <;> decide +kernel

/-- A resource deleted before its publication is answered stays at the cloud for ever. -/
theorem deleted_unanswered_false : ∃ x, sysRun goodEnv exIns (sysInit true)
    [.create 1 ua, .add 1 3, .destroy 1, .cloud, .receive] = .ok x ∧ x.up = [] ∧ x.down = [] ∧ tracked x.st = [] ∧ x.st.c.del = [] ∧
      x.dir = [ua] := ⟨_, rfl, rfl, rfl, rfl, rfl, by decide +kernel⟩

/-- So does a resource published long ago, if it is deleted after all resources are published
again (`oc_cloud_publish_resources` or the hourly callback) and before that is answered. -/
theorem republished_false : ∃ x, sysRun goodEnv exIns (sysInit true)
    [.create 1 ua, .add 1 3, .cloud, .receive, .publish, .destroy 1, .cloud, .receive] = .ok x ∧ x.up = [] ∧ x.down = [] ∧ tracked x.st = [] ∧
      x.st.c.del = [] ∧ x.dir = [ua, ua] := ⟨_, rfl, rfl, rfl, by decide +kernel, by decide +kernel, by decide +kernel⟩

/-- A resource removed while the device is not logged in and added again: after logging in
it is published and then removed by its old instance id, because the waiting removal is not
found (its resource was cleared), api/cloud/oc_cloud_rd.c:199-203, 361-363. -/
theorem added_again_false : ∃ s, run goodEnv (init true)
    [.state true false, .status true false, .create 1 ua, .add 1 (some 3), .pubAnswer true (some [(some ua, some (exIns ua))]),
     .status false false, .remove 1, .add 1 (some 4), .status true false] = .ok s ∧ tracked s = [1] ∧
     s.sent = [.publish [(ua, 3)], .publish [(ua, 4)], .delete [exIns ua]] ∧
     s.sent.foldl (applyMsg exIns) [] = [] := ⟨_, rfl, by decide +kernel, by decide +kernel, by decide +kernel⟩

/-- A removal is forgotten as soon as it is sent: if the connection is lost then, the
resource stays at the cloud. -/
theorem lost_false : ∃ s, run goodEnv (init true)
    [.state true false, .status true false, .create 1 ua, .add 1 (some 3), .pubAnswer true (some [(some ua, some 7)]),
     .destroy 1, .delAnswer true, .status false false, .status true false] = .ok s ∧ s.c.del = [] ∧
     s.sent = [.publish [(ua, 3)], .delete [7]] := ⟨_, rfl, by decide +kernel, by decide +kernel⟩

end Verif.CloudRd
