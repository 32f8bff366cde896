import Verif.Cloud.Spec
import Verif.CloudStore.Lemmas
import Verif.EpAddr.Props
import Verif.Uuid.Props
/-!
Invariant of the cloud client.
-/
namespace Verif.Cloud

open Verif.EpAddr (Bytes Addrs View Inv)
open Verif.Rep (Rep Val b getByTypeAndKey)

/-- The result meets `Q`; undefined only if `u`. -/
def Holds {α : Type} (u : Prop) (o : Out α) (Q : α → Prop) : Prop :=
  match o with
  | .ok a => Q a
  | .ub => u

theorem Holds.bind {α β : Type} {u : Prop} {o : Out α} {f : α → Out β} {Q : α → Prop} {R : β → Prop}
    (h : Holds u o Q) (hf : ∀ a, Q a → Holds u (f a) R) : Holds u (o.bind f) R := by
  cases o with
  | ub => exact h
  | ok a => exact hf a h

theorem Holds.mono {α : Type} {u : Prop} {o : Out α} {Q R : α → Prop}
    (h : Holds u o Q) (hf : ∀ a, Q a → R a) : Holds u o R := by
  cases o with
  | ub => exact h
  | ok a => exact hf a h

/-- Status and tokens. -/
def StOk (st : UInt8) (f : Prop) : Prop :=
  (has st LOGGED_IN = true → has st REGISTERED = true) ∧ (has st REGISTERED = true → f)

/-- The list of servers is one the cloud makes; unless `big`, it has at most 255. -/
structure SrvOk (lim : Nat) (big : Prop) (a : Addrs) : Prop where
  inv : Inv lim a
  uuid : ∀ i ∈ a.items, ∃ u, i.tag = .uuid u
  small : ¬ big → a.items.length ≤ 255

/-- Besides, the endpoint was made of one of the servers and so were those of all
requests. -/
structure Net (lim : Nat) (big : Prop) (a : Addrs) (ep : Option Bytes) (sent : List (Req × Bytes × List Bytes)) : Prop
    extends SrvOk lim big a where
  ep : ∀ u, ep = some u → u ∈ a.items.map (·.uri)
  sent : ∀ q ∈ sent, q.2.1 ∈ q.2.2

/-- The invariant of the context. -/
def Good (lim : Nat) (big : Prop) (s : Ctx) : Prop :=
  StOk s.status (s.refresh ≠ [] ∧ s.uid ≠ []) ∧ Net lim big s.servers s.ep s.sent

theorem stOk_zero (f : Prop) : StOk 0 f := ⟨by decide, by intro h; exact absurd h (by decide)⟩

/-- No bit but those of the manager changes. -/
def Sub (st st' : UInt8) : Prop :=
  (has st' LOGGED_IN = true → has st LOGGED_IN = true) ∧ has st' REGISTERED = has st REGISTERED

instance (a b : UInt8) : Decidable (Sub a b) := by unfold Sub; infer_instance

theorem stOk_sub {st st' : UInt8} {f : Prop} (hs : Sub st st') (h : StOk st f) : StOk st' f :=
  ⟨fun e => by rw [hs.2]; exact h.1 (hs.1 e), fun e => h.2 (by rw [← hs.2]; exact e)⟩

theorem sub_table : ∀ st : UInt8, Sub st (st ||| FAILURE) ∧ Sub st (st ||| TOKEN_EXPIRY) ∧
    Sub st (st ||| REFRESHED) ∧ Sub st (st ||| LOGGED_OUT) ∧ Sub st (st &&& ~~~ LOGGED_IN) ∧
    Sub st (st &&& ~~~ (FAILURE ||| LOGGED_OUT ||| REFRESHED ||| TOKEN_EXPIRY ||| DEREGISTERED)) ∧
    Sub st (st &&& ~~~ (FAILURE ||| TOKEN_EXPIRY)) ∧
    Sub st (st &&& ~~~ (FAILURE ||| TOKEN_EXPIRY ||| REFRESHED)) ∧
    Sub st (st &&& ~~~ (FAILURE ||| LOGGED_OUT)) ∧ Sub st (st &&& ~~~ (FAILURE ||| DEREGISTERED)) :=
  forall_u8 (by decide +kernel)

theorem off_both : ∀ st : UInt8,
    has (st &&& ~~~ LOGGED_IN &&& ~~~ REGISTERED) LOGGED_IN = false ∧
    has (st &&& ~~~ LOGGED_IN &&& ~~~ REGISTERED) REGISTERED = false :=
  forall_u8 (by decide +kernel)

theorem on_reg : ∀ st : UInt8, has (st ||| REGISTERED) REGISTERED = true :=
  forall_u8 (by decide +kernel)

theorem on_login : ∀ st : UInt8, has (st ||| LOGGED_IN) REGISTERED = has st REGISTERED :=
  forall_u8 (by decide +kernel)

theorem good_st {lim : Nat} {big : Prop} {s : Ctx} {st : UInt8} (hs : Sub s.status st) (h : Good lim big s) :
    Good lim big { s with status := st } :=
  ⟨stOk_sub hs h.1, h.2⟩

theorem good_failure {lim : Nat} {big : Prop} {s : Ctx} (h : Good lim big s) : Good lim big (on FAILURE s) :=
  good_st (sub_table _).1 h

theorem good_zero {lim : Nat} {big : Prop} {s : Ctx} (h0 : s.status = 0) (h : Net lim big s.servers s.ep s.sent) :
    Good lim big s := ⟨by rw [h0]; exact stOk_zero _, h⟩

theorem good_servers {lim : Nat} {big : Prop} {s : Ctx} {a : Addrs} (h : Good lim big s) (ha : SrvOk lim big a)
    (hi : a.items = s.servers.items) :
    Good lim big (withServers s a) :=
  ⟨h.1, ha, by show ∀ u, s.ep = some u → _ ∈ a.items.map _; rw [hi]; exact h.2.ep, h.2.sent⟩

/-! ## Schedule -/

/-- The timeouts are whole seconds or more, up to the end. -/
def Env.fine (x : Env) : Prop := ∀ t ∈ x.timeouts, t = 0 ∨ 1000 ≤ t

theorem selectNext_holds {u : Prop} {lim : Nat} {big : Prop} {a : Addrs} (h : SrvOk lim big a) :
    Holds u (EpAddr.selectNext a) fun r => SrvOk lim big r.2 ∧ r.2.items = a.items := by
  obtain ⟨ok, a', e, hI, _⟩ := EpAddr.step_refines h.inv (o := .selectNext) rfl
  simp only [EpAddr.step] at e
  have hi : a'.items = a.items := by
    simp only [EpAddr.selectNext] at e
    cases hs : a.sel with
    | none => rw [hs] at e; cases e; rfl
    | some p =>
      rw [hs] at e
      cases hn : EpAddr.nextOf p a.items with
      | ub => simp only [hn] at e; cases e
      | ok n =>
        simp only [hn, Out.bind, EpAddr.select'] at e
        split at e <;> cases e <;> rfl
  rw [e]
  exact ⟨⟨hI, fun i hi' => h.uuid i (by rw [← hi]; exact hi'), by rw [hi]; exact h.small⟩, hi⟩

/-- Everything but what scheduling changes. -/
structure Same (s s' : Ctx) : Prop where
  status : s'.status = s.status
  refresh : s'.refresh = s.refresh
  uid : s'.uid = s.uid
  access : s'.access = s.access
  expires : s'.expires = s.expires
  items : s'.servers.items = s.servers.items
  manager : s'.manager = s.manager

theorem Same.rfl {s : Ctx} : Same s s := ⟨by rfl, by rfl, by rfl, by rfl, by rfl, by rfl, by rfl⟩

theorem schedule_holds {u : Prop} {lim : Nat} {big : Prop} {x : Env} {s : Ctx} {t : Tm} {retry : Bool}
    (hu : ¬ x.fine → u) (h : Good lim big s) :
    Holds u (schedule x s t retry) fun r => Good lim big r.2 ∧ Same s r.2 := by
  have hc : (counted s t retry).2.status = s.status ∧ (counted s t retry).2.refresh = s.refresh ∧
      (counted s t retry).2.uid = s.uid ∧ (counted s t retry).2.servers = s.servers ∧
      (counted s t retry).2.access = s.access ∧ (counted s t retry).2.expires = s.expires ∧
      (counted s t retry).2.manager = s.manager ∧ (counted s t retry).2.ep = s.ep ∧
      (counted s t retry).2.sent = s.sent := by
    unfold counted; split <;> split <;> simp
  generalize hq : counted s t retry = q at hc
  obtain ⟨c, s1⟩ := q
  obtain ⟨h1, h2, h3, h4, h5, h6, h7, h8, h9⟩ := hc
  simp only at h1 h2 h3 h4 h5 h6 h7 h8 h9
  have hg : Good lim big s1 := by
    unfold Good; rw [h1, h2, h3, h4, h8, h9]; exact h
  have hsame : Same s s1 := ⟨h1, h2, h3, h5, h6, by rw [h4], h7⟩
  have hr : Holds u (setRetry x s1 c) fun r => Good lim big r.2 ∧ Same s r.2 := by
    unfold setRetry
    split
    · exact ⟨hg, hsame⟩
    · exact ⟨hg, ⟨h1, h2, h3, h5, h6, by rw [h4], h7⟩⟩
    · unfold defaultAction
      split
      · refine (selectNext_holds hg.2.toSrvOk).bind fun r hr => ?_
        exact ⟨good_servers hg hr.1 hr.2,
          ⟨h1, h2, h3, h5, h6, by simp only [withServers]; rw [hr.2, h4], h7⟩⟩
      · rename_i ho
        dsimp only
        split
        · apply hu
          intro hf
          rename_i ht
          have hm : ¬ x.timeouts[c.toNat]? = none := by
            intro e; simp [isOver, e] at ho
          cases he : x.timeouts[c.toNat]? with
          | none => exact hm he
          | some v =>
            have hv := hf v (List.mem_of_getElem? he)
            simp [isOver, he] at ho
            rw [List.getD_eq_getElem?_getD, he] at ht
            simp at ht; omega
        · exact ⟨hg, ⟨h1, h2, h3, h5, h6, by rw [h4], h7⟩⟩
  unfold schedule
  rw [hq]
  refine hr.bind fun r hr => ?_
  split
  · exact hr
  · exact ⟨hr.1, ⟨hr.2.1, hr.2.2, hr.2.3, hr.2.4, hr.2.5, hr.2.6, hr.2.7⟩⟩

/-! ## Context -/

theorem init_holds {u : Prop} {lim : Nat} {big : Prop} {a : Addrs} {m : Bool} {uri id : Bytes}
    (h : Inv lim a) :
    Holds u (EpAddr.init lim m (EpAddr.deinit a) ⟨uri, .uuid id⟩) fun r => SrvOk lim big r.2 ∧
      r.2.items.length ≤ 1 := by
  obtain ⟨ok, a', e, hI, _, hA⟩ := EpAddr.step_refines (EpAddr.inv_drop h) (o := .init m ⟨uri, .uuid id⟩) rfl
  simp only [EpAddr.step] at e
  have e' : EpAddr.init lim m (EpAddr.deinit a) ⟨uri, .uuid id⟩ = .ok (ok, a') := e
  rw [e']
  have hl : (EpAddr.servers a').all = [] ∨ (EpAddr.servers a').all = [(uri, .uuid id)] := by
    simp only [EpAddr.Adds] at hA
    split at hA
    · exact Or.inl hA.2
    · split at hA
      · exact Or.inr (by simpa using hA.2)
      · exact Or.inl (by simpa using hA.2)
  have hlen : a'.items.length ≤ 1 := by
    have : a'.items.length = (EpAddr.servers a').all.length := by simp [EpAddr.servers]
    rcases hl with h | h <;> rw [this, h] <;> simp
  refine ⟨⟨hI, ?_, fun _ => Nat.le_trans hlen (by decide)⟩, hlen⟩
  intro i hi
  have : (i.uri, i.tag) ∈ (EpAddr.servers a').all := List.mem_map.2 ⟨i, hi, rfl⟩
  rcases hl with h | h
  · rw [h] at this; simp at this
  · rw [h] at this; simp at this; exact ⟨_, this.2⟩

theorem reinit_holds {u : Prop} {big : Prop} {x : Env} {s : Ctx} (h : Good x.lim big s) (he : s.ep = none) :
    Holds u (reinitStore x s) fun s' => Good x.lim big s' ∧ s'.status = 0 ∧ s'.manager = s.manager ∧ s'.ep = none := by
  unfold reinitStore
  refine (init_holds (big := big) h.2.inv).bind fun r hr => ⟨good_zero rfl ⟨hr.1, ?_, h.2.sent⟩, rfl, rfl, he⟩
  intro u e
  exact absurd (he.symm.trans e) (by simp)

theorem no_ep {lim : Nat} {big : Prop} {s : Ctx} (h : Good lim big s) : Good lim big (resetEndpoint s) :=
  ⟨h.1, h.2.toSrvOk, fun _ e => (by cases e), h.2.sent⟩

theorem clear_holds {u : Prop} {big : Prop} {x : Env} {s : Ctx} (h : Good x.lim big s) :
    Holds u (contextClear x s) fun s' => Good x.lim big s' := by
  unfold contextClear
  exact (reinit_holds (s := cancel (managerTms ++ deregTms) (resetEndpoint (regDeinit s)))
    (no_ep (s := cancel (managerTms ++ deregTms) (regDeinit s)) h) rfl).bind
    fun s' hs => good_zero hs.2.1 hs.1.2

theorem selected_holds {u : Prop} {lim : Nat} {a : Addrs} (h : Inv lim a) :
    Holds u (EpAddr.selected a) fun i => (i = none → a.items = []) ∧
      ∀ j, i = some j → a.items[(EpAddr.servers a).cur]? = some j ∧ j ∈ a.items := by
  unfold EpAddr.selected
  cases hs : a.sel with
  | none => exact ⟨fun _ => h.none_iff.1 hs, by intro j e; cases e⟩
  | some p =>
    simp only
    cases hf : a.items.find? fun i => i.id == p with
    | none =>
      obtain ⟨i, hi, hp⟩ := h.mem p hs
      have := List.find?_eq_none.1 hf i hi
      simp [hp] at this
    | some i =>
      refine ⟨(by intro e; cases e), ?_⟩
      intro j e; cases e
      obtain ⟨k, i', hk, e1, e2⟩ := EpAddr.sel_pos h hs
      have hm := List.mem_of_find?_eq_some hf
      obtain ⟨k', hk'⟩ := List.getElem?_of_mem hm
      have hid := List.find?_some hf
      simp at hid
      have := EpAddr.id_inj h hk hk' (by rw [e1, hid])
      rw [e2, this]
      exact ⟨hk', hm⟩

theorem regInit_holds {u : Prop} {lim : Nat} {big : Prop} {s : Ctx} (hu : big → u) (h : Good lim big s) :
    Holds u (regInit s) fun s' => Good lim big s' ∧ s'.manager = s.manager := by
  unfold regInit
  refine (selected_holds h.2.inv).bind fun i _ => ?_
  split
  · rename_i hl
    apply hu
    rcases Classical.em big with hb | hb
    · exact hb
    · have := h.2.small hb; omega
  · exact ⟨⟨h.1, h.2⟩, rfl⟩

theorem setEndpoint_holds {u : Prop} {lim : Nat} {big : Prop} {x : Env} {s : Ctx} (h : Good lim big s) :
    Holds u (setEndpoint x s) fun q => Good lim big q.2 ∧ Same s q.2 ∧ (q.1 = true → q.2.ep ≠ none) := by
  unfold setEndpoint
  split
  · rename_i he
    exact ⟨h, Same.rfl, fun _ e => by simp only at e; rw [e] at he; cases he⟩
  · refine (selected_holds h.2.inv).bind fun i hi => ?_
    split
    · exact ⟨h, Same.rfl, fun e => by cases e⟩
    · rename_i i
      split
      · refine ⟨⟨h.1, h.2.toSrvOk, ?_, h.2.sent⟩, ⟨rfl, rfl, rfl, rfl, rfl, rfl, rfl⟩, fun _ e => by cases e⟩
        intro u e
        cases e
        exact List.mem_map.2 ⟨i, (hi.2 i rfl).2, rfl⟩
      · exact ⟨h, Same.rfl, fun e => by cases e⟩

theorem send_holds {u : Prop} {lim : Nat} {big : Prop} {x : Env} {s : Ctx} {r : Req} {t n : Bool}
    (h : Good lim big s) : Holds u (send x s r t n) fun q => Good lim big q.2 ∧ Same s q.2 := by
  unfold send
  refine (setEndpoint_holds h).bind fun q hq => ?_
  obtain ⟨hg, hs, he⟩ := hq
  split
  · rename_i hc
    simp only [Bool.and_eq_true] at hc
    have hne := he hc.1.1.1
    refine ⟨⟨hg.1, hg.2.toSrvOk, hg.2.ep, ?_⟩, ⟨hs.1, hs.2, hs.3, hs.4, hs.5, hs.6, hs.7⟩⟩
    intro q hq'
    rcases List.mem_append.1 hq' with hq' | hq'
    · exact hg.2.sent q hq'
    · simp only [List.mem_singleton] at hq'
      subst hq'
      cases hep : q.2.ep with
      | none => exact absurd hep hne
      | some u => exact hg.2.ep u hep
  · exact ⟨hg, hs⟩

/-! ## Servers -/

theorem of_servers {lim : Nat} {big : Prop} {a' : Addrs} (hI : Inv lim a')
    (hu : ∀ q ∈ (EpAddr.servers a').all, ∃ u, q.2 = .uuid u)
    (hl : ¬ big → (EpAddr.servers a').all.length ≤ 255) : SrvOk lim big a' := by
  refine ⟨hI, ?_, ?_⟩
  · intro i hi
    exact hu (i.uri, i.tag) (List.mem_map.2 ⟨i, hi, rfl⟩)
  · intro hb; simpa [EpAddr.servers] using hl hb

theorem srv_uuid {lim : Nat} {big : Prop} {a : Addrs} (h : SrvOk lim big a) :
    ∀ q ∈ (EpAddr.servers a).all, ∃ u, q.2 = .uuid u := by
  intro q hq
  obtain ⟨i, hi, e⟩ := List.mem_map.1 hq
  rw [← e]; exact h.uuid i hi

theorem srv_small {lim : Nat} {big : Prop} {a : Addrs} (h : SrvOk lim big a) (hb : ¬ big) :
    (EpAddr.servers a).all.length ≤ 255 := by simpa [EpAddr.servers] using h.small hb

/-- Adding a server. -/
theorem add_holds {u : Prop} {lim : Nat} {a : Addrs} {m : Bool} {uri sid : Bytes} (h : Inv lim a) :
    Holds u (EpAddr.add lim m a ⟨uri, .uuid sid⟩) fun r => Inv lim r.2 ∧
      EpAddr.Adds lim m (uri, .uuid sid) (EpAddr.servers a).all r.1.isSome (EpAddr.servers r.2).all ∧
      (EpAddr.servers r.2).cur = (EpAddr.servers a).cur ∧ ∃ l, r.2.items = a.items ++ l := by
  have hitems := EpAddr.add_eq h m ⟨uri, .uuid sid⟩
  obtain ⟨ok, a', e, hI, hA, hc⟩ := EpAddr.step_refines h (o := .add m ⟨uri, .uuid sid⟩) rfl
  simp only [EpAddr.step] at e
  cases hq : EpAddr.add lim m a ⟨uri, .uuid sid⟩ with
  | ub => rw [hq] at e; cases e
  | ok r =>
    rw [hq] at e
    simp only [Out.bind, Out.ok.injEq, Prod.mk.injEq] at e
    obtain ⟨e1, e2⟩ := e
    subst e1; subst e2
    refine ⟨hI, hA, hc, ?_⟩
    rw [hq] at hitems
    split at hitems
    · cases hitems; exact ⟨_, rfl⟩
    · cases hitems; exact ⟨[], by simp⟩

theorem first_uri (a : Addrs) (uri : Bytes) : ∃ k, EpAddr.First (·.uri = uri) a.items k := by
  obtain ⟨c, hc⟩ := EpAddr.means_exists a (.selectByUri uri) (by intro p e; cases e)
  obtain ⟨k, hk, _⟩ := hc
  exact ⟨k, hk⟩

theorem first_id {lim : Nat} {a : Addrs} (h : Inv lim a) {k : Nat} {i : EpAddr.Item}
    (hi : a.items[k]? = some i) : EpAddr.First (·.id = i.id) a.items (some k) := by
  refine ⟨i, hi, rfl, ?_⟩
  intro j hj i' hi' e
  have := EpAddr.id_inj h hi' hi e
  omega

theorem selectByUri_at {lim : Nat} {a : Addrs} (h : Inv lim a) {uri : Bytes}
    (hm : uri ∈ (EpAddr.servers a).all.map (·.1)) :
    Inv lim (EpAddr.selectByUri a uri).2 ∧
      (EpAddr.servers (EpAddr.selectByUri a uri).2).all = (EpAddr.servers a).all ∧
      ((EpAddr.servers a).all[(EpAddr.servers (EpAddr.selectByUri a uri).2).cur]?).map (·.1) = some uri := by
  obtain ⟨k, hk⟩ := first_uri a uri
  obtain ⟨ok, a', e, hI, hD⟩ := EpAddr.step_refines h (o := .selectByUri uri) (c := .select k) ⟨k, hk, rfl⟩
  simp only [EpAddr.step, Out.ok.injEq] at e
  rw [e]
  cases k with
  | none =>
    exfalso
    obtain ⟨q, hq, e⟩ := List.mem_map.1 hm
    obtain ⟨i, hi, e'⟩ := List.mem_map.1 hq
    exact hk i hi (by rw [← e, ← e'])
  | some k =>
    obtain ⟨i, hi, e1, _⟩ := hk
    obtain ⟨_, h2, h3⟩ := hD
    refine ⟨hI, h2, ?_⟩
    rw [h3]
    simp [EpAddr.servers, List.getElem?_map, hi, e1]

theorem mem_contains (a : Addrs) (uri : Bytes) :
    EpAddr.contains a uri = true ↔ uri ∈ (EpAddr.servers a).all.map (·.1) := by
  rw [EpAddr.contains_iff]
  simp [EpAddr.servers]

/-- Adding the server the cloud redirects to. -/
theorem redirectAdd_holds {u : Prop} {x : Env} {a : Addrs} {uri sid : Bytes} (h : Inv x.lim a) :
    Holds u (redirectAdd x a uri sid) fun r =>
      match r with
      | none => ¬ (uri ∈ (EpAddr.servers a).all.map (·.1) ∨ x.mem 0 = true ∧ EpAddr.Fits x.lim uri)
      | some a' => (uri ∈ (EpAddr.servers a).all.map (·.1) ∨ x.mem 0 = true ∧ EpAddr.Fits x.lim uri) ∧
        Inv x.lim a' ∧ (EpAddr.servers a').cur = (EpAddr.servers a).cur ∧
        ((EpAddr.servers a').all = if uri ∈ (EpAddr.servers a).all.map (·.1) then (EpAddr.servers a).all
          else (EpAddr.servers a).all ++ [(uri, .uuid sid)]) ∧ ∃ l, a'.items = a.items ++ l := by
  unfold redirectAdd
  by_cases hc : EpAddr.contains a uri = true
  · rw [if_pos hc]
    have hm := (mem_contains _ _).1 hc
    exact ⟨Or.inl hm, h, rfl, by rw [if_pos hm], [], by simp⟩
  · rw [if_neg hc]
    have hm : ¬ uri ∈ (EpAddr.servers a).all.map (·.1) := fun e => hc ((mem_contains _ _).2 e)
    refine (add_holds h).bind fun r hr => ?_
    obtain ⟨hI, hA, hcur, hl⟩ := hr
    unfold EpAddr.Adds at hA
    by_cases hf : x.mem 0 = true ∧ EpAddr.Fits x.lim uri
    · rw [if_pos ⟨hf.1, hf.2, hm⟩] at hA
      simp only [hA.1, if_true, Holds]
      exact ⟨Or.inr hf, hI, hcur, by rw [if_neg hm]; exact hA.2, hl⟩
    · rw [if_neg (fun e => hf ⟨e.1, e.2.1⟩)] at hA
      simp only [hA.1, Holds]
      simp only [Bool.false_eq_true, if_false]
      rintro (e | e)
      · exact hm e
      · exact hf e

theorem redirectServers_holds {u : Prop} {big : Prop} {x : Env} {a : Addrs} {uri : Bytes}
    (h : SrvOk x.lim big a) (hn : ∀ q, (EpAddr.servers a).all[(EpAddr.servers a).cur]? = some q → q.1 ≠ uri) :
    Holds u (redirectServers x a uri) fun r =>
      match r with
      | none => ¬ (uri ∈ (EpAddr.servers a).all.map (·.1) ∨ x.mem 0 = true ∧ EpAddr.Fits x.lim uri)
      | some a' => (uri ∈ (EpAddr.servers a).all.map (·.1) ∨ x.mem 0 = true ∧ EpAddr.Fits x.lim uri) ∧
        SrvOk x.lim big a' ∧ Redirected (EpAddr.servers a) uri (EpAddr.servers a') := by
  unfold redirectServers
  refine (selected_holds h.inv).bind fun i hi => ?_
  cases i with
  | none =>
    have h0 := hi.1 rfl
    have hs0 : (EpAddr.servers a).all = [] := by simp [EpAddr.servers, h0]
    refine (redirectAdd_holds h.inv).bind fun r hr => ?_
    cases r with
    | none => exact hr
    | some a1 =>
      obtain ⟨h1, hI, hc, ha, l, hl⟩ := hr
      simp only [hs0, List.map_nil, List.not_mem_nil, if_false, List.nil_append] at ha
      obtain ⟨g1, g2, g3⟩ := selectByUri_at hI (uri := uri) (by rw [ha]; simp)
      refine ⟨h1, of_servers g1 ?_ ?_, ?_⟩
      · rw [g2, ha]; intro q hq; simp at hq; subst hq; exact ⟨_, rfl⟩
      · rw [g2, ha]; intro _; simp
      · unfold Redirected
        refine ⟨?_, by rw [g2]; exact g3⟩
        rw [g2, ha, hs0]; simp
  | some i =>
    obtain ⟨hg, hm⟩ := hi.2 i rfl
    obtain ⟨sid, ht⟩ := h.uuid i hm
    have hcur : (EpAddr.servers a).all[(EpAddr.servers a).cur]? = some (i.uri, .uuid sid) := by
      simp only [EpAddr.servers] at hg ⊢
      rw [List.getElem?_map, hg]; simp [ht]
    have hne : (EpAddr.servers a).all ≠ [] := by
      intro e; rw [e] at hcur; simp at hcur
    simp only [ht]
    refine (redirectAdd_holds h.inv).bind fun r hr => ?_
    cases r with
    | none => exact hr
    | some a1 =>
      obtain ⟨h1, hI, hc, ha, l, hl⟩ := hr
      have hlt : (EpAddr.servers a).cur < (EpAddr.servers a).all.length :=
        (List.getElem?_eq_some_iff.1 hcur).1
      have hlti : (EpAddr.servers a).cur < a.items.length := by simpa [EpAddr.servers] using hlt
      have hg1 : a1.items[(EpAddr.servers a).cur]? = some i := by
        rw [hl, List.getElem?_append_left hlti]; exact hg
      obtain ⟨ok, a2, e, hI2, hD⟩ := EpAddr.step_refines hI (o := .remove (.mine i.id))
        (c := .remove (some (EpAddr.servers a).cur)) ⟨_, first_id hI hg1, rfl⟩
      simp only [EpAddr.step] at e
      simp only [e, Out.bind]
      have h2 : (EpAddr.servers a2).all = (EpAddr.servers a1).all.eraseIdx (EpAddr.servers a).cur := hD.2.1
      have hmem : uri ∈ (EpAddr.servers a2).all.map (·.1) := by
        rw [h2, EpAddr.map_eraseIdx]
        have hu1 : uri ∈ (EpAddr.servers a1).all.map (·.1) := by
          rw [ha]; split
          · assumption
          · simp
        obtain ⟨k, hk⟩ := List.getElem?_of_mem hu1
        refine List.mem_eraseIdx_iff_getElem?.2 ⟨k, ?_, hk⟩
        intro e
        rw [e, List.getElem?_map, ha] at hk
        have : ((if uri ∈ (EpAddr.servers a).all.map (·.1) then (EpAddr.servers a).all
          else (EpAddr.servers a).all ++ [(uri, .uuid sid)])[(EpAddr.servers a).cur]?) = some (i.uri, .uuid sid) := by
          split
          · exact hcur
          · rw [List.getElem?_append_left hlt]; exact hcur
        rw [this] at hk
        simp at hk
        exact hn _ hcur hk
      obtain ⟨g1, g2, g3⟩ := selectByUri_at hI2 hmem
      have hall : (EpAddr.servers a2).all = (if uri ∈ (EpAddr.servers a).all.map (·.1) then (EpAddr.servers a).all
          else (EpAddr.servers a).all ++ [(uri, .uuid sid)]).eraseIdx (EpAddr.servers a).cur := by
        rw [h2, ha]
      refine ⟨h1, of_servers g1 ?_ ?_, ?_⟩
      · rw [g2, hall]
        intro q hq
        have hq := List.mem_of_mem_eraseIdx hq
        split at hq
        · exact srv_uuid h q hq
        · rcases List.mem_append.1 hq with hq | hq
          · exact srv_uuid h q hq
          · simp at hq; subst hq; exact ⟨_, rfl⟩
      · intro hb
        rw [g2, hall]
        have := srv_small h hb
        by_cases hu : uri ∈ (EpAddr.servers a).all.map (·.1)
        · rw [if_pos hu, List.length_eraseIdx]; split <;> omega
        · rw [if_neg hu, List.length_eraseIdx, if_pos (by simp; omega)]; simp; omega
      · unfold Redirected
        refine ⟨?_, by rw [g2]; exact g3⟩
        rw [g2, hall, if_neg hne, hcur]

theorem redirectResponse_holds {u : Prop} {big : Prop} {x : Env} {s : Ctx} {r : Rep} (h : Good x.lim big s) :
    Holds u (redirectResponse x s r) fun s' => Good x.lim big s' ∧ s'.status = s.status ∧
      s'.refresh = s.refresh ∧ s'.uid = s.uid := by
  unfold redirectResponse
  split
  · exact ⟨h, rfl, rfl, rfl⟩
  · rename_i uri _
    have hsel : Holds u (EpAddr.isSelected s.servers uri) fun q => q = false →
        ∀ q, (EpAddr.servers s.servers).all[(EpAddr.servers s.servers).cur]? = some q → q.1 ≠ uri := by
      unfold EpAddr.isSelected
      refine (selected_holds h.2.inv).bind fun i hi => ?_
      cases i with
      | none =>
        intro _ q hq
        simp [EpAddr.servers, hi.1 rfl] at hq
      | some i =>
        intro hd q hq
        have := (hi.2 i rfl).1
        simp only [EpAddr.servers] at hq this
        rw [List.getElem?_map, this] at hq
        simp at hq
        rw [← hq]
        simpa using hd
    refine hsel.bind fun q hq => ?_
    cases q with
    | true => exact ⟨h, rfl, rfl, rfl⟩
    | false =>
      simp only [Bool.false_eq_true, if_false]
      refine (redirectServers_holds h.2.toSrvOk (hq rfl)).bind fun a ha => ?_
      cases a with
      | none => exact ⟨h, rfl, rfl, rfl⟩
      | some a => exact ⟨⟨h.1, ha.2.1, fun _ e => (by cases e), h.2.sent⟩, rfl, rfl, rfl⟩

/-! ## The servers of a configuration -/

theorem ofStr_ascii (s : Bytes) (h : ∀ ch ∈ s, ch < 128) : ∃ q, Uuid.ofStr s = .ok q := by
  unfold Uuid.ofStr
  by_cases hw : s = [42]
  · rw [if_pos hw]; exact ⟨_, rfl⟩
  · rw [if_neg hw]
    have key := Uuid.parseLoop_count (s.take 36) [] 1 0 (fun ch hc => h ch (List.mem_of_mem_take hc))
      (by omega) (by omega) rfl
    unfold Uuid.textMax
    split at key
    · obtain ⟨r, h1, _⟩ := key
      rw [h1]
      simp only [Out.ok_bind]
      split <;> exact ⟨_, rfl⟩
    · rw [key]; exact ⟨_, rfl⟩

/-- The identifiers of the servers are ASCII texts. -/
def Ascii (rs : List Rep) : Prop :=
  ∀ r ∈ rs, ∀ sid, CloudStore.strOf r (b "id") = some sid → ∀ ch ∈ sid, ch < 128

theorem setLoop_holds {u : Prop} {lim : Nat} {big : Prop} (mem : Nat → Bool) : ∀ (rs : List Rep) (k : Nat) (a : Addrs),
    SrvOk lim True a → (¬ big → a.items.length + rs.length ≤ 255) → (¬ Ascii rs → u) →
    Holds u (CloudStore.setLoop lim mem k rs a) fun r => SrvOk lim big r.2 := by
  intro rs
  induction rs with
  | nil => intro k a h hl _; exact ⟨h.inv, h.uuid, fun hb => by simpa using hl hb⟩
  | cons r rs ih =>
    intro k a h hl hu
    have hu' : ¬ Ascii rs → u := fun hn => hu fun ha => hn fun r hr => ha r (by simp [hr])
    have hl' : ¬ big → a.items.length + rs.length ≤ 255 := fun hb => by
      have := hl hb; simp at this; omega
    unfold CloudStore.setLoop
    split
    · exact ih _ _ h hl' hu'
    · split
      · exact ih _ _ h hl' hu'
      · rename_i sid hsid
        have hof : Holds u (Uuid.ofStr sid) fun _ => True := by
          rcases Classical.em (Ascii (r :: rs)) with ha | ha
          · obtain ⟨q, e⟩ := ofStr_ascii sid (ha r (by simp) sid hsid)
            rw [e]; trivial
          · have hh := hu ha
            unfold Holds; split
            · trivial
            · exact hh
        refine hof.bind fun q _ => ?_
        split
        · split
          · exact ih _ _ h hl' hu'
          · refine (add_holds h.inv).bind fun p hp => ?_
            obtain ⟨hI, hA, _, _⟩ := hp
            rename_i uri _ _ _ _ sid _
            have hlen : p.2.items.length = (EpAddr.servers p.2).all.length := by simp [EpAddr.servers]
            have hlen0 : a.items.length = (EpAddr.servers a).all.length := by simp [EpAddr.servers]
            have h1 : SrvOk lim True p.2 := by
              refine of_servers hI ?_ (fun e => absurd trivial e)
              intro q hq
              unfold EpAddr.Adds at hA
              split at hA
              · rw [hA.2] at hq
                rcases List.mem_append.1 hq with hq | hq
                · exact srv_uuid h q hq
                · simp at hq; subst hq; exact ⟨_, rfl⟩
              · rw [hA.2] at hq; exact srv_uuid h q hq
            have h2 : p.2.items.length ≤ a.items.length + 1 := by
              rw [hlen, hlen0]
              unfold EpAddr.Adds at hA
              split at hA <;> rw [hA.2] <;> simp
            have h3 : ¬ big → p.2.items.length + rs.length ≤ 255 := fun hb => by
              have := hl hb; simp at this; omega
            split
            · exact ⟨h1.inv, h1.uuid, fun hb => by have := h3 hb; simp only at this ⊢; omega⟩
            · exact ih _ _ h1 h3 hu'
        · exact ih _ _ h hl' hu'

theorem setServers_holds {u : Prop} {lim : Nat} {big : Prop} {mem : Nat → Bool} {a : Addrs} {uri id : Bytes}
    {rs : List Rep} (h : Inv lim a) (hl : ¬ big → rs.length < 255) (hu : ¬ Ascii rs → u) :
    Holds u (CloudStore.setServers lim mem a uri id rs) fun r => SrvOk lim big r.2 := by
  unfold CloudStore.setServers
  refine (init_holds (big := big) h).bind fun r hr => ?_
  split
  · refine (setLoop_holds (big := big) mem rs 1 r.2 ⟨hr.1.inv, hr.1.uuid, fun e => absurd trivial e⟩ ?_ hu).bind
      fun q hq => hq
    intro hb; have := hl hb; have := hr.2; omega
  · exact hr.1

/-! ## Handlers and callbacks -/

section
variable {u : Prop} {big : Prop} {x : Env} {s : Ctx}

/-- A change that keeps status, tokens and servers. -/
theorem good_same {lim : Nat} {s' : Ctx} (h : Good lim big s) (e1 : s'.status = s.status) (e2 : s'.refresh = s.refresh)
    (e3 : s'.uid = s.uid) (e4 : s'.servers = s.servers) (e5 : s'.ep = s.ep) (e6 : s'.sent = s.sent) :
    Good lim big s' := by
  unfold Good; rw [e1, e2, e3, e4, e5, e6]; exact h

theorem startProcess_holds (hu : ¬ x.fine → u) (h : Good x.lim big s) :
    Holds u (startProcess x s) fun s' => Good x.lim big s' ∧ s'.manager = s.manager := by
  unfold startProcess
  dsimp only
  split
  · exact ⟨h, rfl⟩
  · split
    · exact ⟨h, rfl⟩
    · refine (schedule_holds hu (s := retryReset s) h).bind fun r hr => ?_
      split
      · exact ⟨hr.1, hr.2.manager⟩
      · exact ⟨good_failure (s := setCps .failed .connect r.2) hr.1, hr.2.manager⟩

theorem setExpires_st (e : Int) (s : Ctx) : Sub s.status (setExpires e s).status ∧
    (setExpires e s).refresh = s.refresh ∧ (setExpires e s).uid = s.uid ∧
    ((setExpires e s).servers = s.servers ∧ (setExpires e s).ep = s.ep ∧ (setExpires e s).sent = s.sent) ∧
    (setExpires e s).expires = e := by
  unfold setExpires
  dsimp only
  split
  · exact ⟨(sub_table _).2.1, rfl, rfl, ⟨rfl, rfl, rfl⟩, rfl⟩
  · exact ⟨⟨id, rfl⟩, rfl, rfl, ⟨rfl, rfl, rfl⟩, rfl⟩

theorem strOf_ne {r : Rep} {k : String} {v : Bytes} (h : strOf r k = some v) : v ≠ [] := by
  rintro rfl
  unfold strOf at h
  split at h
  · cases h
  · rename_i hn; exact hn h

/-- A register response. -/
theorem registerHandler_holds {r : Resp} (hp : r.payload = none → u) (h : Good x.lim big s) :
    Holds u (registerHandler x s r) fun q => Good x.lim big q.2.2 := by
  unfold registerHandler
  split
  · exact good_failure h
  · split
    · exact good_failure h
    · rename_i h0
      have h0 : s.status = 0 := Classical.not_not.1 h0
      split
      · exact hp ‹_›
      · rename_i p _
        split
        · exact good_failure h
        · rename_i s1 hs1
          unfold registerResponse at hs1
          split at hs1
          · rename_i a f w e ha hf hw he
            cases hs1
            obtain ⟨g1, g2, g3, g4, _⟩ := setExpires_st e { s with access := a, refresh := f, uid := w }
            have hg : Good x.lim big (setExpires e { s with access := a, refresh := f, uid := w }) := by
              refine ⟨?_, by rw [g4.1, g4.2.1, g4.2.2]; exact h.2⟩
              refine stOk_sub g1 ?_
              show StOk s.status _
              rw [h0]; exact stOk_zero _
            refine (redirectResponse_holds hg).bind fun s2 h2 => ?_
            obtain ⟨k1, k2, k3, k4⟩ := h2
            refine ⟨⟨fun _ => on_reg _, fun _ => ?_⟩, k1.2⟩
            show s2.refresh ≠ [] ∧ s2.uid ≠ []
            rw [k3, k4, g2, g3]
            exact ⟨strOf_ne hf, strOf_ne hw⟩
          · cases hs1

theorem mRegisterDone_holds {r : Resp} (hu : ¬ x.fine → u) (hp : r.payload = none → u) (h : Good x.lim big s) :
    Holds u (mRegisterDone x s r) fun s' => Good x.lim big s' := by
  unfold mRegisterDone
  refine (registerHandler_holds hp (s := cancel [.register] s) h).bind fun q hq => ?_
  obtain ⟨e, c, s1⟩ := q
  simp only at hq ⊢
  split
  · refine (schedule_holds hu hq).bind fun q hq => ?_
    split
    · exact hq.1
    · exact good_failure (s := setCps .failed .connect q.2) hq.1
  · split
    · unfold registerRetry
      refine (schedule_holds hu (s := reset .notify 0 s1) hq).bind fun q hq => ?_
      split
      · exact hq.1
      · split <;> exact hq.1
    · exact hq

theorem registerAsync_holds (hu : ¬ x.fine → u) (h : Good x.lim big s) :
    Holds u (registerAsync x s) fun s' => Good x.lim big s' := by
  unfold registerAsync
  split
  · exact h
  · refine (send_holds h).bind fun q hq => ?_
    split
    · exact hq.1
    · refine (schedule_holds hu hq.1).bind fun q hq => ?_
      split <;> exact hq.1

theorem loginHandler_holds {r : Resp} (h : Good x.lim big s) :
    Good x.lim big (loginHandler s r).2.2 ∧
      ((loginHandler s r).1 = .ok → (loginHandler s r).2.2.expires > 0 →
        ∃ p, r.payload = some p ∧ intOf p "expiresin" = some (loginHandler s r).2.2.expires) := by
  unfold loginHandler
  dsimp only
  split
  · rename_i hc; exact ⟨h, fun e => absurd e hc⟩
  · split
    · exact ⟨h, fun e => by cases e⟩
    · rename_i hr
      have hr : has s.status REGISTERED = true := Classical.not_not.1 hr
      split
      · exact ⟨h, fun e => by cases e⟩
      · rename_i e he
        obtain ⟨g1, g2, g3, g4, g5⟩ := setExpires_st e s
        refine ⟨⟨⟨fun _ => ?_, fun _ => ?_⟩, ?_⟩, ?_⟩
        · show has (_ ||| LOGGED_IN) REGISTERED = true
          rw [on_login]
          show has (setExpires e s).status REGISTERED = true
          rw [g1.2]; exact hr
        · show (setExpires e s).refresh ≠ [] ∧ (setExpires e s).uid ≠ []
          rw [g2, g3]; exact h.1.2 hr
        · show Net _ _ (setExpires e s).servers (setExpires e s).ep (setExpires e s).sent
          rw [g4.1, g4.2.1, g4.2.2]; exact h.2
        · intro _ _
          show ∃ p, r.payload = some p ∧ intOf p "expiresin" = some (setExpires e s).expires
          rw [g5]
          cases hp : r.payload with
          | none => rw [hp] at he; cases he
          | some p => rw [hp] at he; exact ⟨p, rfl, he⟩

/-- Lifetimes of tokens are such that their milliseconds fit into 64 bits. -/
def Resp.shortLived (r : Resp) : Prop :=
  ∀ p e, r.payload = some p → intOf p "expiresin" = some e → e * 1000 < 9223372036854775808

theorem scheduleRefresh_holds (h : Good x.lim big s) (hu : s.expires * 1000 ≥ 9223372036854775808 → u) :
    Holds u (scheduleRefresh s) fun s' => Good x.lim big s' := by
  unfold scheduleRefresh
  split
  · rename_i h0
    split
    · exact hu ‹_›
    · unfold refreshDelay
      rw [if_neg (by omega)]
      exact h
  · exact h

theorem loginUnauthorized_holds (hu : ¬ x.fine → u) (h : Good x.lim big s) :
    Holds u (loginUnauthorized x s) fun s' => Good x.lim big s' := by
  unfold loginUnauthorized
  dsimp only
  have hg : Good x.lim big { setCps .failed .unauthorized s with access := [], expires := 0 } := h
  have : Holds u (if { setCps .failed .unauthorized s with access := [], expires := 0 }.refresh = [] then
      contextClear x { setCps .failed .unauthorized s with access := [], expires := 0 }
      else (schedule x { setCps .failed .unauthorized s with access := [], expires := 0 } .refresh false).bind fun q =>
      if q.1 then .ok q.2 else contextClear x q.2) fun s' => Good x.lim big s' := by
    split
    · exact clear_holds hg
    · refine (schedule_holds hu hg).bind fun q hq => ?_
      split
      · exact hq.1
      · exact clear_holds hq.1
  exact this.bind fun s' hs => hs

theorem mLoginDone_holds {r : Resp} (hu : ¬ x.fine → u) (he : ¬ r.shortLived → u) (h : Good x.lim big s) :
    Holds u (mLoginDone x s r) fun s' => Good x.lim big s' := by
  unfold mLoginDone
  dsimp only
  split
  · exact h
  · have hl := loginHandler_holds (r := r) (s := cancel [.login] s) h
    generalize loginHandler (cancel [.login] s) r = q at hl
    obtain ⟨e, c, s1⟩ := q
    obtain ⟨hg, hx⟩ := hl
    simp only at hg hx
    split
    · rename_i heq
      cases heq
      have hk : Good x.lim big (reset .ping (keepalive x (setCps c .ok s1) true).2.1
          (keepalive x (setCps c .ok s1) true).2.2) := hg
      refine (scheduleRefresh_holds hk ?_).bind fun s' hs => hs
      intro hbig
      apply he
      intro hsl
      have hbig : s1.expires * 1000 ≥ 9223372036854775808 := hbig
      obtain ⟨p, hp, hi⟩ := hx rfl (by omega)
      have := hsl p _ hp hi
      omega
    · rename_i heq
      cases heq
      exact loginUnauthorized_holds hu (good_failure hg)
    · rename_i heq
      cases heq
      refine (schedule_holds hu (good_failure hg)).bind fun q hq => ?_
      split <;> exact hq.1
    · rename_i heq
      cases heq
      exact good_failure hg

theorem loginAsync_holds (hu : ¬ x.fine → u) (h : Good x.lim big s) :
    Holds u (loginAsync x s) fun s' => Good x.lim big s' := by
  unfold loginAsync
  split
  · exact h
  · refine (send_holds h).bind fun q hq => ?_
    split
    · exact hq.1
    · refine (schedule_holds hu hq.1).bind fun q hq => ?_
      split
      · exact hq.1
      · exact good_failure (s := setCps .failed .connect q.2) hq.1

theorem refreshFail_good {lim : Nat} (e : Err) (h : Good lim big s) : Good lim big (refreshFail s e).2 := by
  unfold refreshFail
  dsimp only
  split
  · exact good_failure h
  · split
    · exact good_st (s := on FAILURE s) (sub_table _).2.2.2.2.1 (good_failure h)
    · refine ⟨⟨?_, ?_⟩, h.2⟩
      · intro e
        have := (off_both (s.status ||| FAILURE)).1
        simp only [off, on] at e
        rw [this] at e; cases e
      · intro e
        have := (off_both (s.status ||| FAILURE)).2
        simp only [off, on] at e
        rw [this] at e; cases e

theorem refreshHandler_holds {r : Resp} (hp : r.payload = none → u) (h : Good x.lim big s) :
    Holds u (refreshHandler s r) fun q => Good x.lim big q.2 := by
  unfold refreshHandler
  split
  · exact refreshFail_good _ h
  · split
    · exact refreshFail_good _ h
    · rename_i hr
      have hr : has s.status REGISTERED = true := Classical.not_not.1 hr
      split
      · exact hp ‹_›
      · split
        · exact refreshFail_good _ h
        · rename_i s1 hs1
          unfold refreshResponse at hs1
          split at hs1
          · rename_i a f e ha hf he
            cases hs1
            obtain ⟨g1, g2, g3, g4, _⟩ := setExpires_st e { s with access := a, refresh := f }
            refine ⟨stOk_sub (sub_table _).2.2.1 (stOk_sub g1 ⟨h.1.1, fun _ => ?_⟩), ?_⟩
            · show (setExpires e { s with access := a, refresh := f }).refresh ≠ [] ∧ (setExpires e { s with access := a, refresh := f }).uid ≠ []
              rw [g2, g3]
              exact ⟨strOf_ne hf, (h.1.2 hr).2⟩
            · show Net _ _ (setExpires e { s with access := a, refresh := f }).servers (setExpires e { s with access := a, refresh := f }).ep (setExpires e { s with access := a, refresh := f }).sent
              rw [g4.1, g4.2.1, g4.2.2]; exact h.2
          · cases hs1

theorem mRefreshDone_holds {r : Resp} (hu : ¬ x.fine → u) (hp : r.payload = none → u) (h : Good x.lim big s) :
    Holds u (mRefreshDone x s r) fun s' => Good x.lim big s' := by
  unfold mRefreshDone
  refine (refreshHandler_holds hp (s := cancel [.refresh] s) h).bind fun q hq => ?_
  split
  · refine (schedule_holds hu hq).bind fun q hq => ?_
    split
    · exact hq.1
    · exact good_failure (s := setCps .failed .connect q.2) hq.1
  · exact (clear_holds (u := u) (big := big) (x := x) (s := setCps .failed .unauthorized _) hq).bind fun s' hs => hs
  · split
    · refine (schedule_holds hu hq).bind fun q hq => ?_
      split
      · exact hq.1
      · exact good_failure (s := setCps .failed .refresh q.2) hq.1
    · exact hq
  · exact hq

theorem refreshAsync_holds (hu : ¬ x.fine → u) (h : Good x.lim big s) :
    Holds u (refreshAsync x s) fun s' => Good x.lim big s' := by
  unfold refreshAsync
  split
  · exact h
  · dsimp only
    refine (send_holds (s := cancel [.ping] s) h).bind fun q hq => ?_
    split
    · exact hq.1
    · refine (schedule_holds hu hq.1).bind fun q hq => ?_
      split
      · exact hq.1
      · exact good_failure (s := setCps .failed .refresh q.2) hq.1

theorem keepalive_good {lim : Nat} (rc : Bool) (h : Good lim big s) : Good lim big (keepalive x s rc).2.2 := by
  unfold keepalive
  split <;> exact h

theorem pingDone_good {lim : Nat} (r : Resp) (h : Good lim big s) : Good lim big (pingDone x s r) := by
  unfold pingDone
  split
  · exact h
  · dsimp only
    have := keepalive_good (x := x) (!(r.code == 22 || r.code == 17 || isTimeout r.code)) h
    split <;> exact this

theorem pingAsync_good {lim : Nat} (h : Good lim big s) : Good lim big (pingAsync x s) := by
  unfold pingAsync
  split
  · exact h
  · split
    · rename_i hc
      simp only [Bool.and_eq_true] at hc
      refine ⟨h.1, h.2.toSrvOk, h.2.ep, ?_⟩
      intro q hq
      rcases List.mem_append.1 hq with hq | hq
      · exact h.2.sent q hq
      · simp only [List.mem_singleton] at hq
        subst hq
        cases hep : s.ep with
        | none => rw [hep] at hc; cases hc.2
        | some u => exact h.2.ep u hep
    · exact h

theorem restart_holds (h : Good x.lim big s) (hm : s.manager = true) :
    Holds u (restart s) fun s' => Good x.lim big s' := by
  unfold restart
  rw [if_neg (by simp [hm])]
  exact h

theorem startAsync_holds (hu : ¬ x.fine → u) (h : Good x.lim big s) :
    Holds u (startAsync x s) fun s' => Good x.lim big s' := by
  unfold startAsync
  dsimp only
  refine (startProcess_holds hu (big := big) ?_).mono fun s' hs => hs.1
  exact good_st (s := { s with ep := none }) (sub_table _).2.2.2.2.1 ⟨h.1, h.2.toSrvOk, fun _ e => (by cases e), h.2.sent⟩

theorem managerRestart_good {lim : Nat} (h : Good lim big s) : Good lim big (managerRestart x s) := by
  unfold managerRestart
  split
  · exact h
  · split <;> exact h

theorem managerStart_holds (hu : ¬ x.fine → u) (hb : big → u) (h : Good x.lim big s) :
    Holds u (managerStart x s) fun s' => Good x.lim big s' := by
  unfold managerStart
  refine (startProcess_holds hu h).bind fun s' hs => ?_
  dsimp only
  split
  · exact hs.1
  · have hg : Good x.lim big { s' with manager := true } := hs.1
    exact (regInit_holds hb hg).mono fun s' hs => hs.1

theorem managerStop_holds {d : Bool} (h : Good x.lim big s) :
    Holds u (managerStop x s d) fun s' => Good x.lim big s' := by
  unfold managerStop
  have h1 : Good x.lim big (resetEndpoint (cancel (managerTms ++ [.restart, .start]) s)) :=
    no_ep (s := cancel (managerTms ++ [.restart, .start]) s) h
  have he : (resetEndpoint (cancel (managerTms ++ [.restart, .start]) s)).ep = none := rfl
  generalize resetEndpoint (cancel (managerTms ++ [.restart, .start]) s) = s1 at h1 he
  dsimp only
  refine (selected_holds h1.2.inv).bind fun i _ => ?_
  split
  · refine (reinit_holds h1 he).bind fun s' hs => ?_
    exact hs.1
  · exact good_st (s := s1) (sub_table _).2.2.2.2.1 h1

theorem provision_holds {c : Conf} (hu : big → u) (ha : ¬ Ascii c.servers → u) (hl : ¬ big → c.servers.length < 255)
    (h : Good x.lim big s) : Holds u (provision x s c) fun s' => Good x.lim big s' := by
  unfold provision
  refine (reinit_holds (no_ep h) rfl).bind fun s1 h1 => ?_
  have hc : Holds u (setConf x (cancel (managerTms ++ deregTms) (regDeinit s1)) c) fun s' =>
      Net x.lim big s'.servers s'.ep s'.sent := by
    unfold setConf confServers
    split
    · refine (setServers_holds (big := big) (lim := x.lim) h1.1.2.inv hl ha).bind fun r hr => ⟨hr, ?_, h1.1.2.sent⟩
      intro u e
      exact absurd (h1.2.2.2.symm.trans e) (by simp)
    · exact h1.1.2
  refine hc.bind fun s2 h2 => ?_
  dsimp only
  have hg : Good x.lim big { s2 with status := 0, cps := .ready } := good_zero rfl h2
  split
  · exact (regInit_holds hu hg).bind fun s3 h3 => managerRestart_good h3.1
  · exact hg

theorem session_holds {c : Bool} (h : Good x.lim big s) : Holds u (session s c) fun s' => Good x.lim big s' := by
  unfold session
  split
  · exact h
  · rename_i hn
    split
    · exact h
    · split
      · exact restart_holds (s := { s with conn := false }) h (by
          cases hm : s.manager with
          | false => exact absurd (Or.inl (by simp [hm])) hn
          | true => rfl)
      · exact h

theorem netUp_holds (h : Good x.lim big s) : Holds u (netUp s) fun s' => Good x.lim big s' := by
  unfold netUp
  split
  · exact restart_holds h (by rename_i hn; exact hn.2)
  · exact h

theorem doRegister_holds (h : Good x.lim big s) : Holds u (doRegister x s) fun s' => Good x.lim big s' := by
  unfold doRegister
  split
  · exact h
  · split
    · exact h
    · refine (send_holds h).bind fun q hq => ?_
      split <;> exact hq.1

theorem doLogin_holds {r : Req} (h : Good x.lim big s) :
    Holds u (doLogin x s r) fun q => Good x.lim big q.2 ∧ Same s q.2 := by
  unfold doLogin
  split
  · exact ⟨h, Same.rfl⟩
  · refine (send_holds h).bind fun q hq => ?_
    split
    · exact hq
    · exact ⟨hq.1, ⟨hq.2.1, hq.2.2, hq.2.3, hq.2.4, hq.2.5, hq.2.6, hq.2.7⟩⟩

theorem doRefresh_holds {r : Req} (h : Good x.lim big s) :
    Holds u (doRefresh x s r) fun q => Good x.lim big q.2 ∧ Same s q.2 := by
  unfold doRefresh
  split
  · exact ⟨h, Same.rfl⟩
  · refine (send_holds h).bind fun q hq => ?_
    split
    · exact hq
    · exact ⟨hq.1, ⟨hq.2.1, hq.2.2, hq.2.3, hq.2.4, hq.2.5, hq.2.6, hq.2.7⟩⟩

theorem doLogout_holds (h : Good x.lim big s) : Holds u (doLogout x s) fun s' => Good x.lim big s' := by
  unfold doLogout
  split
  · exact h
  · refine (send_holds h).bind fun q hq => ?_
    split <;> exact hq.1

theorem registerDone_holds {r : Resp} (hp : r.payload = none → u) (h : Good x.lim big s) :
    Holds u (registerDone x s r) fun s' => Good x.lim big s' := by
  unfold registerDone
  refine (registerHandler_holds hp h).bind fun q hq => ?_
  exact good_st (s := setCps q.2.1 q.1 q.2.2) (sub_table _).2.2.2.2.2.2.1 hq

theorem loginResult_good (r : Resp) (h : Good x.lim big s) : Good x.lim big (loginResult s r) := by
  have hl := (loginHandler_holds (r := r) h).1
  unfold loginResult
  split
  · rename_i c s1 heq; rw [heq] at hl; exact hl
  · rename_i e c s1 _ heq; rw [heq] at hl; exact good_failure hl

theorem refreshResult_holds {r : Resp} (hp : r.payload = none → u) (h : Good x.lim big s) :
    Holds u (refreshResult s r) fun s' => Good x.lim big s' := by
  unfold refreshResult
  refine (refreshHandler_holds hp h).bind fun q hq => ?_
  split <;> exact hq

theorem logoutDone_good {lim : Nat} (r : Resp) (h : Good lim big s) : Good lim big (logoutDone s r) := by
  unfold logoutDone
  have : Good lim big (if isConnErr r.code then on FAILURE (setErr .connect s)
    else if r.code ≥ 5 then on FAILURE (setErr .response s) else on LOGGED_OUT (off LOGGED_IN s)) := by
    split
    · exact good_failure (s := setErr .connect s) h
    · split
      · exact good_failure (s := setErr .response s) h
      · exact good_st (s := off LOGGED_IN s) (sub_table _).2.2.2.1 (good_st (sub_table _).2.2.2.2.1 h)
  exact good_st (sub_table _).2.2.2.2.2.2.2.2.1 this

theorem deregDone_good {lim : Nat} (r : Resp) (h : Good lim big s) : Good lim big (deregDone s r) := by
  unfold deregDone
  dsimp only
  have : Good lim big (if r.code < 5 ∨ isConnErr r.code then { s with status := DEREGISTERED }
    else on FAILURE (setErr .response s)) := by
    split
    · refine ⟨⟨?_, ?_⟩, h.2⟩
      · intro e; exact absurd e (by show ¬ has DEREGISTERED LOGGED_IN = true; decide)
      · intro e; exact absurd e (by show ¬ has DEREGISTERED REGISTERED = true; decide)
    · exact good_failure (s := setErr .response s) h
  generalize (if r.code < 5 ∨ isConnErr r.code then { s with status := DEREGISTERED }
    else on FAILURE (setErr .response s)) = s1 at this
  exact good_st (s := { s1 with cps := .uninitialized }) (sub_table _).2.2.2.2.2.2.2.2.2 this

theorem deregRequest_holds (h : Good x.lim big s) :
    Holds u (deregRequest x s) fun q => Good x.lim big q.2 ∧ Same s q.2 := by
  unfold deregRequest
  refine (send_holds h).bind fun q hq => ?_
  split
  · exact hq
  · exact ⟨hq.1, ⟨hq.2.1, hq.2.2, hq.2.3, hq.2.4, hq.2.5, hq.2.6, hq.2.7⟩⟩

theorem doDeregister_holds {sy sh pa : Bool} (h : Good x.lim big s) :
    Holds u (doDeregister x s sy sh pa) fun q => Good x.lim big q.2 := by
  unfold doDeregister
  split
  · exact h
  · split
    · exact h
    · split
      · exact h
      · dsimp only
        have hg : Good x.lim big { s with cps := .deregistering } := h
        split
        · exact (deregRequest_holds hg).bind fun q hq => hq.1
        · split
          · exact hg
          · split
            · exact (doRefresh_holds hg).bind fun q hq => hq.1
            · exact (doLogin_holds hg).bind fun q hq => hq.1

theorem dLoginDone_holds {r : Resp} (h : Good x.lim big s) : Holds u (dLoginDone x s r) fun s' => Good x.lim big s' := by
  unfold dLoginDone
  dsimp only
  have hg := loginResult_good r h
  refine Holds.bind (Q := fun s' => Good x.lim big s') ?_ fun s' hs => good_st (sub_table _).2.2.2.2.2.2.1 hs
  split
  · exact clear_holds hg
  · refine (deregRequest_holds hg).bind fun q hq => ?_
    split
    · exact hq.1
    · exact clear_holds hq.1

theorem dRefreshDone_holds {r : Resp} (hp : r.payload = none → u) (h : Good x.lim big s) :
    Holds u (dRefreshDone x s r) fun s' => Good x.lim big s' := by
  unfold dRefreshDone
  refine (refreshResult_holds hp h).bind fun s1 h1 => ?_
  refine Holds.bind (Q := fun s' => Good x.lim big s') ?_ fun s' hs => good_st (sub_table _).2.2.2.2.2.2.2.1 hs
  split
  · exact clear_holds h1
  · exact h1

theorem refreshedAsync_holds {sh : Bool} (hu : u) (h : Good x.lim big s) :
    Holds u (refreshedAsync x s sh) fun s' => Good x.lim big s' := by
  unfold refreshedAsync
  split
  · refine (deregRequest_holds h).bind fun q hq => ?_
    split
    · exact hq.1
    · exact hu
  · split
    · refine (deregRequest_holds h).bind fun q hq => ?_
      split
      · exact hq.1
      · exact clear_holds hq.1
    · refine (doLogin_holds h).bind fun q hq => ?_
      split
      · exact hq.1
      · exact hu

theorem cloudReset_holds {f sy sh pa : Bool} (h : Good x.lim big s) :
    Holds u (cloudReset x s f sy sh pa) fun s' => Good x.lim big s' := by
  unfold cloudReset
  split
  · exact clear_holds h
  · split
    · refine (doDeregister_holds (s := cancel managerTms s) h).bind fun q hq => ?_
      split
      · exact hq
      · exact clear_holds hq
    · split
      · exact h
      · exact clear_holds (s := cancel managerTms s) h

theorem onResetAsync_holds {sh pa : Bool} (h : Good x.lim big s) :
    Holds u (onResetAsync x s sh pa) fun s' => Good x.lim big s' := by
  unfold onResetAsync
  refine (doDeregister_holds h).bind fun q hq => ?_
  split
  · exact hq
  · exact clear_holds hq

/-- What keeps an event from being undefined. -/
def Ev.Ok : Ev → Prop
  | .fire t _ _ => t ≠ .refreshed
  | .done _ a => a.payload ≠ none ∧ a.shortLived
  | .provision c => Ascii c.servers
  | _ => True

/-- The configuration has less than 255 further servers. -/
def Ev.small : Ev → Prop
  | .provision c => c.servers.length < 255
  | _ => True

theorem step_holds {e : Ev} (hu : ¬ (x.fine ∧ e.Ok ∧ ¬ big) → u) (hl : ¬ big → e.small)
    (h : Good x.lim big s) : Holds u (step x s e) fun s' => Good x.lim big s' := by
  have hf : ¬ x.fine → u := fun hn => hu fun e => hn e.1
  have ho : ¬ e.Ok → u := fun hn => hu fun e => hn e.2.1
  have hb : big → u := fun hn => hu fun e => e.2.2 hn
  cases e with
  | fire t sh pa =>
    rw [step]
    split
    · have hg : Good x.lim big { s with tms := s.tms.eraseP fun p => p.1 == t } := h
      cases t with
      | reconnect => exact managerRestart_good (s := reset .notify 0 { s with tms := s.tms.eraseP fun p => p.1 == .reconnect }) hg
      | register => exact registerAsync_holds hf hg
      | login => exact loginAsync_holds hf hg
      | ping => exact pingAsync_good hg
      | refresh => exact refreshAsync_holds hf hg
      | notify => exact good_st (s := { s with tms := s.tms.eraseP fun p => p.1 == .notify }) (sub_table _).2.2.2.2.2.1 hg
      | restart =>
        show Holds u (restartAsync _) _
        unfold restartAsync
        split
        · exact restart_holds hg ‹_›
        · exact hg
      | start => exact startAsync_holds hf hg
      | clear => exact clear_holds hg
      | onReset => exact onResetAsync_holds hg
      | refreshed => exact refreshedAsync_holds (ho fun e => e rfl) hg
    · exact h
  | done r a =>
    rw [step]
    split
    · have hg : Good x.lim big { s with out := s.out.erase r } := h
      have hp : a.payload = none → u := fun e => ho fun o => o.1 e
      have hs : ¬ a.shortLived → u := fun e => ho fun o => e o.2
      cases r with
      | mRegister => exact mRegisterDone_holds hf hp hg
      | mLogin => exact mLoginDone_holds hf hs hg
      | mRefresh => exact mRefreshDone_holds hf hp hg
      | ping => exact pingDone_good a hg
      | register => exact registerDone_holds hp hg
      | login => exact good_st (s := loginResult { s with out := s.out.erase .login } a) (sub_table _).2.2.2.2.2.2.1 (loginResult_good a hg)
      | refresh =>
        exact (refreshResult_holds hp hg).bind fun s' hs => good_st (sub_table _).2.2.2.2.2.2.2.1 hs
      | logout => exact logoutDone_good a hg
      | dereg => exact deregDone_good a hg
      | dLogin => exact dLoginDone_holds hg
      | dRefresh => exact dRefreshDone_holds hp hg
    · exact h
  | session c => exact session_holds h
  | netUp => exact netUp_holds h
  | start => exact managerStart_holds hf hb h
  | stop d => exact managerStop_holds h
  | restart => exact managerRestart_good h
  | provision c => exact provision_holds hb (fun e => ho e) hl h
  | reset f sy sh pa => exact cloudReset_holds h
  | register => exact doRegister_holds h
  | login =>
    rw [step, appLogin]
    split
    · exact h
    · exact (doLogin_holds h).bind fun q hq => hq.1
  | logout => exact doLogout_holds h
  | refresh => exact (doRefresh_holds h).bind fun q hq => hq.1
  | deregister sh pa => exact (doDeregister_holds h).bind fun q hq => hq

end

end Verif.Cloud
