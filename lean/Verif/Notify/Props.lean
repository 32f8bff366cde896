/-
C139: a change of a resource is notified to exactly the observers it concerns, to
each once, with its own token and sequence number and the representation made for
it.
-/
import Verif.Notify.Exact

namespace Verif.Notify

/-! ### C139 — whatever fails -/

theorem keys_same {s t : St} (h : sameObs s t) {p : Obs → Bool} (hp : ∀ o, p (er o) = p o) :
    (t.obs.filter p).map key = (s.obs.filter p).map key := by
  have h1 := filter_er h hp
  have h2 : ∀ l : List Obs, l.map key = (l.map er).map key := fun l => by
    rw [List.map_map]; rfl
  rw [h2, h1, ← h2]

theorem gen_sub (g : Bool) (P : Obs → Bool) (F : Obs → Buf → Buf × Bool) (s : St) (b : Buf) (n : Nat) :
    sameObs s (gen g P F s.obs s b n).1 ∧
    ∃ ns, (gen g P F s.obs s b n).1.outs = s.outs ++ ns ∧ List.Sublist (ns.map dest) ((s.obs.filter P).map key) := by
  obtain ⟨h1, ns, os', h2, h3, h4⟩ := gen_one g P F s.obs s b n
  refine ⟨h1, ns, h2, ?_⟩
  have h5 : ns.map dest = os'.map key := h4
  rw [h5]
  exact h3.map _

theorem colls_sub (ch : Nat → Option Buf) : ∀ (cs : List Coll) (s : St) (b : Buf),
    sameObs s (collsLoop ch cs s b) ∧
    ∃ ns, (collsLoop ch cs s b).outs = s.outs ++ ns ∧
      List.Sublist (ns.map dest) (cs.flatMap fun c => (s.obs.filter (collWanted c)).map key) := by
  intro cs
  induction cs with
  | nil => intro s b; exact ⟨rfl, [], by simp [collsLoop], by simp⟩
  | cons c cs ih =>
    intro s b
    unfold collsLoop
    rw [List.flatMap_cons]
    split
    · exact ⟨rfl, [], by simp, List.nil_sublist _⟩
    · split
      · obtain ⟨h1, ns, h2, h3⟩ := ih s b
        exact ⟨h1, ns, h2, h3.trans (List.sublist_append_right _ _)⟩
      · rename_i b' _
        rw [collLoop_gen c s.obs s b' 0, collPass_eq]
        dsimp only
        obtain ⟨g1, ns, g2, g3⟩ := gen_sub true (collWanted c) (fun _ b => (b, true)) s b' 0
        obtain ⟨h1, ms, h2, h3⟩ := ih (gen true (collWanted c) (fun _ b => (b, true)) s.obs s b' 0).1
          (gen true (collWanted c) (fun _ b => (b, true)) s.obs s b' 0).2.1
        refine ⟨sameObs_trans g1 h1, ns ++ ms, by rw [h2, g2, List.append_assoc], ?_⟩
        rw [List.map_append]
        refine g3.append ?_
        have : (cs.flatMap fun c' => ((gen true (collWanted c) (fun _ b => (b, true)) s.obs s b' 0).1.obs.filter (collWanted c')).map key)
            = cs.flatMap fun c' => (s.obs.filter (collWanted c')).map key := by
          congr 1
          funext c'
          exact keys_same g1 (collWanted_er c')
        rw [this] at h3
        exact h3

theorem collections_sub (e : Env) (r : Res) (s : St) :
    sameObs s (collections e r s) ∧
    ∃ ns, (collections e r s).outs = s.outs ++ ns ∧
      List.Sublist (ns.map dest) ((linking e r).flatMap fun c => (s.obs.filter (collWanted c)).map key) := by
  unfold collections
  split
  · exact ⟨rfl, [], by simp, List.nil_sublist _⟩
  · rw [linking_eq]; exact colls_sub _ _ _ _

theorem iterate_sub (h : Nat → Nat → Ans) (r : Res) (ep : Option Nat) (prep : Bool) (s : St) (b : Buf) :
    sameObs s (iterate h r ep prep s b).1 ∧
    ∃ ns, (iterate h r ep prep s b).1.outs = s.outs ++ ns ∧
      List.Sublist (ns.map dest) ((s.obs.filter (wanted r ep)).map key) := by
  have hl : ∀ prep b, sameObs s (iterLoop h r ep prep s.obs s b 0).1 ∧
    ∃ ns, (iterLoop h r ep prep s.obs s b 0).1.outs = s.outs ++ ns ∧
      List.Sublist (ns.map dest) ((s.obs.filter (wanted r ep)).map key) := by
    intro prep b
    rw [iterLoop_gen, pass_eq]
    exact gen_sub _ _ _ _ _ _
  unfold iterate
  split
  · dsimp only
    split
    · exact ⟨rfl, [], by simp, List.nil_sublist _⟩
    · exact hl _ _
  · exact hl _ _

/-- Whatever fails and whatever the handlers do: what a change of a resource sends
goes to observers it concerns, first those of the resource, then those of the
collections it is a member of, to each at most one notification with its endpoint
and its token; and every registration stays. -/
theorem to_observers (e : Env) (r : Res) (hd : r.disc = false) (buf : Option Buf) (ep : Option Nat) (s : St) :
    (notify e r buf ep s).1.obs.map er = s.obs.map er ∧
    ∃ ns, (notify e r buf ep s).1.outs = s.outs ++ ns ∧
      List.Sublist (ns.map dest) ((s.obs.filter (wanted r ep)).map key ++
        (linking e r).flatMap fun c => (s.obs.filter (collWanted c)).map key) := by
  have both : ∀ t : St, sameObs s t → (∃ ns, t.outs = s.outs ++ ns ∧
        List.Sublist (ns.map dest) ((s.obs.filter (wanted r ep)).map key)) →
      sameObs s (collections e r t) ∧ ∃ ns, (collections e r t).outs = s.outs ++ ns ∧
        List.Sublist (ns.map dest) ((s.obs.filter (wanted r ep)).map key ++
          (linking e r).flatMap fun c => (s.obs.filter (collWanted c)).map key) := by
    rintro t ht ⟨ns, h1, h2⟩
    obtain ⟨c1, ms, c2, c3⟩ := collections_sub e r t
    refine ⟨sameObs_trans ht c1, ns ++ ms, by rw [c2, h1, List.append_assoc], ?_⟩
    rw [List.map_append]
    refine h2.append ?_
    have : ((linking e r).flatMap fun c => (t.obs.filter (collWanted c)).map key)
        = (linking e r).flatMap fun c => (s.obs.filter (collWanted c)).map key := by
      congr 1
      funext c
      exact keys_same ht (collWanted_er c)
    rw [this] at c3
    exact c3
  have none' : ∃ ns, s.outs = s.outs ++ ns ∧ List.Sublist (ns.map dest) ((s.obs.filter (wanted r ep)).map key ++
        (linking e r).flatMap fun c => (s.obs.filter (collWanted c)).map key) := ⟨[], by simp, List.nil_sublist _⟩
  unfold notify
  split
  · exact ⟨rfl, none'⟩
  · rw [hd]
    simp only [Bool.false_eq_true, if_false]
    unfold internal
    split
    · exact ⟨rfl, none'⟩
    · split
      · exact both s rfl ⟨[], by simp, List.nil_sublist _⟩
      · split
        · exact both _ (iterate_sub _ _ _ _ _ _).1 (iterate_sub _ _ _ _ _ _).2
        · split
          · exact ⟨rfl, none'⟩
          · exact both _ (iterate_sub _ _ _ _ _ _).1 (iterate_sub _ _ _ _ _ _).2

/-- The observers of the discovery resource that are notified at once: those
without the batch interface. -/
def discWanted (r : Res) (o : Obs) : Bool := decide (o.res = r.id ∧ o.iface &&& ifB = 0)

theorem discP (r : Res) : (fun o : Obs => o.res == r.id && (o.iface &&& ifB == 0)) = discWanted r := by
  funext o
  unfold discWanted
  rw [Bool.eq_iff_iff]
  simp

/-- The same for the discovery resource. -/
theorem discovery_to_observers (e : Env) (r : Res) (hd : r.disc = true) (buf : Option Buf) (ep : Option Nat) (s : St) :
    (notify e r buf ep s).1.obs.map er = s.obs.map er ∧
    ∃ ns, (notify e r buf ep s).1.outs = s.outs ++ ns ∧
      List.Sublist (ns.map dest) ((s.obs.filter (discWanted r)).map key) := by
  have none' : ∃ ns, s.outs = s.outs ++ ns ∧ List.Sublist (ns.map dest) ((s.obs.filter (discWanted r)).map key) :=
    ⟨[], by simp, List.nil_sublist _⟩
  unfold notify
  rw [if_pos hd]
  split
  · exact ⟨rfl, none'⟩
  · split
    · exact ⟨rfl, none'⟩
    · dsimp only
      rw [discLoop_gen, discP]
      exact gen_sub _ _ _ _ _ _

/-- A device that is not in its normal state, and a resource that cannot be
observed, notify nobody. -/
theorem quiet (e : Env) (r : Res) (buf : Option Buf) (ep : Option Nat) (s : St)
    (h : r.observable = false ∨ (r.disc = false ∧ e.rfnop = false)) : notify e r buf ep s = (s, some 0) := by
  unfold notify
  rcases h with h | ⟨h1, h2⟩
  · rw [h]; rfl
  · cases r.observable
    · rfl
    · rw [h1]
      simp only [Bool.not_true, Bool.false_eq_true, if_false]
      unfold internal
      rw [h2]; rfl

/-! ### C139 — when nothing fails -/

/-- Everything in place: the device runs, there is memory for all, the observers
are idle and none asked for the revert interface; `B` are the representations for
the observers of the resource, `bc` those of the collections, each of which has an
observer. -/
structure AllReady (e : Env) (r : Res) (ep : Option Nat) (s : St) (B : Obs → Buf) (bc : Nat → Buf) : Prop where
  rfnop : e.rfnop = true
  work : e.work = true
  observable : r.observable = true
  disc : r.disc = false
  dis : Distinct s
  ok : ∀ o ∈ s.obs, wanted r ep o = true → Sendable (B o) ∧ o.iface ≠ ifRevert ∧ Idle s o
  ids : ((linking e r).map (·.id)).Nodup
  self : ∀ c ∈ linking e r, c.id ≠ r.id
  has : ∀ c ∈ linking e r, nobs s c.id ≠ 0 ∧ e.ch c.id = some (bc c.id) ∧ Sendable (bc c.id)
  cok : ∀ c ∈ linking e r, ∀ o ∈ s.obs, collWanted c o = true → o.iface ≠ ifRevert ∧ Idle s o
  mem : (s.obs.filter (wanted r ep)).length + (collNotes bc s (linking e r)).length ≤ s.mem
  bufs : (s.obs.filter (wanted r ep)).length + (collNotes bc s (linking e r)).length ≤ s.bufs

theorem wanted_res {r : Res} {ep : Option Nat} {o : Obs} (h : wanted r ep o = true) : o.res = r.id := by
  unfold wanted at h
  exact (of_decide_eq_true h).1

theorem done_collections {e : Env} {r : Res} {ep : Option Nat} {s t : St} {B : Obs → Buf} {bc : Nat → Buf}
    (h : AllReady e r ep s B bc) (hd : Done s t (wanted r ep) B) :
    (collections e r t).outs = s.outs ++
      notes ((s.obs.filter (wanted r ep)).map (fun o => (o, B o)) ++ collNotes bc s (linking e r)) s.mid := by
  have hr : ∀ c ∈ linking e r, ∀ o ∈ s.obs, wanted r ep o = true → o.res ≠ c.id := by
    intro c hc o _ hw hh
    exact h.self c hc (by rw [← hh, wanted_res hw])
  unfold collections
  rw [h.work, linking_eq]
  simp only [Bool.not_true, Bool.false_eq_true, if_false]
  rw [colls_good (bc := bc) _ t _ (collReady_done hd h.dis h.ids h.has h.cok hr h.mem h.bufs), hd.outs, hd.mid,
    collNotes_other bc hd hr, notes_append, List.length_map, List.append_assoc]

theorem none_done {s : St} {r : Res} (ep : Option Nat) (B : Obs → Buf) (hn : nobs s r.id = 0) :
    Done s s (wanted r ep) B ∧ s.obs.filter (wanted r ep) = [] := by
  have hno : ∀ o ∈ s.obs, wanted r ep o = false := by
    intro o ho
    rw [Bool.eq_false_iff]
    intro hw
    have := nobs_pos ho
    rw [wanted_res hw] at this
    exact this hn
  have hnil : s.obs.filter (wanted r ep) = [] := by
    rw [List.filter_eq_nil_iff]
    intro o ho hw
    rw [hno o ho] at hw; cases hw
  refine ⟨⟨by simp [hnil, notes], by simp [hnil], by simp [hnil], by simp [hnil], fun x hx => Or.inl hx, ?_⟩, hnil⟩
  have : (s.obs.map fun x => if wanted r ep x = true then { x with cnt := inc x.cnt } else x) = s.obs.map id := by
    apply List.map_congr_left
    intro x hx
    rw [hno x hx]; rfl
  rw [this, List.map_id]

/-- A change of a resource is notified, when nothing fails, to exactly the
observers it concerns: to each observer of the resource what its handler answers
for this observer's endpoint, then to each batch observer of a collection it is a
member of what the collection makes of it; each gets one notification, with its
own token, its own sequence number and a message id of its own. The call returns
the number of observers of the resource that were notified. -/
theorem notified {e : Env} {r : Res} {s : St} {B : Obs → Buf} {bc : Nat → Buf} (h : AllReady e r none s B bc)
    (hh : ∀ o ∈ s.obs, wanted r none o = true → e.h (ifaceFor r) o.ep = .reply (B o)) :
    (notify e r none none s).1.outs = s.outs ++
      notes ((s.obs.filter (wanted r none)).map (fun o => (o, B o)) ++ collNotes bc s (linking e r)) s.mid ∧
    (notify e r none none s).2 = some (s.obs.filter (wanted r none)).length := by
  unfold notify internal
  rw [h.observable, h.disc, h.rfnop, h.work]
  simp only [Bool.not_true, Bool.false_eq_true, if_false]
  by_cases hn : nobs s r.id = 0
  · rw [if_pos hn]
    obtain ⟨h1, h2⟩ := none_done none B hn
    exact ⟨done_collections h h1, by rw [h2]; rfl⟩
  · rw [if_neg hn]
    dsimp only
    have hready : Ready s (wanted r none) B :=
      ⟨h.dis, h.ok, by have := h.mem; omega, by have := h.bufs; omega⟩
    obtain ⟨g1, g2, _⟩ := gen_done (g := false)
      (F := fun o b => if true = true then fill e.h (ifOf r) o.ep b else (b, true)) (Q := fun _ => True) (b := ⟨0, 0, 0⟩)
      (n := 0) hready
      (fun o ho hw => ⟨fun b _ => by
        simp only [if_true]
        unfold fill
        rw [show e.h (ifOf r) o.ep = .reply (B o) from hh o ho hw]
        have := (h.ok o ho hw).1.2
        have hne : ((B o).code != clearTx) = true := by
          simp only [bne_iff_ne, clearTx]
          omega
        dsimp only
        rw [hne], trivial⟩) trivial
    have hit : iterate e.h r none true s ⟨0, 0, 0⟩ =
        ((gen false (wanted r none) (fun o b => if true = true then fill e.h (ifOf r) o.ep b else (b, true)) s.obs s ⟨0, 0, 0⟩ 0).1,
         (gen false (wanted r none) (fun o b => if true = true then fill e.h (ifOf r) o.ep b else (b, true)) s.obs s ⟨0, 0, 0⟩ 0).2.2) := by
      unfold iterate
      dsimp only
      rw [iterLoop_gen, pass_eq]
    rw [hit]
    exact ⟨done_collections h g1, by rw [g2, Nat.zero_add]⟩

/-- With a representation given, or made for one endpoint, all observers concerned
get that one. -/
theorem notified_given {e : Env} {r : Res} {s : St} {b : Buf} {bc : Nat → Buf} {buf : Option Buf} {ep : Option Nat}
    (h : AllReady e r ep s (fun _ => b) bc)
    (hb : buf = some b ∨ (buf = none ∧ ∃ x, ep = some x ∧ e.h (ifaceFor r) x = .reply b ∧ b.code < 128)) :
    (notify e r buf ep s).1.outs = s.outs ++
      notes ((s.obs.filter (wanted r ep)).map (fun o => (o, b)) ++ collNotes bc s (linking e r)) s.mid ∧
    (notify e r buf ep s).2 = some (s.obs.filter (wanted r ep)).length := by
  unfold notify internal
  rw [h.observable, h.disc, h.rfnop, h.work]
  simp only [Bool.not_true, Bool.false_eq_true, if_false]
  by_cases hn : nobs s r.id = 0
  · rw [if_pos hn]
    obtain ⟨h1, h2⟩ := none_done ep (fun _ => b) hn
    exact ⟨done_collections h h1, by rw [h2]; rfl⟩
  · rw [if_neg hn]
    have hready : Ready s (wanted r ep) (fun _ => b) :=
      ⟨h.dis, h.ok, by have := h.mem; omega, by have := h.bufs; omega⟩
    obtain ⟨g1, g2, _⟩ := gen_done (g := false)
      (F := fun o b => if false = true then fill e.h (ifOf r) o.ep b else (b, true)) (Q := fun x => x = b) (b := b)
      (n := 0) hready (fun o ho hw => ⟨fun x hx => by rw [hx]; rfl, rfl⟩) rfl
    have hit : iterLoop e.h r ep false s.obs s b 0 =
        ((gen false (wanted r ep) (fun o b => if false = true then fill e.h (ifOf r) o.ep b else (b, true)) s.obs s b 0).1,
         (gen false (wanted r ep) (fun o b => if false = true then fill e.h (ifOf r) o.ep b else (b, true)) s.obs s b 0).2.2) := by
      rw [iterLoop_gen, pass_eq]
    rcases hb with hb | ⟨hb, x, hx, hr, hcode⟩
    · rw [hb]
      dsimp only
      have : iterate e.h r ep false s b = iterLoop e.h r ep false s.obs s b 0 := by
        unfold iterate; rfl
      rw [this, hit]
      exact ⟨done_collections h g1, by rw [g2, Nat.zero_add]⟩
    · rw [hb]
      dsimp only
      have : iterate e.h r ep true s ⟨0, 0, 0⟩ = iterLoop e.h r ep false s.obs s b 0 := by
        rw [hx]
        unfold iterate
        dsimp only
        have hf : fill e.h (ifOf r) x ⟨0, 0, 0⟩ = (b, true) := by
          unfold fill
          rw [show e.h (ifOf r) x = .reply b from hr]
          have hne : (b.code != clearTx) = true := by
            simp only [bne_iff_ne, clearTx]
            omega
          dsimp only
          rw [hne]
        rw [hf]
        rfl
      rw [this, hit]
      exact ⟨done_collections h g1, by rw [g2, Nat.zero_add]⟩

/-- Observers of the discovery resource without the batch interface get, when
nothing fails, the representation for their own interface (the default one if
they named none) and endpoint. -/
theorem discovery_notified {e : Env} {r : Res} {s : St} {B : Obs → Buf} (buf : Option Buf) (ep : Option Nat)
    (hobs : r.observable = true) (hd : r.disc = true) (hw : e.work = true) (h : Ready s (discWanted r) B)
    (hh : ∀ o ∈ s.obs, discWanted r o = true → e.h (if o.iface = 0 then r.dflt else o.iface) o.ep = .reply (B o)) :
    (notify e r buf ep s).1.outs = s.outs ++ notes ((s.obs.filter (discWanted r)).map fun o => (o, B o)) s.mid ∧
    (notify e r buf ep s).2 = some (s.obs.filter (discWanted r)).length ∧
    (notify e r buf ep s).1.obs = s.obs.map fun x => if discWanted r x then { x with cnt := inc x.cnt } else x := by
  unfold notify
  rw [hobs, hd, hw]
  simp only [Bool.not_true, Bool.false_eq_true, if_false, if_true]
  obtain ⟨g1, g2, _⟩ := gen_done (g := false)
    (F := fun o b => fill e.h (if o.iface = 0 then r.dflt else o.iface) o.ep b) (Q := fun _ => True) (b := ⟨0, 0, 0⟩)
    (n := 0) h
    (fun o ho hw => ⟨fun b _ => by
      unfold fill
      rw [hh o ho hw]
      have := (h.ok o ho hw).1.2
      have hne : ((B o).code != clearTx) = true := by
        simp only [bne_iff_ne, clearTx]
        omega
      dsimp only
      rw [hne], trivial⟩) trivial
  rw [discLoop_gen, discP]
  dsimp only
  exact ⟨g1.outs, by rw [g2, Nat.zero_add], g1.obs⟩

/-- The sequence number of every observer that was notified advances, the others
stay: without a collection to tell, the next change is notified with the next
number, which is larger until it starts over at 2 after 2 ^ 24 - 1. -/
theorem sequence {e : Env} {r : Res} {s : St} {B : Obs → Buf} {bc : Nat → Buf} (h : AllReady e r none s B bc)
    (hh : ∀ o ∈ s.obs, wanted r none o = true → e.h (ifaceFor r) o.ep = .reply (B o)) (hl : linking e r = []) :
    (notify e r none none s).1.obs = s.obs.map (fun x => if wanted r none x then { x with cnt := inc x.cnt } else x) ∧
    (∀ c, c < 2 ^ 24 - 1 → inc c = c + 1) ∧ inc (2 ^ 24 - 1) = 2 := by
  refine ⟨?_, fun c hc => ?_, rfl⟩
  · have hcoll : ∀ t, collections e r t = t := by
      intro t
      unfold collections
      rw [h.work, linking_eq, hl]
      rfl
    unfold notify internal
    rw [h.observable, h.disc, h.rfnop, h.work]
    simp only [Bool.not_true, Bool.false_eq_true, if_false]
    by_cases hn : nobs s r.id = 0
    · rw [if_pos hn, hcoll]
      exact (none_done none B hn).1.obs
    · rw [if_neg hn]
      dsimp only
      rw [hcoll]
      have hready : Ready s (wanted r none) B :=
        ⟨h.dis, h.ok, by have := h.mem; omega, by have := h.bufs; omega⟩
      obtain ⟨g1, _⟩ := gen_done (g := false)
        (F := fun o b => if true = true then fill e.h (ifOf r) o.ep b else (b, true)) (Q := fun _ => True) (b := ⟨0, 0, 0⟩)
        (n := 0) hready
        (fun o ho hw => ⟨fun b _ => by
          simp only [if_true]
          unfold fill
          rw [show e.h (ifOf r) o.ep = .reply (B o) from hh o ho hw]
          have := (h.ok o ho hw).1.2
          have hne : ((B o).code != clearTx) = true := by
            simp only [bne_iff_ne, clearTx]
            omega
          dsimp only
          rw [hne], trivial⟩) trivial
      unfold iterate
      dsimp only
      rw [iterLoop_gen, pass_eq]
      exact g1.obs
  · unfold inc
    rw [if_neg (by omega)]

/-! ### C139 — sequence numbers -/

/-- What was sent since has numbers in range, and the counters are in range. -/
def Numbered (s t : St) : Prop := InRange t ∧ ∃ ns, t.outs = s.outs ++ ns ∧ ∀ x ∈ ns, 1 ≤ x.seq ∧ x.seq < 2 ^ 24

theorem Numbered.refl {s : St} (h : InRange s) : Numbered s s := ⟨h, [], by simp, fun _ h => by cases h⟩

theorem Numbered.trans {a b c : St} (h : Numbered a b) (k : Numbered b c) : Numbered a c := by
  obtain ⟨_, ns, e1, h1⟩ := h
  obtain ⟨h2, ms, e2, h3⟩ := k
  refine ⟨h2, ns ++ ms, by rw [e2, e1, List.append_assoc], ?_⟩
  intro x hx
  rcases List.mem_append.1 hx with hx | hx
  · exact h1 x hx
  · exact h3 x hx

theorem inc_range {c : Nat} (h : 2 ≤ c ∧ c < 2 ^ 24) : 2 ≤ inc c ∧ inc c < 2 ^ 24 := by
  unfold inc
  split <;> omega

theorem finish_numbered {s : St} (h : InRange s) {o : Obs} (ho : 2 ≤ o.cnt ∧ o.cnt < 2 ^ 24) (code : Nat) (con : Bool)
    (body : Option Nat) (first : Bool) : Numbered s (finish s o code con body first).1 := by
  have hr : InRange { s with obs := s.obs.map fun x => if x.id == o.id then { x with cnt := inc x.cnt } else x } := by
    intro x hx
    obtain ⟨y, hy, rfl⟩ := List.mem_map.1 hx
    split
    · exact inc_range (h y hy)
    · exact h y hy
  unfold finish
  dsimp only
  by_cases hn : code < 128 ∧ nobs s o.res ≠ 0
  · simp only [if_pos hn]
    split
    · exact ⟨hr, [], by simp, fun _ h => by cases h⟩
    · refine ⟨hr, [_], rfl, ?_⟩
      intro x hx
      rw [List.mem_singleton.1 hx]
      dsimp only
      omega
  · simp only [if_neg hn]
    split
    · exact ⟨h, [], by simp, fun _ h => by cases h⟩
    · refine ⟨h, [_], rfl, ?_⟩
      intro x hx
      rw [List.mem_singleton.1 hx]
      dsimp only
      omega

theorem sendBlocks_numbered {s : St} (h : InRange s) {o : Obs} (ho : 2 ≤ o.cnt ∧ o.cnt < 2 ^ 24) (b : Buf) :
    Numbered s (sendBlocks s o b).1 := by
  unfold sendBlocks
  split
  · dsimp only
    split
    · exact Numbered.refl h
    · split
      · exact ⟨h, [], by simp, fun _ h => by cases h⟩
      · obtain ⟨h1, ns, h2, h3⟩ := finish_numbered (s := { s with
            xfers := s.xfers.filter (fun x => !own o x) ++ [⟨o.ep, o.res, o.iface, false⟩], bufs := s.bufs - 1 }) h ho b.code true (some b.body) true
        exact ⟨h1, ns, h2, h3⟩
  · split
    · exact Numbered.refl h
    · obtain ⟨h1, ns, h2, h3⟩ := finish_numbered (s := { s with
          xfers := s.xfers ++ [⟨o.ep, o.res, o.iface, false⟩], bufs := s.bufs - 1 }) h ho b.code true (some b.body) true
      exact ⟨h1, ns, h2, h3⟩

theorem sendOne_numbered {s : St} (h : InRange s) {o : Obs} (ho : 2 ≤ o.cnt ∧ o.cnt < 2 ^ 24) (b : Buf) (g : Bool) :
    Numbered s (sendOne s o b g).1 := by
  unfold sendOne
  dsimp only
  generalize (if (o.iface == ifRevert) = true then ({ b with code := valid } : Buf) else b) = b'
  split
  · split
    · exact Numbered.refl h
    · split
      · exact sendBlocks_numbered h ho _
      · exact finish_numbered h ho _ _ _ _
  · exact finish_numbered h ho _ _ _ _

theorem gen_numbered (g : Bool) (P : Obs → Bool) (F : Obs → Buf → Buf × Bool) : ∀ (os : List Obs) (s : St) (b : Buf) (n : Nat),
    InRange s → (∀ o ∈ os, 2 ≤ o.cnt ∧ o.cnt < 2 ^ 24) → Numbered s (gen g P F os s b n).1 := by
  intro os
  induction os with
  | nil => intro s b n h _; exact Numbered.refl h
  | cons o os ih =>
    intro s b n h ho
    have h1 := ho o (List.mem_cons_self ..)
    have h2 := fun x hx => ho x (List.mem_cons_of_mem _ hx)
    rw [gen]
    split
    · exact ih s b n h h2
    · dsimp only
      split
      · exact ih s _ n h h2
      · have hs := sendOne_numbered h h1 (F o b).1 g
        split
        · exact hs
        · exact hs.trans (ih _ _ _ hs.1 h2)

theorem colls_numbered (ch : Nat → Option Buf) : ∀ (cs : List Coll) (s : St) (b : Buf), InRange s → Numbered s (collsLoop ch cs s b) := by
  intro cs
  induction cs with
  | nil => intro s b h; exact Numbered.refl h
  | cons c cs ih =>
    intro s b h
    rw [collsLoop]
    split
    · exact Numbered.refl h
    · split
      · exact ih s b h
      · rename_i b' _
        dsimp only
        have := gen_numbered true (collPass c) (fun _ b => (b, true)) s.obs s b' 0 h h
        rw [collLoop_gen c s.obs s b' 0]
        exact this.trans (ih _ _ this.1)

/-- Whatever fails and whatever the handlers do: if the counters of the observers are in
the range of sequence numbers they stay in it, and no notification is sent with a number
that the 24 bits of the option cannot hold, or with the value 0 of a registration. -/
theorem numbers (e : Env) (r : Res) (buf : Option Buf) (ep : Option Nat) (s : St) (h : InRange s) :
    InRange (notify e r buf ep s).1 ∧
      ∃ ns, (notify e r buf ep s).1.outs = s.outs ++ ns ∧ ∀ x ∈ ns, 1 ≤ x.seq ∧ x.seq < 2 ^ 24 := by
  show Numbered s (notify e r buf ep s).1
  have hi : ∀ prep b, Numbered s (iterLoop e.h r ep prep s.obs s b 0).1 := by
    intro prep b
    rw [iterLoop_gen]
    exact gen_numbered _ _ _ _ _ _ _ h h
  have hit : ∀ prep b, Numbered s (iterate e.h r ep prep s b).1 := by
    intro prep b
    unfold iterate
    split
    · dsimp only
      split
      · exact Numbered.refl h
      · exact hi _ _
    · exact hi _ _
  have hc : ∀ t, Numbered s t → Numbered s (collections e r t) := by
    intro t ht
    unfold collections
    split
    · exact ht
    · exact ht.trans (colls_numbered _ _ _ _ ht.1)
  unfold notify
  split
  · exact Numbered.refl h
  · split
    · split
      · exact Numbered.refl h
      · dsimp only
        rw [discLoop_gen]
        exact gen_numbered _ _ _ _ _ _ _ h h
    · unfold internal
      split
      · exact Numbered.refl h
      · split
        · exact hc s (Numbered.refl h)
        · split
          · exact hc _ (hit _ _)
          · split
            · exact Numbered.refl h
            · exact hc _ (hit _ _)

theorem gen_refused {g : Bool} {P : Obs → Bool} {F : Obs → Buf → Buf × Bool} : ∀ (os : List Obs) (s : St) (b : Buf) (n : Nat),
    (∀ o ∈ os, P o = true → ∀ b, (F o b).2 = false) → (gen g P F os s b n).1 = s ∧ (gen g P F os s b n).2.2 = n := by
  intro os
  induction os with
  | nil => intro s b n _; exact ⟨rfl, rfl⟩
  | cons o os ih =>
    intro s b n h
    have h2 := fun x hx => h x (List.mem_cons_of_mem _ hx)
    rw [gen]
    split
    · exact ih s b n h2
    · rename_i hp
      dsimp only
      rw [h o (List.mem_cons_self ..) (by simpa using hp)]
      exact ih s _ n h2

/-- An observer for whose endpoint the handler ignores the request is not notified: if it
does so for all the observers concerned, nothing is sent and the call counts none. -/
theorem ignored (e : Env) (r : Res) (s : St) (hd : r.disc = false) (ho : r.observable = true) (hr : e.rfnop = true) (hw : e.work = true)
    (hn : nobs s r.id ≠ 0) (hl : linking e r = []) (h : ∀ o ∈ s.obs, wanted r none o = true → e.h (ifaceFor r) o.ep = .ignore) :
    notify e r none none s = (s, some 0) := by
  have hcoll : ∀ t, collections e r t = t := by
    intro t
    unfold collections
    rw [hw, linking_eq, hl]
    rfl
  unfold notify internal
  rw [ho, hd, hr, hw]
  simp only [Bool.not_true, Bool.false_eq_true, if_false]
  rw [if_neg hn, hcoll]
  unfold iterate
  dsimp only
  rw [iterLoop_gen, pass_eq]
  obtain ⟨h1, h2⟩ := gen_refused (g := false) (P := wanted r none)
    (F := fun o b => if true = true then fill e.h (ifOf r) o.ep b else (b, true)) s.obs s ⟨0, 0, 0⟩ 0 (by
      intro o ho hwn b
      have := h o ho hwn
      simp only [if_true]
      unfold fill
      rw [show e.h (ifOf r) o.ep = .ignore from this])
  rw [h1, h2]

/-! ### Examples -/

/-- A resource that can be observed. -/
def exRes : Res := ⟨1, ifRw, true, false, false⟩
/-- Two observers of it, over UDP and over TCP, and one of a collection. -/
def exObs : List Obs := [⟨0, 1, 7, [1], 0, false, 16, 4⟩, ⟨1, 1, 8, [2], 0, true, 16, 9⟩, ⟨2, 5, 7, [3], ifB, false, 1024, 30⟩]
/-- A state with them. -/
def exSt : St := ⟨exObs, [], 100, 10, 10, []⟩
/-- A handler that answers to everybody the interface and the endpoint. -/
def exH : Nat → Nat → Ans := fun i ep => .reply ⟨content, 20, 100 * i + ep⟩
/-- A collection with the resource as a member. -/
def exEnv : Env := ⟨true, true, exH, fun c => some ⟨content, 50, c⟩, [⟨5, 2, [1]⟩]⟩

example : (notify exEnv exRes none none exSt).1.outs =
    [⟨7, [1], content, 4, true, some 3207, true, 100⟩, ⟨8, [2], content, 9, false, some 3208, false, 101⟩,
     ⟨7, [3], content, 30, true, some 5, false, 102⟩] ∧ (notify exEnv exRes none none exSt).2 = some 2 := by decide

example : AllReady exEnv exRes none exSt (fun o => ⟨content, 20, 100 * ifRw + o.ep⟩) (fun c => ⟨content, 50, c⟩) :=
  ⟨rfl, rfl, rfl, rfl, ⟨by decide, by decide⟩,
    fun o ho _ => ⟨⟨by show (20 : Nat) ≠ 0; decide, by show content < 128; decide⟩,
      (by
        have : ∀ o ∈ exObs, o.iface ≠ ifRevert := by decide
        exact this o ho),
      fun x hx => by cases hx⟩,
    by decide, by decide,
    (by
      intro c hc
      have : c = ⟨5, 2, [1]⟩ := by
        have h : linking exEnv exRes = [⟨5, 2, [1]⟩] := by decide
        rw [h] at hc
        exact List.mem_singleton.1 hc
      subst this
      exact ⟨by decide, rfl, by show (50 : Nat) ≠ 0; decide, by show content < 128; decide⟩),
    (fun c _ o ho _ => ⟨(by
        have : ∀ o ∈ exObs, o.iface ≠ ifRevert := by decide
        exact this o ho), fun x hx => by cases hx⟩),
    by decide, by decide⟩

example : InRange exSt := by
  have : ∀ o ∈ exObs, 2 ≤ o.cnt ∧ o.cnt < 2 ^ 24 := by decide
  exact this

example : notify { exEnv with colls := [], h := fun _ ep => if ep = 7 then .ignore else exH 0 ep } exRes none none exSt =
    ((⟨[⟨0, 1, 7, [1], 0, false, 16, 4⟩, ⟨1, 1, 8, [2], 0, true, 16, 10⟩, ⟨2, 5, 7, [3], ifB, false, 1024, 30⟩],
        [], 101, 9, 10, [⟨8, [2], content, 9, false, some 8, false, 100⟩]⟩ : St), some 1) ∧
    notify { exEnv with colls := [], h := fun _ _ => .ignore } exRes none none exSt = (exSt, some 0) := by decide

/-- A change of what is there, for an observer of discovery with the list
interface and one that named none. -/
example : Ready { exSt with obs := [⟨0, 9, 7, [1], 4, false, 1024, 4⟩, ⟨1, 9, 8, [2], 0, false, 1024, 9⟩] }
    (discWanted ⟨9, 4, true, false, true⟩) (fun o => ⟨content, 20, 400 + o.ep⟩) :=
  ⟨⟨by decide, by decide⟩, fun o ho _ => ⟨⟨by show (20 : Nat) ≠ 0; decide, by show content < 128; decide⟩,
    (by
      have : ∀ o ∈ [(⟨0, 9, 7, [1], 4, false, 1024, 4⟩ : Obs), ⟨1, 9, 8, [2], 0, false, 1024, 9⟩], o.iface ≠ ifRevert := by decide
      exact this o ho), fun x hx => by cases hx⟩, by decide, by decide⟩

/-! ### C139 — what does not hold -/

/-- An observer that asked for another interface is notified with the
representation for the default interface of the resource. -/
theorem iface_false :
    ((notify { exEnv with colls := [] } exRes none none
      { exSt with obs := [⟨0, 1, 7, [1], ifBaseline, false, 1024, 4⟩] }).1.outs.map (·.body)) = [some (100 * ifRw + 7)] ∧
    exH ifBaseline 7 ≠ exH ifRw 7 := by decide

/-- A change while a notification in blocks is under way to an observer is not
told to it, then or later, although the call counts it as notified: it keeps the
representation before the change. -/
theorem busy_lost_false :
    (let s : St := { exSt with obs := [⟨0, 1, 7, [1], 0, false, 16, 4⟩], xfers := [⟨7, 1, 0, false⟩] }
     notify { exEnv with colls := [] } exRes none none s = (s, some 1)) := by decide

/-- An observer with the revert interface makes those after it get the code 2.03
with their representation, when the representation is shared. -/
theorem shared_code_false :
    (notify { exEnv with colls := [] } exRes (some ⟨content, 5, 3⟩) none
      { exSt with obs := [⟨0, 1, 7, [1], ifRevert, false, 1024, 4⟩, ⟨1, 1, 8, [2], 0, false, 1024, 9⟩] }).1.outs.map
        (fun n => (n.ep, n.code, n.body)) = [(7, valid, none), (8, valid, some 3)] := by decide

/-- An error without a payload is not told to the observers. -/
theorem error_untold_false :
    notify { exEnv with colls := [], h := fun _ _ => .reply ⟨132, 0, 0⟩ } exRes none none exSt = (exSt, some 2) := by decide

/-- An error with a payload is told with the Observe option 1, and the observer
stays registered: the next change is notified to it again, although RFC 7641
(3.2, 4.2) wants the registration to end and the option to be left out. -/
theorem error_stays_false :
    (let t := (notify { exEnv with colls := [], h := fun _ _ => .reply ⟨132, 4, 0⟩ } exRes none none exSt).1
     t.outs.map (fun n => (n.code, n.seq)) = [(132, 1), (132, 1)] ∧
     (notify { exEnv with colls := [] } exRes none none t).1.outs.length = 4) := by decide

/-- A handler that gives no answer for one of the observers makes it get the
representation that was made for the observer before. -/
theorem leaked_false :
    (notify { exEnv with colls := [], h := fun i ep => if ep = 7 then exH i 7 else .silent } exRes none none exSt).1.outs.map
      (fun n => (n.ep, n.body)) = [(7, some 3207), (8, some 3207)] := by decide

/-- When there is no buffer for the notification of one observer, those after it
are not notified. -/
theorem rest_untold_false :
    (notify { exEnv with colls := [] } exRes none none { exSt with bufs := 0 }).1.outs = [] ∧
    (wanted exRes none ⟨1, 1, 8, [2], 0, true, 16, 9⟩ = true) := by decide

/-- A collection that nobody observes keeps the collections after it from telling
their observers of the change of a member. -/
theorem collection_skipped_false :
    (notify { exEnv with colls := [⟨4, 2, [1]⟩, ⟨5, 2, [1]⟩] } exRes none none exSt).1.outs.map (·.ep) = [7, 8] ∧
    (notify { exEnv with colls := [⟨5, 2, [1]⟩, ⟨4, 2, [1]⟩] } exRes none none exSt).1.outs.map (·.ep) = [7, 8, 7] := by decide

end Verif.Notify
