import Verif.TcpConn.Spec

/-! The invariant of the connections and what the primitives do to it. -/

namespace Verif.TcpConn

open Spec

theorem view_append (log : List Ev) (n : Nat) (e : Ev) : view (log ++ [e]) n = see n (view log n) e := by
  unfold view; rw [List.foldl_append]; rfl

theorem streamed_append : ∀ (a : List Bytes) (b : List (Bytes × Bool)) (m : Bytes) (d : Bytes × Bool), Streamed a b →
    d.1 <+: m → (d.2 = true → d.1 = m) → Streamed (a ++ [m]) (b ++ [d])
  | [], [], m, d, _, h1, h2 => ⟨h1, h2, trivial⟩
  | x :: a, y :: b, m, d, h, h1, h2 => ⟨h.1, h.2.1, streamed_append a b m d h.2.2 h1 h2⟩
  | [], _ :: _, _, _, h, _, _ => h.elim
  | _ :: _, [], _, _, h, _, _ => h.elim

theorem sendLoop_spec : ∀ (os : List (Option Nat)) (d : Bytes), (sendLoop d os).1 <+: d ∧
    ((sendLoop d os).2 = true → (sendLoop d os).1 = d) := by
  intro os
  induction os with
  | nil => intro d; exact ⟨List.nil_prefix, fun h => by cases h⟩
  | cons o r ih =>
    intro d
    cases o with
    | none => exact ⟨List.nil_prefix, fun h => by cases h⟩
    | some k =>
      rw [sendLoop]
      by_cases h : min k d.length = d.length
      · simp only [h, if_true]; exact ⟨List.prefix_rfl, fun _ => trivial⟩
      · rw [if_neg h]
        obtain ⟨h1, h2⟩ := ih (d.drop (min k d.length))
        dsimp only
        refine ⟨?_, fun e => ?_⟩
        · obtain ⟨t, ht⟩ := h1
          exact ⟨t, by rw [List.append_assoc, ht, List.take_append_drop]⟩
        · rw [h2 e, List.take_append_drop]

/-- The invariant: `S` are the sessions, `W` the waiting ones. -/
structure Inv (M : Nat) (S : List Sess) (W : List Wait) (rfds cfds socks : List Nat) (next : Nat) (log : List Ev) : Prop where
  nodup : (S.map (·.n) ++ W.map (·.n)).Nodup
  lt : ∀ n ∈ S.map (·.n) ++ W.map (·.n), n < next
  fresh : ∀ n, next ≤ n → view log n = {}
  wait : ∀ x ∈ W, Pending (view log x.n) x.cb x.msgs ∧ (view log x.n).tries = x.count + 1 ∧ x.count ≤ M ∧ x.ep.sid ≠ 0
  sess : ∀ s ∈ S, Running (view log s.n) s.ep.secured ∧ s.ep.sid ≠ 0
  gone : ∀ n, n < next → n ∉ S.map (·.n) ++ W.map (·.n) → Failed (view log n) ∨ Closed (view log n) ∨ Never (view log n)
  tries : ∀ n, (view log n).tries ≤ M + 1
  snodup : socks.Nodup
  owned : (S.map (·.sock) ++ W.filterMap (·.sock)).Perm socks
  reads : ∀ fd, fd ∈ rfds ↔ fd ∈ S.map (·.sock)
  connects : ∀ fd, fd ∈ cfds ↔ fd ∈ W.filterMap (·.sock)

variable {M next : Nat} {S S' : List Sess} {W W' : List Wait} {rfds cfds socks : List Nat} {log : List Ev}

theorem Inv.perm (h : Inv M S W rfds cfds socks next log) (hS : S.Perm S') (hW : W.Perm W') :
    Inv M S' W' rfds cfds socks next log := by
  have hn : (S.map (·.n) ++ W.map (·.n)).Perm (S'.map (·.n) ++ W'.map (·.n)) := (hS.map _).append (hW.map _)
  refine ⟨hn.nodup_iff.1 h.nodup, fun n hn' => h.lt n (hn.mem_iff.2 hn'), h.fresh, fun x hx => h.wait x (hW.mem_iff.2 hx),
    fun s hs => h.sess s (hS.mem_iff.2 hs), fun n h1 h2 => h.gone n h1 fun h3 => h2 (hn.mem_iff.1 h3), h.tries, h.snodup,
    (((hS.map _).append (hW.filterMap _)).symm).trans h.owned, fun fd => (h.reads fd).trans (hS.map _).mem_iff,
    fun fd => (h.connects fd).trans (hW.filterMap _).mem_iff⟩

/-- Events about one name leave the other views alone. -/
def About (k : Nat) : Ev → Prop
  | .made n _ | .told n _ _ | .began n | .ended n | .tried n | .took n _ | .wrote n _ _ | .ref n _ | .unref n _ => n = k

theorem see_other (k n : Nat) (h : k ≠ n) (v : View) (e : Ev) (he : About k e) : see n v e = v := by
  cases e <;> (simp only [About] at he; subst he; simp only [see]; rw [if_neg h])

theorem views_other (k n : Nat) (h : k ≠ n) : ∀ (es : List Ev) (log : List Ev), (∀ e ∈ es, About k e) →
    view (log ++ es) n = view log n := by
  intro es
  induction es with
  | nil => intro log _; rw [List.append_nil]
  | cons e es ih =>
    intro log he
    rw [show log ++ e :: es = (log ++ [e]) ++ es by simp, ih _ fun x hx => he x (by simp [hx]), view_append,
      see_other k n h _ _ (he e (by simp))]

/-- A session changes its log. -/
theorem Inv.on_sess {s : Sess} (h : Inv M (s :: S) W rfds cfds socks next log) (es : List Ev) (he : ∀ e ∈ es, About s.n e)
    (hr : Running (view (log ++ es) s.n) s.ep.secured) (ht : (view (log ++ es) s.n).tries ≤ M + 1) :
    Inv M (s :: S) W rfds cfds socks next (log ++ es) := by
  have hnd := h.nodup
  simp only [List.map_cons, List.cons_append, List.nodup_cons] at hnd
  have hs : s.n < next := h.lt s.n (by simp)
  refine ⟨h.nodup, h.lt, ?_, ?_, ?_, ?_, ?_, h.snodup, h.owned, h.reads, h.connects⟩
  · intro n hn; rw [views_other s.n n (by omega) es log he]; exact h.fresh n hn
  · intro x hx
    have : s.n ≠ x.n := fun e => hnd.1 (List.mem_append_right _ (e ▸ List.mem_map_of_mem hx))
    rw [views_other s.n x.n this es log he]; exact h.wait x hx
  · intro x hx
    rcases List.mem_cons.1 hx with rfl | hx
    · exact ⟨hr, (h.sess _ (by simp)).2⟩
    · have : s.n ≠ x.n := fun e => hnd.1 (List.mem_append_left _ (e ▸ List.mem_map_of_mem hx))
      rw [views_other s.n x.n this es log he]; exact h.sess x (by simp [hx])
  · intro n hn hne
    have : s.n ≠ n := fun e => hne (by simp [e])
    rw [views_other s.n n this es log he]; exact h.gone n hn hne
  · intro n
    by_cases e : s.n = n
    · rw [← e]; exact ht
    · rw [views_other s.n n e es log he]; exact h.tries n

/-- A session is closed. -/
theorem Inv.close_sess {s : Sess} (h : Inv M (s :: S) W rfds cfds socks next log) (es : List Ev) (he : ∀ e ∈ es, About s.n e)
    (hc : Closed (view (log ++ es) s.n)) (ht : (view (log ++ es) s.n).tries ≤ M + 1) :
    s.sock ∈ socks ∧
    Inv M S W (fdClr rfds s.sock) cfds (socks.filter fun x => x != s.sock) next (log ++ es) := by
  have hnd := h.nodup
  simp only [List.map_cons, List.cons_append, List.nodup_cons] at hnd
  have hs : s.n < next := h.lt s.n (by simp)
  have ho := h.owned
  simp only [List.map_cons, List.cons_append] at ho
  have hso : (s.sock :: (S.map (·.sock) ++ W.filterMap (·.sock))).Nodup := ho.nodup_iff.2 h.snodup
  rw [List.nodup_cons] at hso
  refine ⟨ho.mem_iff.1 (by simp), hnd.2, fun n hn => h.lt n (by simp only [List.map_cons, List.cons_append]; exact List.mem_cons_of_mem _ hn), ?_, ?_, ?_, ?_, ?_, ?_, ?_, ?_, ?_⟩
  · intro n hn; rw [views_other s.n n (by omega) es log he]; exact h.fresh n hn
  · intro x hx
    have : s.n ≠ x.n := fun e => hnd.1 (List.mem_append_right _ (e ▸ List.mem_map_of_mem hx))
    rw [views_other s.n x.n this es log he]; exact h.wait x hx
  · intro x hx
    have : s.n ≠ x.n := fun e => hnd.1 (List.mem_append_left _ (e ▸ List.mem_map_of_mem hx))
    rw [views_other s.n x.n this es log he]; exact h.sess x (by simp [hx])
  · intro n hn hne
    by_cases e : s.n = n
    · subst e; exact .inr (.inl hc)
    · rw [views_other s.n n e es log he]
      refine h.gone n hn ?_
      simp only [List.map_cons, List.cons_append, List.mem_cons]
      rintro (h' | h')
      · exact e h'.symm
      · exact hne h'
  · intro n
    by_cases e : s.n = n
    · rw [← e]; exact ht
    · rw [views_other s.n n e es log he]; exact h.tries n
  · exact h.snodup.filter _
  · have := (ho.filter fun x => x != s.sock)
    rw [List.filter_cons_of_neg (by simp), List.filter_eq_self.2 ?_] at this
    · exact this
    · intro a ha; simpa using fun e : a = s.sock => hso.1 (e ▸ ha)
  · intro fd
    unfold fdClr
    rw [List.mem_filter, h.reads]
    simp only [List.map_cons, List.mem_cons, bne_iff_ne]
    constructor
    · rintro ⟨h1 | h1, h2⟩
      · exact absurd h1 h2
      · exact h1
    · intro h1
      exact ⟨.inr h1, fun e => hso.1 (List.mem_append_left _ (e ▸ h1))⟩
  · exact h.connects

/-- A waiting session is given up. Its socket, if any, is closed. -/
theorem Inv.drop_wait {x : Wait} (h : Inv M S (x :: W) rfds cfds socks next log) (hx : x.sock = none) (es : List Ev)
    (he : ∀ e ∈ es, About x.n e) (hc : Failed (view (log ++ es) x.n)) (ht : (view (log ++ es) x.n).tries ≤ M + 1) :
    Inv M S W rfds cfds socks next (log ++ es) := by
  have hp : (S.map (·.n) ++ (x :: W).map (·.n)).Perm (x.n :: (S.map (·.n) ++ W.map (·.n))) := by
    rw [List.map_cons]; exact List.perm_middle
  have hnd := hp.nodup_iff.1 h.nodup
  rw [List.nodup_cons] at hnd
  have hs : x.n < next := h.lt x.n (hp.mem_iff.2 (by simp))
  refine ⟨hnd.2, fun n hn => h.lt n (hp.mem_iff.2 (by simp only [List.mem_cons]; exact .inr hn)), ?_, ?_, ?_, ?_, ?_, h.snodup, ?_, h.reads, ?_⟩
  · intro n hn; rw [views_other x.n n (by omega) es log he]; exact h.fresh n hn
  · intro y hy
    have : x.n ≠ y.n := fun e => hnd.1 (List.mem_append_right _ (e ▸ List.mem_map_of_mem hy))
    rw [views_other x.n y.n this es log he]; exact h.wait y (by simp [hy])
  · intro y hy
    have : x.n ≠ y.n := fun e => hnd.1 (List.mem_append_left _ (e ▸ List.mem_map_of_mem hy))
    rw [views_other x.n y.n this es log he]; exact h.sess y hy
  · intro n hn hne
    by_cases e : x.n = n
    · subst e; exact .inl hc
    · rw [views_other x.n n e es log he]
      refine h.gone n hn fun h' => ?_
      have := hp.mem_iff.1 h'
      rcases List.mem_cons.1 this with h' | h'
      · exact e h'.symm
      · exact hne h'
  · intro n
    by_cases e : x.n = n
    · rw [← e]; exact ht
    · rw [views_other x.n n e es log he]; exact h.tries n
  · have := h.owned
    rw [List.filterMap_cons_none hx] at this
    exact this
  · have := h.connects
    rw [List.filterMap_cons_none hx] at this
    exact this

/-- A waiting session changes: name, callback stay; its log grows; its socket stays. -/
theorem Inv.on_wait {x y : Wait} (h : Inv M S (x :: W) rfds cfds socks next log) (hn : y.n = x.n) (hsk : y.sock = x.sock)
    (hsid : y.ep.sid ≠ 0) (es : List Ev)
    (he : ∀ e ∈ es, About x.n e) (hp : Pending (view (log ++ es) x.n) y.cb y.msgs)
    (ht : (view (log ++ es) x.n).tries = y.count + 1) (hM : y.count ≤ M) :
    Inv M S (y :: W) rfds cfds socks next (log ++ es) := by
  have hpm : (S.map (·.n) ++ (x :: W).map (·.n)).Perm (x.n :: (S.map (·.n) ++ W.map (·.n))) := by
    rw [List.map_cons]; exact List.perm_middle
  have hnd := hpm.nodup_iff.1 h.nodup
  rw [List.nodup_cons] at hnd
  have hs : x.n < next := h.lt x.n (hpm.mem_iff.2 (by simp))
  have e1 : (y :: W).map (·.n) = (x :: W).map (·.n) := by simp [hn]
  have e2 : (y :: W).filterMap (·.sock) = (x :: W).filterMap (·.sock) := by simp [List.filterMap_cons, hsk]
  refine ⟨by rw [e1]; exact h.nodup, by rw [e1]; exact h.lt, ?_, ?_, ?_, ?_, ?_, h.snodup, by rw [e2]; exact h.owned, h.reads, by rw [e2]; exact h.connects⟩
  · intro n hn; rw [views_other x.n n (by omega) es log he]; exact h.fresh n hn
  · intro z hz
    rcases List.mem_cons.1 hz with rfl | hz
    · rw [hn]; exact ⟨hp, ht, hM, hsid⟩
    · have : x.n ≠ z.n := fun e => hnd.1 (List.mem_append_right _ (e ▸ List.mem_map_of_mem hz))
      rw [views_other x.n z.n this es log he]; exact h.wait z (by simp [hz])
  · intro z hz
    have : x.n ≠ z.n := fun e => hnd.1 (List.mem_append_left _ (e ▸ List.mem_map_of_mem hz))
    rw [views_other x.n z.n this es log he]; exact h.sess z hz
  · intro n hn' hne
    rw [e1] at hne
    have : x.n ≠ n := fun e => hne (hpm.mem_iff.2 (by simp [e]))
    rw [views_other x.n n this es log he]; exact h.gone n hn' hne
  · intro n
    by_cases e : x.n = n
    · rw [← e, ht]; omega
    · rw [views_other x.n n e es log he]; exact h.tries n

/-- The socket of a waiting session is closed. -/
theorem Inv.drop_sock {x : Wait} {fd : Nat} (h : Inv M S (x :: W) rfds cfds socks next log) (hx : x.sock = some fd) :
    fd ∈ socks ∧
    Inv M S ({ x with sock := none } :: W) rfds (fdClr cfds fd) (socks.filter fun x => x != fd) next log := by
  have ho := h.owned
  rw [List.filterMap_cons_some hx] at ho
  have ho2 : (fd :: (S.map (·.sock) ++ W.filterMap (·.sock))).Perm socks := List.perm_middle.symm.trans ho
  have hso := ho2.nodup_iff.2 h.snodup
  rw [List.nodup_cons] at hso
  refine ⟨ho2.mem_iff.1 (by simp), ?_⟩
  refine ⟨h.nodup, h.lt, h.fresh, ?_, h.sess, h.gone, h.tries, h.snodup.filter _, ?_, h.reads, ?_⟩
  · intro y hy
    rcases List.mem_cons.1 hy with rfl | hy
    · exact h.wait x (by simp)
    · exact h.wait y (by simp [hy])
  · have := (ho2.filter fun x => x != fd)
    rw [List.filter_cons_of_neg (by simp), List.filter_eq_self.2 ?_] at this
    · rw [List.filterMap_cons_none rfl]; exact this
    · intro a ha; simpa using fun e : a = fd => hso.1 (e ▸ ha)
  · intro z
    unfold fdClr
    rw [List.mem_filter, h.connects, List.filterMap_cons_some hx, List.filterMap_cons_none rfl]
    simp only [List.mem_cons, bne_iff_ne]
    constructor
    · rintro ⟨h1 | h1, h2⟩
      · exact absurd h1 h2
      · exact h1
    · intro h1
      exact ⟨.inr h1, fun e => hso.1 (List.mem_append_right _ (e ▸ h1))⟩

/-- A waiting session gets a socket. -/
theorem Inv.set_sock {x : Wait} {fd : Nat} (h : Inv M S (x :: W) rfds cfds socks next log) (hx : x.sock = none) (hf : fd ∉ socks)
    {c : List Nat} (hc : ∀ z, z ∈ c ↔ z = fd ∨ z ∈ cfds) :
    Inv M S ({ x with sock := some fd } :: W) rfds c (socks ++ [fd]) next log := by
  refine ⟨h.nodup, h.lt, h.fresh, ?_, h.sess, h.gone, h.tries, ?_, ?_, h.reads, ?_⟩
  · intro y hy
    rcases List.mem_cons.1 hy with rfl | hy
    · exact h.wait x (by simp)
    · exact h.wait y (by simp [hy])
  · rw [List.nodup_append]; exact ⟨h.snodup, by simp, by rintro a ha b hb rfl; simp at hb; exact hf (hb ▸ ha)⟩
  · have := h.owned
    rw [List.filterMap_cons_none hx] at this
    rw [List.filterMap_cons_some (f := fun y : Wait => y.sock) (a := { x with sock := some fd }) (b := fd) rfl]
    exact List.perm_middle.trans ((this.cons fd).trans (List.perm_append_singleton fd socks).symm)
  · intro z
    rw [hc, h.connects, List.filterMap_cons_none hx, List.filterMap_cons_some (f := fun y : Wait => y.sock) (a := { x with sock := some fd }) (b := fd) rfl, List.mem_cons]

/-- A waiting session becomes a session. -/
theorem Inv.promote {x : Wait} {fd : Nat} (h : Inv M S (x :: W) rfds cfds socks next log) (hx : x.sock = some fd) (s : Sess)
    (hn : s.n = x.n) (hs : s.sock = fd) (hsid : s.ep.sid ≠ 0) (es : List Ev) (he : ∀ e ∈ es, About x.n e)
    (hr : Running (view (log ++ es) x.n) s.ep.secured) (ht : (view (log ++ es) x.n).tries ≤ M + 1) {r c : List Nat}
    (hrd : ∀ z, z ∈ r ↔ z = fd ∨ z ∈ rfds) (hc : ∀ z, z ∈ c ↔ z ∈ cfds ∧ z ≠ fd) :
    Inv M (s :: S) W r c socks next (log ++ es) := by
  have hpm : (S.map (·.n) ++ (x :: W).map (·.n)).Perm (x.n :: (S.map (·.n) ++ W.map (·.n))) := by
    rw [List.map_cons]; exact List.perm_middle
  have hnd := hpm.nodup_iff.1 h.nodup
  have hnd' := hnd
  rw [List.nodup_cons] at hnd
  have hlt : x.n < next := h.lt x.n (hpm.mem_iff.2 (by simp))
  have ho := h.owned
  rw [List.filterMap_cons_some hx] at ho
  have ho2 : (fd :: (S.map (·.sock) ++ W.filterMap (·.sock))).Perm socks := List.perm_middle.symm.trans ho
  have hso := ho2.nodup_iff.2 h.snodup
  rw [List.nodup_cons] at hso
  refine ⟨?_, ?_, ?_, ?_, ?_, ?_, ?_, h.snodup, ?_, ?_, ?_⟩
  · simp only [List.map_cons, List.cons_append, hn]; exact hnd'
  · intro n hm
    simp only [List.map_cons, List.cons_append, hn] at hm
    exact h.lt n (hpm.mem_iff.2 hm)
  · intro n hn; rw [views_other x.n n (by omega) es log he]; exact h.fresh n hn
  · intro z hz
    have : x.n ≠ z.n := fun e => hnd.1 (List.mem_append_right _ (e ▸ List.mem_map_of_mem hz))
    rw [views_other x.n z.n this es log he]; exact h.wait z (by simp [hz])
  · intro z hz
    rcases List.mem_cons.1 hz with rfl | hz
    · rw [hn]; exact ⟨hr, hsid⟩
    · have : x.n ≠ z.n := fun e => hnd.1 (List.mem_append_left _ (e ▸ List.mem_map_of_mem hz))
      rw [views_other x.n z.n this es log he]; exact h.sess z hz
  · intro n hn' hne
    simp only [List.map_cons, List.cons_append, hn] at hne
    have : x.n ≠ n := fun e => hne (by simp [e])
    rw [views_other x.n n this es log he]; exact h.gone n hn' fun h' => hne (hpm.mem_iff.1 h')
  · intro n
    by_cases e : x.n = n
    · rw [← e]; exact ht
    · rw [views_other x.n n e es log he]; exact h.tries n
  · simp only [List.map_cons, List.cons_append, hs]; exact ho2
  · intro z; rw [hrd, h.reads, List.map_cons, List.mem_cons, hs]
  · intro z
    rw [hc, h.connects, List.filterMap_cons_some hx, List.mem_cons]
    constructor
    · rintro ⟨h1 | h1, h2⟩
      · exact absurd h1 h2
      · exact h1
    · intro h1
      exact ⟨.inr h1, fun e => hso.1 (List.mem_append_right _ (e ▸ h1))⟩

/-- A name that is not recorded. -/
theorem Inv.skip (h : Inv M S W rfds cfds socks next log) (es : List Ev) (he : ∀ e ∈ es, About next e)
    (hc : Never (view (log ++ es) next)) (ht : (view (log ++ es) next).tries ≤ M + 1) :
    Inv M S W rfds cfds socks (next + 1) (log ++ es) := by
  refine ⟨h.nodup, fun n hn => Nat.lt_succ_of_lt (h.lt n hn), ?_, ?_, ?_, ?_, ?_, h.snodup, h.owned, h.reads, h.connects⟩
  · intro n hn; rw [views_other next n (by omega) es log he]; exact h.fresh n (by omega)
  · intro x hx
    have := h.lt x.n (List.mem_append_right _ (List.mem_map_of_mem hx))
    rw [views_other next x.n (by omega) es log he]; exact h.wait x hx
  · intro x hx
    have := h.lt x.n (List.mem_append_left _ (List.mem_map_of_mem hx))
    rw [views_other next x.n (by omega) es log he]; exact h.sess x hx
  · intro n hn hne
    by_cases e : next = n
    · rw [← e]; exact .inr (.inr hc)
    · rw [views_other next n e es log he]; exact h.gone n (by omega) hne
  · intro n
    by_cases e : next = n
    · rw [← e]; exact ht
    · rw [views_other next n e es log he]; exact h.tries n

/-- A new session. -/
theorem Inv.new_sess (h : Inv M S W rfds cfds socks next log) (s : Sess) (hn : s.n = next) (hf : s.sock ∉ socks)
    (hsid : s.ep.sid ≠ 0) (es : List Ev) (he : ∀ e ∈ es, About next e) (hr : Running (view (log ++ es) next) s.ep.secured)
    (ht : (view (log ++ es) next).tries ≤ M + 1) {r : List Nat} (hrd : ∀ z, z ∈ r ↔ z = s.sock ∨ z ∈ rfds) :
    Inv M (s :: S) W r cfds (socks ++ [s.sock]) (next + 1) (log ++ es) := by
  refine ⟨?_, ?_, ?_, ?_, ?_, ?_, ?_, ?_, ?_, ?_, h.connects⟩
  · simp only [List.map_cons, List.cons_append, List.nodup_cons]
    exact ⟨fun hm => by have := h.lt _ hm; omega, h.nodup⟩
  · intro n hm
    simp only [List.map_cons, List.cons_append, List.mem_cons] at hm
    rcases hm with rfl | hm
    · omega
    · have := h.lt n hm; omega
  · intro n hn; rw [views_other next n (by omega) es log he]; exact h.fresh n (by omega)
  · intro x hx
    have := h.lt x.n (List.mem_append_right _ (List.mem_map_of_mem hx))
    rw [views_other next x.n (by omega) es log he]; exact h.wait x hx
  · intro x hx
    rcases List.mem_cons.1 hx with rfl | hx
    · rw [hn]; exact ⟨hr, hsid⟩
    · have := h.lt x.n (List.mem_append_left _ (List.mem_map_of_mem hx))
      rw [views_other next x.n (by omega) es log he]; exact h.sess x hx
  · intro n hn' hne
    simp only [List.map_cons, List.cons_append, List.mem_cons, hn] at hne
    have e : next ≠ n := fun e => hne (.inl e.symm)
    rw [views_other next n e es log he]; exact h.gone n (by omega) fun h' => hne (.inr h')
  · intro n
    by_cases e : next = n
    · rw [← e]; exact ht
    · rw [views_other next n e es log he]; exact h.tries n
  · rw [List.nodup_append]; exact ⟨h.snodup, by simp, by rintro a ha b hb rfl; simp at hb; exact hf (hb ▸ ha)⟩
  · simp only [List.map_cons, List.cons_append]
    exact (h.owned.cons _).trans (List.perm_append_singleton _ socks).symm
  · intro z; rw [hrd, h.reads, List.map_cons, List.mem_cons]

/-- A new waiting session. -/
theorem Inv.new_wait (h : Inv M S W rfds cfds socks next log) (x : Wait) (fd : Nat) (hn : x.n = next) (hx : x.sock = some fd)
    (hf : fd ∉ socks) (hsid : x.ep.sid ≠ 0) (es : List Ev) (he : ∀ e ∈ es, About next e)
    (hp : Pending (view (log ++ es) next) x.cb x.msgs) (ht : (view (log ++ es) next).tries = x.count + 1) (hM : x.count ≤ M)
    {c : List Nat} (hc : ∀ z, z ∈ c ↔ z = fd ∨ z ∈ cfds) :
    Inv M S (x :: W) rfds c (socks ++ [fd]) (next + 1) (log ++ es) := by
  have hpm : (S.map (·.n) ++ (x :: W).map (·.n)).Perm (x.n :: (S.map (·.n) ++ W.map (·.n))) := by
    rw [List.map_cons]; exact List.perm_middle
  refine ⟨?_, ?_, ?_, ?_, ?_, ?_, ?_, ?_, ?_, h.reads, ?_⟩
  · rw [hpm.nodup_iff, List.nodup_cons]
    exact ⟨fun hm => by have := h.lt _ hm; omega, h.nodup⟩
  · intro n hm
    rcases List.mem_cons.1 (hpm.mem_iff.1 hm) with rfl | hm
    · omega
    · have := h.lt n hm; omega
  · intro n hn; rw [views_other next n (by omega) es log he]; exact h.fresh n (by omega)
  · intro y hy
    rcases List.mem_cons.1 hy with rfl | hy
    · rw [hn]; exact ⟨hp, ht, hM, hsid⟩
    · have := h.lt y.n (List.mem_append_right _ (List.mem_map_of_mem hy))
      rw [views_other next y.n (by omega) es log he]; exact h.wait y hy
  · intro y hy
    have := h.lt y.n (List.mem_append_left _ (List.mem_map_of_mem hy))
    rw [views_other next y.n (by omega) es log he]; exact h.sess y hy
  · intro n hn' hne
    have e : next ≠ n := fun e => hne (hpm.mem_iff.2 (by simp [hn, e]))
    rw [views_other next n e es log he]
    exact h.gone n (by omega) fun h' => hne (hpm.mem_iff.2 (by simp only [List.mem_cons]; exact .inr h'))
  · intro n
    by_cases e : next = n
    · rw [← e, ht]; omega
    · rw [views_other next n e es log he]; exact h.tries n
  · rw [List.nodup_append]; exact ⟨h.snodup, by simp, by rintro a ha b hb rfl; simp at hb; exact hf (hb ▸ ha)⟩
  · rw [List.filterMap_cons_some hx]
    exact List.perm_middle.trans ((h.owned.cons fd).trans (List.perm_append_singleton fd socks).symm)
  · intro z; rw [hc, h.connects, List.filterMap_cons_some hx, List.mem_cons]

/-- The notification of a session is changed. -/
theorem Inv.same_sess {s s' : Sess} (h : Inv M (s :: S) W rfds cfds socks next log) (hn : s'.n = s.n) (he : s'.ep = s.ep)
    (hk : s'.sock = s.sock) : Inv M (s' :: S) W rfds cfds socks next log := by
  refine ⟨?_, ?_, h.fresh, h.wait, ?_, ?_, h.tries, h.snodup, ?_, ?_, h.connects⟩
  · have := h.nodup; simpa [hn] using this
  · have := h.lt; simpa [hn] using this
  · intro x hx
    rcases List.mem_cons.1 hx with rfl | hx
    · rw [hn, he]; exact h.sess s (by simp)
    · exact h.sess x (by simp [hx])
  · have := h.gone; simpa [hn] using this
  · have := h.owned; simpa [hk] using this
  · have := h.reads; simpa [hk] using this

end Verif.TcpConn
