import Verif.Observe.Overflow

/-!
C50: the sequence numbers of notifications are fresh in the sense of RFC 7641, 3.4.
-/

namespace Verif.Observe

variable {E : Type}

/-- RFC 7641, 3.4: a notification with value `v2` is newer than one with `v1` (the
third condition, 128 seconds passed, is left out). -/
def Newer (v1 v2 : Nat) : Prop :=
  (v1 < v2 ∧ v2 - v1 < 2 ^ 23) ∨ (v1 > v2 ∧ v1 - v2 > 2 ^ 23)

instance (a b : Nat) : Decidable (Newer a b) := inferInstanceAs (Decidable (_ ∨ _))

/-- The value of the counter after `n` increments. -/
def val (n : Nat) : Nat := 2 + n % (2 ^ 24 - 2)

theorem val_inc (n : Nat) : inc (val n) = val (n + 1) := by
  unfold inc val seqMax seqStart
  split <;> omega

theorem val_newer (a b : Nat) (h : a < b) (hb : b - a < 2 ^ 23 - 2) : Newer (val a) (val b) := by
  unfold Newer val
  omega

/-- What distinguishes the observations of a client. -/
def Key (a : Notif E) (o : Obs E) : Prop := a.ep = o.ep ∧ a.url = o.url ∧ a.iface = o.iface
def Key2 (a b : Notif E) : Prop := a.ep = b.ep ∧ a.url = b.url ∧ a.iface = b.iface

/-- The invariant of the counters: `G` increments happened so far, `a` gives the
number of the next notification of a registration, `b` those of the notifications
sent. -/
structure CInv (cmp : E → E → Bool) (s : St E) (a : Nat → Nat) (b : List Nat) : Prop where
  inv : Inv cmp s
  len : b.length = s.log.length
  glob : s.g = val s.log.length
  obs : ∀ o ∈ s.obs, o.ctr = val (a o.id) ∧ a o.id ≤ s.log.length
  seq : ∀ (i : Nat) (e : Notif E) (k : Nat), s.log[i]? = some e → b[i]? = some k → e.seq = val k ∧ k < s.log.length ∧ e.id < s.nextId
  /-- a notification sent for a registration precedes the next one of any current
  registration of the same kind -/
  before : ∀ (i : Nat) (e : Notif E) (k : Nat), s.log[i]? = some e → b[i]? = some k → ∀ o ∈ s.obs, Key e o → k < a o.id
  /-- the order in which notifications were sent -/
  ordered : ∀ (i j : Nat) (e e' : Notif E) (k k' : Nat), i < j → s.log[i]? = some e → s.log[j]? = some e' → b[i]? = some k →
    b[j]? = some k' → Key2 e e' → k < k'
  /-- the last notification of a registration has the preceding number -/
  last : ∀ (i : Nat) (e : Notif E) (k : Nat), s.log[i]? = some e → b[i]? = some k →
    (∀ (j : Nat) (e' : Notif E), i < j → s.log[j]? = some e' → e'.id ≠ e.id) → ∀ o ∈ s.obs, o.id = e.id → a o.id = k + 1
  /-- consecutive notifications of a registration -/
  consec : ∀ (i j : Nat) (e e' : Notif E) (k k' : Nat), i < j → s.log[i]? = some e → s.log[j]? = some e' → b[i]? = some k →
    b[j]? = some k' → e.id = e'.id → (∀ (m : Nat) (e'' : Notif E), i < m → m < j → s.log[m]? = some e'' → e''.id ≠ e.id) →
    k' = k + 1

theorem cinv_init (cmp : E → E → Bool) : CInv cmp (init : St E) (fun _ => 0) [] := by
  refine ⟨inv_init cmp, rfl, rfl, ?_, ?_, ?_, ?_, ?_, ?_⟩ <;> simp [init]

theorem pairwise_not {α : Type} {R : α → α → Prop} (l : List α) {x y : α} (hx : x ∈ l) (hy : y ∈ l)
    (hne : x ≠ y) (h1 : R x y) (h2 : R y x) : ¬ l.Pairwise fun a b => ¬ R a b := by
  intro h
  induction l with
  | nil => cases hx
  | cons a t ih =>
    rw [List.pairwise_cons] at h
    rcases List.mem_cons.1 hx with rfl | hx'
    · rcases List.mem_cons.1 hy with rfl | hy'
      · exact hne rfl
      · exact h.1 y hy' h1
    · rcases List.mem_cons.1 hy with rfl | hy'
      · exact h.1 x hx' h2
      · exact ih hx' hy' h.2

/-- Events that only remove observers. -/
theorem CInv.sub {cmp : E → E → Bool} {s s' : St E} {a : Nat → Nat} {b : List Nat} (h : CInv cmp s a b)
    (i : Inv cmp s') (hs : ∀ o ∈ s'.obs, o ∈ s.obs) (hg : s'.g = s.g) (hl : s'.log = s.log)
    (hn : s'.nextId = s.nextId) : CInv cmp s' a b := by
  refine ⟨i, by rw [hl]; exact h.len, by rw [hg, hl]; exact h.glob, ?_, ?_, ?_, ?_, ?_, ?_⟩
  · intro o ho; rw [hl]; exact h.obs o (hs o ho)
  · rw [hl, hn]; exact h.seq
  · rw [hl]; intro i e k h1 h2 o ho; exact h.before i e k h1 h2 o (hs o ho)
  · rw [hl]; exact h.ordered
  · rw [hl]; intro i e k h1 h2 h3 o ho; exact h.last i e k h1 h2 h3 o (hs o ho)
  · rw [hl]; exact h.consec

theorem exec_cinv (cmp : E → E → Bool) (hrefl : ∀ e, cmp e e = true) (s : St E) (a : Nat → Nat) (b : List Nat) (h : CInv cmp s a b)
    (op : Op E) (hv : Valid s op) :
    ∃ s' a' b', exec cmp s op = .ok s' ∧ CInv cmp s' a' b' := by
  cases op with
  | addResource r u =>
    obtain ⟨s', e, i⟩ := exec_ok cmp s h.inv (.addResource r u) hv
    refine ⟨s', a, b, e, ?_⟩
    simp only [exec] at e
    injection e with e
    subst e
    exact h.sub i (fun _ h => h) rfl rfl rfl
  | register ep url iface token r =>
    obtain ⟨s', e, i, -, hg, hl, hn, ho⟩ := register_spec cmp s h.inv ep url iface token r hv
    refine ⟨s', fun x => if x = s.nextId then s.log.length else a x, b, e, ?_⟩
    have hmem : ∀ o ∈ s'.obs, (o ∈ s.obs ∧ o.id ≠ s.nextId) ∨ o = ⟨s.nextId, ep, url, iface, token, 0, r, s.g⟩ := by
      intro o hm
      rw [ho] at hm
      rcases List.mem_append.1 hm with hm | hm
      · have := (List.mem_filter.1 hm).1
        have h2 := h.inv.idLt o this
        exact .inl ⟨this, by omega⟩
      · exact .inr (List.mem_singleton.1 hm)
    refine ⟨i, by rw [hl]; exact h.len, by rw [hg, hl]; exact h.glob, ?_, ?_, ?_, ?_, ?_, ?_⟩
    · intro o hm
      rw [hl]
      rcases hmem o hm with ⟨h1, h2⟩ | rfl
      · simp only [if_neg h2]; exact h.obs o h1
      · simp only [if_true]; exact ⟨h.glob, Nat.le_refl _⟩
    · rw [hl, hn]
      intro i e k h1 h2
      have := h.seq i e k h1 h2
      exact ⟨this.1, this.2.1, by omega⟩
    · rw [hl]
      intro i e k h1 h2 o hm hk
      rcases hmem o hm with ⟨h3, h4⟩ | rfl
      · simp only [if_neg h4]; exact h.before i e k h1 h2 o h3 hk
      · simp only [if_true]; exact (h.seq i e k h1 h2).2.1
    · rw [hl]; exact h.ordered
    · rw [hl]
      intro i e k h1 h2 h3 o hm hid
      rcases hmem o hm with ⟨h4, h5⟩ | rfl
      · simp only [if_neg h5]; exact h.last i e k h1 h2 h3 o h4 hid
      · have := (h.seq i e k h1 h2).2.2
        simp only at hid; omega
    · rw [hl]; exact h.consec
  | byClient ep =>
    obtain ⟨s', e, i, f, o⟩ := byClient_spec cmp s h.inv ep
    exact ⟨s', a, b, e, h.sub i (fun q hq => by rw [o] at hq; exact (List.mem_filter.1 hq).1) f.g f.log f.nextId⟩
  | byToken ep t =>
    obtain ⟨s', e, i, f, o⟩ := byToken_spec cmp s h.inv ep t
    refine ⟨s', a, b, e, h.sub i (fun q hq => ?_) f.g f.log f.nextId⟩
    rw [o] at hq
    split at hq
    · exact hq
    · exact (List.mem_filter.1 hq).1
  | byMid ep t =>
    obtain ⟨s', e, i, f, o⟩ := byMid_spec cmp s h.inv ep t
    refine ⟨s', a, b, e, h.sub i (fun q hq => ?_) f.g f.log f.nextId⟩
    rw [o] at hq
    split at hq
    · exact hq
    · exact (List.mem_filter.1 hq).1
  | dosChange sel =>
    obtain ⟨s', e, i, f, o⟩ := dosChange_spec cmp s h.inv sel
    exact ⟨s', a, b, e, h.sub i (fun q hq => by rw [o] at hq; exact (List.mem_filter.1 hq).1) f.g f.log f.nextId⟩
  | freeAll =>
    obtain ⟨s', e, i, f, o⟩ := freeAll_spec cmp s h.inv
    exact ⟨s', a, b, e, h.sub i (fun q hq => by rw [o] at hq; cases hq) f.g f.log f.nextId⟩
  | delete r =>
    obtain ⟨u, hu⟩ := hv
    obtain ⟨s', e, i, -, -, o, hg, hl, hn⟩ := delete_spec cmp s h.inv r u hu
    exact ⟨s', a, b, e, h.sub i (fun q hq => by rw [o] at hq; exact (List.mem_filter.1 hq).1) hg hl hn⟩
  | notify id mid =>
    obtain ⟨s', e, i, h1⟩ := notify_spec cmp s h.inv id mid
    rcases h1 with ⟨rfl, -⟩ | ⟨o, ho, hid, rfl⟩
    · exact ⟨s', a, b, e, h⟩
    · refine ⟨_, fun x => if x = id then a id + 1 else a x, b ++ [a id], e, ?_⟩
      have hctr := h.obs o ho
      rw [hid] at hctr
      -- members of the new list
      have hmem : ∀ q ∈ s.obs.map (fun q => if q.id = id then { q with ctr := inc q.ctr, mid := mid } else q),
          ∃ p ∈ s.obs, q.id = p.id ∧ q.ep = p.ep ∧ q.url = p.url ∧ q.iface = p.iface ∧
            q.ctr = (if p.id = id then inc p.ctr else p.ctr) := by
        intro q hq
        obtain ⟨p, hp, rfl⟩ := List.mem_map.1 hq
        refine ⟨p, hp, ?_⟩
        by_cases e : p.id = id <;> simp [e]
      -- entries of the new log
      have hlog : ∀ (j : Nat) (e' : Notif E), (s.log ++ [⟨id, o.ep, o.url, o.iface, o.ctr⟩])[j]? = some e' →
          (j < s.log.length ∧ s.log[j]? = some e') ∨
            (j = s.log.length ∧ e' = ⟨id, o.ep, o.url, o.iface, o.ctr⟩) := by
        intro j e' hj
        rw [List.getElem?_append] at hj
        split at hj
        · exact .inl ⟨‹_›, hj⟩
        · right
          rw [List.getElem?_singleton] at hj
          split at hj
          · injection hj with hj; exact ⟨by omega, hj.symm⟩
          · cases hj
      have hb : ∀ (j k : Nat), (b ++ [a id])[j]? = some k →
          (j < s.log.length ∧ b[j]? = some k) ∨ (j = s.log.length ∧ k = a id) := by
        intro j k hj
        rw [List.getElem?_append] at hj
        have hlen := h.len
        split at hj
        · exact .inl ⟨by omega, hj⟩
        · right
          rw [List.getElem?_singleton] at hj
          split at hj
          · injection hj with hj; exact ⟨by omega, hj.symm⟩
          · cases hj
      have hidlt := h.inv.idLt o ho
      refine ⟨i, by simp [h.len], ?_, ?_, ?_, ?_, ?_, ?_, ?_⟩
      · simp only [List.length_append, List.length_singleton, h.glob, val_inc]
      · intro q hq
        obtain ⟨p, hp, h1, -, -, -, h5⟩ := hmem q hq
        have h6 := h.obs p hp
        rw [h5, h1]
        simp only [List.length_append, List.length_singleton]
        by_cases e : p.id = id
        · simp only [if_pos e]
          rw [h6.1, val_inc, e]
          rw [e] at h6; exact ⟨rfl, by omega⟩
        · simp only [if_neg e]; exact ⟨h6.1, by omega⟩
      · intro j e' k h1 h2
        simp only [List.length_append, List.length_singleton]
        rcases hlog j e' h1 with ⟨h3, h4⟩ | ⟨h3, rfl⟩ <;> rcases hb j k h2 with ⟨h5, h6⟩ | ⟨h5, rfl⟩
        · have := h.seq j e' k h4 h6; exact ⟨this.1, by omega, this.2.2⟩
        · omega
        · omega
        · exact ⟨hctr.1, by omega, by simp only; omega⟩
      · intro j e' k h1 h2 q hq hk
        obtain ⟨p, hp, q1, q2, q3, q4, -⟩ := hmem q hq
        have hkp : Key e' p := ⟨hk.1.trans q2, hk.2.1.trans q3, hk.2.2.trans q4⟩
        rw [q1]
        rcases hlog j e' h1 with ⟨h3, h4⟩ | ⟨h3, rfl⟩ <;> rcases hb j k h2 with ⟨h5, h6⟩ | ⟨h5, rfl⟩
        · have := h.before j e' k h4 h6 p hp hkp
          by_cases e : p.id = id
          · simp only [if_pos e]; rw [e] at this; omega
          · simp only [if_neg e]; exact this
        · omega
        · omega
        · by_cases e : p.id = id
          · simp only [if_pos e]; omega
          · simp only [if_neg e]
            -- two registrations of the same kind
            have hpo : p ≠ o := fun x => e (by rw [x]; exact hid)
            have h1 : Same cmp p o := by
              refine ⟨?_, hkp.2.1.symm, hkp.2.2.symm⟩
              have := hkp.1
              simp only at this
              rw [← this]; exact hrefl _
            have h2 : Same cmp o p := by
              refine ⟨?_, hkp.2.1, hkp.2.2⟩
              have := hkp.1
              simp only at this
              rw [← this]; exact hrefl _
            exact absurd (h.inv.uniq) (pairwise_not _ hp ho hpo h1 h2)
      · intro j j' e1 e2 k k' hlt h1 h2 h3 h4 hk
        rcases hlog j e1 h1 with ⟨a1, a2⟩ | ⟨a1, -⟩ <;> rcases hb j k h3 with ⟨b1, b2⟩ | ⟨b1, -⟩ <;>
          rcases hlog j' e2 h2 with ⟨c1, c2⟩ | ⟨c1, rfl⟩ <;> rcases hb j' k' h4 with ⟨d1, d2⟩ | ⟨d1, rfl⟩ <;>
          try omega
        · exact h.ordered j j' e1 e2 k k' hlt a2 c2 b2 d2 hk
        · have := h.before j e1 k a2 b2 o ho hk
          rw [hid] at this; exact this
      · intro j e1 k h1 h2 h3 q hq hqe
        obtain ⟨p, hp, q1, -, -, -, -⟩ := hmem q hq
        rw [q1]
        rw [q1] at hqe
        rcases hlog j e1 h1 with ⟨a1, a2⟩ | ⟨a1, rfl⟩ <;> rcases hb j k h2 with ⟨b1, b2⟩ | ⟨b1, rfl⟩ <;>
          try omega
        · have hne : id ≠ e1.id := by
            have := h3 s.log.length ⟨id, o.ep, o.url, o.iface, o.ctr⟩ a1 (by simp)
            exact this
          have e : p.id ≠ id := by omega
          simp only [if_neg e]
          refine h.last j e1 k a2 b2 ?_ p hp hqe
          intro j' e' hj he
          refine h3 j' e' hj ?_
          have : j' < s.log.length := by
            rw [List.getElem?_eq_some_iff] at he; exact he.1
          rw [List.getElem?_append_left this]; exact he
        · simp only at hqe
          simp only [if_pos hqe]
      · intro j j' e1 e2 k k' hlt h1 h2 h3 h4 hk hm
        rcases hlog j e1 h1 with ⟨a1, a2⟩ | ⟨a1, -⟩ <;> rcases hb j k h3 with ⟨b1, b2⟩ | ⟨b1, -⟩ <;>
          rcases hlog j' e2 h2 with ⟨c1, c2⟩ | ⟨c1, rfl⟩ <;> rcases hb j' k' h4 with ⟨d1, d2⟩ | ⟨d1, rfl⟩ <;>
          try omega
        · refine h.consec j j' e1 e2 k k' hlt a2 c2 b2 d2 hk ?_
          intro m e'' h5 h6 h7
          refine hm m e'' h5 h6 ?_
          rw [List.getElem?_append_left (by omega)]; exact h7
        · have := h.last j e1 k a2 b2 ?_ o ho (by simp only at hk; omega)
          · rw [hid] at this; exact this
          · intro m e' h5 h6
            have hml : m < s.log.length := by
              rw [List.getElem?_eq_some_iff] at h6; exact h6.1
            refine hm m e' h5 (by omega) ?_
            rw [List.getElem?_append_left hml]; exact h6

theorem run_cinv (cmp : E → E → Bool) (hrefl : ∀ e, cmp e e = true) (ops : List (Op E)) (s : St E)
    (a : Nat → Nat) (b : List Nat) (h : CInv cmp s a b) (hv : ValidRun cmp s ops) :
    ∃ s' a' b', run cmp s ops = .ok s' ∧ CInv cmp s' a' b' := by
  induction ops generalizing s a b with
  | nil => exact ⟨s, a, b, rfl, h⟩
  | cons o r ih =>
    obtain ⟨s1, a1, b1, e, i⟩ := exec_cinv cmp hrefl s a b h o hv.1
    obtain ⟨s2, a2, b2, e2, i2⟩ := ih s1 a1 b1 i (hv.2 s1 e)
    exact ⟨s2, a2, b2, by rw [run, e]; exact e2, i2⟩

/-- C50. Two consecutive notifications of a registration carry numbers of which
the second is newer, however many notifications were sent before. -/
theorem consecutive_newer (cmp : E → E → Bool) (hrefl : ∀ e, cmp e e = true) (ops : List (Op E))
    (hv : ValidRun cmp init ops) (s : St E) (hs : run cmp init ops = .ok s) (i j : Nat) (e e' : Notif E)
    (hij : i < j) (hi : s.log[i]? = some e) (hj : s.log[j]? = some e') (hid : e.id = e'.id)
    (hno : ∀ m e'', i < m → m < j → s.log[m]? = some e'' → e''.id ≠ e.id) : Newer e.seq e'.seq := by
  obtain ⟨s', a, b, h1, h⟩ := run_cinv cmp hrefl ops init _ _ (cinv_init cmp) hv
  rw [hs] at h1
  injection h1 with h1
  subst h1
  have hl := h.len
  obtain ⟨k, hk⟩ : ∃ k, b[i]? = some k := ⟨_, List.getElem?_eq_getElem (by
    rw [hl]; exact (List.getElem?_eq_some_iff.1 hi).1)⟩
  obtain ⟨k', hk'⟩ : ∃ k, b[j]? = some k := ⟨_, List.getElem?_eq_getElem (by
    rw [hl]; exact (List.getElem?_eq_some_iff.1 hj).1)⟩
  have := h.consec i j e e' k k' hij hi hj hk hk' hid hno
  rw [(h.seq i e k hi hk).1, (h.seq j e' k' hj hk').1, this]
  exact val_newer k (k + 1) (by omega) (by omega)

/-- C50. As long as the server sent fewer than 2^23 - 2 notifications in total, a
later notification to a client about a path and interface is newer than any
earlier one, also if the client registered anew in between. -/
theorem all_newer_partial (cmp : E → E → Bool) (hrefl : ∀ e, cmp e e = true) (ops : List (Op E))
    (hv : ValidRun cmp init ops) (s : St E) (hs : run cmp init ops = .ok s) (i j : Nat) (e e' : Notif E)
    (hij : i < j) (hi : s.log[i]? = some e) (hj : s.log[j]? = some e')
    (hkey : e.ep = e'.ep ∧ e.url = e'.url ∧ e.iface = e'.iface) (hb : s.log.length ≤ 2 ^ 23 - 2) :
    Newer e.seq e'.seq := by
  obtain ⟨s', a, b, h1, h⟩ := run_cinv cmp hrefl ops init _ _ (cinv_init cmp) hv
  rw [hs] at h1
  injection h1 with h1
  subst h1
  have hl := h.len
  obtain ⟨k, hk⟩ : ∃ k, b[i]? = some k := ⟨_, List.getElem?_eq_getElem (by
    rw [hl]; exact (List.getElem?_eq_some_iff.1 hi).1)⟩
  obtain ⟨k', hk'⟩ : ∃ k, b[j]? = some k := ⟨_, List.getElem?_eq_getElem (by
    rw [hl]; exact (List.getElem?_eq_some_iff.1 hj).1)⟩
  have h1 := h.ordered i j e e' k k' hij hi hj hk hk' hkey
  have h2 := h.seq i e k hi hk
  have h3 := h.seq j e' k' hj hk'
  rw [h2.1, h3.1]
  exact val_newer k k' h1 (by omega)

/-- Every number sent fits the three bytes of the option and is never 0 (register)
or 1 (unregister). -/
theorem seq_range (cmp : E → E → Bool) (hrefl : ∀ e, cmp e e = true) (ops : List (Op E))
    (hv : ValidRun cmp init ops) (s : St E) (hs : run cmp init ops = .ok s) (e : Notif E)
    (he : e ∈ s.log) : 2 ≤ e.seq ∧ e.seq < 2 ^ 24 := by
  obtain ⟨s', a, b, h1, h⟩ := run_cinv cmp hrefl ops init _ _ (cinv_init cmp) hv
  rw [hs] at h1
  injection h1 with h1
  subst h1
  obtain ⟨i, hi⟩ := List.getElem?_of_mem he
  have hl := h.len
  obtain ⟨k, hk⟩ : ∃ k, b[i]? = some k := ⟨_, List.getElem?_eq_getElem (by
    rw [hl]; exact (List.getElem?_eq_some_iff.1 hi).1)⟩
  rw [(h.seq i e k hi hk).1, val]
  omega

/-- A sequence of notifications to an observer with number 1. -/
theorem run_notify (cmp : E → E → Bool) (hrefl : ∀ e, cmp e e = true) (n : Nat) (s : St E) (a : Nat → Nat)
    (b : List Nat) (h : CInv cmp s a b) (ho : ∃ o ∈ s.obs, o.id = 1) :
    ∃ s' a' b', run cmp s (List.replicate n (.notify 1 0)) = .ok s' ∧ CInv cmp s' a' b' ∧
      s'.log.length = s.log.length + n ∧ s'.uri = s.uri ∧ s'.nextId = s.nextId ∧
      s'.obs.length = s.obs.length ∧ s'.log[0]? = (s.log ++ s'.log)[0]? := by
  induction n generalizing s a b with
  | zero =>
    refine ⟨s, a, b, rfl, h, rfl, rfl, rfl, rfl, ?_⟩
    cases s.log <;> rfl
  | succ n ih =>
    obtain ⟨s1, a1, b1, e1, h1⟩ := exec_cinv cmp hrefl s a b h (.notify 1 0) trivial
    obtain ⟨s1', e1', -, h2⟩ := notify_spec cmp s h.inv 1 0
    rw [e1] at e1'
    injection e1' with e1'
    subst e1'
    rcases h2 with ⟨-, h2⟩ | ⟨o, ho', hid, h2⟩
    · obtain ⟨o, hm, hid⟩ := ho
      exact absurd hid (h2 o hm)
    · have hin : ∃ q ∈ s1.obs, q.id = 1 := by
        rw [h2]
        exact ⟨_, List.mem_map.2 ⟨o, ho', rfl⟩, by simp [hid]⟩
      obtain ⟨s2, a2, b2, e2, c2, l2, u2, n2, o2, g2⟩ := ih s1 a1 b1 h1 hin
      refine ⟨s2, a2, b2, ?_, c2, ?_, by rw [u2, h2], by rw [n2, h2], by rw [o2, h2]; simp, ?_⟩
      · rw [List.replicate_succ, run, e1]; exact e2
      · rw [l2, h2]; simp only [List.length_append, List.length_singleton]; omega
      · rw [g2, h2]
        cases hl : s.log with
        | nil =>
          have hg := g2
          rw [h2, hl] at hg
          simp only [List.nil_append, List.cons_append] at hg ⊢
          exact hg.symm
        | cons x t => rfl

/-- Registering and notifying: the first number is the global counter. -/
theorem register_notify (cmp : E → E → Bool) (s : St E) (a : Nat → Nat)
    (b : List Nat) (h : CInv cmp s a b) (ep : E) (url : List UInt8) (iface : Nat) (token : List UInt8)
    (r : Nat) (hv : Valid s (.register ep url iface token r)) :
    ∃ s', run cmp s [.register ep url iface token r, .notify s.nextId 0] = .ok s' ∧
      s'.log = s.log ++ [⟨s.nextId, ep, url, iface, val s.log.length⟩] := by
  obtain ⟨s1, e1, i1, -, hg, hl, -, ho⟩ := register_spec cmp s h.inv ep url iface token r hv
  obtain ⟨s2, e2, -, h2⟩ := notify_spec cmp s1 i1 s.nextId 0
  have hmem : (⟨s.nextId, ep, url, iface, token, 0, r, s.g⟩ : Obs E) ∈ s1.obs := by
    rw [ho]; exact List.mem_append_right _ (List.mem_singleton.2 rfl)
  refine ⟨s2, by rw [run, e1]; show (exec cmp s1 _).bind _ = _; rw [e2]; rfl, ?_⟩
  rcases h2 with ⟨-, h2⟩ | ⟨o, ho', hid, rfl⟩
  · exact absurd rfl (h2 _ hmem)
  · have : o = ⟨s.nextId, ep, url, iface, token, 0, r, s.g⟩ := eq_of_id i1.ids ho' hmem hid
    subst this
    simp only [hl, h.glob]

/-- The bound is needed: after 2^23 notifications to another client, a new
registration starts with a number that is not newer than the one of the last
notification this client received. -/
theorem stale_of (N : Nat) (hN : N = 2 ^ 23) : ∃ (ops : List (Op Nat)) (s : St Nat),
    run (fun a b : Nat => a == b) init ops = .ok s ∧
    ∃ (i j : Nat) (e e' : Notif Nat), i < j ∧ s.log[i]? = some e ∧ s.log[j]? = some e' ∧
      (e.ep = e'.ep ∧ e.url = e'.url ∧ e.iface = e'.iface) ∧ ¬ Newer e.seq e'.seq := by
  have hrefl : ∀ e : Nat, (fun a b : Nat => a == b) e e = true := by simp
  let ops1 : List (Op Nat) := [.addResource 0 pathA, .register 1 [97] 0 [1] 0, .register 2 [97] 0 [2] 0,
    .notify 0 0]
  have hv1 : ValidRun (fun a b : Nat => a == b) init ops1 := by
    simp [ValidRun, ops1, Valid, exec, init, add, removeBy, removeLoop, Out.bind,
      pathA, stripSlash, countRes]
  obtain ⟨s1, a1, b1, e1, c1⟩ := run_cinv _ hrefl ops1 init _ _ (cinv_init _) hv1
  have hs1 : ∃ s, run (fun a b : Nat => a == b) init ops1 = .ok s ∧ (∃ o ∈ s.obs, o.id = 1) ∧
      s.log = [⟨0, 1, [97], 0, 2⟩] ∧ s.uri 0 = some pathA ∧ s.obs.length = 2 ∧ s.nextId = 2 :=
    ⟨_, rfl, ⟨_, List.mem_cons_of_mem _ (List.mem_cons_self ..), rfl⟩, rfl, rfl, rfl, rfl⟩
  obtain ⟨s1', e1', ho, hlog, huri, hlen, hnx⟩ := hs1
  rw [e1] at e1'
  injection e1' with e1'
  subst e1'
  obtain ⟨s2, a2, b2, e2, c2, l2, u2, n2, o2, g2⟩ := run_notify _ hrefl N s1 a1 b1 c1 ho
  obtain ⟨s3, e3, l3⟩ := register_notify _ s2 a2 b2 c2 1 [97] 0 [3] 0 ⟨⟨pathA, by rw [u2, huri], by decide⟩, by
    have : countRes s2.obs 0 ≤ s2.obs.length := List.countP_le_length
    omega⟩
  rw [hlog] at l2 g2
  have hlen2 : s2.log.length = N + 1 := by rw [l2]; simp only [List.length_singleton]; try omega
  refine ⟨ops1 ++ (List.replicate N (.notify 1 0) ++ [.register 1 [97] 0 [3] 0, .notify 2 0]), s3, ?_,
    0, s2.log.length, ⟨0, 1, [97], 0, 2⟩, ⟨2, 1, [97], 0, val s2.log.length⟩, by omega, ?_, ?_,
    ⟨rfl, rfl, rfl⟩, ?_⟩
  · rw [run_append, e1]
    show run _ s1 _ = _
    rw [run_append, e2]
    show run _ s2 _ = _
    rw [n2, hnx] at e3
    exact e3
  · rw [l3, List.getElem?_append_left (by omega), g2]; rfl
  · rw [l3, List.getElem?_append_right (Nat.le_refl _), Nat.sub_self, n2, hnx]; rfl
  · simp only [hlen2]
    unfold Newer val
    omega

/-- C50 fails across registrations: after about 2^23 notifications to one client a
new registration of the same client starts at a number that the client takes for an
older one, so it discards the newer content. -/
theorem reregistration_stale_false : ∃ (ops : List (Op Nat)) (s : St Nat),
    run (fun a b : Nat => a == b) init ops = .ok s ∧
    ∃ (i j : Nat) (e e' : Notif Nat), i < j ∧ s.log[i]? = some e ∧ s.log[j]? = some e' ∧
      (e.ep = e'.ep ∧ e.url = e'.url ∧ e.iface = e'.iface) ∧ ¬ Newer e.seq e'.seq :=
  stale_of _ rfl

example : ∃ s, run (fun a b : Nat => a == b) init exOps = .ok s ∧ s.log.length = 2 :=
  ⟨_, rfl, by decide⟩

end Verif.Observe
