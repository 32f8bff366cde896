import Verif.Ri.DiLemmas

/-! Lemmas about the lookup and the treatment of a request. -/

namespace Verif.Ri

open Verif.Rep (Bytes b)
open Spec

/-! ### Lookup -/

theorem find_strip (c : Core) (u v : Bytes) (dev : Nat) (h : strip1 u = strip1 v) :
    c.find u dev = c.find v dev := by
  unfold Core.find
  rw [h]

theorem strip_proper (t : Bytes) : strip1 (slash :: t) = t := by
  simp [strip1]

theorem strip_plain (t : Bytes) (h : t.head? ≠ some slash) : strip1 t = t := by
  cases t with
  | nil => rfl
  | cons c r =>
    simp only [List.head?_cons, ne_eq, Option.some.injEq] at h
    simp [strip1, h]

theorem appSame_iff (uri : Bytes) (hu : uri ≠ []) (dev : Nat) (r : Res) (hr : Proper r.uri) :
    appSame uri dev r = true ↔ r.dev = dev ∧ r.uri = slash :: strip1 uri := by
  obtain ⟨t, ht, htn⟩ := hr
  cases uri with
  | nil => exact absurd rfl hu
  | cons c v =>
    unfold appSame
    by_cases hc : c = slash
    · subst hc
      simp only [if_true, ht, List.drop_zero, List.length_cons, strip1, Bool.and_eq_true, beq_iff_eq,
        List.cons.injEq, true_and]
      constructor
      · rintro ⟨⟨_, h⟩, hd⟩
        exact ⟨hd, h.symm⟩
      · rintro ⟨hd, rfl⟩
        exact ⟨⟨by simp, rfl⟩, hd⟩
    · simp only [hc, if_false, ht, List.drop_succ_cons, List.drop_zero, List.length_cons, strip1,
        Bool.and_eq_true, beq_iff_eq, List.cons.injEq, true_and]
      constructor
      · rintro ⟨⟨_, h⟩, hd⟩
        exact ⟨hd, h.symm⟩
      · rintro ⟨hd, rfl⟩
        exact ⟨⟨by simp, rfl⟩, hd⟩

theorem sameTail_bare (p : Bytes) (dev : Nat) (r : Res) (hr : Proper r.uri) :
    sameTail (some p) dev r = true ↔ r.dev = dev ∧ r.uri = slash :: p := by
  obtain ⟨t, ht, htn⟩ := hr
  unfold sameTail
  rw [ht]
  simp only [List.length_cons, List.drop_succ_cons, List.drop_zero, Bool.and_eq_true, beq_iff_eq,
    List.cons.injEq, true_and]
  constructor
  · rintro ⟨h, _, h'⟩
    exact ⟨h, h'⟩
  · rintro ⟨h, rfl⟩
    exact ⟨h, rfl, rfl⟩

theorem uniq_eq {l : List Res} (h : Uniq l) {x y : Res} (hx : x ∈ l) (hy : y ∈ l)
    (hd : x.dev = y.dev) (hu : x.uri = y.uri) : x = y := by
  induction l with
  | nil => cases hx
  | cons a l ih =>
    have h' := List.pairwise_cons.1 h
    rcases List.mem_cons.1 hx with rfl | hx <;> rcases List.mem_cons.1 hy with rfl | hy
    · rfl
    · exact absurd ⟨hd, hu⟩ (h'.1 y hy)
    · next hx' => exact absurd ⟨hd.symm, hu.symm⟩ (h'.1 x hx')
    · exact ih h'.2 hx hy

theorem lookup_sound_aux (c : Core) (s : Reg) (hi : Inv c s) (uri after : Bytes) (dev : Nat) (r : Res)
    (h : lookup c s uri after dev = .ok (some r)) :
    c.find uri dev = some r ∨
    (c.find uri dev = none ∧ r ∈ s.app ++ s.cols ∧ r.dev = dev ∧ (r.uri = slash :: strip1 uri ∨ r.uri = slash :: bare uri)) := by
  unfold lookup at h
  cases hc : c.find uri dev with
  | some x =>
    rw [hc] at h
    exact Or.inl (by cases h; rfl)
  | none =>
    rw [hc] at h
    right
    refine ⟨rfl, ?_⟩
    dsimp only at h
    unfold appFind at h
    by_cases hu : uri.length = 0
    · rw [if_pos hu] at h
      cases h
    · rw [if_neg hu] at h
      have hne : uri ≠ [] := fun e => hu (by rw [e]; rfl)
      cases hf : s.app.find? (appSame uri dev) with
      | some x =>
        rw [hf] at h
        have hx : x = r := by cases h; rfl
        subst hx
        have hm := List.mem_of_find?_eq_some hf
        have := (appSame_iff uri hne dev x (hi.proper x (by simp [hm]))).1 (List.find?_some hf)
        exact ⟨by simp [hm], this.1, Or.inl this.2⟩
      | none =>
        rw [hf] at h
        dsimp only at h
        unfold colFind at h
        cases hs : skipAll uri after with
        | ub => rw [hs] at h; cases h
        | ok p =>
          rw [hs] at h
          have h : s.cols.find? (sameTail p dev) = some r := by
            simp only [Out.bind] at h
            cases h' : s.cols.find? (sameTail p dev) with
            | none => rw [h'] at h; cases h
            | some y => rw [h'] at h; cases h; rfl
          have hm := List.mem_of_find?_eq_some h
          rcases skipAll_val uri after p hs with rfl | rfl
          · have := List.find?_some h
            simp [sameTail] at this
          · have := (sameTail_bare (bare uri) dev r (hi.proper r (by simp [hm]))).1 (List.find?_some h)
            exact ⟨by simp [hm], this.1, Or.inr this.2⟩

theorem lookup_complete_aux (c : Core) (s : Reg) (hi : Inv c s) (after : Bytes) (r : Res)
    (hr : r ∈ s.app ++ s.cols) (t : Bytes) (ht : r.uri = slash :: t) (hne : t ≠ [])
    (uri : Bytes) (hu : uri = t ∨ uri = slash :: t) :
    lookup c s uri after r.dev = .ok (some r) := by
  have hp : Proper r.uri := hi.proper r (by
    rcases List.mem_append.1 hr with h | h <;> simp [h])
  have hth : t.head? ≠ some slash := by
    obtain ⟨v, hv, hv'⟩ := hp
    rw [ht] at hv
    injection hv with _ e
    rw [e]; exact hv'
  have hst : strip1 uri = t := by
    rcases hu with rfl | rfl
    · exact strip_plain _ hth
    · exact strip_proper t
  have hb : bare uri = t := by
    rcases hu with rfl | rfl
    · exact bare_plain _ hth
    · exact bare_proper t hth
  have hune : uri ≠ [] := by
    intro e
    rw [e] at hst
    exact hne hst.symm
  have hc : c.find uri r.dev = none := by
    rw [find_strip c uri r.uri r.dev (by rw [hst, ht, strip_proper])]
    exact hi.core r hr
  unfold lookup
  rw [hc]
  dsimp only
  unfold appFind
  rw [if_neg (fun e => hune (List.length_eq_zero_iff.1 e))]
  cases hf : s.app.find? (appSame uri r.dev) with
  | some x =>
    have hm := List.mem_of_find?_eq_some hf
    have := (appSame_iff uri hune r.dev x (hi.proper x (by simp [hm]))).1 (List.find?_some hf)
    have he : x = r := uniq_eq hi.uniq (by simp [hm]) hr this.1 (by rw [this.2, ht, hst])
    rw [he]
  | none =>
    dsimp only
    unfold colFind
    rw [skipAll_some uri after (by rw [hb]; exact hne), hb]
    show Out.ok (s.cols.find? (sameTail (some t) r.dev)) = _
    congr 1
    cases hg : s.cols.find? (sameTail (some t) r.dev) with
    | some x =>
      have hm := List.mem_of_find?_eq_some hg
      have := (sameTail_bare t r.dev x (hi.proper x (by simp [hm]))).1 (List.find?_some hg)
      rw [uniq_eq hi.uniq (by simp [hm]) hr this.1 (by rw [this.2, ht])]
    | none =>
      exfalso
      rcases List.mem_append.1 hr with h | h
      · have := List.find?_eq_none.1 hf r h
        exact this ((appSame_iff uri hune r.dev r hp).2 ⟨rfl, by rw [ht, hst]⟩)
      · have := List.find?_eq_none.1 hg r h
        exact this ((sameTail_bare t r.dev r hp).2 ⟨rfl, ht⟩)

theorem lookup_ok (c : Core) (s : Reg) (uri after : Bytes) (dev : Nat) (h : bare uri ≠ []) :
    ∃ x, lookup c s uri after dev = .ok x := by
  unfold lookup
  cases c.find uri dev with
  | some r => exact ⟨_, rfl⟩
  | none =>
    dsimp only
    unfold appFind
    split
    · exact ⟨_, rfl⟩
    · cases s.app.find? (appSame uri dev) with
      | some r => exact ⟨_, rfl⟩
      | none =>
        dsimp only
        unfold colFind
        rw [skipAll_some uri after h]
        exact ⟨_, rfl⟩

/-! ### The checks -/

/-- The refusal of a request is unique. -/
theorem refused_unique (e : Env) (q : Req) (res : Option Res) (i : BitVec 32) (x y : Option Nat)
    (hx : Refused e q res i x) (hy : Refused e q res i y) : x = y := by
  cases hx <;> cases hy <;> simp_all

/-- The code of the mask. -/
def maskRefusal (m : Mask) : Option Nat := if m.success then none else some m.status

theorem headerMask_eq (e : Env) (q : Req) (r : Res) (bad : Bool)
    (h : (decide (ifaceOf q r &&& ~~~ r.ifaces ≠ 0) || !maskAllows (ifaceOf q r) q.method) = bad) :
    headerMask e q (some r) =
      { bad := bad || (!bad && !cfSupported q.cf), forbidden := bad
        noMethod := !bad && !(!bad && !cfSupported q.cf) && !r.coll && !(r.has q.method)
        unauth := !e.acl r q.method } := by
  subst h; rfl

theorem header_refused (e : Env) (q : Req) (res : Option Res) (i : BitVec 32)
    (hi : ∀ r, res = some r → i = ifaceOf q r) :
    Refused e q res i (maskRefusal (headerMask e q res)) := by
  cases res with
  | none => exact .notFound i
  | some r =>
    have hi := hi r rfl
    by_cases hb : ∃ j : Iface, i = j.bit ∧ r.ifaces &&& j.bit = j.bit ∧ allows j q.method
    · have hb' : (decide (ifaceOf q r &&& ~~~ r.ifaces ≠ 0) || !maskAllows (ifaceOf q r) q.method) = false := by
        rw [← Bool.not_eq_true, badIface_iff]
        intro h
        exact h (by rw [← hi]; exact hb)
      cases ha : e.acl r q.method with
      | false =>
        have : maskRefusal (headerMask e q (some r)) = some 129 := by
          rw [headerMask_eq e q r _ hb']
          unfold maskRefusal
          simp [ha, Mask.success, Mask.status, c401]
        rw [this]
        exact .denied r i hb ha
      | true =>
        by_cases hc : readable q.cf
        · have hc' := (cf_iff q.cf).2 hc
          by_cases hm : r.coll = true ∨ r.has q.method = true
          · have : maskRefusal (headerMask e q (some r)) = none := by
              rw [headerMask_eq e q r _ hb']
              unfold maskRefusal
              rcases hm with h | h <;> simp [ha, hc', h, Mask.success]
            rw [this]
            exact .allowed r i hb ha hc hm
          · have hm' : r.coll = false ∧ r.has q.method = false := by
              constructor
              · cases h : r.coll <;> simp_all
              · cases h : r.has q.method <;> simp_all
            have : maskRefusal (headerMask e q (some r)) = some 133 := by
              rw [headerMask_eq e q r _ hb']
              unfold maskRefusal
              simp [ha, hc', hm'.1, hm'.2, Mask.success, Mask.status, c405]
            rw [this]
            exact .method r i hb ha hc hm'
        · have hc' : cfSupported q.cf = false := by
            rw [← Bool.not_eq_true, cf_iff]
            exact hc
          have : maskRefusal (headerMask e q (some r)) = some 128 := by
            rw [headerMask_eq e q r _ hb']
            unfold maskRefusal
            simp [ha, hc', Mask.success, Mask.status, c400]
          rw [this]
          exact .format r i hb ha hc
    · have hb' : (decide (ifaceOf q r &&& ~~~ r.ifaces ≠ 0) || !maskAllows (ifaceOf q r) q.method) = true := by
        rw [badIface_iff, ← hi]
        exact hb
      have : maskRefusal (headerMask e q (some r)) = some 131 := by
        rw [headerMask_eq e q r _ hb']
        unfold maskRefusal
        simp [Mask.success, Mask.status, c403]
      rw [this]
      exact .iface r i hb

theorem headerMask_notModified (e : Env) (q : Req) (res : Option Res) :
    (headerMask e q res).notModified = false := by
  cases res <;> rfl

theorem status_ge (m : Mask) (h : m.success = false) : c400 ≤ m.status := by
  unfold Mask.success at h
  unfold Mask.status c400 c401 c403 c404 c405 c413
  repeat' split
  all_goals first | decide | (exfalso; simp_all)

theorem status_lt (m : Mask) (h : m.success = true) : m.status < c400 := by
  unfold Mask.success at h
  simp only [Bool.and_eq_true, Bool.not_eq_true'] at h
  obtain ⟨⟨⟨⟨⟨h1, h2⟩, h3⟩, h4⟩, h5⟩, h6⟩ := h
  unfold Mask.status
  rw [h1, h2, h3, h4, h5, h6]
  simp only [Bool.false_eq_true, if_false]
  split <;> decide

/-- The device a multicast request means. -/
def meant (e : Env) (q : Req) : Prop := q.mcast = true → selects (e.di q.dev) q.query

theorem header_drop (e : Env) (q : Req) (res : Option Res) (hd : (e.di q.dev).length = 36)
    (hv : q.mcast = true → DiValued q.query) (h : ¬ meant e q) : header e q res = .ok .drop := by
  unfold meant at h
  have hm : q.mcast = true := by
    cases hm : q.mcast with
    | true => rfl
    | false => exact absurd (fun x => by rw [hm] at x; cases x) h
  have hs : ¬ selects (e.di q.dev) q.query := fun x => h fun _ => x
  have hq : q.query.length ≠ 0 := by
    intro e'
    have : q.query = [] := List.length_eq_zero_iff.1 e'
    apply hs
    rw [this]
    exact Or.inl (hits_nil (b "di") di_key.2.1)
  obtain ⟨x, hx, hx'⟩ := diFilter_spec (e.di q.dev) q.query hd (hv hm)
  have : x = false := by
    cases x with
    | false => rfl
    | true => exact absurd (hx'.1 rfl) hs
  subst this
  unfold header
  rw [if_pos (by simp [hq, hm]), hx]
  rfl

theorem header_meant (e : Env) (q : Req) (res : Option Res) (hd : (e.di q.dev).length = 36)
    (hv : q.mcast = true → DiValued q.query) (h : meant e q) :
    header e q res = .ok (match maskRefusal (headerMask e q res) with
      | none => .go
      | some c => if q.mcast then .drop else .refuse c) := by
  have key : (if q.query.length ≠ 0 && q.mcast then diFilter (e.di q.dev) q.query else .ok true) = Out.ok true := by
    split
    · next hc =>
      have hm : q.mcast = true := by
        simp only [Bool.and_eq_true] at hc
        exact hc.2
      obtain ⟨x, hx, hx'⟩ := diFilter_spec (e.di q.dev) q.query hd (hv hm)
      rw [hx, hx'.2 (h hm)]
    · rfl
  unfold header
  rw [key]
  show (if (!true) = true then Out.ok Verdict.drop else _) = _
  rw [if_neg (by decide)]
  dsimp only
  unfold maskRefusal
  cases hs : (headerMask e q res).success with
  | true =>
    have h1 := status_lt _ hs
    have h2 : (q.mcast && decide ((headerMask e q res).status ≥ c400)) = false := by
      rw [Bool.and_eq_false_iff]
      exact Or.inr (decide_eq_false (by omega))
    rw [h2]
    rfl
  | false =>
    have h1 := status_ge _ hs
    have h2 : decide ((headerMask e q res).status ≥ c400) = true := decide_eq_true h1
    rw [h2]
    cases hm : q.mcast <;> rfl

/-! ### The handler -/

theorem entity_ran (e : Env) (q : Req) (r : Res) (p : Bytes) :
    (entity e q r p).ran =
      ((if (setEtag e q r (ifaceOf q r)).1.zero then invoke e q r (ifaceOf q r) p
        else ((setEtag e q r (ifaceOf q r)).1, none)).2).map fun _ => (r, q.method, ifaceOf q r) := rfl

theorem etag_zero_iff (e : Env) (q : Req) (r : Res) (i : BitVec 32) (hm : r.coll = true ∨ r.has q.method = true) :
    (setEtag e q r i).1.zero = true ↔
      (q.method = .get → i = Iface.b.bit → e.noBatch r = false) ∧
      (q.method = .get → q.etag.length = 8 → e.etag r (i == Iface.b.bit) ≠ 0 →
        ¬ q.etag = (List.range 8).map fun k => UInt8.ofNat (e.etag r (i == Iface.b.bit) / 256 ^ k % 256)) := by
  unfold setEtag
  by_cases hg : q.method = .get
  · have h0 : (q.method == .get && (r.coll || r.has .get)) = true := by
      rw [hg] at hm
      simp only [hg, beq_self_eq_true, Bool.true_and, Bool.or_eq_true]
      exact hm
    rw [if_neg (by rw [h0]; decide)]
    dsimp only
    by_cases hb : ((i == Iface.b.bit) && e.noBatch r) = true
    · rw [if_pos hb]
      simp only [Bool.and_eq_true, beq_iff_eq] at hb
      constructor
      · intro h; cases h
      · rintro ⟨h, _⟩
        rw [h hg hb.1] at hb
        exact Bool.noConfusion hb.2
    · rw [if_neg hb]
      have hb' : q.method = .get → i = Iface.b.bit → e.noBatch r = false := by
        intro _ hi
        cases hn : e.noBatch r with
        | false => rfl
        | true => exact absurd (by simp [hi, hn]) hb
      by_cases ht : e.etag r (i == Iface.b.bit) = 0
      · rw [if_pos ht]
        refine ⟨fun _ => ⟨hb', fun _ _ h => absurd ht h⟩, fun _ => rfl⟩
      · rw [if_neg ht]
        show (Mask.zero _) = true ↔ _
        unfold Mask.zero
        simp only [Bool.not_false, Bool.and_true, Bool.not_eq_true']
        rw [← Bool.not_eq_true, beq_iff_eq]
        constructor
        · intro h
          exact ⟨hb', fun _ _ _ => h⟩
        · rintro ⟨_, h⟩ he
          exact h hg (by rw [he]; simp) ht he
  · rw [if_pos (by simp [hg])]
    exact ⟨fun _ => ⟨fun h => absurd h hg, fun h => absurd h hg⟩, fun _ => rfl⟩

theorem invoke_ran_iff (e : Env) (q : Req) (r : Res) (i : BitVec 32) (p : Bytes)
    (hm : r.coll = true ∨ r.has q.method = true) (hc : cfSupported q.cf = true) :
    (invoke e q r i p).2.isSome = true ↔ e.alloc = true ∧ (p = [] ∨ e.decode p = .ok) := by
  unfold invoke
  cases ha : e.alloc with
  | false => simp
  | true =>
    simp only [Bool.not_true, Bool.false_eq_true, if_false, true_and]
    have hz : (payloadMask e q p).zero = true ↔ (p = [] ∨ e.decode p = .ok) := by
      unfold payloadMask
      by_cases hp : p.length = 0
      · rw [if_pos hp]
        exact ⟨fun _ => Or.inl (List.length_eq_zero_iff.1 hp), fun _ => rfl⟩
      · rw [if_neg hp, hc]
        have hpn : p ≠ [] := fun e => hp (by rw [e]; rfl)
        simp only [Bool.not_true, Bool.false_eq_true, if_false]
        cases hd : e.decode p <;> simp [Mask.zero, hpn]
    by_cases h : (payloadMask e q p).zero = true
    · rw [if_neg (by rw [h]; decide)]
      rw [hz] at h
      refine ⟨fun _ => h, fun _ => ?_⟩
      cases hcl : r.coll with
      | true => rfl
      | false =>
        rw [hcl] at hm
        have hh : r.has q.method = true := by
          rcases hm with h | h
          · cases h
          · exact h
        rw [hh]
        rfl
    · rw [if_pos (by simpa using h)]
      constructor
      · intro x; cases x
      · intro x; exact absurd (hz.2 x) h

end Verif.Ri
