import Verif.Collection.LinkProps

/-!
Requests to a collection.
-/

namespace Verif.Collection

open Verif.Rep (Bytes b)
open Verif.Ri (Method Iface)

/-! ### Helpers -/

theorem AllLegit.refl (env : Env) (q : Req) (log : Log) : AllLegit env q log log :=
  ⟨[], by simp, fun pre e post h => by simp at h⟩

theorem AllLegit.snoc {env : Env} {q : Req} {log log' : Log} {e : Ev} (h : AllLegit env q log log')
    (he : Legit env q log' e) : AllLegit env q log (log' ++ [e]) := by
  obtain ⟨new, rfl, hn⟩ := h
  refine ⟨new ++ [e], by simp, ?_⟩
  intro pre e' post heq
  rcases List.append_eq_append_iff.1 heq with ⟨as, h1, h2⟩ | ⟨bs, h1, h2⟩
  · cases as with
    | nil =>
      simp only [List.append_nil, List.nil_append, List.cons.injEq] at h1 h2
      rw [← h2.1, h1]; exact he
    | cons a as => simp at h2
  · cases bs with
    | nil =>
      simp only [List.append_nil, List.nil_append, List.cons.injEq] at h1 h2
      rw [h2.1, ← h1]; exact he
    | cons x bs =>
      simp only [List.cons_append, List.cons.injEq] at h2
      exact hn pre e' bs (by rw [h1, h2.1])

theorem AllLegit.trans {env : Env} {q : Req} {l1 l2 l3 : Log} (h1 : AllLegit env q l1 l2) (h2 : AllLegit env q l2 l3) :
    AllLegit env q l1 l3 := by
  obtain ⟨n1, rfl, k1⟩ := h1
  obtain ⟨n2, rfl, k2⟩ := h2
  refine ⟨n1 ++ n2, by simp, ?_⟩
  intro pre e post heq
  rcases List.append_eq_append_iff.1 heq with ⟨as, h1, h2⟩ | ⟨bs, h1, h2⟩
  · have := k2 as e post h2
    rw [h1]; simpa using this
  · cases bs with
    | nil =>
      have := k2 [] e post (by simpa using h2.symm)
      rw [List.append_nil] at h1 this; rw [← h1]; exact this
    | cons x bs =>
      simp only [List.cons_append, List.cons.injEq] at h2
      exact k1 pre e bs (by rw [h1, h2.1])

theorem bind_ok {α β : Type} {x : Out α} {f : α → Out β} {y : β} (h : x.bind f = .ok y) :
    ∃ a, x = .ok a ∧ f a = .ok y := by
  cases x with
  | ok a => exact ⟨a, rfl, h⟩
  | ub => cases h

theorem note_log (a : Acc) (log : Log) (c : Nat) : (a.note log c).log = log := by
  unfold Acc.note; split <;> rfl

theorem note_ok (a : Acc) (log : Log) (c : Nat) : (a.note log c).ok = a.ok := by
  unfold Acc.note; split <;> rfl

theorem rtOk_iff (rts types : List Bytes) : rtOk rts types = true ↔ Wanted rts types := by
  unfold rtOk Wanted
  simp only [Bool.or_eq_true, List.isEmpty_iff, List.any_eq_true, beq_iff_eq]
  constructor
  · rintro (h | ⟨t, ht, r, hr, rfl⟩)
    · exact .inl h
    · exact .inr ⟨_, ht, hr⟩
  · rintro (h | ⟨t, ht, hr⟩)
    · exact .inl h
    · exact .inr ⟨t, ht, t, hr, rfl⟩

/-! ### Only what is permitted -/

theorem oneLink_legit (env : Env) (sub : Nat → Log → Out (Bool × Log)) (q : Req) (col : Nat) (payload : Option Nat)
    (a a' : Acc) (r : Nat) (hsub : ∀ r log x, sub r log = .ok x → AllLegit env q log x.2)
    (hr : r ∈ (env.world col).links) (h : oneLink env sub q col payload a r = .ok a') :
    AllLegit env q a.log a'.log := by
  unfold oneLink at h
  split at h
  · cases h
    rw [note_log]; exact (AllLegit.refl env q a.log).snoc trivial
  · rename_i hacl
    split at h
    · unfold nested at h
      obtain ⟨x, hx, h⟩ := bind_ok h
      have := hsub r a.log x hx
      split at h
      · cases h; rw [note_log]; exact this
      · cases h; exact this
    · split at h
      · cases h; exact (AllLegit.refl env q a.log).snoc trivial
      · rename_i hh
        cases h
        rw [note_log]
        refine (AllLegit.refl env q a.log).snoc ⟨rfl, by simpa using hh, ?_, ⟨col, hr⟩, ?_, rfl⟩
        · intro ho; rw [ho] at hacl; simpa using hacl
        · unfold ifaceFor; split
          · exact .inr rfl
          · exact .inl rfl

theorem links_legit (env : Env) (sub : Nat → Log → Out (Bool × Log)) (q : Req) (notify : Option Nat) (href : Bytes)
    (col : Nat) (payload : Option Nat) (hsub : ∀ r log x, sub r log = .ok x → AllLegit env q log x.2) :
    ∀ (l : List Nat) (a a' : Acc), (∀ r ∈ l, r ∈ (env.world col).links) →
      links env sub q notify href col payload a l = .ok a' → AllLegit env q a.log a'.log := by
  intro l; induction l with
  | nil => intro a a' _ h; cases h; exact AllLegit.refl _ _ _
  | cons r l ih =>
    intro a a' hl h
    unfold links at h
    split at h
    · obtain ⟨a1, h1, h⟩ := bind_ok h
      have k1 := oneLink_legit env sub q col payload a a1 r hsub (hl r (by simp)) h1
      split at h
      · exact k1.trans (ih a1 a' (fun r hr => hl r (by simp [hr])) h)
      · cases h; exact k1
    · exact ih a a' (fun r hr => hl r (by simp [hr])) h

theorem elems_legit (env : Env) (sub : Nat → Log → Out (Bool × Log)) (q : Req) (notify : Option Nat) (col : Nat)
    (hsub : ∀ r log x, sub r log = .ok x → AllLegit env q log x.2) :
    ∀ (l : List Elem) (p : Option Nat) (a a' : Acc), elems env sub q notify col p a l = .ok a' →
      AllLegit env q a.log a'.log := by
  intro l; induction l with
  | nil => intro p a a' h; cases h; exact AllLegit.refl _ _ _
  | cons x l ih =>
    intro p a a' h
    cases x with
    | other => cases h; exact AllLegit.refl _ _ _
    | obj ms =>
      unfold elems at h
      split at h
      · cases h; exact AllLegit.refl _ _ _
      · split at h
        · cases h; exact AllLegit.refl _ _ _
        · obtain ⟨a1, h1, h⟩ := bind_ok h
          have k1 := links_legit env sub q notify _ col _ hsub _ _ _ (fun r hr => hr) h1
          split at h
          · exact AllLegit.trans k1 (ih _ a1 a' h)
          · cases h; exact k1

theorem dispatch_legit (env : Env) (sub : Nat → Log → Out (Bool × Log)) (q : Req) (notify : Option Nat) (col : Nat)
    (iface : BitVec 32) (log : Log) (a : Acc)
    (hsub : ∀ r log x, sub r log = .ok x → AllLegit env q log x.2)
    (h : dispatch env sub q notify col iface log = .ok a) : AllLegit env q log a.log := by
  unfold dispatch at h
  split at h
  · cases h
    unfold baseline
    split
    · exact (AllLegit.refl env q log).snoc trivial
    · exact AllLegit.refl _ _ _
    · split
      · exact AllLegit.refl _ _ _
      · exact (AllLegit.refl env q log).snoc trivial
  · split at h
    · cases h; exact (AllLegit.refl env q log).snoc trivial
    · split at h
      · unfold batch at h
        split at h
        · exact links_legit env sub q notify _ col _ hsub _ (fresh log) a (fun r hr => hr) h
        · exact elems_legit env sub q notify col hsub _ _ (fresh log) a h
      · cases h; exact AllLegit.refl _ _ _

/-- Whatever is sent to a collection, through whatever interface, with whatever collections
linked to each other: a handler of a linked resource is called only for the method of the
request, and for a request of a client only if access control permits that method on that
resource at that moment. -/
theorem only_permitted_partial : ∀ (n : Nat) (env : Env) (q : Req) (notify : Option Nat) (col : Nat) (iface : BitVec 32)
    (log : Log) (x : Bool × Log), handle n env q notify col iface log = .ok x → AllLegit env q log x.2 := by
  intro n; induction n with
  | zero => intro env q notify col iface log x h; cases h
  | succ n ih =>
    intro env q notify col iface log x h
    unfold handle at h
    obtain ⟨a, ha, h⟩ := bind_ok h
    have k := dispatch_legit env _ q notify col iface log a (fun r log x hx => ih env q none r _ log x hx) ha
    cases h
    unfold finish
    split
    · exact k
    · simp only
      split
      · have := (k.snoc (e := .answer col (finalCode q.method a)) trivial).snoc (e := .notify col) trivial
        simpa using this
      · simpa using k.snoc (e := .answer col (finalCode q.method a)) trivial

/-! ### A collection that links no other collection -/

/-- The codes after these events. -/
def Codes (a a' : Acc) (evs : List Ev) : Prop :=
  (a'.e < c400 ↔ a.e < c400 ∧ evs.all good = true) ∧ (a'.p < c400 ↔ a.p < c400 ∨ evs.any good = true)

theorem note_codes (a : Acc) (log : Log) (c : Nat) :
    ((a.note log c).e < c400 ↔ a.e < c400 ∧ c < c400) ∧ ((a.note log c).p < c400 ↔ a.p < c400 ∨ c < c400) := by
  unfold Acc.note
  split <;> rename_i h <;> simp [h]

theorem oneLink_flat (env : Env) (sub : Nat → Log → Out (Bool × Log)) (q : Req) (col : Nat) (payload : Option Nat)
    (a : Acc) (r : Nat) (hf : r = col ∨ (env.world r).coll = false) :
    ∃ a' e, oneLink env sub q col payload a r = .ok a' ∧ a'.log = a.log ++ [e] ∧ a'.ok = a.ok ∧
      LinkEv env q col payload a.log r e ∧ Codes a a' [e] := by
  have hn : ¬ (r ≠ col ∧ (env.world r).coll = true) := by
    rintro ⟨h1, h2⟩; rcases hf with h | h
    · exact h1 h
    · rw [h] at h2; cases h2
  unfold oneLink
  by_cases ha : env.origin = true ∧ env.acl a.log q.method r = false
  · rw [if_pos (by simp [ha])]
    refine ⟨_, .denied r, rfl, note_log .., note_ok .., .denied ha.1 ha.2, ?_⟩
    have := note_codes a (a.log ++ [.denied r]) c403
    have hc : ¬ c403 < c400 := by decide
    simp only [hc, and_false, or_false] at this
    simpa [Codes, good] using this
  · rw [if_neg (by simpa using ha), if_neg hn]
    cases hh : (env.world r).has q.method with
    | false =>
      refine ⟨{ a with log := a.log ++ [.noHandler r], e := c405 }, .noHandler r,
        by simp only [Bool.not_false, if_true], rfl, rfl, .none ha hh, ?_⟩
      have hc : ¬ c405 < c400 := by decide
      simp [Codes, good, hc]
    | true =>
      refine ⟨_, _, by simp only [Bool.not_true, Bool.false_eq_true, if_false]; rfl, note_log .., note_ok .., .call ha hh, ?_⟩
      simp only [Codes, good, List.all_cons, List.all_nil, Bool.and_true, List.any_cons, List.any_nil, Bool.or_false,
        decide_eq_true_eq]
      exact note_codes a
        (a.log ++ [.call r q.method payload (ifaceFor env.world col r) (env.code a.log r q.method payload)])
        (env.code a.log r q.method payload)

theorem links_flat (env : Env) (sub : Nat → Log → Out (Bool × Log)) (q : Req) (notify : Option Nat) (href : Bytes)
    (col : Nat) (payload : Option Nat) : ∀ (l : List Nat) (a : Acc), a.ok = true →
    (∀ r ∈ l, r = col ∨ (env.world r).coll = false) →
    ∃ a' evs, links env sub q notify href col payload a l = .ok a' ∧ a'.log = a.log ++ evs ∧ a'.ok = true ∧
      Visits env q col payload a.log (l.filter fun r => taken env.world q notify href r) a'.log ∧ Codes a a' evs := by
  intro l; induction l with
  | nil => intro a ho _; exact ⟨a, [], rfl, by simp, ho, .nil _, by simp [Codes]⟩
  | cons r l ih =>
    intro a ho hf
    unfold links
    cases ht : taken env.world q notify href r with
    | false =>
      simp only [Bool.false_eq_true, if_false]
      rw [List.filter_cons, ht]
      exact ih a ho fun r hr => hf r (by simp [hr])
    | true =>
      simp only [if_true]
      obtain ⟨a1, e, h1, hl1, ho1, hv, hc1⟩ := oneLink_flat env sub q col payload a r (hf r (by simp))
      rw [h1, Out.bind]
      rw [ho] at ho1
      rw [if_pos ho1, List.filter_cons, ht, if_pos rfl]
      obtain ⟨a2, evs, h2, hl2, ho2, hv2, hc2⟩ := ih a1 ho1 fun r hr => hf r (by simp [hr])
      refine ⟨a2, e :: evs, h2, by rw [hl2, hl1]; simp, ho2, .cons _ _ _ _ _ hv (by rw [← hl1]; exact hv2), ?_⟩
      obtain ⟨c1, c2⟩ := hc1
      obtain ⟨c3, c4⟩ := hc2
      simp only [List.all_cons, List.all_nil, Bool.and_true, List.any_cons, List.any_nil, Bool.or_false] at c1 c2
      refine ⟨?_, ?_⟩
      · rw [c3, c1]; simp [and_assoc]
      · rw [c4, c2]; simp [or_assoc]

theorem fresh_codes (log : Log) (a : Acc) (evs : List Ev) (h : Codes (fresh log) a evs) :
    (a.e < c400 ∧ a.p < c400) ↔ (evs ≠ [] ∧ ∀ e ∈ evs, good e = true) := by
  obtain ⟨h1, h2⟩ := h
  have e1 : (fresh log).e < c400 := by show c205 < c400; decide
  have e2 : ¬ (fresh log).p < c400 := by show ¬ c400 < c400; omega
  simp only [e1, true_and] at h1
  simp only [e2, false_or] at h2
  rw [h1, h2, List.all_eq_true, List.any_eq_true]
  constructor
  · rintro ⟨ha, x, hx, _⟩; exact ⟨List.ne_nil_of_mem hx, ha⟩
  · rintro ⟨hn, ha⟩
    cases evs with
    | nil => exact absurd rfl hn
    | cons x r => exact ⟨ha, x, by simp, ha x (by simp)⟩

theorem handle_batch (n : Nat) (env : Env) (q : Req) (notify : Option Nat) (col : Nat) (log : Log) :
    handle (n + 1) env q notify col Iface.b.bit log =
      (batch env (fun r log => handle n env q none r (env.world r).dflt log) q notify col log).bind
        fun a => .ok (finish env q col Iface.b.bit a) := by
  have h1 : ¬ Iface.b.bit = Iface.baseline.bit := by decide
  have h2 : ¬ Iface.b.bit = Iface.ll.bit := by decide
  simp only [handle, dispatch, h1, h2, if_false, if_true]

theorem handle_batch_get (n : Nat) (env : Env) (q : Req) (notify : Option Nat) (col : Nat) (log : Log)
    (hm : getDel q.method = true) :
    handle (n + 1) env q notify col Iface.b.bit log =
      (links env (fun r log => handle n env q none r (env.world r).dflt log) q notify [] col none (fresh log)
        (env.world col).links).bind fun a => .ok (finish env q col Iface.b.bit a) := by
  rw [handle_batch]; simp only [batch, hm, if_true]

theorem handle_batch_post (n : Nat) (env : Env) (q : Req) (notify : Option Nat) (col : Nat) (log : Log)
    (hm : getDel q.method = false) :
    handle (n + 1) env q notify col Iface.b.bit log =
      (elems env (fun r log => handle n env q none r (env.world r).dflt log) q notify col none (fresh log)
        q.payload).bind fun a => .ok (finish env q col Iface.b.bit a) := by
  rw [handle_batch]; simp only [batch, hm, Bool.false_eq_true, if_false]

/-- GET or DELETE through the batch interface of a collection that links no other
collection: each linked resource that passes the filter of the query is visited exactly
once per link, in the order of the links. The answer is the success of the method exactly
if there was such a link and each of the handlers was called and succeeded, otherwise
4.00. -/
theorem batch_get (n : Nat) (env : Env) (q : Req) (notify : Option Nat) (col : Nat) (log : Log) (sel : Nat → Bool)
    (hm : q.method = .get ∨ q.method = .delete) (hf : Flat env.world col) (hb : ∀ log, env.tooBig log = false)
    (hs : ∀ r, sel r = true ↔ Wanted q.rts (env.world r).types ∧ (notify = none ∨ notify = some r)) :
    ∃ evs code, handle (n + 1) env q notify col Iface.b.bit log = .ok (true, log ++ evs ++ [.answer col code]) ∧
      Visits env q col none log ((env.world col).links.filter sel) (log ++ evs) ∧
      code = if evs ≠ [] ∧ ∀ e ∈ evs, good e = true then (if q.method = .get then c205 else c202) else c400 := by
  have hg : getDel q.method = true := by rcases hm with h | h <;> rw [h] <;> rfl
  obtain ⟨a, evs, h1, hl, ho, hv, hc⟩ := links_flat env (fun r log => handle n env q none r (env.world r).dflt log) q
    notify [] col none (env.world col).links (fresh log) rfl hf
  have hsel : (fun r => taken env.world q notify [] r) = sel := by
    funext r
    rw [Bool.eq_iff_iff, hs, ← rtOk_iff]
    cases notify with
    | none => simp [taken, hg]
    | some k =>
      simp only [taken, hg, Bool.true_or, Bool.and_true, Bool.and_eq_true, beq_iff_eq, reduceCtorEq, false_or,
        Option.some.injEq]
      exact ⟨fun ⟨h1, h2⟩ => ⟨h2, h1.symm⟩, fun ⟨h1, h2⟩ => ⟨h2.symm, h1⟩⟩
  rw [hsel, hl] at hv
  refine ⟨evs, finalCode q.method a, ?_, hv, ?_⟩
  · rw [handle_batch_get n env q notify col log hg, h1, Out.bind]
    have hnp : ¬ (q.method = .put ∨ q.method = .post) := by rcases hm with h | h <;> rw [h] <;> decide
    simp only [finish, ho, hb, Bool.not_true, Bool.or_false, Bool.false_eq_true, if_false, hnp, false_and,
      List.append_nil, hl, fresh]
  · have hsc : successCode q.method = if q.method = .get then c205 else c202 := by
      rcases hm with h | h <;> rw [h] <;> rfl
    unfold finalCode
    by_cases hk : evs ≠ [] ∧ ∀ e ∈ evs, good e = true
    · rw [if_pos ((fresh_codes log a evs hc).2 hk), if_pos hk, hsc]
    · rw [if_neg fun h => hk ((fresh_codes log a evs hc).1 h), if_neg hk]

theorem elems_items (env : Env) (sub : Nat → Log → Out (Bool × Log)) (q : Req) (notify : Option Nat) (col : Nat)
    (hf : Flat env.world col) : ∀ (items : List Item) (p : Option Nat) (a : Acc), a.ok = true →
    (∀ i ∈ items, i.href ≠ []) →
    ∃ a', elems env sub q notify col p a (items.map Item.elem) = .ok a' ∧ a'.ok = true ∧
      (items = [] → a' = a) ∧
      ∀ init last, items = init ++ [last] → ∃ mid evs,
        ItemVisits env q col (fun i => (env.world col).links.filter fun r => taken env.world q notify i.href r) a.log init mid ∧
        Visits env q col (some last.rep) mid ((env.world col).links.filter fun r => taken env.world q notify last.href r) (mid ++ evs) ∧
        a'.log = mid ++ evs ∧ ((a'.e < c400 ∧ a'.p < c400) ↔ (evs ≠ [] ∧ ∀ e ∈ evs, good e = true)) := by
  intro items; induction items with
  | nil =>
    intro p a ho _
    exact ⟨a, rfl, ho, fun _ => rfl, fun init last h => by simp at h⟩
  | cons i l ih =>
    intro p a ho hn
    obtain ⟨a1, evs, h1, hl1, ho1, hv, hc⟩ := links_flat env sub q notify i.href col (some i.rep)
      (env.world col).links (fresh a.log) rfl hf
    obtain ⟨a2, h2, ho2, hnil, hlast⟩ := ih (some i.rep) a1 ho1 fun j hj => hn j (by simp [hj])
    have hne : ¬ i.href.length = 0 := by
      have := hn i (by simp); cases h : i.href <;> simp_all
    refine ⟨a2, ?_, ho2, fun h => by simp at h, ?_⟩
    · simp only [List.map_cons, Item.elem, elems, lastStr, lastObj, hne, if_false, h1, Out.bind, ho1, if_true]
      exact h2
    · intro init last he
      cases init with
      | nil =>
        simp only [List.nil_append, List.cons.injEq] at he
        have e2 := hnil he.2
        subst e2
        rw [← he.1]
        refine ⟨a.log, evs, .nil _, by rw [hl1] at hv; exact hv, hl1, fresh_codes a.log a2 evs hc⟩
      | cons j init =>
        simp only [List.cons_append, List.cons.injEq] at he
        obtain ⟨mid, evs', v1, v2, e1, e2⟩ := hlast init last he.2
        rw [← he.1]
        exact ⟨mid, evs', .cons _ _ _ _ _ hv v1, v2, e1, e2⟩

/-- PUT or POST through the batch interface of a collection that links no other
collection, with well-formed items: in the order of the items the links with exactly the
URI of the item are visited in order, each with the payload of the item. The code depends
on the last item alone: it is 2.04 exactly if that item has a link and its handlers were
called and succeeded; then the observers of the batch interface are notified. -/
theorem batch_post_partial (n : Nat) (env : Env) (q : Req) (notify : Option Nat) (col : Nat) (log : Log)
    (init : List Item) (last : Item) (sel : Item → Nat → Bool)
    (hm : q.method = .put ∨ q.method = .post) (hf : Flat env.world col) (hb : ∀ log, env.tooBig log = false)
    (hp : q.payload = (init ++ [last]).map Item.elem) (hn : ∀ i ∈ init ++ [last], i.href ≠ [])
    (hs : ∀ i r, sel i r = true ↔ Wanted q.rts (env.world r).types ∧ (notify = none ∨ notify = some r) ∧
      i.href = (env.world r).uri) :
    ∃ mid evs, ItemVisits env q col (fun i => (env.world col).links.filter (sel i)) log init mid ∧
      Visits env q col (some last.rep) mid ((env.world col).links.filter (sel last)) (mid ++ evs) ∧
      handle (n + 1) env q notify col Iface.b.bit log = .ok (true, mid ++ evs ++
        (if evs ≠ [] ∧ ∀ e ∈ evs, good e = true then [.answer col c204, .notify col] else [.answer col c400])) := by
  have hg : getDel q.method = false := by rcases hm with h | h <;> rw [h] <;> rfl
  have hsel : ∀ i : Item, (fun r => taken env.world q notify i.href r) = sel i := by
    intro i; funext r
    rw [Bool.eq_iff_iff, hs, ← rtOk_iff]
    cases notify with
    | none => simp [taken, hg]
    | some k =>
      simp only [taken, hg, Bool.false_or, Bool.and_eq_true, beq_iff_eq, reduceCtorEq, false_or,
        Option.some.injEq]
      exact ⟨fun ⟨⟨h1, h2⟩, h3⟩ => ⟨h2, h1.symm, h3⟩, fun ⟨h1, h2, h3⟩ => ⟨⟨h2.symm, h1⟩, h3⟩⟩
  obtain ⟨a, h1, ho, _, hlast⟩ := elems_items env (fun r log => handle n env q none r (env.world r).dflt log) q
    notify col hf (init ++ [last]) none (fresh log) rfl hn
  obtain ⟨mid, evs, v1, v2, hl, hc⟩ := hlast init last rfl
  simp only [hsel] at v1 v2
  refine ⟨mid, evs, v1, v2, ?_⟩
  rw [handle_batch_post n env q notify col log hg, hp, h1, Out.bind]
  have hnp : (q.method = .put ∨ q.method = .post) = True := propext ⟨fun _ => trivial, fun _ => hm⟩
  have hs4 : successCode q.method = c204 := by rcases hm with h | h <;> rw [h] <;> rfl
  simp only [finish, ho, hb, Bool.not_true, Bool.or_false, Bool.false_eq_true, if_false, hnp, true_and, hl, finalCode, hc]
  split
  · rw [hs4]; simp [show c204 < c400 by decide]
  · simp

/-! ### Lists of links -/

/-- GET through `oic.if.ll` or baseline: the answer lists exactly the linked resources that
pass the filter of the query, in the order of the links; no handler of a linked resource
is called. -/
theorem list_get (n : Nat) (env : Env) (q : Req) (notify : Option Nat) (col : Nat) (iface : BitVec 32) (log : Log)
    (sel : Nat → Bool) (hm : q.method = .get) (hi : iface = Iface.ll.bit ∨ iface = Iface.baseline.bit)
    (hb : ∀ log, env.tooBig log = false) (hs : ∀ r, sel r = true ↔ Wanted q.rts (env.world r).types) :
    handle (n + 1) env q notify col iface log =
      .ok (true, log ++ [.listed col ((env.world col).links.filter sel), .answer col c205]) := by
  have hsel : listedLinks env.world q col = (env.world col).links.filter sel := by
    unfold listedLinks; congr 1; funext r; rw [Bool.eq_iff_iff, hs, ← rtOk_iff]
  have h1 : ¬ Iface.ll.bit = Iface.baseline.bit := by decide
  rcases hi with rfl | rfl <;>
    simp [handle, dispatch, baseline, h1, hm, finish, hb, hsel, Out.bind, finalCode, successCode,
      show c205 < c400 by decide]

/-- An answer that does not fit is not sent. -/
theorem too_big (n : Nat) (env : Env) (q : Req) (notify : Option Nat) (col : Nat) (iface : BitVec 32) (log : Log)
    (x : Bool × Log) (hb : ∀ log, env.tooBig log = true) (h : handle n env q notify col iface log = .ok x) :
    x.1 = false := by
  cases n with
  | zero => cases h
  | succ n =>
    unfold handle at h
    obtain ⟨a, _, h⟩ := bind_ok h
    cases h
    simp [finish, hb]

/-! ### Collections linked by collections -/

theorem oneLink_ok (env : Env) (sub sub' : Nat → Log → Out (Bool × Log)) (q : Req) (col : Nat) (payload : Option Nat)
    (a : Acc) (r : Nat) (h : r ≠ col → (env.world r).coll = true → ∀ log, sub r log = sub' r log ∧ sub r log ≠ .ub) :
    oneLink env sub q col payload a r = oneLink env sub' q col payload a r ∧ oneLink env sub q col payload a r ≠ .ub := by
  unfold oneLink
  split
  · exact ⟨rfl, nofun⟩
  · split
    · rename_i hc
      obtain ⟨h1, h2⟩ := h hc.1 hc.2 a.log
      refine ⟨by rw [h1], ?_⟩
      unfold nested
      cases hx : sub r a.log with
      | ub => exact absurd hx h2
      | ok x => simp only [Out.bind]; split <;> nofun
    · split <;> exact ⟨rfl, nofun⟩

theorem links_ok (env : Env) (sub sub' : Nat → Log → Out (Bool × Log)) (q : Req) (notify : Option Nat) (href : Bytes)
    (col : Nat) (payload : Option Nat) : ∀ (l : List Nat) (a : Acc),
    (∀ r ∈ l, r ≠ col → (env.world r).coll = true → ∀ log, sub r log = sub' r log ∧ sub r log ≠ .ub) →
    links env sub q notify href col payload a l = links env sub' q notify href col payload a l ∧
      links env sub q notify href col payload a l ≠ .ub := by
  intro l; induction l with
  | nil => intro a _; exact ⟨rfl, nofun⟩
  | cons r l ih =>
    intro a h
    unfold links
    split
    · obtain ⟨h1, h2⟩ := oneLink_ok env sub sub' q col payload a r (h r (by simp))
      rw [← h1]
      cases hx : oneLink env sub q col payload a r with
      | ub => exact absurd hx h2
      | ok a1 =>
        simp only [Out.bind]
        split
        · exact ih a1 fun r hr => h r (by simp [hr])
        · exact ⟨rfl, nofun⟩
    · exact ih a fun r hr => h r (by simp [hr])

theorem elems_ok (env : Env) (sub sub' : Nat → Log → Out (Bool × Log)) (q : Req) (notify : Option Nat) (col : Nat)
    (h : ∀ r ∈ (env.world col).links, r ≠ col → (env.world r).coll = true → ∀ log, sub r log = sub' r log ∧ sub r log ≠ .ub) :
    ∀ (l : List Elem) (p : Option Nat) (a : Acc),
    elems env sub q notify col p a l = elems env sub' q notify col p a l ∧ elems env sub q notify col p a l ≠ .ub := by
  intro l; induction l with
  | nil => intro p a; exact ⟨rfl, nofun⟩
  | cons x l ih =>
    intro p a
    cases x with
    | other => exact ⟨rfl, nofun⟩
    | obj ms =>
      unfold elems
      split
      · exact ⟨rfl, nofun⟩
      · split
        · exact ⟨rfl, nofun⟩
        · rename_i href _ _
          obtain ⟨h1, h2⟩ := links_ok env sub sub' q notify href col (lastObj p ms) _ (fresh a.log) h
          rw [← h1]
          cases hx : links env sub q notify href col (lastObj p ms) (fresh a.log) (env.world col).links with
          | ub => exact absurd hx h2
          | ok a1 =>
            simp only [Out.bind]
            split
            · exact ih _ a1
            · exact ⟨rfl, nofun⟩

theorem dispatch_ok (env : Env) (sub sub' : Nat → Log → Out (Bool × Log)) (q : Req) (notify : Option Nat) (col : Nat)
    (iface : BitVec 32) (log : Log)
    (h : ∀ r ∈ (env.world col).links, r ≠ col → (env.world r).coll = true → ∀ log, sub r log = sub' r log ∧ sub r log ≠ .ub) :
    dispatch env sub q notify col iface log = dispatch env sub' q notify col iface log ∧
      dispatch env sub q notify col iface log ≠ .ub := by
  unfold dispatch
  split
  · exact ⟨rfl, nofun⟩
  · split
    · exact ⟨rfl, nofun⟩
    · split
      · unfold batch
        split
        · exact links_ok env sub sub' q notify _ col _ _ _ h
        · exact elems_ok env sub sub' q notify col h _ _ _
      · exact ⟨rfl, nofun⟩

/-- A request to a collection ends, whatever it is, if the collections linked by collections
form no cycle: `depth` falls along the links. -/
theorem ends_partial (env : Env) (depth : Nat → Nat)
    (hd : ∀ col, ∀ r ∈ (env.world col).links, r ≠ col → (env.world r).coll = true → depth r < depth col) :
    ∀ (col : Nat) (q : Req) (notify : Option Nat) (iface : BitVec 32) (log : Log),
      ∃ x, ∀ n, depth col < n → handle n env q notify col iface log = .ok x := by
  have key : ∀ (d : Nat) (n m : Nat) (col : Nat) (q : Req) (notify : Option Nat) (iface : BitVec 32) (log : Log),
      depth col ≤ d → depth col < n → depth col < m →
      handle n env q notify col iface log = handle m env q notify col iface log ∧
        handle n env q notify col iface log ≠ .ub := by
    intro d
    induction d using Nat.strongRecOn with
    | _ d ih =>
      intro n m col q notify iface log h1 h2 h3
      cases n with
      | zero => omega
      | succ n => cases m with
        | zero => omega
        | succ m =>
          have hsub : ∀ r ∈ (env.world col).links, r ≠ col → (env.world r).coll = true → ∀ log,
              handle n env q none r (env.world r).dflt log = handle m env q none r (env.world r).dflt log ∧
              handle n env q none r (env.world r).dflt log ≠ .ub := by
            intro r hr hne hc log
            have := hd col r hr hne hc
            exact ih (depth r) (by omega) n m r q none _ log (Nat.le_refl _) (by omega) (by omega)
          obtain ⟨k1, k2⟩ := dispatch_ok env (fun r log => handle n env q none r (env.world r).dflt log)
            (fun r log => handle m env q none r (env.world r).dflt log) q notify col iface log hsub
          unfold handle
          rw [← k1]
          refine ⟨rfl, ?_⟩
          cases hx : dispatch env (fun r log => handle n env q none r (env.world r).dflt log) q notify col iface log with
          | ub => exact absurd hx k2
          | ok a => nofun
  intro col q notify iface log
  have k := key (depth col) (depth col + 1) (depth col + 1) col q notify iface log (Nat.le_refl _) (by omega) (by omega)
  cases hx : handle (depth col + 1) env q notify col iface log with
  | ub => exact absurd hx k.2
  | ok x =>
    refine ⟨x, fun n hn => ?_⟩
    rw [(key (depth col) n (depth col + 1) col q notify iface log (Nat.le_refl _) hn (by omega)).1, hx]

/-! ### Concrete cases -/

/-- Resources 1 and 2 (an actuator and a sensor that has a handler for every method), and
the collections 0 and 3 with the batch interface as the default. Access to resource 1 is
denied, for what is not read. -/
def exWorld : Nat → Res
  | 0 => { uri := b "/c", types := [b "c"], dflt := Iface.b.bit, has := fun _ => false, coll := true, links := [1, 2],
           setter := true }
  | 1 => { uri := b "/a", types := [b "a"], dflt := Iface.a.bit, has := fun _ => true }
  | 2 => { uri := b "/s", types := [b "s"], dflt := Iface.s.bit, has := fun _ => true }
  | 3 => { uri := b "/d", types := [b "d"], dflt := Iface.b.bit, has := fun _ => false, coll := true, links := [0] }
  | 4 => { uri := b "/e", types := [b "e"], dflt := Iface.b.bit, has := fun _ => false, coll := true, links := [5] }
  | 5 => { uri := b "/f", types := [b "f"], dflt := Iface.b.bit, has := fun _ => false, coll := true, links := [4] }
  | _ => { uri := b "/x", types := [], dflt := Iface.b.bit, has := fun _ => false, coll := true }

/-- A client asks; handlers succeed with 2.05 or 2.04. -/
def exEnv : Env :=
  { world := exWorld, origin := true, acl := fun _ m r => m == .get || r != 1,
    code := fun _ _ m _ => successCode m, props := fun _ _ => true, tooBig := fun _ => false }

/-- Everybody may do everything. -/
def openEnv : Env := { exEnv with acl := fun _ _ _ => true }

theorem exFlat : Flat exWorld 0 := by
  intro r hr
  right
  have : r = 1 ∨ r = 2 := by simpa [exWorld] using hr
  rcases this with rfl | rfl <;> rfl

/-- The hypotheses of `batch_get` hold here, and both resources are read. -/
example : Flat exEnv.world 0 ∧ (∀ log, exEnv.tooBig log = false) ∧
    handle 1 exEnv ⟨.get, [], []⟩ none 0 Iface.b.bit [] =
      .ok (true, [.call 1 .get none Iface.a.bit c205, .call 2 .get none Iface.s.bit c205, .answer 0 c205]) :=
  ⟨exFlat, fun _ => rfl, by decide +kernel⟩

/-- With a filter only one of them. -/
example : handle 1 exEnv ⟨.get, [b "s"], []⟩ none 0 Iface.b.bit [] =
    .ok (true, [.call 2 .get none Iface.s.bit c205, .answer 0 c205]) := by decide +kernel

/-- Two items of a POST. -/
example : handle 1 openEnv ⟨.post, [], [Item.elem ⟨b "/s", 7⟩, Item.elem ⟨b "/a", 8⟩]⟩ none 0 Iface.b.bit [] =
    .ok (true, [.call 2 .post (some 7) Iface.s.bit c204, .call 1 .post (some 8) Iface.a.bit c204,
      .answer 0 c204, .notify 0]) := by decide +kernel

/-- A collection in a collection: `depth` for `ends_partial`. -/
example : (∀ col ∈ [0, 1, 2, 3], ∀ r ∈ (exWorld col).links, r ≠ col → (exWorld r).coll = true → r < col) ∧
    handle 2 exEnv ⟨.get, [], []⟩ none 3 Iface.b.bit [] =
      .ok (true, [.call 1 .get none Iface.a.bit c205, .call 2 .get none Iface.s.bit c205, .answer 0 c205,
        .answer 3 c205]) := by
  constructor
  · decide +kernel
  · decide +kernel

/-- The list of the links. -/
example : handle 1 exEnv ⟨.get, [], []⟩ none 0 Iface.ll.bit [] =
    .ok (true, [.listed 0 [1, 2], .answer 0 c205]) := by decide +kernel

/-! ### What does not hold -/

/-- A request through the batch interface calls the handler of a resource for a method that
the default interface of the resource does not allow: a direct request would be refused
(`Ri.maskAllows`). Here a sensor is changed. -/
theorem interface_bypassed_false :
    Ri.maskAllows (exWorld 2).dflt .post = false ∧
    handle 1 exEnv ⟨.post, [], [Item.elem ⟨b "/s", 7⟩]⟩ none 0 Iface.b.bit [] =
      .ok (true, [.call 2 .post (some 7) Iface.s.bit c204, .answer 0 c204, .notify 0]) := by
  constructor <;> decide +kernel

/-- An item without an object gets the payload of an earlier item. -/
theorem stale_payload_false :
    handle 1 openEnv ⟨.post, [], [.obj [.str (b "/a"), .obj 7], .obj [.str (b "/s")]]⟩ none 0 Iface.b.bit [] =
      .ok (true, [.call 1 .post (some 7) Iface.a.bit c204, .call 2 .post (some 7) Iface.s.bit c204,
        .answer 0 c204, .notify 0]) := by decide +kernel

/-- The failure of an item is forgotten when a later item succeeds: access to the first
resource is denied, the answer is 2.04. -/
theorem earlier_error_false :
    handle 1 exEnv ⟨.post, [], [Item.elem ⟨b "/a", 7⟩, Item.elem ⟨b "/s", 8⟩]⟩ none 0 Iface.b.bit [] =
      .ok (true, [.denied 1, .call 2 .post (some 8) Iface.s.bit c204, .answer 0 c204, .notify 0]) := by
  decide +kernel

/-- An item for a resource that the collection does not link is ignored when a later item
succeeds. -/
theorem unknown_href_false :
    handle 1 exEnv ⟨.post, [], [Item.elem ⟨b "/nope", 7⟩, Item.elem ⟨b "/s", 8⟩]⟩ none 0 Iface.b.bit [] =
      .ok (true, [.call 2 .post (some 8) Iface.s.bit c204, .answer 0 c204, .notify 0]) := by
  decide +kernel

/-- The names of the members of an item are not looked at: with two texts the last one is
the link that is used, whatever it is called. -/
theorem member_names_false :
    handle 1 exEnv ⟨.post, [], [.obj [.str (b "/nope"), .obj 9, .other, .str (b "/s"), .obj 8]]⟩ none 0 Iface.b.bit [] =
      .ok (true, [.call 2 .post (some 8) Iface.s.bit c204, .answer 0 c204, .notify 0]) ∧
    handle 1 exEnv ⟨.post, [], [.obj [.str (b "/s"), .obj 8, .other, .str (b "/nope"), .obj 9]]⟩ none 0 Iface.b.bit [] =
      .ok (true, [.answer 0 c400]) := by
  decide +kernel

/-- The items before a malformed one have been applied although the answer is 4.00, and
the observers are not notified. -/
theorem partly_applied_false :
    handle 1 openEnv ⟨.post, [], [Item.elem ⟨b "/s", 8⟩, .other]⟩ none 0 Iface.b.bit [] =
      .ok (true, [.call 2 .post (some 8) Iface.s.bit c204, .answer 0 c400]) := by
  decide +kernel

/-- The batch interface of a collection without links, or without links that pass the
filter, answers a GET with 4.00. -/
theorem empty_collection_false :
    handle 1 exEnv ⟨.get, [], []⟩ none 9 Iface.b.bit [] = .ok (true, [.answer 9 c400]) ∧
    handle 1 exEnv ⟨.get, [b "none"], []⟩ none 0 Iface.b.bit [] = .ok (true, [.answer 0 c400]) := by
  constructor <;> decide +kernel

/-- A POST through the baseline interface is answered with 4.00 although the properties
were set. -/
theorem baseline_post_false :
    handle 1 exEnv ⟨.post, [], []⟩ none 0 Iface.baseline.bit [] =
      .ok (true, [.setProps 0 true, .answer 0 c400]) := by decide +kernel

/-- A failure inside a linked collection is not seen: the request to the linked collection
is answered with 4.00, the request as a whole with 2.02. -/
theorem nested_error_false :
    handle 2 exEnv ⟨.delete, [], []⟩ none 3 Iface.b.bit [] =
      .ok (true, [.denied 1, .call 2 .delete none Iface.s.bit c202, .answer 0 c400, .answer 3 c202]) := by
  decide +kernel

theorem cycle_step (n : Nat) (log : Log)
    (ih : ∀ log, handle n openEnv ⟨.get, [], []⟩ none 4 Iface.b.bit log = .ub ∧
      handle n openEnv ⟨.get, [], []⟩ none 5 Iface.b.bit log = .ub) :
    handle (n + 1) openEnv ⟨.get, [], []⟩ none 4 Iface.b.bit log = .ub ∧
      handle (n + 1) openEnv ⟨.get, [], []⟩ none 5 Iface.b.bit log = .ub := by
  have h4 : (openEnv.world 4).links = [5] := rfl
  have h5 : (openEnv.world 5).links = [4] := rfl
  have t4 : taken openEnv.world ⟨.get, [], []⟩ none [] 5 = true := by decide +kernel
  have t5 : taken openEnv.world ⟨.get, [], []⟩ none [] 4 = true := by decide +kernel
  have d4 : (openEnv.world 4).dflt = Iface.b.bit := rfl
  have d5 : (openEnv.world 5).dflt = Iface.b.bit := rfl
  have k4 : (openEnv.world 4).coll = true := rfl
  have k5 : (openEnv.world 5).coll = true := rfl
  have ha : ∀ log m r, (openEnv.origin && !openEnv.acl log m r) = false := fun _ _ _ => rfl
  rw [handle_batch_get _ _ _ _ _ _ rfl, handle_batch_get _ _ _ _ _ _ rfl]
  simp [h4, h5, links, t4, t5, oneLink, ha, k4, k5, d4, d5, nested, (ih _).1, (ih _).2, Out.bind]

/-- Two collections that link each other, both with the batch interface as the default: no
depth of the stack is enough for a GET. -/
theorem cycle_ub : ∀ (n : Nat) (log : Log), handle n openEnv ⟨.get, [], []⟩ none 4 Iface.b.bit log = .ub := by
  have key : ∀ n log, handle n openEnv ⟨.get, [], []⟩ none 4 Iface.b.bit log = .ub ∧
      handle n openEnv ⟨.get, [], []⟩ none 5 Iface.b.bit log = .ub := by
    intro n; induction n with
    | zero => intro log; exact ⟨rfl, rfl⟩
    | succ n ih => intro log; exact cycle_step n log ih
  exact fun n log => (key n log).1

end Verif.Collection
