import Verif.Process.Lemmas
/-! Property theorems for the event queue of `util/oc_process.c` (C12). -/
namespace Verif.Process
open Spec

/-- One call on the model; `junk` are the contents of freshly allocated memory. -/
def exec (dyn : Bool) (q : Q) (junk : List Ev) : Op → Out (Q × Res)
  | .post e => do let (q, b) ← post dyn q e junk; return (q, .posted b)
  | .take => do let (q, e) ← take q; return (q, .taken e)
  | .drop p f => do let (q, n) ← drop q p f; return (q, .dropped n)

/-- The limit of a queue: its capacity, or none if it can grow. -/
def limit (dyn : Bool) (q : Q) : Option Nat := if dyn then none else some q.buf.length

/-- C12: every call acts on the represented sequence exactly as specified, in
every position of the ring, and is free of undefined behaviour. -/
theorem exec_refines (dyn : Bool) (q : Q) (l : List Ev) (h : Rep q l) (junk : List Ev)
    (hj : junk.length = q.buf.length) (o : Op) :
    ∃ q', exec dyn q junk o = .ok (q', (step (limit dyn q) l o).2) ∧
      Rep q' (step (limit dyn q) l o).1 ∧ limit dyn q' = limit dyn q := by
  cases o with
  | post e =>
    simp only [exec, post, step]
    have h1 := h.1
    by_cases hfull : q.n = q.buf.length
    · cases dyn with
      | true =>
        obtain ⟨q1, g1, g2, g3⟩ := grow_rep q l h hfull junk hj
        have hpos : q.f < q.buf.length := h.2.2.1
        obtain ⟨q2, a1, a2, a3⟩ := append_rep q1 l e g2 (by rw [g2.1, ← h1]; omega)
        exact ⟨q2, by simp [hfull, g1, a1, limit], by simpa [limit] using a2, by simp [limit]⟩
      | false =>
        refine ⟨q, by simp [hfull, limit, ← h1], ?_, rfl⟩
        simpa [limit, ← hfull, ← h1] using h
    · have hlt : q.n < q.buf.length := by have := h.2.1; omega
      obtain ⟨q2, a1, a2, a3⟩ := append_rep q l e h hlt
      have hlim : ¬ (limit dyn q = some l.length) := by
        cases dyn <;> simp [limit]; omega
      refine ⟨q2, ?_, ?_, by simp [limit, a3]⟩
      · simp only [hfull, hlim, ↓reduceIte, a1, Out.ok_bind, Out.pure_eq]
      · rw [if_neg hlim]; exact a2
  | take =>
    obtain ⟨q1, t1, t2, t3⟩ := take_rep q l h
    exact ⟨q1, by simp [exec, t1, step], t2, by simp [limit, t3]⟩
  | drop p f =>
    obtain ⟨q1, t1, t2, t3⟩ := dropLoop_rep (Selected p f) q.n l [] q 0 (by simpa using h) (by rw [h.1]; exact Nat.le_refl _)
    simp only [List.nil_append, Nat.zero_add, List.length_nil] at t1 t2
    refine ⟨q1, ?_, t2, by simp [limit, t3]⟩
    have : (fun e : Ev => e.p == some p && f e.ev e.data) = Selected p f := rfl
    simp [exec, drop, this, t1, step]

/-- A run of the model with its results; the contents of newly allocated memory
are arbitrary. -/
inductive Runs (dyn : Bool) : Q → List Op → List Res → Q → Prop
  | nil (q) : Runs dyn q [] [] q
  | cons {q o r q' os rs q''} (junk : List Ev) (hj : junk.length = q.buf.length) :
      exec dyn q junk o = .ok (q', r) → Runs dyn q' os rs q'' → Runs dyn q (o :: os) (r :: rs) q''

/-- Results and final sequence the specification prescribes. -/
def specRun (lim : Option Nat) (l : List Ev) : List Op → List Res × List Ev
  | [] => ([], l)
  | o :: os =>
    let (l', r) := step lim l o
    let (rs, l'') := specRun lim l' os
    (r :: rs, l'')

/-- C12: every history of the queue returns exactly what a FIFO sequence returns. -/
theorem runs_refine (dyn : Bool) : ∀ (q : Q) (os : List Op) (rs : List Res) (q' : Q) (l : List Ev),
    Rep q l → Runs dyn q os rs q' →
    rs = (specRun (limit dyn q) l os).1 ∧ Rep q' (specRun (limit dyn q) l os).2 := by
  intro q os rs q' l h hr
  induction hr generalizing l with
  | nil q => exact ⟨rfl, h⟩
  | cons junk hj he _ ih =>
    obtain ⟨q1, h1, h2, h3⟩ := exec_refines dyn _ l h junk hj _
    rw [he] at h1
    simp only [Out.ok.injEq, Prod.mk.injEq] at h1
    obtain ⟨rfl, rfl⟩ := h1
    obtain ⟨h4, h5⟩ := ih _ h2
    rw [h3] at h4 h5
    exact ⟨by simp only [specRun, h4], by simpa only [specRun] using h5⟩

/-- The initial queue is empty. -/
theorem init_rep (cap : Nat) (h : 0 < cap) : Rep (init cap) [] :=
  ⟨rfl, by simp, by simpa [init] using h, by simp⟩

/-- The events delivered by a list of results. -/
def deliveredOf : List Res → List Ev
  | [] => []
  | .taken (some e) :: r => e :: deliveredOf r
  | _ :: r => deliveredOf r

/-- The events accepted by a history. -/
def acceptedOf : List Op → List Res → List Ev
  | .post e :: os, .posted true :: rs => e :: acceptedOf os rs
  | _ :: os, _ :: rs => acceptedOf os rs
  | _, _ => []

/-- C12: without drops, the events delivered so far followed by the events still
queued are exactly the events accepted, in order: nothing is lost, duplicated or
reordered, across wrap-around and growth. -/
theorem fifo_lossless (dyn : Bool) (cap : Nat) (hc : 0 < cap) (os : List Op) (rs : List Res) (q' : Q)
    (hr : Runs dyn (init cap) os rs q') (hnd : ∀ o ∈ os, ∀ p f, o ≠ .drop p f) :
    ∃ l, Rep q' l ∧ deliveredOf rs ++ l = acceptedOf os rs := by
  obtain ⟨h1, h2⟩ := runs_refine dyn _ os rs q' [] (init_rep cap hc) hr
  refine ⟨_, h2, ?_⟩
  clear hr h2
  generalize limit dyn (init cap) = lim at *
  have key : ∀ (os : List Op) (l : List Ev), (∀ o ∈ os, ∀ p f, o ≠ .drop p f) →
      deliveredOf (specRun lim l os).1 ++ (specRun lim l os).2 = l ++ acceptedOf os (specRun lim l os).1 := by
    intro os
    induction os with
    | nil => intro l _; simp [specRun, deliveredOf, acceptedOf]
    | cons o os ih =>
      intro l hnd
      have ih' := fun l => ih l (fun o ho => hnd o (by simp [ho]))
      cases o with
      | post e =>
        simp only [specRun, step]
        by_cases hl : lim = some l.length
        · simp [hl, deliveredOf, acceptedOf] at ih' ⊢; exact ih' l
        · simp only [hl, ↓reduceIte, deliveredOf, acceptedOf]
          rw [ih']; simp
      | take =>
        simp only [specRun, step]
        cases l with
        | nil => simpa [deliveredOf, acceptedOf] using ih' []
        | cons a l => simp [deliveredOf, acceptedOf, ih']
      | drop p f => exact absurd rfl (hnd _ (by simp) p f)
  have := key os [] hnd
  rw [← h1] at this
  simpa using this

/-- C12: a dynamic queue never refuses an event, a static queue refuses exactly
when it holds its capacity, and a refusal changes nothing. -/
theorem post_full (dyn : Bool) (q : Q) (l : List Ev) (h : Rep q l) (e : Ev) (junk : List Ev)
    (hj : junk.length = q.buf.length) :
    ∃ q', (post dyn q e junk = .ok (q', true) ∧ Rep q' (l ++ [e]) ∧
        (dyn = true ∨ l.length < q.buf.length)) ∨
      (post dyn q e junk = .ok (q, false) ∧ dyn = false ∧ l.length = q.buf.length) := by
  by_cases hf : dyn = false ∧ l.length = q.buf.length
  · refine ⟨q, .inr ⟨?_, hf.1, hf.2⟩⟩
    simp [post, h.1, hf.1, hf.2]
  · obtain ⟨q', h1, h2, _⟩ := exec_refines dyn q l h junk hj (.post e)
    have hlim : ¬ limit dyn q = some l.length := by
      cases dyn
      · simp [limit] at hf ⊢; omega
      · simp [limit]
    simp only [exec, step, hlim, ↓reduceIte] at h1 h2
    refine ⟨q', .inl ⟨?_, h2, ?_⟩⟩
    · cases hp : post dyn q e junk with
      | ub => simp [hp] at h1
      | ok x => obtain ⟨a, b⟩ := x; simp [hp] at h1; simp [h1]
    · cases dyn
      · right; have := h.2.1; simp at hf; omega
      · left; rfl

/-- C12: iteration visits exactly the queued events in order. -/
theorem iterate_spec (q : Q) (l : List Ev) (h : Rep q l) : iterate q = l.map some := by
  obtain ⟨h1, h2, h3, h4⟩ := h
  apply List.ext_getElem?
  intro k
  simp only [iterate, List.getElem?_map, h1]
  by_cases hk : k < l.length
  · rw [List.getElem?_range hk]
    simp only [Option.map_some, h4 k hk, List.getElem?_eq_getElem hk]
  · rw [List.getElem?_eq_none (by simpa using hk), List.getElem?_eq_none (by simpa using hk)]
    rfl

/-- Two events on a queue of two elements, growth while wrapped, and a drop. -/
example : ∃ q', Runs true (init 2)
    [.post ⟨some 1, 5, 0⟩, .post ⟨some 2, 6, 0⟩, .take, .post ⟨some 3, 7, 0⟩, .post ⟨some 4, 8, 0⟩,
      .drop 3 (fun _ _ => true), .take, .take, .take]
    [.posted true, .posted true, .taken (some ⟨some 1, 5, 0⟩), .posted true, .posted true,
      .dropped 1, .taken (some ⟨some 2, 6, 0⟩), .taken (some ⟨some 4, 8, 0⟩), .taken none] q' := by
  refine ⟨_, .cons [zeroEv, zeroEv] rfl rfl (.cons [zeroEv, zeroEv] rfl rfl (.cons [zeroEv, zeroEv] rfl rfl
    (.cons [zeroEv, zeroEv] rfl rfl (.cons [zeroEv, zeroEv] rfl rfl
    (.cons [zeroEv, zeroEv, zeroEv, zeroEv] rfl rfl (.cons [zeroEv, zeroEv, zeroEv, zeroEv] rfl rfl
    (.cons [zeroEv, zeroEv, zeroEv, zeroEv] rfl rfl
    (.cons [zeroEv, zeroEv, zeroEv, zeroEv] rfl rfl (.nil _)))))))))⟩

end Verif.Process
