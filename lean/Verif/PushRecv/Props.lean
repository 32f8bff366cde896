import Verif.PushRecv.Refine

/-!
Property theorems about the push receiver resource.
-/

namespace Verif.PushRecv

open Verif.Rep (b Bytes Val Rep)
open Verif.Ri (slash)
open Spec

/-- For every history of requests whose paths are free, none the beginning of another, and
whose payloads are clean (`Spec.Fits`): every step is defined, every request is answered as
by the table of receivers, the receivers are those of the table, each has one resource with
what was pushed to it last, and the resources of the application are untouched.  Partial:
all other requests, see the disagreements below. -/
theorem receivers_partial (U : Bytes → Prop) (taken : Bytes → Bool) (app : List Rs) (n : Nat) (hp : Paths U taken app)
    (hn : ∀ a, a ∈ app → a.id < n) (os : List Op) (hf : FitsRun U ⟨[], n⟩ os) :
    ∃ s, run taken { rscs := app, next := n } os = .ok (s, (Spec.run ⟨[], n⟩ os).2) ∧
      s.recvs.map (fun r => (r.uri, r.rts)) = (Spec.run ⟨[], n⟩ os).1.items.map (fun i => (i.uri, i.rts)) ∧
      s.rscs = app ++ (Spec.run ⟨[], n⟩ os).1.items.map
        (fun i => ⟨i.id, i.uri, i.types, i.ifaces, i.name, i.disc, true, true⟩) := by
  suffices hs : ∀ (os : List Op) (s : St) (t : Table), Rel U app s t → Shown t → FitsRun U t os →
      ∃ s', run taken s os = .ok (s', (Spec.run t os).2) ∧ Rel U app s' (Spec.run t os).1 by
    obtain ⟨s, h1, h2⟩ := hs os { rscs := app, next := n } ⟨[], n⟩
      ⟨rfl, rfl, by simp, rfl, ⟨by simp, by simp, by simp, by simp⟩, hn, by simp⟩ (fun i hi => by cases hi) hf
    refine ⟨s, h1, ?_, h2.rscs⟩
    rw [h2.recvs, List.map_map]
    rfl
  intro os
  induction os with
  | nil => exact fun s t h _ _ => ⟨s, rfl, h⟩
  | cons o os ih =>
    intro s t h hs hf
    obtain ⟨s1, h1, h2⟩ := step_rel hp h hs hf.1
    obtain ⟨s2, h3, h4⟩ := ih s1 _ h2 (shown_step hs hf.1) hf.2
    exact ⟨s2, by rw [run, h1]; simp only [Out.bind]; rw [h3]; rfl, h4⟩

/-! ## A concrete case -/

/-- A resource of the application. -/
def light : Rs := ⟨0, b "/light", [b "core.light"], 0, b "light", true, true, false⟩

/-- The start: one resource, no receiver. -/
def start : St := { rscs := [light], next := 1 }

/-- No path is taken by the stack. -/
def noCore : Bytes → Bool := fun _ => false

/-- A payload for one receiver. -/
def obj (u : String) (rts : List String) : Rep :=
  [(b "receiveruri", .str (b u)), (b "rts", .strs (rts.map b))]

/-- Three paths. -/
def exU (u : Bytes) : Prop := u = b "/a" ∨ u = b "/b" ∨ u = b "/c"

/-- A payload that is pushed. -/
def exPush : Rep :=
  [(b "rt", .strs [b "x"]), (b "v", .int 1), (b "o", .obj [(b "l", .strs [b "p", []])]), (b "n", .str (b "name"))]

theorem exPaths : Paths exU noCore [light] := by
  refine ⟨?_, ?_, fun _ _ => rfl, ?_⟩
  · intro u hu
    rcases hu with rfl | rfl | rfl
    · exact ⟨_, _, rfl, by decide⟩
    · exact ⟨_, _, rfl, by decide⟩
    · exact ⟨_, _, rfl, by decide⟩
  · intro u v hu hv
    rcases hu with rfl | rfl | rfl <;> rcases hv with rfl | rfl | rfl <;> decide
  · intro a ha
    rw [List.mem_singleton] at ha
    subst ha
    refine ⟨?_, by decide, by decide⟩
    rintro (h | h | h) <;> exact absurd h (by decide)

theorem exClean (u : String) (l : List String) (hl : Tidy (l.map b)) : Clean (b u) (obj u l) := by
  intro n x hx
  simp only [obj, List.mem_cons, Prod.mk.injEq, List.not_mem_nil, or_false] at hx
  rcases hx with ⟨rfl, rfl⟩ | ⟨rfl, rfl⟩
  · exact Or.inl ⟨_, rfl, fun _ => rfl⟩
  · exact Or.inr ⟨_, rfl, hl⟩

example : FitsRun exU ⟨[], 1⟩
    [.post (some (b "/a")) (obj "/a" ["x", "y"]), .post (some (b "/a")) (obj "/b" ["x"]), .push (b "/b") exPush,
     .get (b "/b"), .delete (some (b "/b")), .delete none] := by
  have t1 : Tidy (["x", "y"].map b) := ⟨["x", "y"].map b, 0, by simp, by decide⟩
  have t2 : Tidy (["x"].map b) := ⟨["x"].map b, 0, by simp, by decide⟩
  refine ⟨⟨Or.inl rfl, _, Or.inl rfl, exClean "/a" _ t1, Or.inl rfl⟩,
    ⟨Or.inl rfl, _, Or.inr (Or.inl rfl), exClean "/b" _ t2, Or.inr ⟨?_, ?_⟩⟩,
    ⟨Or.inr (Or.inl rfl), ?_, ?_, by decide, by decide⟩, Or.inr (Or.inl rfl), Or.inr (Or.inl rfl), trivial, trivial⟩
  · show b "/a" ∈ ([b "/a"] : List Bytes)
    decide
  · show b "/b" ∉ ([b "/a"] : List Bytes)
    decide
  · intro l l' h h'
    simp only [Typed, exPush, List.mem_cons, Prod.mk.injEq, List.not_mem_nil, or_false, Val.strs.injEq, reduceCtorEq,
      and_false] at h h'
    rw [h.2, h'.2]
  · intro l h
    simp only [Typed, exPush, List.mem_cons, Prod.mk.injEq, List.not_mem_nil, or_false, Val.strs.injEq, reduceCtorEq,
      and_false] at h
    rw [h.2]
    exact t2

/-- The state after a history. -/
def after (os : List Op) : St :=
  match run noCore start os with
  | .ok x => x.1
  | .ub => {}

/-- The answers of a history. -/
def answers (os : List Op) : List (Ans × Rep) :=
  match run noCore start os with
  | .ok x => x.2
  | .ub => []

/-- The paths of the receivers. -/
def paths (s : St) : List Bytes := s.recvs.map (·.uri)

/-- The paths of the resources a client can reach. -/
def reach (s : St) : List Bytes := (s.rscs.filter (·.listed)).map (·.uri)

example : (answers [.post (some (b "/a")) (obj "/a" ["x"]), .push (b "/a") exPush, .get (b "/a")]) =
    [(.changed, []), (.changed, []), (.ok, [(b "v", .int 1), (b "o", .obj [(b "l", .strs [b "p", []])])])] := rfl

/-! ## Disagreements -/

/-- Disagreement: deleting the receiver `/ab`, which does not exist, is answered as done and
deletes the receiver `/abc` with its resource. -/
theorem prefix_delete_false :
    (answers [.post (some (b "/abc")) (obj "/abc" ["x"]), .delete (some (b "/ab"))]).map (·.1) = [.changed, .deleted] ∧
    reach (after [.post (some (b "/abc")) (obj "/abc" ["x"]), .delete (some (b "/ab"))]) = [b "/light"] := by decide

/-- Disagreement: making a receiver `/ab` beside `/abc` renames `/abc`, with what was pushed to
it, instead. -/
theorem prefix_create_false :
    paths (after [.post (some (b "/abc")) (obj "/abc" ["x"]), .push (b "/abc") exPush,
      .post (some (b "/ab")) (obj "/ab" ["y"])]) = [b "/ab"] ∧
    (answers [.post (some (b "/abc")) (obj "/abc" ["x"]), .push (b "/abc") exPush,
      .post (some (b "/ab")) (obj "/ab" ["y"]), .get (b "/ab")])[3]? =
        some (.ok, [(b "v", .int 1), (b "o", .obj [(b "l", .strs [b "p", []])])]) := ⟨by decide, rfl⟩

/-- Disagreement: a push to `/ab` is checked against the types of `/abc`: one of the type `/ab`
takes is refused. -/
theorem prefix_push_false :
    (answers [.post none [(b "receivers", .objs [obj "/abc" ["y"], obj "/ab" ["x"]])], .push (b "/ab") exPush]).map (·.1) =
      [.changed, .forbidden] := by decide

/-- Disagreement: a payload that lists a receiver with the path of a resource of the
application is accepted, and removing the receivers removes that resource. -/
theorem own_resource_false :
    (answers [.post none [(b "receivers", .objs [obj "/light" ["x"]])], .delete none]).map (·.1) = [.changed, .deleted] ∧
    reach (after [.post none [(b "receivers", .objs [obj "/light" ["x"]])], .delete none]) = [] := by decide

/-- Disagreement: the path in the query is checked, that in the payload is used: a request
refused with 4.00 leaves a receiver with the path of the application's resource. -/
theorem other_path_false :
    (answers [.post (some (b "/z")) (obj "/light" ["x"])]).map (·.1) = [.bad] ∧
    paths (after [.post (some (b "/z")) (obj "/light" ["x"])]) = [b "/light"] ∧
    reach (after [.post (some (b "/z")) (obj "/light" ["x"]), .delete (some (b "/light"))]) = [] := by decide

/-- Disagreement: the resource of a receiver whose path has no slash stays when the receiver is
deleted, and a push to it is never answered. -/
theorem no_slash_false :
    (answers [.post (some (b "a")) (obj "a" ["x"]), .push (b "/a") exPush, .delete (some (b "a"))]).map (·.1) =
      [.changed, .silent, .deleted] ∧
    reach (after [.post (some (b "a")) (obj "a" ["x"]), .delete (some (b "a"))]) = [b "/light", b "/a"] := by decide

/-- Disagreement: an update with a value of another type is answered as done, with the values
before it set and those behind it not. -/
theorem half_update_false :
    (answers [.post (some (b "/a")) (obj "/a" ["x"]),
      .post (some (b "/a")) [(b "receiveruri", .str (b "/b")), (b "q", .int 1), (b "rts", .strs [b "y"])]]).map (·.1) =
      [.changed, .changed] ∧
    (after [.post (some (b "/a")) (obj "/a" ["x"]),
      .post (some (b "/a")) [(b "receiveruri", .str (b "/b")), (b "q", .int 1), (b "rts", .strs [b "y"])]]).recvs =
      [⟨1, b "/b", [b "x"]⟩] := by decide

/-- Disagreement: only the first list of types of a payload is checked, the last one is set. -/
theorem second_types_false :
    (answers [.post (some (b "/a")) (obj "/a" ["x"]),
      .push (b "/a") [(b "rt", .strs [b "x"]), (b "rt", .strs [b "y"]), (b "v", .int 1)]]).map (·.1) = [.changed, .changed] ∧
    (after [.post (some (b "/a")) (obj "/a" ["x"]),
      .push (b "/a") [(b "rt", .strs [b "x"]), (b "rt", .strs [b "y"]), (b "v", .int 1)]]).rscs.map (·.types) =
      [[b "core.light"], [b "y"]] := by decide

/-- Disagreement: a push of the common properties only is answered with 5.00 and removes what
was pushed before. -/
theorem common_only_false :
    (answers [.post (some (b "/a")) (obj "/a" ["x"]), .push (b "/a") exPush, .push (b "/a") [(b "rt", .strs [b "x"])],
      .get (b "/a")]).map (·.1) = [.changed, .changed, .internal, .notFound] := by decide

/-- Disagreement: a null value is kept but not shown; a byte string in an array is shown with
its size in front and cut at the first zero; empty texts are moved to the end of their array. -/
theorem altered_false :
    (answers [.post (some (b "/a")) (obj "/a" [""]),
      .push (b "/a") [(b "z", .nil), (b "d", .bytess [[7, 0, 9]]), (b "l", .strs [[], b "p"])], .get (b "/a")])[2]? =
      some (.ok, [(b "d", .bytess [[3, 7]]), (b "l", .strs [b "p", []])]) := rfl

/-- The requests of a client after which a representation refers to a resource that was
freed. -/
def danglingOps : List Op :=
  [.post (some (b "/z")) (obj "/light" ["x"]), .post (some (b "/light")) (obj "/x" ["x"]),
   .post (some (b "/y")) (obj "/x" ["x"]), .delete (some (b "/x"))]

/-- Undefined: a client makes a receiver with the path of the application's resource, renames
it, makes another with its new path and deletes the first: the resource of the second is freed
and every later look for a pushed resource reads it. -/
theorem dangling_ub :
    (answers danglingOps).map (·.1) = [.bad, .changed, .changed, .deleted] ∧
    run noCore start (danglingOps ++ [.delete (some (b "/x"))]) = .ub := ⟨by decide, rfl⟩

end Verif.PushRecv
