import Verif.ObtInit.Lemmas

/-!
C146: The keys of an onboarding tool.
-/

namespace Verif.ObtInit

open Verif.Rep (Bytes b Val Rep)

/-! ### Saving and loading -/

/-- Keys that are there: they fit their arrays. -/
def exKeys : Keys := ⟨[1, 2, 3], 5, 2 :: List.replicate 6 9, List.replicate 32 7⟩

/-- What was saved is what is loaded, whatever the memory held before. -/
theorem round_trip (g g' : Keys) (h : Valid g) : load (dump g) g' = .ok g :=
  load_dump g g' h

example : Valid exKeys := ⟨by decide, by decide, by decide, by decide⟩

/-- The stored properties that mean something: name and type. -/
def known (p : Bytes × Val) : Bool :=
  match p.2 with
  | .int _ => p.1 = b "credid"
  | .bytes _ => p.1 = b "private_key" ∨ p.1 = b "groupid" ∨ p.1 = b "group_secret"
  | _ => false

/-- Other stored properties, and those of another type, do not matter. -/
theorem unknown_ignored (r : Rep) (g : Keys) : load (r.filter known) g = load r g := by
  induction r generalizing g with
  | nil => rfl
  | cons p l ih =>
    rw [List.filter_cons]
    split
    · rw [load, load]
      congr 1
      exact funext ih
    · next h =>
      have hp : loadProp g p = .ok g := by
        obtain ⟨k, v⟩ := p
        cases v with
        | int i => simp only [known, decide_eq_true_eq] at h; simp only [loadProp, if_neg h]
        | bytes t =>
          simp only [known, decide_eq_true_eq, not_or] at h
          simp only [loadProp, if_neg h.1, if_neg h.2.1, if_neg h.2.2]
        | _ => rfl
      rw [load, hp]
      exact ih g

example : (dump exKeys).all known = true ∧ known (b "x", .int 3) = false := by decide

/-- What has to hold of a stored property for loading it to stay inside the arrays. -/
def Fits (p : Bytes × Val) : Prop := ∀ s, p.2 = .bytes s →
  (p.1 = b "private_key" → s.length ≤ 200) ∧ (p.1 = b "groupid" → 7 ≤ s.length + 1) ∧
    (p.1 = b "group_secret" → 32 ≤ s.length + 1)

/-- Exactly those stored states can be loaded without leaving the arrays; the code
does not check it. -/
theorem load_safe (r : Rep) (g : Keys) : load r g ≠ .ub ↔ ∀ p ∈ r, Fits p := by
  induction r generalizing g with
  | nil => simp [load]
  | cons p l ih =>
    rw [load, List.forall_mem_cons]
    rcases prop_cases p g with ⟨g', hg, hf⟩ | ⟨hu, hf⟩
    · rw [hg]
      exact (ih g').trans ⟨fun h => ⟨hf, h⟩, fun h => h.2⟩
    · rw [hu]
      exact ⟨fun h => absurd rfl h, fun h => absurd h.1 hf⟩

example : ∀ p ∈ dump exKeys, Fits p := (load_safe _ zero).1 (by rw [round_trip _ _ ⟨by decide, by decide, by decide, by decide⟩]; intro h; cases h)

/-- A stored private key that is too long is written past its array
(security/oc_obt.c:353-354). -/
theorem key_ub : load [(b "private_key", .bytes (List.replicate 201 0))] zero = .ub := by
  have h : ¬(List.replicate 201 (0 : UInt8)).length ≤ keyMax := by rw [List.length_replicate]; decide
  simp only [load, loadProp, if_pos, if_neg h, Out.bind]

/-- Of a stored group id that is too short more is read than there is
(security/oc_obt.c:363). -/
theorem gid_ub : load [(b "groupid", .bytes [2, 1])] zero = .ub := by decide

/-! ### Starting the tool -/

/-- The ids of the group context and of contexts between two devices are never the
same. -/
theorem ctx_apart (r r' : Bytes) (h : r.length = 7) : genCtxid r true ≠ genCtxid r' false := by
  intro q
  cases r with
  | nil => cases h
  | cons x l =>
    cases r' with
    | nil => cases q
    | cons y l' =>
      simp only [genCtxid, List.set_cons_zero, List.cons.injEq] at q
      exact absurd q.1 (by decide)

example : genCtxid [1, 2, 3, 4, 5, 6, 7] true = [2, 2, 3, 4, 5, 6, 7] := rfl

/-- An environment in which everything works. -/
def exEnv : Env := ⟨true, [0, 1, 2, 3, 4, 5, 6], List.replicate 32 7, some [1, 2], some [48], some 4, true⟩

/-- A new tool. -/
def exNew : St := ⟨⟨false, [(3, [9])], zero⟩, ⟨false, [(3, [9])], none⟩⟩

/-- A first start succeeds exactly if a UUID, a key pair, a certificate and a
positive id are there. Then the tool has new keys, the root certificate is among its
trust anchors under the id kept, in memory and in the storage, and so are the keys if
the state could be written. -/
theorem first (e : Env) (m : Mem) (d : Disk) (h : m.op = false) :
    ((∃ x, init e m d = .ok (0, x)) ↔ e.uuid = true ∧ ∃ k c i, e.pair = some k ∧ e.cert = some c ∧ e.id = some i ∧ 0 < i) ∧
      ∀ m' ds, init e m d = .ok (0, m', ds) → ∃ k c i, e.pair = some k ∧ e.cert = some c ∧ e.id = some i ∧ 0 < i ∧
        m' = ⟨true, m.anchors ++ [(i, c)], ⟨k, i, genCtxid e.gid true, e.secret⟩⟩ ∧
        after d ds = ⟨true, m.anchors ++ [(i, c)], if e.dump then some (dump m'.keys) else d.state⟩ := by
  unfold init
  rw [h]
  simp only [Bool.false_eq_true, if_false]
  cases e.uuid
  · simp
  · simp only [Bool.not_true, Bool.false_eq_true, if_false]
    cases hp : e.pair with
    | none => simp
    | some k =>
      dsimp only
      cases hc : e.cert with
      | none => simp
      | some c =>
        cases hi : e.id with
        | none => simp
        | some i =>
          dsimp only
          by_cases hz : i ≤ 0
          · rw [if_pos hz]
            simp [Int.not_lt.2 hz]
          · rw [if_neg hz]
            cases e.dump
            · simp [after, Int.not_le.1 hz]
            · simp [after, Int.not_le.1 hz]

example : ∃ x, init exEnv exNew.mem exNew.disk = .ok (0, x) := ⟨_, rfl⟩

/-- A tool that is running its domain makes no new keys and writes nothing. -/
theorem no_new (e : Env) (m : Mem) (d : Disk) (h : m.op = true) (x : Int × Mem × List Disk) (hx : init e m d = .ok x) :
    x.1 = 0 ∧ x.2.2 = [] ∧ x.2.1.op = true ∧ x.2.1.anchors = m.anchors := by
  unfold init at hx
  rw [h] at hx
  simp only [if_true] at hx
  cases hs : d.state with
  | none => rw [hs] at hx; cases hx; exact ⟨rfl, rfl, h, rfl⟩
  | some r =>
    rw [hs] at hx
    dsimp only at hx
    cases hl : load r m.keys with
    | ub => rw [hl] at hx; cases hx
    | ok g => rw [hl] at hx; cases hx; exact ⟨rfl, rfl, rfl, rfl⟩

/-- Once the tool has started and its state was written, it has the same keys after
every start, whatever starts, crashes and restarts there were, and its root
certificate stays among its trust anchors. -/
theorem kept (e : Env) (s : St) (hn : s.mem.op = false) (hv : e.Valid) (hd : e.dump = true) (s1 : St) (m1 : Mem) (ds : List Disk)
    (h : init e s.mem s.disk = .ok (0, m1, ds)) (h1 : step s (.init e) = .ok s1) (ops : List Op) (e' : Env) :
    run (ops ++ [.init e']) s1 = .ok s1 ∧ (s1.mem.keys.credid, e.cert.getD []) ∈ s1.mem.anchors ∧ 0 < s1.mem.keys.credid := by
  obtain ⟨k, c, i, hp, hc, hi, hz, hm, hdk⟩ := (first e s.mem s.disk hn).2 m1 ds h
  have hs : s1 = ⟨m1, after s.disk ds⟩ := by
    simp only [step, h, Out.bind] at h1
    cases h1; rfl
  rw [hd, if_pos rfl] at hdk
  have hkv : Valid m1.keys := by
    rw [hm]
    exact ⟨hv.key k hp, by simpa [genCtxid] using hv.gid, hv.secret, hv.id i hi⟩
  refine ⟨?_, ?_, ?_⟩
  · obtain ⟨y, hy, hyd⟩ := run_kept ops s1 m1.keys hkv (by rw [hs, hdk]; rw [hm]) (by rw [hs, hm])
      (by rw [hs, hdk, hm])
    rw [run_append, hy]
    simp only [Out.bind, run]
    rw [step_loaded e' y m1.keys hkv (by rw [hyd.2.1, hs, hdk]) hyd.1, hyd.2.1]
    have hmem : (⟨y.mem.op, y.mem.anchors, m1.keys⟩ : Mem) = s1.mem := by
      rw [hyd.2.2, hyd.1, hs, hm]
    dsimp only
    rw [hmem]
  · rw [hs, hm, hc]
    simp
  · rw [hs, hm]
    exact hz

example : ∃ s1, step exNew (.init exEnv) = .ok s1 ∧ s1.mem.keys.credid = 4 ∧ exEnv.Valid :=
  ⟨_, rfl, rfl, ⟨by intro k hk; cases hk; decide, by decide, by decide, by intro i hi; cases hi; decide⟩⟩

/-- No history of starts, crashes and restarts of the tool makes it leave its arrays:
what it loads is what it wrote. -/
theorem never_ub (ops : List Op) (hv : ∀ o ∈ ops, o.Valid) (s : St) (hs : s.disk.state = none) : ∃ s', run ops s = .ok s' := by
  obtain ⟨s', h, _⟩ := run_wrote ops hv s (by intro r hr; rw [hs] at hr; cases hr)
  exact ⟨s', h⟩

example : ∀ o ∈ [Op.crash exEnv 2, .init exEnv], o.Valid := by
  have h : exEnv.Valid := ⟨by intro k hk; cases hk; decide, by decide, by decide, by intro i hi; cases hi; decide⟩
  intro o ho
  simp only [List.mem_cons, List.not_mem_nil, or_false] at ho
  rcases ho with rfl | rfl <;> exact h

/-- A tool that crashes in its first start before anything was written, or after all
was, is as if it had not started or as if it had. Missing: crashes in between
(`crash_false`). -/
theorem crash_partial (e : Env) (s : St) (k : Nat) (x : Int × Mem × List Disk) (h : init e s.mem s.disk = .ok x) :
    step s (.crash e 0) = step s .boot ∧
      (x.2.2.length ≤ k → step s (.crash e k) = (step s (.init e)).bind fun y => step y .boot) := by
  refine ⟨by simp [step, h, Out.bind, after], fun hk => ?_⟩
  simp only [step, h, Out.bind, List.take_of_length_le hk]

/-! ### What is not so -/

/-- A tool that crashes in its first start between the first write and the last is
taken for a running one at the next start, which succeeds with a group secret of
zeros, no root certificate and no private key (security/oc_obt.c:3818-3823). -/
theorem crash_false : ∀ k, 1 ≤ k → k ≤ 3 → ∃ m d, run [.crash exEnv k] exNew = .ok ⟨m, d⟩ ∧
    init exEnv m d = .ok (0, m, []) ∧ m.keys = zero := by
  intro k h1 h3
  have : k = 1 ∨ k = 2 ∨ k = 3 := by omega
  rcases this with rfl | rfl | rfl <;> exact ⟨_, _, rfl, rfl, rfl⟩

/-- After a first start that failed for want of a certificate the next one is told to
have succeeded, without a root certificate. -/
theorem again_false : ∃ m ds, init { exEnv with cert := none } exNew.mem exNew.disk = .ok (-1, m, ds) ∧
    init exEnv m (after exNew.disk ds) = .ok (0, m, []) ∧ m.keys.credid = -1 :=
  ⟨_, _, rfl, rfl, rfl⟩

/-- A first start whose state cannot be written succeeds, and after a restart the keys
are lost. -/
theorem unsaved_false : ∃ m ds, init { exEnv with dump := false } exNew.mem exNew.disk = .ok (0, m, ds) ∧
    init exEnv (boot (after exNew.disk ds)) (after exNew.disk ds) = .ok (0, boot (after exNew.disk ds), []) ∧
    m.keys.credid = 4 ∧ (boot (after exNew.disk ds)).keys.credid = 0 :=
  ⟨_, _, rfl, rfl, rfl, rfl⟩

end Verif.ObtInit
