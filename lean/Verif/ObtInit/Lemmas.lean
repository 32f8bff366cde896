import Verif.ObtInit.Model

/-! Lemmas for the keys of an onboarding tool. -/

namespace Verif.ObtInit

open Verif.Rep (Bytes b Val Rep)

/-- Keys fit their arrays and types. -/
structure Valid (g : Keys) : Prop where
  key : g.key.length ≤ keyMax
  gid : g.gid.length = gidLen
  secret : g.secret.length = secretLen
  credid : Sec.toInt32 g.credid = g.credid

/-- The environment gives keys of the sizes asked for. -/
structure Env.Valid (e : Env) : Prop where
  key : ∀ k, e.pair = some k → k.length ≤ keyMax
  gid : e.gid.length = gidLen
  secret : e.secret.length = secretLen
  id : ∀ i, e.id = some i → Sec.toInt32 i = i

/-- So does that of an event. -/
def Op.Valid : Op → Prop
  | .init e => e.Valid
  | .crash e _ => e.Valid
  | .boot => True

theorem copy_exact {n : Nat} {s : Bytes} (h : s.length = n) : copy n s = .ok s := by
  unfold copy
  rw [if_pos (by omega), List.take_append_of_le_length (by omega), List.take_of_length_le (by omega)]

theorem copy_cases (n : Nat) (s : Bytes) : (∃ x, copy n s = .ok x ∧ n ≤ s.length + 1) ∨ (copy n s = .ub ∧ ¬n ≤ s.length + 1) := by
  unfold copy
  split
  · next h => exact .inl ⟨_, rfl, h⟩
  · next h => exact .inr ⟨rfl, h⟩

theorem prop_cases (p : Bytes × Val) (g : Keys) :
    (∃ g', loadProp g p = .ok g' ∧ ∀ s, p.2 = .bytes s →
      (p.1 = b "private_key" → s.length ≤ 200) ∧ (p.1 = b "groupid" → 7 ≤ s.length + 1) ∧
        (p.1 = b "group_secret" → 32 ≤ s.length + 1)) ∨
    (loadProp g p = .ub ∧ ¬∀ s, p.2 = .bytes s →
      (p.1 = b "private_key" → s.length ≤ 200) ∧ (p.1 = b "groupid" → 7 ≤ s.length + 1) ∧
        (p.1 = b "group_secret" → 32 ≤ s.length + 1)) := by
  have d1 : b "private_key" ≠ b "groupid" := by decide
  have d2 : b "private_key" ≠ b "group_secret" := by decide
  have d3 : b "groupid" ≠ b "group_secret" := by decide
  obtain ⟨n, v⟩ := p
  unfold loadProp
  cases v with
  | bytes s =>
    dsimp only
    by_cases h1 : n = b "private_key"
    · subst h1
      rw [if_pos rfl]
      by_cases hl : s.length ≤ keyMax
      · rw [if_pos hl]
        refine .inl ⟨_, rfl, ?_⟩
        intro t ht; cases ht
        exact ⟨fun _ => hl, fun q => absurd q d1, fun q => absurd q d2⟩
      · rw [if_neg hl]
        exact .inr ⟨rfl, fun q => hl ((q s rfl).1 rfl)⟩
    · rw [if_neg h1]
      by_cases h2 : n = b "groupid"
      · subst h2
        rw [if_pos rfl]
        rcases copy_cases gidLen s with ⟨x, hx, hl⟩ | ⟨hx, hl⟩
        · rw [hx]
          refine .inl ⟨_, rfl, ?_⟩
          intro t ht; cases ht
          exact ⟨fun q => absurd q h1, fun _ => hl, fun q => absurd q d3⟩
        · rw [hx]
          exact .inr ⟨rfl, fun q => hl ((q s rfl).2.1 rfl)⟩
      · rw [if_neg h2]
        by_cases h3 : n = b "group_secret"
        · subst h3
          rw [if_pos rfl]
          rcases copy_cases secretLen s with ⟨x, hx, hl⟩ | ⟨hx, hl⟩
          · rw [hx]
            refine .inl ⟨_, rfl, ?_⟩
            intro t ht; cases ht
            exact ⟨fun q => absurd q h1, fun q => absurd q h2, fun _ => hl⟩
          · rw [hx]
            exact .inr ⟨rfl, fun q => hl ((q s rfl).2.2 rfl)⟩
        · rw [if_neg h3]
          refine .inl ⟨_, rfl, ?_⟩
          intro t _
          exact ⟨fun q => absurd q h1, fun q => absurd q h2, fun q => absurd q h3⟩
  | _ => exact .inl ⟨_, rfl, (by intro s hs; cases hs)⟩

/-- What was saved is what is loaded. -/
theorem load_dump (g g' : Keys) (h : Valid g) : load (dump g) g' = .ok g := by
  have h1 : copy gidLen g.gid = .ok g.gid := copy_exact h.gid
  have h2 : copy secretLen g.secret = .ok g.secret := copy_exact h.secret
  have n1 : b "groupid" ≠ b "private_key" := by decide
  have n2 : b "group_secret" ≠ b "private_key" := by decide
  have n3 : b "group_secret" ≠ b "groupid" := by decide
  simp only [dump, load, loadProp, Out.bind, if_true, h.key, n1, n2, n3, if_false, h1, h2, h.credid]

theorem run_append (l l' : List Op) (s : St) : run (l ++ l') s = (run l s).bind (run l') := by
  induction l generalizing s with
  | nil => rfl
  | cons o l ih =>
    simp only [List.cons_append, run]
    cases step s o with
    | ub => rfl
    | ok y => exact ih y

theorem init_loaded (e : Env) (m : Mem) (d : Disk) (g : Keys) (h : Valid g) (hd : d.state = some (dump g)) (ho : m.op = true) :
    init e m d = .ok (0, { m with keys := g }, []) := by
  unfold init
  rw [ho, if_pos rfl, hd]
  dsimp only
  rw [load_dump g _ h]
  rfl

theorem step_loaded (e : Env) (s : St) (g : Keys) (h : Valid g) (hd : s.disk.state = some (dump g)) (ho : s.mem.op = true) :
    step s (.init e) = .ok ⟨{ s.mem with keys := g }, s.disk⟩ := by
  simp only [step, init_loaded e s.mem s.disk g h hd ho, Out.bind]
  rfl

/-- A tool whose state was written keeps its storage. -/
theorem run_kept (ops : List Op) (s : St) (g : Keys) (h : Valid g) (hd : s.disk = ⟨true, s.mem.anchors, some (dump g)⟩)
    (ho : s.mem.op = true) (hds : s.disk.op = true) :
    ∃ y, run ops s = .ok y ∧ y.mem.op = true ∧ y.disk = s.disk ∧ y.mem.anchors = s.mem.anchors := by
  induction ops generalizing s with
  | nil => exact ⟨s, rfl, ho, rfl, rfl⟩
  | cons o l ih =>
    have hst : s.disk.state = some (dump g) := by rw [hd]
    have key : ∃ z, step s o = .ok z ∧ z.mem.op = true ∧ z.disk = s.disk ∧ z.mem.anchors = s.mem.anchors := by
      have hda : s.disk.anchors = s.mem.anchors := by rw [hd]
      cases o with
      | init e => exact ⟨_, step_loaded e s g h hst ho, ho, rfl, rfl⟩
      | crash e k =>
        refine ⟨⟨boot s.disk, s.disk⟩, ?_, hds, rfl, hda⟩
        simp only [step, init_loaded e s.mem s.disk g h hst ho, Out.bind, List.take_nil]
        rfl
      | boot => exact ⟨_, rfl, hds, rfl, hda⟩
    obtain ⟨z, hz, z1, z2, z3⟩ := key
    obtain ⟨y, hy, y1, y2, y3⟩ := ih z (by rw [z2, z3]; exact hd) z1 (by rw [z2]; exact hds)
    exact ⟨y, by rw [run, hz]; exact hy, y1, y2.trans z2, y3.trans z3⟩

/-- What is stored was written by the tool. -/
def Wrote (d : Disk) : Prop := ∀ r, d.state = some r → ∃ g, Valid g ∧ r = dump g

theorem after_mem (d : Disk) (l : List Disk) : after d l = d ∨ after d l ∈ l := by
  unfold after
  cases h : l.getLast? with
  | none => exact .inl rfl
  | some x => exact .inr (List.mem_of_getLast? h)

theorem init_wrote (e : Env) (hv : e.Valid) (m : Mem) (d : Disk) (h : Wrote d) :
    ∃ x, init e m d = .ok x ∧ ∀ y ∈ x.2.2, Wrote y := by
  unfold init
  split
  · split
    · exact ⟨_, rfl, by intro y hy; cases hy⟩
    · next r hr =>
      obtain ⟨g, hg, rfl⟩ := h r hr
      rw [load_dump g _ hg]
      exact ⟨_, rfl, by intro y hy; cases hy⟩
  · split
    · exact ⟨_, rfl, by intro y hy; cases hy⟩
    · have ht : ∀ (o : Bool) a, Wrote ⟨o, a, d.state⟩ := fun _ _ r hr => h r hr
      split
      · refine ⟨_, rfl, ?_⟩
        simp only [List.mem_cons, List.not_mem_nil, or_false]
        rintro y (rfl | rfl) <;> exact ht _ _
      · next k hk =>
        split
        · next c i hc hi =>
          dsimp only
          split
          · refine ⟨_, rfl, ?_⟩
            simp only [List.mem_cons, List.not_mem_nil, or_false]
            rintro y (rfl | rfl | rfl) <;> exact ht _ _
          · split
            · refine ⟨_, rfl, ?_⟩
              simp only [List.mem_cons, List.not_mem_nil, or_false]
              rintro y (rfl | rfl | rfl | rfl)
              · exact ht _ _
              · exact ht _ _
              · exact ht _ _
              · intro r hr
                cases hr
                exact ⟨_, ⟨hv.key k hk, by simpa [genCtxid] using hv.gid, hv.secret, hv.id i hi⟩, rfl⟩
            · refine ⟨_, rfl, ?_⟩
              simp only [List.mem_cons, List.not_mem_nil, or_false]
              rintro y (rfl | rfl | rfl) <;> exact ht _ _
        · refine ⟨_, rfl, ?_⟩
          simp only [List.mem_cons, List.not_mem_nil, or_false]
          rintro y (rfl | rfl) <;> exact ht _ _

theorem run_wrote (ops : List Op) (hv : ∀ o ∈ ops, o.Valid) (s : St) (h : Wrote s.disk) :
    ∃ s', run ops s = .ok s' ∧ Wrote s'.disk := by
  induction ops generalizing s with
  | nil => exact ⟨s, rfl, h⟩
  | cons o l ih =>
    have key : ∃ z, step s o = .ok z ∧ Wrote z.disk := by
      have ho := hv o (by simp)
      cases o with
      | init e =>
        obtain ⟨x, hx, hw⟩ := init_wrote e ho s.mem s.disk h
        refine ⟨_, by simp only [step, hx, Out.bind]; rfl, ?_⟩
        rcases after_mem s.disk x.2.2 with q | q
        · dsimp only; rw [q]; exact h
        · exact hw _ q
      | crash e k =>
        obtain ⟨x, hx, hw⟩ := init_wrote e ho s.mem s.disk h
        refine ⟨_, by simp only [step, hx, Out.bind]; rfl, ?_⟩
        rcases after_mem s.disk (x.2.2.take k) with q | q
        · dsimp only; rw [q]; exact h
        · exact hw _ (List.mem_of_mem_take q)
      | boot => exact ⟨_, rfl, h⟩
    obtain ⟨z, hz, zw⟩ := key
    obtain ⟨s', hs', w⟩ := ih (fun o ho => hv o (by simp [ho])) z zw
    exact ⟨s', by rw [run, hz]; exact hs', w⟩

end Verif.ObtInit
