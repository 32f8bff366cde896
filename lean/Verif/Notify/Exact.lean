import Verif.Notify.Lemmas

/-! Lemmas: the loops over observers and collections when nothing fails. -/

namespace Verif.Notify

theorem pass_eq (r : Res) (ep : Option Nat) : pass r ep = wanted r ep := by
  funext o
  unfold pass wanted
  rw [Bool.eq_iff_iff]
  cases ep with
  | none =>
    simp only [Option.all_none, Bool.and_true, Bool.and_eq_true, beq_iff_eq, Bool.not_eq_true', Bool.and_eq_false_iff,
      bne_iff_ne, bne_eq_false_iff_eq, decide_eq_true_eq, beq_eq_false_iff_ne, reduceCtorEq, false_implies, implies_true,
      true_and]
    cases r.coll <;> cases r.disc <;> simp [and_assoc]
  | some x =>
    simp only [Option.all_some, Bool.and_eq_true, beq_iff_eq, Bool.not_eq_true', Bool.and_eq_false_iff,
      bne_iff_ne, bne_eq_false_iff_eq, decide_eq_true_eq, beq_eq_false_iff_ne]
    cases r.coll <;> cases r.disc <;> simp [and_assoc, eq_comm]

theorem collPass_eq (c : Coll) : collPass c = collWanted c := by
  funext o
  unfold collPass collWanted
  rw [Bool.eq_iff_iff]
  simp

theorem linking_eq (e : Env) (r : Res) : (e.colls.filter fun c => c.links.contains r.id) = linking e r := by
  unfold linking
  congr 1
  funext c
  rw [Bool.eq_iff_iff]
  simp

theorem idle_find {s : St} {o : Obs} (h : Idle s o) : s.xfers.find? (own o) = none := by
  rw [List.find?_eq_none]
  intro x hx hh
  simp only [own, Bool.and_eq_true, beq_iff_eq] at hh
  exact h x hx ⟨hh.1.1, hh.1.2, hh.2⟩

theorem notes_map (l : List Obs) (B : Obs → Buf) (m : Nat) :
    (l.zipIdx m).map (fun p => noteOf p.1 (B p.1) p.2) = notes (l.map fun o => (o, B o)) m := by
  unfold notes
  rw [List.zipIdx_map, List.map_map]
  rfl

theorem notes_append (l k : List (Obs × Buf)) (m : Nat) : notes (l ++ k) m = notes l m ++ notes k (m + l.length) := by
  unfold notes
  rw [List.zipIdx_append, List.map_append]

theorem nobs_pos {s : St} {o : Obs} (ho : o ∈ s.obs) : nobs s o.res ≠ 0 := by
  unfold nobs
  intro hh
  rw [List.length_eq_zero_iff, List.filter_eq_nil_iff] at hh
  exact hh o ho (by simp)

theorem filter_bump {l : List Obs} {f : Obs → Obs} {p : Obs → Bool} (h1 : ∀ x ∈ l, p (f x) = p x)
    (h2 : ∀ x ∈ l, p x = true → f x = x) : (l.map f).filter p = l.filter p := by
  induction l with
  | nil => rfl
  | cons x l ih =>
    have ih := ih (fun y hy => h1 y (List.mem_cons_of_mem _ hy)) (fun y hy => h2 y (List.mem_cons_of_mem _ hy))
    rw [List.map_cons, List.filter_cons, List.filter_cons, h1 x List.mem_cons_self, ih]
    by_cases hp : p x = true
    · rw [if_pos hp, if_pos hp, h2 x List.mem_cons_self hp]
    · rw [if_neg hp, if_neg hp]

/-- Everything in place for the observers `os` that `P` selects, with the
representations `B`. -/
structure Ready (s : St) (P : Obs → Bool) (B : Obs → Buf) : Prop where
  dis : Distinct s
  ok : ∀ o ∈ s.obs, P o = true → Sendable (B o) ∧ o.iface ≠ ifRevert ∧ Idle s o
  mem : (s.obs.filter P).length ≤ s.mem
  bufs : (s.obs.filter P).length ≤ s.bufs

/-- What a loop without failures leaves. -/
structure Done (s t : St) (P : Obs → Bool) (B : Obs → Buf) : Prop where
  outs : t.outs = s.outs ++ notes ((s.obs.filter P).map fun o => (o, B o)) s.mid
  mid : t.mid = s.mid + (s.obs.filter P).length
  mem : s.mem - (s.obs.filter P).length ≤ t.mem
  bufs : s.bufs - (s.obs.filter P).length ≤ t.bufs
  xfers : ∀ x ∈ t.xfers, x ∈ s.xfers ∨ ∃ o ∈ s.obs, P o = true ∧ x.res = o.res
  obs : t.obs = s.obs.map fun x => if P x then { x with cnt := inc x.cnt } else x

theorem eq_of_id {l : List Obs} (h : (l.map (·.id)).Nodup) {x y : Obs} (hx : x ∈ l) (hy : y ∈ l) (he : x.id = y.id) : x = y := by
  induction l with
  | nil => cases hx
  | cons a l ih =>
    rw [List.map_cons, List.nodup_cons] at h
    rcases List.mem_cons.1 hx with h1 | h1 <;> rcases List.mem_cons.1 hy with h2 | h2
    · rw [h1, h2]
    · subst h1; exact (h.1 (List.mem_map.2 ⟨y, h2, he.symm⟩)).elim
    · subst h2; exact (h.1 (List.mem_map.2 ⟨x, h1, he⟩)).elim
    · exact ih h.2 h1 h2

theorem any_id {l : List Obs} (h : (l.map (·.id)).Nodup) {P : Obs → Bool} {x : Obs} (hx : x ∈ l) :
    (l.filter P).any (fun y => y.id == x.id) = P x := by
  rw [Bool.eq_iff_iff, List.any_eq_true]
  constructor
  · rintro ⟨y, hy, he⟩
    obtain ⟨h1, h2⟩ := List.mem_filter.1 hy
    rw [← eq_of_id h h1 hx (by simpa using he)]
    exact h2
  · intro hp
    exact ⟨x, List.mem_filter.2 ⟨hx, hp⟩, by simp⟩

theorem gen_done {g : Bool} {P : Obs → Bool} {F : Obs → Buf → Buf × Bool} {Q : Buf → Prop} {B : Obs → Buf} {s : St} {b : Buf}
    {n : Nat} (h : Ready s P B) (hF : ∀ o ∈ s.obs, P o = true → (∀ b, Q b → F o b = (B o, true)) ∧ Q (B o)) (hQ : Q b) :
    Done s (gen g P F s.obs s b n).1 P B ∧ (gen g P F s.obs s b n).2.2 = n + (s.obs.filter P).length ∧
      Q (gen g P F s.obs s b n).2.1 := by
  obtain ⟨i1, i2, i3, i4, i5, i6, i7, i8⟩ := gen_good (g := g) (P := P) (F := F) (Q := Q) (B := B) s.obs s b n
    (by
      intro o ho hp
      obtain ⟨h1, h2, h3⟩ := h.ok o ho hp
      obtain ⟨h4, h5⟩ := hF o ho hp
      exact ⟨h4, h5, h1.1, h1.2, h2, nobs_pos ho, idle_find h3⟩)
    (h.dis.2.sublist (List.Sublist.map _ List.filter_sublist)) h.mem h.bufs hQ
  refine ⟨⟨by rw [i1, notes_map], i4, i5, i6, i7, ?_⟩, i2, i3⟩
  rw [i8 h.dis.1]
  apply List.map_congr_left
  intro x hx
  rw [any_id h.dis.1 hx]

theorem done_distinct {s t : St} {P : Obs → Bool} {B : Obs → Buf} (h : Done s t P B) (hd : Distinct s) : Distinct t := by
  unfold Distinct
  rw [h.obs, List.map_map, List.map_map]
  refine ⟨?_, ?_⟩
  · have : s.obs.map ((fun o : Obs => o.id) ∘ fun x => if P x = true then { x with cnt := inc x.cnt } else x) = s.obs.map (·.id) := by
      apply List.map_congr_left
      intro x _
      simp only [Function.comp]
      split <;> rfl
    rw [this]; exact hd.1
  · have : s.obs.map ((fun o : Obs => (o.ep, o.res, o.iface)) ∘ fun x => if P x = true then { x with cnt := inc x.cnt } else x) = s.obs.map (fun o => (o.ep, o.res, o.iface)) := by
      apply List.map_congr_left
      intro x _
      simp only [Function.comp]
      split <;> rfl
    rw [this]; exact hd.2

/-- Observers of another resource are as before. -/
theorem done_other {s t : St} {P K : Obs → Bool} {B : Obs → Buf} (h : Done s t P B) (hk : ∀ o, K (er o) = K o)
    (hpk : ∀ o ∈ s.obs, P o = true → K o = false) : t.obs.filter K = s.obs.filter K := by
  rw [h.obs]
  apply filter_bump
  · intro x _
    have : ∀ y : Obs, K { y with cnt := inc y.cnt } = K y := fun y => by
      rw [← hk y, ← hk { y with cnt := inc y.cnt }]; rfl
    split
    · exact this x
    · rfl
  · intro x hx hK
    split
    · rename_i hp
      rw [hpk x hx hp] at hK; cases hK
    · rfl

theorem done_idle {s t : St} {P : Obs → Bool} {B : Obs → Buf} {o : Obs} (h : Done s t P B) (hi : Idle s o)
    (hr : ∀ o' ∈ s.obs, P o' = true → o'.res ≠ o.res) : Idle t o := by
  intro x hx hh
  rcases h.xfers x hx with hx | ⟨o', ho', hp, hxr⟩
  · exact hi x hx hh
  · exact hr o' ho' hp (hxr.symm.trans hh.2.1)

/-- The pairs of observers and representations for the collections `cs`. -/
def collNotes (bc : Nat → Buf) (s : St) (cs : List Coll) : List (Obs × Buf) :=
  cs.flatMap fun c => (s.obs.filter (collWanted c)).map fun o => (o, bc c.id)

/-- Everything in place for the collections. -/
structure CollReady (ch : Nat → Option Buf) (bc : Nat → Buf) (s : St) (cs : List Coll) : Prop where
  dis : Distinct s
  ids : (cs.map (·.id)).Nodup
  has : ∀ c ∈ cs, nobs s c.id ≠ 0 ∧ ch c.id = some (bc c.id) ∧ Sendable (bc c.id)
  ok : ∀ c ∈ cs, ∀ o ∈ s.obs, collWanted c o = true → o.iface ≠ ifRevert ∧ Idle s o
  mem : (collNotes bc s cs).length ≤ s.mem
  bufs : (collNotes bc s cs).length ≤ s.bufs

theorem collWanted_er (c : Coll) (o : Obs) : collWanted c (er o) = collWanted c o := rfl

theorem collWanted_res {c : Coll} {o : Obs} (h : collWanted c o = true) : o.res = c.id := by
  unfold collWanted at h
  exact (of_decide_eq_true h).1

theorem collNotes_other {s t : St} {P : Obs → Bool} {B : Obs → Buf} (bc : Nat → Buf) {cs : List Coll} (h : Done s t P B)
    (hr : ∀ c ∈ cs, ∀ o ∈ s.obs, P o = true → o.res ≠ c.id) : collNotes bc t cs = collNotes bc s cs := by
  unfold collNotes
  induction cs with
  | nil => rfl
  | cons c cs ih =>
    rw [List.flatMap_cons, List.flatMap_cons, ih (fun c' hc' => hr c' (List.mem_cons_of_mem _ hc'))]
    rw [done_other h (collWanted_er c) (fun o ho hp => by
      rw [Bool.eq_false_iff]
      intro hw
      exact hr c List.mem_cons_self o ho hp (collWanted_res hw))]

theorem mem_of_done {s t : St} {P : Obs → Bool} {B : Obs → Buf} (h : Done s t P B) {o : Obs} (ho : o ∈ t.obs) :
    ∃ x ∈ s.obs, x.ep = o.ep ∧ x.res = o.res ∧ x.iface = o.iface ∧ er x = er o := by
  rw [h.obs] at ho
  obtain ⟨x, hx, he⟩ := List.mem_map.1 ho
  refine ⟨x, hx, ?_⟩
  rw [← he]
  split <;> exact ⟨rfl, rfl, rfl, rfl⟩

theorem done_same {s t : St} {P : Obs → Bool} {B : Obs → Buf} (h : Done s t P B) : sameObs s t := by
  unfold sameObs
  rw [h.obs, List.map_map]
  apply List.map_congr_left
  intro x _
  simp only [Function.comp]
  split <;> rfl

theorem collReady_done {s t : St} {P : Obs → Bool} {B : Obs → Buf} {ch : Nat → Option Buf} {bc : Nat → Buf} {cs : List Coll}
    (h : Done s t P B) (hd : Distinct s) (hid : (cs.map (·.id)).Nodup)
    (hhas : ∀ c ∈ cs, nobs s c.id ≠ 0 ∧ ch c.id = some (bc c.id) ∧ Sendable (bc c.id))
    (hok : ∀ c ∈ cs, ∀ o ∈ s.obs, collWanted c o = true → o.iface ≠ ifRevert ∧ Idle s o)
    (hr : ∀ c ∈ cs, ∀ o ∈ s.obs, P o = true → o.res ≠ c.id)
    (hm : (s.obs.filter P).length + (collNotes bc s cs).length ≤ s.mem)
    (hb : (s.obs.filter P).length + (collNotes bc s cs).length ≤ s.bufs) : CollReady ch bc t cs := by
  refine ⟨done_distinct h hd, hid, ?_, ?_, ?_, ?_⟩
  · intro c hc
    rw [nobs_same (done_same h)]
    exact hhas c hc
  · intro c hc o ho hw
    obtain ⟨x, hx, h1, h2, h3, h4⟩ := mem_of_done h ho
    have hwx : collWanted c x = true := by rw [← collWanted_er, h4, collWanted_er]; exact hw
    obtain ⟨k1, k2⟩ := hok c hc x hx hwx
    refine ⟨h3 ▸ k1, ?_⟩
    have hidle : Idle s o := by
      intro y hy hh
      exact k2 y hy ⟨hh.1.trans h1.symm, hh.2.1.trans h2.symm, hh.2.2.trans h3.symm⟩
    exact done_idle h hidle (fun o' ho' hp => by rw [collWanted_res hw]; exact hr c hc o' ho' hp)
  · rw [collNotes_other bc h hr]; have := h.mem; omega
  · rw [collNotes_other bc h hr]; have := h.bufs; omega

theorem colls_good {ch : Nat → Option Buf} {bc : Nat → Buf} : ∀ (cs : List Coll) (s : St) (b : Buf), CollReady ch bc s cs →
    (collsLoop ch cs s b).outs = s.outs ++ notes (collNotes bc s cs) s.mid := by
  intro cs
  induction cs with
  | nil => intro s b _; simp [collsLoop, collNotes, notes]
  | cons c cs ih =>
    intro s b h
    obtain ⟨hn, hch, hsend⟩ := h.has c List.mem_cons_self
    unfold collsLoop
    rw [if_neg hn, hch]
    dsimp only
    have hlen : (collNotes bc s (c :: cs)).length = (s.obs.filter (collWanted c)).length + (collNotes bc s cs).length := by
      simp [collNotes, List.flatMap_cons]
    have hm := h.mem
    have hb := h.bufs
    rw [hlen] at hm hb
    have hready : Ready s (collWanted c) (fun _ => bc c.id) :=
      ⟨h.dis, fun o ho hw => ⟨hsend, h.ok c List.mem_cons_self o ho hw⟩, by omega, by omega⟩
    obtain ⟨hdone, _, _⟩ := gen_done (g := true) (F := fun _ b => (b, true)) (Q := fun b => b = bc c.id) (n := 0) hready
      (fun o ho hw => ⟨fun b hb => by rw [hb], rfl⟩) (rfl : bc c.id = bc c.id)
    have hloop : (collLoop c s.obs s (bc c.id)).1 = (gen true (collWanted c) (fun _ b => (b, true)) s.obs s (bc c.id) 0).1 := by
      rw [collLoop_gen c s.obs s (bc c.id) 0, collPass_eq]
    have hids := h.ids
    rw [List.map_cons, List.nodup_cons] at hids
    have hr : ∀ c' ∈ cs, ∀ o ∈ s.obs, collWanted c o = true → o.res ≠ c'.id := by
      intro c' hc' o _ hw hh
      exact hids.1 (List.mem_map.2 ⟨c', hc', by rw [← hh, collWanted_res hw]⟩)
    have hnext : CollReady ch bc (collLoop c s.obs s (bc c.id)).1 cs := by
      rw [hloop]
      exact collReady_done hdone h.dis hids.2 (fun c' hc' => h.has c' (List.mem_cons_of_mem _ hc'))
        (fun c' hc' => h.ok c' (List.mem_cons_of_mem _ hc')) hr hm hb
    rw [ih _ _ hnext, hloop, hdone.outs, hdone.mid, collNotes_other bc hdone hr, List.append_assoc]
    congr 1
    have : collNotes bc s (c :: cs) = (s.obs.filter (collWanted c)).map (fun o => (o, bc c.id)) ++ collNotes bc s cs := by
      simp [collNotes, List.flatMap_cons]
    rw [this, notes_append, List.length_map]

end Verif.Notify
