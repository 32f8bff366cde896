import Verif.CloudRd.InvLemmas

/-! The device together with a cloud. -/

namespace Verif.CloudRd

/-- The directory when all requests on their way have arrived. -/
def evd (insOf : Bytes → Int) (up : List Msg) (dir : List Bytes) : List Bytes := up.foldl (applyMsg insOf) dir

theorem evd_append (insOf : Bytes → Int) (a c : List Msg) (dir : List Bytes) :
    evd insOf (a ++ c) dir = evd insOf c (evd insOf a dir) := List.foldl_append

/-- A 64-bit number. -/
def Int64 (i : Int) : Prop := -2 ^ 63 ≤ i ∧ i < 2 ^ 63

theorem intLen_le {i : Int} (h : Int64 i) : intLen i ≤ 20 := by
  have : (dec i.natAbs).length ≤ 18 + 1 := dec_length (by have := h.1; have := h.2; omega)
  unfold intLen; split <;> omega

theorem optLen_le (n : Nat) (h : n < 269) : optLen n ≤ n + 2 := by
  unfold optLen; split
  · omega
  · omega

theorem headerSize_le (tcp : Bool) (o : Nat) : headerSize tcp o ≤ o + 12 := by
  unfold headerSize; cases tcp
  · simp
  · simp only [if_true]; split
    · omega
    · split <;> omega

theorem fill_pos (env : Env) (l : Link) (r : List Link) (hl : Int64 l.ins) (hm : 100 ≤ env.max) :
    1 ≤ fill env 39 optBase (l :: r) := by
  have h1 := intLen_le hl
  have h2 := optLen_le (4 + intLen l.ins) (by omega)
  have h3 := headerSize_le env.tcp (optBase + optLen (4 + intLen l.ins))
  have h4 : optBase = 56 := by decide
  simp only [fill]
  rw [if_neg (by omega)]; omega

/-- The hrefs of links. -/
def Href (s : St) (ls : List Link) (h : Bytes) : Prop := ∃ l ∈ ls, ∃ r, l.res = some r ∧ s.uri r = some h

/-- Facts that hold always. -/
structure Base (U : Bytes → Prop) (insOf : Bytes → Int) (s : St) (down : List Ans) : Prop where
  inv : Inv s
  loggedIn : s.c.loggedIn = true
  rfnop : s.c.rfnop = true
  owned : s.c.unowned = false
  inj : ∀ a c u, s.uri a = some u → s.uri c = some u → a = c
  pins : ∀ l ∈ s.c.published, ∀ r u, l.res = some r → s.uri r = some u → l.ins = insOf u
  dins : ∀ l ∈ s.c.del, ∃ h, U h ∧ l.ins = insOf h
  uris : ∀ r u, s.uri r = some u → U u
  dfree : ∀ l ∈ s.c.del, ∀ h, Href s (s.c.pub ++ s.c.published) h → insOf h ≠ l.ins
  dnodup : (ids s.c.del).Nodup
  ansok : ∀ A, Ans.pub A ∈ down → ∀ p ∈ A, ∃ h, p = (some h, some (insOf h))

/-- The directory will be right. -/
def DirOk (U : Bytes → Prop) (insOf : Bytes → Int) (s : St) (up : List Msg) (dir : List Bytes) : Prop :=
  ∀ h, h ∈ evd insOf (up ++ s.sent) dir ↔ Href s (s.c.pub ++ s.c.published) h ∨ (U h ∧ insOf h ∈ ids s.c.del)

/-- A publication of this href is on its way, or its answer. -/
def Outst (u : Bytes) (up : List Msg) (down : List Ans) : Prop :=
  (∃ l, Msg.publish l ∈ up ∧ u ∈ l.map (·.1)) ∨ ∃ A, Ans.pub A ∈ down ∧ ∃ i, (some u, some i) ∈ A

/-- All waiting publications are on their way. -/
def OutP (s : St) (up : List Msg) (down : List Ans) : Prop := ∀ u, Href s s.c.pub u → Outst u (up ++ s.sent) down

/-- If removals wait, an earlier removal is on its way. -/
def OutD (s : St) (up : List Msg) (down : List Ans) : Prop :=
  s.c.del ≠ [] → (∃ l, Msg.delete l ∈ up ++ s.sent) ∨ Ans.del ∈ down

theorem Outst.mono {u : Bytes} {up up' : List Msg} {down : List Ans} (h : Outst u up down) (hs : ∀ m ∈ up, m ∈ up') :
    Outst u up' down := by
  rcases h with ⟨l, h1, h2⟩ | h
  · exact .inl ⟨l, hs _ h1, h2⟩
  · exact .inr h

theorem base_frame {U : Bytes → Prop} {insOf : Bytes → Int} {s s' : St} {down : List Ans} (b : Base U insOf s down) (f : Frame s s') : Base U insOf s' down := by
  obtain ⟨k, hk⟩ := f.del
  have hd : ∀ l ∈ s'.c.del, l ∈ s.c.del := fun l hl => by rw [hk] at hl; exact List.mem_of_mem_drop hl
  have hh : ∀ ls h, Href s' ls h ↔ Href s ls h := fun ls h => by unfold Href; rw [f.uri]
  refine ⟨b.inv.frame f, by rw [f.loggedIn, b.loggedIn], by rw [f.rfnop, b.rfnop], by rw [f.unowned, b.owned], ?_, ?_, ?_, ?_, ?_, ?_, b.ansok⟩
  · rw [f.uri]; exact b.inj
  · rw [f.published, f.uri]; exact b.pins
  · exact fun l hl => b.dins l (hd l hl)
  · rw [f.uri]; exact b.uris
  · intro l hl h hh'
    rw [f.pub, f.published, hh] at hh'
    exact b.dfree l (hd l hl) h hh'
  · rw [hk]; unfold ids; rw [List.map_drop]
    exact List.Sublist.nodup (List.drop_sublist _ _) b.dnodup

theorem encode_hrefs {s : St} {ls : List Link} {x : List (Bytes × Int)} (h : encode s.uri ls = .ok x) (u : Bytes) :
    u ∈ x.map (·.1) ↔ Href s ls u := by
  have e := encode_spec s.uri ls x h
  constructor
  · intro hu
    obtain ⟨p, hp, rfl⟩ := List.mem_map.1 hu
    have : some p ∈ x.map some := List.mem_map_of_mem hp
    rw [e] at this
    obtain ⟨l, hl, hle⟩ := List.mem_map.1 this
    obtain ⟨u, hu1, hu2⟩ := Option.map_eq_some_iff.1 hle
    obtain ⟨r, hr1, hr2⟩ := Option.bind_eq_some_iff.1 hu1
    exact ⟨l, hl, r, hr1, by rw [hr2, ← hu2]⟩
  · rintro ⟨l, hl, r, hr, hu⟩
    have : (l.res.bind s.uri).map (·, l.ins) ∈ ls.map fun l => (l.res.bind s.uri).map (·, l.ins) := List.mem_map.2 ⟨l, hl, rfl⟩
    rw [← e, hr] at this
    simp only [Option.bind_some, hu, Option.map_some] at this
    obtain ⟨p, hp, he⟩ := List.mem_map.1 this
    cases he
    exact List.mem_map.2 ⟨_, hp, rfl⟩

/-- Publishing makes the directory right for what waits. -/
theorem publish_sys {env : Env} (hc : ∀ m, env.can m = true) {U : Bytes → Prop} {insOf : Bytes → Int} {s s' : St} {up : List Msg} {down : List Ans} {dir : List Bytes}
    (b : Base U insOf s down)
    (hd : ∀ h, (h ∈ evd insOf (up ++ s.sent) dir ∨ Href s s.c.pub h) ↔ Href s (s.c.pub ++ s.c.published) h ∨ (U h ∧ insOf h ∈ ids s.c.del))
    (ho : OutD s up down) (h : cloudPublish env s = .ok s') :
    Base U insOf s' down ∧ DirOk U insOf s' up dir ∧ OutP s' up down ∧ OutD s' up down ∧ s'.c = s.c := by
  obtain ⟨f, hcx, h1, h2⟩ := (cloudPublish_spec env s).2 s' h
  have hh : ∀ ls h, Href s' ls h ↔ Href s ls h := fun ls h => by unfold Href; rw [f.uri]
  have hod : (∀ m ∈ s.sent, m ∈ s'.sent) → OutD s' up down := by
    intro hsub hne
    rw [hcx] at hne
    rcases ho hne with ⟨l, hl⟩ | hl
    · left; refine ⟨l, ?_⟩
      rcases List.mem_append.1 hl with hl | hl
      · exact List.mem_append_left _ hl
      · exact List.mem_append_right _ (hsub _ hl)
    · exact .inr hl
  refine ⟨base_frame b f, ?_, ?_, ?_, hcx⟩
  · by_cases hp : s.c.pub = []
    · have he : evd insOf (up ++ s'.sent) dir = evd insOf (up ++ s.sent) dir := by
        rcases h1 with h1 | ⟨_, _, _, _, h1⟩ | ⟨x, _, _, _, hn, _⟩
        · rw [h1]
        · rw [h1, ← List.append_assoc, evd_append]; rfl
        · exact absurd hp hn
      intro h
      rw [he, hcx, hh, ← hd h, hp]
      constructor
      · exact .inl
      · rintro (h | ⟨l, hl, _⟩)
        · exact h
        · cases hl
    · obtain ⟨x, hx, hs⟩ := h2 b.rfnop b.loggedIn hp hc
      intro h
      rw [hs, ← List.append_assoc, evd_append, hcx, hh, ← hd h]
      show h ∈ evd insOf (up ++ s.sent) dir ++ x.map (·.1) ↔ _
      rw [List.mem_append, encode_hrefs hx]
  · intro u hu
    rw [hcx, hh] at hu
    by_cases hp : s.c.pub = []
    · obtain ⟨l, hl, _⟩ := hu; rw [hp] at hl; cases hl
    · obtain ⟨x, hx, hs⟩ := h2 b.rfnop b.loggedIn hp hc
      left
      exact ⟨x, by rw [hs]; simp, (encode_hrefs hx u).2 hu⟩
  · apply hod
    intro m hm
    rcases h1 with h1 | ⟨_, _, _, _, h1⟩ | ⟨x, _, _, _, _, _, h1⟩ <;> rw [h1]
    · exact hm
    · exact List.mem_append_left _ hm
    · exact List.mem_append_left _ hm

/-- Sending removals. -/
theorem delete_sys {env : Env} (hc : ∀ m, env.can m = true) (hm : 100 ≤ env.max) {U : Bytes → Prop} {insOf : Bytes → Int} (h64 : ∀ h, U h → Int64 (insOf h))
    {s s' : St} {up : List Msg} {down : List Ans} {dir : List Bytes} (b : Base U insOf s down) (hd : DirOk U insOf s up dir) (hp : OutP s up down)
    (hne : s.c.del ≠ []) (h : cloudDelete env s = .ok s') :
    Base U insOf s' down ∧ DirOk U insOf s' up dir ∧ OutP s' up down ∧ OutD s' up down := by
  obtain ⟨s2, h1, f, hcx, _, h2⟩ := cloudDelete_spec env s hne
  rw [h] at h1; cases h1
  obtain ⟨hs, hdel⟩ := h2 b.rfnop b.loggedIn hc (by omega)
  have hk : 1 ≤ fill env 39 optBase s.c.del := by
    cases hx : s.c.del with
    | nil => exact absurd hx hne
    | cons l r =>
      obtain ⟨h, hu, hh⟩ := b.dins l (by rw [hx]; simp)
      exact fill_pos env l r (by rw [hh]; exact h64 h hu) hm
  generalize fill env 39 optBase s.c.del = k at hs hdel hk
  have hh : ∀ ls h, Href s' ls h ↔ Href s ls h := fun ls h => by unfold Href; rw [f.uri]
  have hsplit : ids s.c.del = ids (s.c.del.take k) ++ ids (s.c.del.drop k) := by
    unfold ids; rw [← List.map_append, List.take_append_drop]
  have hnd := b.dnodup
  rw [hsplit] at hnd
  obtain ⟨_, _, hdis⟩ := List.nodup_append.1 hnd
  have happly : ∀ d, applyMsg insOf d (.delete (ids (s.c.del.take k))) = d.filter fun h => insOf h ∉ ids (s.c.del.take k) := by
    intro d
    cases hx : ids (s.c.del.take k) with
    | nil =>
      exfalso
      have : (ids (s.c.del.take k)).length = 0 := by rw [hx]; rfl
      unfold ids at this
      rw [List.length_map, List.length_take] at this
      have : s.c.del.length ≠ 0 := fun e => hne (List.eq_nil_of_length_eq_zero e)
      omega
    | cons a l => rfl
  refine ⟨base_frame b f, ?_, ?_, ?_⟩
  · intro h
    rw [hs, ← List.append_assoc, evd_append]
    show h ∈ applyMsg insOf (evd insOf (up ++ s.sent) dir) (.delete (ids (s.c.del.take k))) ↔ _
    rw [happly, List.mem_filter, hd h, f.pub, f.published, hh, hdel, hsplit]
    simp only [List.mem_append, decide_not, Bool.not_eq_true', decide_eq_false_iff_not]
    constructor
    · rintro ⟨h1 | ⟨hu, h1 | h1⟩, h2⟩
      · exact .inl h1
      · exact absurd h1 h2
      · exact .inr ⟨hu, h1⟩
    · rintro (h1 | ⟨hu, h1⟩)
      · refine ⟨.inl h1, ?_⟩
        intro hin
        obtain ⟨l, hl, e⟩ := List.mem_map.1 hin
        exact b.dfree l (List.mem_of_mem_take hl) h h1 e.symm
      · exact ⟨.inr ⟨hu, .inr h1⟩, fun h2 => hdis _ h2 _ h1 rfl⟩
  · intro u hu
    rw [f.pub, hh] at hu
    apply (hp u hu).mono
    intro m hm
    rw [hs, ← List.append_assoc]; exact List.mem_append_left _ hm
  · intro _
    left
    exact ⟨ids (s.c.del.take k), by rw [hs]; simp⟩

theorem statusDel_sys {env : Env} (hc : ∀ m, env.can m = true) (hm : 100 ≤ env.max) {U : Bytes → Prop} {insOf : Bytes → Int} (h64 : ∀ h, U h → Int64 (insOf h))
    {s s' : St} {up : List Msg} {down : List Ans} {dir : List Bytes} (b : Base U insOf s down) (hd : DirOk U insOf s up dir) (hp : OutP s up down)
    (ho : OutD s up down) (h : statusDel env s = .ok s') :
    Base U insOf s' down ∧ DirOk U insOf s' up dir ∧ OutP s' up down ∧ OutD s' up down := by
  unfold statusDel at h
  by_cases hne : s.c.del = []
  · rw [if_pos hne] at h; cases h; exact ⟨b, hd, hp, ho⟩
  · rw [if_neg hne] at h; exact delete_sys hc hm h64 b hd hp hne h

end Verif.CloudRd
