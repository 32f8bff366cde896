import Verif.ConRes.Model

/-!
C148: The configuration resource.
-/

namespace Verif.ConRes

open Verif.Rep (Bytes b Val Rep)

/-! ### Names of values -/

/-- In a table of different names that are short enough, values and names belong to
each other. -/
theorem table_round (T : List Bytes) (mx : Nat) (hn : T.Nodup) (hs : ∀ t ∈ T, t.length < mx) (n : Int) (s : Bytes) :
    toStr T mx n = .ok (some s) ↔ fromStr T mx s = some n := by
  have ht : ∀ t ∈ T, t.take mx = t := fun t h => List.take_of_length_le (Nat.le_of_lt (hs t h))
  unfold toStr fromStr
  dsimp only
  constructor
  · intro h
    split at h
    · next hi =>
      have hg : T[(n - 1).toNat]? = some T[(n - 1).toNat] := List.getElem?_eq_getElem hi.2
      rw [hg] at h
      dsimp only at h
      rw [if_pos (hs _ (List.getElem_mem hi.2))] at h
      injection h with h
      injection h with h
      have hf : (T.findIdx? fun t => t.take mx == s) = some (n - 1).toNat := by
        rw [List.findIdx?_eq_some_iff_getElem]
        refine ⟨hi.2, ?_, ?_⟩
        · rw [ht _ (List.getElem_mem hi.2), h]; exact beq_self_eq_true s
        · intro j hj
          have hjl : j < T.length := Nat.lt_trans hj hi.2
          rw [ht _ (List.getElem_mem hjl)]
          intro q
          have q := eq_of_beq q
          rw [← h] at q
          exact List.pairwise_iff_getElem.1 hn j _ hjl hi.2 hj q
      rw [hf]
      show some (((n - 1).toNat : Int) + 1) = some n
      congr 1
      omega
    · injection h with h; cases h
  · intro h
    cases hf : (T.findIdx? fun t => t.take mx == s) with
    | none => rw [hf] at h; cases h
    | some i =>
      rw [hf] at h
      have h : some ((i : Int) + 1) = some n := h
      injection h with h
      subst h
      rw [List.findIdx?_eq_some_iff_getElem] at hf
      obtain ⟨hi, hq, _⟩ := hf
      rw [ht _ (List.getElem_mem hi)] at hq
      have e : ((i : Int) + 1 - 1).toNat = i := by omega
      rw [e, if_pos ⟨by omega, hi⟩, List.getElem?_eq_getElem hi]
      dsimp only
      rw [if_pos (hs _ (List.getElem_mem hi)), eq_of_beq hq]

theorem locn_ok : locnTable.Nodup ∧ ∀ t ∈ locnTable, t.length < locnMax := by decide +kernel

theorem pos_ok : posTable.Nodup ∧ ∀ t ∈ posTable, t.length < posMax := by decide +kernel

theorem enum_ok : enumTable.Nodup ∧ ∀ t ∈ enumTable, t.length < enumMax := by decide +kernel

/-- The name of a location, position or value is read back as it, and nothing else is
read as it. -/
theorem names (n : Int) (s : Bytes) :
    (toStr locnTable locnMax n = .ok (some s) ↔ fromStr locnTable locnMax s = some n) ∧
    (toStr posTable posMax n = .ok (some s) ↔ fromStr posTable posMax s = some n) ∧
    (toStr enumTable enumMax n = .ok (some s) ↔ fromStr enumTable enumMax s = some n) :=
  ⟨table_round _ _ locn_ok.1 locn_ok.2 n s, table_round _ _ pos_ok.1 pos_ok.2 n s, table_round _ _ enum_ok.1 enum_ok.2 n s⟩

theorem toStr_total (T : List Bytes) (mx : Nat) (hs : ∀ t ∈ T, t.length < mx) (n : Int) :
    (1 ≤ n ∧ n ≤ T.length → ∃ t ∈ T, toStr T mx n = .ok (some t)) ∧ (¬(1 ≤ n ∧ n ≤ T.length) → toStr T mx n = .ok none) := by
  unfold toStr
  dsimp only
  constructor
  · intro h
    have hi : 0 ≤ n - 1 ∧ (n - 1).toNat < T.length := by omega
    rw [if_pos hi, List.getElem?_eq_getElem hi.2]
    dsimp only
    rw [if_pos (hs _ (List.getElem_mem hi.2))]
    exact ⟨_, List.getElem_mem hi.2, rfl⟩
  · intro h
    rw [if_neg (by omega)]

/-- Every number has a name or none, as it is in the range or not: no assertion fails. -/
theorem names_total (n : Int) :
    ((∃ s, toStr locnTable locnMax n = .ok (some s)) ↔ 1 ≤ n ∧ n ≤ 60) ∧ toStr locnTable locnMax n ≠ .ub ∧
    ((∃ s, toStr posTable posMax n = .ok (some s)) ↔ 1 ≤ n ∧ n ≤ 14) ∧ toStr posTable posMax n ≠ .ub ∧
    ((∃ s, toStr enumTable enumMax n = .ok (some s)) ↔ 1 ≤ n ∧ n ≤ 73) ∧ toStr enumTable enumMax n ≠ .ub := by
  have key : ∀ (T : List Bytes) (mx : Nat) (k : Nat), T.length = k → (∀ t ∈ T, t.length < mx) →
      ((∃ s, toStr T mx n = .ok (some s)) ↔ 1 ≤ n ∧ n ≤ k) ∧ toStr T mx n ≠ .ub := by
    intro T mx k hk hs
    obtain ⟨h1, h2⟩ := toStr_total T mx hs n
    subst hk
    by_cases h : 1 ≤ n ∧ n ≤ T.length
    · obtain ⟨t, _, ht⟩ := h1 h
      rw [ht]
      exact ⟨⟨fun _ => h, fun _ => ⟨t, rfl⟩⟩, by intro q; cases q⟩
    · rw [h2 h]
      refine ⟨⟨?_, fun q => absurd q h⟩, by intro q; cases q⟩
      rintro ⟨s, q⟩
      injection q with q
      cases q
  have h1 := key locnTable locnMax 60 (by decide +kernel) locn_ok.2
  have h2 := key posTable posMax 14 (by decide +kernel) pos_ok.2
  have h3 := key enumTable enumMax 73 (by decide +kernel) enum_ok.2
  exact ⟨h1.1, h1.2, h2.1, h2.2, h3.1, h3.2⟩

example : fromStr locnTable locnMax (b "kitchen") = some 27 ∧ fromStr locnTable locnMax (b "moon") = none := by decide +kernel

/-! ### Requests -/

/-- The last text of a name in a request. -/
def last (k : Bytes) : Rep → Option Bytes → Option Bytes
  | [], x => x
  | (k', .str s) :: r, x => last k r (if k' = k then some s else x)
  | _ :: r, x => last k r x

/-- Requests that say only name and location, as texts that are not empty. -/
def Fine (p : Rep) : Prop := ∀ q ∈ p, (q.1 = b "n" ∨ q.1 = b "locn") ∧ ∃ s, s ≠ [] ∧ q.2 = .str s

theorem nl : b "n" ≠ b "locn" := by decide

theorem scan_fine (p : Rep) (x : Option Bytes × Option Bytes) :
    (Fine p → scan p x = some (last (b "n") p x.1, last (b "locn") p x.2)) ∧ (¬Fine p → scan p x = none) := by
  induction p generalizing x with
  | nil => exact ⟨fun _ => rfl, fun h => absurd (fun q hq => by cases hq) h⟩
  | cons q p ih =>
    obtain ⟨k, v⟩ := q
    have cons : Fine ((k, v) :: p) ↔ ((k = b "n" ∨ k = b "locn") ∧ ∃ s, s ≠ [] ∧ v = .str s) ∧ Fine p := by
      unfold Fine
      rw [List.forall_mem_cons]
    rw [cons]
    by_cases hv : ∃ s, v = .str s
    · obtain ⟨s, rfl⟩ := hv
      rw [scan]
      by_cases hs : s = []
      · rw [if_pos hs]
        refine ⟨?_, fun _ => rfl⟩
        rintro ⟨⟨_, t, ht, h⟩, _⟩
        injection h with h
        exact absurd (h ▸ hs) ht
      · rw [if_neg hs]
        by_cases hn : k = b "n"
        · rw [if_pos hn]
          obtain ⟨i1, i2⟩ := ih (some s, x.2)
          subst hn
          constructor
          · intro h
            rw [i1 h.2, last, last, if_pos rfl, if_neg nl]
          · intro h
            exact i2 fun hp => h ⟨⟨.inl rfl, s, hs, rfl⟩, hp⟩
        · rw [if_neg hn]
          by_cases hl : k = b "locn"
          · rw [if_pos hl]
            obtain ⟨i1, i2⟩ := ih (x.1, some s)
            subst hl
            constructor
            · intro h
              rw [i1 h.2, last, last, if_pos rfl, if_neg (Ne.symm nl)]
            · intro h
              exact i2 fun hp => h ⟨⟨.inr rfl, s, hs, rfl⟩, hp⟩
          · rw [if_neg hl]
            exact ⟨fun h => absurd h.1.1 (fun q => q.elim hn hl), fun _ => rfl⟩
    · refine ⟨fun h => ?_, fun _ => ?_⟩
      · obtain ⟨⟨_, s, _, h⟩, _⟩ := h
        exact absurd ⟨s, h⟩ hv
      · cases v <;> first | rfl | exact absurd ⟨_, rfl⟩ hv

theorem last_none (k : Bytes) (p : Rep) (x : Option Bytes) : last k p x = none → x = none ∧ ∀ s, (k, Val.str s) ∉ p := by
  induction p generalizing x with
  | nil => intro h; exact ⟨h, by simp⟩
  | cons q p ih =>
    obtain ⟨k', v⟩ := q
    by_cases hv : ∃ s, v = .str s
    · obtain ⟨s, rfl⟩ := hv
      rw [last]
      intro h
      obtain ⟨h1, h2⟩ := ih _ h
      by_cases hk : k' = k
      · rw [if_pos hk] at h1; cases h1
      · rw [if_neg hk] at h1
        refine ⟨h1, fun t ht => ?_⟩
        rw [List.mem_cons] at ht
        rcases ht with ht | ht
        · injection ht with e; exact hk e.symm
        · exact h2 t ht
    · intro h
      have h' : last k p x = none := by
        cases v <;> first | exact h | exact absurd ⟨_, rfl⟩ hv
      obtain ⟨h1, h2⟩ := ih _ h'
      refine ⟨h1, fun t ht => ?_⟩
      rw [List.mem_cons] at ht
      rcases ht with ht | ht
      · injection ht with _ e; exact hv ⟨t, e.symm⟩
      · exact h2 t ht

/-- A location can be set: the device has one, and it is a name of one. -/
def Usable (d : Dev) (l : Option Bytes) : Prop := ∀ s, l = some s → d.locn ≠ 0 ∧ s ∈ locnTable

theorem from_mem (s : Bytes) : (∃ n, fromStr locnTable locnMax s = some n) ↔ s ∈ locnTable := by
  constructor
  · rintro ⟨n, h⟩
    rw [← (names n s).1] at h
    by_cases hr : 1 ≤ n ∧ n ≤ locnTable.length
    · obtain ⟨t, ht, q⟩ := (toStr_total _ _ locn_ok.2 n).1 hr
      rw [q] at h
      injection h with h
      injection h with h
      exact h ▸ ht
    · rw [(toStr_total _ _ locn_ok.2 n).2 hr] at h
      injection h with h
      cases h
  · intro h
    obtain ⟨i, hi, e⟩ := List.getElem_of_mem h
    refine ⟨(i : Int) + 1, ((names _ s).1).1 ?_⟩
    unfold toStr
    dsimp only
    have e' : ((i : Int) + 1 - 1).toNat = i := by omega
    rw [e', if_pos ⟨by omega, hi⟩, List.getElem?_eq_getElem hi]
    dsimp only
    rw [if_pos (locn_ok.2 _ (List.getElem_mem hi)), e]

theorem setLocn_cases (l : Option Bytes) (d : Dev) : (Usable d l → ∃ d', setLocn l d = some d' ∧
      d' = { d with locn := d'.locn } ∧ (l = none → d'.locn = d.locn) ∧
      ∀ s, l = some s → toStr locnTable locnMax d'.locn = .ok (some s)) ∧ (¬Usable d l → setLocn l d = none) := by
  cases l with
  | none => exact ⟨fun _ => ⟨d, rfl, rfl, fun _ => rfl, by intro s h; cases h⟩, fun h => absurd (by intro s q; cases q) h⟩
  | some s =>
    constructor
    · intro h
      obtain ⟨h0, hm⟩ := h s rfl
      obtain ⟨n, hn⟩ := (from_mem s).2 hm
      refine ⟨{ d with locn := n }, ?_, rfl, (by intro q; cases q), ?_⟩
      · simp only [setLocn, if_neg h0, hn]
      · intro t ht
        cases ht
        exact ((names n s).1).2 hn
    · intro h
      by_cases h0 : d.locn = 0
      · simp only [setLocn, if_pos h0]
      · simp only [setLocn, if_neg h0]
        cases hn : fromStr locnTable locnMax s with
        | none => rfl
        | some n =>
          exact absurd (fun t ht => by cases ht; exact ⟨h0, (from_mem s).1 ⟨n, hn⟩⟩) h

theorem setName_locn (n : Option Bytes) (d : Dev) : (setName n d).locn = d.locn := by cases n <;> rfl

theorem usable_name (n l : Option Bytes) (d : Dev) : Usable (setName n d) l ↔ Usable d l := by
  unfold Usable
  rw [setName_locn]

/-- A request succeeds exactly if it has nothing but texts for name and location, at
least one, and the device has a location and the text names one if it has a text for
it. -/
theorem accepted (p : Rep) (d : Dev) : (post p d).1 = .changed ↔ Fine p ∧ p ≠ [] ∧ Usable d (last (b "locn") p none) := by
  obtain ⟨s1, s2⟩ := scan_fine p (none, none)
  by_cases hf : Fine p
  · simp only [post, s1 hf]
    obtain ⟨u1, u2⟩ := setLocn_cases (last (b "locn") p none) (setName (last (b "n") p none) d)
    rw [usable_name] at u1 u2
    by_cases hu : Usable d (last (b "locn") p none)
    · obtain ⟨d', hd, _⟩ := u1 hu
      rw [hd]
      dsimp only
      by_cases hp : p = []
      · subst hp
        rw [if_pos ⟨rfl, rfl⟩]
        simp
      · rw [if_neg]
        · exact ⟨fun _ => ⟨hf, hp, hu⟩, fun _ => rfl⟩
        · rintro ⟨h1, h2⟩
          obtain ⟨_, n1⟩ := last_none _ _ _ (Option.isNone_iff_eq_none.1 h1)
          obtain ⟨_, n2⟩ := last_none _ _ _ (Option.isNone_iff_eq_none.1 h2)
          cases p with
          | nil => exact hp rfl
          | cons q p =>
            obtain ⟨k, v⟩ := q
            obtain ⟨hk, s, _, hv⟩ := hf (k, v) (List.mem_cons_self ..)
            dsimp only at hk hv
            subst hv
            rcases hk with rfl | rfl
            · exact n1 s (by simp)
            · exact n2 s (by simp)
    · rw [u2 hu]
      exact ⟨fun h => (by cases h), fun h => absurd h.2.2 hu⟩
  · simp only [post, s2 hf]
    exact ⟨fun h => (by cases h), fun h => absurd h.1 hf⟩

/-- After a request that succeeded the resource has the last name and the last location
that it said, and what it did not say is as before; the observers of /oic/d are
notified if the name was set, and the callback of the application is called once with
the request if there is one. -/
theorem post_get (p : Rep) (d : Dev) (h : (post p d).1 = .changed) :
    (post p d).2.name = (last (b "n") p none).getD d.name ∧
    (∀ s, last (b "locn") p none = some s → get (post p d).2 = .ok [(b "n", .str (post p d).2.name), (b "locn", .str s)]) ∧
    (last (b "locn") p none = none → (post p d).2.locn = d.locn) ∧
    (post p d).2.notes = d.notes + (if (last (b "n") p none).isSome then 1 else 0) ∧
    (post p d).2.calls = d.calls ++ (if d.cb then [p] else []) ∧ (post p d).2.cb = d.cb := by
  obtain ⟨hf, hp, hu⟩ := (accepted p d).1 h
  have hs := (scan_fine p (none, none)).1 hf
  obtain ⟨d', hd, he, hl, ht⟩ := (setLocn_cases (last (b "locn") p none) (setName (last (b "n") p none) d)).1
    ((usable_name _ _ _).2 hu)
  have hx : ¬((last (b "n") p none).isNone = true ∧ (last (b "locn") p none).isNone = true) := by
    intro q
    simp only [post, hs, hd] at h
    rw [if_pos q] at h
    cases h
  have hpost : (post p d).2 = if d'.cb then { d' with calls := d'.calls ++ [p] } else d' := by
    simp only [post, hs, hd]
    rw [if_neg hx]
  have hcb : d'.cb = d.cb := by rw [he]; cases last (b "n") p none <;> rfl
  have hname : d'.name = (last (b "n") p none).getD d.name := by rw [he]; cases last (b "n") p none <;> rfl
  have hnotes : d'.notes = d.notes + (if (last (b "n") p none).isSome then 1 else 0) := by rw [he]; cases last (b "n") p none <;> rfl
  have hcalls : d'.calls = d.calls := by rw [he]; cases last (b "n") p none <;> rfl
  have h1 : (post p d).2.name = d'.name := by rw [hpost]; split <;> rfl
  have h2 : (post p d).2.locn = d'.locn := by rw [hpost]; split <;> rfl
  have h3 : (post p d).2.notes = d'.notes := by rw [hpost]; split <;> rfl
  have h4 : (post p d).2.cb = d'.cb := by rw [hpost]; split <;> rfl
  refine ⟨h1.trans hname, ?_, ?_, h3.trans hnotes, ?_, h4.trans hcb⟩
  · intro s hsl
    have q := ht s hsl
    have hr : (1 : Int) ≤ d'.locn ∧ d'.locn ≤ 60 := (names_total d'.locn).1.1 ⟨s, q⟩
    have hm : s ∈ locnTable := (from_mem s).1 ⟨_, ((names _ s).1).1 q⟩
    have h15 : s.length < 15 := locn_ok.2 s hm
    have e : s.take 32 = s := List.take_of_length_le (by omega)
    simp only [get, getLocn, h2]
    rw [if_pos (by omega), q]
    simp only [Out.bind, e]
  · intro hn
    rw [h2, hl hn, setName_locn]
  · rw [hpost]
    by_cases hc : d.cb = true
    · rw [if_pos (hcb.trans hc), if_pos hc, ← hcalls]
    · rw [if_neg (by rw [hcb]; exact hc), if_neg hc, hcalls, List.append_nil]

/-- A device in the kitchen. -/
def exDev : Dev := { name := b "a", locn := 27, cb := true }

example : (post [(b "n", .str (b "lamp")), (b "locn", .str (b "office"))] exDev).1 = .changed := by decide +kernel

/-- A request that is refused changes nothing. What is missing: a request with both a
name and a location that cannot be set (`half_false`). -/
theorem refused_partial (p : Rep) (d : Dev) (h : (post p d).1 ≠ .changed)
    (hl : Usable d (last (b "locn") p none) ∨ last (b "n") p none = none) : post p d = (.badRequest, d) := by
  obtain ⟨s1, s2⟩ := scan_fine p (none, none)
  by_cases hf : Fine p
  · by_cases hu : Usable d (last (b "locn") p none)
    · by_cases hp : p = []
      · subst hp; rfl
      · exact absurd ((accepted p d).2 ⟨hf, hp, hu⟩) h
    · have hn := hl.resolve_left hu
      simp only [post, s1 hf]
      rw [(setLocn_cases _ _).2 (fun q => hu ((usable_name _ _ _).1 q)), hn]
      rfl
  · simp only [post, s2 hf]

/-- A request that is refused because of its location has changed the name and
notified the observers of /oic/d (api/oc_con_resource.c:121-146). -/
theorem half_false : (post [(b "n", .str (b "lamp")), (b "locn", .str (b "moon"))] exDev).1 = .badRequest ∧
    (post [(b "n", .str (b "lamp")), (b "locn", .str (b "moon"))] exDev).2.name = b "lamp" ∧
    (post [(b "n", .str (b "lamp")), (b "locn", .str (b "moon"))] exDev).2.notes = 1 ∧
    (post [(b "n", .str (b "lamp")), (b "locn", .str (b "moon"))] exDev).2.calls = [] := by
  refine ⟨by decide +kernel, by decide +kernel, by decide +kernel, ?_⟩
  rfl

/-- A device without a location does not get one by a request, and one that has a
location keeps having one, with a name if it had one. -/
theorem located (p : Rep) (d : Dev) : (d.locn = 0 → (post p d).2.locn = 0) ∧
    (1 ≤ d.locn ∧ d.locn ≤ 60 → 1 ≤ (post p d).2.locn ∧ (post p d).2.locn ≤ 60) := by
  by_cases h : (post p d).1 = .changed
  · obtain ⟨hf, hp, hu⟩ := (accepted p d).1 h
    obtain ⟨_, h2, h3, _⟩ := post_get p d h
    cases hl : last (b "locn") p none with
    | none => rw [h3 hl]; exact ⟨id, id⟩
    | some s =>
      obtain ⟨h0, hm⟩ := hu s hl
      refine ⟨fun q => absurd q h0, fun _ => ?_⟩
      have hg := h2 s hl
      by_cases hr : 1 ≤ (post p d).2.locn ∧ (post p d).2.locn ≤ 60
      · exact hr
      · have hz : getLocn (post p d).2 = .ok [] := by
          unfold getLocn
          split
          · have : locnTable.length = 60 := by decide +kernel
            rw [(toStr_total locnTable locnMax locn_ok.2 _).2 (by rw [this]; exact hr)]
            rfl
          · rfl
        simp only [get, hz, Out.bind] at hg
        injection hg with hg
        simp at hg
  · have hk : (post p d).2.locn = d.locn := by
      obtain ⟨s1, s2⟩ := scan_fine p (none, none)
      by_cases hf : Fine p
      · by_cases hu : Usable d (last (b "locn") p none)
        · by_cases hp : p = []
          · subst hp; rfl
          · exact absurd ((accepted p d).2 ⟨hf, hp, hu⟩) h
        · simp only [post, s1 hf]
          rw [(setLocn_cases _ _).2 (fun q => hu ((usable_name _ _ _).1 q))]
          exact setName_locn _ d
      · simp only [post, s2 hf]
    rw [hk]
    exact ⟨id, id⟩

/-- Reading never fails an assertion, whatever the history, and has the name of the
device. -/
theorem get_safe (d : Dev) : ∃ l, get d = .ok ((b "n", .str d.name) :: l) := by
  have : ∃ l, getLocn d = .ok l := by
    unfold getLocn
    split
    · cases h : toStr locnTable locnMax d.locn with
      | ub => exact absurd h (names_total d.locn).2.1
      | ok x => cases x <;> exact ⟨_, rfl⟩
    · exact ⟨_, rfl⟩
  obtain ⟨l, hl⟩ := this
  exact ⟨l, by simp only [get, hl, Out.bind]⟩

/-- A request to a device changes no other device. -/
theorem others (l : List Dev) (i j : Nat) (p : Rep) (h : i ≠ j) :
    (step l (.post i p))[j]? = l[j]? ∧ (step l (.post i p)).length = l.length := by
  simp only [step]
  exact ⟨by simp [List.getElem?_modify, h], List.length_modify ..⟩

/-- A callback for writes is set for the devices that are there; a device that is added
later has none (api/oc_con_resource.c:168-173). -/
theorem late_false : ((run [.add (b "a"), .setCb true, .add (b "b")]).map fun d => d.cb) = [true, false] := rfl

/-- The callback is set for all that are there, and nothing else changes. -/
theorem cb_set (l : List Dev) (on : Bool) (j : Nat) (d : Dev) (h : l[j]? = some d) :
    (step l (.setCb on))[j]? = some { d with cb := on } := by
  simp [step, h]

end Verif.ConRes
