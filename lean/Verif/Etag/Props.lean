import Verif.Etag.Lemmas

/-! C46: ETags increase. C55: an ETag never validates another payload. -/

namespace Verif.Etag

open Verif.Rep (Bytes Rep Val b)

/-! ## C46 -/

/-- C46. Whatever the clock reads and whatever random numbers are drawn, each
ETag is larger than all ETags handed out before, as long as the 64 bits suffice:
no reading of the clock and no earlier ETag is above `B`, and `B + 1000·n < 2^64`
for `n` calls. -/
theorem etags_increase (B : Nat) (l : List Tick) : ∀ g, g ≤ B → (∀ t ∈ l, t.1 ≤ B) →
    B + 1000 * l.length < 2 ^ 64 →
    (∀ e ∈ gets g l, g < e ∧ e < 2 ^ 64) ∧ (gets g l).Pairwise (· < ·) := by
  suffices H : ∀ (k : Nat) g, g ≤ B + k → (∀ t ∈ l, t.1 ≤ B) → B + k + 1000 * l.length < 2 ^ 64 →
      (∀ e ∈ gets g l, g < e ∧ e < 2 ^ 64) ∧ (gets g l).Pairwise (· < ·) by
    intro g h1 h2 h3; exact H 0 g h1 h2 h3
  induction l with
  | nil => intro k g _ _ _; exact ⟨fun e he => (by cases he), List.Pairwise.nil⟩
  | cons t l ih =>
    intro k g hg hc hB
    have hp := random_pos t.2
    have ht := hc t (List.mem_cons_self ..)
    simp only [List.length_cons] at hB
    have hw : word = 2 ^ 64 := rfl
    have e := get_eq g t (by rw [hw]; omega)
    obtain ⟨i1, i2⟩ := ih (k + 1000) (get g t) (by rw [e]; omega)
      (fun x hx => hc x (List.mem_cons_of_mem _ hx)) (by omega)
    rw [gets]
    refine ⟨?_, List.pairwise_cons.2 ⟨fun x hx => (i1 x hx).1, i2⟩⟩
    intro x hx
    rcases List.mem_cons.1 hx with rfl | hx
    · rw [e]; exact ⟨by omega, by omega⟩
    · have := i1 x hx
      exact ⟨by omega, this.2⟩

/-- C46. An ETag is never the uninitialised value, even after an overflow. -/
theorem etag_never_uninitialised (l : List Tick) : ∀ g, ∀ e ∈ gets g l, e ≠ 0 := by
  induction l with
  | nil => intro g e he; cases he
  | cons t l ih =>
    intro g e he
    rcases List.mem_cons.1 he with rfl | he
    · have := get_pos g t; omega
    · exact ih _ e he

/-- C46. Each ETag is later than the reading of the clock, and at most 1000 ahead
of the clock or of the previous ETag. -/
theorem etag_near_clock (g : Nat) (t : Tick) (h : max t.1 g + 1000 < 2 ^ 64) :
    t.1 < get g t ∧ g < get g t ∧ get g t ≤ max t.1 g + 1000 := by
  have hp := random_pos t.2
  have hw : word = 2 ^ 64 := rfl
  rw [get_eq g t (by rw [hw]; omega)]
  omega

/-- The clock stands still, jumps back and forward. -/
example : gets 7 [(0, 5#32), (5000, 1999#32), (3, 0#32), (6500, 10#32)] = [13, 6000, 6001, 6511] := by
  decide
example : (∀ e ∈ gets 7 [(0, 5#32), (5000, 1999#32), (3, 0#32)], 7 < e ∧ e < 2 ^ 64) ∧
    (gets 7 [(0, 5#32), (5000, 1999#32), (3, 0#32)]).Pairwise (· < ·) :=
  etags_increase 5000 _ 7 (by decide) (by decide) (by decide)

/-- Without the bound the claim is false: the counter starts again (the code only
logs this, oc_etag.c:85-88). -/
theorem wrap_around_false :
    gets (2 ^ 64 - 2) [(0, 0#32), (0, 0#32), (0, 0#32)] = [2 ^ 64 - 1, 1, 2] := by decide +kernel

/-! ## C55 -/

variable {κ : Type}

theorem ofLe64_le64 (n : Nat) (h : n < 2 ^ 64) : ofLe64 (le64 n) = n := by
  have e : List.range 8 = [0, 1, 2, 3, 4, 5, 6, 7] := by decide
  unfold ofLe64 le64
  rw [e]
  simp only [List.map_cons, List.map_nil, List.foldr_cons, List.foldr_nil, UInt8.toNat_ofNat']
  omega

theorem le64_length (n : Nat) : (le64 n).length = 8 := by unfold le64; simp

/-- C55. A GET of a resource returns an ETag and a payload at some point. If at
any later point a GET of that resource with this ETag is answered 2.03 Valid, then
the payload is the one of the earlier answer: whatever resources were created,
changed or deleted, ETags dumped or loaded, devices reset or the process restarted
meanwhile. Assumed: changes are announced at once, no overflow, the checksums of
the payloads differ, and after a restart the clock does not read less than the
ETags handed out before. Missing: see `clock_reset_false`,
`pending_notification_false` and `wrap_around_false`. -/
theorem valid_means_unchanged_partial (crc : κ → Option Nat) (hcrc : ∀ c x, crc c = some x → x < word)
    (inj : ∀ c c' x, crc c = some x → crc c' = some x → c = c') (n : Nat) (before after : List (Op κ))
    (hc : AllClocked crc (init κ n) (before ++ after))
    (hw : (run crc (init κ n) (before ++ after)).gen.wrapped = false)
    (r r' : Res κ) (hr : r ∈ (run crc (init κ n) before).res)
    (hr' : r' ∈ (run crc (init κ n) (before ++ after)).res) (hk : r.key = r'.key)
    (q tag : Bytes) (h1 : (serve r q).2 = some tag) (h2 : (serve r' tag).1 = true) :
    r.content = r'.content := by
  have hrun : ∀ (l l' : List (Op κ)) s, run crc s (l ++ l') = run crc (run crc s l) l' := by
    intro l; induction l with
    | nil => intro l' s; rfl
    | cons o l ih => intro l' s; exact ih l' _
  have hcl : ∀ (l l' : List (Op κ)) s, AllClocked crc s (l ++ l') →
      AllClocked crc s l ∧ AllClocked crc (run crc s l) l' := by
    intro l; induction l with
    | nil => intro l' s h; exact ⟨trivial, h⟩
    | cons o l ih => intro l' s h; exact ⟨⟨h.1, (ih l' _ h.2).1⟩, (ih l' _ h.2).2⟩
  obtain ⟨c1, c2⟩ := hcl _ _ _ hc
  rw [hrun] at hw hr'
  obtain ⟨i1, _⟩ := run_inv crc hcrc inj before _ (init_inv crc n) c1 (run_wrapped crc _ _ hw)
  obtain ⟨i2, sub⟩ := run_inv crc hcrc inj after _ i1 c2 hw
  unfold serve at h1 h2
  split at h1
  · cases h1
  next hz =>
    split at h2
    · cases h2
    next hz' =>
      cases h1
      have o1 := sub _ ((i1.res r hr).1 hz)
      have o2 := (i2.res r' hr').1 hz'
      have hlt := (i2.gen.le _ o1).2
      simp only [le64_length, BEq.rfl, Bool.true_and, beq_iff_eq] at h2
      rw [ofLe64_le64 _ hlt] at h2
      exact i2.gen.fn _ o1 _ o2 hk h2

/-- C55. The other direction: a GET with the ETag that the resource has now is
answered 2.03, with the same ETag. -/
theorem current_etag_valid (r : Res κ) (hz : r.etag ≠ 0) (hl : r.etag < 2 ^ 64) (q : Bytes) :
    (serve r q).2 = some (le64 r.etag) ∧ serve r (le64 r.etag) = (true, some (le64 r.etag)) := by
  unfold serve
  rw [if_neg hz, if_neg hz]
  simp [le64_length, ofLe64_le64 _ hl]

/-- C55. An ETag of another length is never valid. -/
theorem other_length_not_valid (r : Res κ) (q : Bytes) (h : q.length ≠ 8) : (serve r q).1 = false := by
  unfold serve; split <;> simp [h]

/-- A pass gives new ETags, above the floor and the last one, to the selected
resources only. -/
theorem assignAll_new {fl : Nat} (sel : Res κ → Bool) (inp : Nat → Tick) (hc : ∀ i, fl ≤ (inp i).1)
    (l : List (Res κ)) : ∀ k (s : G κ), (assignAll sel inp k s l).2.1.wrapped = false →
      ∀ r' ∈ (assignAll sel inp k s l).2.2, (r' ∈ l ∧ sel r' = false) ∨
        ∃ r ∈ l, sel r = true ∧ r' = { r with etag := r'.etag } ∧ max s.g fl < r'.etag := by
  induction l with
  | nil => intro k s _ r' hr; cases hr
  | cons r l ih =>
    intro k s hw r' hr'
    rw [assignAll] at hw hr'
    by_cases hs : sel r = true
    · rw [if_pos hs] at hw hr'
      have hwa : (assign s r (inp k)).1.wrapped = false := assignAll_wrapped _ _ _ _ _ hw
      have hwg : (s.get (inp k)).wrapped = false := hwa
      have hg := getG s (inp k) hwg
      have hp := random_pos (inp k).2
      have hk := hc k
      rcases List.mem_cons.1 hr' with rfl | hr'
      · exact .inr ⟨r, List.mem_cons_self .., hs, rfl, by show max s.g fl < (s.get (inp k)).g; omega⟩
      · rcases ih _ _ hw r' hr' with ⟨h1, h2⟩ | ⟨x, h1, h2, h3, h4⟩
        · exact .inl ⟨List.mem_cons_of_mem _ h1, h2⟩
        · refine .inr ⟨x, List.mem_cons_of_mem _ h1, h2, h3, ?_⟩
          have : (assign s r (inp k)).1.g = (s.get (inp k)).g := rfl
          omega
    · rw [if_neg hs] at hw hr'
      rcases List.mem_cons.1 hr' with rfl | hr'
      · exact .inl ⟨List.mem_cons_self .., by simpa using hs⟩
      · rcases ih _ _ hw r' hr' with ⟨h1, h2⟩ | ⟨x, h1, h2⟩
        · exact .inl ⟨List.mem_cons_of_mem _ h1, h2⟩
        · exact .inr ⟨x, List.mem_cons_of_mem _ h1, h2⟩

/-- C55. Announcing a change gives the resource an ETag above all ETags of its own
that were ever handed out, and above all of other resources; the others keep
theirs. -/
theorem change_fresh (crc : κ → Option Nat) (s : St κ) (hi : Inv crc s) (k : Key) (c : κ) (t : Tick)
    (hc : s.floor ≤ t.1) (hw : (step crc s (.change k c t)).gen.wrapped = false) :
    ∀ r ∈ (step crc s (.change k c t)).res,
      if r.key = k then r.content = c ∧ ∀ x ∈ s.gen.own, x.2.1 < r.etag else r ∈ s.res := by
  intro r hr
  rcases assignAll_new (fun r => r.key == k) (fun _ => t) (fun _ => hc) _ 0 s.gen hw r hr with
    ⟨h1, h2⟩ | ⟨x, h1, h2, h3, h4⟩
  · have hne : r.key ≠ k := by simpa using h2
    rw [if_neg hne]
    obtain ⟨y, hy, rfl⟩ := List.mem_map.1 h1
    by_cases hk : y.key = k
    · rw [if_pos hk] at hne; exact absurd hk hne
    · rw [if_neg hk]; exact hy
  · have hxk : x.key = k := by simpa using h2
    have hrk : r.key = k := by rw [h3]; exact hxk
    rw [if_pos hrk]
    obtain ⟨y, hy, rfl⟩ := List.mem_map.1 h1
    refine ⟨?_, ?_⟩
    · by_cases hk : y.key = k
      · rw [if_pos hk] at h3; rw [h3]
      · rw [if_neg hk] at hxk; exact absurd hxk hk
    · intro z hz
      have := (hi.gen.le z hz).1
      omega

/-! ### Dumping and loading -/

theorem encodeRes_read (crc : κ → Option Nat) (hcrc : ∀ c x, crc c = some x → x < word) (r : Res κ)
    (hlt : r.etag < word) (hz : r.etag ≠ 0) (hi : ignored r.uri = false) (c : Nat)
    (hc : crc r.content = some c) (grp : Group) (l : List (Res κ)) (hg : r.grp = grp) (hr : r ∈ l)
    (hu : ∀ r' ∈ l, r'.key = r.key → r' = r) (huri : uriOk r.uri = true) :
    readEtag crc (encodeGroup crc grp l) r = some r.etag := by
  have hen : encodeRes crc r =
      some (r.uri, .obj [(b "etag", .int (toI64 r.etag)), (b "crc", .int (toI64 c))]) := by
    unfold encodeRes; rw [hi, if_neg (by decide), if_neg hz, hc]
  have hobj : Rep.getObject (encodeGroup crc grp l) r.uri =
      .ok (some [(b "etag", .int (toI64 r.etag)), (b "crc", .int (toI64 c))]) := by
    have hs := Rep.getObject_spec (encodeGroup crc grp l) r.uri (uriOk_usable _ huri)
    have hmem : (r.uri, Val.obj [(b "etag", .int (toI64 r.etag)), (b "crc", .int (toI64 c))]) ∈
        encodeGroup crc grp l := by
      unfold encodeGroup
      exact List.mem_filterMap.2 ⟨r, List.mem_filter.2 ⟨hr, by simp [hg]⟩, hen⟩
    cases hx : Rep.getObject (encodeGroup crc grp l) r.uri with
    | ub => exact absurd hx hs.2.2
    | ok o =>
      cases o with
      | none => exact absurd hmem (hs.2.1.1 hx _)
      | some o =>
        obtain ⟨bef, aft, heq, _⟩ := (hs.1 o).1 hx
        have hm : (r.uri, Val.obj o) ∈ encodeGroup crc grp l := by rw [heq]; simp
        unfold encodeGroup at hm
        obtain ⟨r', h1, h2⟩ := List.mem_filterMap.1 hm
        obtain ⟨h1, h3⟩ := List.mem_filter.1 h1
        have h3 : r'.grp = grp := by simpa using h3
        have hur : r'.uri = r.uri := by
          unfold encodeRes at h2
          split at h2
          · cases h2
          · split at h2
            · cases h2
            · split at h2
              · cases h2
              · simp only [Option.some.injEq, Prod.mk.injEq] at h2; exact h2.1
        have := hu r' h1 (by unfold Res.key; rw [h3, hg, hur])
        subst this
        rw [hen] at h2
        simp only [Option.some.injEq, Prod.mk.injEq, Val.obj.injEq, true_and] at h2
        rw [h2]
  unfold readEtag
  rw [hobj]
  obtain ⟨g1, g2⟩ := getInt_entry (toI64 r.etag) (toI64 c)
  dsimp only
  rw [g1, g2]
  dsimp only
  rw [toI64_of c (hcrc _ _ hc), toI64_of r.etag hlt, hc]
  have hne : toI64 r.etag ≠ 0 := by
    intro h0
    have := toI64_of r.etag hlt
    rw [h0] at this
    exact hz (by rw [← this]; decide)
  rw [if_neg hne]
  simp

/-- C55. An ETag that was dumped is found again for the resource with the same
payload: ETags survive a restart. `l` are the resources when the file was written,
`r'` is the resource after the restart. -/
theorem dumped_etag_restored (crc : κ → Option Nat) (hcrc : ∀ c x, crc c = some x → x < word) (r r' : Res κ)
    (hlt : r.etag < word) (hz : r.etag ≠ 0) (hi : ignored r.uri = false) (c : Nat)
    (hc : crc r.content = some c) (l : List (Res κ)) (hr : r ∈ l)
    (hu : ∀ x ∈ l, x.key = r.key → x = r) (huri : uriOk r.uri = true)
    (hk : r'.key = r.key) (hcon : r'.content = r.content) (m : Nat) :
    (loadGroup crc r.grp true (encodeGroup crc r.grp l) m [r']).2 = [{ r' with etag := r.etag }] := by
  have h := encodeRes_read crc hcrc r hlt hz hi c hc r.grp l rfl hr hu huri
  have hg : r'.grp = r.grp := (Prod.mk.inj hk).1
  have hur : r'.uri = r.uri := (Prod.mk.inj hk).2
  have h' : readEtag crc (encodeGroup crc r.grp l) r' = some r.etag := by
    unfold readEtag at h ⊢; rw [hur, hcon]; exact h
  rw [loadGroup, if_pos hg, h']
  rfl

/-! ### Examples -/

/-- Two resources; changes, a dump, a restart with a later clock, loading. -/
def exOps : List (Op Nat) :=
  [.add (some 0) (b "/a") 1 (100, 4#32), .add (some 0) (b "/b") 2 (100, 9#32),
   .change (some 0, b "/a") 3 (90, 1#32), .dump (fun _ => true), .restart,
   .add (some 0) (b "/a") 3 (5000, 3#32), .add (some 0) (b "/b") 7 (5000, 3#32),
   .load false (fun _ => true) (5000, 0#32) 0#32 (fun _ => (5000, 0#32)), .clearStorage]

/-- The ETag of `/a` is kept, `/b` gets a new one. -/
example : (run some (init Nat 1) exOps).res.map (fun r => (r.uri, r.etag, r.content)) =
    [(b "/a", 117, 3), (b "/b", 5011, 7)] ∧ (run some (init Nat 1) exOps).gen.wrapped = false := by
  decide +kernel

/-- `change_fresh` for a state with two resources. -/
example : ∀ r ∈ (step some (run some (init Nat 1) (exOps.take 2)) (.change (some 0, b "/a") 9 (0, 0#32))).res,
    if r.key = (some 0, b "/a") then r.content = 9 ∧ ∀ x ∈ (run some (init Nat 1) (exOps.take 2)).gen.own, x.2.1 < r.etag
    else r ∈ (run some (init Nat 1) (exOps.take 2)).res := by
  decide +kernel

/-- The clock of the device starts at 0 after a restart (no battery) and the
payload of `/a` has changed: the ETag 8 is handed out for the second time, although
the ETags were dumped and loaded. Loading skips entries whose checksum does not
match before it looks for the largest ETag (oc_etag.c:353-391). -/
theorem clock_reset_false :
    let before : List (Op Nat) := [.add (some 0) (b "/a") 1 (0, 7#32), .dump (fun _ => true)]
    let after : List (Op Nat) := [.restart, .add (some 0) (b "/a") 2 (0, 4#32),
      .load false (fun _ => true) (0, 0#32) 0#32 (fun _ => (0, 0#32)), .clearStorage]
    (run some (init Nat 1) before).res.map (fun r => (r.etag, r.content)) = [(8, 1)] ∧
    (run some (init Nat 1) (before ++ after)).res.map (fun r => ((serve r (le64 8)).1, r.content)) =
      [(true, 2)] := by decide +kernel

/-- After a POST the ETag is only updated by a delayed callback (oc_ri.c:1194): a
GET that is served before it is answered 2.03 for the old ETag although the payload
has changed. -/
theorem pending_notification_false :
    let before : List (Op Nat) := [.add (some 0) (b "/a") 1 (0, 7#32)]
    let after : List (Op Nat) := [.modify (some 0, b "/a") 2]
    (run some (init Nat 1) before).res.map (fun r => (r.etag, r.content)) = [(8, 1)] ∧
    (run some (init Nat 1) (before ++ after)).res.map (fun r => ((serve r (le64 8)).1, r.content)) =
      [(true, 2)] := by decide +kernel

/-- The hypotheses of `valid_means_unchanged_partial` are met by the example. -/
theorem exOps_clocked : AllClocked (κ := Nat) (fun c => if c < 100 then some c else none) (init Nat 1) exOps := by
  unfold exOps
  refine ⟨?_, ?_, ?_, ?_, ?_, ?_, ?_, ?_, ?_, ?_⟩
  all_goals first | trivial | (simp only [Clocked]; decide +kernel) | skip
  exact ⟨by decide +kernel, fun _ => by show _ ≤ 5000; decide +kernel⟩

/-- `/a` after the first three operations and at the end. -/
example : (3 : Nat) = 3 :=
  valid_means_unchanged_partial (fun c => if c < 100 then some c else none)
    (by intro c x h; split at h <;> simp_all [word]; omega)
    (by intro c c' x h h'; split at h <;> split at h' <;> simp_all)
    1 (exOps.take 3) (exOps.drop 3) (by rw [List.take_append_drop]; exact exOps_clocked)
    (by rw [List.take_append_drop]; decide +kernel)
    ⟨some 0, b "/a", 117, 3⟩ ⟨some 0, b "/a", 117, 3⟩
    (by
      have : (run (fun c => if c < 100 then some c else none) (init Nat 1) (exOps.take 3)).res =
        [⟨some 0, b "/a", 117, 3⟩, ⟨some 0, b "/b", 115, 2⟩] := by rfl
      rw [this]; exact List.mem_cons_self ..)
    (by
      have : (run (fun c => if c < 100 then some c else none) (init Nat 1)
          (exOps.take 3 ++ exOps.drop 3)).res =
        [⟨some 0, b "/a", 117, 3⟩, ⟨some 0, b "/b", 5011, 7⟩] := by rfl
      rw [this]; exact List.mem_cons_self ..)
    rfl [] (le64 117) rfl (by decide +kernel)

end Verif.Etag
