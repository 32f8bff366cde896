import Verif.Acl.Spec

/-! Lemmas for the access decision. -/

namespace Verif.Acl

open Verif.Rep (Bytes b)

theorem matchUri_slash (c uri : Bytes) (h : uri.head? = some 47) : matchUri c uri = decide (uri = c) := by
  cases uri with
  | nil => cases h
  | cons x l =>
    simp only [List.head?_cons, Option.some.injEq] at h
    subst h
    simp [matchUri]

/-! ## Permission bits -/

theorem and_pow_ne (p : BitVec 16) (k : Nat) (hk : k < 16) :
    (p &&& BitVec.twoPow 16 k ≠ 0) ↔ p.getLsbD k = true := by
  constructor
  · intro h
    cases hp : p.getLsbD k with
    | true => rfl
    | false =>
      exfalso; apply h
      apply BitVec.eq_of_getLsbD_eq
      intro i hi
      rw [BitVec.getLsbD_and, BitVec.getLsbD_twoPow]
      by_cases he : k = i
      · subst he; rw [hp]; simp
      · simp [he]
  · intro h he
    have := congrArg (fun x => x.getLsbD k) he
    rw [BitVec.getLsbD_and, BitVec.getLsbD_twoPow, h] at this
    simp [hk] at this

theorem evalAccess_iff (m : Method) (p : BitVec 16) : evalAccess m p = true ↔ Spec.Permits m p := by
  have h0 := and_pow_ne p 0 (by omega)
  have h1 := and_pow_ne p 1 (by omega)
  have h2 := and_pow_ne p 2 (by omega)
  have h3 := and_pow_ne p 3 (by omega)
  have h4 := and_pow_ne p 4 (by omega)
  rw [show BitVec.twoPow 16 0 = 1 by decide] at h0
  rw [show BitVec.twoPow 16 1 = 2 by decide] at h1
  rw [show BitVec.twoPow 16 2 = 4 by decide] at h2
  rw [show BitVec.twoPow 16 3 = 8 by decide] at h3
  rw [show BitVec.twoPow 16 4 = 16 by decide] at h4
  by_cases hz : p = 0
  · subst hz
    unfold evalAccess
    rw [if_pos rfl]
    cases m <;> simp [Spec.Permits]
  · unfold evalAccess
    rw [if_neg hz]
    cases m <;> simp only [Spec.Permits, Bool.or_eq_true, decide_eq_true_eq, h0, h1, h2, h3, h4, Bool.false_eq_true]

theorem permits_or (m : Method) (p q : BitVec 16) :
    Spec.Permits m (p ||| q) ↔ Spec.Permits m p ∨ Spec.Permits m q := by
  cases m <;> simp only [Spec.Permits, BitVec.getLsbD_or, Bool.or_eq_true]
  · constructor
    · rintro ((h | h) | (h | h)) <;> simp [h]
    · rintro ((h | h) | (h | h)) <;> simp [h]
  · constructor
    · rintro ((h | h) | (h | h)) <;> simp [h]
    · rintro ((h | h) | (h | h)) <;> simp [h]
  · constructor
    · rintro ((h | h) | (h | h)) <;> simp [h]
    · rintro ((h | h) | (h | h)) <;> simp [h]
  · simp

theorem permits_zero (m : Method) : ¬ Spec.Permits m 0 := by
  cases m <;> simp [Spec.Permits]

theorem permits_all (m : Method) : Spec.Permits m permAll ↔ m ≠ .fetch := by
  cases m <;> simp only [Spec.Permits] <;> decide

/-! ## Entries -/

theorem wc_bits_zero (w : Wc) : w.bits = 0 ↔ w = .no := by cases w <;> decide

theorem wildcards_match (w : Wc) (hw : w ≠ .no) (r : Res) (hd : r.dcr = false) :
    matchWildcard (wildcards r) w.bits = true ↔ Spec.WcCovers w r := by
  unfold wildcards
  rw [if_neg (by simp [hd])]
  cases h1 : r.discoverable <;> cases h2 : r.secure <;> cases w <;>
    simp [Spec.WcCovers, h1, h2] <;> first | decide | (exact hw rfl)

theorem wildcards_zero (r : Res) : wildcards r = 0 ↔ r.dcr = true := by
  unfold wildcards
  cases r.dcr <;> cases r.discoverable <;> cases r.secure <;> simp <;> decide

theorem entryMatches_iff (e : Entry) (r : Res) (hu : r.uri.head? = some 47) :
    entryMatches (some r.uri) (wildcards r) e = true ↔ Spec.Covers e r := by
  have hwc : ∀ dflt : Bool, (if wildcards r ≠ 0 ∧ e.wc.bits ≠ 0 then matchWildcard (wildcards r) e.wc.bits else dflt) = true ↔
      (e.wc ≠ .no → r.dcr = false → Spec.WcCovers e.wc r) ∧ ((e.wc ≠ .no ∧ r.dcr = false) ∨ dflt = true) := by
    intro dflt
    by_cases h : e.wc = .no
    · rw [if_neg (by rw [(wc_bits_zero _).2 h]; simp)]
      simp [h]
    · by_cases hd : r.dcr = true
      · rw [if_neg (by rw [(wildcards_zero r).2 hd]; simp)]
        simp [hd]
      · have hd' : r.dcr = false := by simpa using hd
        rw [if_pos ⟨by rw [Ne, wildcards_zero]; exact hd, by rw [Ne, wc_bits_zero]; exact h⟩, wildcards_match _ h _ hd']
        simp [h, hd']
  obtain ⟨href, wc⟩ := e
  cases href with
  | none =>
    simp only [entryMatches]
    rw [hwc false]
    simp [Spec.Covers, Spec.Entry.named]
  | some h =>
    cases h with
    | nil =>
      simp only [entryMatches]
      rw [hwc false]
      have h1 : ¬ ∃ h : Bytes, Spec.Entry.named ⟨some [], wc⟩ h := by
        rintro ⟨h, a, c⟩; simp at a; exact c a
      have h2 : ∀ h : Bytes, Spec.Entry.named ⟨some [], wc⟩ h → h = r.uri := fun h x => (h1 ⟨h, x⟩).elim
      simp only [Spec.Covers]
      constructor
      · rintro ⟨a, c⟩; exact ⟨h2, a, .inr (by simpa using c)⟩
      · rintro ⟨-, a, c⟩; exact ⟨a, .inl (c.resolve_left h1)⟩
    | cons x y =>
      simp only [entryMatches]
      rw [matchUri_slash _ _ hu]
      by_cases he : r.uri = x :: y
      · rw [if_neg (by simp [he]), hwc true]
        have h1 : Spec.Entry.named ⟨some (x :: y), wc⟩ (x :: y) := ⟨rfl, by simp⟩
        have h2 : ∀ h : Bytes, Spec.Entry.named ⟨some (x :: y), wc⟩ h → h = r.uri := by
          rintro h ⟨a, -⟩; simp at a; rw [he, ← a]
        simp only [Spec.Covers]
        constructor
        · rintro ⟨a, -⟩; exact ⟨h2, a, .inl ⟨_, h1⟩⟩
        · rintro ⟨-, a, -⟩; exact ⟨a, .inr trivial⟩
      · rw [if_pos (by simp [he])]
        constructor
        · intro h; cases h
        · rintro ⟨a, -, -⟩; exact absurd (a (x :: y) ⟨rfl, by simp⟩).symm he

/-! ## Loops -/

theorem findResource_spec (href : Option Bytes) (w : BitVec 16) (l : List Entry) :
    match findResource href w l with
    | [] => ∀ e ∈ l, entryMatches href w e = false
    | e :: l' => entryMatches href w e = true ∧ ∃ p, l = p ++ e :: l' ∧ ∀ x ∈ p, entryMatches href w x = false := by
  induction l with
  | nil => intro e h; cases h
  | cons r l ih =>
    rw [findResource]
    by_cases h : entryMatches href w r = true
    · rw [if_pos h]
      exact ⟨h, [], rfl, fun x hx => by cases hx⟩
    · rw [if_neg h]
      have h' : entryMatches href w r = false := by simpa using h
      cases hf : findResource href w l with
      | nil =>
        rw [hf] at ih
        intro e he
        rcases List.mem_cons.1 he with rfl | he
        · exact h'
        · exact ih e he
      | cons e l' =>
        rw [hf] at ih
        obtain ⟨a, p, c, d⟩ := ih
        refine ⟨a, r :: p, by rw [c]; rfl, ?_⟩
        intro x hx
        rcases List.mem_cons.1 hx with rfl | hx
        · exact h'
        · exact d x hx

theorem resLoop_permits (a : Ace) (r : Res) (m : Method) : ∀ (n : Nat) (l : List Entry) (p : BitVec 16), l.length ≤ n →
    (Spec.Permits m (resLoop a r n l p) ↔ Spec.Permits m p ∨
      ((∃ e ∈ l, entryMatches (some r.uri) (wildcards r) e = true) ∧ Spec.Permits m a.permission)) := by
  intro n
  induction n with
  | zero =>
    intro l p h
    have : l = [] := List.eq_nil_of_length_eq_zero (by omega)
    subst this
    simp [resLoop]
  | succ n ih =>
    intro l p h
    have hs := findResource_spec (some r.uri) (wildcards r) l
    rw [resLoop]
    cases hf : findResource (some r.uri) (wildcards r) l with
    | nil =>
      rw [hf] at hs
      dsimp only
      constructor
      · exact .inl
      · rintro (h | ⟨⟨e, he, h1⟩, -⟩)
        · exact h
        · rw [hs e he] at h1; cases h1
    | cons e l' =>
      rw [hf] at hs
      obtain ⟨h1, q, rfl, h2⟩ := hs
      dsimp only
      rw [ih l' _ (by simp only [List.length_append, List.length_cons] at h; omega), permits_or]
      constructor
      · rintro ((h | h) | ⟨⟨e', he', h3⟩, h4⟩)
        · exact .inl h
        · exact .inr ⟨⟨e, by simp, h1⟩, h⟩
        · exact .inr ⟨⟨e', by simp [he'], h3⟩, h4⟩
      · rintro (h | ⟨-, h⟩)
        · exact .inl (.inl h)
        · exact .inl (.inr h)

theorem acePermission_permits (a : Ace) (r : Res) (m : Method) (hu : r.uri.head? = some 47) :
    Spec.Permits m (acePermission a r) ↔ (∃ e ∈ a.resources, Spec.Covers e r) ∧ Spec.Permits m a.permission := by
  rw [acePermission, resLoop_permits a r m _ _ _ (Nat.le_refl _)]
  simp only [permits_zero, false_or, entryMatches_iff _ r hu]

theorem subjectMatches_iff (a s : Subject) : subjectMatches a s = true ↔ Spec.IsSubject a s := by
  cases a <;> cases s <;> simp [subjectMatches, Spec.IsSubject]
  · rename_i r a r' a'
    constructor
    · rintro ⟨rfl, h⟩; exact ⟨rfl, h.imp id Eq.symm⟩
    · rintro ⟨rfl, h⟩; exact ⟨rfl, h.imp id Eq.symm⟩
  · exact eq_comm

theorem findSubject_spec (s : Subject) (l : List Ace) :
    match findSubject s l with
    | [] => ∀ a ∈ l, subjectMatches a.subject s = false
    | a :: l' => subjectMatches a.subject s = true ∧ ∃ p, l = p ++ a :: l' ∧ ∀ x ∈ p, subjectMatches x.subject s = false := by
  induction l with
  | nil => intro e h; cases h
  | cons r l ih =>
    rw [findSubject]
    by_cases h : subjectMatches r.subject s = true
    · rw [if_pos h]
      exact ⟨h, [], rfl, fun x hx => by cases hx⟩
    · rw [if_neg h]
      have h' : subjectMatches r.subject s = false := by simpa using h
      cases hf : findSubject s l with
      | nil =>
        rw [hf] at ih
        intro e he
        rcases List.mem_cons.1 he with rfl | he
        · exact h'
        · exact ih e he
      | cons e l' =>
        rw [hf] at ih
        obtain ⟨a, p, c, d⟩ := ih
        refine ⟨a, r :: p, by rw [c]; rfl, ?_⟩
        intro x hx
        rcases List.mem_cons.1 hx with rfl | hx
        · exact h'
        · exact d x hx

theorem subjectLoop_permits (s : Subject) (r : Res) (m : Method) (hu : r.uri.head? = some 47) :
    ∀ (n : Nat) (l : List Ace) (p : BitVec 16), l.length ≤ n →
    (Spec.Permits m (subjectLoop s r n l p) ↔ Spec.Permits m p ∨ Spec.Grants l s r m) := by
  intro n
  induction n with
  | zero =>
    intro l p h
    have : l = [] := List.eq_nil_of_length_eq_zero (by omega)
    subst this
    simp [subjectLoop, Spec.Grants]
  | succ n ih =>
    intro l p h
    have hs := findSubject_spec s l
    rw [subjectLoop]
    cases hf : findSubject s l with
    | nil =>
      rw [hf] at hs
      dsimp only
      constructor
      · exact .inl
      · rintro (h | ⟨a, ha, h1, -⟩)
        · exact h
        · rw [← subjectMatches_iff, hs a ha] at h1; cases h1
    | cons a l' =>
      rw [hf] at hs
      obtain ⟨h1, q, rfl, h2⟩ := hs
      dsimp only
      rw [ih l' _ (by simp only [List.length_append, List.length_cons] at h; omega), permits_or,
        acePermission_permits a r m hu]
      constructor
      · rintro ((h | ⟨h3, h4⟩) | ⟨a', ha', h3, h4⟩)
        · exact .inl h
        · exact .inr ⟨a, by simp, (subjectMatches_iff _ _).1 h1, h3, h4⟩
        · exact .inr ⟨a', by simp [ha'], h3, h4⟩
      · rintro (h | ⟨a', ha', h3, h4⟩)
        · exact .inl (.inl h)
        · rcases List.mem_append.1 ha' with hq | hq
          · rw [← subjectMatches_iff, h2 a' hq] at h3; cases h3
          · rcases List.mem_cons.1 hq with rfl | hq
            · exact .inl (.inr h4)
            · exact .inr ⟨a', hq, h3, h4⟩

theorem subjectPermission_permits (acl : List Ace) (s : Subject) (r : Res) (m : Method) (hu : r.uri.head? = some 47) :
    Spec.Permits m (subjectPermission acl s r) ↔ Spec.Grants acl s r m := by
  rw [subjectPermission, subjectLoop_permits s r m hu _ _ _ (Nat.le_refl _)]
  simp only [permits_zero, false_or]

theorem findPsk_spec (id : Id) (l : List Cred) :
    match findPsk id l with
    | [] => ∀ c ∈ l, ¬ (c.psk = true ∧ c.subject = id)
    | c :: l' => (c.psk = true ∧ c.subject = id) ∧ ∃ p, l = p ++ c :: l' ∧ ∀ x ∈ p, ¬ (x.psk = true ∧ x.subject = id) := by
  induction l with
  | nil => intro e h; cases h
  | cons r l ih =>
    rw [findPsk]
    by_cases h : r.psk = true ∧ r.subject = id
    · rw [if_pos (by simp [h.1, h.2])]
      exact ⟨h, [], rfl, fun x hx => by cases hx⟩
    · rw [if_neg (by simpa using h)]
      cases hf : findPsk id l with
      | nil =>
        rw [hf] at ih
        intro e he
        rcases List.mem_cons.1 he with rfl | he
        · exact h
        · exact ih e he
      | cons e l' =>
        rw [hf] at ih
        obtain ⟨a, p, c, d⟩ := ih
        refine ⟨a, r :: p, by rw [c]; rfl, ?_⟩
        intro x hx
        rcases List.mem_cons.1 hx with rfl | hx
        · exact h
        · exact d x hx

theorem pskLoop_permits (e : Env) (r : Res) (m : Method) (hu : r.uri.head? = some 47) :
    ∀ (n : Nat) (l : List Cred) (p : BitVec 16), l.length ≤ n →
    (Spec.Permits m (pskLoop e r n l p) ↔ Spec.Permits m p ∨
      ∃ c ∈ l, (c.psk = true ∧ c.subject = e.di) ∧ c.role ≠ [] ∧ Spec.Grants e.acl (.role c.role c.authority) r m) := by
  intro n
  induction n with
  | zero =>
    intro l p h
    have : l = [] := List.eq_nil_of_length_eq_zero (by omega)
    subst this
    simp [pskLoop]
  | succ n ih =>
    intro l p h
    have hs := findPsk_spec e.di l
    rw [pskLoop]
    cases hf : findPsk e.di l with
    | nil =>
      rw [hf] at hs
      dsimp only
      constructor
      · exact .inl
      · rintro (h | ⟨c, hc, h1, -⟩)
        · exact h
        · exact absurd h1 (hs c hc)
    | cons c l' =>
      rw [hf] at hs
      obtain ⟨h1, q, rfl, h2⟩ := hs
      dsimp only
      rw [ih l' _ (by simp only [List.length_append, List.length_cons] at h; omega)]
      have hp : Spec.Permits m (if c.role.isEmpty = true then p else p ||| subjectPermission e.acl (.role c.role c.authority) r) ↔
          Spec.Permits m p ∨ (c.role ≠ [] ∧ Spec.Grants e.acl (.role c.role c.authority) r m) := by
        by_cases hr : c.role = []
        · rw [if_pos (by simp [hr])]; simp [hr]
        · rw [if_neg (by simpa using hr), permits_or, subjectPermission_permits _ _ _ _ hu]; simp [hr]
      rw [hp]
      constructor
      · rintro ((h | h) | ⟨c', hc', h3⟩)
        · exact .inl h
        · exact .inr ⟨c, by simp, h1, h⟩
        · exact .inr ⟨c', by simp [hc'], h3⟩
      · rintro (h | ⟨c', hc', h3, h4⟩)
        · exact .inl (.inl h)
        · rcases List.mem_append.1 hc' with hq | hq
          · exact absurd h3 (h2 c' hq)
          · rcases List.mem_cons.1 hq with rfl | hq
            · exact .inl (.inr h4)
            · exact .inr ⟨c', hq, h3, h4⟩

theorem certLoop_permits (e : Env) (r : Res) (m : Method) (hu : r.uri.head? = some 47) (l : List RoleCred) :
    ∀ p, Spec.Permits m (certLoop e r l p).1 ↔
      ((∃ c ∈ l, c.valid = true ∧ c.role = ownerRole) ∧ m ≠ .fetch) ∨ Spec.Permits m p ∨
      (∃ c ∈ l, c.valid = true ∧ Spec.Grants e.acl (.role c.role c.authority) r m) := by
  have hf : ∀ l : List RoleCred, ∀ p : BitVec 16, m = .fetch → ¬ Spec.Permits m p := by
    intro l p h; subst h; exact id
  have hff : m = .fetch → ∀ s, ¬ Spec.Grants e.acl s r m := by
    rintro h s ⟨a, -, -, -, h'⟩; subst h; exact h'
  induction l with
  | nil => intro p; simp [certLoop]
  | cons c l ih =>
    intro p
    rw [certLoop]
    cases hv : c.valid with
    | false =>
      rw [if_pos (by simp), ih]
      simp [hv]
    | true =>
      rw [if_neg (by simp)]
      by_cases ho : c.role = ownerRole
      · rw [if_pos ho]
        dsimp only
        rw [permits_all]
        constructor
        · intro h; exact .inl ⟨⟨c, by simp, hv, ho⟩, h⟩
        · rintro (⟨-, h⟩ | h | ⟨c', -, -, h⟩)
          · exact h
          · intro hm; exact hf [] p hm h
          · intro hm; exact hff hm _ h
      · rw [if_neg ho]
        dsimp only
        rw [ih, permits_or, subjectPermission_permits _ _ _ _ hu]
        simp only [List.mem_cons, exists_eq_or_imp, hv, true_and, ho, false_or]
        constructor
        · rintro (h | (h | h) | h)
          · exact .inl h
          · exact .inr (.inl h)
          · exact .inr (.inr (.inl h))
          · exact .inr (.inr (.inr h))
        · rintro (h | h | h | h)
          · exact .inl h
          · exact .inr (.inl (.inl h))
          · exact .inr (.inl (.inr h))
          · exact .inr (.inr h)

theorem peerPermissions_permits (e : Env) (r : Res) (m : Method) (hu : r.uri.head? = some 47) (p : Peer) :
    Spec.Permits m (peerPermissions e r p).1 ↔ (Spec.IsOwnerRole e p ∧ m ≠ .fetch) ∨
      ∃ role authority, Spec.HasRole e p role authority ∧ Spec.Grants e.acl (.role role authority) r m := by
  rw [peerPermissions]
  cases hp : p.psk with
  | true =>
    rw [if_pos rfl]
    dsimp only
    rw [pskLoop_permits e r m hu _ _ _ (Nat.le_refl _)]
    simp only [permits_zero, false_or, Spec.IsOwnerRole, Spec.HasRole, hp, if_true, Bool.true_eq_false, false_and]
    constructor
    · rintro ⟨c, hc, ⟨h1, h2⟩, h3, h4⟩; exact ⟨_, _, ⟨c, hc, h1, h2, rfl, rfl, h3⟩, h4⟩
    · rintro ⟨_, _, ⟨c, hc, h1, h2, rfl, rfl, h3⟩, h4⟩; exact ⟨c, hc, ⟨h1, h2⟩, h3, h4⟩
  | false =>
    rw [if_neg (by simp)]
    cases hk : e.cfg.pki with
    | true =>
      rw [if_pos rfl, certLoop_permits e r m hu]
      simp only [permits_zero, false_or, Spec.IsOwnerRole, Spec.HasRole, hp, hk, true_and, ownerRole,
        Bool.false_eq_true, if_false]
      apply or_congr Iff.rfl
      constructor
      · rintro ⟨c, hc, h1, h2⟩; exact ⟨_, _, ⟨c, hc, h1, rfl, rfl⟩, h2⟩
      · rintro ⟨_, _, ⟨c, hc, h1, rfl, rfl⟩, h2⟩; exact ⟨c, hc, h1, h2⟩
    | false =>
      rw [if_neg (by simp)]
      have := permits_zero m
      simp [Spec.IsOwnerRole, Spec.HasRole, hp, hk]; exact this

theorem byPermissions_iff (e : Env) (r : Res) (m : Method) (hu : r.uri.head? = some 47) :
    (byPermissions e r m).1 = true ↔ Spec.ByPermissions e r m := by
  have hc : Spec.Permits m (connPermissions e r) ↔
      (Spec.Grants e.acl (.conn .anonClear) r m ∨ (e.secured = true ∧ Spec.Grants e.acl (.conn .authCrypt) r m)) := by
    rw [connPermissions, permits_or, subjectPermission_permits _ _ _ _ hu]
    cases e.secured with
    | true => rw [if_pos rfl, subjectPermission_permits _ _ _ _ hu]; simp [or_comm]
    | false => rw [if_neg (by simp)]; have := permits_zero m; simp only [this, false_or, Bool.false_eq_true, false_and, or_false]
  rw [byPermissions]
  dsimp only
  rw [evalAccess_iff, Spec.ByPermissions]
  have hq : ∀ q : BitVec 16, Spec.Permits m (if (!r.svr) = true then q ||| connPermissions e r else q) ↔
      Spec.Permits m q ∨ (r.svr = false ∧ (Spec.Grants e.acl (.conn .anonClear) r m ∨
        (e.secured = true ∧ Spec.Grants e.acl (.conn .authCrypt) r m))) := by
    intro q
    cases r.svr with
    | true => simp
    | false => rw [if_pos (by simp), permits_or, hc]; simp
  rw [hq]
  cases hp : e.peer with
  | none => dsimp only; rw [subjectPermission_permits _ _ _ _ hu]; simp
  | some p =>
    dsimp only
    rw [permits_or, subjectPermission_permits _ _ _ _ hu, peerPermissions_permits e r m hu]
    simp only [Option.some.injEq, exists_eq_left', or_assoc]

end Verif.Acl
