import Verif.Json.ParseLemmas

/-! Lemmas about arbitrary texts: safety of the decoder, and cut texts. -/

namespace Verif.Json

open Verif.Rep (b)

/-! ### Sizes of tokens -/

/-- Containers handed to the callback are shorter than the text by their brackets. -/
def Short (L : Nat) (l : List (Kind × List UInt8)) : Prop :=
  ∀ x ∈ l, (x.1 = .obj ∨ x.1 = .arr) → x.2.length + 2 ≤ L

theorem short_prep {L : Nat} {t : List (Kind × List UInt8)} {q : List (Kind × List UInt8) × Bool}
    (h1 : Short L t) (h2 : Short L q.1) : Short L (prep t q).1 := by
  intro x hx
  rcases List.mem_append.1 hx with h | h
  · exact h1 x h
  · exact h2 x h

theorem short_nil (L : Nat) : Short L [] := by intro x hx; cases hx

theorem scanF_short : ∀ (n : Nat) (p : Parser) (s : List UInt8) (L : Nat), s.length ≤ L →
    (p.cont = true → p.start.length + 1 ≤ L ∧ s.length ≤ p.start.length) →
    Short L (scanF n p s).1
  | 0, _, _, L, _, _ => short_nil L
  | _ + 1, _, [], L, _, _ => short_nil L
  | n + 1, p, c :: r, L, h1, h2 => by
    simp only [List.length_cons] at h1 h2
    have hr : r.length ≤ L := by omega
    have hp : p.cont = true → p.start.length + 1 ≤ L ∧ r.length ≤ p.start.length := fun h => by
      have := h2 h; omega
    rw [scanF]
    split
    · exact short_nil L
    · split
      · apply scanF_short n _ r L hr
        intro _
        unfold openC
        split
        · next h => exact hp h
        · exact ⟨by simpa using h1, Nat.le_refl _⟩
      · split
        · split
          · exact short_nil L
          · next p' t e =>
            unfold closeC at e
            split at e
            · cases e
            · next hc =>
              have hc : p.cont = true := by simpa using hc
              split at e
              · cases e
                exact short_prep (short_nil L) (scanF_short n _ r L hr hp)
              · split at e
                · cases e
                · cases e
                  refine short_prep ?_ (scanF_short n _ r L hr (by simp))
                  intro x hx _
                  simp only [Option.toList_some, List.mem_singleton] at hx
                  subst hx
                  have := h2 hc
                  simp only [List.length_take, List.length_cons]
                  omega
        · split
          · split
            · exact short_nil L
            · next s r' e =>
              have := scanStr_app _ _ _ _ e
              have hl : r'.length < r.length := by rw [this]; simp; omega
              refine short_prep ?_ (scanF_short n _ r' L (by omega) (fun h => by have := hp h; omega))
              split
              · exact short_nil L
              · intro x hx hk; simp at hx; subst hx; simp at hk
          · split
            · exact scanF_short n _ r L hr hp
            · split
              · exact short_nil L
              · next s r' e =>
                have := congrArg List.length (scanPrim_app _ _ _ e)
                simp at this
                refine short_prep ?_ (scanF_short n _ r' L (by omega) (fun h => by have := h2 h; omega))
                split
                · exact short_nil L
                · intro x hx hk; simp at hx; subst hx; simp at hk

theorem scan_short (s : List UInt8) : Short s.length (scan {} s).1 :=
  scanF_short _ _ _ _ (Nat.le_refl _) (by simp)

theorem scan_tokens {s : List UInt8} {x : Kind × List UInt8} (h : x ∈ (scan {} s).1) : s ≠ [] := by
  intro e
  subst e
  rw [scan_nil] at h
  cases h

/-! ### Safety -/

theorem feed_safe {σ : Type} {cb : σ → Kind → List UInt8 → Out (Bool × σ)} :
    ∀ {l : List (Kind × List UInt8)} (d : σ), (∀ x ∈ l, ∀ d, cb d x.1 x.2 ≠ .ub) → feed cb d l ≠ .ub
  | [], d, _ => by simp [feed]
  | (k, s) :: l, d, h => by
    have h1 := h (k, s) (by simp) d
    rw [feed]
    split
    · next e => exact absurd e h1
    · simp
    · exact feed_safe _ (fun x hx => h x (by simp [hx]))

theorem jsmn_safe {σ : Type} {cb : σ → Kind → List UInt8 → Out (Bool × σ)} {s : List UInt8} {d : σ}
    (h : ∀ x ∈ (scan {} s).1, ∀ d, cb d x.1 x.2 ≠ .ub) : jsmn cb d s ≠ .ub := by
  have := feed_safe d h
  rw [jsmn]
  split
  · next e => exact absurd e this
  · simp
  · simp

theorem scanType_safe (a : Option Elem × Nat) (k : Kind) (s : List UInt8) : scanType a k s ≠ .ub := by
  unfold scanType
  split
  · simp
  · split
    · simp
    · split <;> simp

theorem scanType_true {a a' : Option Elem × Nat} {k : Kind} {s : List UInt8}
    (h : scanType a k s = .ok (true, a')) :
    ∃ t, elemType k s = some t ∧ a' = (some t, a.2 + 1) ∧ (a.1 = none ∨ a.1 = some t) := by
  unfold scanType at h
  split at h
  · simp at h
  · next t e =>
    split at h
    · next e2 => cases h; exact ⟨t, e, rfl, .inl e2⟩
    · next u e2 =>
      split at h
      · next e3 => subst e3; cases h; exact ⟨u, e, rfl, .inr e2⟩
      · simp at h

theorem feed_scanType_true : ∀ {l : List (Kind × List UInt8)} {a a' : Option Elem × Nat},
    feed scanType a l = .ok (true, a') →
    a'.2 = a.2 + l.length ∧ (∀ t, a'.1 = some t → ∀ x ∈ l, elemType x.1 x.2 = some t) ∧
      (∀ t, a.1 = some t → a'.1 = some t)
  | [], a, a', h => by cases h; simp
  | (k, s) :: l, a, a', h => by
    rw [feed] at h
    split at h
    · simp at h
    · simp at h
    · next a1 e =>
      obtain ⟨t, h1, h2, h3⟩ := scanType_true e
      obtain ⟨g1, g2, g3⟩ := feed_scanType_true h
      have g4 : a'.1 = some t := g3 t (by rw [h2])
      refine ⟨by rw [g1, h2]; simp; omega, ?_, ?_⟩
      · intro u hu x hx
        have : u = t := by rw [g4] at hu; exact (Option.some.inj hu).symm
        subst this
        rcases List.mem_cons.1 hx with rfl | hx
        · exact h1
        · exact g2 u hu x hx
      · intro u hu
        rcases h3 with h3 | h3
        · rw [h3] at hu; cases hu
        · rw [h3] at hu; cases hu; exact g4

theorem feed_fill {α : Type} {cb : List α → Kind → List UInt8 → Out (Bool × List α)} {size : Nat}
    {Q : Kind × List UInt8 → Prop}
    (hf : ∀ x, Q x → ∀ acc : List α, acc.length < size → ∃ a, cb acc x.1 x.2 = .ok (true, acc ++ [a])) :
    ∀ {l : List (Kind × List UInt8)} {acc : List α}, (∀ x ∈ l, Q x) → acc.length + l.length = size →
      ∃ r, feed cb acc l = .ok (true, r) ∧ r.length = size
  | [], acc, _, h => ⟨acc, rfl, by simpa using h⟩
  | (k, s) :: l, acc, hq, h => by
    simp only [List.length_cons] at h
    obtain ⟨a, ha⟩ := hf (k, s) (hq _ (by simp)) acc (by omega)
    rw [feed_app ha]
    exact feed_fill hf (fun x hx => hq x (by simp [hx])) (by simp; omega)

theorem fill_safe {α : Type} {mk : List α → Val}
    {cb : List α → Kind → List UInt8 → Out (Bool × List α)} {size : Nat}
    {Q : Kind × List UInt8 → Prop} {s : List UInt8} {d : Data}
    (hf : ∀ x, Q x → ∀ acc : List α, acc.length < size → ∃ a, cb acc x.1 x.2 = .ok (true, acc ++ [a]))
    (hq : ∀ x ∈ (scan {} s).1, Q x) (hl : (scan {} s).1.length = size) :
    fill mk cb size d s ≠ .ub := by
  obtain ⟨r, h1, h2⟩ := feed_fill hf hq (acc := []) (by simpa using hl)
  have h3 : ∃ o, jsmn cb [] s = .ok (o, r) := by
    rw [jsmn, h1]
    exact ⟨_, rfl⟩
  obtain ⟨o, h3⟩ := h3
  rw [fill, h3]
  split
  · next e => cases e
  · simp
  · next l e =>
    cases e
    simp only [h2, ne_eq, not_true_eq_false, if_false]
    split <;> simp

theorem elem_bool {x : Kind × List UInt8} (h : elemType x.1 x.2 = some .bool) :
    x.1 = .prim ∧ ∃ v, parseBool x.2 = some v := by
  obtain ⟨k, s⟩ := x
  cases k <;> simp [elemType] at h
  refine ⟨rfl, ?_⟩
  split at h
  · simp at h
  · split at h
    · next e => exact Option.isSome_iff_exists.1 e
    · split at h <;> simp at h

theorem elem_int {x : Kind × List UInt8} (h : elemType x.1 x.2 = some .int) :
    x.1 = .prim ∧ ∃ v, parseInt x.2 = some v := by
  obtain ⟨k, s⟩ := x
  cases k <;> simp [elemType] at h
  refine ⟨rfl, ?_⟩
  split at h
  · simp at h
  · split at h
    · simp at h
    · split at h
      · next e => exact Option.isSome_iff_exists.1 e
      · simp at h

theorem elem_str {x : Kind × List UInt8} (h : elemType x.1 x.2 = some .str) : x.1 = .str := by
  obtain ⟨k, s⟩ := x
  cases k <;> simp [elemType] at h
  · rfl
  · split at h
    · simp at h
    · split at h
      · simp at h
      · split at h <;> simp at h

theorem elem_obj {x : Kind × List UInt8} (h : elemType x.1 x.2 = some .obj) : x.1 = .obj := by
  obtain ⟨k, s⟩ := x
  cases k <;> simp [elemType] at h
  · rfl
  · split at h
    · simp at h
    · split at h
      · simp at h
      · split at h <;> simp at h

/-- What the callback of a text of length `m` may assume about its tokens. -/
def Safe (m : Nat) (tok : Data → Kind → List UInt8 → Out (Bool × Data)) : Prop :=
  ∀ d k s, 0 < m → ((k = .obj ∨ k = .arr) → s.length + 1 ≤ m) → tok d k s ≠ .ub

theorem safe_feed {m : Nat} {tok} (h : Safe m tok) {s : List UInt8} (hs : s.length ≤ m) :
    ∀ x ∈ (scan {} s).1, ∀ d, tok d x.1 x.2 ≠ .ub := by
  intro x hx d
  have h1 := scan_tokens hx
  have h2 := List.length_pos_iff.2 h1
  refine h d x.1 x.2 (by omega) fun hk => ?_
  have := scan_short s x hx hk
  omega

theorem parseObj_safe {m : Nat} {tok} (h : Safe m tok) {s : List UInt8} (hs : s.length ≤ m) (d : Data) :
    parseObj tok d s ≠ .ub := by
  have h1 := jsmn_safe (d := ({} : Data)) (safe_feed h hs)
  rw [parseObj]
  split
  · next e => exact absurd e h1
  · simp
  · split
    · simp
    · simp
    · split <;> simp

theorem fillObj_safe {m : Nat} {tok} (h : Safe m tok) {s : List UInt8} (hs : s.length ≤ m)
    (hk : ∀ x ∈ (scan {} s).1, x.1 = .obj) (d : Data) : fillObj tok d s ≠ .ub := by
  have h1 : jsmn (assignObj tok) ({} : Data) s ≠ .ub := by
    apply jsmn_safe
    intro x hx d
    have h2 := scan_short s x hx (.inl (hk x hx))
    rw [assignObj, hk x hx]
    simp only [ne_eq, not_true_eq_false, if_false]
    exact parseObj_safe h (by omega) d
  rw [fillObj]
  split
  · next e => exact absurd e h1
  · simp
  · simp
  · split <;> simp

theorem parseArr_safe {m : Nat} {tok} (h : Safe m tok) {s : List UInt8} (hs : s.length ≤ m) (d : Data) :
    parseArr tok d s ≠ .ub := by
  have h1 : jsmn scanType (none, 0) s ≠ .ub := jsmn_safe (fun x _ d => scanType_safe _ _ _)
  rw [parseArr]
  split
  · next e => exact absurd e h1
  · simp
  · next c t size e =>
    have h2 : feed scanType (none, 0) (scan {} s).1 = .ok (true, t, size) := by
      rw [jsmn] at e
      split at e
      · cases e
      · cases e
      · next d' e2 => simp only [Out.ok.injEq, Prod.mk.injEq] at e; rw [e2, e.2]
    obtain ⟨g1, g2, _⟩ := feed_scanType_true h2
    simp only [Nat.zero_add] at g1
    split
    · simp
    · refine fill_safe (Q := fun x => x.1 = .prim ∧ ∃ v, parseBool x.2 = some v) ?_
        (fun x hx => elem_bool (g2 _ rfl x hx)) g1.symm
      rintro x ⟨hk, v, hv⟩ acc ha
      exact ⟨v, by simp [assignBool, hk, hv, ha]⟩
    · refine fill_safe (Q := fun x => x.1 = .prim ∧ ∃ v, parseInt x.2 = some v) ?_
        (fun x hx => elem_int (g2 _ rfl x hx)) g1.symm
      rintro x ⟨hk, v, hv⟩ acc ha
      exact ⟨v, by simp [assignInt, hk, hv, ha]⟩
    · refine fill_safe (Q := fun x => x.1 = .str) ?_
        (fun x hx => elem_str (g2 _ rfl x hx)) g1.symm
      rintro x hk acc ha
      exact ⟨x.2.take (itemMax - 1), by simp only [assignStr, hk, ha, ne_eq, not_true_eq_false, if_false, if_true]⟩
    · exact fillObj_safe h hs (fun x hx => elem_obj (g2 _ rfl x hx)) d
    · split <;> simp

theorem parseTok_safe : ∀ n, Safe n (parseTok n)
  | 0 => fun _ _ _ h => by omega
  | n + 1 => by
    intro d k s _ h
    unfold parseTok
    split
    · simp
    · simp
    · exact parseArr_safe (parseTok_safe n) (by have := h (.inr rfl); omega) d
    · exact parseObj_safe (parseTok_safe n) (by have := h (.inl rfl); omega) d

/-! ### Which texts leave no node behind -/

theorem setLast_ne {l : List Node} (v : Val) (h : l ≠ []) : setLast l v ≠ [] := by
  unfold setLast
  split
  · simp
  · next e => rw [List.getLast?_eq_none_iff] at e; exact absurd e h

theorem setRep_ne {d d' : Data} {v : Val} {e : Bool} (h : setRep d v e = some d') : d'.nodes ≠ [] := by
  unfold setRep at h
  split at h
  · split at h
    · next e =>
      cases h
      apply setLast_ne
      intro h0
      rw [h0] at e; cases e
    · cases h
  · cases h; simp

theorem parseTok_ne {n : Nat} {d d' : Data} {k : Kind} {s : List UInt8}
    (h : parseTok n d k s = .ok (true, d')) (hd : d.nodes ≠ [] ∨ (k ≠ .arr ∧ d.cur = false)) :
    d'.nodes ≠ [] := by
  cases n with
  | zero => cases h
  | succ n =>
    unfold parseTok at h
    split at h
    · rw [parsePrim] at h
      split at h
      · split at h
        · next e _ v _ =>
          cases h
          rcases hd with hd | hd
          · exact setLast_ne _ hd
          · rw [hd.2] at e; cases e
        · simp at h
      · simp at h
    · rw [parseString] at h
      split at h
      · split at h
        · next e => cases h; exact setRep_ne e
        · simp at h
      · cases h; simp
    · have hd : d.nodes ≠ [] := hd.resolve_right (by simp)
      rw [parseArr] at h
      split at h
      · cases h
      · simp at h
      · split at h
        · simp at h
        · rw [fill] at h
          split at h
          · cases h
          · simp at h
          · split at h
            · cases h
            · split at h
              · next e => cases h; exact setRep_ne e
              · simp at h
        · rw [fill] at h
          split at h
          · cases h
          · simp at h
          · split at h
            · cases h
            · split at h
              · next e => cases h; exact setRep_ne e
              · simp at h
        · rw [fill] at h
          split at h
          · cases h
          · simp at h
          · split at h
            · cases h
            · split at h
              · next e => cases h; exact setRep_ne e
              · simp at h
        · rw [fillObj] at h
          split at h
          · cases h
          · cases h; exact hd
          · cases h; exact hd
          · split at h
            · next e => cases h; exact setRep_ne e
            · simp at h
        · split at h
          · next e => cases h; exact setRep_ne e
          · simp at h
    · rw [parseObj] at h
      split at h
      · cases h
      · simp at h
      · split at h
        · simp at h
        · simp at h
        · split at h
          · next e => cases h; exact setRep_ne e
          · simp at h

theorem feed_ne {n : Nat} : ∀ {l : List (Kind × List UInt8)} {d d' : Data},
    feed (parseTok n) d l = .ok (true, d') → d.nodes ≠ [] → d'.nodes ≠ []
  | [], d, d', h, hd => by cases h; exact hd
  | (k, s) :: l, d, d', h, hd => by
    rw [feed] at h
    split at h
    · cases h
    · simp at h
    · next e => exact feed_ne h (parseTok_ne e (.inl hd))

/-- The kind of the first token inside an open object. -/
theorem scanF_obj : ∀ (n : Nat) (p : Parser) (s : List UInt8), p.cont = true → p.isObj = true →
    ∀ x l, (scanF n p s).1 = x :: l → x.1 = .obj
  | 0, _, _, _, _, x, l, h => by cases h
  | _ + 1, _, [], _, _, x, l, h => by cases h
  | n + 1, p, c :: r, h1, h2, x, l, h => by
    rw [scanF] at h
    split at h
    · cases h
    · split at h
      · refine scanF_obj n _ r ?_ ?_ x l h
        · simp [openC, h1]
        · simp [openC, h1, h2]
      · split at h
        · split at h
          · cases h
          · next p' t e =>
            unfold closeC at e
            split at e
            · cases e
            · split at e
              · cases e; exact scanF_obj n _ r (by exact h1) (by exact h2) x l h
              · split at e
                · cases e
                · next e2 =>
                  cases e
                  have e2 : p.isObj = (c == 125) := by simpa using e2
                  simp only [prep, Option.toList_some, List.singleton_append, List.cons.injEq] at h
                  rw [← h.1, ← e2, h2]
                  rfl
        · split at h
          · split at h
            · cases h
            · exact scanF_obj n _ _ h1 h2 x l h
          · split at h
            · exact scanF_obj n _ _ h1 h2 x l h
            · split at h
              · cases h
              · exact scanF_obj n _ _ h1 h2 x l h

theorem first_kind : ∀ (s : List UInt8) (x l), (scan {} s).1 = x :: l → x.1 = .arr →
    (s.dropWhile isSkip).head? = some 91
  | [], x, l, h, _ => by cases h
  | c :: r, x, l, h, hk => by
    by_cases hs : isSkip c = true
    · rw [scan_skip _ _ hs] at h
      rw [List.dropWhile_cons, hs]
      exact first_kind r x l h hk
    · rw [List.dropWhile_cons]
      simp only [hs]
      by_cases h91 : c = 91
      · simp [h91]
      · exfalso
        by_cases h123 : c = 123
        · subst h123
          rw [scan_open _ _ (.inl rfl)] at h
          have := scanF_obj _ _ _ rfl rfl x l h
          rw [hk] at this; cases this
        · by_cases hcl : c = 125 ∨ c = 93
          · rw [scan_close _ _ hcl] at h
            have : closeC {} (c == 125) (c :: r) = none := rfl
            rw [this] at h
            cases h
          · by_cases h34 : c = 34
            · subst h34
              rw [scan_quote] at h
              split at h
              · cases h
              · simp only [prep, Bool.false_eq_true, if_false, List.singleton_append, List.cons.injEq] at h
                rw [← h.1] at hk; cases hk
            · by_cases h0 : c = 0
              · subst h0; cases h
              · have hcl' : c ≠ 125 ∧ c ≠ 93 := ⟨fun e => hcl (.inl e), fun e => hcl (.inr e)⟩
                rw [scan_prim _ _ ⟨h0, h123, h91, hcl'.1, hcl'.2, h34, by simpa using hs⟩] at h
                split at h
                · cases h
                · simp only [prep, Bool.false_eq_true, if_false, List.singleton_append, List.cons.injEq] at h
                  rw [← h.1] at hk; cases hk

/-! ### Cut texts -/

theorem scanStr_more (r2 : List UInt8) : ∀ {s : List UInt8} {st : StrSt} {a r : List UInt8},
    scanStr st s = .done a r → scanStr st (s ++ r2) = .done a (r ++ r2)
  | [], st, a, r, h => by cases st <;> cases h
  | c :: s, st, a, r, h => by
    rw [scanStr] at h
    rw [List.cons_append, scanStr]
    split at h
    · cases h; rfl
    · cases h
    · split at h
      · next e => cases h; rw [scanStr_more r2 e]
      · cases h

theorem scanPrim_more (r2 : List UInt8) : ∀ {s a r : List UInt8}, scanPrim s = some (a, r) → r ≠ [] →
    scanPrim (s ++ r2) = some (a, r ++ r2)
  | [], a, r, h, hr => by simp [scanPrim] at h; exact absurd h.2 hr
  | c :: s, a, r, h, hr => by
    rw [scanPrim] at h
    rw [List.cons_append, scanPrim]
    split at h
    · next e => cases h; simp [e]
    · next e =>
      rw [if_neg e]
      split at h
      · cases h
      · next e2 =>
        rw [if_neg e2]
        split at h
        · next e3 => cases h; rw [scanPrim_more r2 e3 hr]
        · cases h

/-- A container that is not closed in `q` is not accepted; one that is closed in
`q` yields a token that ends before `r`. -/
theorem cut : ∀ (N : Nat) (q : List UInt8) (p1 p2 : Parser) (r : List UInt8), q.length ≤ N → In p1 →
    p2.cont = true → p1.depth = p2.depth → p1.isObj = p2.isObj → (q ++ r).length ≤ p2.start.length →
    scan p1 q = ([], false) ∨ scan p2 (q ++ r) = ([], false) ∨
      ∃ k x l a, scan p2 (q ++ r) = ((k, x) :: l, a) ∧ x.length + r.length + 1 ≤ p2.start.length
  | _, [], p1, p2, r, _, hp, _, _, _, _ => by
    left
    rw [scan_nil]
    have := hp.2
    simp; omega
  | 0, c :: q, _, _, _, h, _, _, _, _, _ => by simp at h
  | N + 1, c :: q, p1, p2, r, h, hp, hp2, hd, ho, hl => by
    have hN : q.length ≤ N := by simpa using h
    have hl' : (q ++ r).length ≤ p2.start.length := by simp at hl ⊢; omega
    have hp1c : p1.cont = true := hp.1
    have hdep := hp.2
    rw [List.cons_append]
    by_cases h0 : c = 0
    · left
      subst h0
      have : scan p1 (0 :: q) = ([], p1.depth == 0) := rfl
      rw [this]; simp; omega
    · by_cases hop : c = 123 ∨ c = 91
      · rw [scan_open _ _ hop, scan_open _ _ hop]
        have e1 : openC p1 (c == 123) q = { p1 with depth := p1.depth + 1 } := by simp [openC, hp1c]
        have e2 : openC p2 (c == 123) (q ++ r) = { p2 with depth := p2.depth + 1 } := by
          simp [openC, hp2]
        rw [e1, e2]
        exact cut N q { p1 with depth := p1.depth + 1 } { p2 with depth := p2.depth + 1 } r hN
          ⟨hp1c, by simp⟩ hp2 (by simp [hd]) ho hl'
      · by_cases hcl : c = 125 ∨ c = 93
        · rw [scan_close _ _ hcl, scan_close _ _ hcl]
          by_cases h1 : p1.depth - 1 = 0
          · by_cases h2 : p1.isObj = (c == 125)
            · right; right
              have e2 : closeC p2 (c == 125) (c :: (q ++ r)) = some ({}, some
                  (if c == 125 then .obj else .arr,
                    p2.start.take (p2.start.length - (c :: (q ++ r)).length))) := by
                unfold closeC
                rw [hp2, ← hd, ← ho, h1, h2]
                simp
              rw [e2]
              refine ⟨_, _, _, _, rfl, ?_⟩
              simp only [List.length_take, List.length_cons, List.length_append] at hl ⊢
              omega
            · left
              have : closeC p1 (c == 125) (c :: q) = none := by
                unfold closeC
                simp [h1, h2]
              rw [this]
          · have e1 : closeC p1 (c == 125) (c :: q) = some ({ p1 with depth := p1.depth - 1 }, none) := by
              unfold closeC
              simp [hp1c, h1]
            have e2 : closeC p2 (c == 125) (c :: (q ++ r)) =
                some ({ p2 with depth := p2.depth - 1 }, none) := by
              unfold closeC
              rw [hd] at h1
              simp [hp2, h1]
            rw [e1, e2]
            dsimp only [Option.toList_none, prep_nil]
            exact cut N q { p1 with depth := p1.depth - 1 } { p2 with depth := p2.depth - 1 } r hN
              ⟨hp1c, by simp; omega⟩ hp2 (by simp [hd]) ho hl'
        · by_cases h34 : c = 34
          · subst h34
            rw [scan_quote, scan_quote]
            match e : scanStr .plain q with
            | .fail => left; rfl
            | .done s r' =>
              rw [scanStr_more r e]
              dsimp only
              rw [hp1c, hp2]
              have := congrArg List.length (scanStr_app _ _ _ _ e)
              simp at this
              exact cut N r' p1 p2 r (by omega) hp hp2 hd ho (by simp at hl' ⊢; omega)
          · by_cases hs : isSkip c = true
            · rw [scan_skip _ _ hs, scan_skip _ _ hs]
              exact cut N q p1 p2 r hN hp hp2 hd ho hl'
            · have hps : PrimStart c := ⟨h0, fun e => hop (.inl e), fun e => hop (.inr e),
                fun e => hcl (.inl e), fun e => hcl (.inr e), h34, by simpa using hs⟩
              rw [scan_prim _ _ hps, scan_prim _ _ hps]
              match e : scanPrim (c :: q) with
              | none => left; rfl
              | some (s, []) =>
                left
                dsimp only
                rw [hp1c, scan_nil]
                simp [prep]; omega
              | some (s, d :: r') =>
                rw [← List.cons_append, scanPrim_more r e (by simp)]
                dsimp only
                rw [hp1c, hp2]
                have hpos : isDelim c = false := isDelim_default (by simp; exact ⟨fun e => hcl (.inl e), fun e => hcl (.inr e)⟩) hs
                obtain ⟨a', ha⟩ := scanPrim_pos hpos e
                have := congrArg List.length (scanPrim_app _ _ _ e)
                rw [ha] at this
                simp at this
                exact cut N (d :: r') p1 p2 r (by simp; omega) hp hp2 hd ho (by simp at hl' ⊢; omega)

end Verif.Json
