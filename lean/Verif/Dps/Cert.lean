import Verif.Dps.CertModel
/-!
Properties of the validity and renewal of certificates of the provisioning service
(C125).
-/
namespace Verif.Dps.Cert

/-- The times of certificates and clocks are below the year 9999, and the limit is a
16 bit number. -/
def Sane (limit now : Nat) : Prop := limit < 2 ^ 16 ∧ now < 2 ^ 38

theorem expiring_iff {limit now : Nat} (h : Sane limit now) (stop : Nat) :
    isExpiring limit stop now = true ↔ stop < now + limit := by
  unfold isExpiring Sane at *
  rw [Nat.mod_eq_of_lt (by omega)]
  simp

/-- **C125 (state of a certificate).** The four states are told apart exactly by the
time, the start and end of the validity and the limit. -/
theorem state_exact (limit now : Nat) (h : Sane limit now) (v : Validity) :
    (validate limit (some now) v = some .notYetValid ↔ now < v.start) ∧
    (validate limit (some now) v = some .expired ↔ v.start ≤ now ∧ v.stop < now) ∧
    (validate limit (some now) v = some .expiring ↔ v.start ≤ now ∧ now ≤ v.stop ∧ v.stop < now + limit) ∧
    (validate limit (some now) v = some .valid ↔ v.start ≤ now ∧ now + limit ≤ v.stop) := by
  have he := expiring_iff h v.stop
  unfold validate
  dsimp only
  by_cases h1 : now < v.start
  · simp [h1]
    omega
  · by_cases h2 : isExpiring limit v.stop now = true
    · have := he.1 h2
      by_cases h3 : now > v.stop
      · simp [h1, h2, h3]; omega
      · simp [h1, h2, h3]; omega
    · have : ¬ v.stop < now + limit := fun x => h2 (he.2 x)
      simp [h1, h2]; omega

/-- All four states at the time 1000 with the limit 100. -/
example : Sane 100 1000 ∧ validate 100 (some 1000) ⟨1001, 2000⟩ = some .notYetValid ∧
    validate 100 (some 1000) ⟨0, 999⟩ = some .expired ∧ validate 100 (some 1000) ⟨0, 1050⟩ = some .expiring ∧
    validate 100 (some 1000) ⟨0, 1100⟩ = some .valid := by
  refine ⟨by simp [Sane], by decide, by decide, by decide, by decide⟩

/-- The certificates of a credential that count: of a trust anchor the first one. -/
def counted (c : Cred) : List Validity :=
  match c.chain with
  | none => []
  | some l => if c.usage = .trustAnchor ∨ c.usage = .mfgTrustAnchor then l.take 1 else l

/-- The credential was issued by the provisioning service and is a certificate. -/
def Ours (c : Cred) : Prop := c.dps = true ∧ c.psk = false

instance (c : Cred) : Decidable (Ours c) := inferInstanceAs (Decidable (_ ∧ _))

/-- A certificate is in order. -/
def Fine (limit : Nat) (now : Option Nat) (v : Validity) : Prop :=
  ∃ t, now = some t ∧ v.start ≤ t ∧ t + limit ≤ v.stop

/-- All certificates of a credential that count are in order. -/
def AllFine (limit : Nat) (now : Option Nat) (c : Cred) : Prop :=
  c.chain ≠ none ∧ ∀ v ∈ counted c, Fine limit now v

theorem validate_fine {limit : Nat} {now : Option Nat} (h : ∀ t, now = some t → Sane limit t) (v : Validity) :
    validate limit now v = some .valid ↔ Fine limit now v := by
  cases now with
  | none => simp [validate, Fine]
  | some t =>
    rw [(state_exact limit t (h t rfl) v).2.2.2]
    simp [Fine]

theorem chain_list {limit : Nat} {now : Option Nat} (h : ∀ t, now = some t → Sane limit t) :
    ∀ (l : List Validity) (u : Validity),
      ((∀ v ∈ l, Fine limit now v) → chainLoop limit now false l u = .good (l.getLast?.getD u)) ∧
      ((¬ ∀ v ∈ l, Fine limit now v) → chainLoop limit now false l u = .bad) := by
  intro l
  induction l with
  | nil => intro u; simp [chainLoop]
  | cons v l ih =>
    intro u
    obtain ⟨i1, i2⟩ := ih v
    have hv := validate_fine h v
    unfold chainLoop
    constructor
    · intro hall
      rw [if_pos (hv.2 (hall v (by simp)))]
      simp only [Bool.false_eq_true, if_false]
      rw [i1 fun x hx => hall x (by simp [hx])]
      cases l with
      | nil => simp
      | cons a l => rw [List.getLast?_cons_cons, List.getLast?_eq_some_getLast (by simp)]; simp
    · intro hn
      by_cases hf : Fine limit now v
      · rw [if_pos (hv.2 hf)]
        simp only [Bool.false_eq_true, if_false]
        exact i2 fun hall => hn fun x hx => by
          rcases List.mem_cons.1 hx with rfl | hx
          · exact hf
          · exact hall x hx
      · rw [if_neg fun e => hf (hv.1 e)]

/-- What the check of one credential finds. -/
theorem one_exact {limit : Nat} {now : Option Nat} (h : ∀ t, now = some t → Sane limit t) (c : Cred) :
    (checkOne limit now c = .unreadable ↔ c.chain = none) ∧
    (AllFine limit now c → checkOne limit now c = .good ((counted c).getLast?.getD ⟨0, 0⟩)) ∧
    (c.chain ≠ none → ¬ AllFine limit now c → checkOne limit now c = .bad) := by
  unfold checkOne AllFine counted
  cases hc : c.chain with
  | none => simp
  | some l =>
    dsimp only
    by_cases hu : c.usage = .trustAnchor ∨ c.usage = .mfgTrustAnchor
    · simp only [if_pos hu, decide_eq_true hu]
      cases l with
      | nil => simp [chainLoop]
      | cons v l =>
        have hv := validate_fine h v
        by_cases hf : Fine limit now v
        · have e := hv.2 hf
          simp [chainLoop, e, hf]
        · have e : ¬ validate limit now v = some .valid := fun e => hf (hv.1 e)
          simp [chainLoop, e, hf]
    · simp only [if_neg hu, decide_eq_false hu]
      have := chain_list h l ⟨0, 0⟩
      by_cases hall : ∀ v ∈ l, Fine limit now v
      · rw [this.1 hall]
        refine ⟨by simp, fun _ => rfl, fun _ hx => absurd ⟨by simp, hall⟩ hx⟩
      · rw [this.2 hall]
        simp [hall]

/-- The end of the validity the code remembers for a credential: of the last
certificate of the chain. -/
def lastStop (c : Cred) : Nat := ((counted c).getLast?.getD ⟨0, 0⟩).stop

open Classical in
theorem fold_exact {limit : Nat} {now : Option Nat} (h : ∀ t, now = some t → Sane limit t) :
    ∀ (cs : List Cred) (a : Acc),
      (cs.foldl (round limit now) a).kept =
        a.kept ++ cs.filter (fun c => decide (¬ (Ours c ∧ c.chain ≠ none ∧ ¬ AllFine limit now c))) ∧
      ((cs.foldl (round limit now) a).allValid = true ↔
        a.allValid = true ∧ ∀ c ∈ cs, Ours c → AllFine limit now c) ∧
      ((cs.foldl (round limit now) a).identity = true ↔
        a.identity = true ∨ ∃ c ∈ cs, Ours c ∧ c.usage = .identity ∧ AllFine limit now c) ∧
      ((cs.foldl (round limit now) a).anchor = true ↔
        a.anchor = true ∨ ∃ c ∈ cs, Ours c ∧ c.usage = .trustAnchor ∧ AllFine limit now c) ∧
      (∀ k, k ≤ (cs.foldl (round limit now) a).min.stop ↔
        k ≤ a.min.stop ∧ ∀ c ∈ cs, Ours c → AllFine limit now c → k ≤ lastStop c) := by
  intro cs
  induction cs with
  | nil => intro a; simp
  | cons c cs ih =>
    intro a
    rw [List.foldl_cons]
    obtain ⟨i1, i2, i3, i4, i5⟩ := ih (round limit now a c)
    obtain ⟨o1, o2, o3⟩ := one_exact h c
    rw [i1, i2, i3, i4]
    by_cases hours : Ours c
    · have hnot : ¬ (c.dps = false ∨ c.psk = true) := by
        rintro (hx | hx)
        · rw [hours.1] at hx; cases hx
        · rw [hours.2] at hx; cases hx
      by_cases hn : c.chain = none
      · have e : round limit now a c = { a with kept := a.kept ++ [c], allValid := false } := by
          unfold round; rw [if_neg hnot, o1.2 hn]
        have hnf : ¬ AllFine limit now c := fun x => x.1 hn
        refine ⟨by rw [e]; simp [hn], by rw [e]; simp [hours, hnf], by rw [e]; simp [hnf], by rw [e]; simp [hnf], ?_⟩
        intro k; rw [i5, e]; simp [hnf]
      · by_cases hf : AllFine limit now c
        · have e : round limit now a c = { a with
              kept := a.kept ++ [c]
              identity := a.identity || decide (c.usage = .identity)
              anchor := a.anchor || decide (c.usage = .trustAnchor)
              min := if ((counted c).getLast?.getD ⟨0, 0⟩).stop < a.min.stop then (counted c).getLast?.getD ⟨0, 0⟩ else a.min } := by
            unfold round; rw [if_neg hnot, o2 hf]
          refine ⟨by rw [e]; simp [hf], by rw [e]; simp [hf], by rw [e]; simp [hf, hours, or_assoc],
            by rw [e]; simp [hf, hours, or_assoc], ?_⟩
          intro k
          rw [i5, e]
          simp only [List.mem_cons, forall_eq_or_imp, hours, hf, true_implies]
          rw [← and_assoc]
          refine and_congr_left' ?_
          show k ≤ (if _ then _ else _ : Validity).stop ↔ k ≤ a.min.stop ∧ k ≤ lastStop c
          unfold lastStop
          split
          · omega
          · omega
        · have e : round limit now a c = { a with allValid := false } := by
            unfold round; rw [if_neg hnot, o3 hn hf]
          refine ⟨by rw [e]; simp [hours, hn, hf], by rw [e]; simp [hours, hf], by rw [e]; simp [hf], by rw [e]; simp [hf], ?_⟩
          intro k; rw [i5, e]; simp [hf]
    · have hnot : c.dps = false ∨ c.psk = true := by
        unfold Ours at hours
        cases hd : c.dps <;> cases hp : c.psk <;> simp_all
      have e : round limit now a c = { a with kept := a.kept ++ [c] } := by
        unfold round; rw [if_pos hnot]
      refine ⟨by rw [e]; simp [hours], by rw [e]; simp [hours], by rw [e]; simp [hours], by rw [e]; simp [hours], ?_⟩
      intro k; rw [i5, e]; simp [hours]

open Classical in
/-- **C125 (check of the credentials).** The check succeeds exactly if every
certificate credential of the provisioning service can be read and is in order and
there are one for the identity and one for a trust anchor.  Afterwards the device has
lost exactly the credentials of the service that can be read and are not in order; all
others are kept in their order. -/
theorem check_exact (limit : Nat) (now : Option Nat) (h : ∀ t, now = some t → Sane limit t) (cs : List Cred) :
    ((check limit now cs).1 ≠ none ↔
      (∀ c ∈ cs, Ours c → AllFine limit now c) ∧ (∃ c ∈ cs, Ours c ∧ c.usage = .identity) ∧
      ∃ c ∈ cs, Ours c ∧ c.usage = .trustAnchor) ∧
    (check limit now cs).2 = cs.filter (fun c => decide (¬ (Ours c ∧ c.chain ≠ none ∧ ¬ AllFine limit now c))) := by
  obtain ⟨f1, f2, f3, f4, _⟩ := fold_exact h cs {}
  unfold check
  dsimp only
  refine ⟨?_, by rw [f1]; simp⟩
  have hiff : ((cs.foldl (round limit now) {}).allValid && (cs.foldl (round limit now) {}).identity &&
      (cs.foldl (round limit now) {}).anchor) = true ↔
      (∀ c ∈ cs, Ours c → AllFine limit now c) ∧ (∃ c ∈ cs, Ours c ∧ c.usage = .identity) ∧
      ∃ c ∈ cs, Ours c ∧ c.usage = .trustAnchor := by
    simp only [Bool.and_eq_true, f2, f3, f4]
    constructor
    · rintro ⟨⟨⟨-, a⟩, b⟩, d⟩
      refine ⟨a, ?_, ?_⟩
      · obtain ⟨c, hc, ho, hu, _⟩ := b.resolve_left (by simp); exact ⟨c, hc, ho, hu⟩
      · obtain ⟨c, hc, ho, hu, _⟩ := d.resolve_left (by simp); exact ⟨c, hc, ho, hu⟩
    · rintro ⟨a, ⟨c, hc, ho, hu⟩, ⟨d, hd, ho', hu'⟩⟩
      exact ⟨⟨⟨trivial, a⟩, .inr ⟨c, hc, ho, hu, a c hc ho⟩⟩, .inr ⟨d, hd, ho', hu', a d hd ho'⟩⟩
  rw [← hiff]
  split
  · rename_i hx; simp [hx]
  · rename_i hx; simp [hx]

/-- Credentials of a provisioned device: its identity with an intermediate
certificate, a trust anchor, and a credential of somebody else (modelling
convention). -/
def creds0 : List Cred :=
  [⟨1, true, false, .identity, some [⟨0, 9000⟩, ⟨0, 90000000⟩]⟩, ⟨2, true, false, .trustAnchor, some [⟨0, 90000000⟩]⟩,
   ⟨3, false, false, .identity, some [⟨0, 10⟩]⟩]

example : (check 600 (some 1000) creds0).1 ≠ none ∧ (check 600 (some 1000) creds0).2.map (·.id) = [1, 2, 3] ∧
    (check 600 (some 8500) creds0).1 = none ∧ (check 600 (some 8500) creds0).2.map (·.id) = [2, 3] := by decide

/-- **C125 (renewal), partial.** If the check succeeds, a renewal is scheduled, at once
if the certificates expire within the limit.  With a limit of ten seconds or more and
no larger lower bound given, it runs before the end of the last certificate of every
chain; two runs are ten seconds or more apart.  (Other certificates of a chain may
expire before: `renewal_late_false`; with a smaller limit: `renewal_short_false`.) -/
theorem renewal_partial (limit now atLeast : Nat) (h : Sane limit now) (cs : List Cred)
    (hstop : ∀ c ∈ cs, ∀ v ∈ counted c, v.stop < 2 ^ 38) (hne : ∀ c ∈ cs, c.chain ≠ some [])
    (hok : (check limit (some now) cs).1 ≠ none) :
    ∃ i, (schedule limit (some now) atLeast cs).1 = true ∧
      (schedule limit (some now) atLeast cs).2.1 = some i ∧ atLeast ≤ i ∧
      (i = atLeast ∨ 10000 ≤ i) ∧
      (10 ≤ limit → atLeast = 0 → ∀ c ∈ cs, Ours c → now * 1000 + i ≤ lastStop c * 1000) := by
  have hs : ∀ t, some now = some t → Sane limit t := by intro t e; cases e; exact h
  obtain ⟨f1, f2, f3, f4, f5⟩ := fold_exact hs cs {}
  have hchk := (check_exact limit (some now) hs cs).1.1 hok
  obtain ⟨hall, ⟨ci, hci, hoi, hui⟩, hanch⟩ := hchk
  cases hc : check limit (some now) cs with
  | mk o kept =>
    cases o with
    | none => rw [hc] at hok; exact absurd rfl hok
    | some v =>
      have hv : v = (cs.foldl (round limit (some now)) {}).min := by
        unfold check at hc
        dsimp only at hc
        split at hc
        · cases hc; rfl
        · cases hc
      have hle : ∀ k, k ≤ v.stop ↔ k ≤ 2 ^ 64 - 1 ∧ ∀ c ∈ cs, Ours c → AllFine limit (some now) c → k ≤ lastStop c := by
        intro k; rw [hv]; exact f5 k
      have hlow : ∀ c ∈ cs, Ours c → v.stop ≤ lastStop c := fun c hc ho =>
        ((hle v.stop).1 (Nat.le_refl _)).2 c hc ho (hall c hc ho)
      -- the remembered end is small
      have hsmall : v.stop < 2 ^ 38 := by
        have h1 := hlow ci hci hoi
        have : lastStop ci < 2 ^ 38 := by
          unfold lastStop
          cases hl : (counted ci).getLast? with
          | none => simp
          | some x => exact hstop ci hci x (List.mem_of_getLast? hl)
        omega
      have hge : ∀ c ∈ cs, Ours c → counted c ≠ [] → now + limit ≤ lastStop c := by
        intro c hc ho hne
        obtain ⟨_, hf⟩ := hall c hc ho
        unfold lastStop
        cases hl : (counted c).getLast? with
        | none => exact absurd (List.getLast?_eq_none_iff.1 hl) hne
        | some x =>
          obtain ⟨t, ht, _, h2⟩ := hf x (List.mem_of_getLast? hl)
          cases ht
          exact h2
      refine ⟨if (interval limit (some now) v.stop).getD 0 < atLeast then atLeast else (interval limit (some now) v.stop).getD 0, ?_, ?_, ?_, ?_, ?_⟩
      · simp [schedule, hc]
      · have : ∃ i, interval limit (some now) v.stop = some i := by
          unfold interval; dsimp only; repeat' split
          all_goals exact ⟨_, rfl⟩
        obtain ⟨i, hi⟩ := this
        simp [schedule, hc, hi]
      · split <;> omega
      · have : (interval limit (some now) v.stop).getD 0 = 0 ∨ 10000 ≤ (interval limit (some now) v.stop).getD 0 := by
          unfold interval
          dsimp only
          split
          · exact .inl rfl
          · split
            · exact .inr (by simp)
            · split
              · exact .inr (by simp)
              · split
                · exact .inr (by simp)
                · right
                  have hn := h.2
                  rw [Option.getD_some, Nat.mod_eq_of_lt (by omega), Nat.mod_eq_of_lt (by omega)]
                  omega
        split
        · exact .inl rfl
        · rcases this with h0 | h0
          · left; omega
          · exact .inr h0
      · intro h10 h0 c hcm ho
        rw [h0, if_neg (by omega)]
        have hlc := hlow c hcm ho
        have hnow := h.2
        have hcne : counted c ≠ [] := by
          obtain ⟨hn, _⟩ := hall c hcm ho
          unfold counted
          cases hch : c.chain with
          | none => exact absurd hch hn
          | some l =>
            cases l with
            | nil => exact absurd hch (hne c hcm)
            | cons a l => dsimp only; split <;> simp
        · have hlim := hge c hcm ho hcne
          unfold interval
          dsimp only
          by_cases hx : isExpiring limit v.stop now = true
          · rw [if_pos hx, Option.getD_some]; omega
          · have hx' : ¬ v.stop < now + limit := fun y => hx ((expiring_iff h _).2 y)
            rw [if_neg hx]
            split
            · rw [Option.getD_some]; omega
            · split
              · rw [Option.getD_some]; omega
              · split
                · rw [Option.getD_some]; omega
                · rw [Option.getD_some, Nat.mod_eq_of_lt (by omega), Nat.mod_eq_of_lt (by omega)]
                  omega

/-- The hypotheses are met by the device above. -/
example : Sane 600 1000 ∧ (∀ c ∈ creds0, ∀ v ∈ counted c, v.stop < 2 ^ 38) ∧ (∀ c ∈ creds0, c.chain ≠ some []) ∧
    (check 600 (some 1000) creds0).1 ≠ none := by
  refine ⟨by simp [Sane], by decide, by decide, by decide⟩

/-- **C125 fails.** The end of the validity used for the renewal is that of the last
certificate of the chain, which overwrites that of the device's own certificate
(security/oc_cred.c:1063-1079 calls the check for each certificate in turn with the
same data).  A device whose own certificate ends at 9000 s and whose intermediate
certificate lasts for years is told to renew in 60 million seconds' time. -/
theorem renewal_late_false :
    ∃ (cs : List Cred) (c : Cred) (v : Validity) (i : Nat), c ∈ cs ∧ Ours c ∧ v ∈ counted c ∧
      (schedule 600 (some 1000) 0 cs).2.1 = some i ∧ v.stop * 1000 < 1000 * 1000 + i :=
  ⟨creds0, creds0.head (by decide), ⟨0, 9000⟩, _, by decide, by decide, by decide, rfl, by decide⟩

/-- **C125 fails for short limits.** With a limit of zero and five seconds left the
renewal is put off for ten seconds: it runs after the certificate has expired. -/
theorem renewal_short_false :
    ∃ (cs : List Cred) (c : Cred) (i : Nat), c ∈ cs ∧ Ours c ∧
      (schedule 0 (some 1000) 0 cs).2.1 = some i ∧ lastStop c * 1000 < 1000 * 1000 + i :=
  ⟨[⟨1, true, false, .identity, some [⟨0, 1005⟩]⟩, ⟨2, true, false, .trustAnchor, some [⟨0, 90000⟩]⟩],
   ⟨1, true, false, .identity, some [⟨0, 1005⟩]⟩, _, by decide, by decide, rfl, by decide⟩

/-- **C125 fails without the time.** If the clock cannot be read, all readable
certificate credentials of the provisioning service are deleted, although nothing is
known about their validity. -/
theorem clock_unknown_false (limit : Nat) :
    ∃ cs, (check limit (some 1000) cs).1 ≠ none ∧ (check limit none cs).2 = [] := by
  refine ⟨[⟨1, true, false, .identity, some [⟨0, 1000 + limit⟩]⟩, ⟨2, true, false, .trustAnchor, some [⟨0, 1000 + limit⟩]⟩], ?_, ?_⟩
  · have h1 : isExpiring limit (1000 + limit) 1000 = false := by
      unfold isExpiring
      have := Nat.mod_le (1000 + limit) (2 ^ 64)
      simp; omega
    have h2 : validate limit (some 1000) ⟨0, 1000 + limit⟩ = some .valid := by
      simp [validate, h1]
    simp [check, round, checkOne, chainLoop, h2]
  · simp [check, round, checkOne, chainLoop, validate]

end Verif.Dps.Cert
