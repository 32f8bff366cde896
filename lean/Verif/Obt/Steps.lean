import Verif.Obt.Lemmas
/-!
The invariant of the onboarding tool is kept by every step.
-/
namespace Verif.Obt

theorem no_temp {s : St} {ex : Option Nat} {c : Ctx} {h h2 : Handle} (hI : Inv ex s) (hc : c ∈ s.ctxs) (hb : Base s c h h2)
    (hk : c.kind ≠ .otm .rdp) : ∀ x ∈ own h.uuid s.creds, x.owner = true := by
  intro x hx
  obtain ⟨hx, hxu⟩ := mem_own.1 hx
  cases hxo : x.owner with
  | true => rfl
  | false =>
    obtain ⟨k, hk', hkk, z, hz, hzu⟩ := hI.temp x hx hxo
    by_cases hke : k.id = c.id
    · have := ctx_eq hI.ctxNodup hk' hc hke; subst this
      exact absurd hkk hk
    · exact absurd (hzu.trans hxu) (hI.excl k hk' c hc hke z h (.inl hz) (.inl hb.h1)).2

theorem base_same {s : St} {c : Ctx} {h h2 : Handle} (hb : Base s c h h2) (hk : c.kind ≠ .pair) : h2 = h := by
  have := hb.h2'
  rw [hb.same hk, hb.h1] at this
  cases this; rfl

theorem removed_inv {s : St} {c : Ctx} {h h2 : Handle} (hI : Inv (some c.id) s) (hc : c ∈ s.ctxs) (hb : Base s c h h2) :
    Inv (some c.id) { s with creds := removeBy h.uuid s.creds } ∧ own h.uuid (removeBy h.uuid s.creds) = [] := by
  have h0 : own h.uuid (removeBy h.uuid s.creds) = [] := by
    rw [own_remove_self]; exact tail_nil (hI.one _)
  refine ⟨inv_creds hI hc hb _ (fun u hu => own_remove_ne hu _) (by rw [h0]; simp) ?_, h0⟩
  intro x hx
  rw [h0] at hx; cases hx

theorem finish_inv {s : St} {c : Ctx} {h h2 : Handle} (hI : Inv (some c.id) s) (hc : c ∈ s.ctxs) (hb : Base s c h h2) (ok : Bool)
    (hd : ok = true → c.kind ≠ .reset → CbSpec s.me s.domain (entry s c h h2 true))
    (hr : ok = true → c.kind = .reset → (s.net h.addr).dos = .reset ∧ (s.net h.addr).owned = false ∧
      (s.net h.addr).key = none ∧ (s.net h.addr).acl = [])
    (ht : ok = true → ∀ x ∈ own h.uuid s.creds, x.owner = true) :
    ∃ s', finish quiet s c ok = .ok s' ∧ Inv none s' := by
  have hany : s.ctxs.any (·.id == c.id) = true := by
    rw [List.any_eq_true]; exact ⟨c, hc, by simp⟩
  have hh : ({ s with ctxs := s.ctxs.filter (·.id != c.id) } : St).handle c.h = some h := hb.h1
  have hh2 : ({ s with ctxs := s.ctxs.filter (·.id != c.id) } : St).handle c.h2 = some h2 := hb.h2'
  obtain ⟨hI', h0⟩ := removed_inv hI hc hb
  have hb' : Base { s with creds := removeBy h.uuid s.creds } c h h2 := ⟨hb.h1, hb.h2', hb.same, hb.diff⟩
  unfold finish
  rw [if_pos hany]
  dsimp only
  rw [hh]
  dsimp only
  cases hk : c.kind with
  | otm m =>
    have hs2 := base_same hb (by rw [hk]; simp)
    subst hs2
    dsimp only
    cases ok with
    | true =>
      simp only [if_true, quiet]
      refine ⟨_, rfl, ?_⟩
      have hid := handle_id hb.h1
      refine inv_end hI hc hb true _ _ ?_ ?_ (ht rfl) _ rfl (hd rfl (by rw [hk]; simp)) ?_
      · intro i hi
        exact hI.cache i (List.mem_filter.1 hi).1
      · intro i hi
        rcases List.mem_append.1 hi with hi | hi
        · exact hI.devs i (List.mem_filter.1 hi).1
        · simp only [List.mem_singleton] at hi
          exact ⟨h2, by rw [hi, hid]; exact hb.h1⟩
      · simp [entry, Cb.gone, hk]
    | false =>
      simp only [Bool.false_eq_true, if_false, quiet, Out.bind]
      refine inv_free hI' hc hb' (by rw [hk]; simp) false (by rw [h0]; intro x hx; cases hx) _ rfl ?_
      simp only [CbSpec, entry, hk]
      exact ⟨fun g => (by cases g), fun _ => h0⟩
  | pin =>
    have hs2 := base_same hb (by rw [hk]; simp)
    subst hs2
    dsimp only
    cases ok with
    | true =>
      simp only [if_true, quiet]
      refine ⟨_, rfl, ?_⟩
      refine inv_end hI hc hb true _ _ hI.cache hI.devs (ht rfl) _ rfl (hd rfl (by rw [hk]; simp)) ?_
      simp [entry, Cb.gone, hk]
    | false =>
      simp only [Bool.false_eq_true, if_false, quiet, Out.bind]
      refine inv_free hI' hc hb' (by rw [hk]; simp) false (by rw [h0]; intro x hx; cases hx) _ rfl ?_
      simp only [CbSpec, entry, hk]
      exact fun g => (by cases g)
  | reset =>
    have hs2 := base_same hb (by rw [hk]; simp)
    subst hs2
    dsimp only
    cases ok with
    | true =>
      simp only [if_true, quiet, Out.bind]
      refine inv_free hI' hc hb' (by rw [hk]; simp) true (by rw [h0]; intro x hx; cases hx) _ rfl ?_
      simp only [CbSpec, entry, hk]
      intro _
      obtain ⟨a, b, c, d⟩ := hr rfl hk
      exact ⟨a, b, c, d, h0⟩
    | false =>
      simp only [Bool.false_eq_true, if_false, quiet, Out.bind]
      refine inv_free hI hc hb (by rw [hk]; simp) false (no_temp hI hc hb (by rw [hk]; simp)) _ rfl ?_
      simp only [CbSpec, entry, hk]
      exact fun g => (by cases g)
  | pair =>
    dsimp only
    rw [hh2]
    refine ⟨_, rfl, ?_⟩
    refine inv_end hI hc hb ok _ _ hI.cache hI.devs (no_temp hI hc hb (by rw [hk]; simp)) _ rfl ?_ ?_
    · cases ok with
      | true => exact hd rfl (by rw [hk]; simp)
      | false => simp only [CbSpec, entry, hk]; exact fun g => (by cases g)
    · simp [entry, Cb.gone, hk]
  | ace n =>
    have hs2 := base_same hb (by rw [hk]; simp)
    subst hs2
    refine ⟨_, rfl, ?_⟩
    refine inv_end hI hc hb ok _ _ hI.cache hI.devs (no_temp hI hc hb (by rw [hk]; simp)) _ rfl ?_ ?_
    · cases ok with
      | true => exact hd rfl (by rw [hk]; simp)
      | false => simp only [CbSpec, entry, hk]; exact fun g => (by cases g)
    · simp [entry, Cb.gone, hk]

theorem fail_inv {s : St} {c : Ctx} {h h2 : Handle} (hI : Inv (some c.id) s) (hc : c ∈ s.ctxs) (hb : Base s c h h2) :
    ∃ s', finish quiet s c false = .ok s' ∧ Inv none s' :=
  finish_inv hI hc hb false (fun g => (by cases g)) (fun g => (by cases g)) (fun g => (by cases g))

theorem send_inv {s : St} {c : Ctx} {h h2 : Handle} (hI : Inv (some c.id) s) (hc : c ∈ s.ctxs) (hb : Base s c h h2) (sent : Bool)
    (r : Req)
    (hf : Facts s.me s.domain c.kind c.sdi (s.net h.addr) (s.net h2.addr) h.uuid h2.uuid (own h.uuid s.creds) r) :
    ∃ s', send quiet s c sent r = .ok s' ∧ Inv none s' := by
  unfold send
  cases hs : r.second with
  | true =>
    simp only [if_true, hb.h2']
    cases sent with
    | false => exact fail_inv hI hc hb
    | true =>
      refine ⟨_, rfl, ?_⟩
      have := inv_pend hI hc hb r hf h2.sec
      rw [hs] at this
      exact this
  | false =>
    simp only [Bool.false_eq_true, if_false, hb.h1]
    cases sent with
    | false => exact fail_inv hI hc hb
    | true =>
      refine ⟨_, rfl, ?_⟩
      have := inv_pend hI hc hb r hf h.sec
      rw [hs] at this
      exact this

theorem otm_next {me dom : Id} {oxm : Nat} {sdi : Bool} {d : Dev} {u : Id} {o : List Cred} {r : Req} (sess : Nat)
    (hp : Payload me dom oxm sdi u r) (hF : OtmFacts me dom oxm sdi d u o r.stage) (hs : r = .om4 → d.sel = oxm)
    (h3 : r.stage ≠ 3) (h7 : r.stage ≠ 7) (h9 : r.stage ≠ 9) :
    OtmFacts me dom oxm sdi (r.apply sess d) u o (r.stage + 1) := by
  obtain ⟨f1, f2, f3, f4, f5, f6, f7, f8, f9, f10, f11, f12, f13⟩ := hF
  cases r <;> simp only [Payload] at hp <;> simp only [Req.stage] at * <;>
    constructor <;> intros <;> simp_all [Req.apply]

theorem otm_devowner {me dom : Id} {oxm : Nat} {sdi : Bool} {d : Dev} {u : Id} {o : List Cred} {r : Req} (sess : Nat) (u' : Id)
    (hp : Payload me dom oxm sdi u r) (hF : OtmFacts me dom oxm sdi d u o r.stage) (h3 : r.stage = 3) :
    OtmFacts me dom oxm sdi (r.apply sess d) u' [] 4 := by
  obtain ⟨f1, f2, f3, f4, f5, f6, f7, f8, f9, f10, f11, f12, f13⟩ := hF
  cases r <;> simp only [Payload] at hp <;> simp only [Req.stage] at * <;> try omega
  constructor <;> intros <;> simp_all [Req.apply]

theorem otm_rowPstat {me dom : Id} {oxm : Nat} {sdi : Bool} {d : Dev} {u : Id} {o : List Cred} {r : Req} (sess : Nat)
    (hp : Payload me dom oxm sdi u r) (hF : OtmFacts me dom oxm sdi d u o r.stage) (h7 : r.stage = 7) :
    OtmFacts me dom oxm sdi (r.apply sess d) u [⟨u, true, some ⟨oxm, (r.apply sess d).sess, u, me⟩⟩] 8 := by
  obtain ⟨f1, f2, f3, f4, f5, f6, f7, f8, f9, f10, f11, f12, f13⟩ := hF
  cases r <;> simp only [Payload] at hp <;> simp only [Req.stage] at * <;> try omega
  constructor <;> intros <;> simp_all [Req.apply]

theorem otm_sdi {me dom : Id} {oxm : Nat} {sdi : Bool} {d d' : Dev} {u : Id} {o : List Cred} {x : Id} (sess : Nat) (v : Bool)
    (hx : x = dom) (hF : OtmFacts me dom oxm sdi d u o 9)
    (hd : d' = (Req.sdi x).apply sess d ∨ (d' = d ∧ v = false)) :
    OtmFacts me dom oxm v d' u o 10 := by
  obtain ⟨f1, f2, f3, f4, f5, f6, f7, f8, f9, f10, f11, f12, f13⟩ := hF
  rcases hd with rfl | ⟨rfl, rfl⟩ <;>
    constructor <;> intros <;> simp_all [Req.apply]

theorem base_uuid {s : St} {c : Ctx} {h h2 : Handle} (hb : Base s c h h2) (hk : c.kind ≠ .pair) (u : Id) :
    Base { s with heap := s.heap.map fun x => if x.id = h.id then { x with uuid := u } else x } c
      { h with uuid := u } { h with uuid := u } := by
  have hself : ({ s with heap := s.heap.map fun x => if x.id = h.id then { x with uuid := u } else x } : St).handle c.h = some { h with uuid := u } := by
    have := find_map (fun x => if x.id = h.id then { x with uuid := u } else x) (by intro x; split <;> rfl) s.heap c.h
    refine this.trans ?_
    rw [show s.heap.find? (·.id == c.h) = some h from hb.h1]
    simp
  exact ⟨hself, by rw [hb.same hk]; exact hself, hb.same, fun g => absurd g hk⟩

/-- The transfers of ownership. -/
theorem handler_otm {s : St} {c : Ctx} {h : Handle} {m : Method} (hI : Inv (some c.id) s) (hc : c ∈ s.ctxs) (hb : Base s c h h)
    (hk : c.kind = .otm m) (d : Dev) (req : Req) (code : Nat) (r : Resp)
    (hp : Payload s.me s.domain m.oxm c.sdi h.uuid req)
    (hF : OtmFacts s.me s.domain m.oxm c.sdi d h.uuid (own h.uuid s.creds) req.stage)
    (hap : code < badRequest → s.net h.addr = req.apply r.sess d)
    (hap' : s.net h.addr = req.apply r.sess d ∨ s.net h.addr = d)
    (hsel : code < badRequest → req = .om4 → d.sel = m.oxm)
    (hfr : ∀ x ∈ s.creds, x.subj ≠ r.fresh) (hfh : ∀ i x, s.handle i = some x → x.uuid ≠ r.fresh) :
    ∃ s', handler quiet s c h req code r = .ok s' ∧ Inv none s' := by
  have hkp : c.kind ≠ .pair := by rw [hk]; simp
  have hox : c.kind.oxm = m.oxm := by rw [hk]; rfl
  unfold handler
  cases hg : goesOn req code with
  | false => simp only [if_true]; exact fail_inv hI hc hb
  | true =>
    simp only [Bool.true_eq_false, if_false]
    have hgen : req.stage ≠ 3 → req.stage ≠ 7 → req.stage ≠ 9 → code < badRequest →
        OtmFacts s.me s.domain m.oxm c.sdi (s.net h.addr) h.uuid (own h.uuid s.creds) (req.stage + 1) := by
      intro a b e hcode
      rw [hap hcode]
      exact otm_next r.sess hp hF (hsel hcode) a b e
    have hfacts : ∀ q, Payload s.me s.domain m.oxm c.sdi h.uuid q →
        OtmFacts s.me s.domain m.oxm c.sdi (s.net h.addr) h.uuid (own h.uuid s.creds) q.stage →
        Facts s.me s.domain c.kind c.sdi (s.net h.addr) (s.net h.addr) h.uuid h.uuid (own h.uuid s.creds) q := by
      intro q a b; rw [hk]; exact ⟨a, b⟩
    cases req with
    | getDoxm =>
      have hcode : code < badRequest := by simpa [goesOn] using hg
      dsimp only
      split
      · exact fail_inv hI hc hb
      · split
        · exact send_inv hI hc hb _ _ (hfacts (.sel c.kind.oxm) hox (hgen (by simp [Req.stage]) (by simp [Req.stage]) (by simp [Req.stage]) hcode))
        · exact fail_inv hI hc hb
    | sel x =>
      have hcode : code < badRequest := by simpa [goesOn] using hg
      dsimp only
      rw [if_neg (by rw [hk]; simp)]
      exact send_inv hI hc hb _ _ (hfacts .om4 trivial (hgen (by simp [Req.stage]) (by simp [Req.stage]) (by simp [Req.stage]) hcode))
    | om4 =>
      have hcode : code < badRequest := by simpa [goesOn] using hg
      exact send_inv hI hc hb _ _ (hfacts (.devowner s.me) rfl (hgen (by simp [Req.stage]) (by simp [Req.stage]) (by simp [Req.stage]) hcode))
    | devowner x =>
      have hcode : code < badRequest := by simpa [goesOn] using hg
      dsimp only
      have hOF := otm_devowner r.sess r.fresh hp hF rfl
      rw [← hap hcode] at hOF
      split
      · rename_i hrdp
        obtain ⟨hI', h0⟩ := removed_inv hI hc hb
        have hb' : Base { s with creds := removeBy h.uuid s.creds } c h h := ⟨hb.h1, hb.h2', hb.same, hb.diff⟩
        have hI2 := inv_uuid hI' hc hb' hkp r.fresh (.inl h0) hfh
        have hb2 := base_uuid hb' hkp r.fresh
        refine send_inv hI2 hc hb2 _ _ ?_
        have hoe : own r.fresh (removeBy h.uuid s.creds) = [] := by
          rw [own_remove_ne (fun e => hfh _ _ hb.h1 e.symm)]
          rw [own, List.filter_eq_nil_iff]
          intro x hx; simpa using hfr x hx
        rw [hk]
        refine ⟨rfl, ?_⟩
        show OtmFacts s.me s.domain m.oxm c.sdi (s.net h.addr) r.fresh (own r.fresh (removeBy h.uuid s.creds)) 4
        rw [hoe]; exact hOF
      · rename_i hrdp
        have hI2 := inv_uuid hI hc hb hkp r.fresh (.inr hrdp) hfh
        have hb2 := base_uuid hb hkp r.fresh
        refine send_inv hI2 hc hb2 _ _ ?_
        have hoe : own r.fresh s.creds = [] := by
          rw [own, List.filter_eq_nil_iff]
          intro x hx; simpa using hfr x hx
        rw [hk]
        refine ⟨rfl, ?_⟩
        show OtmFacts s.me s.domain m.oxm c.sdi (s.net h.addr) r.fresh (own r.fresh s.creds) 4
        rw [hoe]; exact hOF
    | devuuid x =>
      have hcode : code < badRequest := by simpa [goesOn] using hg
      exact send_inv hI hc hb _ _ (hfacts (.rowDoxm s.me) rfl (hgen (by simp [Req.stage]) (by simp [Req.stage]) (by simp [Req.stage]) hcode))
    | rowDoxm x =>
      have hcode : code < badRequest := by simpa [goesOn] using hg
      exact send_inv hI hc hb _ _ (hfacts (.rowAcl s.me) rfl (hgen (by simp [Req.stage]) (by simp [Req.stage]) (by simp [Req.stage]) hcode))
    | rowAcl x =>
      have hcode : code < badRequest := by simpa [goesOn] using hg
      exact send_inv hI hc hb _ _ (hfacts (.rowPstat s.me) rfl (hgen (by simp [Req.stage]) (by simp [Req.stage]) (by simp [Req.stage]) hcode))
    | rowPstat x =>
      have hcode : code < badRequest := by simpa [goesOn] using hg
      dsimp only
      split
      · exact fail_inv hI hc hb
      · have hOF := otm_rowPstat r.sess hp hF rfl
        have hnil : own h.uuid s.creds = [] := hF.none (by simp [Req.stage]) (by simp [Req.stage])
        have hown : own h.uuid (s.creds ++ [⟨h.uuid, true, some ⟨c.kind.oxm, (s.net h.addr).sess, h.uuid, s.me⟩⟩]) =
            [⟨h.uuid, true, some ⟨c.kind.oxm, (s.net h.addr).sess, h.uuid, s.me⟩⟩] := by
          have := own_append_self s.creds ⟨h.uuid, true, some ⟨c.kind.oxm, (s.net h.addr).sess, h.uuid, s.me⟩⟩
          rw [this, hnil]; rfl
        have hI' := inv_creds hI hc hb (s.creds ++ [⟨h.uuid, true, some ⟨c.kind.oxm, (s.net h.addr).sess, h.uuid, s.me⟩⟩])
          (fun u hu => own_append_ne hu _) (by rw [hown]; simp)
          (by
            intro x hx hxo
            rw [hown] at hx
            simp only [List.mem_singleton] at hx
            rw [hx] at hxo; cases hxo)
        have hb' : Base { s with creds := s.creds ++ [⟨h.uuid, true, some ⟨c.kind.oxm, (s.net h.addr).sess, h.uuid, s.me⟩⟩] } c h h :=
          ⟨hb.h1, hb.h2', hb.same, hb.diff⟩
        refine send_inv hI' hc hb' _ _ ?_
        rw [hk]
        refine ⟨rfl, ?_⟩
        rw [hk] at hown
        show OtmFacts s.me s.domain m.oxm c.sdi (s.net h.addr) h.uuid (own h.uuid (s.creds ++ [⟨h.uuid, true, some ⟨(Kind.otm m).oxm, (s.net h.addr).sess, h.uuid, s.me⟩⟩])) 8
        rw [hown, hap hcode]
        exact hOF
    | cred x =>
      have hcode : code < badRequest := by simpa [goesOn] using hg
      exact send_inv hI hc hb _ _ (hfacts (.sdi s.domain) rfl (hgen (by simp [Req.stage]) (by simp [Req.stage]) (by simp [Req.stage]) hcode))
    | sdi x =>
      dsimp only
      have hI' := inv_sdi hI hc (code != notFound)
      have hb' : Base { s with ctxs := s.ctxs.map fun x => if x.id = c.id then { c with sdi := code != notFound } else x } { c with sdi := code != notFound } h h :=
        ⟨hb.h1, hb.h2', hb.same, hb.diff⟩
      refine send_inv (c := { c with sdi := code != notFound }) hI' ?_ hb' _ _ ?_
      · refine List.mem_map.2 ⟨c, hc, ?_⟩
        simp
      · show Facts s.me s.domain c.kind (code != notFound) (s.net h.addr) (s.net h.addr) h.uuid h.uuid (own h.uuid s.creds) .owned
        rw [hk]
        refine ⟨trivial, ?_⟩
        refine otm_sdi r.sess _ hp hF ?_
        by_cases hcode : code < badRequest
        · exact .inl (hap hcode)
        · have : code = notFound := by
            simp only [goesOn, Bool.or_eq_true, decide_eq_true_eq, beq_iff_eq] at hg
            rcases hg with hg | hg
            · exact absurd hg hcode
            · exact hg
          rcases hap' with hap' | hap'
          · exact .inl hap'
          · exact .inr ⟨hap', by rw [this]; rfl⟩
    | owned =>
      have hcode : code < badRequest := by simpa [goesOn] using hg
      exact send_inv hI hc hb _ _ (hfacts .rfpro trivial (hgen (by simp [Req.stage]) (by simp [Req.stage]) (by simp [Req.stage]) hcode))
    | rfpro =>
      have hcode : code < badRequest := by simpa [goesOn] using hg
      exact send_inv hI hc hb _ _ (hfacts .delAcl trivial (hgen (by simp [Req.stage]) (by simp [Req.stage]) (by simp [Req.stage]) hcode))
    | delAcl =>
      have hcode : code < badRequest := by simpa [goesOn] using hg
      exact send_inv hI hc hb _ _ (hfacts (.postAcl s.me c.sdi) ⟨rfl, rfl⟩ (hgen (by simp [Req.stage]) (by simp [Req.stage]) (by simp [Req.stage]) hcode))
    | postAcl x y =>
      have hcode : code < badRequest := by simpa [goesOn] using hg
      exact send_inv hI hc hb _ _ (hfacts .rfnop trivial (hgen (by simp [Req.stage]) (by simp [Req.stage]) (by simp [Req.stage]) hcode))
    | rfnop =>
      have hcode : code < badRequest := by simpa [goesOn] using hg
      have hO := hgen (by simp [Req.stage]) (by simp [Req.stage]) (by simp [Req.stage]) hcode
      simp only [Req.stage] at hO
      have hdos : (s.net h.addr).dos = .rfnop := by rw [hap hcode]; rfl
      have hone := hO.one (by omega)
      refine finish_inv hI hc hb true ?_ (fun _ g => (by rw [hk] at g; cases g)) ?_
      · intro _ _
        simp only [CbSpec, entry, hk]
        refine ⟨fun _ => ?_, fun g => (by cases g)⟩
        have hcr := hO.cred (by omega)
        exact ⟨(hO.sel (by omega)).1, (hO.sel (by omega)).2, hO.devowner (by omega), hO.uuid (by omega), hO.rowDoxm (by omega),
          hO.rowAcl (by omega), hO.rowPstat (by omega), hcr.1, hO.owned (by omega), hdos,
          ⟨c.sdi, hO.acl (by omega), hO.dom (by omega)⟩, ⟨_, hcr.2, rfl, rfl, rfl, hone⟩⟩
      · intro _ x hx
        rw [hone] at hx
        simp only [List.mem_singleton] at hx
        rw [hx]
    | _ => simp only [Payload] at hp

/-- The other sequences. -/
theorem handler_other {s : St} {c : Ctx} {h h2 : Handle} (hI : Inv (some c.id) s) (hc : c ∈ s.ctxs) (hb : Base s c h h2)
    (hk : ∀ m, c.kind ≠ .otm m) (d d2 : Dev) (req : Req) (code : Nat) (r : Resp)
    (hF : Facts s.me s.domain c.kind c.sdi d d2 h.uuid h2.uuid (own h.uuid s.creds) req)
    (hcd : code ≠ requestTimeout)
    (hap : code < badRequest → req.second = false → s.net h.addr = req.apply r.sess d ∧ (c.kind = .pair → s.net h2.addr = d2))
    (hap2 : code < badRequest → req.second = true → s.net h2.addr = req.apply r.sess d2 ∧ s.net h.addr = d) :
    ∃ s', handler quiet s c h req code r = .ok s' ∧ Inv none s' := by
  have hnt := no_temp hI hc hb (hk .rdp)
  unfold handler
  cases hg : goesOn req code with
  | false => simp only [if_true]; exact fail_inv hI hc hb
  | true =>
    simp only [Bool.true_eq_false, if_false]
    cases hkk : c.kind with
    | otm m => exact absurd hkk (hk m)
    | pin =>
      rw [hkk] at hF
      rcases hF with rfl | rfl
      · dsimp only
        split
        · exact fail_inv hI hc hb
        · split
          · refine send_inv hI hc hb _ _ ?_
            rw [hkk]; exact .inr rfl
          · exact fail_inv hI hc hb
      · simp only [if_true]
        refine finish_inv hI hc hb true ?_ (fun _ g => (by rw [hkk] at g; cases g)) (fun _ => hnt)
        intro _ _
        simp only [CbSpec, entry, hkk]
        intro _
        have hcode : code < badRequest := by simpa [goesOn] using hg
        rw [(hap hcode rfl).1]; rfl
    | reset =>
      rw [hkk] at hF
      have : req = .toReset := hF
      subst this
      have hcode : code < badRequest := by
        simp only [goesOn, Bool.or_eq_true, decide_eq_true_eq, beq_iff_eq] at hg
        rcases hg with hg | hg
        · exact hg
        · exact absurd hg hcd
      refine finish_inv hI hc hb true (fun _ g => absurd hkk g) ?_ (fun _ => hnt)
      intro _ _
      rw [(hap hcode rfl).1]
      exact ⟨rfl, rfl, rfl, rfl⟩
    | ace n =>
      rw [hkk] at hF
      have hs2 := base_same hb (by rw [hkk]; simp)
      subst hs2
      rcases hF with rfl | rfl | ⟨rfl, hn⟩
      · refine send_inv hI hc hb _ _ ?_
        rw [hkk]; exact .inr (.inl rfl)
      · have hcode : code < badRequest := by simpa [goesOn] using hg
        refine send_inv hI hc hb _ _ ?_
        rw [hkk]
        refine .inr (.inr ⟨rfl, ?_⟩)
        rw [(hap hcode rfl).1]
        simp [Req.apply]
      · have hcode : code < badRequest := by
          simp only [goesOn, Bool.or_eq_true, decide_eq_true_eq, beq_iff_eq] at hg
          rcases hg with hg | hg
          · exact hg
          · exact absurd hg hcd
        refine finish_inv hI hc hb true ?_ (fun _ g => (by rw [hkk] at g; cases g)) (fun _ => hnt)
        intro _ _
        simp only [CbSpec, entry, hkk]
        intro _
        rw [(hap hcode rfl).1]
        exact ⟨hn, rfl⟩
    | pair =>
      rw [hkk] at hF
      have hdos : (req = .toRfpro1 ∨ req = .toRfpro2 ∨ req = .toRfnop1 ∨ req = .toRfnop2) → code < badRequest := by
        rintro (e | e | e | e) <;> subst e <;>
        · simp only [goesOn, Bool.or_eq_true, decide_eq_true_eq, beq_iff_eq] at hg
          rcases hg with hg | hg
          · exact hg
          · exact absurd hg hcd
      rcases hF with rfl | rfl | ⟨k, rfl⟩ | ⟨k, rfl, h1⟩ | ⟨k, h1, h2', rfl | ⟨rfl, h3⟩⟩
      · refine send_inv hI hc hb _ _ ?_
        rw [hkk]; exact .inr (.inl rfl)
      · dsimp only
        rw [hb.h2']
        refine send_inv hI hc hb _ _ ?_
        rw [hkk]; exact .inr (.inr (.inl ⟨_, rfl⟩))
      · have hcode : code < badRequest := by simpa [goesOn] using hg
        refine send_inv hI hc hb _ _ ?_
        rw [hkk]
        refine .inr (.inr (.inr (.inl ⟨_, rfl, ?_⟩)))
        rw [(hap hcode rfl).1]
        simp [Req.apply]
      · have hcode : code < badRequest := by simpa [goesOn] using hg
        refine send_inv hI hc hb _ _ ?_
        rw [hkk]
        refine .inr (.inr (.inr (.inr ⟨k, ?_, ?_, .inl rfl⟩)))
        · rw [(hap2 hcode rfl).2]; exact h1
        · rw [(hap2 hcode rfl).1]; simp [Req.apply]
      · have hcode := hdos (.inr (.inr (.inl rfl)))
        refine send_inv hI hc hb _ _ ?_
        rw [hkk]
        refine .inr (.inr (.inr (.inr ⟨k, ?_, ?_, .inr ⟨rfl, ?_⟩⟩)))
        · rw [(hap hcode rfl).1]; exact h1
        · rw [(hap hcode rfl).2 hkk]; exact h2'
        · rw [(hap hcode rfl).1]; rfl
      · have hcode := hdos (.inr (.inr (.inr rfl)))
        refine finish_inv hI hc hb true ?_ (fun _ g => (by rw [hkk] at g; cases g)) (fun _ => hnt)
        intro _ _
        simp only [CbSpec, entry, hkk]
        intro _
        refine ⟨k, ?_, ?_, ?_, ?_⟩
        · rw [(hap2 hcode rfl).2]; exact h1
        · rw [(hap2 hcode rfl).1]; exact h2'
        · rw [(hap2 hcode rfl).2]; exact h3
        · rw [(hap2 hcode rfl).1]; rfl

end Verif.Obt
