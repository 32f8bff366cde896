import Verif.Trans.Spec

/-! Helper lemmas for retransmission (C20). -/

namespace Verif.Trans

open Spec

theorem times_append (a b : List Eff) (id : Nat) : times (a ++ b) id = times a id ++ times b id := by
  simp [times]

theorem times_sent (log : List Eff) (id now x : Nat) :
    times (log ++ [.sent id now]) x = if x = id then times log x ++ [now] else times log x := by
  rw [times_append]
  by_cases h : x = id
  · subst h; simp [times]
  · have : ¬ id = x := fun e => h e.symm
    simp [times, h, this]

theorem times_quiet (log l : List Eff) (x : Nat) (h : ∀ e ∈ l, ∀ i t, e ≠ .sent i t) :
    times (log ++ l) x = times log x := by
  rw [times_append]
  have : times l x = [] := by
    unfold times
    rw [List.filterMap_eq_nil_iff]
    intro e he
    have := h e he
    cases e with
    | sent i t => exact absurd rfl (this i t)
    | _ => rfl
  rw [this, List.append_nil]

theorem quiet_timeout (t : Tx) : ∀ e ∈ [Eff.obsRemoved t.ep, .timeout t.id t.mid], ∀ i x, e ≠ .sent i x := by
  intro e he i x; simp at he; rcases he with rfl | rfl <;> simp

theorem quiet_closing (ep : Nat) (l : List Tx) : ∀ e ∈ closing ep l, ∀ i x, e ≠ .sent i x := by
  intro e he i x
  simp only [closing, List.mem_map] at he
  obtain ⟨t, _, rfl⟩ := he
  simp

theorem quiet_append {a b : List Eff} (ha : ∀ e ∈ a, ∀ i x, e ≠ .sent i x) (hb : ∀ e ∈ b, ∀ i x, e ≠ .sent i x) :
    ∀ e ∈ a ++ b, ∀ i x, e ≠ .sent i x := by
  intro e he
  rcases List.mem_append.mp he with h | h
  · exact ha e h
  · exact hb e h

/-- The interval before the next transmission. -/
theorem backoff_snoc : ∀ (ts : List Nat) (i last x : Nat), Backoff i ts → ts.getLast? = some last →
    last + i * 2 ^ (ts.length - 1) ≤ x → Backoff i (ts ++ [x]) := by
  intro ts
  induction ts with
  | nil => intro i last x _ h; simp at h
  | cons a r ih =>
    intro i last x hb hl hx
    cases r with
    | nil =>
      simp at hl hx
      subst hl
      exact ⟨by simpa using hx, trivial⟩
    | cons b r =>
      simp only [List.cons_append]
      refine ⟨hb.1, ?_⟩
      have := ih (i * 2) last x hb.2 (by simpa using hl) (by
        simp only [List.length_cons, Nat.add_sub_cancel] at hx ⊢
        rw [Nat.pow_succ] at hx
        rw [Nat.mul_assoc, Nat.mul_comm 2 (2 ^ r.length)]
        exact hx)
      simpa using this

/-- What is known of an open transaction; `now` is used while timers that have
fired are processed. -/
structure TxOk (sec now : Nat) (log : List Eff) (t : Tx) : Prop where
  con : t.con = true
  cnt : t.counter < 4
  len : (times log t.id).length = t.counter + 1
  timing : ∃ i last, 2 * sec ≤ i ∧ i ≤ 3 * sec ∧ Backoff i (times log t.id) ∧
    (times log t.id).getLast? = some last ∧ t.interval = i * 2 ^ t.counter ∧
    (t.due = some (last + t.interval) ∨ (t.due = none ∧ last + t.interval ≤ now))

/-- Invariant of the list and the log. -/
structure Inv (sec now : Nat) (l : List Tx) (log : List Eff) : Prop where
  nodup : (ids l).Nodup
  ok : ∀ t ∈ l, TxOk sec now log t
  allowed : ∀ id, Allowed sec (times log id)
  done : ∀ id mid, .timeout id mid ∈ log → (times log id).length = 4 ∧ id ∉ ids l

theorem ids_append (a b : List Tx) : ids (a ++ b) = ids a ++ ids b := by simp [ids]
theorem ids_cons (t : Tx) (b : List Tx) : ids (t :: b) = t.id :: ids b := by simp [ids]

theorem TxOk.congr {sec now : Nat} {log log' : List Eff} {t : Tx} (h : TxOk sec now log t)
    (e : times log' t.id = times log t.id) : TxOk sec now log' t := by
  obtain ⟨h1, h2, h3, h4⟩ := h
  exact ⟨h1, h2, by rw [e]; exact h3, by rw [e]; exact h4⟩

/-- Removing transactions and logging effects that are not transmissions. -/
theorem Inv.sub {sec now : Nat} {l l' : List Tx} {log : List Eff} (h : Inv sec now l log)
    (hs : l'.Sublist l) (eff : List Eff) (hq : ∀ e ∈ eff, ∀ i x, e ≠ .sent i x)
    (hto : ∀ id mid, .timeout id mid ∈ eff → (times log id).length = 4 ∧ id ∉ ids l') :
    Inv sec now l' (log ++ eff) := by
  refine ⟨h.nodup.sublist (hs.map _), ?_, ?_, ?_⟩
  · intro t ht
    exact (h.ok t (hs.subset ht)).congr (times_quiet _ _ _ hq)
  · intro id; rw [times_quiet _ _ _ hq]; exact h.allowed id
  · intro id mid hm
    rw [times_quiet _ _ _ hq]
    rcases List.mem_append.mp hm with hm | hm
    · exact ⟨(h.done id mid hm).1, fun hc => (h.done id mid hm).2 ((hs.map _).subset hc)⟩
    · exact hto id mid hm

theorem closing_no_timeout (ep : Nat) (l : List Tx) (id mid : Nat) : .timeout id mid ∉ closing ep l := by
  simp [closing]

theorem sub_mid (a b : List Tx) (t : Tx) : (a ++ b).Sublist (a ++ t :: b) :=
  List.Sublist.append (List.Sublist.refl a) (List.sublist_cons_self t b)

theorem others_sub (ep : Nat) (l : List Tx) : (others ep l).Sublist l := List.filter_sublist

/-- A retransmission keeps the invariant. -/
theorem Inv.resend {sec now rnd : Nat} {a b : List Tx} {t : Tx} {log : List Eff}
    (h : Inv sec now (a ++ t :: b) log) (hd : t.due = none) (hc : t.counter + 1 < 4) :
    Inv sec now (a ++ arm sec rnd now { t with counter := t.counter + 1 } :: b) (log ++ [.sent t.id now]) := by
  have ht := h.ok t (by simp)
  have hnd := h.nodup
  obtain ⟨i, last, h1, h2, h3, h4, h5, h6⟩ := ht.timing
  have h6' : last + t.interval ≤ now := by
    rcases h6 with h6 | h6
    · rw [hd] at h6; simp at h6
    · exact h6.2
  have hnew : Backoff i (times log t.id ++ [now]) := by
    refine backoff_snoc _ i last now h3 h4 ?_
    rw [ht.len, Nat.add_sub_cancel, ← h5]
    exact h6'
  have hidn : ids (a ++ arm sec rnd now { t with counter := t.counter + 1 } :: b) = ids (a ++ t :: b) := by
    simp [ids, arm]
  refine ⟨by rw [hidn]; exact hnd, ?_, ?_, ?_⟩
  · intro x hx
    rcases List.mem_append.mp hx with hx | hx
    · have hne : x.id ≠ t.id := by
        intro e
        rw [ids_append, ids_cons] at hnd
        have := (List.nodup_append.mp hnd).2.2 x.id (List.mem_map_of_mem hx) t.id (by simp)
        exact this e
      exact (h.ok x (by simp [hx])).congr (by rw [times_sent, if_neg hne])
    · rcases List.mem_cons.mp hx with rfl | hx
      · refine ⟨ht.con, by exact hc, ?_, ?_⟩
        · show (times _ t.id).length = _
          rw [times_sent, if_pos rfl]; simp [ht.len, arm]
        · refine ⟨i, now, h1, h2, ?_, ?_, ?_, Or.inl ?_⟩
          · show Backoff i (times _ t.id)
            rw [times_sent, if_pos rfl]; exact hnew
          · show (times _ t.id).getLast? = _
            rw [times_sent, if_pos rfl]; simp
          · simp only [arm]
            rw [if_neg (by omega), h5, Nat.pow_succ, Nat.mul_assoc]
          · simp only [arm]
      · have hne : x.id ≠ t.id := by
          intro e
          rw [ids_append, ids_cons] at hnd
          have := (List.nodup_cons.mp (List.nodup_append.mp hnd).2.1).1
          exact this (e ▸ List.mem_map_of_mem hx)
        exact (h.ok x (by simp [hx])).congr (by rw [times_sent, if_neg hne])
  · intro id
    rw [times_sent]
    by_cases hid : id = t.id
    · rw [if_pos hid, hid]
      exact ⟨by simp [ht.len]; omega, i, h1, h2, hnew⟩
    · rw [if_neg hid]; exact h.allowed id
  · intro id mid hm
    have hm : .timeout id mid ∈ log := by simpa using hm
    obtain ⟨g1, g2⟩ := h.done id mid hm
    have hne : id ≠ t.id := fun e => g2 (by rw [e, ids_append, ids_cons]; simp)
    rw [times_sent, if_neg hne, hidn]
    exact ⟨g1, g2⟩

theorem eq_of_id {l : List Tx} (h : (ids l).Nodup) {x y : Tx} (hx : x ∈ l) (hy : y ∈ l) (e : x.id = y.id) :
    x = y := by
  induction l with
  | nil => simp at hx
  | cons a r ih =>
    rw [ids_cons, List.nodup_cons] at h
    rcases List.mem_cons.mp hx with rfl | hx
    · rcases List.mem_cons.mp hy with rfl | hy
      · rfl
      · exact absurd (e ▸ List.mem_map_of_mem hy) h.1
    · rcases List.mem_cons.mp hy with rfl | hy
      · exact absurd (e ▸ List.mem_map_of_mem (f := Tx.id) ‹x ∈ r›) h.1
      · exact ih h.2 ‹x ∈ r› hy

/-- The walk of `coap_check_transactions`: the invariant is kept, no timer that
has fired is left, and only transactions whose timer fired were transmitted,
once, at this time. -/
theorem walk_ok (sec rnd now : Nat) (peer : Nat → Bool) (hp : ∀ e, peer e = true) (b todo : List Tx)
    (log : List Eff) :
    Inv sec now (b ++ todo) log → (∀ t ∈ b, t.due ≠ none) →
      Inv sec now (walk sec rnd now peer b todo log).1 (walk sec rnd now peer b todo log).2 ∧
      (∀ t ∈ (walk sec rnd now peer b todo log).1, t.due ≠ none) ∧
      (∀ id, id ∈ ids (walk sec rnd now peer b todo log).1 → id ∈ ids (b ++ todo)) ∧
      (∀ id, (∀ t ∈ todo, t.id = id → t.due ≠ none) →
        times (walk sec rnd now peer b todo log).2 id = times log id) ∧
      (∀ t ∈ todo, t.due = none → t.id ∈ ids (walk sec rnd now peer b todo log).1 →
        times (walk sec rnd now peer b todo log).2 t.id = times log t.id ++ [now]) ∧
      (∀ e ∈ log, e ∈ (walk sec rnd now peer b todo log).2) ∧
      (∀ t ∈ b ++ todo, t.id ∈ ids (walk sec rnd now peer b todo log).1 ∨
        .timeout t.id t.mid ∈ (walk sec rnd now peer b todo log).2 ∨
        .closed t.id t.mid ∈ (walk sec rnd now peer b todo log).2) := by
  fun_induction walk sec rnd now peer b todo log with
  | case1 b log =>
    intro h hb
    refine ⟨by simpa using h, hb, by simp, by simp, by simp, by simp, ?_⟩
    intro t ht; left; simp at ht; exact List.mem_map_of_mem ht
  | case2 b t todo log hd t' hcon ih =>
    intro h hb
    have := (h.ok t (by simp)).con
    simp [t', this] at hcon
  | case3 b t todo log hd t' hcon hlt ih =>
    intro h hb
    have ht := h.ok t (by simp)
    have hc := ht.cnt
    have hlt' : t.counter + 1 < 4 := by
      have : (t.counter + 1) % 256 < 4 := hlt
      omega
    have ht' : t' = { t with counter := t.counter + 1 } := by
      simp only [t']; congr 1; omega
    rw [ht'] at ih ⊢
    have hinv := h.resend (rnd := rnd) hd hlt'
    have hids : ids (b ++ [arm sec rnd now { t with counter := t.counter + 1 }] ++ todo) = ids (b ++ t :: todo) := by
      simp [ids, arm]
    obtain ⟨i1, i2, i3, i4, i5, i6, i7⟩ := ih (by simpa using hinv) (by
      intro x hx
      rcases List.mem_append.mp hx with hx | hx
      · exact hb x hx
      · simp at hx; subst hx; simp [arm])
    refine ⟨i1, i2, ?_, ?_, ?_, ?_, ?_⟩
    · intro id hid; rw [← hids]; exact i3 id hid
    · intro id hid
      rw [i4 id (fun x hx => hid x (by simp [hx])), times_sent]
      rw [if_neg]
      intro e
      exact hid t (by simp) e.symm hd
    · intro x hx hxd hxi
      have hnd := h.nodup
      rw [ids_append, ids_cons] at hnd
      rcases List.mem_cons.mp hx with rfl | hx
      · rw [i4 x.id, times_sent, if_pos rfl]
        intro y hy e
        exact absurd (e ▸ List.mem_map_of_mem hy) (List.nodup_cons.mp (List.nodup_append.mp hnd).2.1).1
      · rw [i5 x hx hxd hxi, times_sent, if_neg]
        intro e
        exact absurd (e ▸ List.mem_map_of_mem hx) (List.nodup_cons.mp (List.nodup_append.mp hnd).2.1).1
    · intro e he; exact i6 e (by simp [he])
    · intro x hx
      rcases List.mem_append.mp hx with hx | hx
      · exact i7 x (by simp [hx])
      · rcases List.mem_cons.mp hx with rfl | hx
        · simpa [arm] using i7 (arm sec rnd now { x with counter := x.counter + 1 }) (by simp)
        · exact i7 x (by simp [hx])
  | case4 b t todo log hd t' hcon hlt hsec hpeer hlen ih =>
    intro h hb
    have ht := h.ok t (by simp)
    have hc := ht.cnt
    have h4 : t.counter = 3 := by
      have : ¬ (t.counter + 1) % 256 < 4 := hlt
      omega
    have hq := quiet_append (quiet_timeout t) (quiet_closing t.ep (b ++ t :: todo))
    have hinv := h.sub (others_sub t.ep (b ++ t :: todo))
      ([.obsRemoved t.ep, .timeout t.id t.mid] ++ closing t.ep (b ++ t :: todo)) hq (by
        intro id mid hm
        simp [closing_no_timeout] at hm
        rw [hm.1]
        refine ⟨by rw [ht.len, h4], ?_⟩
        intro hmem
        simp only [ids, others, List.mem_map, List.mem_filter] at hmem
        obtain ⟨x, ⟨hx, hxe⟩, hxid⟩ := hmem
        have : x = t := by
          exact eq_of_id h.nodup hx (by simp) hxid
        subst this
        simp at hxe)
    rw [← List.append_assoc] at hinv
    obtain ⟨i1, i2, i3, i4, i5, i6, i7⟩ := ih (by simpa using hinv) (by simp)
    have htq : ∀ id, times (log ++ [Eff.obsRemoved t.ep, .timeout t.id t.mid] ++ closing t.ep (b ++ t :: todo)) id
        = times log id := by
      intro id; rw [List.append_assoc, times_quiet _ _ _ hq]
    refine ⟨i1, i2, ?_, ?_, ?_, ?_, ?_⟩
    · intro id hid
      have := i3 id hid
      rw [List.nil_append] at this
      exact ((others_sub t.ep (b ++ t :: todo)).map Tx.id).subset this
    · intro id hid
      rw [i4 id, htq]
      intro x hx e
      have hx' := (others_sub t.ep (b ++ t :: todo)).subset hx
      rcases List.mem_append.mp hx' with hx' | hx'
      · exact hb x hx'
      · exact hid x hx' e
    · intro x hx hxd hxi
      have hmem := i3 x.id hxi
      simp only [List.nil_append] at hmem
      simp only [ids, List.mem_map] at hmem
      obtain ⟨y, hy, hye⟩ := hmem
      have : y = x := eq_of_id h.nodup ((others_sub t.ep _).subset hy) (by simp [hx]) hye
      subst this
      rw [i5 y hy hxd hxi, htq]
    · intro e he; exact i6 e (by simp [he])
    · intro x hx
      by_cases hxe : x.ep = t.ep
      · right; right
        apply i6
        simp only [closing, List.mem_append]
        right
        exact List.mem_map.mpr ⟨x, List.mem_filter.mpr ⟨hx, by simpa using hxe⟩, rfl⟩
      · exact i7 x (by rw [List.nil_append]; exact List.mem_filter.mpr ⟨hx, by simpa using hxe⟩)
  | case5 b t todo log hd t' hcon hlt hsec hpeer hlen ih =>
    intro h hb
    have ht := h.ok t (by simp)
    have hc := ht.cnt
    have h4 : t.counter = 3 := by
      have : ¬ (t.counter + 1) % 256 < 4 := hlt
      omega
    have hnd := h.nodup
    rw [ids_append, ids_cons] at hnd
    have hnt : t.id ∉ ids (b ++ todo) := by
      rw [ids_append]
      have h1 := (List.nodup_append.mp hnd)
      simp only [List.mem_append, not_or]
      exact ⟨fun hm => h1.2.2 t.id hm t.id (by simp) rfl, (List.nodup_cons.mp h1.2.1).1⟩
    have hq := quiet_append (quiet_timeout t) (quiet_closing t.ep (b ++ t :: todo))
    have hinv := h.sub (sub_mid b todo t)
      ([.obsRemoved t.ep, .timeout t.id t.mid] ++ closing t.ep (b ++ t :: todo)) hq (by
        intro id mid hm
        simp [closing_no_timeout] at hm
        rw [hm.1]
        exact ⟨by rw [ht.len, h4], hnt⟩)
    rw [← List.append_assoc] at hinv
    obtain ⟨i1, i2, i3, i4, i5, i6, i7⟩ := ih hinv hb
    have htq : ∀ id, times (log ++ [Eff.obsRemoved t.ep, .timeout t.id t.mid] ++ closing t.ep (b ++ t :: todo)) id
        = times log id := by
      intro id; rw [List.append_assoc, times_quiet _ _ _ hq]
    refine ⟨i1, i2, ?_, ?_, ?_, ?_, ?_⟩
    · intro id hid
      exact ((sub_mid b todo t).map Tx.id).subset (i3 id hid)
    · intro id hid
      rw [i4 id (fun x hx => hid x (by simp [hx])), htq]
    · intro x hx hxd hxi
      rcases List.mem_cons.mp hx with rfl | hx
      · exact absurd (i3 x.id hxi) hnt
      · rw [i5 x hx hxd hxi, htq]
    · intro e he; exact i6 e (by simp [he])
    · intro x hx
      rcases List.mem_append.mp hx with hx | hx
      · exact i7 x (by simp [hx])
      · rcases List.mem_cons.mp hx with rfl | hx
        · right; left; exact i6 _ (by simp)
        · exact i7 x (by simp [hx])
  | case6 b t todo log hd t' hcon hlt hsec hpeer ih =>
    exact absurd (hp t.ep) hpeer
  | case7 b t todo log hd t' hcon hlt hsec ih =>
    intro h hb
    have ht := h.ok t (by simp)
    have hc := ht.cnt
    have h4 : t.counter = 3 := by
      have : ¬ (t.counter + 1) % 256 < 4 := hlt
      omega
    have hnd := h.nodup
    rw [ids_append, ids_cons] at hnd
    have hnt : t.id ∉ ids (b ++ todo) := by
      rw [ids_append]
      have h1 := (List.nodup_append.mp hnd)
      simp only [List.mem_append, not_or]
      exact ⟨fun hm => h1.2.2 t.id hm t.id (by simp) rfl, (List.nodup_cons.mp h1.2.1).1⟩
    have hq := quiet_timeout t
    have hinv := h.sub (sub_mid b todo t) [.obsRemoved t.ep, .timeout t.id t.mid] hq (by
        intro id mid hm
        simp at hm
        rw [hm.1]
        exact ⟨by rw [ht.len, h4], hnt⟩)
    obtain ⟨i1, i2, i3, i4, i5, i6, i7⟩ := ih hinv hb
    have htq : ∀ id, times (log ++ [Eff.obsRemoved t.ep, .timeout t.id t.mid]) id = times log id := by
      intro id; rw [times_quiet _ _ _ hq]
    refine ⟨i1, i2, ?_, ?_, ?_, ?_, ?_⟩
    · intro id hid
      exact ((sub_mid b todo t).map Tx.id).subset (i3 id hid)
    · intro id hid
      rw [i4 id (fun x hx => hid x (by simp [hx])), htq]
    · intro x hx hxd hxi
      rcases List.mem_cons.mp hx with rfl | hx
      · exact absurd (i3 x.id hxi) hnt
      · rw [i5 x hx hxd hxi, htq]
    · intro e he; exact i6 e (by simp [he])
    · intro x hx
      rcases List.mem_append.mp hx with hx | hx
      · exact i7 x (by simp [hx])
      · rcases List.mem_cons.mp hx with rfl | hx
        · right; left; exact i6 _ (by simp)
        · exact i7 x (by simp [hx])
  | case8 b t todo log hd ih =>
    intro h hb
    have he : b ++ [t] ++ todo = b ++ t :: todo := by simp
    obtain ⟨i1, i2, i3, i4, i5, i6, i7⟩ := ih (by rw [he]; exact h) (by
      intro x hx
      rcases List.mem_append.mp hx with hx | hx
      · exact hb x hx
      · simp at hx; subst hx; exact hd)
    rw [he] at i3 i7
    refine ⟨i1, i2, i3, ?_, ?_, i6, i7⟩
    · intro id hid
      exact i4 id (fun x hx => hid x (by simp [hx]))
    · intro x hx hxd hxi
      rcases List.mem_cons.mp hx with rfl | hx
      · exact absurd hxd hd
      · exact i5 x hx hxd hxi

end Verif.Trans
