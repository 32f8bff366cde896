import Verif.ObtFind.Model
import Verif.Sec.Lemmas

/-! Lemmas for the discovery of devices by an onboarding tool. -/

namespace Verif.ObtFind

open Verif.Rep (Bytes b Val Rep)
open Verif.Acl (Id)

/-! ### Lists of devices -/

theorem upd_ids (u : Id) (f : Dev → Dev) (l : List Dev) (hf : ∀ d, (f d).uuid = d.uuid) :
    (upd u f l).map (·.uuid) = l.map (·.uuid) := by
  simp only [upd, List.map_map]
  apply List.map_congr_left
  intro x _
  simp only [Function.comp]
  split
  · exact hf x
  · rfl

theorem cacheNew_ids (u : Id) (src : Ep) (l : List Dev) :
    (cacheNew u src l).map (·.uuid) = if u ∈ l.map (·.uuid) then l.map (·.uuid) else l.map (·.uuid) ++ [u] := by
  unfold cacheNew
  have hiff : (l.any fun d => d.uuid == u) = true ↔ u ∈ l.map (·.uuid) := by
    simp [List.any_eq_true, List.mem_map]
  by_cases h : u ∈ l.map (·.uuid)
  · rw [if_pos (hiff.2 h), if_pos h]
    exact upd_ids u (fun d => { d with eps := [src] }) l (fun _ => rfl)
  · rw [if_neg (fun q => h (hiff.1 q)), if_neg h, List.map_append]
    rfl

theorem cacheNew_mem (u : Id) (src : Ep) (l : List Dev) : u ∈ (cacheNew u src l).map (·.uuid) := by
  rw [cacheNew_ids]
  split
  · assumption
  · simp

theorem cacheNew_nodup (u : Id) (src : Ep) {l : List Dev} (h : (l.map (·.uuid)).Nodup) : ((cacheNew u src l).map (·.uuid)).Nodup := by
  rw [cacheNew_ids]
  split
  · exact h
  · next hn =>
    rw [List.nodup_append]
    refine ⟨h, (by simp), ?_⟩
    intro a ha c hc q
    simp only [List.mem_singleton] at hc
    exact hn (hc ▸ q ▸ ha)

theorem cacheNew_sub (u : Id) (src : Ep) (l : List Dev) {x : Id} (h : x ∈ (cacheNew u src l).map (·.uuid)) :
    x ∈ l.map (·.uuid) ∨ x = u := by
  rw [cacheNew_ids] at h
  split at h
  · exact .inl h
  · simpa using h

theorem cacheNew_sup (u : Id) (src : Ep) (l : List Dev) {x : Id} (h : x ∈ l.map (·.uuid)) : x ∈ (cacheNew u src l).map (·.uuid) := by
  rw [cacheNew_ids]
  split
  · exact h
  · exact List.mem_append_left _ h

theorem find_upd (u : Id) (f : Dev → Dev) (hf : ∀ d, (f d).uuid = d.uuid) : ∀ (l : List Dev), u ∈ l.map (·.uuid) →
    ∃ d, l.find? (fun d => d.uuid == u) = some d ∧ (upd u f l).find? (fun d => d.uuid == u) = some (f d)
  | [], h => by cases h
  | x :: l, h => by
    rw [List.find?_cons, upd, List.map_cons, List.find?_cons]
    by_cases hx : x.uuid = u
    · rw [if_pos hx]
      have h1 : (x.uuid == u) = true := by simpa using hx
      have h2 : ((f x).uuid == u) = true := by rw [hf]; exact h1
      rw [h1, h2]
      exact ⟨x, rfl, rfl⟩
    · rw [if_neg hx]
      have h1 : (x.uuid == u) = false := by simpa using hx
      rw [h1]
      refine find_upd u f hf l ?_
      rw [List.map_cons, List.mem_cons] at h
      exact h.resolve_left fun q => hx q.symm

/-! ### Invariant -/

/-- Invariant. -/
structure Inv (s : St) : Prop where
  cache : (s.cache.map (·.uuid)).Nodup
  devs : (s.devs.map (·.uuid)).Nodup
  me : s.me ∉ s.cache.map (·.uuid) ∧ s.me ∉ s.devs.map (·.uuid)
  gets : ∀ u ∈ s.gets, u ∈ s.cache.map (·.uuid)
  cbs : ∀ c ∈ s.cbs, c < s.made
  log : ∀ t ∈ s.log, t.uuid ≠ s.me ∧ t.eps ≠ [] ∧ t.cb < s.made

theorem tell_cases (c : Nat) (u : Id) (eps : List Ep) (s : St) :
    tell c u eps s = s ∨ (c ∈ s.cbs ∧ eps ≠ [] ∧ tell c u eps s = { s with log := s.log ++ [⟨c, u, eps⟩] }) := by
  unfold tell
  split
  · exact .inl rfl
  · next h =>
    refine .inr ⟨?_, fun q => h (.inr q), rfl⟩
    exact Classical.byContradiction fun q => h (.inl q)

theorem inv_tell {s : St} (h : Inv s) (c : Nat) (u : Id) (eps : List Ep) (hu : u ≠ s.me) : Inv (tell c u eps s) := by
  rcases tell_cases c u eps s with q | ⟨hc, he, q⟩
  · rw [q]; exact h
  · rw [q]
    refine ⟨h.cache, h.devs, h.me, h.gets, h.cbs, ?_⟩
    intro t ht
    rw [List.mem_append, List.mem_singleton] at ht
    rcases ht with ht | rfl
    · exact h.log t ht
    · exact ⟨hu, he, h.cbs c hc⟩

theorem inv_upd_cache {s : St} (h : Inv s) (u : Id) (f : Dev → Dev) (hf : ∀ d, (f d).uuid = d.uuid) :
    Inv { s with cache := upd u f s.cache } :=
  ⟨by dsimp only; rw [upd_ids u f _ hf]; exact h.cache, h.devs, by dsimp only; rw [upd_ids u f _ hf]; exact h.me,
    by dsimp only; rw [upd_ids u f _ hf]; exact h.gets, h.cbs, h.log⟩

theorem inv_cacheNew {s : St} (h : Inv s) (u : Id) (src : Ep) (hu : u ≠ s.me) : Inv { s with cache := cacheNew u src s.cache } :=
  ⟨cacheNew_nodup u src h.cache, h.devs,
    ⟨fun q => (cacheNew_sub u src _ q).elim h.me.1 fun r => hu r.symm, h.me.2⟩,
    fun x hx => cacheNew_sup u src _ (h.gets x hx), h.cbs, h.log⟩

theorem inv_devs {s : St} (h : Inv s) (u : Id) (src : Ep) (f : Dev → Dev) (hf : ∀ d, (f d).uuid = d.uuid) (hu : u ≠ s.me) :
    Inv { s with devs := upd u f (cacheNew u src s.devs) } :=
  ⟨h.cache, by dsimp only; rw [upd_ids u f _ hf]; exact cacheNew_nodup u src h.devs,
    ⟨h.me.1, by dsimp only; rw [upd_ids u f _ hf]; exact fun q => (cacheNew_sub u src _ q).elim h.me.2 fun r => hu r.symm⟩,
    h.gets, h.cbs, h.log⟩

/-- Every event that has a result keeps the invariant, and the UUID of the tool. -/
theorem inv_step (P : Reader) {s s' : St} (h : Inv s) (o : Op) (hs : step P s o = .ok s') : Inv s' ∧ s'.me = s.me := by
  cases o with
  | discover ok =>
    simp only [step, discover] at hs
    split at hs
    · cases hs
      refine ⟨⟨h.cache, h.devs, h.me, h.gets, ?_, ?_⟩, rfl⟩
      · intro c hc
        rw [List.mem_append, List.mem_singleton] at hc
        rcases hc with hc | rfl
        · exact Nat.lt_succ_of_lt (h.cbs c hc)
        · exact Nat.lt_succ_self _
      · intro t ht
        exact ⟨(h.log t ht).1, (h.log t ht).2.1, Nat.lt_succ_of_lt (h.log t ht).2.2⟩
    · cases hs; exact ⟨h, rfl⟩
  | expire c =>
    cases hs
    exact ⟨⟨h.cache, h.devs, h.me, h.gets, fun x hx => h.cbs x (List.mem_filter.1 hx).1, h.log⟩, rfl⟩
  | owners l => cases hs; exact ⟨⟨h.cache, h.devs, h.me, h.gets, h.cbs, h.log⟩, rfl⟩
  | doxm c code p src ok =>
    simp only [step, doxm] at hs
    split at hs
    · cases hs; exact ⟨h, rfl⟩
    · cases hr : readDoxm p (none, none) with
      | ub => rw [hr] at hs; cases hs
      | ok x =>
        rw [hr] at hs
        simp only [Out.bind] at hs
        split at hs
        · cases hs; exact ⟨h, rfl⟩
        · split at hs
          · cases hs
          · next u hu =>
            split at hs
            · cases hs; exact ⟨h, rfl⟩
            · next hne =>
              split at hs
              · cases hs; exact ⟨h, rfl⟩
              · have h2 := inv_upd_cache (inv_cacheNew h u src hne) u (fun d => { d with ctx := c }) (fun _ => rfl)
                split at hs
                · cases hs
                  refine ⟨⟨h2.cache, h2.devs, h2.me, ?_, h2.cbs, h2.log⟩, rfl⟩
                  intro x hx
                  simp only [List.mem_append, List.mem_singleton] at hx
                  rcases hx with hx | rfl
                  · exact h2.gets x hx
                  · dsimp only
                    rw [upd_ids _ (fun d => { d with ctx := c }) _ (fun _ => rfl)]
                    exact cacheNew_mem _ _ _
                · cases hs; exact ⟨h2, rfl⟩
  | answer u code p src =>
    simp only [step, answer] at hs
    split at hs
    · cases hs; exact ⟨h, rfl⟩
    · next hu =>
      have hu : u ∈ s.gets := Classical.byContradiction hu
      have hm : u ≠ s.me := fun q => h.me.1 (q ▸ h.gets u hu)
      have h1 : Inv { s with gets := s.gets.erase u } :=
        ⟨h.cache, h.devs, h.me, fun x hx => h.gets x (List.mem_of_mem_erase hx), h.cbs, h.log⟩
      split at hs
      · cases hs; exact ⟨h1, rfl⟩
      · cases hr : readLink p with
        | ub => rw [hr] at hs; cases hs
        | ok x =>
          rw [hr] at hs
          simp only [Out.bind] at hs
          split at hs
          · cases hs; exact ⟨h1, rfl⟩
          · split at hs
            · cases hs; exact ⟨h1, rfl⟩
            · split at hs
              · cases hs
              · split at hs
                · next eps _ =>
                  cases hs
                  refine ⟨inv_tell (inv_upd_cache h1 u (fun d => { d with eps := eps }) (fun _ => rfl)) _ _ _ hm, ?_⟩
                  rename_i d _ _ _
                  rcases tell_cases d.ctx u eps { s with cache := upd u (fun d => { d with eps := eps }) s.cache, gets := s.gets.erase u }
                    with q | ⟨_, _, q⟩ <;> rw [q]
                · cases hs
  | multi c code p src =>
    simp only [step, multi] at hs
    split at hs
    · cases hs; exact ⟨h, rfl⟩
    · cases hr : readLink p with
      | ub => rw [hr] at hs; cases hs
      | ok x =>
        rw [hr] at hs
        simp only [Out.bind] at hs
        split at hs
        · cases hs; exact ⟨h, rfl⟩
        · next u l =>
          split at hs
          · cases hs; exact ⟨h, rfl⟩
          · next hm =>
            split at hs
            · cases hs; exact ⟨h, rfl⟩
            · split at hs
              · next eps _ =>
                cases hs
                refine ⟨inv_tell (inv_devs h u src (fun d => { d with eps := eps }) (fun _ => rfl) hm) _ _ _ hm, ?_⟩
                rcases tell_cases c u eps { s with devs := upd u (fun d => { d with eps := eps }) (cacheNew u src s.devs) }
                  with q | ⟨_, _, q⟩ <;> rw [q]
              · cases hs

theorem inv_run (P : Reader) : ∀ (ops : List Op) (s s' : St), Inv s → run P ops s = .ok s' → Inv s' ∧ s'.me = s.me
  | [], s, s', h, hs => by cases hs; exact ⟨h, rfl⟩
  | o :: l, s, s', h, hs => by
    rw [run] at hs
    cases hq : step P s o with
    | ub => rw [hq] at hs; cases hs
    | ok x =>
      rw [hq] at hs
      have h1 := inv_step P h o hq
      have h2 := inv_run P l x s' h1.1 hs
      exact ⟨h2.1, h2.2.trans h1.2⟩

theorem inv_init (me : Id) (owners : List Id) : Inv { me := me, owners := owners } :=
  ⟨List.nodup_nil, List.nodup_nil, ⟨(by intro h; cases h), (by intro h; cases h)⟩, (by intro _ h; cases h),
    (by intro _ h; cases h), (by intro _ h; cases h)⟩

/-! ### Reading answers -/

theorem ofStr_ascii (s : Bytes) (h : ∀ x ∈ s, x < 128) : ∃ x, Uuid.ofStr s = .ok x := by
  unfold Uuid.ofStr
  split
  · exact ⟨_, rfl⟩
  · have key := Uuid.parseLoop_count (s.take Uuid.textMax) [] 1 0 (fun c hc => h c (List.mem_of_mem_take hc)) (by omega) (by omega) rfl
    split at key
    · obtain ⟨r, hr, _⟩ := key
      rw [hr]
      show ∃ x, (if r.length ≠ Uuid.idSize then Out.ok (none, some (r ++ List.replicate (Uuid.idSize - r.length) 0))
        else Out.ok (some Uuid.idSize, some (r ++ List.replicate (Uuid.idSize - r.length) 0))) = Out.ok x
      split <;> exact ⟨_, rfl⟩
    · rw [key]
      exact ⟨_, rfl⟩

/-- The text that a UUID is read from has only characters of ASCII. -/
theorem shown_ascii {s : Bytes} (h : ∀ x ∈ s, x < 128) : ∀ x ∈ (s.takeWhile (· != 0)).take 37, x < 128 :=
  fun x hx => h x (List.IsPrefix.mem (List.mem_of_mem_take hx) (List.takeWhile_prefix _))

theorem strToUuid_ascii (old : Id) (s : Bytes) (h : ∀ x ∈ s, x < 128) : ∃ u, Sec.strToUuid old s = .ok u := by
  obtain ⟨x, hx⟩ := ofStr_ascii _ (shown_ascii h)
  unfold Sec.strToUuid
  rw [hx]
  obtain ⟨n, o⟩ := x
  cases o <;> exact ⟨_, rfl⟩

theorem readId_ascii (old : Option Id) (s : Bytes) (h : ∀ x ∈ s, x < 128) : ∃ u, readId old s = .ok u := by
  obtain ⟨x, hx⟩ := ofStr_ascii _ (shown_ascii h)
  exact ⟨_, by rw [readId, hx]; rfl⟩

theorem readId_text (old : Option Id) (u : Id) (hu : u.length = 16) : readId old (Sec.uuidText u) = .ok (some u) := by
  obtain ⟨n, h⟩ := Sec.uuidText_parse u hu
  have hc := Sec.uuidText_chars u hu
  rw [readId, Sec.takeWhile_all _ hc.2, List.take_of_length_le (by omega), h]
  rfl

end Verif.ObtFind
