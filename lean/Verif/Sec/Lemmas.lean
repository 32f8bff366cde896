import Verif.Sec.Base
import Verif.Uuid.Props

namespace Verif.Sec

open Verif.Rep (Bytes b Val Rep)

theorem parseUuid_length (s : Bytes) (u : Acl.Id) (h : parseUuid s = .ok (some u)) : u.length = 16 := by
  unfold parseUuid at h
  cases ho : Uuid.ofStr s with
  | ub => rw [ho] at h; cases h
  | ok x =>
    rw [ho] at h
    obtain ⟨n, o⟩ := x
    cases n with
    | none => simp only [Out.ok_bind, Out.pure_eq, Out.ok.injEq, reduceCtorEq] at h
    | some n =>
      cases o with
      | none => simp only [Out.ok_bind, Out.pure_eq, Out.ok.injEq, reduceCtorEq] at h
      | some w =>
        simp only [Out.ok_bind, Out.pure_eq, Out.ok.injEq, Option.some.injEq] at h
        subst h
        exact Uuid.ofStr_size_partial _ _ _ ho

theorem strToUuid_length (old : Acl.Id) (s : Bytes) (u : Acl.Id) (ho : old.length = 16) (h : strToUuid old s = .ok u) :
    u.length = 16 := by
  unfold strToUuid at h
  cases hx : Uuid.ofStr ((s.takeWhile (· != 0)).take 37) with
  | ub => rw [hx] at h; cases h
  | ok x =>
    rw [hx] at h
    obtain ⟨n, o⟩ := x
    cases o with
    | none => simp only [Out.ok_bind, Out.pure_eq, Out.ok.injEq] at h; subst h; exact ho
    | some w =>
      simp only [Out.ok_bind, Out.pure_eq, Out.ok.injEq] at h
      subst h
      exact Uuid.ofStr_size_partial _ _ _ hx

theorem uuidText_parse (u : Acl.Id) (hu : u.length = 16) : ∃ n, Uuid.ofStr (uuidText u) = .ok (some n, some u) := by
  cases ht : Uuid.toStr u 37 with
  | none =>
    exfalso
    by_cases hw : u = 42 :: List.replicate 15 0
    · rw [hw] at ht; revert ht; decide
    · obtain ⟨s, h, -⟩ := (Uuid.toStr_format u hu hw 37).1 (by omega)
      rw [h] at ht; cases ht
  | some s =>
    obtain ⟨n, h, -⟩ := Uuid.ofStr_toStr u hu 37 s ht
    exact ⟨n, by rw [uuidText, ht]; exact h⟩

theorem parseUuid_text (u : Acl.Id) (hu : u.length = 16) : parseUuid (uuidText u) = .ok (some u) := by
  obtain ⟨n, h⟩ := uuidText_parse u hu
  simp [parseUuid, h]

theorem uuidText_chars (u : Acl.Id) (hu : u.length = 16) : (uuidText u).length ≤ 36 ∧ ∀ c ∈ uuidText u, c ≠ 0 := by
  by_cases hw : u = 42 :: List.replicate 15 0
  · rw [hw]; decide
  · obtain ⟨s, h, ⟨x1, x2, x3, x4, x5, dash, hd, rfl, h1, h2, h3, h4, h5, hx⟩, -⟩ := (Uuid.toStr_format u hu hw 37).1 (by omega)
    rw [uuidText, h]
    dsimp only [Option.getD]
    refine ⟨by simp [h1, h2, h3, h4, h5], ?_⟩
    have h0 : ¬ Uuid.Spec.LowerHex 0 := by unfold Uuid.Spec.LowerHex; decide
    have hdd : dash ≠ 0 := by rintro rfl; revert hd; decide
    intro c hc hc0
    subst hc0
    simp only [List.mem_append, List.mem_singleton] at hc hx
    rcases hc with (((((((h | h) | h) | h) | h) | h) | h) | h) | h
    all_goals first | exact hdd h.symm | exact h0 (hx 0 (by simp [h]))

theorem takeWhile_all (l : List UInt8) (h : ∀ c ∈ l, c ≠ 0) : l.takeWhile (· != 0) = l := by
  induction l with
  | nil => rfl
  | cons c l ih =>
    rw [List.takeWhile_cons_of_pos (by simpa using h c (by simp)), ih (fun x hx => h x (List.mem_cons_of_mem _ hx))]

theorem strToUuid_text (old u : Acl.Id) (hu : u.length = 16) : strToUuid old (uuidText u) = .ok u := by
  obtain ⟨n, h⟩ := uuidText_parse u hu
  have hc := uuidText_chars u hu
  rw [strToUuid, takeWhile_all _ hc.2, List.take_of_length_le (by omega), h]
  rfl

end Verif.Sec
