import Verif.Cred.Lemmas

/-!
Properties of the roles of a session (C45): lemmas about the list of sessions.
-/

namespace Verif.Cred

open Verif.Rep (Bytes b Val Rep)
open Verif.Acl (Dos Id nilId)

/-- A role that was asserted: its credential is a certificate, and its role is not
one of the reserved ones. -/
structure Asserted (c : Cred) : Prop where
  cert : c.typ = certType
  allowed : roleAllowed c.role = true

/-- Invariant of the list of sessions: one entry per session; the role credentials
of a session have different ids; each was asserted with a certificate. -/
structure ClInv (cl : List Client) : Prop where
  peers : (cl.map (·.peer)).Nodup
  uniq : ∀ c ∈ cl, Uniq c.roles
  ok : ∀ c ∈ cl, ∀ r ∈ c.roles, Asserted r

theorem clientOf_cons (c : Client) (l : List Client) (p : Nat) :
    clientOf (c :: l) p = if c.peer = p then some c else clientOf l p := by
  rw [clientOf, List.find?_cons]
  by_cases h : c.peer = p
  · simp [h]
  · rw [beq_false_of_ne h, if_neg h]; rfl

theorem clientOf_mem {cl : List Client} {p : Nat} {c : Client} (h : clientOf cl p = some c) :
    c ∈ cl ∧ c.peer = p :=
  ⟨List.mem_of_find?_eq_some h, by simpa using List.find?_some h⟩

theorem clientOf_none {cl : List Client} {p : Nat} : clientOf cl p = none ↔ p ∉ cl.map (·.peer) := by
  induction cl with
  | nil => simp [clientOf]
  | cons c l ih =>
    rw [clientOf_cons, List.map_cons, List.mem_cons]
    by_cases h : c.peer = p
    · simp [h]
    · rw [if_neg h, ih]
      constructor
      · rintro h1 (h2 | h2)
        · exact h h2.symm
        · exact h1 h2
      · exact fun h1 h2 => h1 (.inr h2)

theorem rolesOf_eq {cl : List Client} {p : Nat} :
    rolesOf cl p = ((clientOf cl p).map (·.roles)).getD [] := by
  rw [rolesOf]; split <;> rename_i h <;> rw [h] <;> rfl

theorem clientOf_setRoles {cl : List Client} {p q : Nat} {r : List Cred} :
    clientOf (setRoles p r cl) q =
      if q = p then (clientOf cl p).map (fun c => { c with roles := r }) else clientOf cl q := by
  induction cl with
  | nil => rw [setRoles]; split <;> rfl
  | cons c l ih =>
    rw [setRoles]
    by_cases h : c.peer = p
    · rw [if_pos h, clientOf_cons, clientOf_cons, clientOf_cons, if_pos h]
      by_cases hq : q = p
      · rw [if_pos hq, if_pos (by rw [h, hq])]; rfl
      · rw [if_neg hq, if_neg (by show ¬ c.peer = q; rw [h]; exact fun e => hq e.symm),
          if_neg (by rw [h]; exact fun e => hq e.symm)]
    · rw [if_neg h, clientOf_cons, clientOf_cons, clientOf_cons, if_neg h, ih]
      by_cases hq : q = p
      · rw [if_pos hq, if_pos hq, if_neg (by rw [hq]; exact h)]
      · rw [if_neg hq, if_neg hq]

theorem setRoles_peers {cl : List Client} {p : Nat} {r : List Cred} :
    (setRoles p r cl).map (·.peer) = cl.map (·.peer) := by
  induction cl with
  | nil => rfl
  | cons c l ih =>
    rw [setRoles]; split
    · rfl
    · rw [List.map_cons, List.map_cons, ih]

theorem mem_setRoles {cl : List Client} {p : Nat} {r : List Cred} {c : Client} (h : c ∈ setRoles p r cl) :
    c ∈ cl ∨ c.roles = r := by
  induction cl with
  | nil => cases h
  | cons d l ih =>
    rw [setRoles] at h
    split at h
    · rcases List.mem_cons.mp h with h | h
      · exact .inr (by rw [h])
      · exact .inl (List.mem_cons_of_mem _ h)
    · rcases List.mem_cons.mp h with h | h
      · exact .inl (h ▸ List.mem_cons_self)
      · rcases ih h with h | h
        · exact .inl (List.mem_cons_of_mem _ h)
        · exact .inr h

theorem clInv_setRoles {cl : List Client} {p : Nat} {r : List Cred} (h : ClInv cl) (h1 : Uniq r)
    (h2 : ∀ c ∈ r, Asserted c) : ClInv (setRoles p r cl) := by
  refine ⟨by rw [setRoles_peers]; exact h.peers, ?_, ?_⟩
  · intro c hc
    rcases mem_setRoles hc with hc | hc
    · exact h.uniq c hc
    · rw [hc]; exact h1
  · intro c hc
    rcases mem_setRoles hc with hc | hc
    · exact h.ok c hc
    · rw [hc]; exact h2

theorem clientOf_ensure {cl : List Client} {p d q : Nat} :
    clientOf (ensureClient cl p d) q =
      if q = p ∧ clientOf cl p = none then some ⟨p, d, []⟩ else clientOf cl q := by
  rw [ensureClient]
  split
  · rename_i c hc
    rw [if_neg (by rintro ⟨_, e⟩; rw [hc] at e; cases e)]
  · rename_i hn
    rw [clientOf, List.find?_append]
    show (clientOf cl q).or _ = _
    by_cases hq : q = p
    · rw [if_pos ⟨hq, hn⟩, hq, hn]; simp
    · rw [if_neg (fun e => hq e.1)]
      have : ¬ p = q := fun e => hq e.symm
      rw [List.find?_cons, beq_false_of_ne this]
      cases clientOf cl q <;> rfl

theorem rolesOf_ensure {cl : List Client} {p d q : Nat} : rolesOf (ensureClient cl p d) q = rolesOf cl q := by
  rw [rolesOf_eq, rolesOf_eq, clientOf_ensure]
  split
  · rename_i h
    rw [h.1, h.2]; rfl
  · rfl

theorem clInv_ensure {cl : List Client} {p d : Nat} (h : ClInv cl) : ClInv (ensureClient cl p d) := by
  rw [ensureClient]
  split
  · exact h
  · rename_i hn
    refine ⟨?_, ?_, ?_⟩
    · rw [List.map_append, List.nodup_append]
      refine ⟨h.peers, by simp, ?_⟩
      intro a ha c hc e
      simp only [List.map_cons, List.map_nil, List.mem_singleton] at hc
      exact clientOf_none.mp hn (by rw [← hc, ← e]; exact ha)
    · intro c hc
      rcases List.mem_append.mp hc with hc | hc
      · exact h.uniq c hc
      · rw [List.mem_singleton.mp hc]; exact uniq_nil
    · intro c hc
      rcases List.mem_append.mp hc with hc | hc
      · exact h.ok c hc
      · rw [List.mem_singleton.mp hc]; intro r hr; cases hr

theorem freeRoles_sub (p : Nat) (cl : List Client) : List.Sublist (freeRoles p cl) cl := by
  induction cl with
  | nil => exact List.Sublist.refl _
  | cons c l ih =>
    rw [freeRoles]; split
    · exact List.sublist_cons_self c l
    · exact ih.cons_cons c

theorem ClInv.sub {cl cl' : List Client} (h : ClInv cl) (s : List.Sublist cl' cl) : ClInv cl' :=
  ⟨(s.map (·.peer)).nodup h.peers, fun c hc => h.uniq c (s.subset hc), fun c hc => h.ok c (s.subset hc)⟩

theorem clientOf_freeRoles_ne {cl : List Client} {p q : Nat} (h : q ≠ p) :
    clientOf (freeRoles p cl) q = clientOf cl q := by
  induction cl with
  | nil => rfl
  | cons c l ih =>
    rw [freeRoles]; split
    · rename_i e
      rw [clientOf_cons, if_neg (by rw [e]; exact fun e => h e.symm)]
    · rw [clientOf_cons, clientOf_cons, ih]

theorem clientOf_freeRoles {cl : List Client} {p : Nat} (h : ClInv cl) : clientOf (freeRoles p cl) p = none := by
  have hp := h.peers
  clear h
  induction cl with
  | nil => rfl
  | cons c l ih =>
    rw [List.map_cons, List.nodup_cons] at hp
    rw [freeRoles]; split
    · rename_i e
      rw [clientOf_none, ← e]; exact hp.1
    · rename_i e
      rw [clientOf_cons, if_neg e]; exact ih hp.2

theorem freeForDevice_sub (d : Nat) (v cl : List Client) : List.Sublist (freeForDevice d v cl) cl := by
  induction v generalizing cl with
  | nil => exact List.Sublist.refl _
  | cons c l ih =>
    rw [freeForDevice]
    refine (ih _).trans ?_
    split
    · exact freeRoles_sub _ _
    · exact List.Sublist.refl _

/-- After `oc_sec_free_roles_for_device` exactly the sessions of other devices
have an entry. -/
theorem clientOf_freeForDevice {d : Nat} {v cl : List Client} (h : ClInv cl) (q : Nat) :
    clientOf (freeForDevice d v cl) q =
      if ∃ c ∈ v, c.peer = q ∧ c.device = d then none else clientOf cl q := by
  induction v generalizing cl with
  | nil => simp [freeForDevice]
  | cons c l ih =>
    rw [freeForDevice]
    by_cases hd : c.device = d
    · rw [if_pos hd, ih (h.sub (freeRoles_sub _ _))]
      by_cases hq : q = c.peer
      · have hx : ∃ x ∈ c :: l, x.peer = q ∧ x.device = d := ⟨c, List.mem_cons_self, hq.symm, hd⟩
        rw [if_pos hx, hq, clientOf_freeRoles h]
        split <;> rfl
      · rw [clientOf_freeRoles_ne hq]
        congr 1
        apply propext
        constructor
        · rintro ⟨x, hx, h2⟩; exact ⟨x, List.mem_cons_of_mem _ hx, h2⟩
        · rintro ⟨x, hx, h2⟩
          rcases List.mem_cons.mp hx with e | hx
          · exact absurd (e ▸ h2.1.symm) hq
          · exact ⟨x, hx, h2⟩
    · rw [if_neg hd, ih h]
      congr 1
      apply propext
      constructor
      · rintro ⟨x, hx, h2⟩; exact ⟨x, List.mem_cons_of_mem _ hx, h2⟩
      · rintro ⟨x, hx, h2⟩
        rcases List.mem_cons.mp hx with e | hx
        · exact absurd (e ▸ h2.2) hd
        · exact ⟨x, hx, h2⟩

theorem rolesOf_uniq {cl : List Client} (h : ClInv cl) (p : Nat) :
    Uniq (rolesOf cl p) ∧ ∀ c ∈ rolesOf cl p, Asserted c := by
  rw [rolesOf]; split
  · rename_i c hc
    exact ⟨h.uniq c (clientOf_mem hc).1, h.ok c (clientOf_mem hc).1⟩
  · exact ⟨uniq_nil, fun c hc => (by cases hc)⟩

theorem rolesOf_setRoles_ensure {cl : List Client} {p d q : Nat} {r : List Cred} :
    rolesOf (setRoles p r (ensureClient cl p d)) q = if q = p then r else rolesOf cl q := by
  rw [rolesOf_eq, clientOf_setRoles]
  split
  · rw [clientOf_ensure]
    split
    · rfl
    · rename_i h
      have : clientOf cl p ≠ none := fun e => h ⟨rfl, e⟩
      cases hc : clientOf cl p with
      | none => exact absurd hc this
      | some c => rfl
  · rw [← rolesOf_eq, rolesOf_ensure]

/-- What adding a role credential does to the sessions. -/
theorem addRole_spec {cl : List Client} {p d : Nat} {q : Req} {o : Orc} {kp : Option Bytes} {uid : Nat}
    {a : AddedRole} (hcl : ClInv cl) (h : addRole cl p d q o kp uid = .ok a) (ht : q.typ = certType) :
    ClInv a.clients ∧ (∀ x ≠ p, rolesOf a.clients x = rolesOf cl x) ∧
    (a.created = false → ∀ x, rolesOf a.clients x = rolesOf cl x) ∧
    (a.created = true → ∃ c, rolesOf a.clients p = rolesOf cl p ++ [c] ∧ a.ret = c.id ∧ c.id ≠ -1 ∧
      o.roleCert = some (c.role, c.authority) ∧ roleAllowed c.role = true ∧ c.tag = q.tag.getD [] ∧
      c.pub = (if q.pub.bytes = [] then {} else q.pub)) ∧
    (a.created = false → a.ret ≠ -1 → ∃ c ∈ rolesOf cl p, c.id = a.ret ∧ eqData c.pub q.pub = true ∧
      c.tag = q.tag.getD []) := by
  rw [addRole] at h
  split at h
  · rename_i c hf
    cases h
    refine ⟨hcl, fun _ _ => rfl, fun _ _ => rfl, fun e => (by cases e), fun _ _ => ⟨c, List.mem_of_find?_eq_some hf, rfl, ?_⟩⟩
    have := List.find?_some hf
    simpa using this
  · split at h
    · cases h
      exact ⟨hcl, fun _ _ => rfl, fun _ _ => rfl, fun e => (by cases e), fun _ e => absurd rfl e⟩
    · rename_i hu
      split at h
      · cases h
        exact ⟨hcl, fun _ _ => rfl, fun _ _ => rfl, fun e => (by cases e), fun _ e => absurd rfl e⟩
      · split at h
        · cases h
          exact ⟨clInv_ensure hcl, fun _ _ => rolesOf_ensure, fun _ _ => rolesOf_ensure, fun e => (by cases e),
            fun _ e => absurd rfl e⟩
        · obtain ⟨r, hr, h⟩ := bind_ok h
          split at h
          · cases h
            exact ⟨clInv_ensure hcl, fun _ _ => rolesOf_ensure, fun _ _ => rolesOf_ensure, fun e => (by cases e),
              fun _ e => absurd rfl e⟩
          · rename_i c
            cases h
            have hu' := rolesOf_uniq hcl p
            have hq : ∀ q' : Req, q' = (if (getById (rolesOf cl p) q.id).isSome then { q with id := -1 } else q) →
                q'.id ∉ (rolesOf cl p).map (·.id) ∧ q'.usage = q.usage ∧ q'.typ = q.typ ∧ q'.tag = q.tag ∧ q'.pub = q.pub := by
              intro q' e
              by_cases hs : (getById (rolesOf cl p) q.id).isSome
              · rw [if_pos hs] at e
                subst e
                refine ⟨?_, rfl, rfl, rfl, rfl⟩
                intro m
                obtain ⟨c, hc, e⟩ := List.mem_map.mp m
                exact hu'.1.valid c hc e
              · rw [if_neg hs] at e
                subst e
                refine ⟨?_, rfl, rfl, rfl, rfl⟩
                intro m
                obtain ⟨c, hc, e⟩ := List.mem_map.mp m
                exact getById_none (by simpa using hs) c hc e
            obtain ⟨hq1, hq2, hq3, hq4, hq5⟩ := hq _ rfl
            obtain ⟨h1, h2, h3⟩ := create_ok hr hq1
            obtain ⟨r, hr1, hr2⟩ := h3.role
            obtain ⟨hr2, hr3⟩ := hr2 rfl
            have hrole : o.roleCert = some (c.role, c.authority) ∧ roleAllowed c.role = true := by
              rw [parseRole, hq2, if_pos (by simpa using hu)] at hr1
              split at hr1
              · cases hr1
              · rename_i r' hc
                split at hr1
                · cases hr1
                · rename_i hal
                  cases hr1
                  rw [hc, hr2, hr3]
                  exact ⟨rfl, by simpa using hal⟩
            refine ⟨?_, ?_, fun e => (by cases e), fun _ => ⟨c, ?_, rfl, h2, hrole.1, hrole.2, ?_, ?_⟩, fun e => (by cases e)⟩
            · refine clInv_setRoles (clInv_ensure hcl) (uniq_append hu'.1 h1 h2) ?_
              intro x hx
              rcases List.mem_append.mp hx with hx | hx
              · exact hu'.2 x hx
              · rw [List.mem_singleton.mp hx]
                exact ⟨by rw [h3.typ, hq3]; exact ht, hrole.2⟩
            · intro x hx
              rw [rolesOf_setRoles_ensure, if_neg hx]
            · rw [rolesOf_setRoles_ensure, if_pos rfl]
            · rw [h3.tag, hq4]
            · rw [h3.pub, hq5]

end Verif.Cred
