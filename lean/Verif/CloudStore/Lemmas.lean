import Verif.CloudStore.Spec
import Verif.EpAddr.Props
import Verif.Uuid.Props
/-!
Lemmas about the stored cloud configuration.
-/
namespace Verif.CloudStore

open Verif.EpAddr (Bytes Meta Item Addrs View Inv)
open Verif.Rep (Rep Val b getByTypeAndKey)

/-- All servers have a UUID, as in every list the cloud makes. -/
def AllUuid (s : Addrs) : Prop := ∀ i ∈ s.items, ∃ u, i.tag = .uuid u ∧ u.length = 16

theorem toStr_some {u : Bytes} (hu : u.length = 16) : ∃ t, Uuid.toStr u 37 = some t := by
  by_cases hw : u = 42 :: List.replicate 15 0
  · exact ⟨[42], by rw [Uuid.toStr, if_pos hw]; rfl⟩
  · obtain ⟨s, h, _⟩ := (Uuid.toStr_format u hu hw 37).1 (by decide)
    exact ⟨s, h⟩

theorem encodeAddr_uuid {uk ik nk : Bytes} {i : Item} {u : Bytes} (ht : i.tag = .uuid u)
    (hu : u.length = 16) (hk : ik ≠ []) :
    ∃ t n, encodeAddr uk ik nk i = .ok [(uk, .str i.uri), (ik, .str t)] ∧
      Uuid.ofStr t = .ok (some n, some u) ∧ n = if u = wildcard then 1 else 16 := by
  obtain ⟨t, h⟩ := toStr_some hu
  obtain ⟨n, h2, h3⟩ := Uuid.ofStr_toStr u hu 37 t h
  refine ⟨t, n, ?_, h2, h3⟩
  simp only [encodeAddr, ht]
  rw [if_neg (by simpa using hk), h]

theorem strOf_uri (x y : Bytes) : strOf [(b "uri", .str x), (b "id", .str y)] (b "uri") = some x := by
  simp [strOf, getByTypeAndKey, getByTypeAndKey.loop, Val.ty, b]

theorem strOf_id (x y : Bytes) : strOf [(b "uri", .str x), (b "id", .str y)] (b "id") = some y := by
  simp [strOf, getByTypeAndKey, getByTypeAndKey.loop, Val.ty, b]

theorem contains_all (s : Addrs) (u : Bytes) :
    EpAddr.contains s u = true ↔ u ∈ (EpAddr.servers s).all.map (·.1) := by
  simp [EpAddr.contains, EpAddr.servers]

/-- The loop over the servers adds those that are not there yet. -/
theorem setLoop_items {lim : Nat} {mem : Nat → Bool} (hm : ∀ k, mem k = true) :
    ∀ (l : List Item) (k : Nat) {s : Addrs}, Inv lim s →
    (∀ i ∈ l, ∃ u, i.tag = .uuid u ∧ u.length = 16) →
    (∀ i ∈ l, EpAddr.Fits lim i.uri) →
    (l.Pairwise fun x y => x.uri ≠ y.uri) →
    ∃ rs s', encodeItems l = .ok rs ∧ rs.length = l.length ∧
      setLoop lim mem k rs s = .ok (some (), s') ∧ Inv lim s' ∧
      (EpAddr.servers s').cur = (EpAddr.servers s).cur ∧
      (EpAddr.servers s').all = (EpAddr.servers s).all ++
        (l.filter fun i => i.uri ∉ (EpAddr.servers s).all.map (·.1)).map fun i => (i.uri, i.tag)
  | [], k, s, h, _, _, _ => ⟨[], s, rfl, rfl, rfl, h, rfl, by simp⟩
  | i :: l, k, s, h, hu, hf, hp => by
    obtain ⟨u, ht, hul⟩ := hu i (by simp)
    obtain ⟨t, n, he, ho, _⟩ := encodeAddr_uuid (uk := b "uri") (ik := b "id") (nk := b "name") ht hul
      (by decide)
    have hu' : ∀ i ∈ l, ∃ u, i.tag = .uuid u ∧ u.length = 16 := fun j hj => hu j (by simp [hj])
    have hf' : ∀ i ∈ l, EpAddr.Fits lim i.uri := fun j hj => hf j (by simp [hj])
    have hp' := (List.pairwise_cons.1 hp).2
    by_cases hc : i.uri ∈ (EpAddr.servers s).all.map (·.1)
    · obtain ⟨rs, s', e1, e2, e3, hI, hcur, hall⟩ := setLoop_items hm l (k + 1) h hu' hf' hp'
      refine ⟨[(b "uri", .str i.uri), (b "id", .str t)] :: rs, s', by simp only [encodeItems, he, Out.bind, e1], by simp [e2], ?_, hI, hcur, ?_⟩
      · simp only [setLoop, strOf_uri, strOf_id, ho, Out.bind]
        rw [if_pos ((contains_all s i.uri).2 hc)]
        exact e3
      · rw [hall, List.filter_cons_of_neg (by simpa using hc)]
    · -- a new server
      obtain ⟨ok, s1, e, hI1, hA, hcur1⟩ := EpAddr.step_refines h (o := .add true ⟨i.uri, .uuid u⟩) rfl
      simp only [EpAddr.Adds] at hA
      rw [if_pos ⟨trivial, hf i (by simp), hc⟩] at hA
      obtain ⟨rfl, hA⟩ := hA
      simp only [EpAddr.step] at e
      cases ea : EpAddr.add lim true s ⟨i.uri, .uuid u⟩ with
      | ub => rw [ea] at e; cases e
      | ok r =>
        rw [ea] at e
        simp only [Out.bind, Out.ok.injEq, Prod.mk.injEq] at e
        obtain ⟨r1, r2⟩ := r
        obtain ⟨e, rfl⟩ := e
        cases r1 with
        | none => cases e
        | some p =>
          obtain ⟨rs, s', e1, e2, e3, hI, hcur, hall⟩ := setLoop_items hm l (k + 1) hI1 hu' hf' hp'
          refine ⟨[(b "uri", .str i.uri), (b "id", .str t)] :: rs, s', by simp only [encodeItems, he, Out.bind, e1], by simp [e2], ?_, hI,
            hcur.trans hcur1, ?_⟩
          · have hcf : EpAddr.contains s i.uri = false := by
              cases h : EpAddr.contains s i.uri
              · rfl
              · exact absurd ((contains_all _ _).1 h) hc
            simp only [setLoop, strOf_uri, strOf_id, ho, Out.bind]
            rw [if_neg (by simp [hcf]), hm k, ea]
            exact e3
          · simp only at hA hall
            rw [hall, hA, List.filter_cons_of_pos (by simpa using hc)]
            simp only [List.append_assoc, List.map_cons, List.cons_append, List.nil_append, ht]
            congr 2
            congr 1
            apply List.filter_congr
            intro j hj
            have := (List.pairwise_cons.1 hp).1 j hj
            simp only [List.map_append, List.map_cons, List.map_nil, List.mem_append, List.mem_singleton]
            simp [Ne.symm this]

theorem filter_uri {l : List Item} (h : l.Pairwise fun a b => a.uri ≠ b.uri) :
    ∀ {k : Nat} {i : Item}, l[k]? = some i → (l.filter fun j => j.uri ∉ [i.uri]) = l.eraseIdx k := by
  induction l with
  | nil => intro k i e; simp at e
  | cons a l ih =>
    intro k i e
    cases k with
    | zero =>
      simp at e; subst e
      rw [List.filter_cons_of_neg (by simp), List.eraseIdx_cons_zero, List.filter_eq_self]
      intro b hb
      have := (List.pairwise_cons.1 h).1 b hb
      simp [Ne.symm this]
    | succ k =>
      simp at e
      have hne : a.uri ≠ i.uri := (List.pairwise_cons.1 h).1 i (List.mem_of_getElem? e)
      rw [List.eraseIdx_cons_succ, List.filter_cons_of_pos (by simpa using hne),
        ih (List.pairwise_cons.1 h).2 e]

/-- Setting the servers from what was encoded. -/
theorem setServers_encoded {lim : Nat} {mem : Nat → Bool} (hm : ∀ k, mem k = true) {s s0 : Addrs}
    (h : Inv lim s) (h0 : Inv lim s0) (hu : AllUuid s) {k : Nat} {i : Item} {u : Bytes}
    (hk : s.items[k]? = some i) (ht : i.tag = .uuid u) (hs : s.sel = some i.id) :
    ∃ srv s', encodeServers (b "x.org.iotivity.servers") s = .ok srv ∧
      (srv = [] ∧ setServers lim mem s0 i.uri u [] = .ok (true, s') ∨
        ∃ rs, rs ≠ [] ∧ srv = [(b "x.org.iotivity.servers", .objs rs)] ∧
          setServers lim mem s0 i.uri u rs = .ok (true, s')) ∧
      (EpAddr.servers s').cur = 0 ∧ (EpAddr.servers s').all = (i.uri, i.tag) :: (EpAddr.servers s).all.eraseIdx k := by
  have him : i ∈ s.items := List.mem_of_getElem? hk
  have hfit := h.fits i him
  have hd : Inv lim (EpAddr.deinit s0) := EpAddr.inv_drop h0
  obtain ⟨ok, s1, e, hI1, hcur, hA⟩ := EpAddr.step_refines hd (o := .init true ⟨i.uri, .uuid u⟩) rfl
  have hne : i.uri ≠ [] := List.length_pos_iff.1 hfit.1
  rw [if_neg hne] at hA
  simp only [EpAddr.Adds] at hA
  rw [if_pos ⟨trivial, hfit, by simp⟩] at hA
  obtain ⟨rfl, hA⟩ := hA
  simp only [EpAddr.step] at e
  have hlen : 0 < s.items.length := by
    have := (List.getElem?_eq_some_iff.1 hk).1; omega
  by_cases h1 : s.items.length = 1
  · refine ⟨[], s1, ?_, Or.inl ⟨rfl, ?_⟩, hcur, ?_⟩
    · simp only [encodeServers]
      rw [if_neg (by omega), if_pos h1, if_neg (by rw [hs]; simp)]
    · simp only [setServers, hm, e, Out.bind, setLoop]
      simp
    · rw [hA, ht]
      have : k = 0 := by have := (List.getElem?_eq_some_iff.1 hk).1; omega
      subst this
      have : ∃ x, s.items = [x] := List.length_eq_one_iff.1 h1
      obtain ⟨x, hx⟩ := this
      simp [EpAddr.servers, hx]
  · obtain ⟨rs, s', e1, e2, e3, hI, hc', hall⟩ := setLoop_items hm s.items 1 hI1 hu h.fits h.uris
    refine ⟨_, s', ?_, Or.inr ⟨rs, ?_, rfl, ?_⟩, hc'.trans hcur, ?_⟩
    · simp only [encodeServers]
      rw [if_neg (by omega), if_neg h1, e1]; rfl
    · rw [← List.length_pos_iff, e2]; exact hlen
    · simp only [setServers, hm, e, Out.bind, if_true, e3, Option.isSome]
    · rw [hall, hA]
      simp only [List.nil_append, List.map_cons, List.map_nil, List.cons_append, ht, List.cons.injEq, true_and]
      rw [filter_uri h.uris hk, EpAddr.map_eraseIdx]
      rfl

/-- The properties that are always there. -/
theorem parseProps_tail (d : Data) (s : Store) :
    parseProps d [(b "auth_provider", .str s.authProvider), (b "uid", .str s.uid),
     (b "access_token", .str s.accessToken), (b "refresh_token", .str s.refreshToken),
     (b "status", .int s.status.toNat), (b "cps", .int s.cps.toNat),
     (b "expires_in", .int s.expiresIn)] =
    .ok (some { d with authProvider := some s.authProvider, uid := some s.uid, accessToken := some s.accessToken, refreshToken := some s.refreshToken, status := s.status, cps := s.cps, expiresIn := s.expiresIn }) := by
  have h1 : ¬ ((s.status.toNat : Int) > 255) := by have := s.status.toNat_lt; omega
  have h2 : ¬ ((s.cps.toNat : Int) > 255) := by have := s.cps.toNat_lt; omega
  have h3 : ∀ c : UInt8, UInt8.ofNat ((c.toNat : Int) % 256).toNat = c := by
    intro c
    have := c.toNat_lt
    have : ((c.toNat : Int) % 256).toNat = c.toNat := by omega
    rw [this]; simp
  simp (decide := true) [parseProps, parseProp, Out.bind, b, h1, h2, h3]

end Verif.CloudStore
