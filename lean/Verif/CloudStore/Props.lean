import Verif.CloudStore.Lemmas
/-!
Properties of the stored cloud configuration.
-/
namespace Verif.CloudStore

open Verif.EpAddr (Bytes Meta Item Addrs View Inv)
open Verif.Rep (Rep Val b getByTypeAndKey)

/-- **C71.** A device whose selected server has a UUID other than `*` comes up after a
restart with the configuration it had, if the storage gives back what was written to
it. -/
theorem restart_kept {lim : Nat} {mem : Nat → Bool} (hm : ∀ k, mem k = true) {s : Store}
    (h : Inv lim s.servers) (hu : AllUuid s.servers) {i : Item}
    (hs : EpAddr.selected s.servers = .ok (some i)) (hw : i.tag ≠ .uuid wildcard) :
    ∃ r s', encode s = .ok r ∧ start lim mem (some r) = .ok s' ∧ Kept s s' := by
  -- the selected item
  have hsel : ∃ k, s.servers.items[k]? = some i ∧ s.servers.sel = some i.id ∧
      (EpAddr.servers s.servers).cur = k := by
    cases hp : s.servers.sel with
    | none => simp [EpAddr.selected, hp] at hs
    | some p =>
      obtain ⟨k, j, hk, hj, hc⟩ := EpAddr.sel_pos h hp
      simp only [EpAddr.selected, hp] at hs
      cases hf : s.servers.items.find? fun i => i.id == p with
      | none => rw [hf] at hs; cases hs
      | some x =>
        rw [hf] at hs; cases hs
        have hx : i.id = p := by have := List.find?_some hf; simpa using this
        obtain ⟨k', hk'⟩ := List.getElem?_of_mem (List.mem_of_find?_eq_some hf)
        have := EpAddr.id_inj h hk' hk (by rw [hx, hj])
        subst this
        exact ⟨k', hk', by rw [hx], hc⟩
  obtain ⟨k, hk, hsi, hcur⟩ := hsel
  obtain ⟨u, ht, hul⟩ := hu i (List.mem_of_getElem? hk)
  have huw : u ≠ wildcard := fun e => hw (by rw [ht, e])
  obtain ⟨t, n, he, ho, hn⟩ := encodeAddr_uuid (uk := b "ci_server") (ik := b "sid") (nk := []) ht hul
    (by decide)
  rw [if_neg huw] at hn; subst hn
  -- the store before loading
  obtain ⟨ok, s0, e0, hI0, _⟩ := EpAddr.step_refines (EpAddr.inv_drop (EpAddr.inv_init lim))
    (o := .init true ⟨b "coaps+tcp://127.0.0.1", .uuid (List.replicate 16 0)⟩) rfl
  simp only [EpAddr.step] at e0
  have e0' : initStore lim (mem 0) {} = .ok { servers := s0 } := by
    simp only [initStore, hm]
    have : EpAddr.deinit ({} : Store).servers = { ({} : Addrs) with items := [], sel := none } := rfl
    rw [this, e0]; rfl
  obtain ⟨srv, s', ev, hset, hc', hall⟩ := setServers_encoded hm h hI0 hu hk ht hsi
  have henc : encode s = .ok ([(b "ci_server", .str i.uri), (b "sid", .str t)] ++ srv ++
      [(b "auth_provider", .str s.authProvider), (b "uid", .str s.uid),
       (b "access_token", .str s.accessToken), (b "refresh_token", .str s.refreshToken),
       (b "status", .int s.status.toNat), (b "cps", .int s.cps.toNat),
       (b "expires_in", .int s.expiresIn)]) := by
    simp only [encode, encodeSelected, hs, Out.bind, ht, he, ev]
  refine ⟨_, { servers := s', authProvider := s.authProvider, uid := s.uid, accessToken := s.accessToken, refreshToken := s.refreshToken, status := keepStatus s.status, cps := s.cps, expiresIn := s.expiresIn }, henc, ?_, ?_⟩
  · simp only [start, e0', Out.bind, load, decode]
    rcases hset with ⟨rfl, hset⟩ | ⟨rs, hrs, rfl, hset⟩
    · have hp : ∀ d : Data, parseProps d [(b "ci_server", .str i.uri), (b "sid", .str t)] =
          .ok (some { d with server := some i.uri, sid := some t }) := by
        intro d
        simp (decide := true) [parseProps, parseProp, Out.bind, b]
      have hpp : ∀ d : Data, ∀ x y d', parseProps d x = .ok (some d') → parseProps d (x ++ y) = parseProps d' y := by
        intro d x
        induction x generalizing d with
        | nil => intro y d' e; cases e; rfl
        | cons p x ih =>
          intro y d' e
          simp only [parseProps, List.cons_append] at e ⊢
          cases hq : parseProp d p with
          | ub => rw [hq] at e; cases e
          | ok q =>
            rw [hq] at e
            cases q with
            | none => cases e
            | some d1 => exact ih d1 y d' e
      rw [List.append_nil, hpp _ _ _ _ (hp _), parseProps_tail]
      simp [storeServers, ho, Out.bind, hset]
    · have hp : ∀ d : Data, parseProps d ([(b "ci_server", .str i.uri), (b "sid", .str t)] ++
            [(b "x.org.iotivity.servers", .objs rs)]) =
          .ok (some { d with server := some i.uri, sid := some t, servers := rs }) := by
        intro d
        simp (decide := true) [parseProps, parseProp, Out.bind, b]
      have hpp : ∀ d : Data, ∀ x y d', parseProps d x = .ok (some d') → parseProps d (x ++ y) = parseProps d' y := by
        intro d x
        induction x generalizing d with
        | nil => intro y d' e; cases e; rfl
        | cons p x ih =>
          intro y d' e
          simp only [parseProps, List.cons_append] at e ⊢
          cases hq : parseProp d p with
          | ub => rw [hq] at e; cases e
          | ok q =>
            rw [hq] at e
            cases q with
            | none => cases e
            | some d1 => exact ih d1 y d' e
      rw [hpp _ _ _ _ (hp _), parseProps_tail]
      simp [storeServers, ho, Out.bind, hset]
  · have hb : ∀ st : UInt8, registered (keepStatus st) = registered st ∧ keepStatus st &&& 0x7e = 0 :=
      forall_u8 (by decide +kernel)
    refine ⟨rfl, rfl, rfl, rfl, rfl, rfl, (hb _).1, (hb _).2, hc', (i.uri, i.tag), ?_, ?_⟩
    · rw [hcur]; simp [EpAddr.servers, hk]
    · rw [hcur]; exact hall

/-- A registered device with three servers, the second of which is selected. -/
def sample : Store :=
  { servers := ⟨[⟨0, [97], .uuid (List.replicate 16 1)⟩, ⟨1, [98], .uuid (List.replicate 16 2)⟩, ⟨2, [99], .uuid wildcard⟩], some 1, 3, 2⟩
    authProvider := [112], uid := [117], accessToken := [116], refreshToken := [], status := 3, cps := 2, expiresIn := 3600 }

example : Inv 4096 sample.servers ∧ AllUuid sample.servers ∧
    EpAddr.selected sample.servers = .ok (some ⟨1, [98], .uuid (List.replicate 16 2)⟩) := by
  refine ⟨⟨by decide, by decide, by decide, ?_, by decide, by decide⟩, ?_, rfl⟩
  · decide
  · intro i hi
    simp only [sample, List.mem_cons, List.not_mem_nil, or_false] at hi
    rcases hi with rfl | rfl | rfl <;> exact ⟨_, rfl, by decide⟩

/-- Here the second server comes first after the restart. -/
example : ∃ r s', encode sample = .ok r ∧ start 4096 (fun _ => true) (some r) = .ok s' ∧
    (EpAddr.servers s'.servers).all.map (·.1) = [[98], [97], [99]] ∧ s'.status = 1 :=
  ⟨_, _, rfl, rfl, by decide +kernel, by decide +kernel⟩

/-- **C71, counterexample.** If memory runs out while the servers are read, the device
comes up with a part of them, without an error. -/
theorem restart_memory_false : ∃ r s', encode sample = .ok r ∧
    start 4096 (fun k => k < 2) (some r) = .ok s' ∧
    (EpAddr.servers s'.servers).all.map (·.1) = [[98], [97]] :=
  ⟨_, _, rfl, rfl, by decide +kernel⟩

/-- **C71, counterexample.** If the selected server has the UUID `*`, all servers are
lost by a restart; the default server is there instead. -/
theorem restart_wildcard_false : ∃ s r s', encode s = .ok r ∧ start 4096 (fun _ => true) (some r) = .ok s' ∧
    (EpAddr.servers s.servers).all = [([97], .uuid wildcard), ([98], .uuid (List.replicate 16 7))] ∧
    (EpAddr.servers s'.servers).all = [(b "coaps+tcp://127.0.0.1", .uuid (List.replicate 16 0))] :=
  ⟨{ servers := ⟨[⟨0, [97], .uuid wildcard⟩, ⟨1, [98], .uuid (List.replicate 16 7)⟩], some 0, 2, 1⟩ },
    _, _, rfl, rfl, by decide +kernel, by decide +kernel⟩

/-- **C71, counterexample.** If all servers have been removed, the default server is
there after a restart. -/
theorem restart_empty_false : ∃ s r s', encode s = .ok r ∧ start 4096 (fun _ => true) (some r) = .ok s' ∧
    (EpAddr.servers s.servers).all = [] ∧
    (EpAddr.servers s'.servers).all = [(b "coaps+tcp://127.0.0.1", .uuid (List.replicate 16 0))] :=
  ⟨{}, _, _, rfl, rfl, rfl, by decide +kernel⟩

end Verif.CloudStore
