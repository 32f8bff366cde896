import Verif.Cloud.RegLemmas
/-!
Which servers the cloud client tries to register at (C73).
-/
namespace Verif.Cloud

open Verif.EpAddr (Bytes Addrs View Inv)

/-- **C73 (partial).** Let the timeouts of retries be `t`, each at least a second, let the
list of servers be of any length up to 255, and let the manager be started by
`oc_cloud_manager_start` on a device that is provisioned and not registered.  If no
server answers, whatever the kind of failure, every server is sent exactly `t.length`
requests to register, in the order of the list beginning with the selected one; then
nothing is pending, the status is "failed" with the error "connect", and the list and the
selection are what they were.  Missing: an environment in which a request cannot be
sent, or a TCP connection without an answer (see `unresolved_false` and
`silent_server_false`). -/
theorem register_everywhere_partial {t : List Nat} {lim code : Nat} {x : Env} {xs : Nat → Env} {s : Ctx}
    (ht : ∀ v ∈ t, 1000 ≤ v) (h1 : 1 ≤ t.length) (h6 : t.length ≤ 6)
    (hx : Calm t lim x) (hxs : ∀ n, Calm t lim (xs n)) (hc : isConn code = true)
    (h0 : s.status = 0) (hp : s.cps = .ready) (htm : s.tms = []) (ho : s.out = []) (hcn : s.conn = false)
    (hi : s.initial = none) (he : s.ep = none) (ha : s.access ≠ [])
    (hI : Inv lim s.servers) (hl : s.servers.items.length ≤ 255) (hn : s.servers.items ≠ []) :
    ∃ s1 n s', step x s .start = .ok s1 ∧ drive code n xs s1 = .ok s' ∧ pick code s' = none ∧
      s'.status = 0 ∧ s'.cps = .failed ∧ s'.err = .connect ∧
      EpAddr.servers s'.servers = EpAddr.servers s.servers ∧
      s'.sent.map (fun r => (r.1, some r.2.1)) = s.sent.map (fun r => (r.1, some r.2.1)) ++
        (List.range s.servers.items.length).flatMap fun i => List.replicate t.length
          (.mRegister, ((EpAddr.servers s.servers).all.map (·.1))[
            ((EpAddr.servers s.servers).cur + i) % s.servers.items.length]?) := by
  have hlt := EpAddr.cur_lt hI hn
  have hlen : (EpAddr.servers s.servers).all.length = s.servers.items.length := by simp [EpAddr.servers]
  have hpos : 0 < s.servers.items.length := List.length_pos_iff.2 hn
  obtain ⟨u, hu⟩ : ∃ u, ((EpAddr.servers s.servers).all[(EpAddr.servers s.servers).cur]?).map (·.1) = some u := by
    rw [List.getElem?_eq_getElem (by omega)]; exact ⟨_, rfl⟩
  obtain ⟨s1, e1, hs1, hA⟩ := managerStart_att hx ht h1 h0 hp htm ho hcn hi he ha hI hl hu
  have hf : u ∈ (EpAddr.servers s.servers).all.map (·.1) := by
    rw [← List.getElem?_map] at hu; exact List.mem_of_getElem? hu
  obtain ⟨n, s', e2, a1, a2, a3, a4, a5, a6, a7, a8⟩ :=
    att_servers ht h1 h6 hc hf (s.servers.items.length - 1) hxs hA (by omega) (by omega)
  refine ⟨s1, n, s', e1, e2, ?_, a3, a4, a5, ?_, ?_⟩
  · unfold pick; rw [a1, a2]; rfl
  · have : (EpAddr.servers s'.servers).cur = (EpAddr.servers s.servers).cur := by
      rw [a7, hlen, Nat.add_assoc, show s.servers.items.length - 1 + 1 = s.servers.items.length by omega,
        Nat.add_mod_right, Nat.mod_eq_of_lt hlt]
    generalize EpAddr.servers s'.servers = v at a6 this
    cases v
    simp only at a6 this
    rw [a6, this]
  · rw [a8, hs1, hlen, show s.servers.items.length - 1 + 1 = s.servers.items.length by omega]

/-- Three servers. -/
def three : Ctx :=
  { cps := .ready, access := [97],
    servers := { items := [⟨0, [1], .uuid (List.replicate 16 1)⟩, ⟨1, [2], .uuid (List.replicate 16 2)⟩, ⟨2, [3], .uuid (List.replicate 16 3)⟩], sel := some 1, next := 3, calls := 1 } }

/-- Timeouts of two and four seconds. -/
def two : Env := { timeouts := [2000, 4000, 0, 0, 0, 0], resolves := fun _ => true, mem := fun _ => true, lim := 100 }

example : ∃ s1 n s', step two three .start = .ok s1 ∧ drive 18 n (fun _ => two) s1 = .ok s' ∧ pick 18 s' = none ∧
    s'.sent.map (fun r => (r.1, some r.2.1)) =
      [(.mRegister, some [2]), (.mRegister, some [2]), (.mRegister, some [3]), (.mRegister, some [3]),
        (.mRegister, some [1]), (.mRegister, some [1])] := by
  have hx : Calm [2000, 4000] 100 two := ⟨rfl, rfl, rfl, rfl, fun _ => rfl, rfl⟩
  have hI : Inv 100 three.servers := by
    refine ⟨by simp [three], by simp [three], by simp [three], ?_, by simp [three], by simp [three]⟩
    intro i hi; simp [three] at hi; rcases hi with rfl | rfl | rfl <;> decide
  obtain ⟨s1, n, s', e1, e2, e3, _, _, _, _, e4⟩ := register_everywhere_partial (by simp) (by simp) (by simp) hx
    (fun _ => hx) (code := 18) (by decide) (s := three) rfl rfl rfl rfl rfl rfl rfl (by decide) hI (by decide) (by decide)
  exact ⟨s1, n, s', e1, e2, e3, e4⟩

/-- The name of one server cannot be resolved. -/
def lostName : Env := { two with resolves := fun u => u != [2] }

/-- **C73 is false of the code in this case.** The name of the selected server cannot be
resolved: after the last try the manager fails and tries no other server, though two
others are known. -/
theorem unresolved_false : ∃ s', run three [(lostName, .start), (lostName, .fire .register false false),
      (lostName, .fire .register false false)] = .ok s' ∧
    s'.tms = [] ∧ s'.out = [] ∧ s'.sent = [] ∧ s'.cps = .failed := by
  exact ⟨_, rfl, by decide, by decide, by decide, by decide⟩

/-- **C73 is false of the code in this case.** A TCP connection to the selected server is
made and the server does not answer: after the last try the connection is closed in order
to go to another server, but its end restarts only a registered device.  Nothing is
pending any more, no other server was tried, and the status stays "registering". -/
theorem silent_server_false : ∃ s', run three [(two, .start), (two, .fire .register false false), (two, .session true),
      (two, .done .mRegister ⟨18, none⟩), (two, .fire .notify false false), (two, .fire .register false false),
      (two, .done .mRegister ⟨18, none⟩), (two, .fire .notify false false),
      ({ two with tcp := true }, .fire .reconnect false false), (two, .session false),
      (two, .fire .notify false false)] = .ok s' ∧
    s'.tms = [] ∧ s'.out = [] ∧ s'.cps = .registering ∧
    s'.sent.map (fun r => (r.1, r.2.1)) = [(.mRegister, [2]), (.mRegister, [2])] := by
  exact ⟨_, rfl, by decide, by decide, by decide, by decide⟩

end Verif.Cloud
