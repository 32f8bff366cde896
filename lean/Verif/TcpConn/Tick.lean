import Verif.TcpConn.Steps

/-! What a check of the timeouts does to one attempt. -/

namespace Verif.TcpConn

open Spec

variable {M : Nat}

theorem check_fresh {x : Wait} {now t c : Nat} (h : Fresh now t x) : ∃ v, check x now t c = .valid v := by
  unfold check
  rw [if_neg (by simp [h.1])]
  dsimp only
  rw [if_pos (by simp [h.2.1, h.2.2])]
  exact ⟨_, rfl⟩

theorem check_retry {x : Wait} {now t c : Nat} (he : x.error = false) (h : x.force = true ∨ t ≤ sub64 now x.start) (hc : x.count < c) :
    check x now t c = .retry := by
  unfold check
  rw [if_neg (by simp [he])]
  dsimp only
  rw [if_neg ?_, if_neg (by omega)]
  simp only [Bool.and_eq_true, Bool.not_eq_true', decide_eq_true_eq, not_and]
  rintro h1 h2
  rcases h with h | h
  · rw [h] at h1; cases h1
  · omega

theorem check_expired {x : Wait} {now t c : Nat} (he : x.error = false) (h : x.force = true ∨ t ≤ sub64 now x.start) (hc : c ≤ x.count) :
    check x now t c = .expired := by
  unfold check
  rw [if_neg (by simp [he])]
  dsimp only
  rw [if_neg ?_, if_pos (by omega)]
  simp only [Bool.and_eq_true, Bool.not_eq_true', decide_eq_true_eq, not_and]
  rintro h1 h2
  rcases h with h | h
  · rw [h] at h1; cases h1
  · omega

/-- One attempt of the loop: the other attempts stay. -/
theorem tick_one (now : Nat) (os : Nat → Os) (ho : ∀ n, Good (os n).pick ∧ (os n).okS = true) (a : Wait) (r : List Wait) (w : World) (e : Nat) (h : Ok M w)
    (ha : a ∈ w.waiting) : ∃ w1 e1, tickLoop now os w (a :: r) e = tickLoop now os w1 r e1 ∧ Ok M w1 ∧ w1.timeout = w.timeout ∧ w1.maxCount = w.maxCount ∧
      (∀ x ∈ w.waiting, x.n ≠ a.n → x ∈ w1.waiting) ∧ (Fresh now w.timeout a → w1 = w) ∧
      (a.error = false → (a.force = true ∨ w.timeout ≤ sub64 now a.start) → a.count < w.maxCount → (os a.n).conn = .connecting →
        (∀ l, ((os a.n).pick.fd l).isSome) → ∃ fd, { a with count := a.count + 1, start := now, force := false, sock := some fd } ∈ w1.waiting) := by
  rw [tickLoop]
  cases hck : check a now w.timeout w.maxCount with
  | valid v =>
    refine ⟨w, _, rfl, h, rfl, rfl, fun x hx _ => hx, fun _ => rfl, fun h1 h2 h3 => ?_⟩
    rw [check_retry h1 h2 h3] at hck; cases hck
  | error =>
    dsimp only
    obtain ⟨w1, a1, a2, a3, _, _, _, a4, a5⟩ := freeWait_ok h (x := a) (by simp [ha]) .error (by decide)
    rw [a1, bind_ok]
    refine ⟨w1, _, rfl, a2, a5, a4, fun x hx hn => by rw [a3, List.mem_filter]; exact ⟨hx, by simpa using hn⟩, fun hf => ?_, fun h1 h2 h3 => ?_⟩
    · obtain ⟨v, hv⟩ := check_fresh (c := w.maxCount) hf; rw [hv] at hck; cases hck
    · rw [check_retry h1 h2 h3] at hck; cases hck
  | expired =>
    dsimp only
    obtain ⟨w1, a1, a2, a3, _, _, _, a4, a5⟩ := freeWait_ok h (x := a) (by simp [ha]) .timeout (by decide)
    rw [a1, bind_ok]
    refine ⟨w1, _, rfl, a2, a5, a4, fun x hx hn => by rw [a3, List.mem_filter]; exact ⟨hx, by simpa using hn⟩, fun hf => ?_, fun h1 h2 h3 => ?_⟩
    · obtain ⟨v, hv⟩ := check_fresh (c := w.maxCount) hf; rw [hv] at hck; cases hck
    · rw [check_retry h1 h2 h3] at hck; cases hck
  | retry =>
    dsimp only
    have hcnt : a.count < w.maxCount := by
      unfold check at hck
      dsimp only at hck
      split at hck
      · cases hck
      · split at hck
        · cases hck
        · split at hck
          · cases hck
          · omega
    obtain ⟨b, w1, a1, a2, a3, a4, a5⟩ := retryWait_ok h ha hcnt now (os a.n) (ho _).1 (ho _).2
    rw [a1, bind_ok]
    refine ⟨w1, _, rfl, a2, a4, a3, fun x hx hn => ?_, fun hf => ?_, fun h1 h2 h3 h4 h5 => ?_⟩
    · rcases a5 with ⟨_, a5⟩ | ⟨_, fd, a5⟩
      · rw [a5, List.mem_filter]; exact ⟨hx, by simpa using hn⟩
      · rw [a5, List.mem_map]; exact ⟨x, hx, by simp [hn]⟩
    · obtain ⟨v, hv⟩ := check_fresh (c := w.maxCount) hf; rw [hv] at hck; cases hck
    · rcases a5 with ⟨rfl, a5⟩ | ⟨_, fd, a5⟩
      · -- the result says that the connection is in progress
        exfalso
        unfold retryWait at a1
        cases hd : dropSock w a.sock with
        | ub => rw [hd] at a1; cases a1
        | ok w2 =>
          rw [hd, bind_ok] at a1
          unfold socket at a1
          dsimp only at a1
          rw [h4] at a1
          have h5' := h5 (w2.emit (.tried a.n)).socks
          cases hfd : (os a.n).pick.fd (w2.emit (.tried a.n)).socks with
          | none => rw [hfd] at h5'; cases h5'
          | some fd =>
            rw [hfd] at a1
            dsimp only [Option.map_some] at a1
            obtain ⟨c, hw, _⟩ := watch_ok (setWait (opened (w2.emit (.tried a.n)) fd) { a with count := a.count + 1, start := now, force := false, sock := some fd }) ((ho a.n).1 _ _ hfd)
            rw [hw, bind_ok] at a1
            cases a1
      · refine ⟨fd, ?_⟩
        rw [a5, List.mem_map]
        exact ⟨a, ha, by simp⟩

theorem tickLoop_keeps (now : Nat) (os : Nat → Os) (ho : ∀ n, Good (os n).pick ∧ (os n).okS = true) : ∀ (l : List Wait) (w : World) (e : Nat) (e' : Nat) (w' : World),
    Ok M w → (l.map (·.n)).Nodup → (∀ x ∈ l, x ∈ w.waiting) → tickLoop now os w l e = .ok (e', w') →
    (∀ x ∈ w.waiting, (x.n ∉ l.map (·.n) ∨ Fresh now w.timeout x) → x ∈ w'.waiting) ∧
    (∀ x ∈ l, x.error = false → (x.force = true ∨ w.timeout ≤ sub64 now x.start) → x.count < w.maxCount → (os x.n).conn = .connecting →
        (∀ l, ((os x.n).pick.fd l).isSome) → ∃ fd, { x with count := x.count + 1, start := now, force := false, sock := some fd } ∈ w'.waiting) := by
  intro l
  induction l with
  | nil =>
    intro w e e' w' h _ _ ht
    rw [tickLoop] at ht
    cases ht
    exact ⟨fun x hx _ => hx, fun x hx => by cases hx⟩
  | cons a r ih =>
    intro w e e' w' h hn hm ht
    rw [List.map_cons, List.nodup_cons] at hn
    have ha := hm a (by simp)
    obtain ⟨w1, e1, g1, g2, g3, g3', g4, g5, g6⟩ := tick_one now os ho a r w e h ha
    rw [g1] at ht
    have hr : ∀ x ∈ r, x ∈ w1.waiting := fun x hx => g4 x (hm x (by simp [hx])) fun e => hn.1 (e ▸ List.mem_map_of_mem hx)
    obtain ⟨k1, k2⟩ := ih w1 e1 e' w' g2 hn.2 hr ht
    rw [g3] at k1
    rw [g3, g3'] at k2
    refine ⟨fun x hx hor => ?_, fun x hx h1 h2 h3 h4 h5 => ?_⟩
    · by_cases hxa : x.n = a.n
      · have : x = a := nodup_eq (fun y : Wait => y.n) _ x a h.nodupW (by simp [hx]) (by simp [ha]) hxa
        subst this
        rcases hor with hor | hor
        · exact absurd (by simp) hor
        · exact k1 x (by rw [g5 hor]; exact ha) (.inr hor)
      · refine k1 x (g4 x hx hxa) (hor.imp (fun h1 h2 => h1 (by rw [List.map_cons, List.mem_cons]; exact .inr h2)) id)
    · rcases List.mem_cons.1 hx with rfl | hx
      · obtain ⟨fd, hfd⟩ := g6 h1 h2 h3 h4 h5
        exact ⟨fd, k1 _ hfd (.inl hn.1)⟩
      · exact k2 x hx h1 h2 h3 h4 h5

/-- What is told when an attempt is given up. -/
theorem freeWait_told {w w' : World} {x : Wait} {t : Told} (h : freeWait w x t = .ok w') :
    (view w'.log x.n).told = (view w.log x.n).told ++ x.cb.toList.map fun f => (f, t) := by
  unfold freeWait at h
  dsimp only at h
  rw [unrefs_eq] at h
  have : ∀ (c k : List Nat) (w2 : World), w2 = { w with waiting := w.waiting.filter fun y => y.n != x.n, freeW := w.freeW.filter fun y => y.n != x.n, log := w.log ++ unrefLog x.n x.msgs, cfds := c, socks := k } →
      Out.ok (tell w2 x.n x.cb t) = .ok w' → (view w'.log x.n).told = (view w.log x.n).told ++ x.cb.toList.map fun f => (f, t) := by
    intro c k w2 hw2 hw
    injection hw with hw
    subst hw hw2
    rw [tell_eq]
    dsimp only
    rw [List.append_assoc, views, List.foldl_append, view_unrefs, view_tell]
  cases hx : x.sock with
  | none => rw [hx, dropSock, bind_ok] at h; exact this _ _ _ rfl h
  | some fd =>
    rw [hx, dropSock, close] at h
    dsimp only at h
    split at h
    · rw [bind_ok] at h; exact this _ _ _ rfl h
    · cases h

end Verif.TcpConn
