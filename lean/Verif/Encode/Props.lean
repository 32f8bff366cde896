import Verif.Encode.Full

/-!
Property C142: a message carries what was encoded for it.
-/

namespace Verif.Encode

/-- **C142.**  An application that does one thing after the other — requests with and without
payload, multicast updates, stored records, closed connections and answers to requests, where a
handler may do all of these once its answer is given — sends and stores exactly what it encoded for
each message and record, in the order of the calls, each message labelled with the encoding of its
payload, and nothing undefined happens. -/
theorem carries {c} (js : List Job) (hf : AllFit c .cbor js) :
    ∃ s, run c (js.flatMap Job.ops) init = .ok s ∧ s.out = msgs c .cbor js := by
  obtain ⟨s, e, o, _, _⟩ := jobs_ok (c := c) js (s := init)
    ⟨rfl, fun id i h => by simp [init] at h, fun u h => by simp [init] at h⟩ rfl hf
  exact ⟨s, e, by simpa [init] using o⟩

/-- The configuration of the examples: one byte for each value in CBOR, two in JSON. -/
def ex : Cfg := ⟨fun f v => match f with | .cbor => [UInt8.ofNat v] | .json => [0x4a, UInt8.ofNat v], 4, 6, 12⟩

/-- Requests of the examples. -/
def post1 : Req := ⟨.post, 1, false, 7, false⟩
def get2 : Req := ⟨.get, 2, false, 8, false⟩

/-- What left the device after a history. -/
def sent (os : List Op) : Option (List Msg) :=
  match run ex os init with
  | .ok s => some s.out
  | .ub => none

/-- A history of all kinds of jobs. -/
def day : List Job :=
  [.simple (.post post1 [1, 2, 3]), .simple (.post post1 [1, 2, 3, 4, 5, 6, 7]), .simple (.get get2),
   .serve ⟨1, true, some .json⟩ [5, 6] true [.store 3 [1, 2], .post ⟨.put, 1, true, 7, false⟩ [9], .close 1, .get get2],
   .simple (.update 9 [4]), .serve ⟨2, false, none⟩ [1] true [], .serve ⟨3, true, none⟩ [0xbf, 0xff] true [.close 2],
   .simple (.store 4 [8])]

example : AllFit ex .cbor day ∧
    msgs ex .cbor day = [
      .request .post 1 7 false .cbor (some (.bytes [1, 2, 3], .cbor)),
      .request .post 1 7 true .cbor (some (.bytes [1, 2, 3, 4, 5, 6, 7], .cbor)),
      .request .get 2 8 false .cbor none,
      .stored 3 (.bytes [0x4a, 1, 0x4a, 2]),
      .request .put 1 7 false .json (some (.bytes [0x4a, 9], .json)),
      .request .get 2 8 false .json none,
      .response 1 true (some (.bytes [0x4a, 5, 0x4a, 6], .json)),
      .update 9 (.bytes [0x4a, 4]) .json,
      .response 2 true none,
      .response 3 true none,
      .stored 4 (.bytes [8])] := by
  refine ⟨?_, by decide⟩
  simp [AllFit, day, Job.fits, Simple.fits, Job.fmt, asked, text, ex, post1, get2]

/-- **C142.**  Whatever the application is in the middle of — in preparing a request, in a handler —
a record that is stored is exactly what was encoded for it, and one that does not fit is not stored;
nothing else leaves the device. -/
theorem stored_exactly {c} (hc : c.minApp ≤ c.maxApp) (name : Nat) (vs : List Nat) (s : St) :
    ∃ s', step c (.dump name vs) s = .ok s' ∧
      s'.out = s.out ++ (if (text c s.enc.fmt vs).length ≤ c.maxApp then [.stored name (.bytes (text c s.enc.fmt vs))] else []) := by
  by_cases h : (text c s.enc.fmt vs).length ≤ c.maxApp
  · obtain ⟨s', e, o, _⟩ := dump_ok (c := c) (name := name) h
    exact ⟨s', e, by rw [if_pos h]; exact o⟩
  · obtain ⟨s', e, o⟩ := dump_full (c := c) (name := name) (vs := vs) (s := s) hc (by omega)
    exact ⟨s', e, by rw [if_neg h, List.append_nil]; exact o⟩

example : sent [.prepare post1, .encode 1, .dump 3 [1, 2], .dump 4 (List.replicate 13 1)] = some [.stored 3 (.bytes [1, 2])] := by decide

/-- **C142.**  Whatever the application was in the middle of, a request with a payload that is begun,
encoded and finished without anything in between carries exactly that payload, labelled with its
encoding, in blocks (and then confirmable) if it is longer than a block and not sent over TCP. -/
theorem posted_exactly {c} {r : Req} (hr : r.m ≠ .get) (vs : List Nat) (s : St) (hf : (text c s.enc.fmt vs).length ≤ c.maxApp) :
    ∃ s', run c ([.prepare r] ++ vs.map .encode ++ [.dispatch true]) s = .ok s' ∧
      s'.out = s.out ++ [.request r.m r.ep r.uri (r.con || (!r.tcp && decide (c.block < (text c s.enc.fmt vs).length)))
        (named s.enc.fmt) (if text c s.enc.fmt vs = [] then none else some (.bytes (text c s.enc.fmt vs), named s.enc.fmt))] := by
  obtain ⟨s', e, o, _⟩ := post_ok (c := c) (vs := vs) hr hf
  exact ⟨s', e, o⟩

example : sent [.begin_ ⟨1, true, none⟩, .encode 1, .prepare post1, .encode 2, .prepare post1, .encode 3, .dispatch true] =
    some [.request .post 1 7 false .cbor (some (.bytes [3], .cbor))] := by decide

/-- **C142.**  The functions with a timeout send nothing and change nothing when no request of their
method is in preparation, and otherwise do what the functions without one do. -/
theorem timed_exactly {c} {r : Req} {m : Method} {fits : Bool} (vs : List Nat) (s s' : St)
    (h : run c ([.prepare r] ++ vs.map .encode) s = .ok s') :
    step c (.dispatchTimed m fits) s' = (if r.m = m then step c (.dispatch fits) s' else .ok s') ∧
    (s.disp = none → step c (.dispatchTimed m fits) s = .ok s) := by
  constructor
  · simp only [List.cons_append, List.nil_append, run, step, Out.bind] at h
    rw [run_encodes] at h
    have key : ∀ (vs : List Nat) (a b : St), encodes c vs a = .ok b → b.disp = a.disp ∧ b.cbs = a.cbs := by
      intro vs
      induction vs with
      | nil => intro a b h; simp only [encodes] at h; injection h with h; rw [h]; exact ⟨rfl, rfl⟩
      | cons v vs ih =>
        intro a b h
        simp only [encodes] at h
        cases h1 : encode c v a with
        | ub => rw [h1] at h; cases h
        | ok a1 =>
          rw [h1] at h
          have h2 := ih a1 b h
          have h3 : a1.disp = a.disp ∧ a1.cbs = a.cbs := by
            unfold encode at h1
            dsimp only at h1
            repeat' split at h1
            all_goals first | (injection h1 with h1; rw [← h1]; exact ⟨rfl, rfl⟩) | cases h1
          exact ⟨h2.1.trans h3.1, h2.2.trans h3.2⟩
    obtain ⟨h1, h2⟩ := key vs _ _ h
    have hd : s'.disp = some s.ncb := by
      rw [h1]; rfl
    have hcb : (s'.cbs s.ncb).live = true ∧ (s'.cbs s.ncb).req = r := by
      rw [h2]; unfold prepare; dsimp only
      split <;> simp [newFixed, newGrow, alloc, put_same]
    simp only [step, dispatchTimed, hd, hcb.1, hcb.2, Bool.not_true, Bool.false_eq_true, if_false]
  · intro hd
    simp only [step, dispatchTimed, hd]

example : sent [.prepare post1, .encode 1, .dispatchTimed .put true, .dispatchTimed .post true, .dispatchTimed .post true] =
    some [.request .post 1 7 false .cbor (some (.bytes [1], .cbor))] := by decide

/-! ### Where the code does not keep the property -/

/-- A request whose payload is too long for the device is not refused: it is sent without any payload
and reported as sent (api/oc_client_api.c:79-133). -/
theorem too_long_false {c} {r : Req} (hr : r.m ≠ .get) (hc : c.minApp ≤ c.maxApp) (vs : List Nat) (s : St)
    (hf : c.maxApp < (text c s.enc.fmt vs).length) :
    ∃ s', run c ([.prepare r] ++ vs.map .encode ++ [.dispatch true]) s = .ok s' ∧
      s'.out = s.out ++ [.request r.m r.ep r.uri r.con (named s.enc.fmt) none] :=
  post_full hr hc hf

example : sent ([.prepare post1] ++ (List.replicate 13 1).map .encode ++ [.dispatch true]) =
    some [.request .post 1 7 false .cbor none] := by decide

/-- A GET whose answer is too long for the device and whose handler does not look at the result of the
encoder is answered with a payload of 2^32-1 bytes: a peer that asks for its blocks reads the memory
behind the answer (api/oc_server_api.c:164-169, api/oc_ri.c:1204-1205, api/oc_blockwise.c:415-431). -/
theorem long_answer_ub :
    run ex ([.begin_ ⟨1, true, none⟩] ++ (List.replicate 13 1).map .encode ++ [.send true, .finish]) init = .ub := rfl

/-- The answer to another method is given without payload, as a success. -/
theorem long_answer_false :
    ¬ ∀ (vs : List Nat) s, run ex ([.begin_ ⟨1, false, none⟩] ++ vs.map .encode ++ [.send true, .finish]) init = .ok s →
      s.out = [.response 1 true (some (.bytes (text ex .cbor vs), .cbor))] ∨ (text ex .cbor vs).length ≤ 2 := by
  intro h
  have h1 := h (List.replicate 13 1) _ rfl
  revert h1
  decide

/-- A request without payload made between `oc_init_post` and `oc_do_post` takes the place of the request
in preparation: `oc_do_post` dereferences NULL (api/oc_client_api.c:82, 178). -/
theorem get_between_ub : run ex [.prepare post1, .encode 1, .prepare get2, .dispatch true, .dispatch true] init = .ub := rfl

/-- A record stored between `oc_init_post` and `oc_do_post` (by a delayed callback, or by a setter that
stores its value) moves the encoder: the request is sent with the length of the record, and with memory
that was never written (api/oc_storage.c:196, api/oc_client_api.c:81-113). -/
theorem store_between_false :
    ¬ ∀ (n : Nat) (vs ws : List Nat), ∀ m, (∃ os, sent ([.prepare post1] ++ vs.map .encode ++ [.dump n ws, .dispatch true]) = some os ∧ m ∈ os) →
      ∀ k cf, m ≠ .request .post 1 7 false .cbor (some (.uninit k, cf)) := by
  intro h
  exact h 1 [1] [2, 3, 4] (.request .post 1 7 false .cbor (some (.uninit 3, .cbor)))
    ⟨[.stored 1 (.bytes [2, 3, 4]), .request .post 1 7 false .cbor (some (.uninit 3, .cbor))], by decide, by decide⟩ 3 .cbor rfl

/-- If the connection to the endpoint is closed between `oc_init_post` and `oc_do_post`, the request
buffer is freed but not forgotten: the next request to any endpoint, with or without payload, reads
freed memory (api/client/oc_client_cb.c:226-228, api/oc_client_api.c:172-175). -/
theorem closed_between_ub :
    run ex [.prepare post1, .encode 1, .close 1, .prepare get2, .dispatch true] init = .ub ∧
    run ex [.prepare post1, .encode 1, .close 1, .dispatch true] init = .ub := ⟨rfl, rfl⟩

/-- A request with a payload that cannot be serialised (a long path or query) frees its callback and
with it the request buffer, which is read right after (api/oc_client_api.c:150-154, 172-175). -/
theorem not_serialised_ub : run ex [.prepare post1, .encode 1, .dispatch false] init = .ub := rfl

/-- A handler that stores a record before it encodes its answer writes the answer to freed memory
(api/oc_storage.c:96-104, 228; the encoder is not set back). -/
theorem store_first_ub : run ex [.begin_ ⟨1, false, none⟩, .dump 1 [1, 2], .encode 5, .send true, .finish] init = .ub := rfl

/-- A handler that makes a request before it encodes its answer encodes the answer into the message of
that request, and answers with memory that was never written (api/oc_client_api.c:234,
api/oc_server_api.c:164-169). -/
theorem request_first_false :
    ¬ ∀ (vs : List Nat) m, (∃ os, sent ([.begin_ ⟨1, true, none⟩, .prepare get2, .dispatch true] ++ vs.map .encode ++ [.send true, .finish]) = some os ∧ m ∈ os) →
      ∀ k cf, m ≠ .response 1 true (some (.uninit k, cf)) := by
  intro h
  exact h [1, 2, 3] (.response 1 true (some (.uninit 3, .cbor)))
    ⟨[.request .get 2 8 false .cbor none, .response 1 true (some (.uninit 3, .cbor))], by decide, by decide⟩ 3 .cbor rfl

/-- A request made between `oc_init_multicast_update` and `oc_do_multicast_update` changes the packet of
the update: the update goes to the path of that request, with memory that was never written
(api/oc_client_api.c:315-353: `g_request.packet` is shared). -/
theorem update_false :
    ¬ ∀ os m, sent [.updInit 9, .encode 1, .prepare post1, .encode 2, .encode 3, .dispatch true, .updDo] = some os → m ∈ os →
      ∀ u b cf, m = .update u b cf → u = 9 ∧ b = .bytes [1] := by
  intro h
  have h1 := h [.request .post 1 7 false .cbor (some (.bytes [2, 3], .cbor)), .update 7 (.uninit 2) .cbor] (.update 7 (.uninit 2) .cbor)
    (by decide) (by decide) 7 (.uninit 2) .cbor rfl
  revert h1
  decide

/-- `oc_do_multicast_update` without an update in preparation dereferences NULL when anything was encoded
last (api/oc_client_api.c:323-326). -/
theorem update_not_begun_ub : run ex [.dump 1 [1], .updDo] init = .ub := rfl

/-- The encoding a peer asks for stays in use: after a request with Accept JSON, records are stored as
JSON, while they are read as CBOR after a restart, and this device's own requests are JSON
(api/oc_ri.c:1393, api/oc_rep.c:53-75, api/oc_rep_decode.c:28). -/
theorem sticky_format_false :
    ¬ ∀ js name vs, ∀ os, sent ((js ++ [.simple (.store name vs)] : List Job).flatMap Job.ops) = some os →
      .stored name (.bytes (text ex .cbor vs)) ∈ os := by
  intro h
  have := h [.serve ⟨1, true, some .json⟩ [5] true []] 3 [1] [.response 1 true (some (.bytes [0x4a, 5], .json)), .stored 3 (.bytes [0x4a, 1])] (by decide)
  revert this
  decide

/-- An answer to a request with an Accept that the device does not know is labelled with that format,
though encoded in the one used last (api/oc_ri.c:1393 ignores the result, api/oc_server_api.c:180-184). -/
theorem unknown_accept_false :
    ¬ ∀ rq vs m, (∃ os, sent (Job.serve rq vs true []).ops = some os ∧ m ∈ os) → ∀ p cf, m = .response 1 true (some (.bytes p, cf)) →
      (cf = .cbor ∧ p = text ex .cbor vs) ∨ (cf = .json ∧ p = text ex .json vs) := by
  intro h
  have := h ⟨1, true, some (.other 50)⟩ [1, 2, 3] (.response 1 true (some (.bytes [1, 2, 3], .other 50)))
    ⟨[.response 1 true (some (.bytes [1, 2, 3], .other 50))], by decide, by decide⟩ [1, 2, 3] (.other 50) rfl
  revert this
  decide

/-- An answer given twice by a handler (first a success, then a changed mind, or the other way round) to
a request with Accept JSON is encoded as JSON and labelled as CBOR (api/oc_server_api.c:180-184). -/
theorem twice_false :
    ¬ ∀ (vs : List Nat) m, (∃ os, sent ([.begin_ ⟨1, true, some .json⟩] ++ vs.map .encode ++ [.send false, .send true, .finish]) = some os ∧ m ∈ os) →
      ∀ p cf, m = .response 1 true (some (.bytes p, cf)) → p = text ex .json vs → cf = .json := by
  intro h
  have := h [1, 2] (.response 1 true (some (.bytes [0x4a, 1, 0x4a, 2], .cbor)))
    ⟨[.response 1 true (some (.bytes [0x4a, 1, 0x4a, 2], .cbor))], by decide, by decide⟩ [0x4a, 1, 0x4a, 2] .cbor rfl (by decide)
  revert this
  decide

end Verif.Encode
