import Verif.Discovery.Batch
import Verif.Endpoint.Props
import Verif.Uuid.Props
import Verif.Ri.DiLemmas

/-! C114: what a client makes of a discovery payload. -/

namespace Verif.Discovery

open Verif.Rep (Bytes Rep Val b)
open Verif.Endpoint (Ep Flags HasIp IsV6)

/-! ### Endpoints -/

/-- The endpoints a device listens on: one family of addresses each, and a text for IPv6
addresses as RFC 4291 has it. -/
structure EpOk (ntop : Bytes → Bytes) (e : SEp) : Prop where
  len : e.ep.bytes.length = 16
  fam : e.ep.flags.ipv6 = !e.ep.flags.ipv4
  v6 : e.ep.flags.ipv4 = false → IsV6 (ntop e.ep.bytes) e.ep.bytes

/-- The endpoint read from the text of one. -/
def readEp (e : Ep) : Ep :=
  Endpoint.epOf e.flags.tcp e.flags.secured (!e.flags.ipv4) e.port
    (if e.flags.ipv4 then e.bytes.take 4 ++ List.replicate 12 0 else e.bytes)

theorem hasIp_of {ntop : Bytes → Bytes} {e : SEp} (h : EpOk ntop e) : HasIp e.ep := by
  unfold HasIp
  cases h4 : e.ep.flags.ipv4 with
  | true => exact Or.inl rfl
  | false => exact Or.inr (by rw [h.fam, h4]; rfl)

theorem text_read (ntop : Bytes → Bytes) (dns : Option (Flags → Bytes → Option Bytes)) (e : SEp)
    (h : EpOk ntop e) :
    Endpoint.toString64 ntop e.ep = .ok (some (Endpoint.textOf ntop e.ep)) ∧
    Endpoint.parse dns (Endpoint.textOf ntop e.ep) = .ok (some (readEp e.ep, none)) := by
  have hs : Endpoint.scheme e.ep.flags = Endpoint.scheme (Endpoint.flagsOf e.ep.flags.tcp e.ep.flags.secured) := rfl
  have hport : Endpoint.PortOk (some (dec e.ep.port.toNat)) :=
    ⟨Endpoint.isNum_dec _, by rw [dec_val]; exact e.ep.port.toNat_lt,
      by have := Endpoint.length_port e.ep.port; omega⟩
  refine ⟨Endpoint.toString64_text ntop e.ep (hasIp_of h) (fun h' => (Endpoint.length_v6 (h.v6 h')).1), ?_⟩
  have hv : UInt16.ofNat (Endpoint.portVal e.ep.flags.secured (some (dec e.ep.port.toNat))) = e.ep.port := by
    simp [Endpoint.portVal, dec_val]
  unfold readEp
  cases h4 : e.ep.flags.ipv4 with
  | true =>
    have := Endpoint.parse_text_partial dns e.ep.flags.tcp e.ep.flags.secured
      (Or.inl (Endpoint.IsHost.v4 _ _ (Endpoint.isV4_quad h.len))) hport (path := []) (Or.inl rfl) (by simp)
    rw [hv, ← hs] at this
    rw [Endpoint.textOf_v4 h4]
    simpa [Endpoint.portText] using this
  | false =>
    have := Endpoint.parse_text_partial dns e.ep.flags.tcp e.ep.flags.secured
      (Or.inl (Endpoint.IsHost.v6 _ _ (h.v6 h4))) hport (path := []) (Or.inl rfl) (by simp)
    rw [hv, ← hs] at this
    rw [Endpoint.textOf_v6 h4]
    simpa [Endpoint.portText] using this

/-- The object of an endpoint. -/
def epRep (ntop : Bytes → Bytes) (lat : Nat) (e : SEp) : Rep :=
  (b "ep", Val.str (Endpoint.textOf ntop e.ep)) :: (if lat > 0 then [(b "lat", Val.int lat)] else [])

theorem epObj_ok (ntop : Bytes → Bytes) (lat : Nat) (e : SEp) (h : EpOk ntop e) :
    epObj ntop lat e = .ok (epRep ntop lat e) := by
  unfold epObj
  rw [(text_read ntop none e h).1]
  rfl

theorem outMap_ok {α β : Type} (f : α → Out β) (g : α → β) : ∀ l : List α, (∀ a ∈ l, f a = .ok (g a)) →
    outMap f l = .ok (l.map g)
  | [], _ => rfl
  | a :: l, h => by
    rw [outMap, h a (by simp), outMap_ok f g l fun x hx => h x (List.mem_cons_of_mem _ hx)]
    rfl

/-- The state after the endpoints `es`. -/
def withEps (env : CEnv) (s : St) (es : List SEp) : St :=
  { s with eps := s.eps ++ es.map (fun e => mkEp env.from' s.di (readEp e.ep)),
           cur := s.cur || !es.isEmpty, allocs := s.allocs + es.length }

theorem epArray_ok (ntop : Bytes → Bytes) (env : CEnv) (lat : Nat) (hm : ∀ n, env.mem n = true) :
    ∀ (es : List SEp) (s : St), (s.cur = true ∨ s.eps = []) →
    (∀ e ∈ es, EpOk ntop e ∧ skipEp env.from' (readEp e.ep) = false) →
    epArray env s (es.map (epRep ntop lat)) = .ok (withEps env s es)
  | [], s, _, _ => by simp [epArray, withEps]
  | e :: es, s, hs, h => by
    obtain ⟨h1, h2⟩ := h e (by simp)
    have hl : ∀ s' : St, epProps env s' (if lat > 0 then [(b "lat", Val.int lat)] else []) = .ok s' := by
      intro s'; split <;> rfl
    have he : epProps env s (epRep ntop lat e) = .ok (addEp env s (readEp e.ep)) := by
      rw [epRep, epProps]
      simp only [if_true, (text_read ntop env.dns e h1).2, Out.bind, h2, Bool.false_eq_true, if_false]
      exact hl _
    rw [List.map_cons, epArray, he]
    simp only [Out.bind]
    have hadd : addEp env s (readEp e.ep) =
        { s with eps := s.eps ++ [mkEp env.from' s.di (readEp e.ep)], cur := true, allocs := s.allocs + 1 } := by
      unfold addEp
      dsimp only
      rw [hm, if_pos rfl]
      rcases hs with hs | hs
      · rw [if_pos hs, ← hs]
      · cases hc : s.cur
        · simp [hs]
        · simp
    rw [hadd, epArray_ok ntop env lat hm es _ (Or.inl rfl) fun x hx => h x (List.mem_cons_of_mem _ hx)]
    simp only [withEps, List.map_cons, List.append_assoc, List.singleton_append, List.isEmpty_cons,
      Bool.not_false, Bool.or_true, List.length_cons, Bool.true_or]
    congr 2
    omega

/-! ### Interfaces -/

/-- The number of an interface's bit. -/
def bitOf : Ri.Iface → Nat
  | .baseline => 1 | .ll => 2 | .b => 3 | .r => 4 | .rw => 5 | .a => 6 | .s => 7 | .create => 8
  | .w => 9 | .startup => 10 | .revert => 11 | .etag => 12

theorem bit_twoPow (i : Ri.Iface) : i.bit = BitVec.twoPow 32 (bitOf i) := by cases i <;> decide

theorem and_bit (m : BitVec 32) (i : Ri.Iface) :
    m &&& i.bit = if (m &&& i.bit != 0) = true then i.bit else 0 := by
  rw [bit_twoPow]
  have h := BitVec.and_twoPow m (bitOf i)
  cases hb : m.getLsbD (bitOf i) with
  | true =>
    rw [hb, if_pos rfl] at h
    rw [h]
    have : (BitVec.twoPow 32 (bitOf i) != 0) = true := by cases i <;> decide
    rw [if_pos this]
  | false =>
    rw [hb] at h
    simp only [Bool.false_eq_true, if_false] at h
    have h' : m &&& BitVec.twoPow 32 (bitOf i) = 0 := h
    rw [h']; rfl

theorem mask_fold (m : BitVec 32) : ∀ (l : List Ri.Iface) (a : BitVec 32),
    (((l.filter fun i => m &&& i.bit != 0).map fun i => i.name).foldl (fun x n => x ||| Ri.ifaceMask n) a) =
      a ||| (m &&& l.foldl (fun x i => x ||| i.bit) 0)
  | [], a => by simp
  | i :: l, a => by
    have hacc : ∀ (l : List Ri.Iface) (y : BitVec 32),
        l.foldl (fun x i => x ||| i.bit) y = y ||| l.foldl (fun x i => x ||| i.bit) 0 := by
      intro l
      induction l with
      | nil => intro y; simp
      | cons j l ih => intro y; rw [List.foldl_cons, List.foldl_cons, ih, ih (0 ||| j.bit)]
                       simp [BitVec.or_assoc]
    have hz : (0 : BitVec 32) ||| i.bit = i.bit := by simp
    rw [List.foldl_cons, hacc l (0 ||| i.bit), hz, BitVec.and_or_distrib_left, List.filter_cons]
    have hb := and_bit m i
    cases hc : (m &&& i.bit != 0) with
    | true =>
      rw [hc, if_pos rfl] at hb
      rw [if_pos rfl, List.map_cons, List.foldl_cons, mask_fold m l, Ri.ifaceMask_name, hb, BitVec.or_assoc]
    | false =>
      rw [hc] at hb
      simp only [Bool.false_eq_true, if_false] at hb
      simp only [Bool.false_eq_true, if_false]
      rw [mask_fold m l, hb]
      simp

theorem ifaceNames_mask (m : BitVec 32) :
    (ifaceNames m).foldl (fun x n => x ||| Ri.ifaceMask n) 0 = m &&& publicIfaces := by
  unfold ifaceNames
  rw [mask_fold]
  have : ifaceOrder.foldl (fun x i => x ||| i.bit) 0 = publicIfaces := by decide
  rw [this]; simp

theorem ifaceNames_nil (m : BitVec 32) (h : m &&& publicIfaces ≠ 0) : ifaceNames m ≠ [] := by
  intro e
  have := ifaceNames_mask m
  rw [e] at this
  exact h this.symm

/-! ### A link -/

theorem linkProps_append (env : CEnv) : ∀ (l l' : Rep) (s : St),
    linkProps env s (l ++ l') = (linkProps env s l).bind fun s => linkProps env s l'
  | [], _, _ => rfl
  | (n, v) :: l, l', s => by
    have ih := linkProps_append env l l'
    cases v <;> simp only [List.cons_append, linkProps, ih]
    · cases stringProp s n _ <;> simp [Out.bind]
    · cases epArray env { s with cur := false } _ <;> simp [Out.bind]

theorem tags_ignored (env : CEnv) : ∀ (t : List Tag) (s : St), linkProps env s (t.map Tag.val) = .ok s
  | [], _ => rfl
  | t :: l, s => by
    have n1 : b "tag-locn" ≠ b "anchor" ∧ b "tag-locn" ≠ b "href" := by decide +kernel
    have n2 : b "tag-pos-desc" ≠ b "anchor" ∧ b "tag-pos-desc" ≠ b "href" := by decide +kernel
    have n3 : b "tag-func-desc" ≠ b "anchor" ∧ b "tag-func-desc" ≠ b "href" := by decide +kernel
    cases t <;>
      simp [Tag.val, linkProps, stringProp, n1, n2, n3, Out.bind, tags_ignored env l]

theorem anchor_read (w : World) (dev : Nat) (h : (w.di dev).length = 16) :
    ¬ (anchor w dev).length < 6 ∧ ∃ n, Uuid.ofStr ((anchor w dev).drop 6) = .ok (n, some (w.di dev)) := by
  have hl : (b "ocf://").length = 6 := by decide
  have hd : (anchor w dev).drop 6 = uuidText (w.di dev) := by
    unfold anchor
    rw [List.drop_append, hl]
    have : (b "ocf://").drop 6 = [] := by decide
    rw [this]; rfl
  refine ⟨by unfold anchor; rw [List.length_append, hl]; omega, ?_⟩
  rw [hd]
  have hs : ∃ s, Uuid.toStr (w.di dev) 37 = some s := by
    by_cases hw : w.di dev = 42 :: List.replicate 15 0
    · rw [hw]; exact ⟨[42], by decide⟩
    · obtain ⟨s, hs, _⟩ := (Uuid.toStr_format (w.di dev) h hw 37).1 (by omega)
      exact ⟨s, hs⟩
  obtain ⟨s, hs⟩ := hs
  obtain ⟨n, hn, _⟩ := Uuid.ofStr_toStr (w.di dev) h 37 s hs
  refine ⟨some n, ?_⟩
  unfold uuidText
  rw [hs]
  exact hn

/-- What the link of a resource leaves in the variables. -/
def after (w : World) (q : Req) (o : SEp) (s : St) (r : Res) : St :=
  { uri := some r.uri, anchor := some (anchor w q.device),
    types := some (r.types.filter fun t => !t.isEmpty), ifaces := r.ifaces &&& publicIfaces,
    di := some (w.di q.device), bm := r.policy.toNat,
    eps := (endpoints w q r).map fun e => mkEp o (some (w.di q.device)) (readEp e.ep),
    cur := !(endpoints w q r).isEmpty, allocs := s.allocs + (endpoints w q r).length, lost := s.lost }

/-- The resource has a type and a public interface, as resources made by the application
and the core resources have. -/
structure ResOk (r : Res) : Prop where
  types : (r.types.filter fun t => !t.isEmpty) ≠ []
  ifaces : r.ifaces &&& publicIfaces ≠ 0

theorem link_read (ntop : Bytes → Bytes) (w : World) (q : Req) (env : CEnv) (r : Res) (s : St)
    (hm : ∀ n, env.mem n = true) (hdi : (w.di q.device).length = 16) (hr : ResOk r)
    (he : ∀ e ∈ endpoints w q r, EpOk ntop e ∧ skipEp env.from' (readEp e.ep) = false) :
    linkProps env (fresh s) (linkRep w q r (some ((endpoints w q r).map (epRep ntop w.latency)))) =
      .ok (after w q env.from' s r) := by
  obtain ⟨ha, n, hu⟩ := anchor_read w q.device hdi
  have hn := ifaceNames_nil _ hr.ifaces
  unfold linkRep
  rw [linkProps_append, linkProps_append, linkProps_append]
  -- rel
  have h1 : ∃ m, linkProps env (fresh s)
      (if isKind w .res r.device r then [(b "rel", Val.strs [b "self"])] else []) =
      .ok { fresh s with ifaces := m } := by
    split
    · exact ⟨_, rfl⟩
    · exact ⟨s.ifaces, rfl⟩
  obtain ⟨m, h1⟩ := h1
  rw [h1]
  simp only [Out.bind]
  -- anchor, href, rt, if, p
  have k1 : b "anchor" ≠ b "href" := by decide +kernel
  have k2 : b "href" ≠ b "anchor" := by decide +kernel
  have k3 : b "if" ≠ b "rt" := by decide +kernel
  have e1 : strsVal (r.types.filter fun t => !t.isEmpty) = .strs (r.types.filter fun t => !t.isEmpty) := by
    unfold strsVal
    rw [if_neg (by simpa [List.isEmpty_iff] using hr.types)]
  have e2 : strsVal (ifaceNames r.ifaces) = .strs (ifaceNames r.ifaces) := by
    unfold strsVal
    rw [if_neg (by simpa [List.isEmpty_iff] using hn)]
  rw [e1, e2]
  have h2 : linkProps env { fresh s with ifaces := m }
      [(b "anchor", .str (anchor w q.device)), (b "href", .str r.uri),
        (b "rt", .strs (r.types.filter fun t => !t.isEmpty)), (b "if", .strs (ifaceNames r.ifaces)),
        (b "p", .obj [(b "bm", .int r.policy.toNat)])] =
      .ok { fresh s with uri := some r.uri, anchor := some (anchor w q.device),
                         types := some (r.types.filter fun t => !t.isEmpty),
                         ifaces := r.ifaces &&& publicIfaces, di := some (w.di q.device),
                         bm := r.policy.toNat } := by
    simp only [linkProps, stringProp, if_true, if_neg ha, hu, Out.bind, if_neg k2, stringsProp, if_neg k3,
      objProp, ifaceNames_mask]
    rfl
  rw [h2]
  simp only [Out.bind]
  -- eps
  cases hes : endpoints w q r with
  | nil =>
    simp only [List.map_nil, objsVal, List.isEmpty_nil, if_true, linkProps, Out.bind]
    rw [tags_ignored]
    simp [after, hes, fresh]
  | cons e es =>
    have : objsVal ((e :: es).map (epRep ntop w.latency)) = .objs ((e :: es).map (epRep ntop w.latency)) := rfl
    rw [this]
    simp only [linkProps]
    rw [epArray_ok ntop env w.latency hm (e :: es) _ (Or.inr rfl) (by rw [← hes]; exact he)]
    simp only [Out.bind]
    rw [tags_ignored]
    simp [after, hes, withEps, fresh]

/-! ### The payload -/

theorem nodes_links (env : CEnv) (stop : Report → Bool) (w : World) (q : Req) (ntop : Bytes → Bytes)
    (hm : ∀ n, env.mem n = true) (hdi : (w.di q.device).length = 16) (hstop : ∀ r, stop r = false) :
    ∀ (rs : List Res) (s : St), (∀ r ∈ rs, ResOk r) →
    (∀ r ∈ rs, ∀ e ∈ endpoints w q r, EpOk ntop e ∧ skipEp env.from' (readEp e.ep) = false) →
    ∃ calls s', links env stop s (nodes (rs.map fun r =>
        linkRep w q r (some ((endpoints w q r).map (epRep ntop w.latency))))) = .ok (calls, false, s') ∧
      calls.map Report.seen =
        (rs.filter fun r => !(endpoints w q r).isEmpty).map (expected w q env.from') ∧
      s'.lost = s.lost
  | [], s, _, _ => ⟨[], s, rfl, rfl, rfl⟩
  | r :: rs, s, hr, he => by
    have hl := link_read ntop w q env r s hm hdi (hr r (by simp)) (he r (by simp))
    obtain ⟨calls, s', h1, h2, h3⟩ := nodes_links env stop w q ntop hm hdi hstop rs
      (after w q env.from' s r) (fun x hx => hr x (List.mem_cons_of_mem _ hx))
      (fun x hx => he x (List.mem_cons_of_mem _ hx))
    have hstep : links env stop s (nodes ((r :: rs).map fun r =>
        linkRep w q r (some ((endpoints w q r).map (epRep ntop w.latency))))) =
        (match report (after w q env.from' s r) (!(nodes (rs.map fun r =>
          linkRep w q r (some ((endpoints w q r).map (epRep ntop w.latency))))).isEmpty) with
        | none => .ok (calls, false, s')
        | some x => .ok (x :: calls, false, s')) := by
      rw [List.map_cons, nodes, List.map_cons, links, asObject]
      simp only [Out.bind, hl]
      have h1' : links env stop (after w q env.from' s r) (List.map (fun o => ([], Val.obj o))
          (rs.map fun r => linkRep w q r (some ((endpoints w q r).map (epRep ntop w.latency))))) =
          .ok (calls, false, s') := h1
      unfold nodes
      cases report (after w q env.from' s r) _ with
      | none => exact h1'
      | some x => simp only [hstop, Bool.false_eq_true, if_false]; rw [h1']
    rw [hstep]
    have hrep : ∀ more, report (after w q env.from' s r) more =
        if (endpoints w q r).isEmpty then none
        else some ⟨anchor w q.device, r.uri, r.types.filter (fun t => !t.isEmpty), r.ifaces &&& publicIfaces,
          (endpoints w q r).map fun e => mkEp env.from' (some (w.di q.device)) (readEp e.ep), r.policy.toNat, more⟩ := by
      intro more
      simp [report, after]
    rw [hrep]
    cases hes : (endpoints w q r).isEmpty with
    | true =>
      rw [if_pos rfl]
      refine ⟨calls, s', rfl, ?_, h3⟩
      rw [h2, List.filter_cons, hes]; rfl
    | false =>
      refine ⟨_, s', rfl, ?_, h3⟩
      rw [List.map_cons, h2, List.filter_cons, hes]
      simp only [Bool.not_false, if_true, List.map_cons, List.cons.injEq, and_true]
      simp only [Report.seen, expected, anchor, Seen.mk.injEq, true_and, and_true]
      apply List.map_congr_left
      intro e hee
      have hok := (he r (by simp) e hee).1
      simp only [mkEp, readEp, expectedEp, Endpoint.epOf, Bool.not_not]

/-- The directory as it is sent in answer to a request for the links. -/
def sentLinks (ntop : Bytes → Bytes) (w : World) (q : Req) : Out (List Rep) :=
  outMap (link ntop w q true) (listed w q)

theorem sent_ok (ntop : Bytes → Bytes) (w : World) (q : Req) (h : ∀ e ∈ w.eps q.device, EpOk ntop e) :
    sentLinks ntop w q = .ok ((listed w q).map fun r =>
      linkRep w q r (some ((endpoints w q r).map (epRep ntop w.latency)))) := by
  unfold sentLinks
  apply outMap_ok
  intro r _
  unfold link
  rw [if_pos rfl, outMap_ok (epObj ntop w.latency) (epRep ntop w.latency)]
  · rfl
  · intro e he
    exact epObj_ok ntop w.latency e (h e (List.mem_filter.1 he).1)

theorem not_skipped (ntop : Bytes → Bytes) (w : World) (q : Req) (o : SEp) (r : Res) (e : SEp)
    (h4 : o.ep.flags.ipv4 = q.origin.ep.flags.ipv4) (h6 : o.ep.flags.ipv6 = q.origin.ep.flags.ipv6)
    (hok : EpOk ntop e) (he : e ∈ endpoints w q r) : skipEp o (readEp e.ep) = false := by
  obtain ⟨_, ⟨_, h1, h2⟩, _⟩ := (endpoints_iff w q r e).1 he
  have hf := hok.fam
  unfold skipEp readEp Endpoint.epOf
  dsimp only
  rw [h4, h6]
  cases ho4 : q.origin.ep.flags.ipv4 <;> cases ho6 : q.origin.ep.flags.ipv6 <;>
    cases he4 : e.ep.flags.ipv4 <;> simp_all

theorem findLinks_none (d : Rep) : ∀ l : Rep, (∀ p ∈ l, p.1 ≠ b "links" ∨ p.2.ty ≠ .objs) → findLinks d l = d
  | [], _ => rfl
  | (n, v) :: l, h => by
    have h0 := h (n, v) (by simp)
    have ih := findLinks_none d l fun p hp => h p (List.mem_cons_of_mem _ hp)
    cases v <;> simp only [findLinks]
    all_goals first
      | exact ih
      | (have hn : n ≠ b "links" := by
           rcases h0 with h0 | h0
           · exact h0
           · exact absurd rfl h0
         rw [if_neg hn]; exact ih)

theorem linkRep_noLinks (w : World) (q : Req) (r : Res) (eps : Option (List Rep)) :
    ∀ p ∈ linkRep w q r eps, p.1 ≠ b "links" ∨ p.2.ty ≠ .objs := by
  intro p hp
  unfold linkRep at hp
  simp only [List.mem_append] at hp
  have hstr : ∀ l, (strsVal l).ty ≠ .objs := by
    intro l; unfold strsVal; split <;> simp [Rep.Val.ty]
  have hne : b "eps" ≠ b "links" := by decide +kernel
  rcases hp with ((hp | hp) | hp) | hp
  · split at hp
    · right; rw [List.mem_singleton.1 hp]; simp [Rep.Val.ty]
    · cases hp
  · simp only [List.mem_cons, List.not_mem_nil, or_false] at hp
    rcases hp with rfl | rfl | rfl | rfl | rfl
    · right; simp [Rep.Val.ty]
    · right; simp [Rep.Val.ty]
    · right; exact hstr _
    · right; exact hstr _
    · right; simp [Rep.Val.ty]
  · split at hp
    · left; rw [List.mem_singleton.1 hp]; exact hne
    · cases hp
  · right
    obtain ⟨t, _, rfl⟩ := List.mem_map.1 hp
    cases t <;> simp [Tag.val, Rep.Val.ty]

theorem linkRep_ne (w : World) (q : Req) (r : Res) (eps : Option (List Rep)) : linkRep w q r eps ≠ [] := by
  unfold linkRep; simp

theorem links_view (env : CEnv) (stop : Report → Bool) (w : World) (q : Req) (f : Res → Option (List Rep))
    (rs : List Res) : process env stop (.array (rs.map fun r => linkRep w q r (f r))) =
      links env stop {} (nodes (rs.map fun r => linkRep w q r (f r))) := by
  unfold process
  cases rs with
  | nil => rfl
  | cons r rs =>
    simp only [List.map_cons, nodes, searched, asObject, Out.bind]
    rw [if_neg (by simpa [List.isEmpty_iff] using linkRep_ne w q r (f r)),
      findLinks_none _ _ (linkRep_noLinks w q r (f r))]

theorem baseline_view (env : CEnv) (stop : Report → Bool) (props : Rep) (ls : List Rep)
    (hp : ∀ p ∈ props, p.2.ty ≠ .objs) :
    process env stop (.array [props ++ [(b "links", .objs ls)]]) = links env stop {} (nodes ls) := by
  unfold process
  simp only [nodes, List.map_cons, List.map_nil, searched, asObject, Out.bind]
  rw [if_neg (by simp)]
  have : ∀ (l : Rep) (d : Rep), (∀ p ∈ l, p.2.ty ≠ .objs) →
      findLinks d (l ++ [(b "links", .objs ls)]) = nodes ls := by
    intro l
    induction l with
    | nil => intro d _; simp [findLinks]
    | cons p l ih =>
      intro d h
      obtain ⟨n, v⟩ := p
      have h0 := h (n, v) (by simp)
      have ih' := ih d fun p hp => h p (List.mem_cons_of_mem _ hp)
      cases v <;> simp only [List.cons_append, findLinks]
      all_goals first | exact ih' | exact absurd rfl h0
  rw [this props _ hp]
  rfl

/-- C114: a client that gets the directory of a device, as links or over the baseline
interface, calls its handler once for every resource published that has an endpoint, in
order, with the device's identity, the path, types, public interfaces, policy and endpoints
of that resource; and no endpoint is left allocated. For devices whose endpoints have texts,
resources with a type and a public interface, a client that sees the device over the same
family of addresses, has memory and does not stop. -/
theorem client_learns_directory (ntop : Bytes → Bytes) (w : World) (q : Req) (env : CEnv)
    (stop : Report → Bool) (props : Rep)
    (heps : ∀ e ∈ w.eps q.device, EpOk ntop e) (hres : ∀ r ∈ listed w q, ResOk r)
    (hdi : (w.di q.device).length = 16)
    (h4 : env.from'.ep.flags.ipv4 = q.origin.ep.flags.ipv4)
    (h6 : env.from'.ep.flags.ipv6 = q.origin.ep.flags.ipv6)
    (hm : ∀ n, env.mem n = true) (hstop : ∀ r, stop r = false)
    (hp : ∀ p ∈ props, p.2.ty ≠ .objs) :
    ∃ ls, sentLinks ntop w q = .ok ls ∧
      (∃ calls s, process env stop (.array ls) = .ok (calls, false, s) ∧ s.lost = 0 ∧
        calls.map Report.seen =
          ((listed w q).filter fun r => !(endpoints w q r).isEmpty).map (expected w q env.from')) ∧
      (ls ≠ [] → process env stop (.array [props ++ [(b "links", .objs ls)]]) = process env stop (.array ls)) := by
  refine ⟨_, sent_ok ntop w q heps, ?_, ?_⟩
  · rw [links_view env stop w q (fun r => some ((endpoints w q r).map (epRep ntop w.latency)))]
    obtain ⟨calls, s, h1, h2, h3⟩ := nodes_links env stop w q ntop hm hdi hstop (listed w q) {} hres
      (fun r _ e he => by
        have hok := heps e (List.mem_filter.1 he).1
        exact ⟨hok, not_skipped ntop w q env.from' r e h4 h6 hok he⟩)
    exact ⟨calls, s, h1, h3, h2⟩
  · intro _
    rw [baseline_view env stop props _ hp,
      links_view env stop w q (fun r => some ((endpoints w q r).map (epRep ntop w.latency)))]

/-- C114: for every payload: a handler that stops the discovery is called with what it would
have been called with otherwise, up to the call that stops, and not again. -/
theorem stop_prefix (env : CEnv) (stop : Report → Bool) (p : Payload) (calls : List Report) (x : Bool) (s : St)
    (h : process env (fun _ => false) p = .ok (calls, x, s)) :
    ∃ y s', process env stop p = .ok (upTo stop calls, y, s') ∧ y = calls.any stop := by
  have key : ∀ (l : Rep) (s0 : St) (calls : List Report) (x : Bool) (s : St),
      links env (fun _ => false) s0 l = .ok (calls, x, s) →
      ∃ s', links env stop s0 l = .ok (upTo stop calls, calls.any stop, s') := by
    intro l
    induction l with
    | nil =>
      intro s0 calls x s h
      simp only [links, Out.ok.injEq, Prod.mk.injEq] at h
      obtain ⟨rfl, _, _⟩ := h
      exact ⟨s0, rfl⟩
    | cons p l ih =>
      intro s0 calls x s h
      obtain ⟨n, v⟩ := p
      simp only [links] at h ⊢
      cases ho : asObject v with
      | ub => rw [ho] at h; cases h
      | ok o =>
        rw [ho] at h
        simp only [Out.bind] at h ⊢
        cases hlp : linkProps env (fresh s0) o with
        | ub => rw [hlp] at h; cases h
        | ok s1 =>
          rw [hlp] at h
          simp only at h ⊢
          cases hrp : report s1 (!l.isEmpty) with
          | none =>
            rw [hrp] at h
            exact ih s1 calls x s h
          | some r =>
            rw [hrp] at h
            simp only [Bool.false_eq_true, if_false] at h ⊢
            cases hrest : links env (fun _ => false) s1 l with
            | ub => rw [hrest] at h; cases h
            | ok t =>
              rw [hrest] at h
              obtain ⟨c, x', s''⟩ := t
              simp only [Out.ok.injEq, Prod.mk.injEq] at h
              obtain ⟨rfl, _, _⟩ := h
              cases hs : stop r with
              | true => exact ⟨s1, by simp [upTo, hs]⟩
              | false =>
                obtain ⟨s', h'⟩ := ih s1 c x' s'' hrest
                exact ⟨s', by simp [h', upTo, hs]⟩
  cases p with
  | bad =>
    simp only [process, Out.ok.injEq, Prod.mk.injEq] at h
    obtain ⟨rfl, _, _⟩ := h
    exact ⟨false, {}, rfl, rfl⟩
  | map m =>
    simp only [process] at h ⊢
    cases hs : searched m with
    | ub => rw [hs] at h; cases h
    | ok o =>
      rw [hs] at h
      obtain ⟨s', h'⟩ := key _ _ _ _ _ h
      exact ⟨_, s', h', rfl⟩
  | array m =>
    simp only [process] at h ⊢
    cases hs : searched (nodes m) with
    | ub => rw [hs] at h; cases h
    | ok o =>
      rw [hs] at h
      obtain ⟨s', h'⟩ := key _ _ _ _ _ h
      exact ⟨_, s', h', rfl⟩

/-! ### Every payload -/

theorem addEp_bm (env : CEnv) (s : St) (e : Endpoint.Ep) : (addEp env s e).bm = s.bm := by
  simp only [addEp]; split <;> split <;> rfl

theorem epProps_bm (env : CEnv) (l : Rep) : ∀ s s', epProps env s l = .ok s' → s'.bm = s.bm := by
  induction l with
  | nil => intro s s' h; simp [epProps] at h; rw [h]
  | cons x l ih =>
    intro s s' h
    obtain ⟨name, v⟩ := x
    cases v <;> simp only [epProps] at h <;> try exact ih _ _ h
    split at h
    · next t _ =>
      cases hp : Endpoint.parse env.dns t with
      | ub => rw [hp] at h; cases h
      | ok r =>
        rw [hp] at h
        simp only [Out.bind] at h
        cases r with
        | none => exact ih _ _ h
        | some r =>
          obtain ⟨e, u⟩ := r
          simp only at h
          split at h
          · cases h; rfl
          · rw [ih _ _ h, addEp_bm]
    · exact ih _ _ h

theorem epArray_bm (env : CEnv) (l : List Rep) : ∀ s s', epArray env s l = .ok s' → s'.bm = s.bm := by
  induction l with
  | nil => intro s s' h; simp [epArray] at h; rw [h]
  | cons o l ih =>
    intro s s' h
    simp only [epArray] at h
    cases hp : epProps env s o with
    | ub => rw [hp] at h; cases h
    | ok s1 =>
      rw [hp] at h
      rw [ih _ _ h, epProps_bm env o _ _ hp]

theorem linkProps_bm (env : CEnv) (l : Rep) : ∀ s s', (∀ x ∈ l, x.1 ≠ b "p") →
    linkProps env s l = .ok s' → s'.bm = s.bm := by
  induction l with
  | nil => intro s s' _ h; simp [linkProps] at h; rw [h]
  | cons x l ih =>
    intro s s' hn h
    obtain ⟨name, v⟩ := x
    have hn' : ∀ x ∈ l, x.1 ≠ b "p" := fun x hx => hn x (by simp [hx])
    have h0 : name ≠ b "p" := hn (name, v) (by simp)
    cases v <;> simp only [linkProps] at h <;> try exact ih _ _ hn' h
    · next t =>
      cases hp : stringProp s name t with
      | ub => rw [hp] at h; cases h
      | ok s1 =>
        rw [hp] at h
        rw [ih _ _ hn' h]
        simp only [stringProp] at hp
        split at hp
        · split at hp
          · cases hp
          · cases hu : Uuid.ofStr (t.drop 6) with
            | ub => rw [hu] at hp; cases hp
            | ok r => rw [hu] at hp; cases hp; rfl
        · split at hp <;> cases hp <;> rfl
    · next o =>
      rw [ih _ _ hn' h]
      cases o with
      | nil => rfl
      | cons y o => simp [objProp, h0]
    · next a =>
      rw [ih _ _ hn' h]
      simp only [stringsProp]; split <;> rfl
    · next a =>
      cases hp : epArray env { s with cur := false } a with
      | ub => rw [hp] at h; cases h
      | ok s1 =>
        rw [hp] at h
        rw [ih _ _ hn' h, epArray_bm env a _ _ hp]

/-- A link that says nothing about its policy is reported without one, whatever
the links before it said. -/
theorem missing_policy (env : CEnv) (s s' : St) (o : Rep) (more : Bool) (r : Report)
    (hn : ∀ x ∈ o, x.1 ≠ b "p") (h : linkProps env (fresh s) o = .ok s') (hr : report s' more = some r) :
    r.bm = 0 := by
  have hb : s'.bm = 0 := linkProps_bm env o _ _ hn h
  simp only [report] at hr
  split at hr
  · split at hr
    · cases hr
    · cases hr; exact hb
  · cases hr

/-- The anchor of a link is the text of an OCF URI in ASCII. -/
def GoodLink (o : Rep) : Prop :=
  ∀ t, (b "anchor", Val.str t) ∈ o → 6 ≤ t.length ∧ ∀ c ∈ t, c < 128

theorem ofStr_safe (s : Bytes) (h : ∀ c ∈ s, c < 128) : ∃ r, Uuid.ofStr s = .ok r := by
  by_cases hw : s = [42]
  · exact ⟨_, by rw [hw]; rfl⟩
  · unfold Uuid.ofStr
    rw [if_neg hw]
    have key := Uuid.parseLoop_count (s.take Uuid.textMax) [] 1 0
      (fun c hc => h c (List.mem_of_mem_take hc)) (by omega) (by omega) rfl
    have : ∃ r, Uuid.parseLoop (s.take Uuid.textMax) [] 1 0 = .ok r := by
      split at key
      · exact ⟨_, key.choose_spec.1⟩
      · exact ⟨_, key⟩
    obtain ⟨r, hr⟩ := this
    rw [hr]
    cases r with
    | none => exact ⟨_, rfl⟩
    | some acc =>
      simp only [Out.ok_bind]
      by_cases hl : acc.length ≠ Uuid.idSize
      · exact ⟨(none, some (acc ++ List.replicate (Uuid.idSize - acc.length) 0)), by rw [if_pos hl]; rfl⟩
      · exact ⟨(some Uuid.idSize, some (acc ++ List.replicate (Uuid.idSize - acc.length) 0)), by rw [if_neg hl]; rfl⟩

theorem epProps_safe (env : CEnv) : ∀ (l : Rep) (s : St), ∃ s', epProps env s l = .ok s'
  | [], s => ⟨s, rfl⟩
  | (n, v) :: l, s => by
    have ih := epProps_safe env l
    cases v <;> simp only [epProps] <;> first | exact ih s | skip
    split
    · obtain ⟨r, hr⟩ := Endpoint.parse_safe env.dns ‹Bytes›
      rw [hr]
      simp only [Out.bind]
      cases r with
      | none => exact ih s
      | some e =>
        dsimp only
        split
        · exact ⟨s, rfl⟩
        · exact ih _
    · exact ih s

theorem epArray_safe (env : CEnv) : ∀ (l : List Rep) (s : St), ∃ s', epArray env s l = .ok s'
  | [], s => ⟨s, rfl⟩
  | o :: l, s => by
    obtain ⟨s', h⟩ := epProps_safe env o s
    rw [epArray, h]
    exact epArray_safe env l s'

theorem linkProps_safe (env : CEnv) : ∀ (l : Rep) (s : St), GoodLink l → ∃ s', linkProps env s l = .ok s'
  | [], s, _ => ⟨s, rfl⟩
  | (n, v) :: l, s, h => by
    have hl : GoodLink l := fun t ht => h t (List.mem_cons_of_mem _ ht)
    have ih := fun s => linkProps_safe env l s hl
    cases v <;> simp only [linkProps] <;> first | exact ih _ | skip
    · rename_i t
      have : ∃ s', stringProp s n t = .ok s' := by
        unfold stringProp
        split
        · rename_i hn
          obtain ⟨h1, h2⟩ := h t (by rw [hn]; simp)
          rw [if_neg (by omega)]
          obtain ⟨r, hr⟩ := ofStr_safe (t.drop 6) fun c hc => h2 c (List.mem_of_mem_drop hc)
          rw [hr]
          exact ⟨_, rfl⟩
        · split <;> exact ⟨_, rfl⟩
      obtain ⟨s', h'⟩ := this
      rw [h']
      exact ih s'
    · rename_i a
      obtain ⟨s', h'⟩ := epArray_safe env a { s with cur := false }
      rw [h']
      exact ih s'

theorem links_safe (env : CEnv) (stop : Report → Bool) : ∀ (l : List Rep) (s : St), (∀ o ∈ l, GoodLink o) →
    ∃ r, links env stop s (nodes l) = .ok r
  | [], s, _ => ⟨_, rfl⟩
  | o :: l, s, h => by
    obtain ⟨s', h'⟩ := linkProps_safe env o (fresh s) (h o (by simp))
    have ih := links_safe env stop l s' fun x hx => h x (List.mem_cons_of_mem _ hx)
    unfold nodes at ih ⊢
    simp only [List.map_cons, links, asObject, Out.bind, h']
    split
    · exact ih
    · split
      · exact ⟨_, rfl⟩
      · obtain ⟨r, hr⟩ := ih
        rw [hr]
        exact ⟨_, rfl⟩

theorem findLinks_mem : ∀ (l : Rep) (d : Rep), findLinks d l = d ∨
    ∃ a, (b "links", Val.objs a) ∈ l ∧ findLinks d l = nodes a
  | [], _ => Or.inl rfl
  | (n, v) :: l, d => by
    have push : ∀ {x : Rep}, (∃ a, (b "links", Val.objs a) ∈ l ∧ x = nodes a) →
        ∃ a, (b "links", Val.objs a) ∈ (n, v) :: l ∧ x = nodes a :=
      fun ⟨a, h1, h2⟩ => ⟨a, List.mem_cons_of_mem _ h1, h2⟩
    have ih := findLinks_mem l
    cases v <;> simp only [findLinks] <;> first | exact (ih d).imp_right push | skip
    split
    · rename_i a hn
      rcases ih (nodes a) with h | h
      · exact Or.inr ⟨a, by rw [hn]; simp, h⟩
      · exact Or.inr (push h)
    · exact (ih d).imp_right push

theorem searched_ok (o : Rep) (l : List Rep) :
    searched (nodes (o :: l)) = .ok (if o.isEmpty then nodes (o :: l) else o) := rfl

/-- C114: an array of objects, whoever sent it, is read without undefined behaviour as long
as the anchors of its links (those of the array and those of the property "links" of its
first element) are ASCII texts of at least 6 bytes; `short_anchor_ub` and `map_payload_ub`
show what happens otherwise. -/
theorem array_payload_safe_partial (env : CEnv) (stop : Report → Bool) (l : List Rep)
    (h : ∀ o ∈ l, GoodLink o)
    (h' : ∀ o ∈ l.head?, ∀ a, (b "links", Val.objs a) ∈ o → ∀ x ∈ a, GoodLink x) :
    ∃ r, process env stop (.array l) = .ok r := by
  unfold process
  cases l with
  | nil => exact ⟨_, rfl⟩
  | cons o l =>
    simp only [searched_ok, Out.bind]
    split
    · have : findLinks (nodes (o :: l)) (nodes (o :: l)) = nodes (o :: l) := by
        apply findLinks_none
        intro p hp
        obtain ⟨x, _, rfl⟩ := List.mem_map.1 hp
        right; simp [Rep.Val.ty]
      rw [this]
      exact links_safe env stop _ _ h
    · rcases findLinks_mem o (nodes (o :: l)) with e | ⟨a, ha, e⟩
      · rw [e]; exact links_safe env stop _ _ h
      · rw [e]; exact links_safe env stop _ _ (h' o (by simp) a ha)

/-! ### Examples and counterexamples -/

/-- A client with memory that got its answer from `192.168.0.1:5683`. -/
def exEnv : CEnv := ⟨none, fun _ => true, ⟨{ flags := { ipv4 := true }, port := 5683, bytes := [192, 168, 0, 1] ++ List.replicate 12 0 }, 2⟩⟩

/-- An answer with anchor, path, types, interfaces and one endpoint. -/
def exLink (path : String) : Rep :=
  [(b "anchor", .str (b "ocf://" ++ b "01010101-0101-0101-0101-010101010101")), (b "href", .str (b path)),
   (b "rt", .strs [b "oic.r.light"]), (b "if", .strs [b "oic.if.rw"]),
   (b "p", .obj [(b "bm", .int 3)]),
   (b "eps", .objs [[(b "ep", .str (b "coap://192.168.0.1:5683"))]])]

/-- The hypotheses of `client_learns_directory` for the example of C112. -/
example : (∀ e ∈ exWorld.eps (exReq []).device, EpOk (fun _ => [58, 58]) e) ∧
    (∀ r ∈ listed exWorld (exReq []), ResOk r) ∧ (exWorld.di (exReq []).device).length = 16 ∧
    exEnv.from'.ep.flags.ipv4 = (exReq []).origin.ep.flags.ipv4 ∧
    exEnv.from'.ep.flags.ipv6 = (exReq []).origin.ep.flags.ipv6 ∧ (listed exWorld (exReq [])).length = 5 := by
  refine ⟨?_, ?_, rfl, rfl, rfl, by decide +kernel⟩
  · intro e he
    have he' : e ∈ exWorld.eps 0 := he
    simp only [exWorld, List.mem_cons, List.not_mem_nil, or_false] at he'
    rcases he' with rfl | rfl | rfl
    · exact ⟨rfl, rfl, fun h => by cases h⟩
    · exact ⟨rfl, rfl, fun h => by cases h⟩
    · exact ⟨rfl, rfl, fun _ => Endpoint.IsV6.short [] [] (by simp) (by simp) (by simp)⟩
  · intro r hr
    have : ∀ x ∈ listed exWorld (exReq []), (x.types.filter fun t => !t.isEmpty) ≠ [] ∧
        x.ifaces &&& publicIfaces ≠ 0 := by decide +kernel
    exact ⟨(this r hr).1, (this r hr).2⟩

/-- The calls of the handler for two links, all of them and with a handler that stops. -/
example : (match process exEnv (fun _ => false) (.array [exLink "/a", exLink "/b"]) with
    | .ok (c, x, s) => some (c.map (fun r => (r.uri, r.more)), x, s.lost)
    | .ub => none) = some ([(b "/a", true), (b "/b", false)], false, 0) := by decide +kernel

example : (match process exEnv (fun _ => true) (.array [exLink "/a", exLink "/b"]) with
    | .ok (c, x, _) => some (c.map (fun r => (r.uri, r.more)), x)
    | .ub => none) = some ([(b "/a", true)], true) := by decide +kernel

/-- The hypotheses of `array_payload_safe_partial`. -/
example : GoodLink (exLink "/a") := by
  intro t ht
  simp only [exLink, List.mem_cons, Prod.mk.injEq, Val.str.injEq, List.not_mem_nil, or_false,
    reduceCtorEq, and_false] at ht
  rcases ht with ⟨_, rfl⟩ | ⟨h, _⟩
  · exact ⟨by decide +kernel, by decide +kernel⟩
  · exact absurd h (by decide +kernel)

/-- C114: an answer that is a map with a number, as `{"a": 1}`, makes the client take the
number for a pointer (oc_discovery.c:1372 reads `value.object` without looking at the type).
Any host that answers a discovery can send it. -/
theorem map_payload_ub : process exEnv (fun _ => false) (.map [(b "a", .int 1)]) = .ub := by decide +kernel

/-- C114: so does a link with an anchor of less than 6 bytes: `oc_string(*anchor) + 6` points
beyond the text (oc_discovery.c:1407). -/
theorem short_anchor_ub : process exEnv (fun _ => false) (.array [[(b "anchor", .str (b "a"))]]) = .ub := by
  decide +kernel

/-- C114: a link without anchor, types and interfaces is reported with those of the link
before it: only `di`, `bm` and the endpoints are reset for every link
(oc_discovery.c:1348-1354, 1396-1398). -/
theorem stale_link_false : ∃ c s, process exEnv (fun _ => false) (.array [exLink "/a",
      [(b "href", .str (b "/b")), (b "eps", .objs [[(b "ep", .str (b "coap://192.168.0.1:5683"))]])]]) =
        .ok (c, false, s) ∧
    (c.map fun r => (r.uri, r.types, r.ifaces)) =
      [(b "/a", [b "oic.r.light"], Ri.ifaceMask (b "oic.if.rw")),
       (b "/b", [b "oic.r.light"], Ri.ifaceMask (b "oic.if.rw"))] :=
  ⟨_, _, rfl, by decide +kernel⟩

/-- C114: an array of strings that is neither "rt" nor "if" replaces the interfaces: with
"rel" after "if" the resource has none (oc_discovery.c:1413-1426). -/
theorem rel_after_if_false : ∃ c s, process exEnv (fun _ => false)
      (.array [exLink "/a" ++ [(b "rel", .strs [b "self"])]]) = .ok (c, false, s) ∧
    c.map (fun r => (r.uri, r.ifaces)) = [(b "/a", 0)] :=
  ⟨_, _, rfl, by decide +kernel⟩

/-- C114: with the endpoints before the anchor no device identity is stored in the endpoints:
they get what the local variable happens to hold (oc_discovery.c:1396, 1462). -/
theorem eps_before_anchor_false : ∃ c s, process exEnv (fun _ => false)
      (.array [(exLink "/a").reverse]) = .ok (c, false, s) ∧
    c.map (fun r => (r.uri, r.eps.map (·.di))) = [(b "/a", [none])] :=
  ⟨_, _, rfl, by decide +kernel⟩

/-- C114: a property "links" of the first link replaces the whole directory
(oc_discovery.c:1372-1392). -/
theorem links_property_false : ∃ c s, process exEnv (fun _ => false)
      (.array [exLink "/a" ++ [(b "links", .objs [exLink "/x"])], exLink "/b"]) = .ok (c, false, s) ∧
    c.map (fun r => r.uri) = [b "/x"] :=
  ⟨_, _, rfl, by decide +kernel⟩

/-- C114: the endpoints of a link with two arrays of objects, of any names, leak: the first
list is dropped when the second starts (oc_discovery.c:1427-1430, 1451-1457). -/
theorem two_arrays_leak_false : ∃ c s, process exEnv (fun _ => false)
      (.array [exLink "/a" ++ [(b "x", .objs [[(b "ep", .str (b "coap://192.168.0.1:5683"))]])]]) =
        .ok (c, false, s) ∧ s.lost = 1 :=
  ⟨_, _, rfl, by decide +kernel⟩

/-- C114: the last call of the handler may say that more are to come: the link after it has
no endpoint the client can use, and no call is made for it (oc_discovery.c:1499-1504). -/
theorem more_to_come_false : ∃ c s, process exEnv (fun _ => false)
      (.array [exLink "/a", [(b "href", .str (b "/b"))]]) = .ok (c, false, s) ∧
    c.map (fun r => (r.uri, r.more)) = [(b "/a", true)] :=
  ⟨_, _, rfl, by decide +kernel⟩

/-- `missing_policy` is met by a link without a policy after one with the policy 3. -/
example : (match linkProps ⟨none, fun _ => true, ⟨{ flags := { ipv4 := true } }, 0⟩⟩
    (fresh { bm := 3, anchor := some (b "a"), types := some [] })
    [(b "href", .str (b "/x")), (b "eps", .objs [[(b "ep", .str (b "coap://192.168.0.2:5683"))]])] with
    | .ok s' => (report s' false).map (·.bm)
    | .ub => none) = some 0 := by decide +kernel

end Verif.Discovery
