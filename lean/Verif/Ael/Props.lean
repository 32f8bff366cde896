import Verif.Ael.Model
/-! Properties of the audit event log (C39, C58). -/
namespace Verif.Ael
open Verif.Rep (Rep Val Bytes b)

/-! ### Specification -/

/-- The space a list of events takes. -/
def total : List Event → Nat
  | [] => 0
  | e :: l => e.size + total l

/-- `kept` are the newest of the events `hist` (oldest first) that fit into `max`:
no more of them would fit. -/
def Newest (max : Nat) (hist kept : List Event) : Prop :=
  kept <:+ hist ∧ total kept ≤ max ∧ ∀ t, t <:+ hist → total t ≤ max → t <:+ kept

theorem total_append (l l' : List Event) : total (l ++ l') = total l + total l' := by
  induction l with
  | nil => simp [total]
  | cons e l ih => simp only [List.cons_append, total, ih]; omega

theorem total_suffix {l l' : List Event} (h : l <:+ l') : total l ≤ total l' := by
  obtain ⟨t, rfl⟩ := h
  rw [total_append]; omega

/-! ### Eviction and adding -/

theorem evict_spec (sz max : Nat) (hm : max < 2 ^ 63) (hs : sz ≤ max) :
    ∀ (l : List Event), total l ≤ max →
    (evict sz max l (total l)).2 = total (evict sz max l (total l)).1 ∧
    (evict sz max l (total l)).1 <:+ l ∧
    sz + total (evict sz max l (total l)).1 ≤ max ∧
    ∀ t, t <:+ l → sz + total t ≤ max → t <:+ (evict sz max l (total l)).1
  | [], _ => ⟨rfl, List.suffix_rfl, by simpa [evict, total] using hs, fun t ht _ => ht⟩
  | e :: l, ht => by
    have hw : word = 2 ^ 64 := rfl
    have hte : total (e :: l) = e.size + total l := rfl
    rw [evict]
    rw [Nat.mod_eq_of_lt (by rw [hw]; omega)]
    by_cases hgt : sz + total (e :: l) > max
    · rw [if_pos hgt]
      have hsub : (total (e :: l) + word - e.size) % word = total l := by
        rw [hw, hte, show e.size + total l + 2 ^ 64 - e.size = total l + 2 ^ 64 by omega,
          Nat.add_mod_right, Nat.mod_eq_of_lt (by omega)]
      rw [hsub]
      have ⟨i1, i2, i3, i4⟩ := evict_spec sz max hm hs l (by omega)
      refine ⟨i1, i2.trans (List.suffix_cons ..), i3, fun t hts hsz => ?_⟩
      rcases List.suffix_cons_iff.1 hts with h | h
      · rw [h] at hsz; omega
      · exact i4 t h hsz
    · rw [if_neg hgt]
      exact ⟨rfl, List.suffix_rfl, by dsimp only; omega, fun t hts _ => hts⟩

/-- The events that are stored satisfy their recorded size. -/
def EvOk (abi : Abi) (e : Event) : Prop :=
  calcSize abi ⟨e.cat, e.pri, e.ts, if e.aeid = [] then none else some e.aeid,
    if e.msg = [] then none else some e.msg, e.aux⟩ ≤ e.size

/-- The log's invariant. -/
structure AInv (abi : Abi) (a : Ael) : Prop where
  max : a.maxsize ≤ 2048
  used : a.used = total a.events
  fits : total a.events ≤ a.maxsize
  evs : ∀ e ∈ a.events, EvOk abi e

theorem auxSize_keep (mem : Nat → Bool) : ∀ (i : Nat) (l : List Bytes),
    (keepAux mem i l).length ≤ l.length ∧
    ((keepAux mem i l).map fun s => s.length + 1).foldr (· + ·) 0 ≤
      (l.map fun s => s.length + 1).foldr (· + ·) 0
  | _, [] => ⟨Nat.le_refl _, Nat.le_refl _⟩
  | i, s :: l => by
    have ⟨h1, h2⟩ := auxSize_keep mem (i + 1) l
    rw [keepAux]
    split
    · simp only [List.length_cons, List.map_cons, List.foldr_cons]
      exact ⟨by omega, by omega⟩
    · simp only [List.length_cons, List.map_cons, List.foldr_cons]
      exact ⟨by omega, by omega⟩

theorem create_ok (abi : Abi) (mem : Mem) (a : Arg) (e : Event) (h : create mem a (calcSize abi a) = some e) :
    EvOk abi e ∧ e.size = calcSize abi a := by
  unfold create at h
  split at h
  · have h := (Option.some.inj h).symm
    subst h
    refine ⟨?_, rfl⟩
    unfold EvOk calcSize
    dsimp only
    have ⟨h1, h2⟩ := auxSize_keep mem.aux 0 a.aux
    have hm := Nat.mul_le_mul_right abi.ptr h1
    have ho : ∀ o : Option Bytes, optSize (if o.getD [] = [] then none else some (o.getD [])) ≤ optSize o := by
      intro o
      cases o with
      | none => simp [optSize]
      | some v =>
        simp only [Option.getD_some]
        split <;> simp [optSize]
    have h3 := ho a.aeid
    have h4 := ho a.msg
    omega
  · cases h

/-- C39. What `oc_sec_ael_add` does to the log: an event that the filters reject or
that is larger than the log is refused and nothing changes; otherwise the log
consists of the newest of the old events that leave room, and the event. -/
theorem addEvent_spec (abi : Abi) (mem : Mem) (a : Arg) (s : Ael) (hi : AInv abi s) (hmem : mem.event = true) :
    let adm := s.cat &&& a.cat ≠ 0 ∧ a.pri ≤ s.pri ∧ calcSize abi a ≤ s.maxsize
    (¬ adm → addEvent abi mem a s = (false, s)) ∧
    (adm → ∃ kept e, (addEvent abi mem a s).1 = true ∧
      (addEvent abi mem a s).2 = { s with events := kept ++ [e], used := total (kept ++ [e]) } ∧
      create mem a (calcSize abi a) = some e ∧
      Newest (s.maxsize - calcSize abi a) s.events kept) := by
  have hadm : admits s a.cat a.pri = true ↔ (s.cat &&& a.cat ≠ 0 ∧ a.pri ≤ s.pri) := by
    unfold admits
    have hpl : (¬ (s.pri < a.pri)) ↔ (a.pri ≤ s.pri) := by
      rw [UInt8.lt_iff_toNat_lt, UInt8.le_iff_toNat_le]; omega
    simp only [Bool.not_eq_true', Bool.or_eq_false_iff, decide_eq_false_iff_not, hpl]
    constructor
    · rintro ⟨h1, h2⟩; exact ⟨by simpa using h1, h2⟩
    · rintro ⟨h1, h2⟩; exact ⟨by simpa using h1, h2⟩
  have hmx := hi.max
  dsimp only
  refine ⟨fun hn => ?_, fun h => ?_⟩
  · unfold addEvent
    by_cases h1 : admits s a.cat a.pri = true
    · rw [h1]
      simp only [Bool.not_true, Bool.false_eq_true, if_false]
      have h2 : calcSize abi a > s.maxsize := by
        have := hadm.1 h1
        apply Nat.lt_of_not_le
        intro hle; exact hn ⟨this.1, this.2, hle⟩
      rw [if_pos h2]
    · have : admits s a.cat a.pri = false := by simpa using h1
      rw [this]; rfl
  · obtain ⟨h1, h2, h3⟩ := h
    have hcr : ∃ e, create mem a (calcSize abi a) = some e := by
      unfold create; rw [if_pos hmem]; exact ⟨_, rfl⟩
    obtain ⟨e, he⟩ := hcr
    have ⟨e1, e2, e3, e4⟩ := evict_spec (calcSize abi a) s.maxsize (by omega) h3 s.events hi.fits
    have hsz := (create_ok abi mem a e he).2
    refine ⟨(evict (calcSize abi a) s.maxsize s.events (total s.events)).1, e, ?_, ?_, he, e2, by omega, ?_⟩
    · unfold addEvent
      rw [hadm.2 ⟨h1, h2⟩]
      simp only [Bool.not_true, Bool.false_eq_true, if_false]
      rw [if_neg (by omega), hi.used, he]
    · unfold addEvent
      rw [hadm.2 ⟨h1, h2⟩]
      simp only [Bool.not_true, Bool.false_eq_true, if_false]
      rw [if_neg (by omega), hi.used, he]
      dsimp only
      rw [e1, total_append]
      have : total [e] = e.size := by simp [total]
      rw [this, Nat.mod_eq_of_lt (by have hw : word = 2 ^ 64 := rfl; rw [hw]; omega)]
    · intro t ht htt; exact e4 t ht (by omega)

/-- The invariant and the history are kept by adding, also when memory is short. -/
theorem addEvent_inv (abi : Abi) (mem : Mem) (a : Arg) (s : Ael) (hi : AInv abi s) :
    AInv abi (addEvent abi mem a s).2 ∧ (addEvent abi mem a s).2.maxsize = s.maxsize ∧
    (addEvent abi mem a s).2.cat = s.cat ∧ (addEvent abi mem a s).2.pri = s.pri ∧
    (addEvent abi mem a s).2.unit = s.unit ∧
    ((addEvent abi mem a s).1 = false → (addEvent abi mem a s).2.events <:+ s.events) := by
  have hmx := hi.max
  unfold addEvent
  split
  · exact ⟨hi, rfl, rfl, rfl, rfl, fun _ => List.suffix_rfl⟩
  · dsimp only
    split
    · exact ⟨hi, rfl, rfl, rfl, rfl, fun _ => List.suffix_rfl⟩
    · rename_i h3
      rw [hi.used]
      have ⟨e1, e2, e3, e4⟩ := evict_spec (calcSize abi a) s.maxsize (by omega) (by omega) s.events hi.fits
      split
      · refine ⟨⟨hi.max, e1, by dsimp only; omega, ?_⟩, rfl, rfl, rfl, rfl, fun _ => e2⟩
        intro x hx; exact hi.evs x (e2.subset hx)
      · rename_i e he
        have ⟨hok, hsz⟩ := create_ok abi mem a e he
        have : total [e] = e.size := by simp [total]
        refine ⟨⟨hi.max, ?_, ?_, ?_⟩, rfl, rfl, rfl, rfl, fun h => by cases h⟩
        · dsimp only
          rw [e1, total_append, this, Nat.mod_eq_of_lt (by have hw : word = 2 ^ 64 := rfl; rw [hw]; omega)]
        · dsimp only
          rw [total_append, this]; omega
        · intro x hx
          rcases List.mem_append.1 hx with hx | hx
          · exact hi.evs x (e2.subset hx)
          · rw [List.mem_singleton] at hx; rw [hx]; exact hok

/-! ### Decoding -/

theorem toU8_nat (c : UInt8) : toU8 c.toNat = c := by
  have h := c.toNat_lt
  unfold toU8
  have : ((c.toNat : Int) % 256).toNat = c.toNat := by omega
  rw [this]
  exact UInt8.ofNat_toNat

theorem toWord_I64 {n : Nat} (h : n < word) : toWord (toI64 n) = n := by
  have hw : word = 2 ^ 64 := rfl
  unfold toWord toI64
  rw [BitVec.toInt_eq_toNat_cond, BitVec.toNat_ofNat, hw]
  rw [hw] at h
  rw [Nat.mod_eq_of_lt h]
  split <;> omega

/-- What the first loop finds in its own encoding. -/
theorem ints_encode (s z : Ael) (h : s.maxsize < word) (hu : s.unit < 4294967296) :
    (encode s).foldl (fun s p => decodeInt true p s) z =
      { z with cat := s.cat, pri := s.pri, maxsize := s.maxsize, unit := s.unit } := by
  have k1 : b "categoryfilter" ≠ b "priorityfilter" := by decide
  unfold encode
  simp only [List.foldl_cons, List.foldl_nil]
  have e7 : ∀ z : Ael, decodeInt true (b "events",
      if s.events = [] then Val.arr else Val.objs (s.events.map encodeEvent)) z = z := by
    intro z; unfold decodeInt; dsimp only; split
    · rename_i h; split at h <;> cases h
    · rfl
  rw [e7]
  have e6 : ∀ z : Ael, decodeInt true (b "unit", .int s.unit) z = { z with unit := s.unit } := by
    intro z
    unfold decodeInt
    dsimp only
    rw [if_neg (by decide), if_neg (by decide), if_neg (by decide), if_pos ⟨rfl, rfl⟩]
    have : ((s.unit : Int) % 4294967296).toNat = s.unit := by omega
    rw [this]
  have e5 : ∀ z : Ael, decodeInt true (b "maxspace", .int (toI64 s.maxsize)) z = { z with maxsize := s.maxsize } := by
    intro z
    unfold decodeInt
    dsimp only
    rw [if_neg (by decide), if_neg (by decide), if_pos ⟨rfl, rfl⟩, toWord_I64 h]
  have e4 : ∀ z : Ael, decodeInt true (b "priorityfilter", .int s.pri.toNat) z = { z with pri := s.pri } := by
    intro z
    unfold decodeInt
    dsimp only
    rw [if_neg (by decide), if_pos rfl, toU8_nat]
  have e3 : ∀ z : Ael, decodeInt true (b "categoryfilter", .int s.cat.toNat) z = { z with cat := s.cat } := by
    intro z
    unfold decodeInt
    dsimp only
    rw [if_pos rfl, toU8_nat]
  rw [e6, e5, e4, e3]
  rfl

theorem arrays_encode (abi : Abi) (mem : Nat → Mem) (s z : Ael) :
    decodeArrays abi mem true (encode s) z = decodeEvents abi mem 0 (s.events.map encodeEvent) z := by
  unfold encode
  simp only [decodeArrays]
  by_cases h : s.events = []
  · rw [h]; simp only [if_true, List.map_nil, decodeEvents]
  · rw [if_neg h]
    simp only [and_self, if_true]
    cases decodeEvents abi mem 0 (List.map encodeEvent s.events) z with
    | ok a => rfl
    | ub => rfl

/-- The arguments a stored event is added with after a restart. -/
def argOf (e : Event) : Arg :=
  ⟨e.cat, e.pri, toWord (toI64 e.ts), if e.aeid = [] then none else some (e.aeid.takeWhile (· != 0)),
   if e.msg = [] then none else some (e.msg.takeWhile (· != 0)), e.aux.map (·.takeWhile (· != 0))⟩

theorem decodeArg_encode (e : Event) (h : e.aux.length ≤ 256) :
    decodeArg (encodeEvent e) ⟨0, 0, 0, none, none, []⟩ = .ok (argOf e) := by
  have app : ∀ (l l' : Rep) (a : Arg), decodeArg (l ++ l') a = (decodeArg l a).bind (decodeArg l') := by
    intro l
    induction l with
    | nil => intro l' a; rfl
    | cons p l ih =>
      intro l' a
      rw [List.cons_append, decodeArg, decodeArg]
      cases hp : decodeProp p a with
      | ok a' => simp only [Out.bind]; exact ih l' a'
      | ub => rfl
  have p1 : ∀ a : Arg, decodeArg [(b "category", .int e.cat.toNat), (b "priority", .int e.pri.toNat),
      (b "timestamp", .int (toI64 e.ts))] a =
      .ok { a with cat := e.cat, pri := e.pri, ts := toWord (toI64 e.ts) } := by
    intro a
    have q1 : ∀ a, decodeProp (b "category", .int e.cat.toNat) a = .ok { a with cat := e.cat } := by
      intro a; unfold decodeProp; dsimp only; rw [if_pos rfl, toU8_nat]
    have q2 : ∀ a, decodeProp (b "priority", .int e.pri.toNat) a = .ok { a with pri := e.pri } := by
      intro a; unfold decodeProp; dsimp only; rw [if_neg (by decide), if_pos rfl, toU8_nat]
    have q3 : ∀ a, decodeProp (b "timestamp", .int (toI64 e.ts)) a = .ok { a with ts := toWord (toI64 e.ts) } := by
      intro a; unfold decodeProp; dsimp only; rw [if_neg (by decide), if_neg (by decide), if_pos rfl]
    simp only [decodeArg, q1, q2, q3, Out.bind]
  have p2 : ∀ a : Arg, a.aeid = none →
      decodeArg (if e.aeid = [] then [] else [(b "aeid", .str e.aeid)]) a =
      .ok { a with aeid := if e.aeid = [] then none else some (e.aeid.takeWhile (· != 0)) } := by
    intro a ha
    by_cases h0 : e.aeid = []
    · rw [if_pos h0, if_pos h0, decodeArg]; cases a; simp only at ha; rw [ha]
    · rw [if_neg h0, if_neg h0]
      have q : decodeProp (b "aeid", .str e.aeid) a = .ok { a with aeid := some (e.aeid.takeWhile (· != 0)) } := by
        unfold decodeProp; dsimp only; rw [if_pos rfl]
      simp only [decodeArg, q, Out.bind]
  have p3 : ∀ a : Arg, a.msg = none →
      decodeArg (if e.msg = [] then [] else [(b "message", .str e.msg)]) a =
      .ok { a with msg := if e.msg = [] then none else some (e.msg.takeWhile (· != 0)) } := by
    intro a ha
    by_cases h0 : e.msg = []
    · rw [if_pos h0, if_pos h0, decodeArg]; cases a; simp only at ha; rw [ha]
    · rw [if_neg h0, if_neg h0]
      have q : decodeProp (b "message", .str e.msg) a = .ok { a with msg := some (e.msg.takeWhile (· != 0)) } := by
        unfold decodeProp; dsimp only; rw [if_neg (by decide), if_pos rfl]
      simp only [decodeArg, q, Out.bind]
  have p4 : ∀ a : Arg, a.aux = [] →
      decodeArg [(b "auxiliaryinfo", if e.aux = [] then Val.arr else Val.strs e.aux)] a =
      .ok { a with aux := e.aux.map (·.takeWhile (· != 0)) } := by
    intro a ha
    by_cases h0 : e.aux = []
    · rw [if_pos h0, h0]
      have q : decodeProp (b "auxiliaryinfo", Val.arr) a = .ok a := rfl
      simp only [decodeArg, q, Out.bind, List.map_nil]
      cases a; simp only at ha; rw [ha]
    · rw [if_neg h0]
      have q : decodeProp (b "auxiliaryinfo", .strs e.aux) a =
          .ok { a with aux := e.aux.map (·.takeWhile (· != 0)) } := by
        unfold decodeProp; dsimp only; rw [if_pos rfl, if_pos h]
      simp only [decodeArg, q, Out.bind]
  unfold encodeEvent
  rw [app, app, app, p1, Out.bind, p2 _ rfl, Out.bind, p3 _ rfl, Out.bind, p4 _ rfl]
  rfl

theorem auxSum_ge : ∀ l : List Bytes, l.length ≤ (l.map fun s => s.length + 1).foldr (· + ·) 0
  | [] => Nat.le_refl _
  | s :: l => by
    have := auxSum_ge l
    simp only [List.length_cons, List.map_cons, List.foldr_cons]; omega

theorem aux_bound (abi : Abi) (habi : 2048 < 257 * (abi.ptr + 1) + abi.event) {e : Event} (h : EvOk abi e)
    (hs : e.size ≤ 2048) : e.aux.length ≤ 256 := by
  unfold EvOk calcSize at h
  dsimp only at h
  have := auxSum_ge e.aux
  apply Nat.le_of_not_lt
  intro hgt
  have h1 : 257 * abi.ptr ≤ e.aux.length * abi.ptr := Nat.mul_le_mul_right _ (by omega)
  omega

theorem total_mem {l : List Event} {e : Event} (h : e ∈ l) : e.size ≤ total l := by
  induction l with
  | nil => cases h
  | cons x l ih =>
    rw [total]
    rcases List.mem_cons.1 h with rfl | h
    · omega
    · have := ih h; omega

theorem decodeEvents_inv (abi : Abi) (mem : Nat → Mem) : ∀ (l : List Event), (∀ e ∈ l, e.aux.length ≤ 256) →
    ∀ (k : Nat) (s : Ael), AInv abi s →
    ∃ s', decodeEvents abi mem k (l.map encodeEvent) s = .ok s' ∧ AInv abi s' ∧ s'.cat = s.cat ∧
      s'.pri = s.pri ∧ s'.maxsize = s.maxsize ∧ s'.unit = s.unit
  | [], _, _, s, hi => ⟨s, rfl, hi, rfl, rfl, rfl, rfl⟩
  | e :: l, h, k, s, hi => by
    rw [List.map_cons, decodeEvents, decodeArg_encode e (h e List.mem_cons_self), Out.bind]
    have ⟨i1, i2, i3, i4, i5, _⟩ := addEvent_inv abi (mem k) (argOf e) s hi
    obtain ⟨s', j1, j2, j3, j4, j5, j6⟩ :=
      decodeEvents_inv abi mem l (fun x hx => h x (List.mem_cons_of_mem _ hx)) (k + 1) _ i1
    exact ⟨s', j1, j2, by rw [j3, i3], by rw [j4, i4], by rw [j5, i2], by rw [j6, i5]⟩

/-- A POST changes nothing but the two filters. -/
theorem post_spec (abi : Abi) (mem : Nat → Mem) (rep : Rep) (s : Ael) :
    ∃ c p, decode abi mem false rep s = .ok { s with cat := c, pri := p } := by
  have hi : ∀ (l : Rep) (s : Ael), ∃ c p, l.foldl (fun s p => decodeInt false p s) s = { s with cat := c, pri := p } := by
    intro l
    induction l with
    | nil => intro s; exact ⟨s.cat, s.pri, rfl⟩
    | cons x l ih =>
      intro s
      rw [List.foldl_cons]
      obtain ⟨c, p, h⟩ := ih (decodeInt false x s)
      rw [h]
      unfold decodeInt
      split
      · split
        · exact ⟨c, p, rfl⟩
        · split
          · exact ⟨c, p, rfl⟩
          · rw [if_neg (by simp), if_neg (by simp)]; exact ⟨c, p, rfl⟩
      · exact ⟨c, p, rfl⟩
  have ha : ∀ (l : Rep) (s : Ael), decodeArrays abi mem false l s = .ok s := by
    intro l
    induction l with
    | nil => intro s; rfl
    | cons x l ih =>
      intro s
      rw [decodeArrays.eq_def]
      dsimp only
      split
      · rw [if_neg (by simp)]; exact ih s
      · exact ih s
  obtain ⟨c, p, h⟩ := hi rep s
  exact ⟨c, p, by rw [decode, ha, h]⟩

/-! ### Histories -/

/-- The invariant of the whole state. -/
structure Inv (abi : Abi) (s : St) : Prop where
  ael : AInv abi s.ael
  unit : s.ael.unit < 4294967296
  suffix : s.ael.events <:+ s.hist
  store : ∀ rep, s.store = some rep → ∃ a, AInv abi a ∧ a.unit < 4294967296 ∧ rep = encode a

/-- The start of the program: nothing stored. -/
def St.init : St := ⟨Ael.zero, none, []⟩

theorem init_inv (abi : Abi) : Inv abi St.init :=
  ⟨⟨by decide, rfl, by decide, fun e h => by cases h⟩, by decide, List.suffix_rfl, fun rep h => by cases h⟩

theorem dump_inv (abi : Abi) (ok : Bool) {s : St} (h : Inv abi s) : Inv abi (dump ok s) := by
  unfold dump
  split
  · exact ⟨h.ael, h.unit, h.suffix, fun rep hr => ⟨s.ael, h.ael, h.unit, (Option.some.inj hr).symm⟩⟩
  · exact h

theorem drop_last {l : List Event} {e : Event} : (l ++ [e]).drop ((l ++ [e]).length - 1) = [e] := by
  rw [List.length_append, List.length_singleton, Nat.add_sub_cancel, List.drop_left]

theorem add_shape (abi : Abi) (mem : Mem) (a : Arg) (s : Ael) (hi : AInv abi s)
    (h : (addEvent abi mem a s).1 = true) :
    ∃ kept e, (addEvent abi mem a s).2.events = kept ++ [e] ∧ kept <:+ s.events ∧
      create mem a (calcSize abi a) = some e := by
  have hmx := hi.max
  unfold addEvent at h ⊢
  split at h
  · cases h
  · rename_i h1
    rw [if_neg h1]
    dsimp only at h ⊢
    split at h
    · cases h
    · rename_i h3
      rw [if_neg h3]
      rw [hi.used]
      rw [hi.used] at h
      have ⟨e1, e2, e3, e4⟩ := evict_spec (calcSize abi a) s.maxsize (by omega) (by omega) s.events hi.fits
      split at h
      · cases h
      · rename_i e he
        exact ⟨_, e, rfl, e2, he⟩

theorem suffix_append_right {α : Type} {l l' : List α} (h : l <:+ l') (x : α) : l ++ [x] <:+ l' ++ [x] := by
  obtain ⟨t, rfl⟩ := h
  exact ⟨t, by rw [List.append_assoc]⟩

theorem step_inv (abi : Abi) (habi : 2048 < 257 * (abi.ptr + 1) + abi.event) {s : St} (h : Inv abi s) (o : Op) :
    ∃ s', step abi s o = .ok s' ∧ Inv abi s' := by
  cases o with
  | add mem a saved =>
    have ⟨i1, i2, i3, i4, i5, i6⟩ := addEvent_inv abi mem a s.ael h.ael
    simp only [step]
    by_cases hr : (addEvent abi mem a s.ael).1 = true
    · rw [if_pos hr]
      refine ⟨_, rfl, dump_inv abi saved ?_⟩
      obtain ⟨kept, e, k1, k2, k3⟩ := add_shape abi mem a s.ael h.ael hr
      refine ⟨i1, by dsimp only; rw [i5]; exact h.unit, ?_, h.store⟩
      dsimp only
      rw [k1, drop_last]
      exact suffix_append_right (k2.trans h.suffix) e
    · rw [if_neg hr]
      have hr' : (addEvent abi mem a s.ael).1 = false := by simpa using hr
      exact ⟨_, rfl, i1, by dsimp only; rw [i5]; exact h.unit, (i6 hr').trans h.suffix, h.store⟩
  | post rfnop iface rep saved =>
    simp only [step]
    split
    · exact ⟨_, rfl, h⟩
    · obtain ⟨c, p, hd⟩ := post_spec abi (fun _ => ⟨true, fun _ => true⟩) rep s.ael
      rw [hd, Out.bind]
      exact ⟨_, rfl, dump_inv abi saved
        ⟨⟨h.ael.max, h.ael.used, h.ael.fits, h.ael.evs⟩, h.unit, h.suffix, h.store⟩⟩
  | reset saved =>
    exact ⟨_, rfl, dump_inv abi saved
      ⟨(⟨by decide, rfl, by decide, fun e h => by cases h⟩ : AInv abi Ael.default),
        (by decide : Ael.default.unit < 4294967296), List.suffix_rfl, h.store⟩⟩
  | restart mem read =>
    simp only [step]
    have hz : AInv abi Ael.zero := ⟨by decide, rfl, by decide, fun e h => by cases h⟩
    cases hs : s.store with
    | none => exact ⟨_, rfl, hz, by dsimp only [Ael.zero]; omega, List.suffix_rfl, fun rep hr => by cases hr⟩
    | some rep =>
      dsimp only
      split
      · obtain ⟨a, ha, hau, rfl⟩ := h.store rep hs
        have hw : a.maxsize < word := by
          have := ha.max; have hw : word = 2 ^ 64 := rfl; rw [hw]; omega
        rw [decode, ints_encode a Ael.zero hw hau, arrays_encode]
        obtain ⟨s', j1, j2, j3, j4, j5, j6⟩ := decodeEvents_inv abi mem a.events (fun e he =>
            aux_bound abi habi (ha.evs e he) (by have := total_mem he; have := ha.fits; have := ha.max; omega)) 0
          { Ael.zero with cat := a.cat, pri := a.pri, maxsize := a.maxsize, unit := a.unit }
          ⟨ha.max, rfl, Nat.zero_le _, fun e h => by cases h⟩
        rw [j1, Out.bind]
        exact ⟨_, rfl, j2, by dsimp only at j6 ⊢; rw [j6]; exact hau, List.suffix_rfl, fun r hr => h.store r (hs.trans hr)⟩
      · exact ⟨_, rfl, hz, by dsimp only [Ael.zero]; omega, List.suffix_rfl, fun r hr => h.store r (hs.trans hr)⟩

/-- C39. For every history of events, filter updates, resets and restarts, whatever
memory and storage do: no undefined behaviour, the used space is the sum of the
sizes of the stored events and does not exceed the maximum, and the stored events
are the newest of the admitted ones, in order. (On platforms where 257 texts do not
fit into the log, that is with pointers of 8 bytes; see `aux_overflow_ub`.) -/
theorem log_bounded (abi : Abi) (habi : 2048 < 257 * (abi.ptr + 1) + abi.event) :
    ∀ (os : List Op) (s : St), Inv abi s → ∃ s', run abi s os = .ok s' ∧ Inv abi s'
  | [], s, h => ⟨s, rfl, h⟩
  | o :: os, s, h => by
    obtain ⟨s1, h1, h2⟩ := step_inv abi habi h o
    rw [run, h1, Out.bind]
    exact log_bounded abi habi os s1 h2

/-- The operation found enough memory. -/
def Op.MemOk : Op → Prop
  | .add mem _ _ => mem.event = true
  | _ => True

theorem newest_all {max : Nat} {l : List Event} (h : total l ≤ max) : Newest max l l :=
  ⟨List.suffix_rfl, h, fun _ ht _ => ht⟩

theorem suffix_concat {t l : List Event} {e : Event} (h : t <:+ l ++ [e]) :
    t = [] ∨ ∃ t0, t = t0 ++ [e] ∧ t0 <:+ l := by
  rcases List.eq_nil_or_concat t with rfl | ⟨t0, x, rfl⟩
  · exact .inl rfl
  · right
    obtain ⟨p, hp⟩ := h
    rw [List.concat_eq_append, ← List.append_assoc] at hp
    have ⟨h1, h2⟩ := List.append_inj' hp rfl
    have hx : x = e := (List.cons.inj h2).1
    subst hx
    exact ⟨t0, by rw [List.concat_eq_append], ⟨p, h1⟩⟩

/-- C39. As long as there is memory, no event is given up that would fit: the log
consists of as many of the newest admitted events as fit. -/
theorem log_newest (abi : Abi) (habi : 2048 < 257 * (abi.ptr + 1) + abi.event) :
    ∀ (os : List Op) (s : St), Inv abi s → Newest s.ael.maxsize s.hist s.ael.events → (∀ o ∈ os, o.MemOk) →
    ∃ s', run abi s os = .ok s' ∧ Newest s'.ael.maxsize s'.hist s'.ael.events
  | [], s, _, h, _ => ⟨s, rfl, h⟩
  | o :: os, s, hi, hn, hm => by
    obtain ⟨s1, h1, h2⟩ := step_inv abi habi hi o
    rw [run, h1, Out.bind]
    refine log_newest abi habi os s1 h2 ?_ (fun x hx => hm x (List.mem_cons_of_mem _ hx))
    have hd : ∀ (ok : Bool) (s : St), (dump ok s).ael = s.ael ∧ (dump ok s).hist = s.hist := by
      intro ok s; unfold dump; split <;> exact ⟨rfl, rfl⟩
    cases o with
    | add mem a saved =>
      have hmem : mem.event = true := hm _ List.mem_cons_self
      simp only [step] at h1
      obtain ⟨sp1, sp2⟩ := addEvent_spec abi mem a s.ael hi.ael hmem
      by_cases hadm : s.ael.cat &&& a.cat ≠ 0 ∧ a.pri ≤ s.ael.pri ∧ calcSize abi a ≤ s.ael.maxsize
      · obtain ⟨kept, e, k1, k2, k3, n1, n2, n3⟩ := sp2 hadm
        rw [if_pos k1] at h1
        have h1 := Out.ok.inj h1
        rw [← h1, (hd ..).1, (hd ..).2]
        dsimp only
        rw [k2]
        dsimp only
        rw [drop_last]
        have hsz := (create_ok abi mem a e k3).2
        have hte : total [e] = e.size := by simp [total]
        have hle := hadm.2.2
        refine ⟨suffix_append_right (n1.trans hi.suffix) e, by rw [total_append, hte]; omega, ?_⟩
        intro t ht htt
        rcases suffix_concat ht with rfl | ⟨t0, rfl, ht0⟩
        · exact List.nil_suffix
        · rw [total_append, hte] at htt
          exact suffix_append_right (n3 t0 (hn.2.2 t0 ht0 (by omega)) (by omega)) e
      · rw [sp1 hadm, if_neg (by simp)] at h1
        have h1 := Out.ok.inj h1
        rw [← h1]
        exact hn
    | post rfnop iface rep saved =>
      simp only [step] at h1
      split at h1
      · rw [← Out.ok.inj h1]; exact hn
      · obtain ⟨c, p, hdec⟩ := post_spec abi (fun _ => ⟨true, fun _ => true⟩) rep s.ael
        rw [hdec, Out.bind] at h1
        rw [← Out.ok.inj h1, (hd ..).1, (hd ..).2]
        exact hn
    | reset saved =>
      simp only [step] at h1
      rw [← Out.ok.inj h1, (hd ..).1, (hd ..).2]
      exact newest_all (l := []) (Nat.zero_le _)
    | restart mem read =>
      have hfit := h2.ael.fits
      have hh : s1.hist = s1.ael.events := by
        simp only [step] at h1
        split at h1
        · rw [← Out.ok.inj h1]; rfl
        · split at h1
          · rename_i rep _ _
            cases hdec : decode abi mem true rep Ael.zero with
            | ub => rw [hdec, Out.bind] at h1; cases h1
            | ok a => rw [hdec, Out.bind] at h1; rw [← Out.ok.inj h1]
          · rw [← Out.ok.inj h1]; rfl
      rw [hh]
      exact newest_all hfit

/-! ### C58: the log survives a restart -/

/-- An event as it can be made by the API: C strings, a 64-bit time. -/
def Event.Plain (e : Event) : Prop :=
  e.ts < word ∧ 0 ∉ e.aeid ∧ 0 ∉ e.msg ∧ ∀ s ∈ e.aux, 0 ∉ s

theorem takeWhile_plain {l : Bytes} (h : 0 ∉ l) : l.takeWhile (· != 0) = l := by
  induction l with
  | nil => rfl
  | cons c l ih =>
    have hc : c ≠ 0 := fun e => h (e ▸ List.mem_cons_self)
    rw [List.takeWhile_cons, if_pos (by simpa using hc), ih (fun hm => h (List.mem_cons_of_mem _ hm))]

theorem argOf_plain {e : Event} (h : e.Plain) :
    argOf e = ⟨e.cat, e.pri, e.ts, if e.aeid = [] then none else some e.aeid,
      if e.msg = [] then none else some e.msg, e.aux⟩ := by
  obtain ⟨h1, h2, h3, h4⟩ := h
  unfold argOf
  rw [toWord_I64 h1, takeWhile_plain h2, takeWhile_plain h3]
  congr 1
  have : e.aux.map (·.takeWhile (· != 0)) = e.aux.map id :=
    List.map_congr_left (fun s hs => takeWhile_plain (h4 s hs))
  rw [this, List.map_id]

theorem keepAux_all : ∀ (i : Nat) (l : List Bytes), keepAux (fun _ => true) i l = l
  | _, [] => rfl
  | i, s :: l => by rw [keepAux, if_pos rfl, keepAux_all]

/-- Everything but the size. -/
def Event.core (e : Event) : UInt8 × UInt8 × Nat × Bytes × Bytes × List Bytes :=
  (e.cat, e.pri, e.ts, e.aeid, e.msg, e.aux)

theorem decodeEvents_keeps (abi : Abi) : ∀ (l : List Event) (k : Nat) (s : Ael),
    (∀ e ∈ l, e.Plain ∧ EvOk abi e ∧ e.aux.length ≤ 256 ∧ s.cat &&& e.cat ≠ 0 ∧ e.pri ≤ s.pri) →
    AInv abi s → total s.events + total l ≤ s.maxsize →
    ∃ s', decodeEvents abi (fun _ => ⟨true, fun _ => true⟩) k (l.map encodeEvent) s = .ok s' ∧
      s'.events.map Event.core = s.events.map Event.core ++ l.map Event.core ∧ s'.cat = s.cat ∧
      s'.pri = s.pri ∧ s'.maxsize = s.maxsize ∧ s'.unit = s.unit
  | [], _, s, _, _, _ => ⟨s, rfl, by simp, rfl, rfl, rfl, rfl⟩
  | e :: l, k, s, h, hi, hfit => by
    obtain ⟨p1, p2, p3, p4, p5⟩ := h e List.mem_cons_self
    rw [List.map_cons, decodeEvents, decodeArg_encode e p3, Out.bind]
    rw [argOf_plain p1]
    have hsz := p2
    unfold EvOk at hsz
    generalize ha : (⟨e.cat, e.pri, e.ts, if e.aeid = [] then none else some e.aeid,
      if e.msg = [] then none else some e.msg, e.aux⟩ : Arg) = a at hsz ⊢
    have hac : a.cat = e.cat := by rw [← ha]
    have hap : a.pri = e.pri := by rw [← ha]
    rw [total] at hfit
    obtain ⟨kept, e', k1, k2, k3, n1, n2, n3⟩ := (addEvent_spec abi ⟨true, fun _ => true⟩ a s hi rfl).2
      ⟨by rw [hac]; exact p4, by rw [hap]; exact p5, by omega⟩
    have hk : kept = s.events := by
      have := n3 s.events List.suffix_rfl (by omega)
      exact n1.eq_of_length_le (this.length_le)
    have ⟨i1, i2, i3, i4, i5, _⟩ := addEvent_inv abi ⟨true, fun _ => true⟩ a s hi
    have hsize := (create_ok abi _ a e' k3).2
    have hcore : e'.core = e.core := by
      have ho : ∀ v : Bytes, (if v = [] then none else some v).getD [] = v := by
        intro v; split
        · rename_i h; rw [h]; rfl
        · rfl
      unfold create at k3
      rw [if_pos rfl] at k3
      rw [← Option.some.inj k3, ← ha]
      simp only [Event.core, keepAux_all, ho]
    have htot : total (addEvent abi ⟨true, fun _ => true⟩ a s).2.events = total s.events + e'.size := by
      rw [k2]; dsimp only; rw [hk, total_append]; simp [total]
    obtain ⟨s', j1, j2, j3, j4, j5, j6⟩ := decodeEvents_keeps abi l (k + 1)
      (addEvent abi ⟨true, fun _ => true⟩ a s).2
      (fun x hx => by rw [i3, i4]; exact h x (List.mem_cons_of_mem _ hx)) i1 (by rw [i2, htot]; omega)
    refine ⟨s', j1, ?_, by rw [j3, i3], by rw [j4, i4], by rw [j5, i2], by rw [j6, i5]⟩
    rw [j2, k2]
    dsimp only
    rw [hk, List.map_append, List.map_cons, List.map_cons, List.map_nil, hcore, List.append_assoc]
    rfl

/-- C58 (partial: if the stored events still pass the filters, see
`filter_drops_false`). If the last dump succeeded, a restart restores the filters
and all events in their order. -/
theorem restart_keeps_partial (abi : Abi) (habi : 2048 < 257 * (abi.ptr + 1) + abi.event) (s : St)
    (h : Inv abi s) (hst : s.store = some (encode s.ael))
    (hp : ∀ e ∈ s.ael.events, e.Plain ∧ s.ael.cat &&& e.cat ≠ 0 ∧ e.pri ≤ s.ael.pri) :
    ∃ s', step abi s (.restart (fun _ => ⟨true, fun _ => true⟩) true) = .ok s' ∧
      s'.ael.events.map Event.core = s.ael.events.map Event.core ∧ s'.ael.cat = s.ael.cat ∧
      s'.ael.pri = s.ael.pri ∧ s'.ael.maxsize = s.ael.maxsize := by
  simp only [step]
  rw [hst]
  dsimp only
  rw [if_pos trivial]
  have hw : s.ael.maxsize < word := by
    have := h.ael.max; have hw : word = 2 ^ 64 := rfl; rw [hw]; omega
  rw [decode, ints_encode s.ael Ael.zero hw h.unit, arrays_encode]
  have hb : ∀ e ∈ s.ael.events, e.aux.length ≤ 256 := fun e he =>
    aux_bound abi habi (h.ael.evs e he) (by have := total_mem he; have := h.ael.fits; have := h.ael.max; omega)
  obtain ⟨s', j1, j2, j3, j4, j5, j6⟩ := decodeEvents_keeps abi s.ael.events 0
    { Ael.zero with cat := s.ael.cat, pri := s.ael.pri, maxsize := s.ael.maxsize, unit := s.ael.unit }
    (fun e he => ⟨(hp e he).1, h.ael.evs e he, hb e he, (hp e he).2.1, (hp e he).2.2⟩)
    ⟨h.ael.max, rfl, Nat.zero_le _, fun e h => by cases h⟩
    (by have := h.ael.fits; simp only [Ael.zero, total]; omega)
  rw [j1, Out.bind]
  exact ⟨_, rfl, by rw [j2]; rfl, j3, j4, j5⟩

/-- C39. A client cannot change the log or its size, and nothing at all while the
device is in normal operation. -/
theorem post_filters_only (abi : Abi) (s s' : St) (rfnop iface : Bool) (rep : Rep) (saved : Bool)
    (h : step abi s (.post rfnop iface rep saved) = .ok s') :
    s'.ael.events = s.ael.events ∧ s'.ael.maxsize = s.ael.maxsize ∧ s'.ael.used = s.ael.used ∧
    (rfnop = true → s' = s) := by
  simp only [step] at h
  split at h
  · have h := Out.ok.inj h
    subst h
    exact ⟨rfl, rfl, rfl, fun _ => rfl⟩
  · rename_i hc
    obtain ⟨c, p, hd⟩ := post_spec abi (fun _ => ⟨true, fun _ => true⟩) rep s.ael
    rw [hd, Out.bind] at h
    have h := Out.ok.inj h
    subst h
    have hdm : ∀ (ok : Bool) (s : St), (dump ok s).ael = s.ael := by
      intro ok s; unfold dump; split <;> rfl
    rw [hdm]
    exact ⟨rfl, rfl, rfl, fun h => absurd (.inl h) hc⟩

/-! ### Examples and witnesses -/

/-- A 64-bit platform. -/
def abi64 : Abi := ⟨96, 8⟩
/-- A 32-bit platform. -/
def abi32 : Abi := ⟨52, 4⟩
/-- Enough memory. -/
def memOk : Mem := ⟨true, fun _ => true⟩
/-- An event with a text of `n` characters. -/
def exArg (n : Nat) : Arg := ⟨2, 1, 1000, some (b "ID"), some (List.replicate n 65), [b "x"]⟩
/-- Three large events and a restart; the first event is dropped. -/
def exOps : List Op :=
  [.reset true, .add memOk (exArg 600) true, .add memOk (exArg 700) true, .add memOk (exArg 800) true,
   .restart (fun _ => memOk) true]

example : 2048 < 257 * (abi64.ptr + 1) + abi64.event := by decide

/-- The sizes and the used space after the history. -/
example : ((run abi64 St.init exOps).bind fun s => .ok (s.ael.events.map (·.size), s.ael.used, s.hist.length)) =
    .ok ([810, 910], 1720, 2) := by decide +kernel

/-- The hypotheses of `restart_keeps_partial` are met by the state before the
restart. -/
example : ((run abi64 St.init (exOps.take 4)).bind fun s =>
    .ok (s.ael.events.all fun e => (s.ael.cat &&& e.cat != 0) && decide (e.pri ≤ s.ael.pri) &&
      decide (e.ts < word) && !(e.aeid.contains 0) && !(e.msg.contains 0) && e.aux.all (fun s => !(s.contains 0)))) =
    .ok true := by decide +kernel

/-- C58 is false in general: events recorded before the filter was changed are
dropped by the next restart, because they are checked against the stored filter
again (oc_ael.c:380, :412). -/
theorem filter_drops_false :
    ((run abi64 St.init [.reset true, .add memOk (exArg 3) true,
        .post false true [(b "categoryfilter", .int 1)] true]).bind fun s =>
      .ok s.ael.events.length) = .ok 1 ∧
    ((run abi64 St.init [.reset true, .add memOk (exArg 3) true,
        .post false true [(b "categoryfilter", .int 1)] true, .restart (fun _ => memOk) true]).bind fun s =>
      .ok s.ael.events.length) = .ok 0 := by
  constructor <;> decide +kernel

/-- With pointers of 4 bytes an event with more than 256 texts fits into the log;
the next restart writes past the end of an array on the stack (oc_ael.c:334,
:371). -/
theorem aux_overflow_ub :
    (run abi32 St.init [.reset true, .add memOk ⟨1, 0, 0, none, none, List.replicate 257 []⟩ true,
      .restart (fun _ => memOk) true]).bind (fun s => .ok s.ael.events.length) = .ub := by
  decide +kernel

/-- If memory is short old events are given up although the new one is not
stored. -/
theorem no_memory_false :
    ((run abi64 St.init [.reset true, .add memOk (exArg 1500) true, .add ⟨false, fun _ => true⟩ (exArg 1500) true]).bind
      fun s => .ok s.ael.events.length) = .ok 0 := by decide +kernel

/-- The used space is reported in the unit of device 0 (oc_ael.c:105), the maximum
in that of the device: 1500 of 2048 bytes are reported as 1 of 2048. -/
theorem unit_mixed_false :
    let s : Ael := { Ael.default with used := 1500 }
    maxSpace s = 2048 ∧ usedSpace 0 s = 1500 ∧ usedSpace 1 s = 1 := by decide

end Verif.Ael
