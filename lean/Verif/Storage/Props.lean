import Verif.Storage.Lemmas
/-! Properties of the persistent storage (C40, C41, C42, C57). -/
namespace Verif.Storage
open Spec

/-! ### C42: storage names -/

/-- C42. Different names or device indices are stored under different tags, for
all names that are not truncated. -/
theorem tag_unique {k k' : Key} (h : Fits k) (h' : Fits k') (he : tagOf k.1 k.2 = tagOf k'.1 k'.2) :
    k = k' := by
  rw [tagOf_fits h, tagOf_fits h'] at he
  exact tag_inj (Option.some.inj (Out.ok.inj he))

/-- C42. `oc_storage_gen_svr_tag` writes the name, `_`, the device index and a
terminator, and nothing else, whatever the size and content of the buffer, if the
name fits. -/
theorem genTag_spec (k : Key) (mem : Bytes) (hf : (tag k).length < min mem.length 32) (hne : k.1 ≠ []) :
    ∃ mem', genTag k.1 k.2 mem = .ok (some (tag k).length, mem') ∧ mem'.length = mem.length ∧
      mem'.take ((tag k).length + 1) = tag k ++ [0] ∧
      mem'.drop ((tag k).length + 1) = mem.drop ((tag k).length + 1) := by
  have hn : k.1.length ≠ 0 := fun e => hne (List.eq_nil_of_length_eq_zero e)
  have htl : (tag k).length = k.1.length + ((dec k.2).length + 1) := by
    rw [tag, List.length_append, List.length_cons]
  have ht : tagMax = 32 := rfl
  obtain ⟨mem', h1, h2, t, h3, h4, h5⟩ := genTag_ok k.1 k.2 mem (by rw [ht]; omega)
  rw [ht, List.take_of_length_le (by omega)] at h1 h3
  have e : t = tag k := h3
  rw [e] at h4 h5
  exact ⟨mem', by rw [h1, htl, Nat.add_assoc], h2, h4, h5⟩

/-- C42. `oc_storage_gen_svr_tag` never writes outside its buffer, for every name,
device index and buffer. -/
theorem genTag_no_ub (name : Bytes) (d : Nat) (mem : Bytes) :
    ∃ r mem', genTag name d mem = .ok (r, mem') ∧ mem'.length = mem.length ∧
      ∀ n, r = some n → n < mem.length ∧ n < 32 := by
  have ht : tagMax = 32 := rfl
  by_cases h : (dec d).length + 3 ≤ min mem.length tagMax
  · obtain ⟨mem', h1, h2, _⟩ := genTag_ok name d mem h
    refine ⟨_, mem', h1, h2, ?_⟩
    intro n hn
    have hn' := Option.some.inj hn
    rw [List.length_take] at hn'
    omega
  · exact ⟨none, mem, genTag_small name d mem (by omega), rfl, fun n h => by cases h⟩

/-- The device indices of a 64-bit platform always fit. -/
theorem index_fits {d : Nat} (h : d < 2 ^ 64) : (dec d).length ≤ 20 :=
  dec_length (k := 19) (by omega)

example : Fits ([99, 114, 101, 100], 12) ∧ Fits ([99, 114, 101, 100, 95, 49], 2) ∧
    tagOf [99, 114, 101, 100] 12 = .ok (some [99, 114, 101, 100, 95, 49, 50]) := by
  refine ⟨⟨by decide, by decide, by decide⟩, ⟨by decide, by decide, by decide⟩, by decide +kernel⟩

/-- Longer names are cut off without an error: two names with the same first 29
characters share one file (api/oc_storage.c:63-69). -/
theorem tag_truncated_false :
    let a := List.replicate 29 97 ++ [98]
    let c := List.replicate 29 97 ++ [99]
    a ≠ c ∧ ∃ t, tagOf a 0 = .ok (some t) ∧ tagOf c 0 = .ok (some t) := by
  refine ⟨by decide, ?_⟩
  refine ⟨List.replicate 29 97 ++ [95, 48], by decide +kernel, by decide +kernel⟩

/-! ### C41: the directory -/

/-- C41 (partial: not for paths whose last component is a single character, see
`single_char_false`). A path with room for one more character is accepted, and
data is kept in the directory it names, with or without trailing slashes. -/
theorem config_dir_partial (st : Store) (p t : Bytes) (hs : st.path.length = 64) (h0 : 0 ∉ p)
    (hne : p ≠ []) (hl : p.length < 64) (htl : t.length < 64) (hd : Dir p t) (hsc : ¬ SingleChar p) :
    ∃ st', config st (some p) = .ok (0, st') ∧ StoreOk st' t := by
  obtain ⟨q, k, hp, hlast, ht⟩ := hd
  have htl' : q.length + 1 < 64 := by rw [ht] at htl; simpa using htl
  have hq0 : 0 ∉ q := fun h => h0 (by rw [hp]; exact List.mem_append_left _ h)
  have hpl : p.length ≠ 0 := fun e => hne (List.eq_nil_of_length_eq_zero e)
  have hconf : config st (some p) = install st p (trim p p.length) := by
    cases p with
    | nil => exact absurd rfl hne
    | cons c p =>
      have hps : pathSize = 64 := rfl
      simp only [config]
      rw [hps, Nat.min_eq_left (by omega), if_neg (by omega)]
  rw [hconf, ht]
  cases k with
  | zero =>
    have hpq : p = q := by rw [hp]; simp
    subst hpq
    rw [trim_plain p hne hlast hsc]
    exact install_plain st p hs h0 hne hlast htl'
  | succ k =>
    have hlen : p.length = q.length + (k + 1) := by rw [hp]; simp
    rw [hlen]
    have htr := trim_slashes q (k + 1) hlast k (by omega)
    rw [← hp] at htr
    rw [htr]
    refine install_slash st p q hs hq0 ?_ htl'
    rw [hp, List.replicate_succ, show q ++ 47 :: List.replicate k 47 = q ++ [47] ++ List.replicate k 47 by simp,
      List.take_append_of_le_length (by simp)]
    exact List.take_of_length_le (by simp)

/-- Every path names a directory. -/
theorem dir_exists (p : Bytes) : ∃ t, Dir p t := by
  suffices h : ∀ r : Bytes, ∃ q k, r.reverse = q ++ List.replicate k 47 ∧ q.getLast? ≠ some 47 by
    obtain ⟨q, k, h1, h2⟩ := h p.reverse
    rw [List.reverse_reverse] at h1
    exact ⟨q ++ [47], q, k, h1, h2, rfl⟩
  intro r
  induction r with
  | nil => exact ⟨[], 0, rfl, by simp⟩
  | cons c r ih =>
    by_cases hc : c = 47
    · obtain ⟨q, k, h1, h2⟩ := ih
      refine ⟨q, k + 1, ?_, h2⟩
      rw [List.reverse_cons, h1, hc, List.append_assoc, List.replicate_succ']
    · refine ⟨(c :: r).reverse, 0, by simp, ?_⟩
      rw [List.reverse_cons, List.getLast?_concat]
      intro e; exact hc (Option.some.inj e)

/-- A path names one directory. -/
theorem dir_unique {p t t' : Bytes} (h : Dir p t) (h' : Dir p t') : t = t' := by
  obtain ⟨q, k, h1, h2, h3⟩ := h
  obtain ⟨q', k', h1', h2', h3'⟩ := h'
  have aux : ∀ (q q' : Bytes) (k k' : Nat), q ++ List.replicate k (47 : UInt8) = q' ++ List.replicate k' 47 →
      q'.getLast? ≠ some 47 → k' ≤ k → q = q' := by
    intro q q' k k' he hl hk
    have e : List.replicate k (47 : UInt8) = List.replicate (k - k') 47 ++ List.replicate k' 47 := by
      rw [List.replicate_append_replicate]; congr 1; omega
    rw [e, ← List.append_assoc] at he
    have he := List.append_cancel_right he
    cases hm : k - k' with
    | zero => rw [hm] at he; simpa using he
    | succ n =>
      rw [hm, List.replicate_succ', ← List.append_assoc] at he
      exfalso; apply hl; rw [← he, List.getLast?_concat]
  rw [h3, h3']
  congr 1
  rw [h1] at h1'
  rcases Nat.le_total k' k with h | h
  · exact aux q q' k k' h1' h2' h
  · exact (aux q' q k' k h1'.symm h2 h).symm

/-- C41. A path whose last component is a single character configures the
directory above it instead: the last component is dropped
(port/linux/storage.c:57 looks at the character before the last). -/
theorem config_single (st : Store) (q t : Bytes) (c : UInt8) (hs : st.path.length = 64)
    (h0 : 0 ∉ q) (hl : q.length < 62) (hd : Dir q t) :
    ∃ st', config st (some (q ++ [47, c])) = .ok (0, st') ∧ StoreOk st' t := by
  obtain ⟨q', k, hp, hlast, ht⟩ := hd
  have hps : pathSize = 64 := rfl
  have hlen : (q ++ [47, c]).length = q.length + 2 := by simp
  have hconf : config st (some (q ++ [47, c])) =
      install st (q ++ [47, c]) (trim (q ++ [47, c]) (q ++ [47, c]).length) := by
    cases hq : q ++ [47, c] with
    | nil => simp at hq
    | cons a l =>
      rw [hq] at hlen
      simp only [config]
      rw [hps, Nat.min_eq_left (by omega), if_neg (by omega)]
  have hql : q.length = q'.length + k := by rw [hp]; simp
  have htk : (q ++ [47, c]).take (q.length + 1) = q' ++ List.replicate (k + 1) 47 := by
    rw [show q ++ [47, c] = q ++ [47] ++ [c] by simp, List.take_append_of_le_length (by simp),
      List.take_of_length_le (by simp), hp, List.append_assoc, List.replicate_succ']
  have htr : trim (q ++ [47, c]) (q.length + 1) = q'.length + 1 := by
    rw [← trim_take, htk, hql, Nat.add_assoc]
    exact trim_slashes q' (k + 1) hlast k (by omega)
  rw [hconf, trim_single, htr, ht]
  refine install_slash st _ q' hs (fun h => h0 (by rw [hp]; exact List.mem_append_left _ h)) ?_ (by omega)
  have : (q ++ [47, c]).take (q'.length + 1) = ((q ++ [47, c]).take (q.length + 1)).take (q'.length + 1) := by
    rw [List.take_take, Nat.min_eq_left (by omega)]
  rw [this, htk, List.replicate_succ, show q' ++ 47 :: List.replicate k 47 = q' ++ [47] ++ List.replicate k 47 by simp,
    List.take_append_of_le_length (by simp), List.take_of_length_le (by simp)]

/-- C41. After a successful configuration `oc_storage_path` returns the text of
the directory, if the buffer has room for it. -/
theorem path_spec {st : Store} {t : Bytes} (h : StoreOk st t) (ht : t ≠ []) (size : Nat) :
    getPath st size = .ok (if t.length + 1 ≤ size then some t else none) := by
  have htl : t.length ≠ 0 := fun e => ht (List.eq_nil_of_length_eq_zero e)
  have hsz := h.size
  have hsm := h.small
  unfold getPath
  rw [h.len, if_neg htl]
  by_cases hs : t.length + 1 ≤ size
  · rw [if_neg (by omega), if_pos hs, sliceChk, if_pos (by omega), Out.bind, slice, List.drop_zero, h.text]
  · rw [if_pos (by omega), if_neg hs]

theorem trim_le (s : Bytes) : ∀ n, trim s n ≤ n
  | 0 => Nat.le_refl _
  | 1 => Nat.le_refl _
  | n + 2 => by
    rw [trim]; split
    · have := trim_le s (n + 1); omega
    · exact Nat.le_refl _

theorem trim_pos (s : Bytes) : ∀ n, 1 ≤ n → 1 ≤ trim s n
  | 1, _ => Nat.le_refl _
  | n + 2, _ => by
    rw [trim]; split
    · exact trim_pos s (n + 1) (by omega)
    · omega

/-- C41. `oc_storage_config` never leaves its buffers, for every path and state. -/
theorem config_no_ub (st : Store) (hs : st.path.length = 64) (p : Option Bytes) :
    ∃ r st', config st p = .ok (r, st') ∧ st'.path.length = 64 := by
  have hps : pathSize = 64 := rfl
  match p with
  | none => exact ⟨_, _, rfl, hs⟩
  | some [] => exact ⟨_, _, rfl, hs⟩
  | some (c :: p) =>
    simp only [config]
    by_cases hn : min (c :: p).length pathSize ≥ pathSize
    · rw [if_pos hn]; exact ⟨_, _, rfl, hs⟩
    rw [if_neg hn]
    generalize hsr : c :: p = s at hn ⊢
    have hsl : s.length ≥ 1 := by rw [← hsr]; simp
    have h1 := trim_le s (min s.length pathSize)
    have h2 := trim_pos s (min s.length pathSize) (by omega)
    generalize trim s (min s.length pathSize) = m at h1 h2
    unfold install
    rw [if_neg (by omega)]
    have htl : (s.take m).length = m := by rw [List.length_take]; omega
    have hw1 : 0 + (s.take m).length ≤ st.path.length := by omega
    rw [writeChk_ok hw1, Out.bind]
    have hl1 := length_writeAt st.path 0 (s.take m) hw1
    have hg : ∃ x, Out.get (writeAt st.path 0 (s.take m)) (m - 1) = .ok x := by
      rw [Out.get, List.getElem?_eq_getElem (by omega)]; exact ⟨_, rfl⟩
    obtain ⟨x, hx⟩ := hg
    rw [hx, Out.bind]
    split
    · split
      · refine ⟨_, _, rfl, ?_⟩
        show (writeAt _ 0 [0]).length = 64
        rw [length_writeAt _ _ _ (by simp; omega), hl1, hs]
      · have hw2 : m + [(47 : UInt8)].length ≤ (writeAt st.path 0 (s.take m)).length := by
          rw [hl1, List.length_singleton]; omega
        rw [writeChk_ok hw2, Out.bind]
        have hl2 := length_writeAt _ m [(47 : UInt8)] hw2
        have hw3 : m + 1 + [(0 : UInt8)].length ≤ (writeAt (writeAt st.path 0 (s.take m)) m [47]).length := by
          rw [hl2, hl1, List.length_singleton]; omega
        rw [writeChk_ok hw3, Out.bind]
        exact ⟨_, _, rfl, by rw [length_writeAt _ _ _ hw3, hl2, hl1, hs]⟩
    · have hw2 : m + [(0 : UInt8)].length ≤ (writeAt st.path 0 (s.take m)).length := by
        rw [hl1, List.length_singleton]; omega
      rw [writeChk_ok hw2, Out.bind]
      exact ⟨_, _, rfl, by rw [length_writeAt _ _ _ hw2, hl1, hs]⟩

/-- "/var/lib//" and "/var/lib" name the same directory. -/
example : Dir [47, 118, 47, 108, 105, 47, 47] [47, 118, 47, 108, 105, 47] ∧
    ¬ SingleChar [47, 118, 47, 108, 105, 47, 47] ∧
    (∃ st, config Store.init (some [47, 118, 47, 108, 105, 47, 47]) = .ok (0, st) ∧
      getPath st 64 = .ok (some [47, 118, 47, 108, 105, 47])) := by
  refine ⟨⟨[47, 118, 47, 108, 105], 2, rfl, by decide, rfl⟩, ?_, ?_⟩
  · rintro ⟨q, c, h, hc⟩
    have : [47, 118, 47, 108, 105, 47, (47 : UInt8)].getLast? = (q ++ [47, c]).getLast? := by rw [h]
    simp at this
    exact hc this.symm
  · exact ⟨_, rfl, by decide +kernel⟩

/-- C41 fails for a path whose last component is one character: "/d/1" and "/d/2"
both configure the directory "/d/", so two programs share their files. -/
theorem single_char_false :
    ∃ st, config Store.init (some [47, 100, 47, 49]) = .ok (0, st) ∧
      config Store.init (some [47, 100, 47, 50]) = .ok (0, st) ∧
      getPath st 64 = .ok (some [47, 100, 47]) ∧
      Dir [47, 100, 47, 49] [47, 100, 47, 49, 47] := by
  exact ⟨_, rfl, by decide +kernel, by decide +kernel, [47, 100, 47, 49], 0, rfl, by decide, rfl⟩

/-! ### C40: crashes, C57: the storage as a map -/

/-- The `errno` values of failing calls are positive (C11 §7.5). -/
def WriteEnv.Ok (e : WriteEnv) : Prop :=
  ∀ n, some n ∈ [e.openErr, e.writeErr, e.flushErr, e.syncErr] → 0 < n

theorem writeAndFlush_spec (e : WriteEnv) (he : e.Ok) (buf : Bytes) :
    (∃ n, (writeAndFlush e buf).2 = buf.take n) ∧
    ((writeAndFlush e buf).1 = buf.length → (writeAndFlush e buf).2 = buf) := by
  have neg : ∀ n : Nat, 0 < n → (-(n : Int)) = (buf.length : Int) → False := by omega
  unfold writeAndFlush
  dsimp only
  split
  · rename_i n h
    have hn : 0 < n := he n (by
      by_cases hw : min e.wrote buf.length < buf.length
      · rw [if_pos hw] at h; simp [h]
      · rw [if_neg hw] at h; cases h)
    exact ⟨⟨_, rfl⟩, fun h => (neg n hn h).elim⟩
  · split
    · rename_i n h
      exact ⟨⟨_, rfl⟩, fun h' => (neg n (he n (by simp [h])) h').elim⟩
    · split
      · rename_i n h
        exact ⟨⟨_, rfl⟩, fun h' => (neg n (he n (by simp [h])) h').elim⟩
      · refine ⟨⟨_, rfl⟩, fun h => ?_⟩
        have : min e.wrote buf.length = buf.length := by
          have h' : ((min e.wrote buf.length : Nat) : Int) = (buf.length : Nat) := h
          exact Int.ofNat.inj h'
        rw [this, List.take_length]

theorem attempts_spec (p buf : Bytes) : ∀ (es : List WriteEnv), (∀ e ∈ es, e.Ok) → ∀ (fs : Fs),
    (∀ q, q ≠ p → (attempts p buf es fs).2 q = fs q) ∧
    ((attempts p buf es fs).2 p = fs p ∨ ∃ n, (attempts p buf es fs).2 p = some (buf.take n)) ∧
    ((attempts p buf es fs).1 = some (buf.length : Int) → (attempts p buf es fs).2 p = some buf)
  | [], _, fs => ⟨fun _ _ => rfl, .inl rfl, fun h => by simp [attempts] at h⟩
  | e :: es, hes, fs => by
    have he := hes e List.mem_cons_self
    rw [attempts]
    split
    · rename_i n h
      refine ⟨fun _ _ => rfl, .inl rfl, fun h' => ?_⟩
      have hn := he n (by simp [h])
      have := Option.some.inj h'
      omega
    · have ⟨⟨n, hn⟩, hd⟩ := writeAndFlush_spec e he buf
      dsimp only
      have hother : ∀ q, q ≠ p → (fs.set p (writeAndFlush e buf).2) q = fs q := by
        intro q hq; rw [Fs.set, if_neg hq]
      have hsame : (fs.set p (writeAndFlush e buf).2) p = some (writeAndFlush e buf).2 := by
        rw [Fs.set, if_pos rfl]
      split
      · have ⟨i1, i2, i3⟩ := attempts_spec p buf es (fun x hx => hes x (List.mem_cons_of_mem _ hx))
          (fs.set p (writeAndFlush e buf).2)
        refine ⟨fun q hq => by rw [i1 q hq, hother q hq], ?_, i3⟩
        rcases i2 with i2 | i2
        · right; exact ⟨n, by rw [i2, hsame, hn]⟩
        · right; exact i2
      · refine ⟨hother, .inr ⟨n, ?_⟩, fun h => ?_⟩
        · exact hsame.trans (by rw [hn])
        · exact hsame.trans (by rw [hd (Option.some.inj h)])

/-- What a program does with the storage. -/
inductive Op where
  /-- `oc_storage_data_save` -/
  | save (k : Key) (enc : Option Bytes) (es : List WriteEnv)
  /-- `oc_storage_data_clear` -/
  | clear (k : Key) (es : List WriteEnv)
  /-- `oc_storage_data_load` -/
  | load (k : Key) (cap : Nat) (e : ReadEnv)
  /-- power is lost during a save (or, with an empty `buf`, a clear); the program
  is restarted and configures its storage again -/
  | crash (k : Key) (buf : Bytes) (es : List WriteEnv) (kept : Option Nat)

/-- The data an operation works on. -/
def Op.key : Op → Key
  | .save k _ _ | .clear k _ | .load k _ _ | .crash k _ _ _ => k

/-- The environment's outcomes an operation meets. -/
def Op.envs : Op → List WriteEnv
  | .save _ _ es | .clear _ es | .crash _ _ es _ => es
  | .load .. => []

/-- The program's memory, the disk, and (not part of the code) what was asked of
the storage. -/
structure St where
  st : Store
  fs : Fs
  log : List Ev

/-- One operation of a program that configured the path `p`. -/
def step (p : Bytes) (s : St) : Op → Out St
  | .save k enc es =>
    (save s.st s.fs es k.1 k.2 enc).bind fun r =>
      .ok ⟨r.2.1, r.2.2, match enc with
        | none => s.log
        | some buf => ⟨k, buf, r.1 == some (buf.length : Int)⟩ :: s.log⟩
  | .clear k es =>
    (clear s.st s.fs es k.1 k.2).bind fun r =>
      .ok ⟨r.2.1, r.2.2, ⟨k, [], r.1 == some true⟩ :: s.log⟩
  | .load k cap e =>
    (load (R := Bytes) some (fun _ => true) cap true s.st s.fs e k.1 k.2).bind fun r =>
      .ok { s with st := r.2 }
  | .crash k buf es kept =>
    (saveCrash s.st s.fs es k.1 k.2 buf kept).bind fun fs =>
    (config Store.init (some p)).bind fun r =>
      .ok ⟨r.2, fs, ⟨k, buf, false⟩ :: s.log⟩

/-- A history. -/
def run (p : Bytes) : St → List Op → Out St
  | s, [] => .ok s
  | s, o :: os => (step p s o).bind fun s => run p s os

/-- The memory is configured for the directory `t`, and every file holds what the
log allows. -/
structure Inv (t : Bytes) (c0 : Key → Option Bytes) (s : St) : Prop where
  store : StoreOk s.st t
  poss : ∀ k, Fits k → Poss c0 s.log k (s.fs (t ++ tag k))

theorem write_spec {st : Store} {t : Bytes} (h : StoreOk st t) (ht : t ≠ []) (fs : Fs)
    (es : List WriteEnv) (hes : ∀ e ∈ es, e.Ok) (k : Key) (hk : Fits k) (buf : Bytes) :
    ∃ r st' fs', write st fs es (tag k) buf = .ok (r, st', fs') ∧ StoreOk st' t ∧
      (∀ q, q ≠ t ++ tag k → fs' q = fs q) ∧
      (fs' (t ++ tag k) = fs (t ++ tag k) ∨ ∃ n, fs' (t ++ tag k) = some (buf.take n)) ∧
      (r = some (buf.length : Int) → fs' (t ++ tag k) = some buf) := by
  unfold write
  by_cases hl : t.length + (tag k).length < 64
  · obtain ⟨st', h1, h2⟩ := fileName_ok h ht (by simp [tag]) (tag_no0 hk) hl
    rw [h1, Out.bind]
    have ⟨a1, a2, a3⟩ := attempts_spec (t ++ tag k) buf es hes fs
    exact ⟨_, _, _, rfl, h2, a1, a2, a3⟩
  · rw [fileName_none h (.inr (.inr (by omega))), Out.bind]
    refine ⟨_, _, _, rfl, h, fun _ _ => rfl, .inl rfl, fun h' => ?_⟩
    have := Option.some.inj h'
    have h2 : eNoEnt = 2 := rfl
    omega

/-- The invariant after a write of the file of `k`. -/
theorem inv_write {t : Bytes} {c0 : Key → Option Bytes} {s : St} {k : Key} {buf : Bytes} {done : Bool}
    {st' : Store} {fs' : Fs} (hi : Inv t c0 s) (hst : StoreOk st' t)
    (h1 : ∀ q, q ≠ t ++ tag k → fs' q = s.fs q)
    (h2 : fs' (t ++ tag k) = s.fs (t ++ tag k) ∨ ∃ n, fs' (t ++ tag k) = some (buf.take n))
    (h3 : done = true → fs' (t ++ tag k) = some buf) :
    Inv t c0 ⟨st', fs', ⟨k, buf, done⟩ :: s.log⟩ := by
  refine ⟨hst, fun k' hk' => ?_⟩
  show Poss c0 (⟨k, buf, done⟩ :: s.log) k' (fs' (t ++ tag k'))
  rw [Poss]
  by_cases he : k = k'
  · subst he
    rw [if_neg (by simp)]
    by_cases hd : done = true
    · rw [if_pos hd]; exact h3 hd
    · rw [if_neg hd]
      rcases h2 with h2 | h2
      · right; rw [h2]; exact hi.poss k hk'
      · left; exact h2
  · rw [if_pos he, h1]
    · exact hi.poss k' hk'
    · intro e
      exact he (tag_inj (List.append_cancel_left e)).symm

theorem read_store {st : Store} {t : Bytes} (h : StoreOk st t) (ht : t ≠ []) (fs : Fs) (e : ReadEnv)
    (k : Key) (hk : Fits k) (cap : Nat) :
    ∃ r st', read st fs e (tag k) cap = .ok (r, st') ∧ StoreOk st' t ∧
      (t.length + (tag k).length < 64 → r = match (fs (t ++ tag k) : Option Bytes) with
        | none => (-((e.openErr.getD eNoEnt : Nat) : Int), [])
        | some c => match e.openErr with
          | some n => (-(n : Int), [])
          | none => readOpen e cap c) ∧
      (64 ≤ t.length + (tag k).length → r = (-(eNoEnt : Int), [])) := by
  unfold read openFile
  by_cases hl : t.length + (tag k).length < 64
  · obtain ⟨st', h1, h2⟩ := fileName_ok h ht (by simp [tag]) (tag_no0 hk) hl
    rw [h1, Out.bind]
    dsimp only
    cases hf : fs (t ++ tag k) with
    | none => exact ⟨_, _, rfl, h2, fun _ => rfl, fun h => by omega⟩
    | some c =>
      dsimp only
      cases ho : e.openErr with
      | some n => exact ⟨_, _, rfl, h2, fun _ => rfl, fun h => by omega⟩
      | none => exact ⟨_, _, rfl, h2, fun _ => rfl, fun h => by omega⟩
  · rw [fileName_none h (.inr (.inr (by omega))), Out.bind]
    exact ⟨_, _, rfl, h, fun h' => absurd h' hl, fun _ => rfl⟩

theorem load_store {R : Type} (parse : Bytes → Option R) (decode : R → Bool) {st : Store} {t : Bytes}
    (h : StoreOk st t) (ht : t ≠ []) (fs : Fs) (e : ReadEnv) (k : Key) (hk : Fits k) (cap : Nat) :
    ∃ r st', load parse decode cap true st fs e k.1 k.2 = .ok (r, st') ∧ StoreOk st' t := by
  unfold load
  rw [tagOf_fits hk, Out.bind]
  dsimp only
  obtain ⟨r, st', h1, h2, _⟩ := read_store h ht fs e k hk cap
  rw [h1]
  simp only [Bool.not_true, Bool.false_eq_true, if_false, Out.bind]
  split
  · exact ⟨_, _, rfl, h2⟩
  · split <;> exact ⟨_, _, rfl, h2⟩

theorem step_inv {p t : Bytes} (ht : t ≠ []) (hp : ∃ st, config Store.init (some p) = .ok (0, st) ∧ StoreOk st t)
    {c0 : Key → Option Bytes} {s : St} (hi : Inv t c0 s) (o : Op) (hk : Fits o.key)
    (hes : ∀ e ∈ o.envs, e.Ok) : ∃ s', step p s o = .ok s' ∧ Inv t c0 s' := by
  cases o with
  | save k enc es =>
    replace hk : Fits k := hk
    simp only [step]
    cases enc with
    | none => exact ⟨_, rfl, hi⟩
    | some buf =>
      simp only [save]
      rw [tagOf_fits hk, Out.bind]
      dsimp only
      obtain ⟨r, st', fs', h1, h2, h3, h4, h5⟩ := write_spec hi.store ht s.fs es hes k hk buf
      rw [h1, Out.bind]
      refine ⟨_, rfl, inv_write hi h2 h3 h4 ?_⟩
      intro hd
      exact h5 (by simpa using hd)
  | clear k es =>
    replace hk : Fits k := hk
    simp only [step]
    simp only [clear]
    rw [tagOf_fits hk, Out.bind]
    dsimp only
    obtain ⟨r, st', fs', h1, h2, h3, h4, h5⟩ := write_spec hi.store ht s.fs es hes k hk []
    rw [h1, Out.bind, Out.bind]
    refine ⟨_, rfl, inv_write hi h2 h3 h4 ?_⟩
    intro hd
    apply h5
    cases r with
    | none => simp at hd
    | some n => simp at hd; rw [hd]; rfl
  | load k cap e =>
    replace hk : Fits k := hk
    simp only [step]
    obtain ⟨r, st', h1, h2⟩ := load_store (R := Bytes) some (fun _ => true) hi.store ht s.fs e k hk cap
    rw [h1, Out.bind]
    exact ⟨_, rfl, h2, hi.poss⟩
  | crash k buf es kept =>
    replace hk : Fits k := hk
    obtain ⟨stc, hc1, hc2⟩ := hp
    simp only [step]
    rw [saveCrash, tagOf_fits hk, Out.bind, hc1]
    dsimp only [writeCrash]
    by_cases hl : t.length + (tag k).length < 64
    · obtain ⟨st', h1, h2⟩ := fileName_ok hi.store ht (by simp [tag]) (tag_no0 hk) hl
      rw [h1, Out.bind]
      have ⟨a1, a2, a3⟩ := attempts_spec (t ++ tag k) buf es hes s.fs
      refine ⟨_, rfl, ?_⟩
      cases kept with
      | none => exact inv_write hi hc2 a1 a2 (fun h => by cases h)
      | some n =>
        refine inv_write hi hc2 ?_ (.inr ⟨n, ?_⟩) (fun h => by cases h)
        · intro q hq; rw [crash, Fs.set, if_neg hq]; exact a1 q hq
        · rw [crash, Fs.set, if_pos rfl]
    · rw [fileName_none hi.store (.inr (.inr (by omega))), Out.bind]
      exact ⟨_, rfl, inv_write hi hc2 (fun _ _ => rfl) (.inl rfl) (fun h => by cases h)⟩

/-- C40, C57 (partial: a failed or interrupted save may lose the old content, see
`crash_loses_false`). For every history of saves, clears, loads and losses of power,
for all names that fit: the storage never runs into undefined behaviour, and every
file holds what the log of requests allows — after a completed save exactly the
data saved last, whatever happened to other files. -/
theorem storage_partial {p t : Bytes} (ht : t ≠ [])
    (hp : ∃ st, config Store.init (some p) = .ok (0, st) ∧ StoreOk st t) {c0 : Key → Option Bytes} :
    ∀ (os : List Op) (s : St), Inv t c0 s → (∀ o ∈ os, Fits o.key ∧ ∀ e ∈ o.envs, e.Ok) →
    ∃ s', run p s os = .ok s' ∧ Inv t c0 s'
  | [], s, hi, _ => ⟨s, rfl, hi⟩
  | o :: os, s, hi, ho => by
    have ⟨h1, h2⟩ := ho o List.mem_cons_self
    obtain ⟨s1, h3, h4⟩ := step_inv ht hp hi o h1 h2
    rw [run, h3, Out.bind]
    exact storage_partial ht hp os s1 h4 (fun o ho' => ho o (List.mem_cons_of_mem _ ho'))

/-- An environment in which no call fails. -/
def ReadEnv.good (e : ReadEnv) (c : Bytes) : Prop :=
  e.openErr = none ∧ e.endErr = none ∧ e.tellErr = none ∧ e.setErr = none ∧ c.length ≤ e.avail

/-- C57. Data whose save was the last request for this name and was completed is
what a later load decodes, if it fits the buffer and no call fails. -/
theorem load_after_save {R : Type} (parse : Bytes → Option R) (decode : R → Bool)
    {t : Bytes} (ht : t ≠ []) {c0 : Key → Option Bytes} {s : St} (hi : Inv t c0 s) (k : Key)
    (hk : Fits k) (buf : Bytes) (h : List Ev) (before : List Ev) (hlog : s.log = h ++ ⟨k, buf, true⟩ :: before)
    (hlast : ∀ e ∈ h, e.key ≠ k) (hb : buf ≠ []) (cap : Nat) (hcap : buf.length ≤ cap)
    (hl : t.length + (tag k).length < 64) (e : ReadEnv) (he : e.good buf) (rep : R)
    (hr : parse buf = some rep) :
    ∃ st', load parse decode cap true s.st s.fs e k.1 k.2 =
      .ok ((if decode rep then (buf.length : Int) else -1, some rep), st') := by
  have hposs : s.fs (t ++ tag k) = some buf := by
    have := hi.poss k hk
    rw [hlog] at this
    clear hlog
    induction h with
    | nil =>
      rw [List.nil_append, Poss, if_neg (by simp), if_pos rfl] at this; exact this
    | cons x h ih =>
      rw [List.cons_append, Poss, if_pos (hlast x List.mem_cons_self)] at this
      exact ih (fun e he => hlast e (List.mem_cons_of_mem _ he)) this
  obtain ⟨g1, g2, g3, g4, g5⟩ := he
  unfold load
  rw [tagOf_fits hk, Out.bind]
  dsimp only
  obtain ⟨r, st', h1, h2, h3, _⟩ := read_store hi.store ht s.fs e k hk cap
  have hbl : buf.length ≠ 0 := fun e => hb (List.eq_nil_of_length_eq_zero e)
  have hro : readOpen e cap buf = ((buf.length : Int), buf) := by
    unfold readOpen
    rw [g2, g3, g4]
    dsimp only
    rw [if_neg (by omega), List.take_of_length_le hcap, List.take_of_length_le g5, if_neg (by simp)]
  have h3' := h3 hl
  rw [hposs, g1] at h3'
  dsimp only at h3'
  rw [hro] at h3'
  rw [h1, h3']
  simp only [Bool.not_true, Bool.false_eq_true, if_false, Out.bind]
  rw [if_neg (by omega), hr]
  exact ⟨_, rfl⟩

/-- C57. Whatever the environment does, a load decodes nothing but the parsed
content of the file of this name and device; a failure decodes nothing. -/
theorem load_decodes_content {R : Type} (parse : Bytes → Option R) (decode : R → Bool)
    {st : Store} {t : Bytes} (h : StoreOk st t) (ht : t ≠ []) (fs : Fs) (e : ReadEnv) (k : Key)
    (hk : Fits k) (cap : Nat) (buffer : Bool) (rep : R) (ret : Int) (st' : Store)
    (hld : load parse decode cap buffer st fs e k.1 k.2 = .ok ((ret, some rep), st')) :
    ∃ c, fs (t ++ tag k) = some c ∧ c ≠ [] ∧ c.length ≤ cap ∧ parse c = some rep ∧
      ret = if decode rep then (c.length : Int) else -1 := by
  unfold load at hld
  rw [tagOf_fits hk, Out.bind] at hld
  dsimp only at hld
  cases buffer with
  | false => simp at hld
  | true =>
  obtain ⟨r, st1, h1, h2, h3, h4⟩ := read_store h ht fs e k hk cap
  rw [h1] at hld
  simp only [Bool.not_true, Bool.false_eq_true, if_false, Out.bind] at hld
  by_cases hr0 : r.1 ≤ 0
  · rw [if_pos hr0] at hld; simp at hld
  rw [if_neg hr0] at hld
  have hl : t.length + (tag k).length < 64 := by
    apply Nat.lt_of_not_le
    intro hge
    rw [h4 hge] at hr0
    exact hr0 (by decide)
  have h3 := h3 hl
  have nonpos : ∀ n : Nat, -(n : Int) ≤ 0 := by omega
  cases hf : fs (t ++ tag k) with
  | none => rw [hf] at h3; rw [h3] at hr0; exact absurd (nonpos _) hr0
  | some c =>
    rw [hf] at h3
    dsimp only at h3
    cases ho : e.openErr with
    | some n => rw [ho] at h3; rw [h3] at hr0; exact absurd (nonpos _) hr0
    | none =>
      rw [ho] at h3
      dsimp only at h3
      have hval : r = ((c.length : Int), c) ∧ c.length ≤ cap := by
        rw [h3]
        rw [h3] at hr0
        unfold readOpen at hr0 ⊢
        cases he : e.endErr with
        | some n => rw [he] at hr0; exact absurd (nonpos _) hr0
        | none =>
          rw [he] at hr0
          dsimp only at hr0 ⊢
          cases hte : e.tellErr with
          | some n => rw [hte] at hr0; exact absurd (nonpos _) hr0
          | none =>
            rw [hte] at hr0
            dsimp only at hr0 ⊢
            by_cases hcl : c.length > cap
            · rw [if_pos hcl] at hr0; exact absurd (nonpos _) hr0
            · rw [if_neg hcl] at hr0 ⊢
              cases hse : e.setErr with
              | some n => rw [hse] at hr0; exact absurd (nonpos _) hr0
              | none =>
                rw [hse] at hr0
                dsimp only at hr0 ⊢
                have hck : c.take cap = c := List.take_of_length_le (by omega)
                rw [hck] at hr0 ⊢
                by_cases hg : (c.take e.avail).length ≠ c.length
                · rw [if_pos hg] at hr0; exact absurd (nonpos _) hr0
                · rw [if_neg hg]
                  have hg' : (c.take e.avail).length = c.length := Decidable.not_not.1 hg
                  have : c.take e.avail = c := by
                    rw [List.length_take] at hg'
                    exact List.take_of_length_le (by omega)
                  rw [this]
                  exact ⟨rfl, by omega⟩
      obtain ⟨hv, hcl⟩ := hval
      rw [hv] at hld hr0
      refine ⟨c, rfl, ?_, hcl, ?_⟩
      · intro e; rw [e] at hr0; exact hr0 (by decide)
      · dsimp only at hld
        cases hpc : parse c with
        | none => rw [hpc] at hld; simp at hld
        | some x =>
          rw [hpc] at hld
          have := (Prod.mk.inj (Out.ok.inj hld)).1
          have h5 := (Prod.mk.inj this).2
          have h6 := (Prod.mk.inj this).1
          rw [Option.some.inj h5] at h6 ⊢
          exact ⟨rfl, h6.symm⟩

/-! ### Examples and witnesses -/

/-- Everything succeeds. -/
def allOk : WriteEnv := ⟨none, 1000, none, none, none, 0⟩
/-- Nothing fails while reading. -/
def readOk : ReadEnv := ⟨none, none, none, none, 1000, 0⟩
/-- A disk that is full: `fwrite` fails with `ENOSPC`, two bytes were written. -/
def diskFull : WriteEnv := ⟨none, 2, some 28, none, none, 2⟩
/-- "/st/". -/
def exDir : Bytes := [47, 115, 116, 47]
/-- The start: nothing on the disk, "/st" configured. -/
def exInit : St := ⟨⟨writeAt (List.replicate 64 0) 0 exDir, 4⟩, fun _ => none, []⟩
/-- "acl" of device 0. -/
def exKey : Key := ([97, 99, 108], 0)
/-- "acl" of device 1. -/
def exKey1 : Key := ([97, 99, 108], 1)

/-- What a load of `exKey` returns after a history. -/
def exLoad (parse : Bytes → Option Bytes) (os : List Op) : Out (Int × Option Bytes) :=
  (run [47, 115, 116] exInit os).bind fun s =>
  (load parse (fun _ => true) 100 true s.st s.fs readOk exKey.1 exKey.2).bind fun r => .ok r.1

example : config Store.init (some [47, 115, 116]) = .ok (0, exInit.st) := by decide +kernel

theorem exInit_inv : Inv exDir (fun _ => none) exInit :=
  ⟨⟨by decide +kernel, rfl, by decide, by decide +kernel, by decide⟩, fun _ _ => rfl⟩

/-- Two files, an interrupted save of the second, a load. -/
def exOps : List Op :=
  [.save exKey (some [1, 2, 3]) [{ allOk with syncErr := some 4 }, allOk], .save exKey1 (some [9, 9]) [allOk],
   .crash exKey1 [7, 7, 7] [] (some 1), .load exKey 100 readOk]

/-- The hypotheses of `storage_partial` and `load_after_save` are met: after the
history the first file is intact, the second holds a beginning of the new data. -/
example : (∀ o ∈ exOps, Fits o.key ∧ ∀ e ∈ o.envs, e.Ok) ∧
    ((run [47, 115, 116] exInit exOps).bind fun s => .ok (s.fs (exDir ++ tag exKey),
        s.fs (exDir ++ tag exKey1), s.log.map (fun e => (e.key, e.buf, e.done)))) =
      .ok (some [1, 2, 3], some [7],
        [(exKey1, [7, 7, 7], false), (exKey1, [9, 9], true), (exKey, [1, 2, 3], true)]) := by
  refine ⟨?_, rfl⟩
  intro o ho
  simp only [exOps, List.mem_cons, List.not_mem_nil, or_false] at ho
  rcases ho with rfl | rfl | rfl | rfl
  · refine ⟨⟨by decide, by decide, by decide⟩, ?_⟩
    intro e he
    simp only [Op.envs, List.mem_cons, List.not_mem_nil, or_false] at he
    rcases he with rfl | rfl <;> intro n hn <;> simp [allOk] at hn <;> omega
  · refine ⟨⟨by decide, by decide, by decide⟩, ?_⟩
    intro e he
    simp only [Op.envs, List.mem_cons, List.not_mem_nil, or_false] at he
    rcases he with rfl
    intro n hn; simp [allOk] at hn
  · exact ⟨⟨by decide, by decide, by decide⟩, fun e he => by cases he⟩
  · exact ⟨⟨by decide, by decide, by decide⟩, fun e he => by cases he⟩

/-- C40 is false: the file is truncated before the new content is written
(port/linux/storage.c:259). After a loss of power at this point a load finds
neither the old nor the new data. -/
theorem crash_loses_false :
    exLoad some [.save exKey (some [1, 2, 3]) [allOk]] = .ok (3, some [1, 2, 3]) ∧
    exLoad some [.save exKey (some [1, 2, 3]) [allOk], .crash exKey [4, 5, 6] [] (some 0)] =
      .ok (-1, none) := by decide +kernel

/-- A save that fails (disk full) has destroyed the old data, and what is left is
loaded as if it had been saved. -/
theorem failed_save_false :
    exLoad some [.save exKey (some [1, 2, 3]) [allOk], .save exKey (some [4, 5, 6]) [diskFull]] =
      .ok (2, some [4, 5]) := by decide +kernel

/-- Data that cannot be parsed is reported as loaded: the result is the size of the
file although nothing was decoded (api/oc_storage.c:137-145). -/
theorem garbage_success_false :
    exLoad (fun _ => none) [.save exKey (some [1, 2, 3]) [allOk]] = .ok (3, none) := by decide +kernel

/-- The error of the first failing call of an attempt. -/
def WriteEnv.failure (e : WriteEnv) (len : Nat) : Option Nat :=
  e.openErr.or ((if e.wrote < len then e.writeErr else none).or (e.flushErr.or e.syncErr))

/-- C57. The result of a write: attempts that fail with EINTR or EAGAIN (after the
file could be opened) are repeated; any other attempt ends the write with its error,
or with the number of bytes written. -/
theorem attempts_result (p buf : Bytes) : ∀ (pre : List WriteEnv) (e : WriteEnv) (post : List WriteEnv) (fs : Fs),
    (∀ x ∈ pre, x.openErr = none ∧ (x.failure buf.length = some 4 ∨ x.failure buf.length = some 11)) →
    (e.openErr ≠ none ∨ (e.failure buf.length ≠ some 4 ∧ e.failure buf.length ≠ some 11)) →
    (attempts p buf (pre ++ e :: post) fs).1 =
      some (match e.failure buf.length with | some n => -(n : Int) | none => (min e.wrote buf.length : Nat)) := by
  have hw : ∀ e : WriteEnv, e.openErr = none → (writeAndFlush e buf).1 =
      match e.failure buf.length with | some n => -(n : Int) | none => (min e.wrote buf.length : Nat) := by
    intro e ho
    have hlt : (min e.wrote buf.length < buf.length) ↔ e.wrote < buf.length := by omega
    unfold writeAndFlush WriteEnv.failure
    rw [ho]
    simp only [Option.none_or, hlt]
    cases (if e.wrote < buf.length then e.writeErr else none) with
    | some n => simp
    | none =>
      cases e.flushErr with
      | some n => simp
      | none =>
        cases e.syncErr with
        | some n => simp
        | none => simp
  intro pre
  induction pre with
  | nil =>
    intro e post fs _ h
    rw [List.nil_append, attempts]
    cases ho : e.openErr with
    | some n => simp [WriteEnv.failure, ho]
    | none =>
      have h := h.resolve_left (fun h => h ho)
      dsimp only
      have hr := hw e ho
      rw [if_neg]
      · rw [hr]
      · rintro ⟨h1, h2⟩
        rw [hr] at h1 h2
        cases hf : e.failure buf.length with
        | none => rw [hf] at h1; exact absurd h1 (Int.not_lt.2 (Int.natCast_nonneg _))
        | some n =>
          rw [hf] at h2 h
          simp only [eAgain, eIntr] at h2
          rcases h2 with h2 | h2
          · exact h.2 (by congr 1; omega)
          · exact h.1 (by congr 1; omega)
  | cons x pre ih =>
    intro e post fs hp h
    have ⟨h1, h2⟩ := hp x List.mem_cons_self
    rw [List.cons_append, attempts, h1]
    dsimp only
    have hr := hw x h1
    rw [if_pos]
    · exact ih e post _ (fun y hy => hp y (List.mem_cons_of_mem _ hy)) h
    · rw [hr]
      rcases h2 with h2 | h2 <;> rw [h2] <;> simp [eAgain, eIntr]

/-- Interrupted once, then the disk is full (ENOSPC). -/
example : let e4 : WriteEnv := ⟨none, 0, some 4, none, none, 0⟩
    let e28 : WriteEnv := ⟨none, 1, some 28, none, none, 0⟩
    (e4.openErr = none ∧ e4.failure 3 = some 4) ∧ e28.failure 3 = some 28 ∧
    (attempts [97] [1, 2, 3] [e4, e28, e4] (fun _ => none)).1 = some (-28) := by decide +kernel

end Verif.Storage
