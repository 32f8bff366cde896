import Verif.Blockwise.Lemmas

/-!
C21 (reassembly) and C22 (transmission) of block-wise transfer.
-/

namespace Verif.Blockwise

/-! ### Specification: what the blocks of a payload are -/

/-- A message carries a part of the payload `p` from its offset on. -/
def PartOf (p : List UInt8) (m : Blk) : Prop := ∃ n, m.data = slice p m.off n

/-- The message is block number `num` of the payload `p` cut into blocks of `bs`
bytes; the last one, and only the last one, has no more flag. -/
structure BlockOf (p : List UInt8) (bs : Nat) (m : Blk) : Prop where
  off : m.off = m.num * bs
  size : m.size = bs
  data : m.data = slice p (m.num * bs) bs
  more : m.more = decide ((m.num + 1) * bs < p.length)
  inside : m.num = 0 ∨ m.num * bs < p.length

/-! ### C21: reassembly at the server -/

/-- Every message of the history satisfies `P`. -/
def AllMsgs (P : Blk → Prop) (ops : List Op1) : Prop := ∀ m, Op1.msg m ∈ ops → P m

theorem recv1_defined (max : Nat) (s : Option Buf) (m : Blk)
    (hs : ∀ b, s = some b → b.next ≤ b.mem.length) :
    ∃ s' r, recv1 max s m = .ok (s', r) ∧ (∀ b, s' = some b → b.next ≤ b.mem.length ∧
      ((∃ b0, s = some b0 ∧ b.mem.length = b0.mem.length) ∨
        b.mem.length = capacity max m.size1)) ∧
      ∀ q, r = .invoke q → (∃ b0, s = some b0 ∧ q.length ≤ b0.mem.length) ∨
        q.length ≤ capacity max m.size1 := by
  rw [recv1]
  cases ho : openBuf max (dropComplete s m) m with
  | none => exact ⟨none, .error, rfl, by simp, by simp⟩
  | some b =>
    have hb : b.next ≤ b.mem.length ∧ ((∃ b0, s = some b0 ∧ b.mem.length = b0.mem.length) ∨
        b.mem.length = capacity max m.size1) := by
      rcases open_cases max s m b ho with h | h
      · exact ⟨hs b h, .inl ⟨b, h, rfl⟩⟩
      · subst h; exact ⟨by simp [alloc], .inr (by simp [alloc])⟩
    obtain ⟨r, b', he, hl, hn, -⟩ := handle_defined b hb.1 m.off m.data
      (min (m.data.length % 2 ^ 16) m.size) (by have := Nat.mod_le m.data.length (2 ^ 16); omega)
    simp only [he, Out.bind]
    cases r with
    | false => exact ⟨none, .error, rfl, by simp, by simp⟩
    | true =>
      cases m.more with
      | true =>
        refine ⟨some b', _, rfl, ?_, by simp⟩
        intro b'' h; injection h with h; subst h
        exact ⟨hn, by rw [hl]; exact hb.2⟩
      | false =>
        refine ⟨none, _, rfl, by simp, ?_⟩
        intro q hq
        injection hq with hq
        have : q.length ≤ b.mem.length := by
          rw [← hq, ← hl]; exact List.length_take_le' _ _
        rcases hb.2 with ⟨b0, h0, h1⟩ | h1
        · exact .inl ⟨b0, h0, by omega⟩
        · exact .inr (by omega)

/-- C21: for every history of messages whatever, the server never writes outside a
buffer, and a buffer and a delivered payload never exceed the largest capacity
asked for. -/
theorem server_memory_safe (max : Nat) (lim : Nat) (ops : List Op1)
    (hcap : AllMsgs (fun m => capacity max m.size1 ≤ lim) ops) :
    ∀ s : Option Buf, (∀ b, s = some b → b.next ≤ b.mem.length ∧ b.mem.length ≤ lim) →
    ∃ s' rs, runs1 max s ops = .ok (s', rs) ∧
      (∀ b, s' = some b → b.next ≤ b.mem.length ∧ b.mem.length ≤ lim) ∧
      ∀ q, Res1.invoke q ∈ rs → q.length ≤ lim := by
  induction ops with
  | nil => intro s hs; exact ⟨s, [], rfl, hs, by simp⟩
  | cons o r ih =>
    intro s hs
    have ih := ih (fun m hm => hcap m (List.mem_cons_of_mem _ hm))
    cases o with
    | expire => exact ih none (by simp)
    | msg m =>
      have hm := hcap m (List.mem_cons_self ..)
      obtain ⟨s1, x, he, hs1, hx⟩ := recv1_defined max s m (fun b h => (hs b h).1)
      obtain ⟨s2, rs, he2, hs2, hrs⟩ := ih s1 (by
        intro b hb
        obtain ⟨h1, h2⟩ := hs1 b hb
        refine ⟨h1, ?_⟩
        rcases h2 with ⟨b0, h0, h3⟩ | h3
        · have := (hs b0 h0).2; omega
        · omega)
      refine ⟨s2, x :: rs, by simp only [runs1, he, Out.bind, he2], hs2, ?_⟩
      intro q hq
      rcases List.mem_cons.1 hq with h | h
      · rcases hx q h.symm with ⟨b0, h0, h1⟩ | h1
        · have := (hs b0 h0).2; omega
        · omega
      · exact hrs q h

theorem recv1_pre (p : List UInt8) (max : Nat) (s : Option Buf) (m : Blk) (hm : PartOf p m)
    (hs : ∀ b, s = some b → Pre p b) :
    ∃ s' r, recv1 max s m = .ok (s', r) ∧ (∀ b, s' = some b → Pre p b) ∧
      ∀ q, r = .invoke q → q <+: p.map some := by
  obtain ⟨n, hd⟩ := hm
  rw [recv1]
  cases ho : openBuf max (dropComplete s m) m with
  | none => exact ⟨none, .error, rfl, by simp, by simp⟩
  | some b =>
    have hb := open_pre p max s m hs b ho
    obtain ⟨r, b', he, hp, -⟩ := handle_pre p b hb m.off n
      (min (m.data.length % 2 ^ 16) m.size)
      (by have := Nat.mod_le m.data.length (2 ^ 16); rw [← hd]; omega)
    rw [← hd] at he
    simp only [he, Out.bind]
    cases r with
    | false => exact ⟨none, .error, rfl, by simp, by simp⟩
    | true =>
      cases m.more with
      | true =>
        refine ⟨some b', _, rfl, ?_, by simp⟩
        intro b'' h; injection h with h; subst h; exact hp
      | false =>
        refine ⟨none, _, rfl, by simp, ?_⟩
        intro q hq
        injection hq with hq
        rw [← hq, hp.bytes, List.map_take]
        exact List.take_prefix _ _

/-- C21, the prefix part: however the parts of one payload are delivered (any
offsets and sizes, repeated, out of order, lost, with wrong more flags, the
buffer expiring in between), the buffer holds a prefix of the payload and every
payload handed to the handler is a prefix of it. -/
theorem server_holds_prefix (p : List UInt8) (max : Nat) (ops : List Op1)
    (hp : AllMsgs (PartOf p) ops) :
    ∀ s : Option Buf, (∀ b, s = some b → Pre p b) →
    ∃ s' rs, runs1 max s ops = .ok (s', rs) ∧ (∀ b, s' = some b → Pre p b) ∧
      ∀ q, Res1.invoke q ∈ rs → q <+: p.map some := by
  induction ops with
  | nil => intro s hs; exact ⟨s, [], rfl, hs, by simp⟩
  | cons o r ih =>
    intro s hs
    have ih := ih (fun m hm => hp m (List.mem_cons_of_mem _ hm))
    cases o with
    | expire => exact ih none (by simp)
    | msg m =>
      obtain ⟨s1, x, he, hs1, hx⟩ := recv1_pre p max s m (hp m (List.mem_cons_self ..)) hs
      obtain ⟨s2, rs, he2, hs2, hrs⟩ := ih s1 hs1
      refine ⟨s2, x :: rs, by simp only [runs1, he, Out.bind, he2], hs2, ?_⟩
      intro q hq
      rcases List.mem_cons.1 hq with h | h
      · exact hx q h.symm
      · exact hrs q h

/-- The buffer holds whole blocks of `bs` bytes (or everything). -/
def Whole (p : List UInt8) (bs : Nat) (b : Buf) : Prop := ∃ j, b.next = min (j * bs) p.length

theorem length_block (p : List UInt8) (bs k : Nat) :
    (slice p (k * bs) bs).length = min bs (p.length - k * bs) := by
  simp [slice]

theorem recv1_whole (p : List UInt8) (bs max : Nat) (hbs : bs < 2 ^ 16) (s : Option Buf) (m : Blk)
    (hm : BlockOf p bs m)
    (hs : ∀ b, s = some b → Pre p b ∧ Whole p bs b) :
    ∃ s' r, recv1 max s m = .ok (s', r) ∧ (∀ b, s' = some b → Pre p b ∧ Whole p bs b) ∧
      ∀ q, r = .invoke q → q = p.map some := by
  rw [recv1]
  cases ho : openBuf max (dropComplete s m) m with
  | none => exact ⟨none, .error, rfl, by simp, by simp⟩
  | some b =>
    have hb : Pre p b ∧ Whole p bs b := by
      rcases open_cases max s m b ho with h | h
      · exact hs b h
      · subst h; exact ⟨pre_alloc _ _, 0, by simp [alloc]⟩
    have hlen := length_block p bs m.num
    have hsz : min (m.data.length % 2 ^ 16) m.size = min bs (p.length - m.num * bs) := by
      rw [hm.data, hm.size, hlen, Nat.mod_eq_of_lt (by omega)]; omega
    obtain ⟨r, b', he, hp, -, -, hn⟩ := handle_pre p b hb.1 m.off bs
      (min (m.data.length % 2 ^ 16) m.size) (by rw [hm.off, hsz, hlen]; omega)
    rw [hm.off, ← hm.data, ← hm.off] at he
    simp only [he, Out.bind]
    cases r with
    | false => exact ⟨none, .error, rfl, by simp, by simp⟩
    | true =>
      obtain ⟨h1, h2⟩ := hn rfl
      rw [hsz, hm.off] at h2
      rw [hm.off] at h1
      obtain ⟨j, hj⟩ := hb.2
      have e1 : (m.num + 1) * bs = m.num * bs + bs := by rw [Nat.add_mul, Nat.one_mul]
      have hw : Whole p bs b' := by
        by_cases h3 : b.next = m.num * bs
        · rw [if_pos h3] at h2
          refine ⟨m.num + 1, ?_⟩
          have := hb.1.len
          omega
        · rw [if_neg h3] at h2; exact ⟨j, by omega⟩
      cases hmore : m.more with
      | true =>
        refine ⟨some b', _, rfl, ?_, by simp⟩
        intro b'' h; injection h with h; subst h; exact ⟨hp, hw⟩
      | false =>
        refine ⟨none, _, rfl, by simp, ?_⟩
        intro q hq
        have hlast : p.length ≤ (m.num + 1) * bs := by
          have := hm.more
          rw [hmore] at this
          have := of_decide_eq_false this.symm
          omega
        injection hq with hq
        have hfin : b'.next = p.length := by
          by_cases h3 : b.next = m.num * bs
          · rw [if_pos h3] at h2
            have := hb.1.len
            omega
          · rw [if_neg h3] at h2
            have hlt : m.num * bs < j * bs := by omega
            have hjk : m.num + 1 ≤ j := Nat.lt_of_mul_lt_mul_right hlt
            have := Nat.mul_le_mul_right bs hjk
            omega
        rw [← hq, hp.bytes, hfin, List.take_length]

/-- C21, completion: if the payload is cut into blocks of one size, then whatever
the order, repetition and loss of the blocks, the handler is only ever called with
exactly the payload. -/
theorem server_completes_whole (p : List UInt8) (bs max : Nat) (hbs : bs < 2 ^ 16)
    (ops : List Op1) (hp : AllMsgs (BlockOf p bs) ops) :
    ∀ s : Option Buf, (∀ b, s = some b → Pre p b ∧ Whole p bs b) →
    ∃ s' rs, runs1 max s ops = .ok (s', rs) ∧
      (∀ b, s' = some b → Pre p b ∧ Whole p bs b) ∧
      ∀ q, Res1.invoke q ∈ rs → q = p.map some := by
  induction ops with
  | nil => intro s hs; exact ⟨s, [], rfl, hs, by simp⟩
  | cons o r ih =>
    intro s hs
    have ih := ih (fun m hm => hp m (List.mem_cons_of_mem _ hm))
    cases o with
    | expire => exact ih none (by simp)
    | msg m =>
      obtain ⟨s1, x, he, hs1, hx⟩ := recv1_whole p bs max hbs s m (hp m (List.mem_cons_self ..)) hs
      obtain ⟨s2, rs, he2, hs2, hrs⟩ := ih s1 hs1
      refine ⟨s2, x :: rs, by simp only [runs1, he, Out.bind, he2], hs2, ?_⟩
      intro q hq
      rcases List.mem_cons.1 hq with h | h
      · exact hx q h.symm
      · exact hrs q h

/-! Concrete cases: a payload of 5 bytes in blocks of 2. -/

/-- Example payload (no /repo counterpart). -/
def exPay : List UInt8 := [1, 2, 3, 4, 5]
/-- Block `k` of the example payload in blocks of `bs` (no /repo counterpart). -/
def exBlk (bs k : Nat) : Blk :=
  ⟨k, k * bs, bs, decide ((k + 1) * bs < 5), slice exPay (k * bs) bs, none⟩

theorem exBlk_block (bs k : Nat) (h : k = 0 ∨ k * bs < 5) : BlockOf exPay bs (exBlk bs k) :=
  ⟨rfl, rfl, rfl, rfl, h⟩

example : AllMsgs (BlockOf exPay 2) [.msg (exBlk 2 0), .msg (exBlk 2 0), .msg (exBlk 2 1),
    .msg (exBlk 2 0), .msg (exBlk 2 2)] := by
  intro m hm
  simp only [List.mem_cons, List.not_mem_nil, or_false, Op1.msg.injEq] at hm
  rcases hm with rfl | rfl | rfl | rfl | rfl <;> exact exBlk_block _ _ (by decide)

/-- With repetitions the payload is delivered once and whole. -/
example : runs1 100 none [.msg (exBlk 2 0), .msg (exBlk 2 0), .msg (exBlk 2 1),
    .msg (exBlk 2 0), .msg (exBlk 2 2)] =
    .ok (none, [.cont 0 2, .cont 0 2, .cont 1 2, .cont 0 2, .invoke (exPay.map some)]) := by
  decide

/-- A lost block is noticed. -/
example : runs1 100 none [.msg (exBlk 2 0), .msg (exBlk 2 2)] =
    .ok (none, [.cont 0 2, .error]) := by decide

/-- C21 is false if a transfer is started again with another block size: the block
of the new attempt that carries the whole payload is taken for a repetition, and
the handler is called with the bytes of the first attempt only. -/
theorem other_block_size_truncates_false :
    PartOf exPay (exBlk 2 0) ∧ PartOf exPay (exBlk 8 0) ∧ (exBlk 8 0).data = exPay ∧
    runs1 100 none [.msg (exBlk 2 0), .msg (exBlk 8 0)] =
      .ok (none, [.cont 0 2, .invoke [some 1, some 2]]) :=
  ⟨⟨2, rfl⟩, ⟨8, rfl⟩, rfl, by decide⟩

/-- C21 is false if an upload is given up and another one is started to the same
resource within the lifetime of the buffer: the first block of the second payload
is taken for a repetition and the handler gets a mixture of the two payloads. -/
theorem restarted_upload_mixes_false :
    runs1 100 none [.msg ⟨0, 0, 2, true, [1, 2], none⟩,
        .msg ⟨0, 0, 2, true, [7, 8], none⟩, .msg ⟨1, 2, 2, false, [9], none⟩] =
      .ok (none, [.cont 0 2, .cont 0 2, .invoke [some 1, some 2, some 9]]) := by decide

/-- A request without block options (TCP): the payload is handed over exactly if
it has less than 65536 bytes and fits. -/
theorem plain_request_exact (max : Nat) (size1 : Option Nat) (data : List UInt8)
    (h0 : 0 < data.length) (hd : data.length < 2 ^ 16) :
    recvPlain max size1 data =
      .ok (if data.length ≤ capacity max size1 then some (data.map some) else none) := by
  rw [recvPlain, Nat.mod_eq_of_lt hd]
  by_cases h : data.length ≤ capacity max size1
  · rw [handle_next (alloc (capacity max size1)) data 0 data.length rfl (by simp [alloc]; omega)
      (by simp [alloc]; omega) (Nat.le_refl _)]
    simp only [Out.bind, if_true, List.take_length, alloc]
    rw [sliceChk, if_pos (by rw [length_writeAt _ _ _ (by simp; omega)]; simp; omega), if_pos h]
    have := slice_writeAt_same (List.replicate (capacity max size1) (none : Option UInt8)) 0
      (data.map some) (by simp; omega)
    simp only [List.length_map] at this
    simp only [this]
  · rw [handleBlock, if_pos (by simp only [alloc, List.length_replicate]; omega)]
    simp only [Out.bind, if_neg h]
    rfl

/-- A payload of 65536 bytes or more (possible over TCP with a large
`OC_MAX_APP_DATA_SIZE`): only the low 16 bits of the length are stored, and the
handler is given memory that was never written. -/
theorem plain_request_uninitialised_false (data : List UInt8) (max n : Nat)
    (hd : data.length = n) (hn : n % 2 ^ 16 = 0) (h0 : 0 < n) (hm : n ≤ max) :
    recvPlain max none data = .ok (some (List.replicate n none)) := by
  rw [recvPlain, hd, hn]
  rw [handle_next (alloc (capacity max none)) data 0 0 rfl (by simp [alloc, capacity]; omega)
    (by simp) (by simp)]
  simp only [Out.bind, if_true, List.take_zero, List.map_nil, writeAt, alloc, capacity]
  rw [sliceChk, if_pos (by simp; omega)]
  simp only [slice, List.drop_zero, List.nil_append, List.length_nil, Nat.add_zero,
    List.append_nil, Out.ok.injEq, Option.some.injEq, List.take_replicate]
  congr 1; omega

/-! ### C21: reassembly at the client -/

theorem recvC_whole (p : List UInt8) (bs max : Nat) (s : Option Buf) (m : Blk)
    (hm : BlockOf p bs m)
    (hs : ∀ b, s = some b → Pre p b ∧ Whole p bs b) :
    ∃ s' r, recvC max s m = .ok (s', r) ∧ (∀ b, s' = some b → Pre p b ∧ Whole p bs b) ∧
      ∀ q, r = .callback q → q = p.map some ∨ q = [] := by
  have hb : Pre p (s.getD (alloc max)) ∧ Whole p bs (s.getD (alloc max)) := by
    cases s with
    | none => exact ⟨pre_alloc _ _, 0, by simp [alloc]⟩
    | some b => exact hs b rfl
  rw [recvC]
  generalize s.getD (alloc max) = b at hb
  by_cases h0 : m.data.length > 0
  · rw [if_pos h0]
    have hlen := length_block p bs m.num
    obtain ⟨r, b', he, hp, -, hf, hn⟩ := handle_pre p b hb.1 m.off bs
      m.data.length (by rw [hm.off, hm.data]; exact Nat.le_refl _)
    rw [hm.off, ← hm.data, ← hm.off] at he
    simp only [he, Out.bind]
    cases r with
    | false =>
      refine ⟨none, _, rfl, by simp, ?_⟩
      intro q hq; injection hq with hq
      rw [hf rfl, hb.1.psize] at hq
      exact .inr (by rw [← hq]; simp)
    | true =>
      obtain ⟨h1, h2⟩ := hn rfl
      rw [hm.data, hlen, hm.off] at h2
      rw [hm.off] at h1
      obtain ⟨j, hj⟩ := hb.2
      have e1 : (m.num + 1) * bs = m.num * bs + bs := by rw [Nat.add_mul, Nat.one_mul]
      have hw : Whole p bs b' := by
        by_cases h3 : b.next = m.num * bs
        · rw [if_pos h3] at h2
          refine ⟨m.num + 1, ?_⟩
          have := hb.1.len
          omega
        · rw [if_neg h3] at h2; exact ⟨j, by omega⟩
      cases hmore : m.more with
      | true =>
        refine ⟨some b', _, rfl, ?_, by simp⟩
        intro b'' h; injection h with h; subst h; exact ⟨hp, hw⟩
      | false =>
        refine ⟨none, _, rfl, by simp, ?_⟩
        intro q hq
        have hlast : p.length ≤ (m.num + 1) * bs := by
          have := hm.more
          rw [hmore] at this
          have := of_decide_eq_false this.symm
          omega
        injection hq with hq
        have hfin : b'.next = p.length := by
          by_cases h3 : b.next = m.num * bs
          · rw [if_pos h3] at h2
            have := hb.1.len
            omega
          · rw [if_neg h3] at h2
            have hlt : m.num * bs < j * bs := by omega
            have hjk : m.num + 1 ≤ j := Nat.lt_of_mul_lt_mul_right hlt
            have := Nat.mul_le_mul_right bs hjk
            omega
        exact .inl (by rw [← hq, hp.bytes, hfin, List.take_length])
  · rw [if_neg h0]
    refine ⟨none, _, rfl, by simp, ?_⟩
    intro q hq; injection hq with hq
    rw [hb.1.psize] at hq
    exact .inr (by rw [← hq]; simp)

/-- C21 at the client: whatever the order, repetition and loss of the blocks of a
response, the response handler of the application is only called with the whole
payload or, after a block that was refused, with no payload at all. -/
theorem client_completes_partial (p : List UInt8) (bs max : Nat)
    (ms : List Blk) (hp : ∀ m ∈ ms, BlockOf p bs m) :
    ∀ s : Option Buf, (∀ b, s = some b → Pre p b ∧ Whole p bs b) →
    ∃ s' rs, runsC max s ms = .ok (s', rs) ∧
      (∀ b, s' = some b → Pre p b ∧ Whole p bs b) ∧
      ∀ q, ResC.callback q ∈ rs → q = p.map some ∨ q = [] := by
  induction ms with
  | nil => intro s hs; exact ⟨s, [], rfl, hs, by simp⟩
  | cons m r ih =>
    intro s hs
    have ih := ih (fun m hm => hp m (List.mem_cons_of_mem _ hm))
    obtain ⟨s1, x, he, hs1, hx⟩ := recvC_whole p bs max s m (hp m (List.mem_cons_self ..)) hs
    obtain ⟨s2, rs, he2, hs2, hrs⟩ := ih s1 hs1
    refine ⟨s2, x :: rs, by simp only [runsC, he, Out.bind, he2], hs2, ?_⟩
    intro q hq
    rcases List.mem_cons.1 hq with h | h
    · exact hx q h.symm
    · exact hrs q h

example : runsC 100 none [exBlk 2 0, exBlk 2 0, exBlk 2 1, exBlk 2 2] =
    .ok (none, [.ask 1 2, .ask 1 2, .ask 2 2, .callback (exPay.map some)]) := by decide

/-- A block that does not follow, and also a payload larger than the buffer, is
reported to the application as a successful response without payload. -/
theorem client_refused_block_false :
    runsC 100 none [exBlk 2 0, exBlk 2 2] = .ok (none, [.ask 1 2, .callback []]) ∧
    runsC 4 none [exBlk 2 0, exBlk 2 1, exBlk 2 2] =
      .ok (none, [.ask 1 2, .ask 2 2, .callback []]) := by decide

/-! ### C22: transmission by the server -/

/-- The response buffer holds the whole payload `p`. -/
structure Holds (p : List UInt8) (b : Buf) : Prop where
  cap : p.length ≤ b.mem.length
  bytes : b.mem.take p.length = p.map some
  psize : b.psize = p.length
  next : b.next ≤ p.length

theorem Holds.setNext {p : List UInt8} {b : Buf} (h : Holds p b) (n : Nat) (hn : n ≤ p.length) :
    Holds p { b with next := n } := ⟨h.cap, h.bytes, h.psize, hn⟩

theorem holds_slice (p : List UInt8) (b : Buf) (h : Holds p b) (off n : Nat)
    (hn : off + n ≤ p.length) : slice b.mem off n = (slice p off n).map some := by
  have : slice b.mem off n = slice (b.mem.take p.length) off n := by
    apply List.ext_getElem?
    intro i
    simp only [getElem?_slice, List.getElem?_take]
    by_cases hi : i < n
    · simp only [hi, if_true]
      rw [if_pos (by omega)]
    · simp only [hi, if_false]
  rw [this, h.bytes]
  simp [slice, List.map_take, List.map_drop]

/-- C22, in bounds: a block at a multiple of the block size lies inside the
payload, is as long as possible, and moves the offset behind it. -/
theorem dispatch_spec (p : List UInt8) (b : Buf) (h : Holds p b) (k size : Nat) :
    dispatchBlock b (k * size) size =
      if k * size < p.length then
        some ((k * size, min size (p.length - k * size)),
          { b with next := k * size + min size (p.length - k * size) })
      else none := by
  rw [dispatchBlock, h.psize]
  by_cases h1 : k * size < p.length
  · rw [if_pos h1, if_pos h1]
    by_cases h2 : p.length < size
    · have hk : k = 0 := by
        rcases Nat.eq_zero_or_pos k with h | h
        · exact h
        · have := Nat.mul_le_mul_right size h
          omega
      subst hk
      simp only [Nat.zero_mul, Nat.zero_add, Nat.sub_zero, if_pos h2]
      rw [Nat.min_eq_right (by omega)]
    · simp only [if_neg h2]
  · rw [if_neg h1, if_neg h1]

/-- An offset that is no multiple of the block size would read behind the
payload; the engine never asks for one. -/
theorem dispatch_unaligned_false :
    dispatchBlock ⟨[some 1, some 2, some 3], 0, 3⟩ 2 4 = some ((2, 3), ⟨[some 1, some 2, some 3], 5, 3⟩)
    ∧ sliceChk [some (1 : UInt8), some 2, some 3] 2 3 = .ub := by decide

/-- C22: the answer to any block2 request (any number and size) during a transfer:
a request for a block that does not start where the last sent block ended, nor at
most one block before, is ignored; otherwise the block sent is exactly the slice
of the payload with that number, its more flag says whether the payload goes on,
and the transfer is kept as long as it does. Nothing is read outside the payload. -/
theorem server_block_exact (p : List UInt8) (b : Buf) (h : Holds p b) (hp : p.length < u32)
    (num size : Nat) (hoff : num * size < u32) (hsz : size < 2 ^ 16) :
    recv2 (some b) num (num * size) size =
      .ok (
        if b.next < num * size ∧ u32 - size > num * size - b.next ∨ b.next > num * size + size
        then (some b, .dup)
        else if num * size < p.length then
          (if num * size + size < p.length then
              some { b with next := num * size + min size (p.length - num * size) } else none,
            .block ⟨num, size, decide (num * size + size < p.length),
              (slice p (num * size) size).map some⟩)
        else (none, .error)) := by
  have hn := h.next
  simp only [recv2]
  have e : ((b.next + u32 - num * size % u32) % u32 > size) ↔
      (b.next < num * size ∧ u32 - size > num * size - b.next ∨ b.next > num * size + size) := by
    generalize hx : num * size = x at *
    rw [Nat.mod_eq_of_lt hoff]
    unfold u32 at *
    by_cases hlt : b.next < x
    · rw [Nat.mod_eq_of_lt (by omega)]; omega
    · rw [show b.next + 2 ^ 32 - x = b.next - x + 2 ^ 32 by omega, Nat.add_mod_right,
        Nat.mod_eq_of_lt (by omega)]
      omega
  by_cases h1 : b.next < num * size ∧ u32 - size > num * size - b.next ∨ b.next > num * size + size
  · rw [if_pos (e.2 h1), if_pos h1]
  · rw [if_neg (fun x => h1 (e.1 x)), if_neg h1, dispatch_spec p b h]
    by_cases h2 : num * size < p.length
    · rw [if_pos h2, if_pos h2]
      have hm : min size (p.length - num * size) ≤ p.length - num * size := Nat.min_le_right ..
      have hc := h.cap
      simp only
      rw [sliceChk, if_pos (by omega), holds_slice p b h _ _ (by omega)]
      have hsl : slice p (num * size) (min size (p.length - num * size)) = slice p (num * size) size := by
        apply List.ext_getElem?
        intro i
        simp only [getElem?_slice]
        by_cases hi : i < min size (p.length - num * size)
        · rw [if_pos hi, if_pos (by omega)]
        · rw [if_neg hi]
          by_cases hi2 : i < size
          · rw [if_pos hi2, List.getElem?_eq_none (by omega)]
          · rw [if_neg hi2]
      simp only [Out.bind, hsl, h.psize]
      have e2 : (num * size + min size (p.length - num * size) < p.length) ↔
          num * size + size < p.length := by omega
      simp only [e2]
    · rw [if_neg h2, if_neg h2]

theorem respond_exact (p : List UInt8) (b : Buf) (h : Holds p b) (enabled : Bool) (size : Nat) :
    respond b enabled size =
      .ok (if enabled ∨ p.length > size then some { b with next := if p = [] then b.next else min size p.length }
          else none,
        ⟨0, size, decide (p.length > size), (p.take size).map some⟩) := by
  have hd := dispatch_spec p b h 0 size
  simp only [Nat.zero_mul, Nat.zero_add, Nat.sub_zero] at hd
  rw [respond, hd]
  cases p with
  | nil =>
    have hz : b.psize = 0 := h.psize
    cases b with
    | mk m n z => simp at hz; subst hz; simp
  | cons a r =>
    generalize hp : a :: r = p at *
    have h0 : 0 < p.length := by rw [← hp]; simp
    have hne : p ≠ [] := by rw [← hp]; simp
    simp only [if_pos h0]
    have hc := h.cap
    rw [sliceChk, if_pos (by omega)]
    simp only [Out.bind, h.psize, if_neg hne]
    rw [holds_slice p b h 0 _ (by omega)]
    simp only [Out.ok.injEq, Prod.mk.injEq, true_and, RBlk.mk.injEq]
    congr 1
    simp only [slice, List.drop_zero]
    apply List.ext_getElem?
    intro i
    simp only [List.getElem?_take]
    by_cases hi : i < min size p.length
    · rw [if_pos hi, if_pos (by omega)]
    · rw [if_neg hi]
      by_cases hi2 : i < size
      · rw [if_pos hi2, List.getElem?_eq_none (by omega)]
      · rw [if_neg hi2]

/-- Asking for blocks `k`, `k + 1`, ... until the server says there is no more;
`fuel` bounds the number of requests. The data received. -/
def download (size : Nat) : Nat → Option Buf → Nat → Out (Option (List (Option UInt8)))
  | 0, _, _ => .ok none
  | fuel + 1, s, k =>
    (recv2 s k (k * size) size).bind fun x =>
    match x.2 with
    | .block r =>
      if r.more then
        (download size fuel x.1 (k + 1)).bind fun y => .ok (y.map (r.data ++ ·))
      else .ok (some r.data)
    | _ => .ok none

/-- C22: a client that asks for the blocks in turn receives, block by block, the
rest of the payload and nothing else. -/
theorem download_rest (p : List UInt8) (size : Nat) (hs : 0 < size) (hsz : size < 2 ^ 16)
    (hp : p.length + 2 ^ 16 < u32) :
    ∀ fuel k b, Holds p b → b.next = k * size → k * size < p.length →
      p.length - k * size ≤ fuel →
      download size fuel (some b) k = .ok (some ((p.drop (k * size)).map some)) := by
  intro fuel
  induction fuel with
  | zero => intro k b h hn hk hf; omega
  | succ fuel ih =>
    intro k b h hn hk hf
    have hx := server_block_exact p b h (by omega) k size (by omega) hsz
    rw [if_neg (by omega), if_pos hk] at hx
    rw [download, hx, Out.bind]
    dsimp only
    have e1 : (k + 1) * size = k * size + size := by rw [Nat.add_mul, Nat.one_mul]
    by_cases h2 : k * size + size < p.length
    · rw [if_pos h2, decide_eq_true h2, if_pos rfl,
        ih (k + 1) _ (h.setNext _ (by omega)) (by dsimp only; omega) (by omega) (by omega), Out.bind]
      simp only [Option.map_some, Out.ok.injEq, Option.some.injEq, ← List.map_append]
      congr 1
      rw [e1, ← List.drop_drop, slice, List.take_append_drop]
    · rw [decide_eq_false h2, if_neg (by simp)]
      simp only [Out.ok.injEq, Option.some.injEq]
      congr 1
      rw [slice, List.take_of_length_le]
      simp; omega

/-- C22: the first answer and the blocks asked for after it, put together, are the
payload. -/
theorem download_whole (p : List UInt8) (b : Buf) (h : Holds p b) (size : Nat) (hs : 0 < size)
    (hsz : size < 2 ^ 16) (hp : p.length + 2 ^ 16 < u32) (hbig : size < p.length) :
    ∃ b1 first, respond b false size = .ok (some b1, first) ∧ first.more = true ∧
      download size p.length (some b1) 1 = .ok (some ((p.drop size).map some)) ∧
      first.data ++ (p.drop size).map some = p.map some := by
  refine ⟨_, _, by rw [respond_exact p b h, if_pos (.inr hbig)], by simpa using hbig, ?_, ?_⟩
  · have hne : p ≠ [] := by intro hp; simp [hp] at hbig
    rw [download_rest p size hs hsz hp p.length 1 _
      (h.setNext _ (by rw [if_neg hne]; omega))
      (by simp only [if_neg hne, Nat.one_mul]; omega) (by omega) (by omega), Nat.one_mul]
  · simp only
    rw [← List.map_append, List.take_append_drop]

/-- Example buffer: 5 bytes of payload in 8 bytes of memory (no /repo counterpart). -/
def exBuf : Buf := ⟨(exPay.map some) ++ [none, none, none], 0, 5⟩

theorem exBuf_holds : Holds exPay exBuf := ⟨by decide, by decide, by decide, by decide⟩

example : (respond exBuf false 2).bind (fun x => download 2 5 x.1 1) =
    .ok (some [some 3, some 4, some 5]) := by decide

/-! ### C22: an upload, client and server together -/

/-- The client sends the blocks of its buffer one after the other, each when the
server has answered the one before; the server limits the block size to `sbs`.
The payload for which the handler of the server is called. -/
def uploadLoop (max sbs : Nat) : Nat → Buf → Option Buf → Blk → Out (Option (List (Option UInt8)))
  | 0, _, _, _ => .ok none
  | fuel + 1, c, s, m =>
    (recv1 max s { m with size := min m.size sbs }).bind fun x =>
    match x.2 with
    | .cont num size =>
      (uploadNext c num size).bind fun y =>
      match y with
      | none => .ok none
      | some (m', c') => uploadLoop max sbs fuel c' x.1 m'
    | .invoke q => .ok (some q)
    | .error => .ok none

theorem map_getD_some (l : List UInt8) : (l.map some).map (fun x : Option UInt8 => x.getD 0) = l := by
  simp [Function.comp_def]

theorem recv1_in_order (p : List UInt8) (max : Nat) (b : Buf) (m : Blk) (hb : Pre p b)
    (hn0 : 0 < b.next) (hoff : m.off = b.next) (n : Nat) (hd : m.data = slice p b.next n)
    (hlen : b.next + m.data.length ≤ p.length) (hpos : 0 < m.data.length)
    (hsz : m.data.length ≤ m.size) (h16 : m.data.length < 2 ^ 16) (hcap : p.length ≤ b.mem.length) :
    ∃ b', recv1 max (some b) m =
        (if m.more then .ok (some b', .cont m.num m.size)
          else .ok (none, .invoke ((p.take (b.next + m.data.length)).map some))) ∧
      Pre p b' ∧ b'.next = b.next + m.data.length ∧ b'.mem.length = b.mem.length := by
  have ho : openBuf max (dropComplete (some b) m) m = some b := by
    simp only [dropComplete]
    rw [if_neg (by rw [hb.psize]; omega)]
    rfl
  have hmin : min (m.data.length % 2 ^ 16) m.size = m.data.length := by
    rw [Nat.mod_eq_of_lt h16]; omega
  obtain ⟨r, b', he, hp, hl, hf, hn⟩ := handle_pre p b hb b.next n m.data.length
    (by rw [← hd]; exact Nat.le_refl _)
  have hr : r = true := by
    rw [← hd] at he
    have := handle_next b m.data b.next m.data.length rfl (by omega) (by omega) (Nat.le_refl _)
    rw [this] at he
    simp only [Out.ok.injEq, Prod.mk.injEq] at he
    exact he.1.symm
  subst hr
  have hn' := (hn rfl).2
  rw [if_pos rfl] at hn'
  refine ⟨b', ?_, hp, hn', hl⟩
  rw [recv1, ho]
  simp only [hmin, hoff]
  rw [← hd] at he
  simp only [he, Out.bind, if_true]
  cases m.more with
  | true => rfl
  | false =>
    simp only [Bool.false_eq_true, if_false]
    rw [hp.bytes, hn']

theorem upload_rest (p : List UInt8) (max sbs : Nat) (bs : Nat) (hbs : 0 < bs) (hle : bs ≤ sbs)
    (h16 : bs < 2 ^ 16) (hp : p.length + 2 ^ 16 < u32) :
    ∀ fuel k c s m, Holds p c → Pre p s → s.next = k * bs → 0 < k → k * bs < p.length →
      p.length ≤ s.mem.length →
      m = ⟨k, k * bs, bs, decide (k * bs + bs < p.length), slice p (k * bs) bs, none⟩ →
      p.length - k * bs ≤ fuel →
      uploadLoop max sbs fuel c (some s) m = .ok (some (p.map some)) := by
  intro fuel
  induction fuel with
  | zero => intro k c s m _ _ _ _ _ _ _ hf; omega
  | succ fuel ih =>
    intro k c s m hc hs hnext hk hlt hcap hm hf
    subst hm
    have hkb : bs ≤ k * bs := Nat.le_mul_of_pos_left _ hk
    have hdl := length_block p bs k
    simp only [uploadLoop, Nat.min_eq_left hle]
    obtain ⟨s', he, hs', hn', hl'⟩ := recv1_in_order p max s
      ⟨k, k * bs, bs, decide (k * bs + bs < p.length), slice p (k * bs) bs, none⟩ hs (by omega)
      (by simp only; omega) bs (by simp only [hnext]) (by simp only [hdl]; omega)
      (by simp only [hdl]; omega) (by simp only [hdl]; omega) (by simp only [hdl]; omega) hcap
    rw [he]
    have e1 : (k + 1) * bs = k * bs + bs := by rw [Nat.add_mul, Nat.one_mul]
    by_cases h2 : k * bs + bs < p.length
    · simp only [decide_eq_true h2, if_true, Out.bind, uploadNext]
      rw [Nat.mod_eq_of_lt (by omega), ← e1, dispatch_spec p c hc, if_pos (by omega)]
      simp only
      have hcc := hc.cap
      rw [sliceChk, if_pos (by omega), holds_slice p c hc _ _ (by omega)]
      simp only [map_getD_some]
      apply ih (k + 1) _ _ _ (hc.setNext _ (by omega)) hs'
        (by rw [hn']; simp only [hdl]; omega) (by omega) (by omega) (by omega)
      · simp only [Blk.mk.injEq, true_and, and_true, hc.psize]
        refine ⟨?_, ?_⟩
        · have : ((k + 1) * bs + min bs (p.length - (k + 1) * bs) < p.length) ↔
              ((k + 1) * bs + bs < p.length) := by omega
          simp only [this]
        · apply List.ext_getElem?
          intro i
          simp only [getElem?_slice]
          by_cases hi : i < min bs (p.length - (k + 1) * bs)
          · rw [if_pos hi, if_pos (by omega)]
          · rw [if_neg hi]
            by_cases hi2 : i < bs
            · rw [if_pos hi2, List.getElem?_eq_none (by omega)]
            · rw [if_neg hi2]
      · omega
    · simp only [decide_eq_false h2, Bool.false_eq_true, if_false, Out.bind, Out.ok.injEq,
        Option.some.injEq]
      congr 1
      apply List.take_of_length_le
      simp only [hdl]; omega

/-- C21 and C22 together: an upload of a payload that needs more than one block,
from a client with block size `cbs` to a server with block size `sbs` (powers of
two up to 1024, of which only `sbs` limiting `cbs` matters), ends with the handler
of the server called with exactly the payload: the Size1 option makes the server
allocate enough memory, and the server's smaller block size is adopted. -/
theorem upload_whole (p : List UInt8) (c : Buf) (hc : Holds p c) (max cbs sbs : Nat)
    (hcb : 0 < cbs) (hsb : 0 < sbs) (h16 : cbs < 2 ^ 16) (hp : p.length + 2 ^ 16 < u32)
    (hbig : cbs < p.length) :
    ∃ m c', upload0 c cbs = .ok (some (m, c')) ∧
      uploadLoop max sbs (p.length + 1) c' none m = .ok (some (p.map some)) := by
  have hne : p.length ≠ 0 := by omega
  have hd := dispatch_spec p c hc 0 cbs
  simp only [Nat.zero_mul, Nat.zero_add, Nat.sub_zero] at hd
  rw [if_pos (by omega), Nat.min_eq_left (by omega)] at hd
  have hcc := hc.cap
  refine ⟨⟨0, 0, cbs, true, p.take cbs, some p.length⟩, { c with next := cbs }, ?_, ?_⟩
  · rw [upload0, hc.psize, if_pos hbig, hd]
    simp only
    rw [sliceChk, if_pos (by omega), holds_slice p c hc _ _ (by omega)]
    simp only [Out.bind, map_getD_some, slice, List.drop_zero, hc.psize]
  · generalize hbs : min cbs sbs = bs
    have hbs0 : 0 < bs := by omega
    simp only [uploadLoop, hbs, recv1, dropComplete, openBuf, if_true, capacity, if_neg hne]
    have hl : (p.take cbs).length = cbs := by simp; omega
    rw [hl, Nat.mod_eq_of_lt h16, Nat.min_eq_right (by omega)]
    have hap : Pre p (alloc p.length) := pre_alloc _ _
    obtain ⟨r, s, he, hps, hls, -, hn⟩ := handle_pre p (alloc p.length) hap 0 cbs bs
      (by rw [show slice p 0 cbs = p.take cbs from by simp [slice], hl]; omega)
    rw [show slice p 0 cbs = p.take cbs from by simp [slice]] at he
    have hx := handle_next (alloc p.length) (p.take cbs) 0 bs rfl (by simp [alloc]; omega)
      (by simp [alloc]; omega) (by omega)
    rw [he] at hx
    simp only [Out.ok.injEq, Prod.mk.injEq] at hx
    obtain ⟨hr, -⟩ := hx
    subst hr
    have hn' := (hn rfl).2
    simp only [alloc, if_true, Nat.zero_add] at hn'
    simp only [he, Out.bind, if_true, uploadNext, Nat.zero_mul, Nat.zero_add]
    rw [Nat.mod_eq_of_lt (by omega)]
    have hc' : Holds p { c with next := cbs } := (hc.setNext _ (by omega))
    have hd1 := dispatch_spec p _ hc' 1 bs
    rw [Nat.one_mul, if_pos (by omega)] at hd1
    rw [hd1]
    simp only
    rw [sliceChk, if_pos (by omega), holds_slice p c hc _ _ (by omega)]
    simp only [map_getD_some, Nat.one_mul]
    apply upload_rest p max sbs bs hbs0 (by omega) (by omega) hp p.length 1 _ _ _
      (hc.setNext _ (by omega)) hps (by omega) (by omega) (by omega)
      (by rw [hls]; simp [alloc])
    · simp only [Blk.mk.injEq, true_and, and_true, hc.psize, Nat.one_mul]
      refine ⟨?_, ?_⟩
      · have : (bs + min bs (p.length - bs) < p.length) ↔ (bs + bs < p.length) := by omega
        simp only [this]
      · apply List.ext_getElem?
        intro i
        simp only [getElem?_slice]
        by_cases hi : i < min bs (p.length - bs)
        · rw [if_pos hi, if_pos (by omega)]
        · rw [if_neg hi]
          by_cases hi2 : i < bs
          · rw [if_pos hi2, List.getElem?_eq_none (by omega)]
          · rw [if_neg hi2]
    · omega

/-- A client with blocks of 4 bytes and a server with blocks of 2. -/
example : (upload0 exBuf 4).bind (fun x => match x with
    | some (m, c) => uploadLoop 100 2 6 c none m
    | none => .ok none) = .ok (some (exPay.map some)) := by decide

end Verif.Blockwise
