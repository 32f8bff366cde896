import Verif.Tls.StreamModel
import Verif.Tls.StreamSpec

/-!
C115: the CoAP messages a peer sends over TLS/TCP are delivered one by one, as
they were sent.
-/

namespace Verif.Tls

open Verif.CoapMsg Spec

theorem u8_ofNat (n : Nat) (h : n < 256) : (UInt8.ofNat n).toNat = n := by
  simp [UInt8.toNat_ofNat']; omega

theorem nib (x t : Nat) (hx : x < 16) (ht : t < 16) :
    (0xF0 &&& (UInt8.ofNat (x * 16 + t)).toNat) >>> 4 = x ∧
      (0x0F &&& (UInt8.ofNat (x * 16 + t)).toNat) = t := by
  have key : ∀ a : Fin 16, ∀ c : Fin 16, (0xF0 &&& (UInt8.ofNat (a.val * 16 + c.val)).toNat) >>> 4 = a.val ∧
      (0x0F &&& (UInt8.ofNat (a.val * 16 + c.val)).toNat) = c.val := by decide +kernel
  exact key ⟨x, hx⟩ ⟨t, ht⟩

theorem take_ge {α} (a : α) (l : List α) (k : Nat) (h : 1 ≤ k) : (a :: l).take k = a :: l.take (k - 1) := by
  cases k with
  | zero => omega
  | succ k => simp

theorem size_short (code : UInt8) (token body : Bytes) (ht : token.length < 16) (hb : body.length < 13)
    (k : Nat) (hk : 6 ≤ k) :
    tcpPacketSize ((UInt8.ofNat (body.length * 16 + token.length) :: code :: (token ++ body)).take k) k =
      .ok (some (UInt8.ofNat (body.length * 16 + token.length) :: code :: (token ++ body)).length) := by
  have hn := nib body.length token.length (by omega) ht
  rw [take_ge _ _ _ (by omega)]
  simp only [tcpPacketSize, tcpParseLength, Out.get, List.getElem?_cons_zero, Out.ok_bind, hn.1, hn.2]
  rw [if_neg (by omega), if_pos hb]
  simp; omega

theorem size_ext1 (code : UInt8) (token body : Bytes) (ht : token.length < 16) (h1 : 13 ≤ body.length) (h2 : body.length < 269)
    (k : Nat) (hk : 6 ≤ k) :
    tcpPacketSize ((UInt8.ofNat (13 * 16 + token.length) :: UInt8.ofNat (body.length - 13) :: code :: (token ++ body)).take k) k =
      .ok (some (UInt8.ofNat (13 * 16 + token.length) :: UInt8.ofNat (body.length - 13) :: code :: (token ++ body)).length) := by
  have hn := nib 13 token.length (by omega) ht
  have hb := u8_ofNat (body.length - 13) (by omega)
  rw [take_ge _ _ _ (by omega), take_ge _ _ _ (by omega)]
  simp only [tcpPacketSize, tcpParseLength, Out.get, List.getElem?_cons_zero, Out.ok_bind, hn.1, hn.2]
  rw [if_neg (by omega), if_neg (by omega), if_neg (by simp; omega)]
  simp [tcpExt, Out.get, hb]; omega

theorem size_ext2 (code : UInt8) (token body : Bytes) (ht : token.length < 16) (h1 : 269 ≤ body.length) (h2 : body.length < 65805)
    (k : Nat) (hk : 6 ≤ k) :
    tcpPacketSize ((UInt8.ofNat (14 * 16 + token.length) :: UInt8.ofNat ((body.length - 269) / 256) ::
      UInt8.ofNat ((body.length - 269) % 256) :: code :: (token ++ body)).take k) k =
      .ok (some (UInt8.ofNat (14 * 16 + token.length) :: UInt8.ofNat ((body.length - 269) / 256) ::
      UInt8.ofNat ((body.length - 269) % 256) :: code :: (token ++ body)).length) := by
  have hn := nib 14 token.length (by omega) ht
  have hb := u8_ofNat ((body.length - 269) / 256) (by omega)
  have hb2 := u8_ofNat ((body.length - 269) % 256) (by omega)
  rw [take_ge _ _ _ (by omega), take_ge _ _ _ (by omega), take_ge _ _ _ (by omega)]
  simp only [tcpPacketSize, tcpParseLength, Out.get, List.getElem?_cons_zero, Out.ok_bind, hn.1, hn.2]
  rw [if_neg (by omega), if_neg (by omega), if_neg (by simp; omega)]
  simp only [tcpExt, Out.get, Nat.shiftLeft_eq, Out.ok_bind, List.getElem?_cons_succ,
    List.getElem?_cons_zero, hb, hb2, Nat.reduceSub, Nat.reducePow, Nat.reduceMul, Nat.reduceAdd]
  simp; omega

theorem ext4_val (a b c d e : UInt8) (l : Bytes) :
    tcpExt (a :: b :: c :: d :: e :: l) 1 4 =
      .ok (b.toNat * 16777216 + (c.toNat * 65536 + (d.toNat * 256 + e.toNat))) := by
  simp [tcpExt, Out.get, Nat.shiftLeft_eq]

theorem size_ext4_aux (b0 b c d e : UInt8) (l : Bytes) (k t x : Nat) (hk : 6 ≤ k)
    (hn : (0xF0 &&& b0.toNat) >>> 4 = 15) (ht : 0x0F &&& b0.toNat = t)
    (hx : b.toNat * 16777216 + (c.toNat * 65536 + (d.toNat * 256 + e.toNat)) = x) :
    tcpPacketSize (b0 :: b :: c :: d :: e :: l) k = .ok (some (2 + 4 + t + (x + 65805))) := by
  have h0 : Out.get (b0 :: b :: c :: d :: e :: l) 0 = .ok b0 := rfl
  have hs : (1 <<< (15 - 13) : Nat) = 4 := rfl
  simp only [tcpPacketSize, tcpParseLength, h0, Out.ok_bind, hn, ht, hs, ext4_val, hx]
  rw [if_neg (by omega), if_neg (by omega), if_neg (by omega)]
  rfl

theorem size_ext4 (code : UInt8) (token body : Bytes) (ht : token.length < 16)
    (h1 : 65805 ≤ body.length) (h2 : body.length < 4295033101)
    (k : Nat) (hk : 6 ≤ k) :
    tcpPacketSize ((UInt8.ofNat (15 * 16 + token.length) :: UInt8.ofNat ((body.length - 65805) / 16777216) ::
      UInt8.ofNat ((body.length - 65805) / 65536 % 256) ::
      UInt8.ofNat ((body.length - 65805) / 256 % 256) ::
      UInt8.ofNat ((body.length - 65805) % 256) :: code :: (token ++ body)).take k) k =
      .ok (some (UInt8.ofNat (15 * 16 + token.length) :: UInt8.ofNat ((body.length - 65805) / 16777216) ::
      UInt8.ofNat ((body.length - 65805) / 65536 % 256) ::
      UInt8.ofNat ((body.length - 65805) / 256 % 256) ::
      UInt8.ofNat ((body.length - 65805) % 256) :: code :: (token ++ body)).length) := by
  have hn := nib 15 token.length (by omega) ht
  obtain ⟨n, hnb⟩ : ∃ n, n = body.length := ⟨_, rfl⟩
  rw [← hnb] at h1 h2 ⊢
  rw [take_ge _ _ _ (by omega), take_ge _ _ _ (by omega), take_ge _ _ _ (by omega),
    take_ge _ _ _ (by omega), take_ge _ _ _ (by omega)]
  rw [size_ext4_aux _ _ _ _ _ _ k token.length (n - 65805) hk hn.1 hn.2]
  · simp only [List.length_cons, List.length_append, ← hnb]
    congr 2
    omega
  · rw [u8_ofNat _ (by omega), u8_ofNat _ (by omega), u8_ofNat _ (by omega), u8_ofNat _ (by omega)]
    omega

/-- The length of a message is known after its first six bytes. -/
theorem frame_size (f : Bytes) (hf : Frame f) (k : Nat) (hk : 6 ≤ k) (hl : k ≤ f.length) :
    tcpPacketSize (f.take k) (f.take k).length = .ok (some f.length) := by
  have hlen : (f.take k).length = k := by simp; omega
  rw [hlen]
  cases hf with
  | short code token body ht hb => exact size_short code token body ht hb k hk
  | ext1 code token body ht h1 h2 => exact size_ext1 code token body ht h1 h2 k hk
  | ext2 code token body ht h1 h2 => exact size_ext2 code token body ht h1 h2 k hk
  | ext4 code token body ht h1 h2 => exact size_ext4 code token body ht h1 h2 k hk

/-- Records of application data that are not empty. -/
def Clean (recs : List Rec) : Prop := ∀ r ∈ recs, ∃ b, r = .data b ∧ b ≠ []

theorem clean_tail (r : Rec) (rs : List Rec) (h : Clean (r :: rs)) : Clean rs :=
  fun x hx => h x (by simp [hx])

theorem recBytes_append (a c : List Rec) (h : Clean a) : recBytes (a ++ c) = recBytes a ++ recBytes c := by
  induction a with
  | nil => rfl
  | cons r rs ih =>
    obtain ⟨b, rfl, _⟩ := h r (by simp)
    simp [recBytes, ih (clean_tail _ _ h)]

/-- The part of a buffer needed for a message `f` that is being received. -/
structure Partial (f : Bytes) (m : Msg) : Prop where
  pre : m.data <+: f
  less : m.data.length < f.length
  room : f.length ≤ m.cap

/-- What the loop aims at while it reads the message `f`. -/
theorem target_partial (c : StreamCfg) (f : Bytes) (hf : Frame f) (h7 : 7 ≤ f.length) (hp : f.length ≤ c.pdu)
    (m : Msg) (hm : Partial f m) :
    ∃ total want m', target c m = .ok (some (total, want, m')) ∧ Partial f m' ∧ m'.data = m.data ∧
      0 < want ∧ m.data.length + want ≤ f.length ∧ (total = 0 ∨ total = f.length) ∧
      (total = 0 → m.data.length + want < f.length) := by
  obtain ⟨hpre, hless, hroom⟩ := hm
  simp only [target]
  by_cases h6 : m.data.length < 6
  · rw [if_pos h6]
    exact ⟨_, _, _, rfl, ⟨hpre, hless, hroom⟩, rfl, by omega, by omega, .inl rfl, by omega⟩
  · rw [if_neg h6]
    have ht : m.data = f.take m.data.length := List.prefix_iff_eq_take.mp hpre
    have hs := frame_size f hf m.data.length (by omega) (by omega)
    rw [← ht] at hs
    rw [hs]
    simp only [Out.ok_bind]
    rw [if_neg (by omega)]
    have hsub : ∀ a b : Nat, b < a → a < 2 ^ 64 → subSize a b = a - b := by
      intro a b h1 h2
      simp only [subSize]
      rw [show a + 2 ^ 64 - b = (a - b) + 2 ^ 64 by omega, Nat.add_mod_right, Nat.mod_eq_of_lt (by omega)]
    have hf64 : f.length < 2 ^ 64 := by
      cases hf <;> simp <;> omega
    rw [hsub _ _ hless hf64]
    have hsh : (shrink c m f.length).data = m.data ∧ f.length ≤ (shrink c m f.length).cap := by
      simp only [shrink]
      split
      · exact ⟨List.take_of_length_le (by omega), Nat.le_refl _⟩
      · exact ⟨rfl, hroom⟩
    refine ⟨_, _, _, rfl, ⟨?_, ?_, hsh.2⟩, hsh.1, by omega, by omega, .inr rfl, by omega⟩
    · rw [hsh.1]; exact hpre
    · rw [hsh.1]; exact hless

/-- One call while the message `f` is being received: it either takes everything
there is and waits, or ends exactly behind `f`. -/
theorem readLoop_frame (c : StreamCfg) (f rest : Bytes) (hf : Frame f) (h7 : 7 ≤ f.length) (hp : f.length ≤ c.pdu) :
    ∀ (n : Nat) (m : Msg) (recs : List Rec), Partial f m → Clean recs → (recBytes recs).length < n →
      m.data ++ recBytes recs <+: f ++ rest →
      (∃ m', readLoop c n m recs = .ok (.wait m' []) ∧ Partial f m' ∧ m'.data = m.data ++ recBytes recs) ∨
      (∃ recs', readLoop c n m recs = .ok (.done f recs') ∧ Clean recs' ∧
        m.data ++ recBytes recs = f ++ recBytes recs') := by
  intro n
  induction n with
  | zero => intro m recs _ _ h; omega
  | succ n ih =>
    intro m recs hm hc hn hs
    obtain ⟨total, want, m', ht, hm', hd, hw, hle, htot, hlt⟩ := target_partial c f hf h7 hp m hm
    simp only [readLoop, ht, Out.ok_bind]
    cases recs with
    | nil => exact .inl ⟨m', rfl, hm', by simp [recBytes, hd]⟩
    | cons r rs =>
      obtain ⟨b, rfl, hb⟩ := hc r (by simp)
      have hbl : 0 < b.length := List.length_pos_iff.mpr hb
      simp only
      have hk : ¬ min want b.length = 0 := by omega
      have hcap := hm'.room
      rw [if_neg hk, if_neg (by rw [hd]; omega)]
      -- the bytes that are read
      generalize hrecs : (if min want b.length < b.length then Rec.data (b.drop (min want b.length)) :: rs else rs) = recs'
      have hb' : recBytes (.data b :: rs) = b.take (min want b.length) ++ recBytes recs' := by
        rw [← hrecs]
        split
        · simp [recBytes, ← List.append_assoc]
        · next h => rw [List.take_of_length_le (by omega)]; rfl
      have hc' : Clean recs' := by
        rw [← hrecs]
        split
        · next h =>
          intro x hx
          rcases List.mem_cons.mp hx with rfl | hx
          · exact ⟨_, rfl, by intro h0; have := congrArg List.length h0; simp at this; omega⟩
          · exact clean_tail _ _ hc x hx
        · exact clean_tail _ _ hc
      have hs' : (m'.data ++ b.take (min want b.length)) ++ recBytes recs' <+: f ++ rest := by
        rw [List.append_assoc, ← hb', hd]; exact hs
      have hlen : (m'.data ++ b.take (min want b.length)).length = m.data.length + min want b.length := by
        simp [hd]
      have hpre : m'.data ++ b.take (min want b.length) <+: f := by
        have h1 : m'.data ++ b.take (min want b.length) <+: f ++ rest :=
          List.IsPrefix.trans (List.prefix_append _ _) hs'
        exact List.prefix_of_prefix_length_le h1 (List.prefix_append f rest) (by rw [hlen]; omega)
      by_cases hdone : total ≠ 0 ∧ (m'.data ++ b.take (min want b.length)).length = total
      · rw [if_pos hdone]
        have htf : total = f.length := by rcases htot with h | h; exact absurd h hdone.1; exact h
        have heq : m'.data ++ b.take (min want b.length) = f :=
          List.IsPrefix.eq_of_length hpre (by omega)
        refine .inr ⟨recs', by rw [heq], hc', ?_⟩
        rw [hb', ← List.append_assoc, ← hd, heq]
      · rw [if_neg hdone]
        have hless : (m'.data ++ b.take (min want b.length)).length < f.length := by
          rcases htot with h | h
          · have := hlt h; rw [hlen]; omega
          · rw [hlen] at hdone ⊢; rw [h] at hdone; omega
        have hrl : (recBytes recs').length < n := by
          have := congrArg List.length hb'
          simp only [List.length_append, List.length_take] at this
          omega
        have := ih ⟨m'.data ++ b.take (min want b.length), m'.cap⟩ recs' ⟨hpre, hless, hcap⟩ hc' hrl hs'
        rw [hb', ← List.append_assoc, ← hd]
        exact this

/-- Everything that arrived at a connection, in order (specification). -/
def arrived : List StreamEv → Bytes
  | [] => []
  | .arrive (.data b) :: es => b ++ arrived es
  | _ :: es => arrived es

/-- The peer sends records of application data only, none of them empty. -/
def Sent (es : List StreamEv) : Prop := ∀ r, .arrive r ∈ es → ∃ b, r = .data b ∧ b ≠ []

/-- Messages that the receiver can cope with: longer than six bytes, not longer
than the buffer. -/
def Fit (c : StreamCfg) (fs : List Bytes) : Prop := ∀ f ∈ fs, Frame f ∧ 7 ≤ f.length ∧ f.length ≤ c.pdu

/-- State of a connection over which the messages `fs` are being sent: complete
are the first ones, in progress is the next one, and nothing is lost. -/
structure Good (c : StreamCfg) (fs : List Bytes) (got : Bytes) (s : Conn) : Prop where
  opened : s.closed = false
  clean : Clean s.recs
  out : s.out.map (·.1) = fs.take s.out.length
  cur : ∀ m, s.cur = some m → (∃ f, fs[s.out.length]? = some f ∧ Partial f m) ∨ (m.data = [] ∧ m.cap = c.pdu)
  bytes : (s.out.map (·.1)).flatten ++ ((s.cur.map (·.data)).getD [] ++ recBytes s.recs) = got

theorem take_succ_flatten (fs : List Bytes) (n : Nat) (f : Bytes) (h : fs[n]? = some f) :
    (fs.take (n + 1)).flatten = (fs.take n).flatten ++ f := by
  rw [List.take_add_one, h]; simp

theorem split_flatten (fs : List Bytes) (n : Nat) (f : Bytes) (h : fs[n]? = some f) :
    fs.flatten = (fs.take n).flatten ++ (f ++ (fs.drop (n + 1)).flatten) := by
  rw [← List.append_assoc, ← take_succ_flatten fs n f h, ← List.flatten_append, List.take_append_drop]

/-- One call of the reader. -/
theorem read_good (c : StreamCfg) (fs : List Bytes) (hfit : Fit c fs) (got : Bytes) (s : Conn)
    (h : Good c fs got s) (hpre : got <+: fs.flatten) (alloc room : Bool) :
    ∃ s', readTcp c alloc room s = .ok s' ∧ Good c fs got s' ∧
      (s'.out = s.out ∨ ∃ f, s'.out = s.out ++ [(f, room)]) ∧
      (alloc = true → s.out.length < fs.length →
        (fs.take (s.out.length + 1)).flatten.length ≤ got.length → s'.out.length = s.out.length + 1) := by
  have hout := h.out
  have hbytes := h.bytes
  rw [hout] at hbytes
  simp only [readTcp, h.opened]
  rw [if_neg (by simp)]
  cases hcm : s.cur.or (if alloc then some ⟨[], c.pdu⟩ else none) with
  | none =>
    refine ⟨s, rfl, h, .inl rfl, ?_⟩
    intro ha; rw [ha] at hcm; cases hc : s.cur <;> simp [hc] at hcm
  | some m =>
    have hmcur : (s.cur.map (·.data)).getD [] = m.data := by
      cases hc : s.cur with
      | none => rw [hc] at hcm; cases alloc <;> simp at hcm; rw [← hcm]; rfl
      | some m' => rw [hc] at hcm; simp at hcm; rw [hcm]; rfl
    have hmp : (∃ f, fs[s.out.length]? = some f ∧ Partial f m) ∨ (m.data = [] ∧ m.cap = c.pdu) := by
      cases hc : s.cur with
      | none => rw [hc] at hcm; cases alloc <;> simp at hcm; rw [← hcm]; exact .inr ⟨rfl, rfl⟩
      | some m' => rw [hc] at hcm; simp at hcm; rw [← hcm]; exact h.cur m' hc
    rw [hmcur] at hbytes
    simp only
    cases hfn : fs[s.out.length]? with
    | none =>
      -- everything was delivered
      have hge : fs.length ≤ s.out.length := List.getElem?_eq_none_iff.mp hfn
      have hmd : m.data = [] ∧ m.cap = c.pdu := by
        rcases hmp with ⟨f, hf, _⟩ | h'
        · rw [hfn] at hf; cases hf
        · exact h'
      rw [List.take_of_length_le hge] at hbytes
      have hz : recBytes s.recs = [] := by
        have hl := hpre.length_le
        rw [← hbytes] at hl
        simp only [List.length_append, hmd.1] at hl
        exact List.eq_nil_of_length_eq_zero (by omega)
      have hr : s.recs = [] := by
        cases hrs : s.recs with
        | nil => rfl
        | cons r rs =>
          obtain ⟨b, rfl, hb⟩ := h.clean r (by simp [hrs])
          rw [hrs] at hz
          simp [recBytes] at hz
          exact absurd hz.1 hb
      refine ⟨{ s with cur := some m, recs := [] }, ?_, ⟨h.opened, ?_, h.out, ?_, ?_⟩, .inl rfl, ?_⟩
      · rw [hr]
        simp [readLoop, target, hmd.1, h.opened]
      · intro x hx; simp at hx
      · intro m' hm'; simp at hm'; rw [← hm']; exact .inr hmd
      · rw [h.out, List.take_of_length_le hge, ← hbytes, hr]; simp
      · intro _ hlt; omega
    | some f =>
      have hfm : f ∈ fs := List.mem_of_getElem? hfn
      obtain ⟨hf, h7, hp⟩ := hfit f hfm
      have hpm : Partial f m := by
        rcases hmp with ⟨g, hg, hgm⟩ | h'
        · rw [hfn] at hg; cases hg; exact hgm
        · exact ⟨by rw [h'.1]; exact List.nil_prefix, by rw [h'.1]; simp; omega, by rw [h'.2]; exact hp⟩
      have hs : m.data ++ recBytes s.recs <+: f ++ (fs.drop (s.out.length + 1)).flatten := by
        rw [split_flatten fs _ f hfn, ← hbytes] at hpre
        exact (List.prefix_append_right_inj _).mp hpre
      rcases readLoop_frame c f _ hf h7 hp ((recBytes s.recs).length + 1) m s.recs hpm h.clean (by omega) hs with
        ⟨m', hr, hm', hd⟩ | ⟨recs', hr, hc', hd⟩
      · rw [hr]
        refine ⟨_, rfl, ⟨rfl, ?_, h.out, ?_, ?_⟩, .inl rfl, ?_⟩
        · intro x hx; simp at hx
        · intro m'' hm''; simp at hm''; rw [← hm'']; exact .inl ⟨f, hfn, hm'⟩
        · rw [h.out, ← hbytes]; simp [recBytes, hd]
        · intro _ _ hl
          rw [take_succ_flatten fs _ f hfn, ← hbytes, ← hd] at hl
          have := hm'.less
          simp only [List.length_append] at hl
          omega
      · rw [hr]
        have hnew : (s.out ++ [(f, room)]).map (·.1) = fs.take (s.out ++ [(f, room)]).length := by
          simp only [List.map_append, List.length_append, List.length_cons, List.length_nil, Nat.zero_add]
          rw [List.take_add_one, hfn, hout]; rfl
        refine ⟨_, rfl, ⟨rfl, hc', hnew, ?_, ?_⟩, .inr ⟨f, rfl⟩, ?_⟩
        · intro m'' hm''; simp at hm''
        · simp only [List.map_append, List.flatten_append, Option.map_none, Option.getD_none, List.nil_append]
          rw [hout, ← hbytes, hd]; simp
        · intro _ _ _; simp

theorem arrive_good (c : StreamCfg) (fs : List Bytes) (got b : Bytes) (hb : b ≠ []) (s : Conn)
    (h : Good c fs got s) : ∃ s', streamStep c s (.arrive (.data b)) = .ok s' ∧ Good c fs (got ++ b) s' ∧
      s'.out = s.out := by
  refine ⟨{ s with recs := s.recs ++ [.data b] }, by simp [streamStep, h.opened], ⟨h.opened, ?_, h.out, h.cur, ?_⟩, rfl⟩
  · intro x hx
    rcases List.mem_append.mp hx with hx | hx
    · exact h.clean x hx
    · simp at hx; exact ⟨b, hx, hb⟩
  · rw [recBytes_append _ _ h.clean, ← h.bytes]; simp [recBytes]

theorem run_good (c : StreamCfg) (fs : List Bytes) (hfit : Fit c fs) (es : List StreamEv) :
    ∀ (got : Bytes) (s : Conn), Good c fs got s → Sent es → got ++ arrived es <+: fs.flatten →
      ∃ s', streamRun c s es = .ok s' ∧ Good c fs (got ++ arrived es) s' := by
  induction es with
  | nil => intro got s h _ _; exact ⟨s, rfl, by simpa [arrived] using h⟩
  | cons e es ih =>
    intro got s h hs hpre
    have hs' : Sent es := fun r hr => hs r (by simp [hr])
    cases e with
    | arrive r =>
      obtain ⟨b, rfl, hb⟩ := hs r (by simp)
      simp only [arrived] at hpre ⊢
      obtain ⟨s1, h1, hg, _⟩ := arrive_good c fs got b hb s h
      simp only [streamRun, h1, Out.ok_bind]
      rw [← List.append_assoc] at hpre ⊢
      exact ih _ s1 hg hs' hpre
    | read alloc room =>
      simp only [arrived] at hpre ⊢
      obtain ⟨s1, h1, hg, _⟩ := read_good c fs hfit got s h
        (List.IsPrefix.trans (List.prefix_append _ _) hpre) alloc room
      simp only [streamRun, streamStep, h1, Out.ok_bind]
      exact ih _ s1 hg hs' hpre

theorem init_good (c : StreamCfg) (fs : List Bytes) : Good c fs [] Conn.init :=
  ⟨rfl, fun x hx => by simp [Conn.init] at hx, rfl, fun m hm => by simp [Conn.init] at hm, rfl⟩

/-- For every sequence of messages that the receiver can cope with, however TLS
cuts it into records, however the records and the calls of the reader follow one
another, and whether or not memory is available: nothing is written outside of a
buffer, the connection stays open, what is complete is a beginning of the
sequence, message by message, and the bytes of the messages, of the one in
progress and of the records still unread are what arrived.  Partial: messages of at
most six bytes are excluded (`short_frame_ub`, `six_byte_frame_false`). -/
theorem messages_in_order_partial (c : StreamCfg) (fs : List Bytes) (hfit : Fit c fs) (es : List StreamEv)
    (hs : Sent es) (hpre : arrived es <+: fs.flatten) :
    ∃ s, streamRun c Conn.init es = .ok s ∧ s.closed = false ∧ s.out.map (·.1) = fs.take s.out.length ∧
      (s.out.map (·.1)).flatten ++ ((s.cur.map (·.data)).getD [] ++ recBytes s.recs) = arrived es := by
  obtain ⟨s, h1, hg⟩ := run_good c fs hfit es [] Conn.init (init_good c fs) hs (by simpa using hpre)
  refine ⟨s, h1, hg.opened, hg.out, ?_⟩
  simpa using hg.bytes

theorem streamRun_append (c : StreamCfg) (a b : List StreamEv) : ∀ s,
    streamRun c s (a ++ b) = (streamRun c s a).bind fun s' => streamRun c s' b := by
  induction a with
  | nil => intro s; rfl
  | cons e a ih =>
    intro s
    simp only [List.cons_append, streamRun]
    cases streamStep c s e with
    | ub => rfl
    | ok s1 => simp only [Out.ok_bind]; exact ih s1

theorem take_flatten_mono (fs : List Bytes) (i j : Nat) (h : i ≤ j) :
    (fs.take i).flatten.length ≤ (fs.take j).flatten.length := by
  obtain ⟨d, rfl⟩ := Nat.exists_eq_add_of_le h
  rw [List.take_add, List.flatten_append, List.length_append]; omega

theorem reads_deliver (c : StreamCfg) (fs : List Bytes) (hfit : Fit c fs) (got : Bytes)
    (hpre : got <+: fs.flatten) (j : Nat) (hj : j ≤ fs.length) (hgot : (fs.take j).flatten.length ≤ got.length)
    (k : Nat) : ∀ s, Good c fs got s → j ≤ s.out.length + k →
      ∃ s', streamRun c s (List.replicate k (.read true true)) = .ok s' ∧ j ≤ s'.out.length := by
  induction k with
  | zero => intro s _ h; exact ⟨s, rfl, by omega⟩
  | succ k ih =>
    intro s hg h
    obtain ⟨s1, h1, hg1, ho, hd⟩ := read_good c fs hfit got s hg hpre true true
    simp only [List.replicate_succ, streamRun, streamStep, h1, Out.ok_bind]
    refine ih s1 hg1 ?_
    by_cases hlt : s.out.length < j
    · have := hd rfl (by omega) (Nat.le_trans (take_flatten_mono fs _ _ (by omega)) hgot)
      omega
    · rcases ho with ho | ⟨f, ho⟩
      · rw [ho]; omega
      · rw [ho]; simp; omega

/-- Once the first `j` messages have arrived, `j` calls of the reader deliver them
all (fewer do not suffice: `second_message_waits_false`). -/
theorem all_delivered_partial (c : StreamCfg) (fs : List Bytes) (hfit : Fit c fs) (es : List StreamEv)
    (hs : Sent es) (hpre : arrived es <+: fs.flatten) (j : Nat) (hj : j ≤ fs.length)
    (hgot : (fs.take j).flatten.length ≤ (arrived es).length) :
    ∃ s, streamRun c Conn.init (es ++ List.replicate j (.read true true)) = .ok s ∧
      (s.out.map (·.1)).take j = fs.take j := by
  obtain ⟨s1, h1, hg⟩ := run_good c fs hfit es [] Conn.init (init_good c fs) hs (by simpa using hpre)
  rw [List.nil_append] at hg
  obtain ⟨s2, h2, hl⟩ := reads_deliver c fs hfit _ hpre j hj hgot j s1 hg (by omega)
  refine ⟨s2, by rw [streamRun_append, h1]; exact h2, ?_⟩
  have har : arrived (es ++ List.replicate j (.read true true)) = arrived es := by
    have h0 : ∀ k, arrived (List.replicate k (.read true true)) = [] := by
      intro k; induction k with
      | zero => rfl
      | succ k ih => simpa [List.replicate_succ, arrived] using ih
    clear h1 hg hgot hpre hs
    induction es with
    | nil => exact h0 j
    | cons e es ih =>
      cases e with
      | arrive r => cases r <;> simp [arrived, ih]
      | read a b => simpa [arrived] using ih
  obtain ⟨s3, h3, hg3⟩ := run_good c fs hfit (es ++ List.replicate j (.read true true)) [] Conn.init
    (init_good c fs) (by
      intro r hr
      rcases List.mem_append.mp hr with hr | hr
      · exact hs r hr
      · have := List.eq_of_mem_replicate hr; cases this) (by rw [List.nil_append, har]; exact hpre)
  rw [streamRun_append, h1] at h3
  have : s3 = s2 := by
    have h4 : streamRun c s1 (List.replicate j (.read true true)) = .ok s3 := h3
    rw [h2] at h4; cases h4; rfl
  rw [this] at hg3
  rw [hg3.out, List.take_take, Nat.min_eq_left hl]

/-- The peer sends every message in one record: each is delivered when its record
was read, to the engine if its queue has room. -/
theorem one_record_each (c : StreamCfg) (fs : List Bytes) (hfit : Fit c fs) (rooms : List Bool)
    (hl : rooms.length = fs.length) :
    streamRun c Conn.init ((fs.zip rooms).flatMap fun p => [.arrive (.data p.1), .read true p.2]) =
      .ok ⟨none, [], fs.zip rooms, false⟩ := by
  have key : ∀ (done : List (Bytes × Bool)) (todo : List (Bytes × Bool)), Fit c (todo.map (·.1)) →
      streamRun c ⟨none, [], done, false⟩ (todo.flatMap fun p => [.arrive (.data p.1), .read true p.2]) =
        .ok ⟨none, [], done ++ todo, false⟩ := by
    intro done todo
    induction todo generalizing done with
    | nil => intro _; simp [streamRun]
    | cons p todo ih =>
      intro hft
      obtain ⟨hf, h7, hp⟩ := hft p.1 (by simp)
      have hne : p.1 ≠ [] := by intro h0; rw [h0] at h7; simp at h7
      have hloop := readLoop_frame c p.1 [] hf h7 hp ((recBytes [.data p.1]).length + 1) ⟨[], c.pdu⟩
        [.data p.1] ⟨List.nil_prefix, by simp; omega, hp⟩
        (by intro x hx; simp at hx; exact ⟨_, hx, hne⟩) (by omega) (by simp [recBytes])
      have hdone : readLoop c ((recBytes [.data p.1]).length + 1) ⟨[], c.pdu⟩ [.data p.1] = .ok (.done p.1 []) := by
        rcases hloop with ⟨m', _, hm', hd⟩ | ⟨recs', h1, hc', hd⟩
        · have := hm'.less; rw [hd] at this; simp [recBytes] at this
        · have hr : recs' = [] := by
            cases recs' with
            | nil => rfl
            | cons r rs =>
              obtain ⟨b, rfl, hb⟩ := hc' r (by simp)
              have := congrArg List.length hd
              have hbl := List.length_pos_iff.mpr hb
              simp [recBytes] at this
              exact absurd this.1 hb
          rw [h1, hr]
      simp only [List.flatMap_cons, List.cons_append, List.nil_append, streamRun, streamStep, readTcp,
        Out.ok_bind]
      simp only [Bool.false_eq_true, if_false, Option.none_or, if_true, hdone, Out.ok_bind]
      have := ih (done ++ [p]) (fun f hf => hft f (by simp at hf ⊢; exact .inr hf))
      rw [this]; simp
  have h1 : (fs.zip rooms).map (·.1) = fs := by
    rw [List.map_fst_zip]; omega
  have := key [] (fs.zip rooms) (by rw [h1]; exact hfit)
  simpa [Conn.init] using this

/-- A request of eight bytes: GET with a token of two bytes and four bytes of options. -/
def exGet : Bytes := [0x42, 0x01, 0xAA, 0xBB, 0xB3, 0x61, 0x62, 0x63]

/-- A longer message: token of one byte, 20 bytes of options and payload. -/
def exPost : Bytes := [0xD1, 0x07, 0x02, 0xCC, 0xB3, 0x61, 0x62, 0x63, 0xFF] ++ List.replicate 15 7

theorem exGet_frame : Frame exGet :=
  Frame.short 0x01 [0xAA, 0xBB] [0xB3, 0x61, 0x62, 0x63] (by decide) (by decide)

theorem exPost_frame : Frame exPost := by
  have h := Frame.ext1 0x02 [0xCC] ([0xB3, 0x61, 0x62, 0x63, 0xFF] ++ List.replicate 15 7)
    (by decide) (by decide) (by decide)
  have he : exPost = UInt8.ofNat (13 * 16 + 1) :: UInt8.ofNat 7 :: 0x02 ::
      ([0xCC] ++ ([0xB3, 0x61, 0x62, 0x63, 0xFF] ++ List.replicate 15 7)) := by decide +kernel
  rw [he]; exact h

theorem ex_fit (dyn : Bool) : Fit ⟨1024, dyn⟩ [exGet, exPost, exGet] := by
  intro f hf
  simp only [List.mem_cons, List.not_mem_nil, or_false] at hf
  rcases hf with rfl | rfl | rfl
  · exact ⟨exGet_frame, by decide, show _ ≤ 1024 by decide⟩
  · exact ⟨exPost_frame, by decide, show _ ≤ 1024 by decide⟩
  · exact ⟨exGet_frame, by decide, show _ ≤ 1024 by decide⟩

/-- The hypotheses of `messages_in_order_partial` and `all_delivered_partial` are
met by three messages that are cut in the middle, without memory for the first
call. -/
example :
    Sent [.arrive (.data (exGet ++ exPost.take 3)), .read false true, .read true true,
      .arrive (.data (exPost.drop 3 ++ exGet.take 1)), .read true false] ∧
    arrived [.arrive (.data (exGet ++ exPost.take 3)), .read false true, .read true true,
      .arrive (.data (exPost.drop 3 ++ exGet.take 1)), .read true false] <+: [exGet, exPost, exGet].flatten ∧
    streamRun ⟨1024, true⟩ Conn.init [.arrive (.data (exGet ++ exPost.take 3)), .read false true, .read true true,
      .arrive (.data (exPost.drop 3 ++ exGet.take 1)), .read true false] =
      .ok ⟨none, [.data (exGet.take 1)], [(exGet, true), (exPost, false)], false⟩ := by
  refine ⟨?_, ⟨exGet.drop 1, by decide +kernel⟩, by decide +kernel⟩
  intro r hr
  simp only [List.mem_cons, List.not_mem_nil, or_false, StreamEv.arrive.injEq, reduceCtorEq, false_or, or_false] at hr
  rcases hr with rfl | rfl
  · exact ⟨_, rfl, by decide⟩
  · exact ⟨_, rfl, by decide⟩

/-- Disagreement: two messages in one record, and one call of the reader for that
record: the second message stays in the TLS layer until the peer sends something
else. -/
theorem second_message_waits_false :
    Fit ⟨1024, true⟩ [exGet, exPost] ∧
    streamRun ⟨1024, true⟩ Conn.init [.arrive (.data (exGet ++ exPost)), .read true true] =
      .ok ⟨none, [.data exPost], [(exGet, true)], false⟩ := by
  refine ⟨?_, by decide +kernel⟩
  intro f hf
  exact ex_fit true f (by simp at hf ⊢; rcases hf with h | h <;> simp [h])

/-- An empty CSM, the first message that RFC 8323 demands of every peer: two bytes. -/
def exCsm : Bytes := [0x00, 0xE1]

/-- Disagreement: a peer starts with an empty CSM of two bytes, as RFC 8323
permits, and goes on with a request: `want_read` wraps around, and the rest of the
request is written behind the buffer, which was just shrunk to two bytes. -/
theorem short_frame_ub : Frame exCsm ∧ Frame exGet ∧
    streamRun ⟨1024, true⟩ Conn.init
      [.arrive (.data exCsm), .read true true, .arrive (.data exGet), .read true true] = .ub := by
  exact ⟨Frame.short 0xE1 [] [] (by decide) (by decide), exGet_frame, by decide +kernel⟩

/-- Disagreement: with buffers of a fixed size, too, a record that is longer than
the buffer is written behind it after a message of two bytes. -/
theorem short_frame_static_ub : Frame exCsm ∧ Frame exPost ∧
    streamRun ⟨30, false⟩ Conn.init [.arrive (.data (exCsm ++ exPost ++ exPost)), .read true true] = .ub := by
  exact ⟨Frame.short 0xE1 [] [] (by decide) (by decide), exPost_frame, by decide +kernel⟩

/-- Once a message of six bytes is in the buffer, no call of the reader does anything. -/
theorem stuck (c : StreamCfg) (f : Bytes) (hf : Frame f) (h6 : f.length = 6) (hp : 6 ≤ c.pdu)
    (es : List StreamEv) : ∀ s, (∃ cap, s.cur = some ⟨f, cap⟩) → Sent es → Clean s.recs → s.closed = false →
      ∃ s', streamRun c s es = .ok s' ∧ s'.out = s.out := by
  induction es with
  | nil => intro s _ _ _ _; exact ⟨s, rfl, rfl⟩
  | cons e es ih =>
    intro s ⟨cap, hcur⟩ hs hcl hop
    have hs' : Sent es := fun r hr => hs r (by simp [hr])
    cases e with
    | arrive r =>
      obtain ⟨b, rfl, hb⟩ := hs r (by simp)
      simp only [streamRun, streamStep, hop, Out.ok_bind]
      exact ih _ ⟨cap, hcur⟩ hs' (by
        intro x hx
        rcases List.mem_append.mp hx with hx | hx
        · exact hcl x hx
        · simp at hx; exact ⟨b, hx, hb⟩) rfl
    | read alloc room =>
      have ht := frame_size f hf 6 (by omega) (by omega)
      rw [List.take_of_length_le (by omega)] at ht
      have hsub : subSize 6 6 = 0 := rfl
      have hsh : ∃ cap', shrink c ⟨f, cap⟩ 6 = ⟨f, cap'⟩ := by
        simp only [shrink]
        split
        · exact ⟨6, by rw [List.take_of_length_le (by omega)]⟩
        · exact ⟨cap, rfl⟩
      obtain ⟨cap', hsh⟩ := hsh
      have htg : target c ⟨f, cap⟩ = .ok (some (6, 0, ⟨f, cap'⟩)) := by
        simp only [target, ht]
        rw [if_neg (by omega)]
        simp only [Out.ok_bind, h6]
        rw [if_neg (by omega), hsub, hsh]
      have hstep : readTcp c alloc room s = .ok { s with cur := some ⟨f, cap'⟩ } := by
        simp only [readTcp, hop, hcur, Option.some_or]
        rw [if_neg (by simp)]
        simp only [readLoop, htg, Out.ok_bind]
        cases hrs : s.recs with
        | nil => simp
        | cons r rs =>
          obtain ⟨b, rfl, hb⟩ := hcl r (by simp [hrs])
          simp
      simp only [streamRun, streamStep, hstep, Out.ok_bind]
      obtain ⟨s', h1, h2⟩ := ih { s with cur := some ⟨f, cap'⟩ } ⟨cap', rfl⟩ hs' hcl hop
      exact ⟨s', h1, h2⟩

/-- Disagreement: a message of exactly six bytes is never delivered, nor is
anything that the peer sends after it, whatever it sends and however often the
reader is called. -/
theorem six_byte_frame_false : ∃ f : Bytes, Frame f ∧ f.length = 6 ∧
    ∀ es, Sent es → ∃ s, streamRun ⟨1024, true⟩ Conn.init (.arrive (.data f) :: .read true true :: es) = .ok s ∧
      s.out = [] := by
  refine ⟨[0x22, 0x01, 0xAA, 0xBB, 0x11, 0x40],
    Frame.short 0x01 [0xAA, 0xBB] [0x11, 0x40] (by decide) (by decide), rfl, ?_⟩
  intro es hs
  have h1 : streamRun ⟨1024, true⟩ Conn.init
      [.arrive (.data [0x22, 0x01, 0xAA, 0xBB, 0x11, 0x40]), .read true true] =
        .ok ⟨some ⟨[0x22, 0x01, 0xAA, 0xBB, 0x11, 0x40], 6⟩, [], [], false⟩ := by decide +kernel
  obtain ⟨s, h2, h3⟩ := stuck ⟨1024, true⟩ [0x22, 0x01, 0xAA, 0xBB, 0x11, 0x40]
    (Frame.short 0x01 [0xAA, 0xBB] [0x11, 0x40] (by decide) (by decide)) rfl (by decide) es
    ⟨some ⟨[0x22, 0x01, 0xAA, 0xBB, 0x11, 0x40], 6⟩, [], [], false⟩ ⟨6, rfl⟩ hs
    (fun x hx => by simp at hx) rfl
  refine ⟨s, ?_, h3⟩
  have := streamRun_append ⟨1024, true⟩
    [.arrive (.data [0x22, 0x01, 0xAA, 0xBB, 0x11, 0x40]), .read true true] es Conn.init
  rw [h1] at this
  exact this.trans h2

/-- A message longer than the largest PDU closes the connection, and nothing is
written outside of its buffer. -/
theorem oversized_closes (c : StreamCfg) (f : Bytes) (hf : Frame f) (hp : c.pdu < f.length)
    (alloc room : Bool) (recs : List Rec) (out : List (Bytes × Bool)) (cap : Nat) (n : Nat) (h6n : 6 ≤ n)
    (hn : n < f.length) :
    readTcp c alloc room ⟨some ⟨f.take n, cap⟩, recs, out, false⟩ = .ok ⟨none, [], out, true⟩ := by
  have ht := frame_size f hf n h6n (by omega)
  simp only [readTcp, Option.some_or, readLoop, target, ht]
  have hl : (f.take n).length = n := by simp; omega
  rw [if_neg (by simp), if_neg (by omega)]
  simp only [Out.ok_bind]
  rw [if_pos hp]
  rfl

/-- `oversized_closes` is met by a message of 24 bytes with a largest PDU of 10. -/
example : readTcp ⟨10, true⟩ true true ⟨some ⟨exPost.take 6, 10⟩, [.data (exPost.drop 6)], [], false⟩ =
    .ok ⟨none, [], [], true⟩ :=
  oversized_closes ⟨10, true⟩ exPost exPost_frame (by decide) true true _ _ 10 6 (by decide) (by decide)

/-- `one_record_each` is met by three messages, the second of which finds the queue full. -/
example : streamRun ⟨1024, false⟩ Conn.init
    [.arrive (.data exGet), .read true true, .arrive (.data exPost), .read true false,
      .arrive (.data exGet), .read true true] =
    .ok ⟨none, [], [(exGet, true), (exPost, false), (exGet, true)], false⟩ :=
  one_record_each ⟨1024, false⟩ [exGet, exPost, exGet] (ex_fit false) [true, false, true] rfl

end Verif.Tls
