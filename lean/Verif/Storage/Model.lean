import Verif.Dec
import Verif.Bytes
/-!
Model of the persistent storage: `api/oc_storage.c` and `port/linux/storage.c`.
Strings are lists of bytes without terminator.

The C library and the file system are an environment: every call's outcome is a
parameter.  A file system maps path texts to contents (simplification: two
different texts are two different files, so no `.`/`..` components, links or
concurrent writers from outside).
-/
namespace Verif.Storage

/-- Byte strings (modelling convention). -/
abbrev Bytes := List UInt8

/-- `OC_STORE_PATH_SIZE`, port/linux/storage.h:26. -/
def pathSize : Nat := 64

/-- `OC_STORAGE_SVR_TAG_MAX`, api/oc_storage_internal.h:40. -/
def tagMax : Nat := 32

/-- `ENOENT`, `EINTR`, `EAGAIN`, `EINVAL` (errno values used by
port/linux/storage.c). -/
def eNoEnt : Nat := 2
/-- `EINTR`, used at port/linux/storage.c:270. -/
def eIntr : Nat := 4
/-- `EAGAIN`, used at port/linux/storage.c:270. -/
def eAgain : Nat := 11
/-- `EINVAL`, used at port/linux/storage.c:45, 185. -/
def eInval : Nat := 22

/-- The static variables `g_store_path` and `g_store_path_len`,
port/linux/storage.c:37-38. -/
structure Store where
  path : Bytes
  len : Nat
  deriving DecidableEq, Repr

/-- Their initial values, port/linux/storage.c:37-38. -/
def Store.init : Store := ⟨List.replicate pathSize 0, 0⟩

/-- `oc_storage_reset`, port/linux/storage.c:95-101. -/
def reset (st : Store) : Store := ⟨writeAt st.path 0 [0], 0⟩

/-- The loop removing trailing slashes, port/linux/storage.c:57-59: the final
`store_len`. -/
def trim (s : Bytes) : Nat → Nat
  | 0 => 0
  | 1 => 1
  | n + 2 => if s[n]? = some 47 then trim s (n + 1) else n + 2

/-- The tail of `oc_storage_config`, port/linux/storage.c:61-76: copy `n` bytes
of the path, append a slash if there is none, terminate. -/
def install (st : Store) (s : Bytes) (n : Nat) : Out (Int × Store) :=
  if ¬ n < 255 then .ub else
  (writeChk st.path 0 (s.take n)).bind fun p =>
  (Out.get p (n - 1)).bind fun last =>
  if last ≠ 47 then
    if n + 1 ≥ pathSize then .ok (-eNoEnt, reset ⟨p, n⟩)
    else
      (writeChk p n [47]).bind fun p =>
      (writeChk p (n + 1) [0]).bind fun p => .ok (0, ⟨p, n + 1⟩)
  else (writeChk p n [0]).bind fun p => .ok (0, ⟨p, n⟩)

/-- `oc_storage_config`, port/linux/storage.c:40-77 (`none` is NULL). -/
def config (st : Store) (s : Option Bytes) : Out (Int × Store) :=
  match s with
  | none => .ok (-eInval, st)
  | some [] => .ok (-eInval, st)
  | some s =>
    let n := min s.length pathSize
    if n ≥ pathSize then .ok (-eNoEnt, st) else install st s (trim s n)

/-- `oc_storage_path`, port/linux/storage.c:79-93, with a buffer of `size` bytes:
the text copied into it. -/
def getPath (st : Store) (size : Nat) : Out (Option Bytes) :=
  if st.len = 0 then .ok none
  else if size < st.len + 1 then .ok none
  else (sliceChk st.path 0 st.len).bind fun t => .ok (some t)

/-- The construction of the file name in `storage_open` and `oc_storage_write`,
port/linux/storage.c:106-122 and 241-256: `none` is `-ENOENT`; the file name is
the C string in `g_store_path`. -/
def fileName (st : Store) (name : Bytes) : Out (Option (Bytes × Store)) :=
  if st.len = 0 then .ok none
  else if min name.length pathSize = 0 ∨ min name.length pathSize + st.len ≥ pathSize then .ok none
  else
    (writeChk st.path st.len name).bind fun p =>
    (writeChk p (st.len + name.length) [0]).bind fun p =>
      .ok (some (p.takeWhile (· != 0), { st with path := p }))

/-- A file system (see the header). -/
abbrev Fs := Bytes → Option Bytes

/-- The file system with one file set (modelling convention). -/
def Fs.set (fs : Fs) (p : Bytes) (v : Bytes) : Fs := fun q => if q = p then some v else fs q

/-- What the calls of `oc_storage_read` return, port/linux/storage.c:124-197: an
error of `fopen`, of the three positioning calls and the number of bytes `fread`
could read with `errno` after it. -/
structure ReadEnv where
  openErr : Option Nat
  endErr : Option Nat
  tellErr : Option Nat
  setErr : Option Nat
  avail : Nat
  readErr : Nat
  deriving DecidableEq, Repr

/-- `storage_open`, port/linux/storage.c:103-139: the content of the opened
file or `-errno`. -/
def openFile (st : Store) (fs : Fs) (e : ReadEnv) (name : Bytes) :
    Out ((Int ⊕ Bytes) × Store) :=
  (fileName st name).bind fun r =>
    match r with
    | none => .ok (.inl (-eNoEnt), st)
    | some (p, st) =>
      match fs p with
      | none => .ok (.inl (-(e.openErr.getD eNoEnt : Nat)), st)
      | some c =>
        match e.openErr with
        | some n => .ok (.inl (-n), st)
        | none => .ok (.inr c, st)

/-- `oc_storage_read` after the file was opened, port/linux/storage.c:172-207:
the result and the bytes read. -/
def readOpen (e : ReadEnv) (cap : Nat) (c : Bytes) : Int × Bytes :=
  match e.endErr with
  | some n => (-n, [])
  | none =>
    match e.tellErr with
    | some n => (-n, [])
    | none =>
      if c.length > cap then (-eInval, [])
      else
        match e.setErr with
        | some n => (-n, [])
        | none =>
          let got := (c.take cap).take e.avail
          if got.length ≠ c.length then (-e.readErr, got) else (got.length, got)

/-- `oc_storage_read`, port/linux/storage.c:163-208, with a buffer of `cap`
bytes. -/
def read (st : Store) (fs : Fs) (e : ReadEnv) (name : Bytes) (cap : Nat) :
    Out ((Int × Bytes) × Store) :=
  (openFile st fs e name).bind fun r =>
    match r.1 with
    | .inl n => .ok ((n, []), r.2)
    | .inr c => .ok (readOpen e cap c, r.2)

/-- `oc_storage_size`, port/linux/storage.c:141-161 (the `errno` read after
`fclose` at lines 151-152 and 156-157 is taken to be that of the failed call). -/
def size (st : Store) (fs : Fs) (e : ReadEnv) (name : Bytes) : Out (Int × Store) :=
  (openFile st fs e name).bind fun r =>
    match r.1 with
    | .inl n => .ok (n, r.2)
    | .inr c =>
      match e.endErr with
      | some n => .ok (-n, r.2)
      | none =>
        match e.tellErr with
        | some n => .ok (-n, r.2)
        | none => .ok ((c.length : Nat), r.2)

/-- What the calls of one attempt of `oc_storage_write` do,
port/linux/storage.c:219-267: `fopen` may fail; `fwrite` accepts `wrote` bytes
and may set the error indicator with `writeErr`; `fflush` and `fsync` may fail.
`kept` is the number of bytes found in the file if one of them failed. -/
structure WriteEnv where
  openErr : Option Nat
  wrote : Nat
  writeErr : Option Nat
  flushErr : Option Nat
  syncErr : Option Nat
  kept : Nat
  deriving DecidableEq, Repr

/-- `write_and_flush`, port/linux/storage.c:210-236: the result and the new
content of the file opened with "wb" (that is, truncated). -/
def writeAndFlush (e : WriteEnv) (buf : Bytes) : Int × Bytes :=
  let w := min e.wrote buf.length
  match (if w < buf.length then e.writeErr else none) with
  | some n => (-n, buf.take e.kept)
  | none =>
    match e.flushErr with
    | some n => (-n, buf.take e.kept)
    | none =>
      match e.syncErr with
      | some n => (-n, buf.take e.kept)
      | none => (w, buf.take w)

/-- The loop of `oc_storage_write`, port/linux/storage.c:258-274, one element of
the list per attempt; `none`: still running after these attempts. -/
def attempts (p buf : Bytes) : List WriteEnv → Fs → Option Int × Fs
  | [], fs => (none, fs)
  | e :: es, fs =>
    match e.openErr with
    | some n => (some (-n), fs)
    | none =>
      let r := writeAndFlush e buf
      if r.1 < 0 ∧ (r.1 = -eAgain ∨ r.1 = -eIntr) then attempts p buf es (fs.set p r.2)
      else (some r.1, fs.set p r.2)

/-- `oc_storage_write`, port/linux/storage.c:238-275. -/
def write (st : Store) (fs : Fs) (es : List WriteEnv) (name buf : Bytes) :
    Out (Option Int × Store × Fs) :=
  (fileName st name).bind fun r =>
    match r with
    | none => .ok (some (-eNoEnt), st, fs)
    | some (p, st) =>
      let r := attempts p buf es fs
      .ok (r.1, st, r.2)

/-- The content of a file found after power was lost during an attempt of
`oc_storage_write`, port/linux/storage.c:259-267: the attempt truncates the
file, writes and synchronises, so until `fsync` returned the disk may hold the
old content (`none`) or the first `k` bytes of the new one (simplification:
no other garbage). -/
def crash (fs : Fs) (p buf : Bytes) (kept : Option Nat) : Fs :=
  match kept with
  | none => fs
  | some k => fs.set p (buf.take k)

/-- `oc_storage_write` cut short by a loss of power after the attempts `es`:
the restarted program's file system (port/linux/storage.c:238-275). -/
def writeCrash (st : Store) (fs : Fs) (es : List WriteEnv) (name buf : Bytes)
    (kept : Option Nat) : Out Fs :=
  (fileName st name).bind fun r =>
    match r with
    | none => .ok fs
    | some (p, _) => .ok (crash (attempts p buf es fs).2 p buf kept)

/-- `oc_storage_gen_svr_tag`, api/oc_storage.c:41-74, into `mem` (the buffer of
`svr_tag_size` bytes): result and buffer afterwards.  `none` is `-1`. -/
def genTag (name : Bytes) (device : Nat) (mem : Bytes) : Out (Option Nat × Bytes) :=
  let max := if mem.length > tagMax then tagMax else mem.length
  let sub := 95 :: dec device
  if sub.length ≥ 32 then .ok (none, mem)
  else if max < sub.length + 2 then .ok (none, mem)
  else
    let maxName := max - sub.length
    (writeChk mem 0 (name.take (maxName - 1) ++ [0])).bind fun mem =>
    let nameLen := if name.length ≥ maxName then maxName - 1 else name.length
    (writeChk mem nameLen sub).bind fun mem =>
    (writeChk mem (nameLen + sub.length) [0]).bind fun mem =>
    .ok (some (nameLen + sub.length), mem)

/-- The tag used by load, save and clear: the C string in a buffer of
`OC_STORAGE_SVR_TAG_MAX` bytes (api/oc_storage.c:109-113, 222-226, 239-243).
The uninitialised buffer is `replicate 32 0` here; `genTag_spec` shows that its
content does not matter. -/
def tagOf (name : Bytes) (device : Nat) : Out (Option Bytes) :=
  (genTag name device (List.replicate tagMax 0)).bind fun r =>
    .ok (r.1.map fun _ => r.2.takeWhile (· != 0))

/-- `oc_storage_data_load`, api/oc_storage.c:104-146.  `parse` is
`oc_parse_rep` (`none`: NULL, after a parse error or for an empty object),
`decode` the callback (`true`: it returned 0), `cap` is
`OC_MAX_APP_DATA_SIZE`; `buffer` is false if the buffer could not be
allocated.  The second component is the representation the callback was called
with. -/
def load {R : Type} (parse : Bytes → Option R) (decode : R → Bool) (cap : Nat) (buffer : Bool)
    (st : Store) (fs : Fs) (e : ReadEnv) (name : Bytes) (device : Nat) :
    Out ((Int × Option R) × Store) :=
  (tagOf name device).bind fun t =>
    match t with
    | none => .ok ((-1, none), st)
    | some tag =>
      if !buffer then .ok ((-1, none), st)
      else
        (read st fs e tag cap).bind fun r =>
          if r.1.1 ≤ 0 then .ok ((-1, none), r.2)
          else
            match parse r.1.2 with
            | none => .ok ((r.1.1, none), r.2)
            | some rep => .ok ((if decode rep then r.1.1 else -1, some rep), r.2)

/-- `oc_storage_data_save`, api/oc_storage.c:184-234.  `enc` is what the callback
encoded (`none`: an allocation, the callback or the encoder failed,
lines 190-214); a result of `none` means that the write did not return. -/
def save (st : Store) (fs : Fs) (es : List WriteEnv) (name : Bytes) (device : Nat)
    (enc : Option Bytes) : Out (Option Int × Store × Fs) :=
  match enc with
  | none => .ok (some (-1), st, fs)
  | some buf =>
    (tagOf name device).bind fun t =>
      match t with
      | none => .ok (some (-1), st, fs)
      | some tag => write st fs es tag buf

/-- `oc_storage_data_clear`, api/oc_storage.c:236-245: whether it returned
`true`. -/
def clear (st : Store) (fs : Fs) (es : List WriteEnv) (name : Bytes) (device : Nat) :
    Out (Option Bool × Store × Fs) :=
  (tagOf name device).bind fun t =>
    match t with
    | none => .ok (some false, st, fs)
    | some tag =>
      (write st fs es tag []).bind fun r => .ok (r.1.map (· == 0), r.2)

/-- `oc_storage_data_save` cut short by a loss of power during the write,
api/oc_storage.c:227; before the write nothing has changed. -/
def saveCrash (st : Store) (fs : Fs) (es : List WriteEnv) (name : Bytes) (device : Nat)
    (buf : Bytes) (kept : Option Nat) : Out Fs :=
  (tagOf name device).bind fun t =>
    match t with
    | none => .ok fs
    | some tag => writeCrash st fs es tag buf kept

end Verif.Storage
