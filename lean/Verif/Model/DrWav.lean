import Verif.Model.UB
import Verif.Model.Rounding
import Mathlib.Tactic.IrreducibleDef
/-!
# WAV files, byte by byte: `q_io/external/include/dr_wav.h` (v0.8.5), `q_io/src/audio_file.cpp`

Files are lists of bytes. Modelled: opening and parsing RIFF files (chunk headers, `fmt `, `fact`, skipping of other chunks), reading PCM,
IEEE-float, A-law and mu-law samples, seeking, and everything the writer does; ADPCM is in `Verif.Model.DrWavAdpcm`, the W64
container (files beginning with `riff`) in `Verif.Model.DrWavW64`.  Not modelled: disk errors.
-/
namespace Verif
namespace DrWav

/-- A byte of a file. -/
abbrev Byte := BitVec 8

/-- The `n` low bytes of a number, as stored in memory on a little-endian machine (`onWrite(pUserData, &x, n)`, dr_wav.h 1661-1709). -/
def le : Nat → Nat → List Byte
  | 0, _ => []
  | n + 1, v => BitVec.ofNat 8 v :: le n (v / 256)

/-- `drwav__bytes_to_u16`, `drwav__bytes_to_u32` (dr_wav.h 788-801): the number stored in a list of bytes. -/
def leNat : List Byte → Nat
  | [] => 0
  | b :: bs => b.toNat + 256 * leNat bs

/-- A four-character code. -/
def fourcc (s : String) : List Byte := s.toList.map fun c => BitVec.ofNat 8 c.toNat

/-- An open `FILE`: its contents and position. -/
structure File where
  bytes : List Byte
  pos : Nat

/-- `fread(buf, 1, n, file)` (dr_wav.h 1028-1031). -/
def fread (f : File) (n : Nat) : List Byte × File :=
  let b := (f.bytes.drop f.pos).take n
  (b, { f with pos := f.pos + b.length })

/-- `onRead(pUserData, buf, n) != n` leads to failure: `none`. -/
def readN (f : File) (n : Nat) : Option (List Byte × File) :=
  let r := fread f n
  if r.1.length = n then some r else none

/-- The limit of file positions (a signed 64-bit `off_t`). -/
irreducible_def posMax : Int := 2 ^ 63

/-- `fseek(file, offset, SEEK_CUR)` (dr_wav.h 1038-1041); it may go past the end of the file; positions are below `posMax`. -/
def fseekCur (f : File) (off : Int) : Option File :=
  if 0 ≤ (f.pos : Int) + off ∧ (f.pos : Int) + off < posMax then some { f with pos := ((f.pos : Int) + off).toNat } else none

/-- `fseek(file, offset, SEEK_SET)` (dr_wav.h 1038-1041). -/
def fseekSet (f : File) (off : Int) : Option File := if 0 ≤ off then some { f with pos := off.toNat } else none

/-- `drwav__chunk_header` (dr_wav.h 832-847), RIFF. -/
structure ChunkHeader where
  id : List Byte
  size : Nat
  padding : Nat

/-- `drwav__read_chunk_header` (dr_wav.h 849-880), RIFF. -/
def readChunkHeader (f : File) : Option (ChunkHeader × File) := do
  let (id, f) ← readN f 4
  let (sz, f) ← readN f 4
  return (⟨id, leNat sz, leNat sz % 2⟩, f)

/-- Conversion to `drwav_uint64`. -/
def u64 (x : Int) : Nat := (x % 2 ^ 64).toNat

/-- Conversion of a `drwav_uint64` to `int`. -/
def toI32 (x : Nat) : Int :=
  if x % 4294967296 < 2147483648 then (x % 4294967296 : Nat) else (x % 4294967296 : Nat) - 4294967296

/-- `0x7FFFFFFF` (dr_wav.h 886), `INT_MAX` (dr_wav.h 2004). -/
irreducible_def intMax : Nat := 2147483647

theorem intMax_eq : intMax = 2147483647 := intMax_def

theorem intMax_pos : 0 < intMax := by rw [intMax_eq]; omega

/-- The loop of `drwav__seek_forward` (dr_wav.h 884-899): whether it succeeded, and where the file ends up. The first argument bounds the
number of rounds; `offset` rounds suffice. -/
def seekFuel : Nat → File → Nat → Bool × File
  | 0, f, _ => (true, f)
  | k + 1, f, offset =>
    if offset = 0 then (true, f)
    else if intMax < offset then
      match fseekCur f intMax with
      | none => (false, f)
      | some f' => seekFuel k f' (offset - intMax)
    else
      match fseekCur f offset with
      | none => (false, f)
      | some f' => (true, f')

/-- `drwav__seek_forward` (dr_wav.h 882-900). -/
def seekForward (f : File) (offset : Nat) : Bool × File := seekFuel offset f offset

theorem fseekCur_bytes {f f' : File} {o : Int} (h : fseekCur f o = some f') : f'.bytes = f.bytes := by
  unfold fseekCur at h
  split at h
  · rw [← Option.some.inj h]
  · exact absurd h (by simp)

theorem fseekCur_pos {f f' : File} {o : Nat} (h : fseekCur f o = some f') : f'.pos = f.pos + o := by
  unfold fseekCur at h
  split at h
  · rw [← Option.some.inj h]
    show ((f.pos : Int) + o).toNat = _
    omega
  · exact absurd h (by simp)

theorem seekFuel_mono (k : Nat) (f : File) (o : Nat) : (seekFuel k f o).2.bytes = f.bytes ∧ f.pos ≤ (seekFuel k f o).2.pos := by
  induction k generalizing f o with
  | zero => exact ⟨rfl, Nat.le_refl _⟩
  | succ k ih =>
    rw [seekFuel]
    split
    · exact ⟨rfl, Nat.le_refl _⟩
    · split
      · cases h : fseekCur f intMax with
        | none => exact ⟨rfl, Nat.le_refl _⟩
        | some f' =>
          obtain ⟨h1, h2⟩ := ih f' (o - intMax)
          have := fseekCur_pos h
          exact ⟨h1.trans (fseekCur_bytes h), by simp only; omega⟩
      · cases h : fseekCur f o with
        | none => exact ⟨rfl, Nat.le_refl _⟩
        | some f' =>
          have := fseekCur_pos h
          exact ⟨fseekCur_bytes h, by simp only; omega⟩

theorem seekForward_mono (f : File) (o : Nat) : (seekForward f o).2.bytes = f.bytes ∧ f.pos ≤ (seekForward f o).2.pos :=
  seekFuel_mono _ f o

theorem readN_spec {f f' : File} {n : Nat} {b : List Byte} (h : readN f n = some (b, f')) :
    f'.bytes = f.bytes ∧ f'.pos = f.pos + n ∧ b = (f.bytes.drop f.pos).take n ∧ b.length = n := by
  unfold readN at h
  simp only at h
  split at h
  · rename_i hl
    have h' := Option.some.inj h
    simp only [fread, Prod.mk.injEq] at h' hl
    obtain ⟨rfl, rfl⟩ := h'
    exact ⟨rfl, by simp only [hl], rfl, hl⟩
  · exact absurd h (by simp)

theorem readChunkHeader_spec {f f' : File} {h : ChunkHeader} (e : readChunkHeader f = some (h, f')) :
    f'.bytes = f.bytes ∧ f'.pos = f.pos + 8 ∧ f.pos + 8 ≤ f.bytes.length := by
  unfold readChunkHeader at e
  cases e1 : readN f 4 with
  | none => rw [e1] at e; exact absurd e (by simp)
  | some p =>
    obtain ⟨id, f1⟩ := p
    rw [e1] at e
    simp only [Option.bind_eq_bind, Option.bind_some] at e
    cases e2 : readN f1 4 with
    | none => rw [e2] at e; exact absurd e (by simp)
    | some p =>
      obtain ⟨sz, f2⟩ := p
      rw [e2] at e
      simp only [Option.bind_some, pure, Option.some.injEq, Prod.mk.injEq] at e
      obtain ⟨-, rfl⟩ := e
      obtain ⟨a1, a2, a3, a4⟩ := readN_spec e1
      obtain ⟨b1, b2, b3, b4⟩ := readN_spec e2
      refine ⟨b1.trans a1, by omega, ?_⟩
      rw [b3, a1, List.length_take, List.length_drop] at b4
      omega

/-- The search for the `fmt ` chunk (dr_wav.h 905-924): its header, the file after it and the running number of bytes read.
That it terminates is part of the definition. -/
def findFmt (f : File) (running : Nat) : Option (ChunkHeader × File × Nat) :=
  match _e : readChunkHeader f with
  | none => none
  | some (h, f1) =>
    if h.id = fourcc "fmt " then some (h, f1, running + 8)
    else
      match _e2 : seekForward f1 (h.size + h.padding) with
      | (false, _) => none
      | (true, f2) => findFmt f2 (running + 8 + (h.size + h.padding))
termination_by f.bytes.length - f.pos
decreasing_by
  have := readChunkHeader_spec _e
  have := seekForward_mono f1 (h.size + h.padding)
  rw [_e2] at this
  simp only at this
  rw [this.1]
  have h1 := readChunkHeader_spec _e
  rw [h1.1]
  omega

/-- `drwav_fmt` (dr_wav.h 232-263): the fields used; `sub` is the beginning of the sub-format. -/
structure Fmt where
  tag : Nat
  channels : Nat
  rate : Nat
  align : Nat
  bits : Nat
  sub : Nat

/-- The extension of the `fmt ` chunk (dr_wav.h 961-998): sub-format, file, running count. -/
def readFmtExt (h : ChunkHeader) (tag : Nat) (f : File) (running : Nat) : Option (Nat × File × Nat) := do
  if h.size ≤ 16 then return (0, f, running)
  let (cb, f) ← readN f 2
  let ext := leNat cb
  let (sub, f) ← (if ext = 0 then some (0, f)
    else if tag = 0xFFFE then
      if ext ≠ 22 then none
      else do
        let (b, f) ← readN f 22
        some (leNat ((b.drop 6).take 2), f)
    else do
      let f ← fseekCur f ext
      some (0, f))
  let left := u64 ((h.size : Int) - (18 + ext : Nat))
  let f ← fseekCur f (toI32 left)
  return (sub, f, u64 ((running + 2 + ext + left : Nat) : Int))

/-- `drwav__read_fmt` (dr_wav.h 903-1007), RIFF. -/
def readFmt (f : File) (running : Nat) : Option (Fmt × File × Nat) := do
  let (h, f, running) ← findFmt f running
  let (b, f) ← readN f 16
  let tag := leNat (b.take 2)
  let (sub, f, running) ← readFmtExt h tag f (running + 16)
  let f ← (if 0 < h.padding then fseekCur f h.padding else some f)
  return (⟨tag, leNat ((b.drop 2).take 2), leNat ((b.drop 4).take 4), leNat ((b.drop 12).take 2), leNat ((b.drop 14).take 2), sub⟩, f,
    running + h.padding)

/-- One chunk before the `data` chunk (dr_wav.h 1478-1512), after its header: the bytes to skip, the file, the running count. For a `fact` chunk four
bytes are read, and four are subtracted from its size, in unsigned arithmetic. (The sample count read is not used: the format tag tested at
1488 is not yet set.) -/
def skipFact (h : ChunkHeader) (f : File) (running : Nat) : Option (Nat × File × Nat) :=
  if h.id = fourcc "fact" then do
    let (_, f) ← readN f 4
    some (u64 ((h.size : Int) - 4 + h.padding), f, running + 4)
  else some (h.size + h.padding, f, running)

theorem skipFact_spec {h : ChunkHeader} {f f' : File} {r r' d : Nat} (e : skipFact h f r = some (d, f', r')) :
    f'.bytes = f.bytes ∧ f.pos ≤ f'.pos := by
  unfold skipFact at e
  split at e
  · cases e1 : readN f 4 with
    | none => rw [e1] at e; exact absurd e (by simp)
    | some p =>
      obtain ⟨b, f1⟩ := p
      rw [e1] at e
      simp only [Option.bind_eq_bind, Option.bind_some, Option.some.injEq, Prod.mk.injEq] at e
      obtain ⟨-, rfl, -⟩ := e
      obtain ⟨a1, a2, -⟩ := readN_spec e1
      exact ⟨a1, by omega⟩
  · simp only [Option.some.injEq, Prod.mk.injEq] at e
    obtain ⟨-, rfl, -⟩ := e
    exact ⟨rfl, Nat.le_refl _⟩

/-- The search for the `data` chunk (dr_wav.h 1459-1513): its size, the file at its first byte, the running number of bytes read. The
result of seeking forward is ignored. That the search terminates is part of the definition. -/
def findData (f : File) (running : Nat) : Option (Nat × File × Nat) :=
  match _e : readChunkHeader f with
  | none => none
  | some (h, f1) =>
    if h.id = fourcc "data" then some (h.size, f1, running + 8)
    else
      match _e2 : skipFact h f1 (running + 8) with
      | none => none
      | some (d, f2, running) => findData (seekForward f2 d).2 (u64 ((running + d : Nat) : Int))
termination_by f.bytes.length - f.pos
decreasing_by
  have := readChunkHeader_spec _e
  have := seekForward_mono f2 d
  have := skipFact_spec _e2
  rw [(seekForward_mono f2 d).1, this.1]
  have h1 := readChunkHeader_spec _e
  rw [h1.1]
  omega

/-- The reading side of `drwav` (dr_wav.h 265-345). -/
structure Wav where
  file : File
  tag : Nat
  rate : Nat
  channels : Nat
  bits : Nat
  bps : Nat
  total : Nat
  dataSize : Nat
  dataPos : Nat
  remaining : Nat
  /-- `fmt.blockAlign` -/
  align : Nat

/-- `drwav__is_compressed_format_tag` (dr_wav.h 819-824). -/
def compressed (tag : Nat) : Bool := tag == 2 || tag == 0x11

/-- `totalSampleCount` (dr_wav.h 1536-1547); unsigned 64-bit arithmetic, block sizes converted from `int`. -/
def totalCount (tag dataSize align bps channels : Nat) : Nat :=
  if tag = 2 then u64 ((dataSize / align : Nat) * (((align : Int) - 6 * channels) % 2 ^ 64) * 2)
  else if tag = 0x11 then u64 ((dataSize / align : Nat) * (((align : Int) - 4 * channels) % 2 ^ 64) * 2 + (dataSize / align : Nat) * channels)
  else dataSize / bps

/-- `drwav_init` (dr_wav.h 1354-1579) for files other than W64: the opened file, or `none` when it returns false.
Simplification: a file beginning with `riff` (W64) is rejected here; `initAny` in `Verif.Model.DrWavW64` adds that branch. -/
def init (bytes : List Byte) : Option Wav := do
  let f : File := ⟨bytes, 0⟩
  let (riff, f) ← readN f 4
  if riff ≠ fourcc "RIFF" then none
  let (sz, f) ← readN f 4
  if leNat sz < 36 then none
  let (wave, f) ← readN f 4
  if wave ≠ fourcc "WAVE" then none
  let (fmt, f, running) ← readFmt f 12
  if fmt.rate = 0 ∨ fmt.channels = 0 ∨ fmt.bits = 0 ∨ fmt.align = 0 then none
  let tag := if fmt.tag = 0xFFFE then fmt.sub else fmt.tag
  let (dataSize, f, dataPos) ← findData f running
  let bps := fmt.align / fmt.channels
  if bps = 0 then none
  if compressed tag ∧ 2 < fmt.channels then none
  return ⟨f, tag, fmt.rate, fmt.channels, fmt.bits, if compressed tag then 0 else bps, totalCount tag dataSize fmt.align bps fmt.channels,
    dataSize, dataPos, dataSize, fmt.align⟩

/-- `drwav_read_raw` (dr_wav.h 1869-1883): the bytes read. -/
def readRaw (w : Wav) (n : Nat) : List Byte × Wav :=
  if n = 0 then ([], w)
  else
    let r := fread w.file (min n w.remaining)
    (r.1, { w with file := r.2, remaining := w.remaining - r.1.length })

/-- `drwav_read` (dr_wav.h 1885-1903): the number of samples read, and the bytes put into the buffer. -/
def read (w : Wav) (n : Nat) : Nat × List Byte × Wav :=
  if n = 0 ∨ compressed w.tag then (0, [], w)
  else
    let r := readRaw w (n * w.bps)
    (r.1.length / w.bps, r.1, r.2)

/-- The first `k` groups of `s` bytes. -/
def groups (s : Nat) : Nat → List Byte → List (List Byte)
  | 0, _ => []
  | k + 1, b => b.take s :: groups s k (b.drop s)

/-- The loop of `drwav_read_f32__pcm`, `__ieee`, `__alaw` and `__mulaw` (dr_wav.h 2750-2766, 2823-2839, 2847-2863, 2871-2887), through a buffer of
4096 bytes: the bytes of each sample. The conversion of a buffer takes `s` bytes for each sample (dr_wav.h 2679-2740, 2997-3019). -/
def readLoop (s : Nat) (w : Wav) (n : Nat) : List (List Byte) × Wav :=
  if n = 0 then ([], w)
  else
    let r := read w (min n (4096 / w.bps))
    if _h : r.1 = 0 then ([], r.2.2)
    else
      let t := readLoop s r.2.2 (n - r.1)
      (groups s r.1 r.2.1 ++ t.1, t.2)
termination_by n
decreasing_by
  have h0 : n ≠ 0 := by assumption
  have h1 : 0 < r.1 := Nat.pos_of_ne_zero _h
  exact Nat.sub_lt (Nat.pos_of_ne_zero h0) h1

/-- `drwav_read_f32` (dr_wav.h 2889-2925): the samples read, each as its bytes (converted by `pcmToF32`, `ieee64ToF32`, `alawToF32`, `mulawToF32` below, or
a float in memory). A-law and mu-law samples are taken from one byte each (dr_wav.h 2997-3019), whatever the number of bytes per sample. Not
for ADPCM: `none`; see `Verif.Model.DrWavAdpcm`. -/
def readF32 (w : Wav) (n : Nat) : Option (List (List Byte) × Wav) :=
  if n = 0 then some ([], w)
  else if w.tag = 3 ∧ w.bps = 4 then
    let r := read w n
    some (groups 4 r.1 r.2.1, r.2.2)
  else if w.tag = 1 ∨ w.tag = 3 then
    if w.bps = 0 then some ([], w) else some (readLoop w.bps w n)
  else if w.tag = 6 ∨ w.tag = 7 then
    if w.bps = 0 then some ([], w) else some (readLoop 1 w n)
  else if compressed w.tag then none
  else some ([], w)

/-- `wav_reader::read(float*, uint32_t len)` (audio_file.cpp 58-63). -/
def readerRead (w : Wav) (len : BitVec 32) : Option (List (List Byte) × Wav) := readF32 w len.toNat

/-- `wav_reader::position()` (audio_file.cpp 73-78). -/
def position (w : Wav) : C Nat :=
  if w.bps = 0 then .error .divByZero else .ok (u64 ((w.total : Int) - (w.remaining / w.bps : Nat)))

/-- `drwav_seek_to_first_sample` (dr_wav.h 1905-1921), `wav_reader::restart()` (audio_file.cpp 66-71): `none` when it returns false. -/
def restart (w : Wav) : Option Wav :=
  (fseekSet w.file (toI32 w.dataPos)).map fun f => { w with file := f, remaining := w.dataSize }

/-- The seek loop of `drwav_seek_to_sample` (dr_wav.h 2003-2011). The first argument bounds the number of rounds; `offset` rounds suffice. -/
def seekLoopFuel : Nat → Wav → Nat → Bool × Wav
  | 0, w, _ => (true, w)
  | k + 1, w, offset =>
    if offset = 0 then (true, w)
    else
      let o := if intMax < offset then intMax else offset
      match fseekCur w.file o with
      | none => (false, w)
      | some f => seekLoopFuel k { w with file := f, remaining := u64 ((w.remaining : Int) - o) } (offset - o)

/-- The seek loop of `drwav_seek_to_sample` (dr_wav.h 2003-2011). -/
def seekLoop (w : Wav) (offset : Nat) : Bool × Wav := seekLoopFuel offset w offset

/-- `drwav_seek_to_sample` (dr_wav.h 1923-2016), `wav_reader::seek(target)` (audio_file.cpp 80-85): what it returns, and the new state. Not modelled for compressed
formats (`none`). -/
def seek (w : Wav) (sample : Nat) : C (Option (Bool × Wav)) :=
  if w.total = 0 then .ok (some (true, w))
  else
    let sample := if w.total ≤ sample then w.total - 1 else sample
    if compressed w.tag then .ok none
    else if w.total * w.bps < w.remaining then .error .assertFail
    else
      let cur := w.total * w.bps - w.remaining
      let target := sample * w.bps
      if cur < target then .ok (some (seekLoop w (target - cur)))
      else match restart w with
        | none => .ok (some (false, w))
        | some w' => .ok (some (seekLoop w' target))

/-- The calls on a `wav_reader` that depend on or change its state (audio_file.hpp 46-50). -/
inductive ROp where
  | read (len : BitVec 32) | seek (target : BitVec 64) | restart | position

/-- Their results. Samples are given by their bytes. -/
inductive RVal where
  | samples (xs : List (List Byte))
  | bool (b : Bool)
  | num (n : Nat)
  deriving DecidableEq

/-- A call on a `wav_reader` on an opened file (audio_file.cpp 58-85); `none`: not modelled (compressed formats). -/
def readerStep (w : Wav) : ROp → C (Option (RVal × Wav))
  | .read n => .ok ((readerRead w n).map fun r => (.samples r.1, r.2))
  | .seek t => (seek w t.toNat).map fun r => r.map fun r => (.bool r.1, r.2)
  | .restart => .ok (some (match restart w with | some w' => (.bool true, w') | none => (.bool false, w)))
  | .position => (position w).map fun n => some (.num n, w)

/-- A sequence of calls: the results. -/
def readerRun (w : Wav) : List ROp → C (Option (List RVal))
  | [] => .ok (some [])
  | o :: os => match readerStep w o with
    | .error e => .error e
    | .ok none => .ok none
    | .ok (some (v, w')) => (readerRun w' os).map fun r => r.map (v :: ·)

/-! ## Writing -/

/-- What the writer does to its file. -/
inductive FileOp where
  /-- `fwrite` at the current position (dr_wav.h 1033-1036) -/
  | write (b : List Byte)
  /-- `fseek(SEEK_SET)` -/
  | seek (p : Nat)
  deriving DecidableEq

/-- The effect of an operation on the file (positions never exceed the length here). -/
def FileOp.apply (f : File) : FileOp → File
  | .write b => ⟨f.bytes.take f.pos ++ b ++ f.bytes.drop (f.pos + b.length), f.pos + b.length⟩
  | .seek p => { f with pos := p }

/-- The file after a sequence of operations, starting with an empty file (`fopen(..., "wb")`). -/
def fileAfter (ops : List FileOp) : File := ops.foldl FileOp.apply ⟨[], 0⟩

/-- `drwav_init_write__internal` (dr_wav.h 1611-1738) with the format of `wav_writer` (audio_file.cpp 87-98): RIFF, IEEE float, 32 bits, not sequential. The
arithmetic is unsigned 32-bit; channels and block size are stored in 16 bits. -/
def initWrite (channels rate : Nat) : List FileOp :=
  [.write (fourcc "RIFF"), .write (le 4 36), .write (fourcc "WAVE"),
   .write (fourcc "fmt "), .write (le 4 16),
   .write (le 2 3), .write (le 2 (channels % 2 ^ 16)), .write (le 4 rate), .write (le 4 (32 * rate * channels % 2 ^ 32 / 8)),
   .write (le 2 (channels * 32 % 2 ^ 32 / 8 % 2 ^ 16)), .write (le 2 32),
   .write (fourcc "data"), .write (le 4 0)]

/-- The bytes of a list of floats in memory. -/
def floatBytes (xs : List (BitVec 32)) : List Byte := xs.flatMap fun x => le 4 x.toNat

/-- `wav_writer::write(data, len)` (audio_file.cpp 100-105), `drwav_write` (dr_wav.h 2031-2062): one `fwrite` of the samples (which is assumed to succeed). -/
def writeBlock (xs : List (BitVec 32)) : List FileOp := if xs = [] then [] else [.write (floatBytes xs)]

/-- `drwav_riff_chunk_size_riff` (dr_wav.h 1582-1589). -/
def riffSize (dataSize : Nat) : Nat := if dataSize ≤ 0xFFFFFFFF - 36 then 36 + dataSize else 0xFFFFFFFF

/-- `drwav_data_chunk_size_riff` (dr_wav.h 1591-1598). -/
def dataSizeField (dataSize : Nat) : Nat := if dataSize ≤ 0xFFFFFFFF then dataSize else 0xFFFFFFFF

/-- `drwav_uninit` in write mode (dr_wav.h 1751-1808), called by the destructor of `wav_base` (audio_file.cpp 21-25): padding, then the two sizes. `dataChunkDataPos` is 36. -/
def closeWrite (dataSize : Nat) : List FileOp :=
  (if 0 < dataSize % 2 then [.write (le (dataSize % 2) 0)] else []) ++
  [.seek 4, .write (le 4 (riffSize dataSize)), .seek (36 + 4), .write (le 4 (dataSizeField dataSize))]

/-- Everything a writer does to its file: opening, writing blocks, closing. -/
def session (channels rate : Nat) (blocks : List (List (BitVec 32))) : List FileOp :=
  initWrite channels rate ++ blocks.flatMap writeBlock ++ closeWrite (floatBytes blocks.flatten).length

/-! ## Conversion of PCM samples -/

/-- The value of a two's complement number of `n` bytes. -/
def signed (n v : Nat) : Int := if v < 2 ^ (8 * n - 1) then v else v - 2 ^ (8 * n)

/-- `drwav__pcm_to_f32` (dr_wav.h 2679-2725), `drwav_u8_to_f32` (2927), `drwav_s16_to_f32` (2948), `drwav_s24_to_f32` (2959),
`drwav_s32_to_f32` (2975): the value of a sample given by its bytes; one and two bytes in `float`, otherwise in `double`, then rounded to
`float`. -/
def pcmToF32 (b : List Byte) : ℚ :=
  let n := b.length
  let v := leNat b
  if n = 1 then Rounding.fl32 (Rounding.fl32 (Rounding.fl32 (v / 255) * 2) - 1)
  else if n = 2 then Rounding.fl32 (signed 2 v / 32768)
  else if n = 3 then Rounding.fl32 (Rounding.fl64 (signed 4 (256 * v) / 2147483648))
  else if n = 4 then Rounding.fl32 (Rounding.fl64 (signed 4 v / 2147483648))
  else if 8 < n then 0
  else Rounding.fl32 (Rounding.fl64 (Rounding.fl64 (signed 8 (v * 256 ^ (8 - n))) / Rounding.fl64 9223372036854775807))

end DrWav
end Verif
