import Verif.Model.DrWav
/-!
# Wave64 files: `q_io/external/include/dr_wav.h` (v0.8.5), container `drwav_container_w64`

The reading side.  (`wav_writer` never writes Wave64.)  After opening, the reader is the same as for RIFF files (`Verif.Model.DrWav`).
-/
namespace Verif
namespace DrWav

/-- The twelve bytes that the identifiers `wave`, `junk`, `fmt `, `fact`, `data` have in common (dr_wav.h 754-758). -/
def guidTail : List Byte := [0xF3, 0xAC, 0xD3, 0x11, 0x8C, 0xD1, 0x00, 0xC0, 0x4F, 0x8E, 0xDB, 0x8A]

/-- `drwavGUID_W64_RIFF` (dr_wav.h 753). -/
def guidRiff : List Byte := fourcc "riff" ++ [0x2E, 0x91, 0xCF, 0x11, 0xA5, 0xD6, 0x28, 0xDB, 0x04, 0xC1, 0x00, 0x00]
/-- `drwavGUID_W64_WAVE` (dr_wav.h 754). -/
def guidWave : List Byte := fourcc "wave" ++ guidTail
/-- `drwavGUID_W64_FMT` (dr_wav.h 756). -/
def guidFmt : List Byte := fourcc "fmt " ++ guidTail
/-- `drwavGUID_W64_FACT` (dr_wav.h 757). -/
def guidFact : List Byte := fourcc "fact" ++ guidTail
/-- `drwavGUID_W64_DATA` (dr_wav.h 758). -/
def guidData : List Byte := fourcc "data" ++ guidTail

/-- `drwav__read_chunk_header` (dr_wav.h 849-880), Wave64: the size in the file includes the 24 bytes of the header; unsigned 64-bit subtraction. -/
def readChunkHeader64 (f : File) : Option (ChunkHeader × File) := do
  let (id, f) ← readN f 16
  let (sz, f) ← readN f 8
  let size := u64 ((leNat sz : Int) - 24)
  return (⟨id, size, size % 8⟩, f)

theorem readChunkHeader64_spec {f f' : File} {h : ChunkHeader} (e : readChunkHeader64 f = some (h, f')) :
    f'.bytes = f.bytes ∧ f'.pos = f.pos + 24 ∧ f.pos + 24 ≤ f.bytes.length := by
  unfold readChunkHeader64 at e
  cases e1 : readN f 16 with
  | none => rw [e1] at e; exact absurd e (by simp)
  | some p =>
    obtain ⟨id, f1⟩ := p
    rw [e1] at e
    simp only [Option.bind_eq_bind, Option.bind_some] at e
    cases e2 : readN f1 8 with
    | none => rw [e2] at e; exact absurd e (by simp)
    | some p =>
      obtain ⟨sz, f2⟩ := p
      rw [e2] at e
      simp only [Option.bind_some, pure, Option.some.injEq, Prod.mk.injEq] at e
      obtain ⟨-, rfl⟩ := e
      obtain ⟨a1, a2, a3, a4⟩ := readN_spec e1
      obtain ⟨b1, b2, b3, b4⟩ := readN_spec e2
      refine ⟨b1.trans a1, by omega, ?_⟩
      rw [b3, a1, List.length_take, List.length_drop] at b4
      omega

/-- The search for the `fmt ` chunk (dr_wav.h 905-924), Wave64; sums are unsigned 64-bit. -/
def findFmt64 (f : File) (running : Nat) : Option (ChunkHeader × File × Nat) :=
  match _e : readChunkHeader64 f with
  | none => none
  | some (h, f1) =>
    if h.id = guidFmt then some (h, f1, running + 24)
    else
      match _e2 : seekForward f1 (u64 ((h.size + h.padding : Nat) : Int)) with
      | (false, _) => none
      | (true, f2) => findFmt64 f2 (running + 24 + u64 ((h.size + h.padding : Nat) : Int))
termination_by f.bytes.length - f.pos
decreasing_by
  have := readChunkHeader64_spec _e
  have := seekForward_mono f1 (u64 ((h.size + h.padding : Nat) : Int))
  rw [_e2] at this
  simp only at this
  rw [this.1]
  have h1 := readChunkHeader64_spec _e
  rw [h1.1]
  omega

/-- `drwav__read_fmt` (dr_wav.h 903-1007), Wave64. -/
def readFmt64 (f : File) (running : Nat) : Option (Fmt × File × Nat) := do
  let (h, f, running) ← findFmt64 f running
  let (b, f) ← readN f 16
  let tag := leNat (b.take 2)
  let (sub, f, running) ← readFmtExt h tag f (running + 16)
  let f ← (if 0 < h.padding then fseekCur f h.padding else some f)
  return (⟨tag, leNat ((b.drop 2).take 2), leNat ((b.drop 4).take 4), leNat ((b.drop 12).take 2), leNat ((b.drop 14).take 2), sub⟩, f,
    running + h.padding)

/-- One chunk before the `data` chunk (dr_wav.h 1497-1512), Wave64, after its header: the bytes to skip, the file, the running count, and the sample count, which a
`fact` chunk sets. -/
def skipFact64 (h : ChunkHeader) (f : File) (running fact : Nat) : Option (Nat × File × Nat × Nat) :=
  if h.id = guidFact then do
    let (b, f) ← readN f 8
    some (u64 ((h.size : Int) - 8 + h.padding), f, running + 8, leNat b)
  else some (u64 ((h.size + h.padding : Nat) : Int), f, running, fact)

theorem skipFact64_spec {h : ChunkHeader} {f f' : File} {r r' d k k' : Nat} (e : skipFact64 h f r k = some (d, f', r', k')) :
    f'.bytes = f.bytes ∧ f.pos ≤ f'.pos := by
  unfold skipFact64 at e
  split at e
  · cases e1 : readN f 8 with
    | none => rw [e1] at e; exact absurd e (by simp)
    | some p =>
      obtain ⟨b, f1⟩ := p
      rw [e1] at e
      simp only [Option.bind_eq_bind, Option.bind_some, Option.some.injEq, Prod.mk.injEq] at e
      obtain ⟨-, rfl, -⟩ := e
      obtain ⟨a1, a2, -⟩ := readN_spec e1
      exact ⟨a1, by omega⟩
  · simp only [Option.some.injEq, Prod.mk.injEq] at e
    obtain ⟨-, rfl, -⟩ := e
    exact ⟨rfl, Nat.le_refl _⟩

/-- The search for the `data` chunk (dr_wav.h 1459-1513), Wave64: its size, the file at its first byte, the running number of bytes read, the sample count of the last
`fact` chunk (0 if there is none). -/
def findData64 (f : File) (running fact : Nat) : Option (Nat × File × Nat × Nat) :=
  match _e : readChunkHeader64 f with
  | none => none
  | some (h, f1) =>
    if h.id = guidData then some (h.size, f1, running + 24, fact)
    else
      match _e2 : skipFact64 h f1 (running + 24) fact with
      | none => none
      | some (d, f2, running, fact) => findData64 (seekForward f2 d).2 (u64 ((running + d : Nat) : Int)) fact
termination_by f.bytes.length - f.pos
decreasing_by
  have := readChunkHeader64_spec _e
  have := seekForward_mono f2 d
  have := skipFact64_spec _e2
  rw [(seekForward_mono f2 d).1, this.1]
  have h1 := readChunkHeader64_spec _e
  rw [h1.1]
  omega

/-- `drwav_init` (dr_wav.h 1354-1579) for Wave64 files: the opened file, or `none` when it returns false. -/
def initW64 (bytes : List Byte) : Option Wav := do
  let f : File := ⟨bytes, 0⟩
  let (riff, f) ← readN f 4
  if riff ≠ fourcc "riff" then none
  let (riff2, f) ← readN f 12
  if riff2 ≠ guidRiff.drop 4 then none
  let (sz, f) ← readN f 8
  if leNat sz < 80 then none
  let (wave, f) ← readN f 16
  if wave ≠ guidWave then none
  let (fmt, f, running) ← readFmt64 f 40
  if fmt.rate = 0 ∨ fmt.channels = 0 ∨ fmt.bits = 0 ∨ fmt.align = 0 then none
  let tag := if fmt.tag = 0xFFFE then fmt.sub else fmt.tag
  let (dataSize, f, dataPos, fact) ← findData64 f running 0
  let bps := fmt.align / fmt.channels
  if bps = 0 then none
  if compressed tag ∧ 2 < fmt.channels then none
  return ⟨f, tag, fmt.rate, fmt.channels, fmt.bits, if compressed tag then 0 else bps,
    if fact ≠ 0 then u64 ((fact * fmt.channels : Nat) : Int) else totalCount tag dataSize fmt.align bps fmt.channels,
    dataSize, dataPos, dataSize, fmt.align⟩

/-- `drwav_init` (dr_wav.h 1354-1579) for every file (`wav_reader::wav_reader`, audio_file.cpp 33-56): the first four bytes select the container. -/
def initAny (bytes : List Byte) : Option Wav := if bytes.take 4 = fourcc "riff" then initW64 bytes else init bytes

end DrWav
end Verif
