import Verif.Model.DrWav
/-!
# WAV files: Microsoft ADPCM and IMA (DVI) ADPCM, `q_io/external/include/dr_wav.h`

Arrays indexed by data from the file are read with bounds checks, and signed arithmetic that could overflow is checked: the outcome is then
`Bad.oobRead` or `Bad.signedOverflow`.
-/
namespace Verif
namespace DrWav

/-- The state of a reader of a compressed format (dr_wav.h 265-357): the part shared by both formats, and what is specific to one of them (`σ`). -/
structure Ad (σ : Type) where
  w : Wav
  /-- `compressed.iCurrentSample` -/
  cur : Nat
  /-- `bytesRemainingInBlock`, a `drwav_uint32` -/
  rem : Nat
  /-- `cachedSamples` -/
  cache : List Int
  /-- `cachedSampleCount` -/
  count : Nat
  st : σ

/-- Moving the file. -/
def Ad.at {σ : Type} (s : Ad σ) (f : File) : Ad σ := { s with w := { s.w with file := f } }

/-- What differs between the two formats. `header` and `load` return false when the file ends (`return totalSamplesRead`). -/
structure Codec (σ : Type) where
  /-- `drwav_countof(cachedSamples)` -/
  size : Nat
  /-- reading the header of a block -/
  header : Ad σ → C (Bool × Ad σ)
  /-- decoding more samples of a block into the cache -/
  load : Ad σ → C (Bool × Ad σ)

/-- Conversion to `drwav_int16`. -/
def toS16 (x : Int) : Int := signed 2 (x % 65536).toNat

/-- The result of a signed 32-bit operation. -/
def int32 (x : Int) : C Int := if -2147483648 ≤ x ∧ x ≤ 2147483647 then .ok x else .error .signedOverflow

/-- `drwav_clamp(x, -32768, 32767)` (dr_wav.h 724). -/
def clampS16 (x : Int) : Int := max (-32768) (min 32767 x)

/-- `drwav__bytes_to_s16` (dr_wav.h 794-797). -/
def s16At (b : List Byte) (i : Nat) : Int := signed 2 (leNat ((b.drop i).take 2))

/-- A byte of a buffer that has been read. -/
def byteAt (b : List Byte) (i : Nat) : Nat := (b.getD i 0).toNat

/-- `fmt.blockAlign - sizeof(header)` as a `drwav_uint32` (dr_wav.h 2084, 2099, 2252, 2264). -/
def blockRest (align n : Nat) : Nat := (align + 4294967296 - n) % 4294967296

/-! ## The loops -/

/-- "Output anything that's cached" (dr_wav.h 2118-2127, 2277-2286). -/
def drain {σ : Type} (size : Nat) : Nat → Ad σ → C (List Int × Ad σ)
  | 0, s => .ok ([], s)
  | n + 1, s =>
    if s.count = 0 ∨ s.w.total ≤ s.cur then .ok ([], s)
    else
      match readAt s.cache (size - s.count) with
      | .error e => .error e
      | .ok v =>
        match drain size n { s with count := s.count - 1, cur := s.cur + 1 } with
        | .error e => .error e
        | .ok (vs, s') => .ok (toS16 v :: vs, s')

/-- The main loop of `drwav_read_s16__msadpcm` and `drwav_read_s16__ima` (dr_wav.h 2075-2229, 2243-2360). The first argument bounds the number of rounds; `2 n + 1` rounds suffice
(`readFuel_enough`). -/
def readFuel {σ : Type} (c : Codec σ) : Nat → Ad σ → Nat → C (List Int × Ad σ)
  | 0, s, _ => .ok ([], s)
  | k + 1, s, n =>
    if n = 0 ∨ s.w.total ≤ s.cur then .ok ([], s)
    else
      match (if s.count = 0 ∧ s.rem = 0 then c.header s else .ok (true, s)) with
      | .error e => .error e
      | .ok (false, s) => .ok ([], s)
      | .ok (true, s) =>
        match drain c.size n s with
        | .error e => .error e
        | .ok (xs, s) =>
          if xs.length = n then .ok (xs, s)
          else
            match (if s.count = 0 ∧ s.rem ≠ 0 then c.load s else .ok (true, s)) with
            | .error e => .error e
            | .ok (false, s) => .ok (xs, s)
            | .ok (true, s) =>
              match readFuel c k s (n - xs.length) with
              | .error e => .error e
              | .ok (ys, s) => .ok (xs ++ ys, s)

/-- `drwav_read_s16__msadpcm`, `drwav_read_s16__ima` (dr_wav.h 2065-2231, 2233-2363), called by `drwav_read_s16` (2566-2603) for these formats. -/
def readS16 {σ : Type} (c : Codec σ) (s : Ad σ) (n : Nat) : C (List Int × Ad σ) := readFuel c (2 * n + 1) s n

/-- `drwav_read_f32__msadpcm`, `drwav_read_f32__ima` (dr_wav.h 2768-2810), through a buffer of 2048 samples: the samples before conversion by `drwav_s16_to_f32`. -/
def readAd {σ : Type} (c : Codec σ) (s : Ad σ) (n : Nat) : C (List Int × Ad σ) :=
  if n = 0 then .ok ([], s)
  else
    match readS16 c s (min n 2048) with
    | .error e => .error e
    | .ok (xs, s') =>
      if _h : xs.length = 0 then .ok ([], s')
      else
        match readAd c s' (n - xs.length) with
        | .error e => .error e
        | .ok (ys, s'') => .ok (xs ++ ys, s'')
termination_by n

/-- `drwav_s16_to_f32` (dr_wav.h 2948-2957), one sample. -/
def s16ToF32 (x : Int) : ℚ := Rounding.fl32 (x / 32768)

/-- `wav_reader::restart()` (audio_file.cpp 66-71), `drwav_seek_to_first_sample` (dr_wav.h 1905-1921) for compressed formats: the file goes back and the index of the
current sample is reset; what is known of the current block stays as it is. -/
def restartAd {σ : Type} (s : Ad σ) : Option (Ad σ) := (restart s.w).map fun w => { s with w := w, cur := 0 }

/-- The loop of `drwav_seek_to_sample` for compressed formats (dr_wav.h 1962-1984): reading and discarding. -/
def skipAd {σ : Type} (c : Codec σ) (s : Ad σ) (offset : Nat) : C (Bool × Ad σ) :=
  if _h : offset = 0 then .ok (true, s)
  else
    match readS16 c s (min offset 2048) with
    | .error e => .error e
    | .ok (xs, s') => if xs.length = min offset 2048 then skipAd c s' (offset - min offset 2048) else .ok (false, s')
termination_by offset

/-- `drwav_seek_to_sample` for compressed formats (dr_wav.h 1923-1985), `wav_reader::seek` (audio_file.cpp 80-85). -/
def seekAd {σ : Type} (c : Codec σ) (s : Ad σ) (sample : Nat) : C (Bool × Ad σ) :=
  if s.w.total = 0 then .ok (true, s)
  else
    let sample := if s.w.total ≤ sample then s.w.total - 1 else sample
    match (if sample < s.cur then restartAd s else some s) with
    | none => .ok (false, s)
    | some s => if s.cur < sample then skipAd c s (sample - s.cur) else .ok (true, s)

/-- Results of calls on a reader of a compressed file: samples are 16-bit numbers (`float`s after `s16ToF32`). -/
inductive AdVal where
  | samples (xs : List Int)
  | bool (b : Bool)
  deriving DecidableEq

/-- A call on a `wav_reader` of a compressed file (audio_file.cpp 58-85); `position()` divides by zero bytes per sample. -/
def adStep {σ : Type} (c : Codec σ) (s : Ad σ) : ROp → C (AdVal × Ad σ)
  | .read n => (readAd c s n.toNat).map fun r => (.samples r.1, r.2)
  | .seek t => (seekAd c s t.toNat).map fun r => (.bool r.1, r.2)
  | .restart => .ok (match restartAd s with | some s' => (.bool true, s') | none => (.bool false, s))
  | .position => .error .divByZero

/-- A sequence of calls. -/
def adRun {σ : Type} (c : Codec σ) (s : Ad σ) : List ROp → C (List AdVal)
  | [] => .ok []
  | o :: os => match adStep c s o with
    | .error e => .error e
    | .ok (v, s') => (adRun c s' os).map (v :: ·)

/-! ## IMA ADPCM -/

/-- `stepTable` (dr_wav.h 2303-2313). -/
def imaStepTable : List Int := [
  7,     8,     9,     10,    11,    12,    13,    14,    16,    17,
  19,    21,    23,    25,    28,    31,    34,    37,    41,    45,
  50,    55,    60,    66,    73,    80,    88,    97,    107,   118,
  130,   143,   157,   173,   190,   209,   230,   253,   279,   307,
  337,   371,   408,   449,   494,   544,   598,   658,   724,   796,
  876,   963,   1060,  1166,  1282,  1411,  1552,  1707,  1878,  2066,
  2272,  2499,  2749,  3024,  3327,  3660,  4026,  4428,  4871,  5358,
  5894,  6484,  7132,  7845,  8630,  9493,  10442, 11487, 12635, 13899,
  15289, 16818, 18500, 20350, 22385, 24623, 27086, 29794, 32767]

/-- `indexTable` (dr_wav.h 2298-2301). -/
def imaIndexTable : List Int := [-1, -1, -1, -1, 2, 4, 6, 8, -1, -1, -1, -1, 2, 4, 6, 8]

/-- `ima.predictor[c]`, `ima.stepIndex[c]` (dr_wav.h 349-356). -/
structure ImaCh where
  pred : Int
  index : Nat

/-- Both channels. (There are at most two: `drwav_init`, dr_wav.h 1555-1559.) -/
structure Two (α : Type) where
  left : α
  right : α

def Two.get {α : Type} (t : Two α) (c : Nat) : α := if c = 0 then t.left else t.right
def Two.set {α : Type} (t : Two α) (c : Nat) (x : α) : Two α := if c = 0 then { t with left := x } else { t with right := x }

/-- `diff` (dr_wav.h 2332-2336, 2347-2351). -/
def imaDiff (step : Int) (nib : Nat) : Int :=
  let d := step / 8 + (if nib % 2 = 1 then step / 4 else 0) + (if nib / 2 % 2 = 1 then step / 2 else 0) + (if nib / 4 % 2 = 1 then step else 0)
  if nib / 8 % 2 = 1 then -d else d

/-- One nibble (dr_wav.h 2329-2341, 2344-2356). -/
def imaNibble (c : ImaCh) (nib : Nat) : C ImaCh :=
  match readAt imaStepTable c.index, readAt imaIndexTable nib with
  | .ok step, .ok di =>
    match int32 (c.pred + imaDiff step nib) with
    | .ok p => .ok ⟨clampS16 p, (max 0 (min 88 ((c.index : Int) + di))).toNat⟩
    | .error e => .error e
  | .error e, _ => .error e
  | _, .error e => .error e

/-- The nibbles of a list of bytes, low nibble first (dr_wav.h 2326-2327). -/
def nibbles (b : List Byte) : List Nat := b.flatMap fun x => [x.toNat % 16, x.toNat / 16]

/-- The loop over `iByte` for channel `c` (dr_wav.h 2325-2357): the nibbles from number `k` on; `at_` is `countof(cachedSamples) - cachedSampleCount + c`. -/
def imaChan (channels at_ : Nat) : Nat → List Nat → ImaCh → List Int → C (ImaCh × List Int)
  | _, [], s, cache => .ok (s, cache)
  | k, n :: ns, s, cache =>
    match imaNibble s n with
    | .error e => .error e
    | .ok s' =>
      match writeAt cache (at_ + k * channels) s'.pred with
      | .error e => .error e
      | .ok cache' => imaChan channels at_ (k + 1) ns s' cache'

/-- The loop over `iChannel` (dr_wav.h 2318-2358); the first argument is the number of channels left, the second the channel. -/
def imaChans : Nat → Nat → Ad (Two ImaCh) → C (Bool × Ad (Two ImaCh))
  | 0, _, s => .ok (true, s)
  | m + 1, c, s =>
    let r := fread s.w.file 4
    let s := s.at r.2
    if r.1.length ≠ 4 then .ok (false, s)
    else
      match imaChan s.w.channels (16 - s.count + c) 0 (nibbles r.1) (s.st.get c) s.cache with
      | .error e => .error e
      | .ok (x, cache) => imaChans m (c + 1) { s with rem := blockRest s.rem 4, cache := cache, st := s.st.set c x }

/-- Decoding 8 samples of each channel (dr_wav.h 2315-2358). The number of cached samples is set first. -/
def imaLoad (s : Ad (Two ImaCh)) : C (Bool × Ad (Two ImaCh)) := imaChans s.w.channels 0 { s with count := 8 * s.w.channels }

/-- The header of a block (dr_wav.h 2244-2275). -/
def imaHeader (s : Ad (Two ImaCh)) : C (Bool × Ad (Two ImaCh)) :=
  if s.w.channels = 1 then
    let r := fread s.w.file 4
    let s := s.at r.2
    if r.1.length ≠ 4 then .ok (false, s)
    else
      let p := s16At r.1 0
      .ok (true, { s with rem := blockRest s.w.align 4, st := { s.st with left := ⟨p, byteAt r.1 2⟩ }, cache := s.cache.set 15 p, count := 1 })
  else
    let r := fread s.w.file 8
    let s := s.at r.2
    if r.1.length ≠ 8 then .ok (false, s)
    else
      let p := s16At r.1 0
      let q := s16At r.1 4
      .ok (true, { s with rem := blockRest s.w.align 8, st := ⟨⟨p, byteAt r.1 2⟩, ⟨q, byteAt r.1 6⟩⟩, cache := (s.cache.set 14 p).set 15 q, count := 2 })

/-- IMA ADPCM. -/
def ima : Codec (Two ImaCh) := ⟨16, imaHeader, imaLoad⟩

/-- The state after opening: everything is zero (`drwav_zero_memory`, dr_wav.h 1360). -/
def imaOpen (w : Wav) : Ad (Two ImaCh) := ⟨w, 0, 0, List.replicate 16 0, 0, ⟨⟨0, 0⟩, ⟨0, 0⟩⟩⟩

/-! ## Microsoft ADPCM -/

/-- `coeff1Table` (dr_wav.h 2154). -/
def msCoeff1 : List Int := [256, 512, 0, 192, 240, 460, 392]

/-- `coeff2Table` (dr_wav.h 2155). -/
def msCoeff2 : List Int := [0, -256, 0, 64, 0, -208, -232]

/-- `adaptationTable` (dr_wav.h 2150-2153). -/
def msAdapt : List Int := [230, 230, 230, 230, 307, 409, 512, 614, 768, 614, 512, 409, 307, 230, 230, 230]

/-- `predictor[c]`, `delta[c]`, `prevSamples[c]` (dr_wav.h 336-346). -/
structure MsCh where
  predictor : Nat
  delta : Int
  /-- `prevSamples[c][0]`, the older one -/
  old : Int
  /-- `prevSamples[c][1]` -/
  new : Int

/-- One nibble (dr_wav.h 2159-2170, 2173-2184, 2194-2205, 2209-2220): the sample is the new `prevSamples[c][1]`. -/
def msNibble (c : MsCh) (nib : Nat) : C MsCh := do
  let c1 ← readAt msCoeff1 c.predictor
  let c2 ← readAt msCoeff2 c.predictor
  let a ← int32 (c.new * c1)
  let b ← int32 (c.old * c2)
  let p ← int32 (a + b)
  let d ← int32 ((if 8 ≤ nib then (nib : Int) - 16 else nib) * c.delta)
  let x ← int32 (p / 256 + d)
  let k ← readAt msAdapt nib
  let t ← int32 (k * c.delta)
  .ok ⟨c.predictor, max 16 (t / 256), c.new, clampS16 x⟩

/-- Decoding a byte (dr_wav.h 2140-2226): the high nibble first; in stereo files it belongs to the left channel and the low nibble to the right one. -/
def msLoad (s : Ad (Two MsCh)) : C (Bool × Ad (Two MsCh)) :=
  let r := fread s.w.file 1
  let s := s.at r.2
  if r.1.length ≠ 1 then .ok (false, s)
  else
    let b := byteAt r.1 0
    if s.w.channels = 1 then do
      let x ← msNibble s.st.left (b / 16)
      let y ← msNibble x (b % 16)
      .ok (true, { s with rem := blockRest s.rem 1, st := { s.st with left := y }, cache := (s.cache.set 2 x.new).set 3 y.new, count := 2 })
    else do
      let x ← msNibble s.st.left (b / 16)
      let y ← msNibble s.st.right (b % 16)
      .ok (true, { s with rem := blockRest s.rem 1, st := ⟨x, y⟩, cache := (s.cache.set 2 x.new).set 3 y.new, count := 2 })

/-- The header of a block (dr_wav.h 2077-2116). -/
def msHeader (s : Ad (Two MsCh)) : C (Bool × Ad (Two MsCh)) :=
  if s.w.channels = 1 then
    let r := fread s.w.file 7
    let s := s.at r.2
    if r.1.length ≠ 7 then .ok (false, s)
    else
      let x : MsCh := ⟨byteAt r.1 0, s16At r.1 1, s16At r.1 5, s16At r.1 3⟩
      .ok (true, { s with rem := blockRest s.w.align 7, st := { s.st with left := x }, cache := (s.cache.set 2 x.old).set 3 x.new, count := 2 })
  else
    let r := fread s.w.file 14
    let s := s.at r.2
    if r.1.length ≠ 14 then .ok (false, s)
    else
      let x : MsCh := ⟨byteAt r.1 0, s16At r.1 2, s16At r.1 10, s16At r.1 6⟩
      let y : MsCh := ⟨byteAt r.1 1, s16At r.1 4, s16At r.1 12, s16At r.1 8⟩
      .ok (true, { s with rem := blockRest s.w.align 14, st := ⟨x, y⟩, cache := [x.old, y.old, x.new, y.new], count := 4 })

/-- Microsoft ADPCM. -/
def ms : Codec (Two MsCh) := ⟨4, msHeader, msLoad⟩

/-- The state after opening. -/
def msOpen (w : Wav) : Ad (Two MsCh) := ⟨w, 0, 0, List.replicate 4 0, 0, ⟨⟨0, 0, 0, 0⟩, ⟨0, 0, 0, 0⟩⟩⟩

end DrWav
end Verif
