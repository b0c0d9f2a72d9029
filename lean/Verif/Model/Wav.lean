import Verif.Model.UB
/-!
# `wav_memory`: `q_io/include/q_io/audio_file.hpp`, `q_io/src/audio_file.cpp`

The samples of the file are a list of values of a type with a zero.  The file reader is modelled abstractly here: `drwav_read_f32(n)` delivers the next
`min(n, remaining)` samples and advances, `drwav_seek_to_sample(t)` moves to sample `t` (for `t` inside the file). `Model/DrWav.lean` models it byte by
byte, from `q_io/external/include/dr_wav.h`; `C63_reader` (Props/WavFile.lean) proves that the abstract reader is what it does.
-/
namespace Verif
namespace Wav

variable {α : Type} [Zero α]

/-- An open file: its samples, the read position, the number of channels (audio_file.cpp 15, 39-63). -/
structure Reader (α : Type) where
  data : List α
  pos : Nat
  channels : Nat

/-- `wav_reader::read(float*, uint32_t len)` (audio_file.cpp 58-63); the samples read. -/
def Reader.read (r : Reader α) (len : Nat) : List α × Reader α :=
  let n := len % 2 ^ 32
  ((r.data.drop r.pos).take n, { r with pos := min (r.pos + n) r.data.length })

/-- `wav_reader::seek` (audio_file.cpp 80-85), for a target inside the file. -/
def Reader.seek (r : Reader α) (target : Nat) : Reader α := { r with pos := target }

/-- `wav_reader::restart` (audio_file.cpp 66-71). -/
def Reader.restart (r : Reader α) : Reader α := r.seek 0

/-- `wav_memory` (audio_file.hpp 62-90); `wav = none` when the file could not be opened; `pos = none` for the
uninitialised iterator; the iterator is an offset into the buffer. -/
structure Memory (α : Type) where
  wav : Option (Reader α)
  buff : List α
  pos : Option Nat
  first_read : Bool

/-- `wav_memory(char const*, buff_size)` (audio_file.hpp 128-135). -/
def Memory.make (wav : Option (Reader α)) (buff_size : Nat) : Memory α :=
  match wav with
  | some r => ⟨some r, List.replicate (buff_size * r.channels) 0, none, false⟩
  | none => ⟨none, List.replicate 0 0, none, false⟩

/-- `wav_memory(std::string, buff_size)` (audio_file.hpp 70-72): the buffer size is not passed on. -/
def Memory.makeString (wav : Option (Reader α)) (_buff_size : Nat) : Memory α := Memory.make wav 1024

/-- `{p, p + num_channels()}` with `p = &*_pos` (audio_file.hpp 160-161): the values a caller reads through the range. -/
def frameAt (buff : List α) (p nc : Nat) : C (List α) :=
  if p + nc ≤ buff.length ∧ p < buff.length then .ok ((buff.drop p).take nc) else .error .oobRead

/-- The refill of the buffer (audio_file.hpp 144-153): `resize(num_channels())` and zeros at the end of the file, zeros after a short
read. -/
def refill (r : Reader α) (buff : List α) : List α × Reader α :=
  let (got, r') := r.read buff.length
  if got.length = 0 then (List.replicate r.channels 0, r')
  else if got.length ≠ buff.length then (got ++ List.replicate (buff.length - got.length) 0, r')
  else (got, r')

/-- `wav_memory::operator()` (audio_file.hpp 137-168): the frame and the new state.  Forming an iterator past the end is not
checked (`C63_frames` covers it); dereferencing is. -/
def Memory.call (m : Memory α) : C (List α × Memory α) :=
  match m.wav with
  | some r =>
    let needs := match m.first_read, m.pos with
      | false, _ => true
      | true, some p => decide (p + r.channels ≥ m.buff.length)
      | true, none => true
    if needs then
      let (b, r') := refill r m.buff
      match frameAt b 0 r.channels with
      | .ok f => .ok (f, ⟨some r', b, some 0, true⟩)
      | .error e => .error e
    else
      let p := m.pos.getD 0 + r.channels
      match frameAt m.buff p r.channels with
      | .ok f => .ok (f, { m with pos := some p })
      | .error e => .error e
  | none =>
    -- `{ &*_buff.begin(), &*_buff.end() }` of a vector with `num_channels() = 0` elements
    match m.buff with
    | [] => .error .oobRead
    | b => .ok (b, m)

/-- `restart()` and `seek()` are inherited (audio_file.hpp 81-82): only the reader moves. -/
def Memory.seek (m : Memory α) (target : Nat) : Memory α := { m with wav := m.wav.map (·.seek target) }

/-- `restart()` (audio_file.hpp 81). -/
def Memory.restart (m : Memory α) : Memory α := { m with wav := m.wav.map (·.restart) }

/-- `n` successive calls: the frames, and the state reached. -/
def Memory.calls (m : Memory α) : Nat → C (List (List α) × Memory α)
  | 0 => .ok ([], m)
  | n + 1 =>
    match m.calls n with
    | .error e => .error e
    | .ok (fs, m') =>
      match m'.call with
      | .error e => .error e
      | .ok (f, m'') => .ok (fs ++ [f], m'')

end Wav
end Verif
