import Verif.Model.UB
import Verif.Model.Rounding
/-!
# `q/support/midi.hpp`, `q/support/notes.hpp`, `q_io/midi_stream`

`std::uint8_t`, `std::uint16_t`, `std::uint32_t` are `BitVec 8`, `BitVec 16`, `BitVec 32`.  The operands of
`|`, `&`, `<<`, `>>` are promoted to `int` in the C++ code; none of the expressions below overflows an `int`,
so the narrower type of the result is used directly.
-/
namespace Verif
namespace Midi

/-- The message classes of midi.hpp 184-445 (one handler of `processor` each, midi.hpp 674-692). -/
inductive Kind where
  | noteOff | noteOn | polyAftertouch | controlChange | programChange | channelAftertouch | pitchBend
  | songPosition | songSelect | tuneRequest | timingTick | start | continue_ | stop | activeSensing | reset
  deriving DecidableEq, Repr

/-- A message object: its class and its array `data` (midi.hpp 131-136). -/
structure Msg where
  kind : Kind
  data : List (BitVec 8)
  deriving DecidableEq, Repr

/-- `message1(raw_message)` (midi.hpp 154-157). -/
def message1 (raw : BitVec 32) : List (BitVec 8) := [(raw &&& 0xff#32).truncate 8]
/-- `message2(raw_message)` (midi.hpp 163-167). -/
def message2 (raw : BitVec 32) : List (BitVec 8) :=
  [(raw &&& 0xff#32).truncate 8, ((raw >>> 8) &&& 0xff#32).truncate 8]
/-- `message3(raw_message)` (midi.hpp 173-178). -/
def message3 (raw : BitVec 32) : List (BitVec 8) :=
  [(raw &&& 0xff#32).truncate 8, ((raw >>> 8) &&& 0xff#32).truncate 8, ((raw >>> 16) &&& 0xff#32).truncate 8]

/-- `note_off(channel, key, velocity)` (midi.hpp 188-193). -/
def noteOff (channel key velocity : BitVec 8) : Msg := ⟨.noteOff, [channel ||| 0x80#8, key, velocity]⟩
/-- `note_on(channel, key, velocity)` (midi.hpp 207-212). -/
def noteOn (channel key velocity : BitVec 8) : Msg := ⟨.noteOn, [channel ||| 0x90#8, key, velocity]⟩
/-- `poly_aftertouch(channel, key, pressure)` (midi.hpp 226-231). -/
def polyAftertouch (channel key pressure : BitVec 8) : Msg := ⟨.polyAftertouch, [channel ||| 0xa0#8, key, pressure]⟩
/-- `control_change(channel, ctrl, value)` (midi.hpp 245-250).  Simplification: a controller is a byte (all
the enumerators of `cc::controller`, midi.hpp 47-124, are below 128). -/
def controlChange (channel ctrl value : BitVec 8) : Msg := ⟨.controlChange, [channel ||| 0xb0#8, ctrl, value]⟩
/-- `program_change(channel, preset)` (midi.hpp 264-268). -/
def programChange (channel preset : BitVec 8) : Msg := ⟨.programChange, [channel ||| 0xc0#8, preset]⟩
/-- `channel_aftertouch(channel, pressure)` (midi.hpp 281-285). -/
def channelAftertouch (channel pressure : BitVec 8) : Msg := ⟨.channelAftertouch, [channel ||| 0xd0#8, pressure]⟩
/-- `pitch_bend(channel, value)` (midi.hpp 298-303). -/
def pitchBend (channel : BitVec 8) (value : BitVec 16) : Msg :=
  ⟨.pitchBend, [channel ||| 0xe0#8, (value &&& 0x7f#16).truncate 8, (value >>> 7).truncate 8]⟩
/-- `pitch_bend(channel, lsb, msb)` (midi.hpp 305-310): `lsb` is a 16-bit parameter. -/
def pitchBend3 (channel : BitVec 8) (lsb : BitVec 16) (msb : BitVec 8) : Msg :=
  ⟨.pitchBend, [channel ||| 0xe0#8, lsb.truncate 8, msb]⟩
/-- `song_position(position)` (midi.hpp 323-328). -/
def songPosition (position : BitVec 16) : Msg :=
  ⟨.songPosition, [0xf2#8, (position &&& 0x7f#16).truncate 8, (position >>> 7).truncate 8]⟩
/-- `song_position(lsb, msb)` (midi.hpp 330-335). -/
def songPosition2 (lsb msb : BitVec 8) : Msg := ⟨.songPosition, [0xf2#8, lsb, msb]⟩
/-- `song_select(song_number)` (midi.hpp 347-351). -/
def songSelect (n : BitVec 8) : Msg := ⟨.songSelect, [0xf3#8, n]⟩
/-- `tune_request()` (midi.hpp 363-366). -/
def tuneRequest : Msg := ⟨.tuneRequest, [0xf6#8]⟩
/-- `timing_tick()` (midi.hpp 376-379). -/
def timingTick : Msg := ⟨.timingTick, [0xf8#8]⟩
/-- `start()` (midi.hpp 389-392). -/
def start : Msg := ⟨.start, [0xfa#8]⟩
/-- `continue_()` (midi.hpp 402-405). -/
def continue_ : Msg := ⟨.continue_, [0xfb#8]⟩
/-- `stop()` (midi.hpp 415-418). -/
def stop : Msg := ⟨.stop, [0xfc#8]⟩
/-- `active_sensing()` (midi.hpp 428-431). -/
def activeSensing : Msg := ⟨.activeSensing, [0xfe#8]⟩
/-- `reset()` (midi.hpp 441-444). -/
def reset : Msg := ⟨.reset, [0xff#8]⟩

/-- `data[i]` of a message (the arrays always have the size the accessors expect). -/
def Msg.byte (m : Msg) (i : Nat) : BitVec 8 := m.data.getD i 0
/-- `channel()` of every channel message (midi.hpp 195, 214, 233, 252, 270, 287, 312). -/
def Msg.channel (m : Msg) : BitVec 8 := m.byte 0 &&& 0x0f#8
/-- `key()`, `controller()`, `preset()`, `song_number()`, `pressure()` of `channel_aftertouch`
(midi.hpp 196, 215, 234, 253, 271, 288, 353). -/
def Msg.data1 (m : Msg) : BitVec 8 := m.byte 1
/-- `velocity()`, `pressure()` of `poly_aftertouch`, `value()` of `control_change` (midi.hpp 197, 216, 235, 254). -/
def Msg.data2 (m : Msg) : BitVec 8 := m.byte 2
/-- `pitch_bend::value()` and `song_position::position()` (midi.hpp 313, 337): `data[1] | (data[2] << 7)`. -/
def Msg.value14 (m : Msg) : BitVec 16 := (m.byte 1).zeroExtend 16 ||| ((m.byte 2).zeroExtend 16 <<< 7)

/-- `dispatch(msg, time, proc)` (midi.hpp 694-763): the call it makes on `proc`, if any.  The cases are tested
in the order of the `switch`. -/
def dispatch (raw : BitVec 32) : Option Msg :=
  let status := raw &&& 0xf0#32
  if status = 0x80#32 then some ⟨.noteOff, message3 raw⟩
  else if status = 0x90#32 then some ⟨.noteOn, message3 raw⟩
  else if status = 0xa0#32 then some ⟨.polyAftertouch, message3 raw⟩
  else if status = 0xb0#32 then some ⟨.controlChange, message3 raw⟩
  else if status = 0xc0#32 then some ⟨.programChange, message2 raw⟩
  else if status = 0xd0#32 then some ⟨.channelAftertouch, message2 raw⟩
  else if status = 0xe0#32 then some ⟨.pitchBend, message3 raw⟩
  else if status = 0xf2#32 then some ⟨.songPosition, message3 raw⟩
  else if status = 0xf3#32 then some ⟨.songSelect, message2 raw⟩
  else if status = 0xf6#32 then some ⟨.tuneRequest, message1 raw⟩
  else if status = 0xf8#32 then some ⟨.timingTick, message1 raw⟩
  else if status = 0xfa#32 then some ⟨.start, message1 raw⟩
  else if status = 0xfb#32 then some ⟨.continue_, message1 raw⟩
  else if status = 0xfc#32 then some ⟨.stop, message1 raw⟩
  else if status = 0xfe#32 then some ⟨.activeSensing, message1 raw⟩
  else if status = 0xff#32 then some ⟨.reset, message1 raw⟩
  else none

/-! ### MIDI input stream -/

/-- What `Pm_Read(stream, &event, 1)` (PortMidi, not part of the repository) can do: return 0, return 1 and
store an event (message and 32-bit signed timestamp), or return a negative error code and store nothing. -/
inductive PmRead where
  | nothing
  | event (message : BitVec 32) (timestamp : BitVec 32)
  | error (code : Int)
  deriving DecidableEq, Repr

/-- `midi_input_stream::next(ev)` (q_io/src/midi_stream.cpp 46-60) for a valid stream: any non-zero value
returned by `Pm_Read` counts as success.  The timestamp is converted from `int32_t` to `size_t`. -/
def next (r : PmRead) : C (Option (BitVec 32 × BitVec 64)) :=
  match r with
  | .nothing => .ok none
  | .event m t => .ok (some (m, t.signExtend 64))
  | .error _ => .error .uninit

/-- `midi_input_stream::process(proc)` (q_io/midi_stream.hpp 49-55): the handler call made, if any. -/
def process (valid : Bool) (r : PmRead) : C (Option (Msg × BitVec 64)) :=
  if valid then do
    match ← next r with
    | some (m, t) => return (dispatch m).map fun x => (x, t)
    | none => return none
  else .ok none

/-- `midi_input_stream::process_raw(proc)` (q_io/midi_stream.hpp 57-63). -/
def processRaw (valid : Bool) (r : PmRead) : C (Option (BitVec 32 × BitVec 64)) :=
  if valid then next r else .ok none

/-! ### Notes -/

/-- The array of `note_name` (midi.hpp 467-480). -/
def names : List String :=
  ["C-1", "C#-1", "D-1", "D#-1", "E-1", "F-1", "F#-1", "G-1", "G#-1", "A-1", "A#-1", "B-1",
   "C0", "C#0", "D0", "D#0", "E0", "F0", "F#0", "G0", "G#0", "A0", "A#0", "B0",
   "C1", "C#1", "D1", "D#1", "E1", "F1", "F#1", "G1", "G#1", "A1", "A#1", "B1",
   "C2", "C#2", "D2", "D#2", "E2", "F2", "F#2", "G2", "G#2", "A2", "A#2", "B2",
   "C3", "C#3", "D3", "D#3", "E3", "F3", "F#3", "G3", "G#3", "A3", "A#3", "B3",
   "C4", "C#4", "D4", "D#4", "E4", "F4", "F#4", "G4", "G#4", "A4", "A#4", "B4",
   "C5", "C#5", "D5", "D#5", "E5", "F5", "F#5", "G5", "G#5", "A5", "A#5", "B5",
   "C6", "C#6", "D6", "D#6", "E6", "F6", "F#6", "G6", "G#6", "A6", "A#6", "B6",
   "C7", "C#7", "D7", "D#7", "E7", "F7", "F#7", "G7", "G#7", "A7", "A#7", "B7",
   "C8", "C#8", "D8", "D#8", "E8", "F8", "F#8", "G8", "G#8", "A8", "A#8", "B8",
   "C9", "C#9", "D9", "D#9", "E9", "F9", "F#9", "G9"]

/-- `note_name(key)` (midi.hpp 465-483). -/
def noteName (key : BitVec 8) : C String :=
  if key.toNat < 128 then readAt names key.toNat else .ok "--"

/-- The `switch` of `note_number` (midi.hpp 630-639): `none` is the uninitialised `n`.  `std::toupper` of the
"C" locale.  Simplification: characters are ASCII (for others the call is undefined). -/
def baseNote (c : Char) : Option (BitVec 8) :=
  match c.toUpper with
  | 'A' => some 21#8
  | 'B' => some 23#8
  | 'C' => some 12#8
  | 'D' => some 14#8
  | 'E' => some 16#8
  | 'F' => some 17#8
  | 'G' => some 19#8
  | _ => none

/-- midi.hpp 656-668: the rest of `note_number`, from the octave on.  Reading the uninitialised `n` is
undefined. -/
def noteOctave (n : Option (BitVec 8)) : List Char → C Int
  | d :: rest =>
    if d.isDigit && rest.isEmpty then
      match n with
      | some n => .ok (n.toNat + ((d.toNat : Int) - 48) * 12)
      | none => .error .uninit
    else .ok (-1)
  | [] => .ok (-1)

/-- `++n` / `--n` on a possibly uninitialised `n` (midi.hpp 645-654). -/
def shiftNote (n : Option (BitVec 8)) (d : BitVec 8) : C (Option (BitVec 8)) :=
  match n with
  | some n => .ok (some (n + d))
  | none => .error .uninit

/-- `note_number(note)` (midi.hpp 623-669). -/
def noteNumber : List Char → C Int
  | [] => .ok (-1)
  | c :: rest =>
    let n := baseNote c
    match rest with
    | [] => .ok (-1)
    | a :: rest' =>
      if a = '#' then do noteOctave (← shiftNote n 1) rest'
      else if a = 'b' then do noteOctave (← shiftNote n (-1)) rest'
      else noteOctave n rest

/-! ### Note frequencies (all in `double`) -/
variable (fd : ℚ → ℚ)

/-- `_12th_root` (notes.hpp 15). -/
def root12 : ℚ := fd (1059463094359295 / 10 ^ 15)
/-- `next_frequency(F)` (notes.hpp 17-20). -/
def nextFrequency (f : ℚ) : ℚ := fd (f * root12 fd)

/-- `octave_frequencies(base)` (notes.hpp 75-98): element `i` of `f`. -/
def octaveFrequency (base : ℚ) : Nat → ℚ
  | 0 => base
  | i + 1 => nextFrequency fd (octaveFrequency base i)

/-- The array `note_frequencies` (notes.hpp 100-112): the base frequencies. -/
def noteBases : List ℚ := [55 / 4, 55 / 2, 55, 110, 220, 440, 880, 1760, 3520, 7040]

/-- `note_frequency(key)` (midi.hpp 450-460), the number of Hz. -/
def noteFrequency (key : BitVec 8) : C ℚ :=
  if key.toNat < 9 ∨ 119 < key.toNat then .ok 0
  else do
    let base ← readAt noteBases ((key.toNat - 9) / 12)
    return octaveFrequency fd base ((key.toNat - 9) % 12)

/-- `octave_notes` (notes.hpp 22-52).  The member `eb` is the alias of `Ds`. -/
structure OctaveNotes where
  A : ℚ
  As : ℚ
  B : ℚ
  C : ℚ
  Cs : ℚ
  D : ℚ
  Ds : ℚ
  E : ℚ
  F : ℚ
  Fs : ℚ
  G : ℚ
  Gs : ℚ
  Ab : ℚ
  Bb : ℚ
  Db : ℚ
  eb : ℚ
  Gb : ℚ

/-- `octave_notes(base)` (notes.hpp 29-48). -/
def octaveNotes (base : ℚ) : OctaveNotes :=
  let nf := nextFrequency fd
  let As := nf base
  let B := nf As
  let C := fd (nf B / 2)
  let Cs := nf C
  let D := nf Cs
  let Ds := nf D
  let E := nf Ds
  let F := nf E
  let Fs := nf F
  let G := nf Fs
  let Gs := nf G
  { A := base, As := As, B := B, C := C, Cs := Cs, D := D, Ds := Ds, E := E, F := F, Fs := Fs, G := G, Gs := Gs,
    Ab := Gs, Bb := As, Db := Cs, eb := Ds, Gb := Fs }

/-- The array `note[]` (notes.hpp 60-71). -/
def noteArray : List OctaveNotes :=
  ([55 / 2, 55, 110, 220, 440, 880, 1760, 3520, 7040] : List ℚ).map (octaveNotes fd)

/-- The names of the arrays of namespace `notes` (notes.hpp 114-319). -/
inductive NoteArr where
  | Ab | A | As | Bb | B | C | Cs | Db | D | Ds | eb | E | F | Fs | Gb | G | Gs
  deriving DecidableEq, Repr

/-- Which member of `note[o]` initialises element `o` of the array (notes.hpp 114-319).  Lines 236-246
initialise `eb` with the member `E`. -/
def NoteArr.member (o : OctaveNotes) : NoteArr → ℚ
  | .Ab => o.Ab | .A => o.A | .As => o.As | .Bb => o.Bb | .B => o.B | .C => o.C | .Cs => o.Cs | .Db => o.Db
  | .D => o.D | .Ds => o.Ds | .eb => o.E | .E => o.E | .F => o.F | .Fs => o.Fs | .Gb => o.Gb | .G => o.G
  | .Gs => o.Gs

/-- `notes::X[o]`; every array has eight elements. -/
def noteConst (x : NoteArr) (o : Nat) : C ℚ := do
  let n ← readAt ((noteArray fd).take 8) o
  return x.member n

end Midi
end Verif
