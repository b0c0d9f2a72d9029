import Verif.Model.Midi
/-!
# The MIDI monitor (example/midi_monitor.cpp)

The text written to `std::cout` is a list of characters.
-/
namespace Verif
namespace Midi
namespace Monitor

/-- `std::cout << int(x)` for a non-negative `x`, with the stream's default decimal format. -/
def int (x : Nat) : List Char := Nat.toDigits 10 x

/-- The handler calls of `midi_processor` (example/midi_monitor.cpp:25-89); the calls it does not override come from
`midi::processor` (q/support/midi.hpp:674-692) and print nothing.  `std::endl` writes a line feed. -/
def handle (m : Msg) : List Char :=
  match m.kind with
  | .noteOn => "Note On  {".toList ++ "Channel: ".toList ++ int m.channel.toNat ++ ", Key: ".toList ++ int m.data1.toNat
      ++ ", Velocity: ".toList ++ int m.data2.toNat ++ "}".toList ++ ['\n']
  | .noteOff => "Note Off {".toList ++ "Channel: ".toList ++ int m.channel.toNat ++ ", Key: ".toList ++ int m.data1.toNat
      ++ ", Velocity: ".toList ++ int m.data2.toNat ++ "}".toList ++ ['\n']
  | .polyAftertouch => "Polyphonic Aftertouch {".toList ++ "Channel: ".toList ++ int m.channel.toNat ++ ", Key: ".toList
      ++ int m.data1.toNat ++ ", Pressure: ".toList ++ int m.data2.toNat ++ "}".toList ++ ['\n']
  | .controlChange => "Control Change {".toList ++ "Channel: ".toList ++ int m.channel.toNat ++ ", Controller: ".toList
      ++ int m.data1.toNat ++ ", Value: ".toList ++ int m.data2.toNat ++ "}".toList ++ ['\n']
  | .programChange => "Program Change {".toList ++ "Channel: ".toList ++ int m.channel.toNat ++ ", Preset: ".toList
      ++ int m.data1.toNat ++ "}".toList ++ ['\n']
  | .channelAftertouch => "Channel Aftertouch {".toList ++ "Channel: ".toList ++ int m.channel.toNat ++ ", Pressure: ".toList
      ++ int m.data1.toNat ++ "}".toList ++ ['\n']
  | .pitchBend => "Pitch Bend             {".toList ++ "Channel: ".toList ++ int m.channel.toNat ++ ", Value: ".toList
      ++ int m.value14.toNat ++ "}".toList ++ ['\n']
  | _ => []

/-- What is written during one `stream.process(midi_processor{})` (example/midi_monitor.cpp:100): nothing without a call. -/
def printed (call : Option (Msg × BitVec 64)) : List Char :=
  match call with
  | some (m, _) => handle m
  | none => []

/-- The loop of `main` (example/midi_monitor.cpp:91-103) while the reads `rs` are made: the text written.  Nothing is read
from a stream that is not valid. -/
def run (valid : Bool) : List PmRead → C (List Char)
  | [] => .ok []
  | r :: rs => do
    let call ← process valid r
    let rest ← run valid rs
    return printed call ++ rest

end Monitor
end Midi
end Verif
