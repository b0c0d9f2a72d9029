import Verif.Model.Envelope
import Verif.Model.Midi
import Verif.Model.Osc
import Verif.Model.RoundFilter
/-!
# The synthesizer of example/square_synth.cpp

`fl` is the rounding of a `float` operation, `fd` of a `double` operation.  The audio callback and the MIDI loop of `main` run in different
threads and share the members without synchronisation; simplification: each frame of the callback and each MIDI message is one atomic step, in any order.
-/
namespace Verif
namespace Example

variable (fl fd : ℚ → ℚ)

/-- The members of `my_square_synth` (square_synth.cpp 57-60) and `my_midi_processor::_key` (83), which is not initialised (`none`).  `soft_clip` has no
state that changes. -/
structure Synth where
  phase : Phase.Iter
  env : Env.Envelope
  filter : Fx.Reso ℚ
  key : Option (BitVec 8)

/-- The constructors (square_synth.cpp 29-33, 67-69): `filter(0.5, 0.8)`. -/
def Synth.mk' (c : Env.Config) (sps : Nat) : Synth :=
  { phase := Phase.Iter.mk0, env := Env.mk' fl fd c sps, filter := RoundFilter.resoMk fl (1 / 2) (fl (4 / 5)), key := none }

/-- `reso_filter::cutoff(float f)` (fx/lowpass.hpp 188-192). -/
def resoCutoff (r : Fx.Reso ℚ) (f : ℚ) : Fx.Reso ℚ := { r with f := f, fb := fl (r.reso + fl (r.reso / fl (1 - f))) }

/-- One pass of the loop of `process` (square_synth.cpp 39-54): the new state and the samples written to the left and the right channel. -/
def Synth.frame (s : Synth) : C (Synth × (ℚ × ℚ)) := do
  let (env, e) ← Env.tick fl fd s.env
  let filter := resoCutoff fl s.filter e
  let (i, phase) := s.phase.postInc
  let val := Osc.square fl i.phase i.incr
  let (filter, v) := RoundFilter.reso fl filter val
  let val := Fx.softClip fl fd (fl (v * e))
  return ({ s with phase := phase, env := env, filter := filter }, (val, val))

/-- `my_midi_processor::operator()(note_on)` (square_synth.cpp 71-77). -/
def Synth.noteOn (sps : Nat) (s : Synth) (key velocity : BitVec 8) : C Synth := do
  let f ← Midi.noteFrequency fd key
  let phase ← s.phase.set fd f sps
  return { s with key := some key, phase := phase, env := Env.trigger s.env (fl (velocity.toNat / 128)) 1 }

/-- `my_midi_processor::operator()(note_off)` (square_synth.cpp 79-83). -/
def Synth.noteOff (s : Synth) (key : BitVec 8) : C Synth :=
  match s.key with
  | none => .error .uninit
  | some k => .ok (if key = k then { s with env := Env.release s.env } else s)

/-- `stream.process(proc)` (square_synth.cpp 110) with a message: `dispatch` calls the handler; the handlers inherited from
`midi::processor` (midi.hpp 674-692) do nothing. -/
def Synth.midi (sps : Nat) (s : Synth) (raw : BitVec 32) : C Synth :=
  match Midi.dispatch raw with
  | some m => match m.kind with
    | .noteOn => s.noteOn fl fd sps m.data1 m.data2
    | .noteOff => s.noteOff m.data1
    | _ => .ok s
  | none => .ok s

/-- What happens: a frame of the audio callback, or a MIDI message. -/
inductive SynthEvent where
  | frame
  | midi (raw : BitVec 32)

/-- One event; the list holds the samples written, if any. -/
def Synth.step (sps : Nat) (s : Synth) : SynthEvent → C (Synth × List (ℚ × ℚ))
  | .frame => do let (s, o) ← s.frame fl fd; return (s, [o])
  | .midi raw => do let s ← s.midi fl fd sps raw; return (s, [])

/-- A sequence of events: the final state and the samples written. -/
def Synth.run (sps : Nat) : Synth → List SynthEvent → C (Synth × List (ℚ × ℚ))
  | s, [] => .ok (s, [])
  | s, ev :: evs => do
    let (s, o) ← s.step fl fd sps ev
    let (s, os) ← Synth.run sps s evs
    return (s, o ++ os)

end Example
end Verif
