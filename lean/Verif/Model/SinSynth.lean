import Verif.Model.Sin
/-!
# The tone generator of example/sin_synth.cpp

`fl` is the rounding of a `float` operation, `fd` of a `double` operation.
-/
namespace Verif
namespace Example

variable (fl fd : ℚ → ℚ)

/-- One pass of the loop of `process` (sin_synth.cpp 27-31): `right[frame] = left[frame] = q::sin(phase++)`; the new iterator and the samples written to the
left and the right channel.  `sin_synth::operator()(phase_iterator)` (synth/sin.hpp 24-27) reads the `_phase` of the iterator as it was before the increment. -/
def toneFrame (i : Phase.Iter) : C (Phase.Iter × (ℚ × ℚ)) := do
  let (old, next) := i.postInc
  let v ← Sin.sin_gen fl fd old.phase
  return (next, (v, v))

/-- One call of `process` (sin_synth.cpp 23-32) with a buffer of `n` frames. -/
def toneProcess (i : Phase.Iter) : Nat → C (Phase.Iter × List (ℚ × ℚ))
  | 0 => .ok (i, [])
  | n + 1 => do
    let (i, o) ← toneFrame fl fd i
    let (i, os) ← toneProcess i n
    return (i, o :: os)

/-- The calls of `process` that the audio host makes, with the given buffer sizes: the samples written, in order. -/
def toneCalls (i : Phase.Iter) : List Nat → C (Phase.Iter × List (ℚ × ℚ))
  | [] => .ok (i, [])
  | n :: ns => do
    let (i, o) ← toneProcess fl fd i n
    let (i, os) ← toneCalls i ns
    return (i, o ++ os)

/-- The program (sin_synth.cpp 18-21, 37-46): `phase(freq, sampling_rate())`, then the calls of `process`. -/
def toneRun (freq : ℚ) (sps : Nat) (buffers : List Nat) : C (List (ℚ × ℚ)) := do
  let i ← Phase.Iter.ofFreq fd freq sps
  let (_, o) ← toneCalls fl fd i buffers
  return o

end Example
end Verif
