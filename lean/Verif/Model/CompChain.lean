import Verif.Model.Conditioner
/-!
# A gain processor applied to a signal, as documented in q_lib/include/q/fx/dynamic.hpp:15-48

The three chains of test/compressor_expander1.cpp and test/compressor_ff_fb.cpp: an envelope follower measures the
signal, the level is converted to decibel, a processor (`compressor`, `soft_knee_compressor`, `expander`) computes a
gain in decibel, which is converted to a factor, multiplied by a make-up gain and applied to the signal.

`fl` is the rounding of `float` operations, `fd` of `double` operations; `gain` is the processor, from decibel to decibel.
-/
namespace Verif
namespace Chain

open Dyn Follow Decibel Cond

variable (fl fd : ℚ → ℚ)

/-- `s * (float(proc(decibel(env))) * makeup_gain)`, fx/dynamic.hpp:31-33 and test/compressor_ff_fb.cpp:58-69
(`decibel(double)`: support/decibel.hpp:37-39; `operator float`: 25). -/
def apply (gain : ℚ → ℚ) (makeup env s : ℚ) : C ℚ := do
  let lev ← a2db fl fd env
  let amp ← toAmp fl fd (gain lev)
  return fl (s * fl (amp * makeup))

/-- One sample of the feed-forward chain, test/compressor_ff_fb.cpp:58, 64-65: the envelope of the input. -/
def ffStep (gain : ℚ → ℚ) (makeup : ℚ) (e : EnvFollower) (s : ℚ) : C (EnvFollower × ℚ) := do
  let (e', env) := e.feed fl |s|
  let y ← apply fl fd gain makeup env s
  return (e', y)

/-- One sample of the feedback chain, test/compressor_ff_fb.cpp:61, 68-72: the envelope of the earlier outputs
(`fb_env()`, fx/envelope.hpp:34-37). -/
def fbStep (gain : ℚ → ℚ) (makeup : ℚ) (e : EnvFollower) (s : ℚ) : C (EnvFollower × ℚ) := do
  let y ← apply fl fd gain makeup e.y s
  return ((e.feed fl |y|).1, y)

/-- One sample of the chain with a peak follower, test/compressor_expander1.cpp:57-69. -/
def pkStep (gain : ℚ → ℚ) (makeup : ℚ) (e : PeakFollower) (s : ℚ) : C (PeakFollower × ℚ) := do
  let (e', env) := e.feed fl |s|
  let y ← apply fl fd gain makeup env s
  return (e', y)

end Chain
end Verif
