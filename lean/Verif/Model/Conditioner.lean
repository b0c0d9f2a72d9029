import Verif.Model.Dynamics
import Verif.Model.Follower
import Verif.Model.Logic
import Verif.Model.Decibel
import Verif.Model.RoundFilter
/-!
# Composite processors: `signal_conditioner` (q_lib/include/q/fx/signal_conditioner.hpp), `level_crossfade`
(fx/special.hpp), smoothed and RMS envelope followers (fx/envelope.hpp)

`fl` is the rounding of `float` operations, `fd` of `double` operations (`id` for exact arithmetic).
-/
namespace Verif
namespace Cond

open Dyn Follow Decibel

variable (fl fd : ℚ → ℚ)

/-- `decibel::operator float()` (support/decibel.hpp:25) of a decibel holding the `double` `d`: `detail::db2a` takes a
`float` parameter. -/
def toAmp (d : ℚ) : C ℚ := db2a fl fd (fl d)

/-- `level_crossfade::operator()(a, b, ctrl)`, fx/special.hpp:182-190: `xfade * a` is a `float` product, the rest of the
sum is computed in `double` (the literal `1.0`) and the result is converted to `float`. -/
def crossfade (pivot a b ctrl : ℚ) : C ℚ :=
  if ctrl < pivot then do
    let xfade ← toAmp fl fd (fd (ctrl - pivot))
    return fl (fd (fl (xfade * a) + fd (fd (1 - xfade) * b)))
  else return a

/-- The members of `signal_conditioner`, fx/signal_conditioner.hpp:62-66. -/
structure SigCond where
  env : PeakFollower
  comp : Compressor
  makeup : ℚ
  gate : Logic.Gate ℚ
  gateEnv : EnvFollower

/-- `signal_conditioner::config`, fx/signal_conditioner.hpp:27-42: times in seconds, thresholds in decibel. -/
structure Config where
  envRelease : ℚ
  compThreshold : ℚ
  compSlope : ℚ
  compGain : ℚ
  gateOnset : ℚ
  gateRelease : ℚ
  gateReleaseTime : ℚ

/-- The constructor, fx/signal_conditioner.hpp:108-118 (`noise_gate`: fx/noise_gate.hpp:82-90).  `comp_release` is not
used by the code. -/
def SigCond.mk' (c : Config) (sps : Nat) : C SigCond := do
  let release ← toAmp fl fd c.gateRelease
  let onset ← toAmp fl fd c.gateOnset
  return { env := PeakFollower.mk' fl fd c.envRelease sps, comp := Compressor.mk' fl c.compThreshold c.compSlope
           makeup := c.compGain, gate := { state := false, onset := onset, release := release }
           gateEnv := EnvFollower.mk' fl fd (fd (500 * fd (1 / 1000000))) c.gateReleaseTime sps }

/-- `operator()(s)`, fx/signal_conditioner.hpp:120-136.  `decibel(env)` (support/decibel.hpp:37-39) converts the `double`
value of the `float` `env` back to `float`, unchanged. -/
def SigCond.feed (c : SigCond) (s : ℚ) : C (SigCond × ℚ) := do
  let (env', env) := c.env.feed fl |s|
  let (gate', gate) := c.gate.feed env
  let (gateEnv', g) := c.gateEnv.feed fl (if gate then 1 else 0)
  let s := fl (s * g)
  let envDb ← a2db fl fd env
  let amp ← toAmp fl fd (c.comp.gain fd envDb)
  let gain := fl (amp * c.makeup)
  let s := fl (s * gain)
  return ({ c with env := env', gate := gate', gateEnv := gateEnv' }, s)

/-- The public operations of `signal_conditioner`: a call, and the four threshold setters
(fx/signal_conditioner.hpp:153-171; `decibel` arguments are converted by fx/noise_gate.hpp:125-135). -/
inductive SigCond.Op where
  | feed (s : ℚ)
  | onsetDb (d : ℚ)
  | releaseDb (d : ℚ)
  | onset (x : ℚ)
  | release (x : ℚ)

/-- One public operation; the setters are given the output 0. -/
def SigCond.step (c : SigCond) : SigCond.Op → C (SigCond × ℚ)
  | .feed s => c.feed fl fd s
  | .onsetDb d => do let x ← toAmp fl fd d; return ({ c with gate := { c.gate with onset := x } }, 0)
  | .releaseDb d => do let x ← toAmp fl fd d; return ({ c with gate := { c.gate with release := x } }, 0)
  | .onset x => return ({ c with gate := { c.gate with onset := x } }, 0)
  | .release x => return ({ c with gate := { c.gate with release := x } }, 0)

/-- `bl_signal_conditioner`, fx/signal_conditioner.hpp:100-101: the two low-pass states, their coefficients, and the
base. -/
structure BlSigCond where
  y1 : ℚ
  a1 : ℚ
  y2 : ℚ
  a2 : ℚ
  base : SigCond

/-- `bl_signal_conditioner::operator()(s)`, fx/signal_conditioner.hpp:90-97. -/
def BlSigCond.feed (c : BlSigCond) (s : ℚ) : C (BlSigCond × ℚ) := do
  let (y1, s) := onePole fl c.a1 c.y1 s
  let (y2, l) := onePole fl c.a2 c.y2 s
  let s := fl (s - l)
  let (base, r) ← c.base.feed fl fd s
  return ({ c with y1 := y1, y2 := y2, base := base }, r)

/-- The constructor, fx/signal_conditioner.hpp:78-88; `x1`, `x2` are the `float`s nearest to `-2 pi f / sps` for
`f = 2 highest` and `f = lowest / 2` (see `Follow.onePoleCoef`). -/
def BlSigCond.mk' (c : Config) (x1 x2 : ℚ) (sps : Nat) : C BlSigCond := do
  let base ← SigCond.mk' fl fd c sps
  return { y1 := 0, a1 := onePoleCoef fl fd x1, y2 := 0, a2 := onePoleCoef fl fd x2, base := base }

/-- `basic_smoothed_fast_envelope_follower<div>`, fx/envelope.hpp:188-189: a fast follower and a moving average. -/
structure Smooth where
  fenv : FastEnv ℚ
  ma : MovingSum ℚ

/-- `basic_smoothed_fast_envelope_follower(std::size_t hold_samples)`, fx/envelope.hpp:173-176. -/
def Smooth.mk' (div hold : Nat) : Smooth := { fenv := FastEnv.mk' div hold, ma := MovingSum.mk' hold }

/-- `operator()(s)`, fx/envelope.hpp:178-181 and fx/moving_average.hpp:110-120; `fa` is the rounding of the accumulator
of the moving sum. -/
def Smooth.feed (fa : ℚ → ℚ) (e : Smooth) (s : ℚ) : C (Smooth × ℚ) := do
  let (fenv, p) := e.fenv.feed s
  let (ma, sum) ← RoundFilter.movingSum fl fa e.ma p
  return ({ fenv := fenv, ma := ma }, fl (sum / fl ma.size.toNat))

/-- `fast_rms_envelope_follower::threshold`, fx/envelope.hpp:211. -/
def rmsThreshold : C ℚ := toAmp fl fd (-120)

/-- The level computed from the smoothed square `e`, fx/envelope.hpp:220-225. -/
def rmsLevel (e : ℚ) : C ℚ := do
  let t ← rmsThreshold fl fd
  let e := if e < t then 0 else e
  let d ← a2db fl fd e
  return fd (d / 2)

/-- `fast_rms_envelope_follower::operator()(s)`, fx/envelope.hpp:218-227 (`smoothed_fast_envelope_follower` has
`div = 2`). -/
def rmsFeed (fa : ℚ → ℚ) (e : Smooth) (s : ℚ) : C (Smooth × ℚ) := do
  let (e, p) ← e.feed fl fa (fl (s * s))
  let d ← rmsLevel fl fd p
  return (e, d)

end Cond
end Verif
