import Verif.Model.PeriodDetector
/-!
# `pitch_detector` and `dual_pitch_detector`
(q_lib/include/q/pitch/pitch_detector.hpp, q_lib/include/q/pitch/dual_pitch_detector.hpp)

Floating point is uninterpreted (`FloatOps`).
-/
namespace Verif
open FloatOps
variable {F : Type} [FloatOps F]

/-- `pitch_info`, pitch/pitch_detector.hpp:21-25. -/
structure PitchInfo (F : Type) where
  frequency : F
  periodicity : F

/-- `pitch_info{}`. -/
def PitchInfo.zero : PitchInfo F := { frequency := lit 0, periodicity := lit 0 }

/-- `pitch_detector` data members, pitch/pitch_detector.hpp:61-64. -/
structure Pitch (F : Type) where
  pd : PD F
  current : PitchInfo F
  sps : Nat
  framesAfterShift : Nat

namespace Pitch

/-- `onset_periodicity`, pitch/pitch_detector.hpp:31. -/
def onsetPeriodicity : F := lit (95 / 100)
/-- `min_periodicity`, pitch/pitch_detector.hpp:32. -/
def minPeriodicity : F := lit (90 / 100)

/-- Constructor, pitch/pitch_detector.hpp:70-78. -/
def mk' (lowest highest : F) (sps : Nat) (hyst : F) : C (Pitch F) := do
  let pd ← PD.mk' lowest highest sps hyst
  return { pd := pd, current := PitchInfo.zero, sps := sps, framesAfterShift := 0 }

/-- `bias(incoming, shift)`, pitch/pitch_detector.hpp:80-125.  Returns the result and `shift`. -/
def biasResult (d : Pitch F) (inc : PitchInfo F) : C (PitchInfo F × Bool) :=
  let error := div d.current.frequency (lit 32)
  let diff := FloatOps.abs (sub d.current.frequency inc.frequency)
  let last : PitchInfo F × Bool :=
    if lt minPeriodicity d.pd.fundamental.periodicity then (inc, true) else (d.current, false)
  if lt diff error then .ok (inc, false)
  else if d.framesAfterShift > 1 then
    if lt inc.frequency d.current.frequency then do
      let multiple ← toI32 (round (div d.current.frequency inc.frequency))
      let f := mul inc.frequency (ofInt multiple)
      if multiple > 1 && lt (FloatOps.abs (sub d.current.frequency f)) error then
        return ({ frequency := f, periodicity := inc.periodicity }, false)
      else return last
    else do
      let multiple ← toI32 (round (div inc.frequency d.current.frequency))
      let f := div inc.frequency (ofInt multiple)
      if multiple > 1 && lt (FloatOps.abs (sub d.current.frequency f)) error then
        return ({ frequency := f, periodicity := inc.periodicity }, false)
      else return last
  else .ok last

/-- `bias(incoming)`, pitch/pitch_detector.hpp:127-153. -/
def bias (d : Pitch F) (inc : PitchInfo F) : C (Pitch F) := do
  let d := { d with framesAfterShift := d.framesAfterShift + 1 }
  let (result, shift) ← d.biasResult inc
  if shift then
    if le onsetPeriodicity d.pd.fundamental.periodicity then
      return { d with framesAfterShift := 0, current := result }
    else if lt d.pd.fundamental.periodicity minPeriodicity then
      return { d with current := PitchInfo.zero }
    else return d
  else return { d with current := result }

/-- `calculate_frequency()`, pitch/pitch_detector.hpp:196-201. -/
def calculateFrequency (d : Pitch F) : F :=
  if eq d.pd.fundamental.period (lit (-1)) then lit 0 else div (ofInt d.sps) d.pd.fundamental.period

/-- `operator()(s)` after the call `_pd(s)`, pitch/pitch_detector.hpp:159-194. -/
def update (d : Pitch F) : C (Pitch F × Bool) :=
  let d := if d.pd.zc.isReset then { d with current := PitchInfo.zero } else d
  if d.pd.zc.ready then
    if eq d.pd.fundamental.periodicity (lit (-1)) then
      .ok ({ d with current := PitchInfo.zero }, false)
    else
      let p := d.pd.fundamental.periodicity
      let f := d.calculateFrequency
      if eq d.current.frequency (lit 0) then
        if le onsetPeriodicity p && lt (lit 0) f then
          .ok ({ d with current := { frequency := f, periodicity := p }, framesAfterShift := 0 }, true)
        else .ok (d, true)
      else
        let d := if lt p minPeriodicity then { d with framesAfterShift := 0 } else d
        if lt (lit 0) f then do
          let d ← d.bias { frequency := f, periodicity := p }
          return (d, true)
        else .ok (d, true)
  else .ok (d, false)

/-- `operator()(s)`, pitch/pitch_detector.hpp:155-194. -/
def step (d : Pitch F) (s : F) : C (Pitch F × Bool) := do
  let (pd, _) ← d.pd.step s
  update { d with pd := pd }

/-- `indeterminate()`, pitch/pitch_detector.hpp:52. -/
def indeterminate (d : Pitch F) : Bool := eq d.current.frequency (lit 0)

/-- `predict_frequency()`, pitch/pitch_detector.hpp:203-208. -/
def predictFrequency (d : Pitch F) : C (Pitch F × F) := do
  let (pd, p) ← d.pd.predictPeriod
  let d := { d with pd := pd }
  return (d, if eq p (lit (-1)) then lit 0 else div (ofInt d.sps) p)

end Pitch

/-- `dual_pitch_detector` data members, pitch/dual_pitch_detector.hpp:38-43.  `mean` is the value of the
`exp_moving_average<8>` (fx/moving_average.hpp:143-169). -/
structure Dual (F : Type) where
  pd1 : Pitch F
  pd2 : Pitch F
  current : PitchInfo F
  mean : F
  predicted : F
  first : Bool

namespace Dual

/-- Constructor, pitch/dual_pitch_detector.hpp:49-59.  `lowest_freq+((highest_freq-lowest_freq)/2)` is
computed in `double` and rounded once to `float` in the C++ code. -/
def mk' (lowest highest : F) (sps : Nat) (hyst : F) : C (Dual F) := do
  let pd1 ← Pitch.mk' lowest highest sps hyst
  let pd2 ← Pitch.mk' lowest highest sps hyst
  return { pd1 := pd1, pd2 := pd2, current := PitchInfo.zero
           mean := add lowest (div (sub highest lowest) (lit 2)), predicted := lit 0, first := true }

/-- `within_octave(f)`, pitch/dual_pitch_detector.hpp:61-65. -/
def withinOctave (d : Dual F) (f : F) : Bool :=
  if lt d.mean f then lt f (mul d.mean (lit 2)) else lt (div d.mean (lit 2)) f

/-- `_mean(s)`, fx/moving_average.hpp:152-155 with `n = 8`. -/
def meanStep (y s : F) : F :=
  let b : F := div (lit 2) (lit 9)
  add (mul b s) (mul (sub (lit 1) b) y)

/-- `compute_predicted_frequency()`, pitch/dual_pitch_detector.hpp:122-142. -/
def computePredicted (d : Dual F) : C (Dual F) := do
  let (pd1, f1) ← d.pd1.predictFrequency
  let d := { d with pd1 := pd1 }
  if lt (lit 0) f1 then
    let (pd2, f2) ← d.pd2.predictFrequency
    let d := { d with pd2 := pd2 }
    if lt (lit 0) f2 && lt (FloatOps.abs (sub f1 f2)) (div f1 (lit 10)) && (d.first || d.withinOctave f1) then
      return { d with predicted := f1 }
    else return { d with predicted := lit 0 }
  else return { d with predicted := lit 0 }

/-- pitch/dual_pitch_detector.hpp:74-98: the choice when both detectors have an estimate. -/
def choose (d : Dual F) : Dual F :=
  let i1 := d.pd1.current
  let i2 := d.pd2.current
  let i := if lt (FloatOps.abs (sub i1.frequency d.mean)) (FloatOps.abs (sub i2.frequency d.mean)) then i1 else i2
  if d.first then { d with current := i, mean := i.frequency, first := false, predicted := lit 0 }
  else if d.withinOctave i.frequency then
    { d with current := i, mean := meanStep d.mean i.frequency, predicted := lit 0 }
  else d

/-- `operator()(s)`, pitch/dual_pitch_detector.hpp:67-108. -/
def step (d : Dual F) (s : F) : C (Dual F × Bool) := do
  let (pd1, r1) ← d.pd1.step s
  let (pd2, r2) ← d.pd2.step (neg s)
  let d := { d with pd1 := pd1, pd2 := pd2 }
  if r1 || r2 then
    let d := if !d.pd1.indeterminate && !d.pd2.indeterminate then d.choose else d
    if d.pd1.indeterminate && d.pd2.indeterminate then
      let d ← d.computePredicted
      return ({ d with current := PitchInfo.zero }, true)
    else return (d, true)
  else return (d, false)

/-- `predict_frequency()`, pitch/dual_pitch_detector.hpp:110-115. -/
def predictFrequency (d : Dual F) : C (Dual F × F) :=
  if eq d.predicted (lit 0) then do
    let d ← d.computePredicted
    return (d, d.predicted)
  else .ok (d, d.predicted)

end Dual
end Verif
