import Verif.Model.Rounding
/-!
# Dynamic-range processors (q_lib/include/q/fx/dynamic.hpp)

All levels and gains are in decibels; `decibel` (support/decibel.hpp:15-38) wraps a `double` and its `+ - * /` and
comparisons with another decibel, a `double`, a `float` or an `int` are those of the wrapped `double`
(support/decibel.hpp:44-139), so a decibel is modelled by the number it wraps.  `fl` is the rounding of `float` operations
(only `1.0f - ratio`), `fd` that of `double` operations (`id` for exact arithmetic).
-/
namespace Verif
namespace Dyn

variable (fl fd : ℚ → ℚ)

/-- `compressor`, fx/dynamic.hpp:73-74. -/
structure Compressor where
  threshold : ℚ
  slope : ℚ

/-- `compressor(threshold, ratio)`, fx/dynamic.hpp:51-54. -/
def Compressor.mk' (threshold ratio : ℚ) : Compressor := { threshold := threshold, slope := fl (1 - ratio) }

/-- `operator()(env)`, fx/dynamic.hpp:56-61. -/
def Compressor.gain (c : Compressor) (env : ℚ) : ℚ :=
  if env ≤ c.threshold then 0 else fd (c.slope * fd (c.threshold - env))

/-- `threshold(val)`, fx/dynamic.hpp:63-66. -/
def Compressor.setThreshold (c : Compressor) (val : ℚ) : Compressor := { c with threshold := val }

/-- `ratio(ratio)`, fx/dynamic.hpp:68-71. -/
def Compressor.setRatio (c : Compressor) (ratio : ℚ) : Compressor := { c with slope := fl (1 - ratio) }

/-- `soft_knee_compressor`, fx/dynamic.hpp:124-125. -/
structure SoftKnee where
  threshold : ℚ
  width : ℚ
  lower : ℚ
  upper : ℚ
  slope : ℚ

/-- `soft_knee_compressor(threshold, width, ratio)`, fx/dynamic.hpp:80-86. -/
def SoftKnee.mk' (threshold width ratio : ℚ) : SoftKnee :=
  { threshold := threshold, width := width, lower := fd (threshold - fd (width * (1 / 2))),
    upper := fd (threshold + fd (width * (1 / 2))), slope := fl (1 - ratio) }

/-- `operator()(env)`, fx/dynamic.hpp:88-103.  `soft_slope` is a decibel: `_slope * ((env - _lower) / _width) * 0.5`. -/
def SoftKnee.gain (c : SoftKnee) (env : ℚ) : ℚ :=
  if env ≤ c.lower then 0
  else if env ≤ c.upper then
    let softSlope := fd (fd (c.slope * fd (fd (env - c.lower) / c.width)) * (1 / 2))
    fd (softSlope * fd (c.lower - env))
  else fd (c.slope * fd (c.threshold - env))

/-- `threshold(val)`, fx/dynamic.hpp:105-110. -/
def SoftKnee.setThreshold (c : SoftKnee) (val : ℚ) : SoftKnee :=
  { c with threshold := val, lower := fd (val - fd (c.width * (1 / 2))), upper := fd (val + fd (c.width * (1 / 2))) }

/-- `width(val)`, fx/dynamic.hpp:112-117. -/
def SoftKnee.setWidth (c : SoftKnee) (val : ℚ) : SoftKnee :=
  { c with width := val, lower := fd (c.threshold - fd (val * (1 / 2))),
           upper := fd (c.threshold + fd (val * (1 / 2))) }

/-- `ratio(ratio)`, fx/dynamic.hpp:119-122. -/
def SoftKnee.setRatio (c : SoftKnee) (ratio : ℚ) : SoftKnee := { c with slope := fl (1 - ratio) }

/-- `expander`, fx/dynamic.hpp:164-165. -/
structure Expander where
  threshold : ℚ
  slope : ℚ

/-- `expander(threshold, ratio)`, fx/dynamic.hpp:142-145. -/
def Expander.mk' (threshold ratio : ℚ) : Expander := { threshold := threshold, slope := ratio }

/-- `operator()(env)`, fx/dynamic.hpp:147-152. -/
def Expander.gain (c : Expander) (env : ℚ) : ℚ :=
  if env ≥ c.threshold then 0 else fd (c.slope * fd (env - c.threshold))

/-- `threshold(val)`, fx/dynamic.hpp:154-157. -/
def Expander.setThreshold (c : Expander) (val : ℚ) : Expander := { c with threshold := val }

/-- `ratio(ratio)`, fx/dynamic.hpp:159-162. -/
def Expander.setRatio (c : Expander) (ratio : ℚ) : Expander := { c with slope := ratio }

/-- `agc::operator()(env, ref)` of an `agc` with maximum gain `max`, fx/dynamic.hpp:179-185. -/
def agcGain (max env ref : ℚ) : ℚ :=
  let g := fd (ref - env)
  if g > max then fd (max - fd (g - max)) else g

end Dyn
end Verif
