import Verif.Model.Stream
import Mathlib.Analysis.SpecialFunctions.Trigonometric.Basic
import Mathlib.Analysis.SpecialFunctions.Pow.Real
import Mathlib.Analysis.SpecialFunctions.Log.Basic
/-!
# Biquad filters (q_lib/include/q/fx/biquad.hpp)

Exact (real) arithmetic: the rounding of the coefficients and of the filter's operations is not modelled.
-/
namespace Verif

/-- `biquad` members, fx/biquad.hpp:52-56. -/
structure Biquad (K : Type) where
  a0 : K
  a1 : K
  a2 : K
  a3 : K
  a4 : K
  x1 : K
  x2 : K
  y1 : K
  y2 : K

namespace Biquad
section
variable {K : Type} [CommRing K]

/-- `biquad(a0, a1, a2, a3, a4)`, fx/biquad.hpp:22-25. -/
def mk' (a0 a1 a2 a3 a4 : K) : Biquad K := ⟨a0, a1, a2, a3, a4, 0, 0, 0, 0⟩

/-- `operator()(s)`, fx/biquad.hpp:27-41. -/
def feed (b : Biquad K) (s : K) : Biquad K × K :=
  let r := b.a0 * s + b.a1 * b.x1 + b.a2 * b.x2 - b.a3 * b.y1 - b.a4 * b.y2
  ({ b with x2 := b.x1, x1 := s, y2 := b.y1, y1 := r }, r)

/-- `config(a0_, a1_, a2_, a3_, a4_)`, fx/biquad.hpp:43-50. -/
def config (b : Biquad K) (a0 a1 a2 a3 a4 : K) : Biquad K := { b with a0 := a0, a1 := a1, a2 := a2, a3 := a3, a4 := a4 }
end

/-- The six coefficients of `config_biquad`, fx/biquad.hpp:101. -/
structure Coef where
  a0 : ℝ
  a1 : ℝ
  a2 : ℝ
  b0 : ℝ
  b1 : ℝ
  b2 : ℝ

/-- `config_biquad::make()`, fx/biquad.hpp:90-93. -/
noncomputable def Coef.make (c : Coef) : Biquad ℝ := mk' (c.b0 / c.a0) (c.b1 / c.a0) (c.b2 / c.a0) (c.a1 / c.a0) (c.a2 / c.a0)

/-- `config_biquad::config(bq)`, fx/biquad.hpp:95-98. -/
noncomputable def Coef.configure (c : Coef) (b : Biquad ℝ) : Biquad ℝ :=
  b.config (c.b0 / c.a0) (c.b1 / c.a0) (c.b2 / c.a0) (c.a1 / c.a0) (c.a2 / c.a0)

/-- `omega`, fx/biquad.hpp:72-73. -/
noncomputable def omega (f sps : ℝ) : ℝ := 2 * Real.pi * f / sps

/-- `alpha` from a quality factor, fx/biquad.hpp:84-88. -/
noncomputable def alphaQ (w q : ℝ) : ℝ := Real.sin w / (2 * q)

/-- `alpha` from a bandwidth in octaves, fx/biquad.hpp:78-82. -/
noncomputable def alphaBw (w bw : ℝ) : ℝ := Real.sin w * Real.sinh (Real.log 2 / 2 * bw * w / Real.sin w)

/-- `a`, fx/biquad.hpp:109 and 115. -/
noncomputable def gainA (db : ℝ) : ℝ := (10 : ℝ) ^ (db / 40)

/-- `beta`, fx/biquad.hpp:110 and 116. -/
noncomputable def beta (a : ℝ) : ℝ := Real.sqrt (a + a)

/-- `config_lowpass::init`, fx/biquad.hpp:132-140. -/
noncomputable def lowpass (w alpha : ℝ) : Coef :=
  { b0 := (1 - Real.cos w) / 2, b1 := 1 - Real.cos w, b2 := (1 - Real.cos w) / 2,
    a0 := 1 + alpha, a1 := -2 * Real.cos w, a2 := 1 - alpha }

/-- `config_highpass::init`, fx/biquad.hpp:152-160. -/
noncomputable def highpass (w alpha : ℝ) : Coef :=
  { b0 := (1 + Real.cos w) / 2, b1 := -(1 + Real.cos w), b2 := (1 + Real.cos w) / 2,
    a0 := 1 + alpha, a1 := -2 * Real.cos w, a2 := 1 - alpha }

/-- `config_bandpass_csg::init`, fx/biquad.hpp:178-186. -/
noncomputable def bandpassCsg (w alpha : ℝ) : Coef :=
  { b0 := Real.sin w / 2, b1 := 0, b2 := -Real.sin w / 2,
    a0 := 1 + alpha, a1 := -2 * Real.cos w, a2 := 1 - alpha }

/-- `config_bandpass_cpg::init`, fx/biquad.hpp:204-212. -/
noncomputable def bandpassCpg (w alpha : ℝ) : Coef :=
  { b0 := alpha, b1 := 0, b2 := -alpha, a0 := 1 + alpha, a1 := -2 * Real.cos w, a2 := 1 - alpha }

/-- `config_notch::init`, fx/biquad.hpp:230-238. -/
noncomputable def notch (w alpha : ℝ) : Coef :=
  { b0 := 1, b1 := -2 * Real.cos w, b2 := 1, a0 := 1 + alpha, a1 := -2 * Real.cos w, a2 := 1 - alpha }

/-- `config_allpass::init`, fx/biquad.hpp:250-258. -/
noncomputable def allpass (w alpha : ℝ) : Coef :=
  { b0 := 1 - alpha, b1 := -2 * Real.cos w, b2 := 1 + alpha, a0 := 1 + alpha, a1 := -2 * Real.cos w, a2 := 1 - alpha }

/-- `config_peaking::init`, fx/biquad.hpp:276-284. -/
noncomputable def peaking (a w alpha : ℝ) : Coef :=
  { b0 := 1 + alpha * a, b1 := -2 * Real.cos w, b2 := 1 - alpha * a,
    a0 := 1 + alpha / a, a1 := -2 * Real.cos w, a2 := 1 - alpha / a }

/-- `config_lowshelf::init`, fx/biquad.hpp:296-304. -/
noncomputable def lowshelf (a w : ℝ) : Coef :=
  { b0 := a * ((a + 1) - (a - 1) * Real.cos w + beta a * Real.sin w),
    b1 := 2 * a * ((a - 1) - (a + 1) * Real.cos w),
    b2 := a * ((a + 1) - (a - 1) * Real.cos w - beta a * Real.sin w),
    a0 := (a + 1) + (a - 1) * Real.cos w + beta a * Real.sin w,
    a1 := -2 * ((a - 1) + (a + 1) * Real.cos w),
    a2 := (a + 1) + (a - 1) * Real.cos w - beta a * Real.sin w }

/-- `config_highshelf::init`, fx/biquad.hpp:316-324. -/
noncomputable def highshelf (a w : ℝ) : Coef :=
  { b0 := a * ((a + 1) + (a - 1) * Real.cos w + beta a * Real.sin w),
    b1 := -2 * a * ((a - 1) + (a + 1) * Real.cos w),
    b2 := a * ((a + 1) + (a - 1) * Real.cos w - beta a * Real.sin w),
    a0 := (a + 1) - (a - 1) * Real.cos w + beta a * Real.sin w,
    a1 := 2 * ((a - 1) - (a + 1) * Real.cos w),
    a2 := (a + 1) - (a - 1) * Real.cos w - beta a * Real.sin w }

/-- The filter classes that a user constructs, fx/biquad.hpp:331-497, from a frequency `f`, a sample rate `sps` and a
quality factor `q` or a bandwidth `bw` (in octaves), or a gain `db`.  The shelving filters take a quality factor too, but
never use it (`beta` is computed from the gain alone). -/
inductive Kind where
  | lowpass (q : ℝ)
  | highpass (q : ℝ)
  | bandpassCsgQ (q : ℝ)
  | bandpassCsgBw (bw : ℝ)
  | bandpassCpgQ (q : ℝ)
  | bandpassCpgBw (bw : ℝ)
  | allpass (q : ℝ)
  | notchQ (q : ℝ)
  | notchBw (bw : ℝ)
  | peakingQ (db q : ℝ)
  | peakingBw (db bw : ℝ)
  | lowshelf (db q : ℝ)
  | highshelf (db q : ℝ)

/-- The coefficients each constructor (and `config`) computes, for the angular frequency `w`; fx/biquad.hpp:331-497. -/
noncomputable def Kind.coef (w : ℝ) : Kind → Coef
  | .lowpass q => Biquad.lowpass w (alphaQ w q)
  | .highpass q => Biquad.highpass w (alphaQ w q)
  | .bandpassCsgQ q => Biquad.bandpassCsg w (alphaQ w q)
  | .bandpassCsgBw bw => Biquad.bandpassCsg w (alphaBw w bw)
  | .bandpassCpgQ q => Biquad.bandpassCpg w (alphaQ w q)
  | .bandpassCpgBw bw => Biquad.bandpassCpg w (alphaBw w bw)
  | .allpass q => Biquad.allpass w (alphaQ w q)
  | .notchQ q => Biquad.notch w (alphaQ w q)
  | .notchBw bw => Biquad.notch w (alphaBw w bw)
  | .peakingQ db q => Biquad.peaking (gainA db) w (alphaQ w q)
  | .peakingBw db bw => Biquad.peaking (gainA db) w (alphaBw w bw)
  | .lowshelf db _ => Biquad.lowshelf (gainA db) w
  | .highshelf db _ => Biquad.highshelf (gainA db) w

/-- A filter as constructed by the user. -/
noncomputable def Kind.filter (f sps : ℝ) (k : Kind) : Biquad ℝ := (k.coef (omega f sps)).make

end Biquad
end Verif
