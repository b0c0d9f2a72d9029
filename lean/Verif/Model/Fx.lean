import Verif.Model.Rounding
import Verif.Model.Stream
import Verif.Model.Delay
import Verif.Model.Float
import Mathlib.Analysis.Real.Pi.Bounds
/-!
# Wave shapers, DC blocker, down-sampler, dynamic smoother, remaining low-pass filters
(q_lib/include/q/fx/waveshaper.hpp, fx/special.hpp, fx/lowpass.hpp)
-/
namespace Verif
namespace Fx

/-- `clip::operator()(s)`, fx/waveshaper.hpp:28-31.  Any ordered type with a negation (no arithmetic is done). -/
def clip {α : Type} [LT α] [DecidableRel (α := α) (· < ·)] [Neg α] (max s : α) : α :=
  if s > max then max else if s < -max then -max else s

/-- `soft_clip::operator()(s)`, fx/waveshaper.hpp:41-45, for the default `_max = 1.0f`.  `1.5 * s - 0.5 * s * s * s` is
computed in `double` (rounding `fd`) and converted to `float` (rounding `fl`). -/
def softClip (fl fd : ℚ → ℚ) (s : ℚ) : ℚ :=
  let s := clip 1 s
  fl (fd (fd (3 / 2 * s) - fd (fd (fd (1 / 2 * s) * s) * s)))

section field
variable {K : Type} [Field K]

/-- `map::operator()(s)`, fx/special.hpp:34-37. -/
def mapRange (y1 y2 s : K) : K := linearInterpolate y1 y2 s

/-- `fast_downsample<T>::operator()(s1, s2)`, fx/special.hpp:60-65, for a floating `T`; state `x`.  Exact arithmetic. -/
def downsample (x : K) (s : K × K) : K × K :=
  let out := x + s.1 / 2
  let x := s.2 / 4
  (x, out + x)

/-- `dc_block` members `x`, `y`, fx/special.hpp:101-102. -/
structure DcBlock (K : Type) where
  x : K
  y : K

/-- `dc_block::operator()(s)`, fx/special.hpp:82-87, with pole `p` (`1 - 2 pi f / sps`, lines 78-80).  Exact
arithmetic. -/
def DcBlock.feed (p : K) (d : DcBlock K) (s : K) : DcBlock K × K :=
  let y := s - d.x + p * d.y
  ({ x := s, y := y }, y)

end field

/-- The pole of `dc_block(f, sps)`, fx/special.hpp:78-80 and 95-98, and of `leaky_integrator(f, sps)`, fx/lowpass.hpp:70-72
and 90-93.  Exact arithmetic. -/
noncomputable def pole (f sps : ℝ) : ℝ := 1 - 2 * Real.pi * f / sps

/-- `dc_block::operator=(bool y_)`, fx/special.hpp:89-93, applied to a number: the argument is converted to `bool`
(`true` iff not zero) and the `bool` back to `float`. -/
def DcBlock.assign (d : DcBlock ℚ) (y : ℚ) : DcBlock ℚ := { d with y := if y ≠ 0 then 1 else 0 }

/-- `fast_downsample<int>::operator()(s1, s2)`, fx/special.hpp:60-65: truncating divisions.  Simplification: unbounded
integers (the theorem bounds every intermediate value). -/
def downsampleInt (x : Int) (s : Int × Int) : Int × Int :=
  let out := x + s.1.tdiv 2
  let x := s.2.tdiv 4
  (x, out + x)

section ordered
variable {K : Type} [Field K] [LinearOrder K]

/-- `dynamic_smoother` members, fx/special.hpp:247-249 (`wc` is used only to compute `g0`). -/
structure Smoother (K : Type) where
  sense : K
  g0 : K
  low1 : K
  low2 : K

/-- `dynamic_smoother::operator()(s)`, fx/special.hpp:229-238.  Exact arithmetic. -/
def Smoother.feed (d : Smoother K) (s : K) : Smoother K × K :=
  let low1z := d.low1
  let low2z := d.low2
  let bandz := low1z - low2z
  let g := min (d.g0 + d.sense * |bandz|) 1
  let low1 := low1z + g * (s - low1z)
  let low2 := low2z + g * (low1 - low2z)
  ({ d with low1 := low1, low2 := low2 }, low2z)
end ordered

/-- `dynamic_smoother(base, sensitivity, sps)`, fx/special.hpp:221-227 (and, for the base frequency, `base_frequency`, 240-245).  Exact arithmetic. -/
noncomputable def Smoother.mk' (base sensitivity sps : ℝ) : Smoother ℝ :=
  let wc := base / sps
  let gc := Real.tan (Real.pi * wc)
  { sense := sensitivity * 4, g0 := 2 * gc / (1 + gc), low1 := 0, low2 := 0 }

/-- `dynamic_smoother(base, sps)`, fx/special.hpp:217-219. -/
noncomputable def Smoother.mkDefault (base sps : ℝ) : Smoother ℝ := Smoother.mk' base (1 / 2) sps

/-- `base_frequency(base, sps)`, fx/special.hpp:240-245. -/
noncomputable def Smoother.baseFrequency (d : Smoother ℝ) (base sps : ℝ) : Smoother ℝ :=
  { d with g0 := 2 * Real.tan (Real.pi * (base / sps)) / (1 + Real.tan (Real.pi * (base / sps))) }

/-- `fixed_pt_leaky_integrator<k, int>::operator()(s)`, fx/lowpass.hpp:41-45; state `y`.  Division truncates towards
zero; `none` if a result does not fit in a 32-bit `int` (undefined behaviour). -/
def fixedLeaky (k : Int) (y s : Int) : C (Int × Int) := do
  let d ← subInt s (y.tdiv k)
  let y ← if -2 ^ 31 ≤ y + d ∧ y + d < 2 ^ 31 then .ok (y + d) else .error .signedOverflow
  return (y, y)

/-- `reso_filter` members, fx/lowpass.hpp:200-201. -/
structure Reso (K : Type) where
  f : K
  fb : K
  reso : K
  y0 : K
  y1 : K

section field2
variable {K : Type} [Field K]

/-- `reso_filter(float f, float reso)`, fx/lowpass.hpp:164-168. -/
def Reso.mk' (f reso : K) : Reso K := { f := f, fb := reso + reso / (1 - f), reso := reso, y0 := 0, y1 := 0 }

/-- `reso_filter::operator()(s)`, fx/lowpass.hpp:170-175.  Exact arithmetic. -/
def Reso.feed (r : Reso K) (s : K) : Reso K × K :=
  let y0 := r.y0 + r.f * (s - r.y0 + r.fb * (r.y0 - r.y1))
  let y1 := r.y1 + r.f * (y0 - r.y1)
  ({ r with y0 := y0, y1 := y1 }, y1)

/-- `cutoff(float f)`, fx/lowpass.hpp:188-192. -/
def Reso.cutoff (r : Reso K) (f : K) : Reso K := { r with f := f, fb := r.reso + r.reso / (1 - f) }

/-- `resonance(reso)`, fx/lowpass.hpp:194-198. -/
def Reso.resonance (r : Reso K) (reso : K) : Reso K := { r with reso := reso, fb := reso + reso / (1 - r.f) }

/-- `one_pole_allpass::operator()(s)`, fx/allpass.hpp:30-35; coefficient `a`, state `y`.  Exact arithmetic. -/
def onePoleAllpass (a : K) (y s : K) : K × K :=
  let out := y + a * s
  (s - a * out, out)

/-- `polyphase_allpass` members, fx/allpass.hpp:72. -/
structure Poly (K : Type) where
  x1 : K
  x2 : K
  y1 : K
  y2 : K

/-- `polyphase_allpass::operator()(s)`, fx/allpass.hpp:56-69; coefficient `a`.  Exact arithmetic. -/
def Poly.feed (a : K) (p : Poly K) (s : K) : Poly K × K :=
  let r := a * (s + p.y2) - p.x2
  ({ x2 := p.x1, x1 := s, y2 := p.y1, y1 := r }, r)

/-- `hilbert_quadrature` members, fx/special.hpp:270-280. -/
structure Hilbert (K : Type) where
  a : Poly K
  b : Poly K
  c : Poly K
  d : Poly K
  w : Poly K
  x : Poly K
  y : Poly K
  z : Poly K
  dly : K

/-- A polyphase all-pass just constructed, fx/allpass.hpp:51-54. -/
def Poly.init : Poly K := ⟨0, 0, 0, 0⟩

/-- A Hilbert filter just constructed, fx/special.hpp:270-280. -/
def Hilbert.init : Hilbert K :=
  ⟨Poly.init, Poly.init, Poly.init, Poly.init, Poly.init, Poly.init, Poly.init, Poly.init, 0⟩

/-- `hilbert_quadrature::operator()(s)`, fx/special.hpp:262-268.  The coefficients are parameters `k 0 … k 7` (in the order
of the members `_a _b _c _d _w _x _y _z`). -/
def Hilbert.feed (k : Fin 8 → K) (h : Hilbert K) (s : K) : Hilbert K × (K × K) :=
  let (a, s1) := h.a.feed (k 0) s
  let (b, s2) := h.b.feed (k 1) s1
  let (c, s3) := h.c.feed (k 2) s2
  let (d, s4) := h.d.feed (k 3) s3
  let (dly, s5) := delay1 h.dly s4
  let (w, t1) := h.w.feed (k 4) s
  let (x, t2) := h.x.feed (k 5) t1
  let (y, t3) := h.y.feed (k 6) t2
  let (z, t4) := h.z.feed (k 7) t3
  (⟨a, b, c, d, w, x, y, z, dly⟩, (s5, t4))

end field2

/-- The coefficients of `hilbert_quadrature`, fx/special.hpp:270-278, as written there (they are converted to `float`; the theorems
hold for all coefficients close to these). -/
def hilbertCoefs : Fin 8 → ℚ := ![0.47940086558884, 0.87621849353931, 0.976597589508199, 0.997499255935549,
  0.161758498367701, 0.733028932341491, 0.945349700329113, 0.990599156684529]

end Fx
end Verif
