import Verif.Model.Biquad
import Verif.Model.Fx
import Verif.Model.Moving
import Verif.Model.Follower
/-!
# The recursive filters with every operation rounded

`fl` is the rounding of a `float` operation (`id` gives the exact filters of `Model/Biquad.lean`, `Model/Fx.lean`,
`Model/Moving.lean`; the lemmas `*_id` below say so).  C++ groups `a + b + c` from the left.  Simplification: no fused
multiply-add and no excess precision (a compiler may be told to use either).
-/
namespace Verif
namespace RoundFilter

variable (fl : ℚ → ℚ)

/-- `biquad::operator()(s)`, fx/biquad.hpp:27-41, in `float`:
`a0 * s + a1 * x1 + a2 * x2 - a3 * y1 - a4 * y2`. -/
def biquad (b : Biquad ℚ) (s : ℚ) : Biquad ℚ × ℚ :=
  let r := fl (fl (fl (fl (fl (b.a0 * s) + fl (b.a1 * b.x1)) + fl (b.a2 * b.x2)) - fl (b.a3 * b.y1)) - fl (b.a4 * b.y2))
  ({ b with x2 := b.x1, x1 := s, y2 := b.y1, y1 := r }, r)

/-- `dc_block::operator()(s)`, fx/special.hpp:82-87, in `float`: `s - x + _pole * y`. -/
def dcBlock (p : ℚ) (d : Fx.DcBlock ℚ) (s : ℚ) : Fx.DcBlock ℚ × ℚ :=
  let y := fl (fl (s - d.x) + fl (p * d.y))
  ({ x := s, y := y }, y)

/-- `one_pole_allpass::operator()(s)`, fx/allpass.hpp:30-35, in `float`. -/
def onePoleAllpass (a : ℚ) (y s : ℚ) : ℚ × ℚ :=
  let out := fl (y + fl (a * s))
  (fl (s - fl (a * out)), out)

/-- `polyphase_allpass::operator()(s)`, fx/allpass.hpp:56-69, in `float`: `a * (s + y2) - x2`. -/
def polyphase (a : ℚ) (p : Fx.Poly ℚ) (s : ℚ) : Fx.Poly ℚ × ℚ :=
  let r := fl (fl (a * fl (s + p.y2)) - p.x2)
  ({ x2 := p.x1, x1 := s, y2 := p.y1, y1 := r }, r)

/-- `exp_moving_average::operator()(s)` and `rt_exp_moving_average::operator()(s)`, fx/moving_average.hpp:152-155 and
192-195, in `float`: `b * s + b_ * y`. -/
def ema (e : Ema ℚ) (s : ℚ) : Ema ℚ × ℚ :=
  let y := fl (fl (e.b * s) + fl (e.b_ * e.y))
  ({ e with y := y }, y)

/-- `reso_filter::operator()(s)`, fx/lowpass.hpp:170-175, in `float`. -/
def reso (r : Fx.Reso ℚ) (s : ℚ) : Fx.Reso ℚ × ℚ :=
  let y0 := fl (r.y0 + fl (r.f * fl (fl (s - r.y0) + fl (r.fb * fl (r.y0 - r.y1)))))
  let y1 := fl (r.y1 + fl (r.f * fl (y0 - r.y1)))
  ({ r with y0 := y0, y1 := y1 }, y1)

/-- `basic_moving_sum<float>::operator()(T s)`, fx/moving_average.hpp:33-39.  The accumulator type is
`decltype(promote(T()))` (line 76); `promote` is defined outside the repository, so the rounding `fa` of the accumulator is a
parameter.  The result is converted to `float`. -/
def movingSum (fa : ℚ → ℚ) (m : MovingSum ℚ) (s : ℚ) : C (MovingSum ℚ × ℚ) := do
  let sum := fa (m.sum + s)
  let oldest ← m.buff.get (m.size - 1)
  let sum := fa (sum - oldest)
  let buff ← m.buff.push s
  return ({ m with buff := buff, sum := sum }, fl sum)

/-- `dynamic_smoother::operator()(s)`, fx/special.hpp:229-238, in `float`. -/
def smoother (d : Fx.Smoother ℚ) (s : ℚ) : Fx.Smoother ℚ × ℚ :=
  let low1z := d.low1
  let low2z := d.low2
  let bandz := fl (low1z - low2z)
  let g := min (fl (d.g0 + fl (d.sense * |bandz|))) 1
  let low1 := fl (low1z + fl (g * fl (s - low1z)))
  let low2 := fl (low2z + fl (g * fl (low1 - low2z)))
  ({ d with low1 := low1, low2 := low2 }, low2z)

/-- `hilbert_quadrature::operator()(s)`, fx/special.hpp:262-268, in `float`; the coefficients are parameters `k 0 … k 7`. -/
def hilbert (k : Fin 8 → ℚ) (h : Fx.Hilbert ℚ) (s : ℚ) : Fx.Hilbert ℚ × (ℚ × ℚ) :=
  let (a, s1) := polyphase fl (k 0) h.a s
  let (b, s2) := polyphase fl (k 1) h.b s1
  let (c, s3) := polyphase fl (k 2) h.c s2
  let (d, s4) := polyphase fl (k 3) h.d s3
  let (dly, s5) := delay1 h.dly s4
  let (w, t1) := polyphase fl (k 4) h.w s
  let (x, t2) := polyphase fl (k 5) h.x t1
  let (y, t3) := polyphase fl (k 6) h.y t2
  let (z, t4) := polyphase fl (k 7) h.z t3
  (⟨a, b, c, d, w, x, y, z, dly⟩, (s5, t4))

/-- `reso_filter(float f, float reso)`, fx/lowpass.hpp:164-168, in `float`: `reso + reso / (1 - f)`. -/
def resoMk (f r : ℚ) : Fx.Reso ℚ := { f := f, fb := fl (r + fl (r / fl (1 - f))), reso := r, y0 := 0, y1 := 0 }

theorem resoMk_id (f r : ℚ) : resoMk id f r = Fx.Reso.mk' f r := rfl
theorem hilbert_id (k : Fin 8 → ℚ) : hilbert id k = Fx.Hilbert.feed k := rfl
theorem smoother_id : smoother id = Fx.Smoother.feed := rfl
theorem biquad_id : biquad id = Biquad.feed := rfl
theorem dcBlock_id (p : ℚ) : dcBlock id p = Fx.DcBlock.feed p := rfl
theorem onePoleAllpass_id (a : ℚ) : onePoleAllpass id a = Fx.onePoleAllpass a := rfl
theorem polyphase_id (a : ℚ) : polyphase id a = Fx.Poly.feed a := rfl
theorem ema_id : ema id = Ema.feed := rfl
theorem reso_id : reso id = Fx.Reso.feed := rfl
theorem movingSum_id : movingSum id id = MovingSum.feed := rfl

end RoundFilter
end Verif
