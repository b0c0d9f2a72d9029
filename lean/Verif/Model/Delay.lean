import Verif.Model.Ring
import Verif.Model.Stream
import Mathlib.Algebra.Order.Floor.Ring
import Mathlib.Algebra.Field.Defs
/-!
# Delays (q_lib/include/q/fx/delay.hpp), fractional reads (utility/fractional_ring_buffer.hpp,
utility/interpolation.hpp) and the small processors of fx/special.hpp built on them.

Samples are elements of an arbitrary field `K` (exact arithmetic instead of `float`); processors that do
no arithmetic work for any type.
-/
namespace Verif

/-- `delay1::operator()(s)`, fx/delay.hpp:19-24.  State: the member `y`. -/
def delay1 {K : Type _} (y : K) (s : K) : K × K := (s, y)

/-- `delay2::operator()(s)`, fx/delay.hpp:37-45.  State: `(_d1.y, _d2.y)`. -/
def delay2 {K : Type _} (d : K × K) (s : K) : (K × K) × K :=
  let (d1, a) := delay1 d.1 s
  let (d2, b) := delay1 d.2 a
  ((d1, d2), b)

/-- `basic_delay<ring_buffer<float>>::operator()(val, i)` (`nf_delay`), fx/delay.hpp:87-93. -/
def nfDelay {K : Type _} (r : RingBuf K) (c : K × BitVec 64) : C (RingBuf K × K) := do
  let delayed ← r.get c.2
  let r' ← r.push c.1
  return (r', delayed)

/-- `basic_delay::operator()()`, fx/delay.hpp:71-74: the maximum delay. -/
def maxDelay {K : Type _} (r : RingBuf K) : C K := r.back

section field
variable {K : Type _} [Field K]

/-- `linear_interpolate(y1, y2, mu)`, support/base.hpp:114-117. -/
def linearInterpolate (y1 y2 mu : K) : K := y1 + mu * (y2 - y1)

/-- `differentiator::operator()(s)`, fx/special.hpp:113-118.  State: `x`. -/
def differentiator (x : K) (s : K) : K × K := (s, s - x)

/-- `central_difference::operator()(s)`, fx/special.hpp:134-137.  State: the `delay2`. -/
def centralDifference (d : K × K) (s : K) : (K × K) × K :=
  let (d', y) := delay2 d s
  (d', (s - y) / 2)

/-- `integrator::operator()(s)`, fx/special.hpp:150-153.  State: `y`. -/
def integrator (gain : K) (y : K) (s : K) : K × K :=
  let y := y + gain * s
  (y, y)

end field

section floor
variable {K : Type _} [Field K] [LinearOrder K] [IsStrictOrderedRing K] [FloorRing K]

/-- `std::size_t(x)` for a floating `x`: truncation toward zero, undefined unless the truncated value is
representable ([conv.fpint]). -/
def castSizeT (x : K) : C (BitVec 64) :=
  if -1 < x ∧ x < (2 : K) ^ 64 then .ok (BitVec.ofNat 64 ⌊x⌋.toNat) else .error .badFloatCast

/-- `sample_interpolation::linear::operator()(buffer, index)`, utility/interpolation.hpp:28-35. -/
def linearRead (r : RingBuf K) (index : K) : C K := do
  let i ← castSizeT index
  let y1 ← r.get i
  let y2 ← r.get (i + 1)
  let mu := index - (⌊index⌋ : K)
  return linearInterpolate y1 y2 mu

/-- `sample_interpolation::none::operator()(buffer, index)`, utility/interpolation.hpp:19-23. -/
def noneRead (r : RingBuf K) (index : K) : C K := do
  let i ← castSizeT index
  r.get i

/-- `basic_delay<fractional_ring_buffer<float>>::operator()(val, i)` (`delay`), fx/delay.hpp:87-93 with
`fractional_ring_buffer::operator[]`, utility/fractional_ring_buffer.hpp:35-39. -/
def fracDelay (r : RingBuf K) (c : K × K) : C (RingBuf K × K) := do
  let delayed ← linearRead r c.2
  let r' ← r.push c.1
  return (r', delayed)

end floor
end Verif
