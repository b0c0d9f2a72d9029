import Verif.Model.Phase
import Verif.Model.Rounding
/-!
# Oscillators: `q/utility/antialiasing.hpp`, `q/synth/saw.hpp`, `square.hpp`, `pulse.hpp`, `triangle.hpp`

Every `float` operation is followed by the rounding `fl`, every `double` operation by `fd`; the theorems
hold for every lawful rounding (`Rounding.Lawful`), in particular for IEEE-754 binary32/binary64 to-nearest.
Operations that are exact for every operand (negation) are written without rounding.
-/
namespace Verif
namespace Osc
open Phase

variable (fl fd : ℚ → ℚ)

/-- conversion `float(std::uint32_t)` -/
def ofU32 (p : Rep) : ℚ := fl p.toNat

/-- `poly_blep(p, dt)` (antialiasing.hpp 13-31), operation by operation in `float`. -/
def poly_blep (p dt : Rep) : ℚ :=
  if p.ult dt then
    let t := fl (ofU32 fl p / ofU32 fl dt)
    fl (fl (fl (t + t) - fl (t * t)) - 1)
  else if (end_ - dt).ult p then
    let t := fl (-ofU32 fl (end_ - p) / ofU32 fl dt)
    fl (fl (fl (fl (t * t) + t) + t) + 1)
  else 0

/-- `poly_blamp(p, dt, scale)` (antialiasing.hpp 33-51), operation by operation in `float`; the conversion of
the result to `double` is exact.  `float(dt)` is `phase::operator float()`. -/
def poly_blamp (p dt : Rep) (scale : ℚ) : ℚ :=
  if p.ult dt then
    let t := fl (fl (ofU32 fl p / ofU32 fl dt) - 1)
    fl (fl (fl (fl (fl (-scale / 3) * toFloat fl dt) * t) * t) * t)
  else if (end_ - dt).ult p then
    let t := fl (-fl (ofU32 fl (end_ - p) / ofU32 fl dt) + 1)
    fl (fl (fl (fl (fl (scale / 3) * toFloat fl dt) * t) * t) * t)
  else 0

/-- The constant `float x = 2.0f / phase::one_cyc` (saw.hpp 21, 40). -/
def saw_x : ℚ := fl (2 / ofU32 fl one_cyc)

/-- `basic_saw_synth::operator()(phase)` (saw.hpp 19-23): `p.rep * x` in `float`, `- 1.0` in `double`, result
converted to `float`. -/
def basic_saw (p : Rep) : ℚ := fl (fd (fl (ofU32 fl p * saw_x fl) - 1))

/-- `saw_synth::operator()(phase, phase)` (saw.hpp 38-46): `r` is a `double`. -/
def saw (p dt : Rep) : ℚ :=
  let r := fd (fl (ofU32 fl p * saw_x fl) - 1)
  let r := fd (r - poly_blep fl p dt)
  fl r

/-- `basic_square_synth::operator()(phase)` (square.hpp 19-23). -/
def basic_square (p : Rep) : ℚ := if p.ult Phase.middle then 1 else -1

/-- `square_synth::operator()(phase, phase)` (square.hpp 38-50): `r` is a `float`. -/
def square (p dt : Rep) : ℚ :=
  let r : ℚ := if p.ult Phase.middle then 1 else -1
  let r := fl (r + poly_blep fl p dt)
  let r := fl (r - poly_blep fl (p + Phase.middle) dt)
  r

/-- `basic_pulse_synth(width)` / `width(w)` (pulse.hpp 19-26): the state `_shift`. -/
def pulse_shift (width : ℚ) : C Rep := frac_phase width

/-- `basic_pulse_synth::operator()(phase)` (pulse.hpp 28-31). -/
def basic_pulse (shift p : Rep) : ℚ := if p.ult shift then 1 else -1

/-- `pulse_synth::operator()(phase, phase)` (pulse.hpp 52-64). -/
def pulse (shift p dt : Rep) : ℚ :=
  let r : ℚ := if p.ult shift then 1 else -1
  let r := fl (r + poly_blep fl p dt)
  let r := fl (r - poly_blep fl (p + (end_ - shift)) dt)
  r

/-- `abs(std::int32_t(x))` (base.hpp 39-43): the conversion is modulo `2^32`; negating `INT_MIN` is a signed
overflow. -/
def absI32 (x : Rep) : C ℤ :=
  if x.toInt < 0 then
    if x.toInt = -2 ^ 31 then .error .signedOverflow else .ok (-x.toInt)
  else .ok x.toInt

/-- The constant `float x = 4.0f / phase::one_cyc` (triangle.hpp 21, 43). -/
def tri_x : ℚ := fl (4 / ofU32 fl one_cyc)

/-- `basic_triangle_synth::operator()(phase)` (triangle.hpp 19-23). -/
def basic_triangle (p : Rep) : C ℚ := do
  let a ← absI32 p
  return fl (fd (fl (fl a * tri_x fl) - 1))

/-- `edge1 = end/4` (triangle.hpp 41). -/
def edge1 : Rep := end_ / 4#32
/-- `edge2 = end-edge1` (triangle.hpp 42). -/
def edge2 : Rep := end_ - edge1

/-- `triangle_synth::operator()(phase, phase)` (triangle.hpp 38-54). -/
def triangle (p dt : Rep) : C ℚ := do
  let a ← absI32 (p + edge1)
  let r := fd (fl (fl a * tri_x fl) - 1)
  let r := fd (r + poly_blamp fl (p + edge1) dt 4)
  let r := fd (r - poly_blamp fl (p + edge2) dt 4)
  return fl r

end Osc
end Verif
