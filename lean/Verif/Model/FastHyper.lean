import Verif.Model.FastMath
/-!
# The fast exponential, hyperbolic functions and natural logarithm of q_lib/include/q/detail/fast_math.hpp

As in Model/FastMath, a computed `float` whose bits were assembled is its bit pattern; `none` is a result that is not finite.
-/
namespace Verif
namespace FastMath

variable (fl : ℚ → ℚ)

/-- `fasterexp(p)`, detail/fast_math.hpp:258-262. -/
def exp (p : ℚ) : C (BitVec 32) := pow2 fl (fl (fl (1442695040 / 10 ^ 9) * p))

/-- `fastersinh(p)`, detail/fast_math.hpp:839-843. -/
def sinh (p : ℚ) : C (Option ℚ) := do
  let a ← exp fl p
  let b ← exp fl (-p)
  return (f32Val a).bind fun x => (f32Val b).map fun y => fl (fl (1 / 2) * fl (x - y))

/-- `fastercosh(p)`, detail/fast_math.hpp:851-855. -/
def cosh (p : ℚ) : C (Option ℚ) := do
  let a ← exp fl p
  let b ← exp fl (-p)
  return (f32Val a).bind fun x => (f32Val b).map fun y => fl (fl (1 / 2) * fl (x + y))

/-- `fastertanh(p)`, detail/fast_math.hpp:863-867. -/
def fasterTanh (p : ℚ) : C (Option ℚ) := do
  let a ← exp fl (fl (-2 * p))
  return (f32Val a).map fun x => fl (-1 + fl (2 / fl (1 + x)))

/-- `fasterlog(x)`, detail/fast_math.hpp:392-401. -/
def log (b : BitVec 32) : ℚ := fl (fl (fl b.toNat * fl (82629582881927490 / 10 ^ 24)) - fl (87989971088 / 10 ^ 9))

end FastMath
end Verif
