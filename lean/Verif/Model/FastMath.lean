import Verif.Model.UB
import Verif.Model.Rounding
/-!
# The bit-level approximations (q_lib/include/q/support/base.hpp and q_lib/include/q/detail/fast_math.hpp)

These functions read or build the bit pattern of a `float`, so here a `float` is its IEEE-754 bit pattern, a `BitVec 32`,
and `f32Val` gives its value (`none` for the infinities and NaNs).  `fl` is the rounding of `float` operations.

Simplification: the type punning (`reinterpret_cast<std::int32_t&>`, unions), which is undefined by the letter of the C++
standard, is modelled as the bit copy every compiler Q supports makes of it.
-/
namespace Verif

/-- The value of the binary32 number whose low 31 bits are `n`: subnormal if the exponent field is 0 (IEEE-754, 3.4). -/
def f32Mag (n : Nat) : ℚ :=
  if n / 2 ^ 23 = 0 then n * (2 : ℚ) ^ (-149 : ℤ)
  else ((2 ^ 23 + n % 2 ^ 23 : Nat) : ℚ) * (2 : ℚ) ^ ((n / 2 ^ 23 : Nat) - 150 : ℤ)

/-- The value of a binary32 bit pattern; `none` for infinities and NaNs (exponent field 255) (IEEE-754, 3.4). -/
def f32Val (b : BitVec 32) : Option ℚ :=
  if b.toNat % 2 ^ 31 < 255 * 2 ^ 23 then
    some ((if 2 ^ 31 ≤ b.toNat then -1 else 1) * f32Mag (b.toNat % 2 ^ 31))
  else none

namespace FastMath

/-- `fast_inverse(val)`, support/base.hpp:125-130: `0x7EF311C2 - x` on the bits read as a signed `int`. -/
def inverse (b : BitVec 32) : C (BitVec 32) :=
  let r : Int := 0x7EF311C2 - b.toInt
  if -2 ^ 31 ≤ r ∧ r < 2 ^ 31 then .ok (BitVec.ofInt 32 r) else .error .signedOverflow

variable (fl : ℚ → ℚ)

/-- `fast_div(a, b)`, support/base.hpp:135-138, for a finite reciprocal estimate (`none` if it is not finite). -/
def div (a : ℚ) (b : BitVec 32) : C (Option ℚ) := do
  let r ← inverse b
  .ok ((f32Val r).map fun w => fl (a * w))

/-- The literal `126.94269504f`, detail/fast_math.hpp:254, 389. -/
def bias : ℚ := fl (12694269504 / 10 ^ 8)

/-- `fasterlog2(x)`, detail/fast_math.hpp:384-390, which is `fast_log2`, support/base.hpp:143-146: the bits as an unsigned
number converted to `float`, times `1.1920928955078125e-7f`, minus the bias. -/
def log2 (b : BitVec 32) : ℚ := fl (fl (fl b.toNat * fl (11920928955078125 / 10 ^ 23)) - bias fl)

/-- `fast_log10(x)`, support/base.hpp:159-162. -/
def log10 (b : BitVec 32) : ℚ := fl (fl (301029995663981 / 10 ^ 15) * log2 fl b)

/-- `fasterpow2(p)`, detail/fast_math.hpp:251-256, which is `fast_pow2`, support/base.hpp:151-154.  The conversion of the
product to `uint32_t` is undefined when it does not fit; the product is never negative. -/
def pow2 (p : ℚ) : C (BitVec 32) :=
  let clipp := if p < -126 then -126 else p
  let t := fl (2 ^ 23 * fl (clipp + bias fl))
  if ⌊t⌋ < 2 ^ 32 then .ok (BitVec.ofNat 32 ⌊t⌋.toNat) else .error .badFloatCast

/-- `fasterpow(x, p)`, detail/fast_math.hpp:1191-1195. -/
def pow (x : BitVec 32) (p : ℚ) : C (BitVec 32) := pow2 fl (fl (p * log2 fl x))

/-- `fast_pow10(x)`, support/base.hpp:167-170; `0x41200000` are the bits of `10.0f`. -/
def pow10 (x : ℚ) : C (BitVec 32) := pow fl 0x41200000#32 x

/-- `fastsin(x)`, detail/fast_math.hpp:1354-1376.  The sign bit of `x` is moved onto the constants `p` and `r` (by `|=`) and
flips that of the negative constant `s` (by `^=`); simplification: -0 has sign bit 1 in the code and counts as 0 here (the
result is a zero either way). -/
def sin (x : ℚ) : ℚ :=
  let sgn : ℚ := if x < 0 then -1 else 1
  let q := fl (78444488374548933 / 10 ^ 17)
  let p := sgn * fl (20363937680730309 / 10 ^ 17)
  let r := sgn * fl (15124940802184233 / 10 ^ 18)
  let s := sgn * fl (-32225901625579573 / 10 ^ 19)
  let qpprox := fl (fl (fl (12732395447351627 / 10 ^ 16) * x) - fl (fl (fl (40528473456935109 / 10 ^ 17) * x) * |x|))
  let qpproxsq := fl (qpprox * qpprox)
  fl (fl (q * qpprox) + fl (qpproxsq * fl (p + fl (qpproxsq * fl (r + fl (qpproxsq * s))))))

/-- `fasttan(x)`, detail/fast_math.hpp:1456-1460. -/
def tan (x : ℚ) : ℚ := fl (sin fl x / sin fl (fl (x + fl (15707963267948966 / 10 ^ 16))))

/-- `pi`, support/base.hpp:34, a `double` (`fld` is the rounding of `double` operations). -/
def pi64 (fld : ℚ → ℚ) : ℚ := fld (31415926535897932384626433832795 / 10 ^ 31)

/-- The coefficient of `one_pole_allpass(freq, sps)` and `pivot(freq, sps)`, fx/allpass.hpp:26-28 and 38-41.
`0.25_pi` is a `long double` (support/literals.hpp:100), so the subtraction is rounded by `flx`, the rounding of `long
double` operations; the product of `pi` with 0.25 is exact. -/
def pivotCoef (fld flx : ℚ → ℚ) (freq : ℚ) (sps : Nat) : ℚ :=
  tan fl (fl (flx (fld (fld (pi64 fld * freq) / sps) - pi64 fld / 4)))

/-- The coefficient of `reso_filter(f, reso, sps)` and `cutoff(f, sps)`, fx/lowpass.hpp:158-159 and 182-184. -/
def resoCoef (fld : ℚ → ℚ) (freq : ℚ) (sps : Nat) : ℚ :=
  fl (2 * sin fl (fl (fld (fld (pi64 fld * fl freq) / sps))))

/-- `fast_exp3(x)`, support/base.hpp:71-74. -/
def exp3 (x : ℚ) : ℚ := fl (fl (6 + fl (x * fl (6 + fl (x * fl (3 + x))))) * fl (16666666 / 10 ^ 8))

/-- `fast_exp4(x)`, support/base.hpp:76-79. -/
def exp4 (x : ℚ) : ℚ :=
  fl (fl (24 + fl (x * fl (24 + fl (x * fl (12 + fl (x * fl (4 + x))))))) * fl (41666666 / 10 ^ 9))

/-- `fast_exp5(x)`, support/base.hpp:81-84. -/
def exp5 (x : ℚ) : ℚ :=
  fl (fl (120 + fl (x * fl (120 + fl (x * fl (60 + fl (x * fl (20 + fl (x * fl (5 + x))))))))) * fl (83333333 / 10 ^ 10))

/-- `fast_exp6(x)`, support/base.hpp:86-89. -/
def exp6 (x : ℚ) : ℚ :=
  fl (fl (720 + fl (x * fl (720 + fl (x * fl (360 + fl (x * fl (120 + fl (x * fl (30 + fl (x * fl (6 + x)))))))))))
    * fl (13888888 / 10 ^ 10))

/-- `fast_exp7(x)`, support/base.hpp:91-95. -/
def exp7 (x : ℚ) : ℚ :=
  fl (fl (5040 + fl (x * fl (5040 + fl (x * fl (2520 + fl (x *
    fl (840 + fl (x * fl (210 + fl (x * fl (42 + fl (x * fl (7 + x))))))))))))) * fl (19841269 / 10 ^ 11))

/-- `fast_exp8(x)`, support/base.hpp:97-101. -/
def exp8 (x : ℚ) : ℚ :=
  fl (fl (40320 + fl (x * fl (40320 + fl (x * fl (20160 + fl (x * fl (6720 + fl (x *
    fl (1680 + fl (x * fl (336 + fl (x * fl (56 + fl (x * fl (8 + x))))))))))))))) * fl (24801587301 / 10 ^ 15))

/-- `fast_exp9(x)`, support/base.hpp:103-107. -/
def exp9 (x : ℚ) : ℚ :=
  fl (fl (362880 + fl (x * fl (362880 + fl (x * fl (181440 + fl (x * fl (60480 + fl (x *
    fl (15120 + fl (x * fl (3024 + fl (x * fl (504 + fl (x * fl (72 + fl (x * fl (9 + x))))))))))))))))) * fl (275573192 / 10 ^ 14))

/-- `fast_tan(x)`, support/base.hpp:48-58. -/
def tanPoly (x : ℚ) : ℚ :=
  let sqr := fl (x * x)
  let r := fl (2033 / 10 ^ 4)
  let r := fl (r * sqr)
  let r := fl (r + fl (31755 / 10 ^ 5))
  let r := fl (r * sqr)
  let r := fl (r + 1)
  fl (r * x)

/-- `fast_rational_tanh(x)`, support/base.hpp:63-66. -/
def tanh (x : ℚ) : ℚ := fl (fl (x * fl (27 + fl (x * x))) / fl (27 + fl (fl (9 * x) * x)))

/-- `abs_within(float a, float b, float eps)`, support/base.hpp:185-188. -/
def absWithin (a b eps : ℚ) : Bool := decide (|fl (a - b)| ≤ eps)

/-- `rel_within(a, b, eps)`, support/base.hpp:198-201. -/
def relWithin (a b eps : ℚ) : Bool := decide (|fl (a - b)| ≤ fl (eps * max |a| |b|))

/-- `abs_within(int a, int b, int eps)`, support/base.hpp:190-193: `a - b`, and `-x` in `abs` (line 39-42) if that is negative,
overflow if they do not fit. -/
def absWithinInt (a b eps : BitVec 32) : C Bool :=
  let d := a.toInt - b.toInt
  if -2 ^ 31 ≤ d ∧ d < 2 ^ 31 then
    if d < 0 then
      if -d < 2 ^ 31 then .ok (decide (-d ≤ eps.toInt)) else .error .signedOverflow
    else .ok (decide (d ≤ eps.toInt))
  else .error .signedOverflow

end FastMath
end Verif
