import Mathlib.Data.Rat.Floor
import Mathlib.Algebra.Order.Field.Rat
import Verif.Model.UB
/-!
# `q/support/phase.hpp`

`std::uint32_t` is `BitVec 32`; `+`, `-` wrap modulo `2^32` exactly as in C++.
-/
namespace Verif
namespace Phase

/-- `phase` (phase.hpp 30-48): a `value<std::uint32_t, phase>` holding just `rep`. -/
abbrev Rep := BitVec 32

/-- `phase::one_cyc` (phase.hpp 34): `int_max<std::uint32_t>()`. -/
def one_cyc : Rep := 0xffffffff#32
/-- `phase::begin()` (phase.hpp 45). -/
def begin_ : Rep := 0#32
/-- `phase::end()` (phase.hpp 46). -/
def end_ : Rep := one_cyc
/-- `phase::middle()` (phase.hpp 47): `one_cyc/2`. -/
def middle : Rep := one_cyc / 2#32

/-- Conversion of a floating value (here: an exact rational) to `std::uint32_t`: truncation; undefined when
the truncated value is not representable. -/
def toU32 (x : ℚ) : C Rep :=
  if -1 < x ∧ x < 2 ^ 32 then .ok (BitVec.ofNat 32 ⌊x⌋.toNat) else .error .badFloatCast

/-- `detail::frac_phase(double)` and `detail::frac_phase(float)` (phase.hpp 107-126).
The multiplication by `2^32` of a fraction in `[0,1)` is exact in binary floating point (for subnormals as
well: it only increases the exponent), so the same rational function models both overloads.  NaN arguments,
for which the assertion fails too, are not represented. -/
def frac_phase (frac : ℚ) : C Rep :=
  if 0 ≤ frac then
    if 1 ≤ frac then .ok end_ else toU32 (2 ^ 32 * frac)
  else .error .assertFail

/-- `phase::phase(frequency, std::uint32_t)` (phase.hpp 136-138).  `2^32 * freq` is exact; the result of the
division is rounded by `rnd` (any function: the rounding of the machine); division by `sps = 0` gives an
infinity or NaN, whose conversion is undefined. -/
def ofFreq (rnd : ℚ → ℚ) (freq : ℚ) (sps : Nat) : C Rep :=
  if sps = 0 then .error .badFloatCast else toU32 (rnd (2 ^ 32 * freq / sps))

/-- `phase::operator double()` (phase.hpp 146-150): exact (a 32-bit integer fits the 53-bit significand). -/
def toDouble (p : Rep) : ℚ := p.toNat / 2 ^ 32

/-- `phase::operator float()` (phase.hpp 140-144): `rep` is converted to `float` (rounded by `rnd`), the
division by a power of two is exact. -/
def toFloat (rnd : ℚ → ℚ) (p : Rep) : ℚ := rnd p.toNat / 2 ^ 32

/-- `phase_iterator` (phase.hpp 54-76). -/
structure Iter where
  phase : Rep
  incr : Rep
  deriving DecidableEq, Repr

namespace Iter

/-- `phase_iterator()` (phase.hpp 152-155). -/
def mk0 : Iter := ⟨0#32, 0#32⟩
/-- `phase_iterator(frequency, sps)` (phase.hpp 157-160). -/
def ofFreq (rnd : ℚ → ℚ) (freq : ℚ) (sps : Nat) : C Iter := do
  return ⟨0#32, ← Phase.ofFreq rnd freq sps⟩
/-- prefix `operator++` (phase.hpp 169-173). -/
def inc (i : Iter) : Iter := { i with phase := i.phase + i.incr }
/-- postfix `operator++(int)` (phase.hpp 162-167): the returned value and the new state. -/
def postInc (i : Iter) : Iter × Iter := (i, { i with phase := i.phase + i.incr })
/-- prefix `operator--` (phase.hpp 182-186). -/
def dec (i : Iter) : Iter := { i with phase := i.phase - i.incr }
/-- postfix `operator--(int)` (phase.hpp 175-180). -/
def postDec (i : Iter) : Iter × Iter := (i, { i with phase := i.phase - i.incr })
/-- `operator=(phase rhs)` (phase.hpp 188-192): sets the *increment*. -/
def assign (i : Iter) (rhs : Rep) : Iter := { i with incr := rhs }
/-- `set(freq, sps)` (phase.hpp 194-197). -/
def set (rnd : ℚ → ℚ) (i : Iter) (freq : ℚ) (sps : Nat) : C Iter := do
  return { i with incr := ← Phase.ofFreq rnd freq sps }
/-- `first()` (phase.hpp 199-202). -/
def first (i : Iter) : Bool := i.phase.ult i.incr
/-- `last()` (phase.hpp 204-207). -/
def last (i : Iter) : Bool := (end_ - i.phase).ult i.incr
/-- `begin()` (phase.hpp 209-214). -/
def begin_ (i : Iter) : Iter := { i with phase := Phase.begin_ }
/-- `end()` (phase.hpp 216-221). -/
def end_ (i : Iter) : Iter := { i with phase := Phase.end_ }
/-- `middle()` (phase.hpp 223-228). -/
def middle (i : Iter) : Iter := { i with phase := Phase.middle }

/-- `-(b)` for a `bool` promoted to `int`, then converted to `std::uint32_t`. -/
def negBool (b : Bool) : BitVec 32 := -(BitVec.ofNat 32 b.toNat)

/-- `one_shot_phase_iterator::operator++` (phase.hpp 237-243). -/
def oneShotInc (i : Iter) : Iter :=
  let res := i.phase + i.incr
  let res := res ||| negBool (res.ult i.phase)
  { i with phase := res }

/-- `one_shot_phase_iterator::operator--` (phase.hpp 252-258). -/
def oneShotDec (i : Iter) : Iter :=
  let res := i.phase - i.incr
  let res := res &&& negBool (res.ule i.phase)
  { i with phase := res }

/-- postfix `one_shot_phase_iterator::operator++(int)` (phase.hpp 230-235): returned value, new state. -/
def oneShotPostInc (i : Iter) : Iter × Iter := (i, oneShotInc i)
/-- postfix `one_shot_phase_iterator::operator--(int)` (phase.hpp 245-250). -/
def oneShotPostDec (i : Iter) : Iter × Iter := (i, oneShotDec i)

end Iter
end Phase
end Verif
