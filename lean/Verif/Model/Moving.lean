import Verif.Model.Ring
import Verif.Model.Stream
import Mathlib.Algebra.Order.Field.Basic
/-!
# Moving sum, averages, maximum, median
(q_lib/include/q/fx/moving_average.hpp, fx/moving_maximum.hpp, fx/median.hpp)
-/
namespace Verif

/-- `basic_moving_sum<T>` members, fx/moving_average.hpp:75-80.  `K` is the sample (and accumulator)
type; any commutative ring, so that both exact arithmetic and wrapping machine integers are instances.
Simplification: sample and accumulator types are identified. -/
structure MovingSum (K : Type) where
  buff : RingBuf K
  size : BitVec 64
  sum  : K

namespace MovingSum
variable {K : Type} [CommRing K]

/-- `basic_moving_sum(std::size_t max_size)`, fx/moving_average.hpp:21-27. -/
def mk' (n : Nat) : MovingSum K :=
  { buff := (RingBuf.mk' 0 n).clear 0, size := BitVec.ofNat 64 n, sum := 0 }

/-- `operator()(T s)`, fx/moving_average.hpp:33-39. -/
def feed (m : MovingSum K) (s : K) : C (MovingSum K × K) := do
  let sum := m.sum + s
  let oldest ← m.buff.get (m.size - 1)
  let sum := sum - oldest
  let buff ← m.buff.push s
  return ({ m with buff := buff, sum := sum }, sum)

/-- `clear()`, fx/moving_average.hpp:56-60. -/
def clear (m : MovingSum K) : MovingSum K := { m with buff := m.buff.clear 0, sum := 0 }

/-- `fill(T val)`, fx/moving_average.hpp:62-66. -/
def fill (m : MovingSum K) (v : K) : MovingSum K :=
  { m with buff := m.buff.fill v, sum := v * (m.size.toNat : K) }

/-- The public operations. -/
inductive Op (K : Type) where
  | feed (s : K)
  | clear
  | fill (v : K)

/-- One public operation; the output is `sum()` after it (fx/moving_average.hpp:41-49). -/
def step (m : MovingSum K) : Op K → C (MovingSum K × K)
  | .feed s => m.feed s
  | .clear => .ok (m.clear, m.clear.sum)
  | .fill v => .ok (m.fill v, (m.fill v).sum)

end MovingSum

/-- `basic_moving_average<T>::operator()() const` for a floating `T`, fx/moving_average.hpp:116-120. -/
def movingAverageReal {K : Type} [Field K] (m : MovingSum K) : K := m.sum / (m.size.toNat : K)

/-- `basic_moving_average<int>::operator()() const`, fx/moving_average.hpp:116-120.  `sum()` has type
`int`, `size()` has type `std::size_t`: by the usual arithmetic conversions the `int` is converted to a
64-bit *unsigned* value, the division is unsigned, and the quotient is converted back to `int`. -/
def movingAverageInt (m : MovingSum (BitVec 32)) : C (BitVec 32) :=
  if m.size = 0 then .error .divByZero
  else .ok (((m.sum.signExtend 64) / m.size).truncate 32)

section field
variable {K : Type} [Field K]

/-- State of `exp_moving_average`/`rt_exp_moving_average`: members `b`, `b_`, `y`
(fx/moving_average.hpp:145-146,168 and 213-214). -/
structure Ema (K : Type) where
  b  : K
  b_ : K
  y  : K

/-- Constructors: `exp_moving_average<n>(y_)`, fx/moving_average.hpp:145-150, and
`rt_exp_moving_average(n, y_)`, fx/moving_average.hpp:177-181. -/
def Ema.mk' (n y : K) : Ema K := { b := 2 / (n + 1), b_ := 1 - 2 / (n + 1), y := y }

/-- `operator()(s)`, fx/moving_average.hpp:152-155 and 192-195. -/
def Ema.feed (e : Ema K) (s : K) : Ema K × K :=
  let y := e.b * s + e.b_ * e.y
  ({ e with y := y }, y)

/-- `rt_exp_moving_average::length(n)` / `width(n)`, fx/moving_average.hpp:187-190 and 208-211.  Only `b`
is updated. -/
def Ema.width (e : Ema K) (n : K) : Ema K := { e with b := 2 / (n + 1) }

/-- `moving_average2::operator()(s)`, fx/moving_average.hpp:226-229.  State: `y`. -/
def movingAverage2 (y : K) (s : K) : K × K :=
  let y := (s + y) / 2
  (y, y)

end field

/-- `moving_maximum<T>` members, fx/moving_maximum.hpp:72-74. -/
structure MovMax (α : Type) where
  size : Nat
  inputIndex : Nat
  data : List α

namespace MovMax
variable {α : Type} [LT α] [DecidableRel (α := α) (· < ·)]

/-- `moving_maximum(std::size_t size)`, fx/moving_maximum.hpp:31-39; `lo` is `-very_large_number`
(`-3.40e38`).  Simplification: unbounded indices (the vector of `2 * capacity` elements exists, so no
index computation overflows). -/
def mk' (lo : α) (size : Nat) : MovMax α :=
  { size := size, inputIndex := 0, data := List.replicate (2 * smallestPow2 size) lo }

/-- The `while (index > 1)` loop of `operator()`, fx/moving_maximum.hpp:48-62. -/
def climb (data : List α) (index : Nat) (value : α) : C (List α × α) :=
  if 1 < index then do
    let data ← writeAt data index value
    let sibling ← readAt data (index ^^^ 1)
    let value := if value < sibling then sibling else value
    climb data (index / 2) value
  else .ok (data, value)
termination_by index
decreasing_by omega

/-- `operator()(value)`, fx/moving_maximum.hpp:41-68. -/
def feed (m : MovMax α) (value : α) : C (MovMax α × α) := do
  let index := m.data.length / 2 + m.inputIndex
  let (data, value) ← climb m.data index value
  let inputIndex := if m.inputIndex + 1 ≥ m.size then 0 else m.inputIndex + 1
  return ({ m with data := data, inputIndex := inputIndex }, value)

end MovMax

section median
variable {α : Type} [LT α] [DecidableRel (α := α) (· < ·)]

/-- `std::min(a, b)`: `(b < a) ? b : a`. -/
def stdMin (a b : α) : α := if b < a then b else a
/-- `std::max(a, b)`: `(a < b) ? b : a`. -/
def stdMax (a b : α) : α := if a < b then b else a

/-- `median3f(a, b, c)`, fx/median.hpp:21-24. -/
def median3f (a b c : α) : α := stdMax (stdMin a b) (stdMin (stdMax a b) c)

/-- `median3` members `b`, `c` (fx/median.hpp:54-55); the member `_median` is the last output. -/
structure Median3 (α : Type) where
  b : α
  c : α

/-- `median3::operator()(a)`, fx/median.hpp:34-40. -/
def Median3.feed (m : Median3 α) (a : α) : Median3 α × α :=
  ({ b := a, c := m.b }, median3f a m.b m.c)

end median
end Verif
