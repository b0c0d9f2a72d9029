import Mathlib.Data.Rat.Floor
import Mathlib.Data.Int.Log
import Mathlib.Algebra.Order.Field.Rat
import Mathlib.Algebra.Order.Field.Power
import Mathlib.Algebra.Order.Group.Int.Sum
import Mathlib.Tactic.Linarith
import Mathlib.Tactic.Ring
import Mathlib.Tactic.FieldSimp
import Mathlib.Tactic.Positivity
/-!
# IEEE-754 rounding

A finite binary floating-point number with a `p`-bit significand and smallest exponent `emin` is a rational
`m * 2^e` with `|m| ≤ 2^p`, `emin ≤ e`.  Every IEEE-754 operation on finite operands returns the rounding
(to nearest, ties to even) of the exact result.

Simplification: there is no largest exponent, i.e. the model has no overflow to infinity; results about
bounded quantities are unaffected, because all the values they speak about stay below `2^128`.
NaN and signed zeros are not represented.
-/
namespace Verif
namespace Rounding

/-- Round to the nearest integer, ties to even. -/
def rneInt (y : ℚ) : ℤ :=
  if y - ⌊y⌋ < 1 / 2 then ⌊y⌋
  else if 1 / 2 < y - ⌊y⌋ then ⌊y⌋ + 1
  else if ⌊y⌋ % 2 = 0 then ⌊y⌋ else ⌊y⌋ + 1

/-- The exponent of the unit in the last place of the format at `x`. -/
def ulpExp (p : ℕ) (emin : ℤ) (x : ℚ) : ℤ := max (Int.log 2 |x| - (p - 1)) emin

/-- Round `x` to the nearest number of the format. -/
def rnd (p : ℕ) (emin : ℤ) (x : ℚ) : ℚ :=
  rneInt (x / (2 : ℚ) ^ ulpExp p emin x) * (2 : ℚ) ^ ulpExp p emin x

/-- `x` is a number of the format. -/
def Rep (p : ℕ) (emin : ℤ) (x : ℚ) : Prop :=
  ∃ m e : ℤ, |m| ≤ 2 ^ p ∧ emin ≤ e ∧ x = m * (2 : ℚ) ^ e

/-- Rounding to IEEE-754 binary32 (`float`). -/
abbrev fl32 : ℚ → ℚ := rnd 24 (-149)
/-- Rounding to IEEE-754 binary64 (`double`). -/
abbrev fl64 : ℚ → ℚ := rnd 53 (-1074)

/-- The laws of rounding used by the proofs: everything the theorems about rounded arithmetic need. -/
structure Lawful (p : ℕ) (emin : ℤ) (fl : ℚ → ℚ) : Prop where
  rep : ∀ x, Rep p emin (fl x)
  fix : ∀ x, Rep p emin x → fl x = x
  mono : ∀ x y, x ≤ y → fl x ≤ fl y
  neg : ∀ x, fl (-x) = -fl x
  nearest : ∀ x r, Rep p emin r → |fl x - x| ≤ |r - x|
  err : ∀ x, |fl x - x| ≤ max (|x| / 2 ^ p) ((2 : ℚ) ^ emin / 2)

end Rounding
end Verif
