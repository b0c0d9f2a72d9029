import Mathlib.Algebra.Order.Field.Rat
import Mathlib.Data.Rat.Floor
import Verif.Model.UB
/-!
# Uninterpreted floating-point arithmetic

The discrete logic of the pitch-detection classes (which edges are stored, which array elements are
accessed, …) depends on floating-point values only through comparisons.  It is modelled over an arbitrary
type `F` with *uninterpreted* arithmetic and comparison operations: a theorem proved for every `FloatOps F`
holds for IEEE-754 binary32 with any rounding mode, including NaNs and infinities.

The instance for `ℚ` is exact arithmetic (every finite float is a rational number).
-/
namespace Verif

/-- The floating-point operations used by the modelled classes, with no laws. -/
class FloatOps (F : Type) where
  /-- a literal or constant -/
  lit : ℚ → F
  /-- conversion from an integer type -/
  ofInt : Int → F
  add : F → F → F
  sub : F → F → F
  mul : F → F → F
  div : F → F → F
  neg : F → F
  lt : F → F → Bool
  le : F → F → Bool
  eq : F → F → Bool
  /-- `std::round` -/
  round : F → F
  /-- truncation towards zero; `none` for NaN and infinities -/
  trunc : F → Option Int

namespace FloatOps
variable {F : Type} [FloatOps F]
/-- `std::max(a, b)`: `(a < b) ? b : a`. -/
def max (a b : F) : F := if lt a b then b else a
/-- Conversion of a floating value to `int`: undefined if the truncated value does not fit. -/
def toI32 (a : F) : C Int :=
  match trunc a with
  | some i => if -2 ^ 31 ≤ i ∧ i < 2 ^ 31 then .ok i else .error .badFloatCast
  | none => .error .badFloatCast
/-- Conversion of a floating value to `std::size_t`: undefined if the truncated value does not fit. -/
def toU64 (a : F) : C Nat :=
  match trunc a with
  | some i => if 0 ≤ i ∧ i < 2 ^ 64 then .ok i.toNat else .error .badFloatCast
  | none => .error .badFloatCast
/-- `std::abs`. -/
def abs (a : F) : F := if lt a (lit 0) then neg a else a
end FloatOps

/-- Exact arithmetic.  `std::round` rounds half away from zero. -/
instance : FloatOps ℚ where
  lit := id
  ofInt := fun i => i
  add := (· + ·)
  sub := (· - ·)
  mul := (· * ·)
  div := (· / ·)
  neg := (- ·)
  lt := fun a b => decide (a < b)
  le := fun a b => decide (a ≤ b)
  eq := fun a b => decide (a = b)
  round := fun a => if 0 ≤ a then ((⌊a + 1 / 2⌋ : Int) : ℚ) else -((⌊-a + 1 / 2⌋ : Int) : ℚ)
  trunc := fun a => some (if 0 ≤ a then ⌊a⌋ else -⌊-a⌋)

/-- Conversion of an integer to `int` (32 bits, two's complement). -/
def i32 (x : Int) : Int := Int.bmod x (2 ^ 32)

/-- Conversion of an integer to `std::size_t` (64 bits). -/
def u64 (x : Int) : Nat := (x % 2 ^ 64).toNat

/-- `a - b` on `int`. -/
def subInt (a b : Int) : C Int :=
  if -2 ^ 31 ≤ a - b ∧ a - b < 2 ^ 31 then .ok (a - b) else .error .signedOverflow

theorem subInt_ok {a b : Int} (h : -2 ^ 31 ≤ a - b) (h2 : a - b < 2 ^ 31) : subInt a b = .ok (a - b) := by
  rw [subInt, if_pos ⟨h, h2⟩]

theorem i32_id {x : Int} (h : -2 ^ 31 ≤ x) (h2 : x < 2 ^ 31) : i32 x = x := by
  rw [i32, Int.bmod_def]
  split <;> omega

theorem u64_id {x : Int} (h : 0 ≤ x) (h2 : x < 2 ^ 64) : (u64 x : Int) = x := by
  rw [u64, Int.emod_eq_of_lt h h2]; omega

end Verif
