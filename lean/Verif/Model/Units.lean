import Verif.Model.Decibel
import Verif.Model.Phase
/-!
# Unit types: `q/support/value.hpp`, `q/support/frequency.hpp`, `q/support/decibel.hpp`, `q/support/literals.hpp`,
the arithmetic of `q/support/phase.hpp`

`fl` is rounding to `float`, `fd` rounding to `double`, `fx` the rounding of the compiler's `long double`.
-/
namespace Verif
namespace UnitTypes

variable (fl fd fx : ℚ → ℚ)

/-- `frequency` (frequency.hpp 26-37): a `value<double, frequency>` holding `rep`. -/
structure Frequency where
  rep : ℚ

/-- `duration` and `period` (frequency.hpp 40-58): a `value<double, duration>` holding `rep`. -/
structure Duration where
  rep : ℚ

/-- `frequency::period()` (frequency.hpp 65-68); the quotient by zero is an infinity, not represented. -/
def Frequency.period (f : Frequency) : Duration := ⟨fd (1 / f.rep)⟩
/-- `frequency(duration)` (frequency.hpp 61-63). -/
def Frequency.ofDuration (d : Duration) : Frequency := ⟨fd (1 / d.rep)⟩
/-- `period(frequency)` (frequency.hpp 57). -/
def Duration.ofFrequency (f : Frequency) : Duration := ⟨fd (1 / f.rep)⟩

/-- `a + b` (value.hpp 203-207). -/
def Frequency.add (a b : Frequency) : Frequency := ⟨fd (a.rep + b.rep)⟩
/-- `a - b` (value.hpp 209-213). -/
def Frequency.sub (a b : Frequency) : Frequency := ⟨fd (a.rep - b.rep)⟩
/-- `k * a`, `a * k` (value.hpp 246-253, 283-290) for a `double`, `float` or `int` factor. -/
def Frequency.scale (k : ℚ) (a : Frequency) : Frequency := ⟨fd (k * a.rep)⟩
/-- `a < b` (value.hpp 98-102). -/
def Frequency.lt (a b : Frequency) : Bool := decide (a.rep < b.rep)
/-- `a < b` (value.hpp 98-102). -/
def Duration.lt (a b : Duration) : Bool := decide (a.rep < b.rep)

/-- `operator ""_Hz(unsigned long long)`, `_s` (literals.hpp 25-28, 65-68). -/
def unitInt (n : ℕ) : ℚ := fd n
/-- `_KHz`, `_kHz`, `_MHz`, `_ms`, `_us` of an integer (literals.hpp 35-38, 45-48, 55-58, 75-78, 85-88): the integer is converted to
`double` and multiplied by the `double` literal of the factor. -/
def scaledInt (factor : ℚ) (n : ℕ) : ℚ := fd (fd n * fd factor)
/-- The same suffixes on a `long double` `x` (literals.hpp 30-33, 40-43, 50-53, 70-73, 80-83): multiplied in `long double`, converted
to `double`. -/
def scaledReal (factor x : ℚ) : ℚ := fd (fx (x * fd factor))

/-- `struct decibel` (decibel.hpp 15-35): holds `val`, a `double`. -/
structure Level where
  val : ℚ

/-- `decibel(double)` (decibel.hpp 37-39): the argument is converted to `float` by the call of `a2db`. -/
def Level.ofAmplitude (x : ℚ) : C Level :=
  match Decibel.a2db fl fd (fl x) with
  | .ok v => .ok ⟨v⟩
  | .error e => .error e
/-- `operator double()`, `operator float()` (decibel.hpp 24-25): `val` is converted to `float` by the call of `db2a`. -/
def Level.amplitude (d : Level) : C ℚ := Decibel.db2a fl fd (fl d.val)
/-- `operator+` (decibel.hpp 46-49). -/
def Level.add (a b : Level) : Level := ⟨fd (a.val + b.val)⟩
/-- `operator-` (decibel.hpp 41-44). -/
def Level.sub (a b : Level) : Level := ⟨fd (a.val - b.val)⟩
/-- unary `operator-` (decibel.hpp 27). -/
def Level.neg (a : Level) : Level := ⟨-a.val⟩
/-- `a < b` (decibel.hpp 116-119). -/
def Level.lt (a b : Level) : Bool := decide (a.val < b.val)

/-- `phase + phase` (value.hpp 203-207): unsigned addition. -/
def phaseAdd (a b : Phase.Rep) : Phase.Rep := a + b
/-- `phase - phase` (value.hpp 209-213). -/
def phaseSub (a b : Phase.Rep) : Phase.Rep := a - b
/-- `-phase` (value.hpp 31). -/
def phaseNeg (a : Phase.Rep) : Phase.Rep := -a
/-- `phase * n`, `n * phase` for an `int` or unsigned `n` (value.hpp 246-253, 283-290): `n` is converted to `uint32_t`. -/
def phaseMulInt (a : Phase.Rep) (n : ℤ) : Phase.Rep := a * BitVec.ofInt 32 n
/-- `phase / n` for an `int` or unsigned `n` (value.hpp 292-299): `n` is converted to `uint32_t`; dividing by zero is undefined. -/
def phaseDivInt (a : Phase.Rep) (n : ℤ) : C Phase.Rep :=
  if BitVec.ofInt 32 n = 0#32 then .error .divByZero else .ok (a / BitVec.ofInt 32 n)
/-- `a < b` (value.hpp 98-102). -/
def phaseLt (a b : Phase.Rep) : Bool := a.ult b
/-- `phase * k` for a `double` (value.hpp 283-290): `a.rep * b` is a `double`, and `Derived(...)` is then the constructor
`phase(double frac)`. -/
def phaseMulDouble (a : Phase.Rep) (k : ℚ) : C Phase.Rep := Phase.frac_phase (fd (a.toNat * k))
/-- `phase / k` for a `double` (value.hpp 292-299). -/
def phaseDivDouble (a : Phase.Rep) (k : ℚ) : C Phase.Rep := Phase.frac_phase (fd (a.toNat / k))
/-- `phase + k` for a `double` (value.hpp 265-272). -/
def phaseAddDouble (a : Phase.Rep) (k : ℚ) : C Phase.Rep := Phase.frac_phase (fd (a.toNat + k))

end UnitTypes
end Verif
