import Verif.Model.Delay
import Verif.Model.Rounding
import Verif.Model.Units
/-!
# The echo programs: example/delay.cpp and example/io_delay.cpp

`fl` is the rounding of a `float` operation, `fd` of a `double` operation (`id`: exact arithmetic).  The two programs differ in the source of
the input sample (`_wav()[0]`, `ch0[frame]`) and the settings only.
-/
namespace Verif
namespace Example

variable (fl fd : ℚ → ℚ)

/-- `basic_delay(duration max_delay, std::uint32_t sps)` (fx/delay.hpp 60-62): the number of samples, `std::size_t(std::ceil(double(max_delay) * sps))`. -/
def delaySize (d : ℚ) (sps : Nat) : C Nat :=
  let x : ℚ := ⌈fd (d * sps)⌉
  if -1 < x ∧ x < 2 ^ 64 then .ok ⌈fd (d * sps)⌉.toNat else .error .badFloatCast

/-- The members of `delay_processor` (delay.cpp 51-54, io_delay.cpp 53-55) that `process` uses; `_wav` and the channels are inputs. -/
structure Echo where
  delay : RingBuf ℚ
  feedback : ℚ
  y : ℚ

/-- The constructor (delay.cpp 20-29, io_delay.cpp 22-30). -/
def Echo.mk' (d : ℚ) (sps : Nat) (feedback : ℚ) : C Echo := do
  let n ← delaySize fd d sps
  return { delay := RingBuf.mk' 0 n, feedback := feedback, y := 0 }

/-- One pass of the loop of `process` (delay.cpp 35-48, io_delay.cpp 37-50) on the input sample `s`: the samples written to the left and the right
channel. -/
def Echo.frame (e : Echo) (s : ℚ) : C (Echo × (ℚ × ℚ)) := do
  let d ← maxDelay e.delay
  let y := fl (s + d)
  let r ← e.delay.push (fl (y * e.feedback))
  return ({ e with delay := r, y := y }, (s, y))

/-- One call of `process`: a block of any number of frames (delay.cpp 31-49). -/
def Echo.process (e : Echo) (block : List ℚ) : C (Echo × List (ℚ × ℚ)) := runC (Echo.frame fl) e block

end Example
end Verif
