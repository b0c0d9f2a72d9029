import Verif.Model.Float
import Verif.Model.Rounding
/-!
# Single-precision arithmetic as an instance of `FloatOps`

Every operation rounds its exact result to IEEE-754 binary32.  As in `Verif.Model.Rounding` there is no overflow, no NaN
and no signed zero.  The one product the modelled classes compute in `double` (`_peak * 0.3`,
q_lib/include/q/utility/zero_crossing.hpp:136, which decides the recorded width of a pulse and nothing else) is
rounded to binary32 here as well.
-/
namespace Verif
open Rounding

/-- A finite binary32 number. -/
structure F32 where
  val : ℚ

instance : FloatOps F32 where
  lit := fun q => ⟨fl32 q⟩
  ofInt := fun i => ⟨fl32 i⟩
  add := fun a b => ⟨fl32 (a.val + b.val)⟩
  sub := fun a b => ⟨fl32 (a.val - b.val)⟩
  mul := fun a b => ⟨fl32 (a.val * b.val)⟩
  div := fun a b => ⟨fl32 (a.val / b.val)⟩
  neg := fun a => ⟨-a.val⟩
  lt := fun a b => decide (a.val < b.val)
  le := fun a b => decide (a.val ≤ b.val)
  eq := fun a b => decide (a.val = b.val)
  round := fun a => ⟨FloatOps.round a.val⟩
  trunc := fun a => FloatOps.trunc a.val

end Verif
