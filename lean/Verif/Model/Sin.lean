import Verif.Model.Osc
import Verif.Model.SinTable
/-!
# Sine oscillator: `q/synth/sin.hpp`, `q/detail/table_lookup.hpp`, `q/detail/sin_table.hpp`
-/
namespace Verif
namespace Sin
open Phase Osc

variable (fl fd : ℚ → ℚ)

/-- `linear_interpolate(y1, y2, mu)` (base.hpp 114-117), in `float`. -/
def linear_interpolate (y1 y2 mu : ℚ) : ℚ := fl (y1 + fl (mu * fl (y2 - y1)))

/-- `denom = 1 << low_bits` (table_lookup.hpp 23-24). -/
def denom : ℕ := 1 <<< 22
/-- `mask = denom - 1` (table_lookup.hpp 25). -/
def mask : Phase.Rep := BitVec.ofNat 32 (denom - 1)
/-- `factor = 1.0f / denom` (table_lookup.hpp 26). -/
def factor : ℚ := fl (1 / fl denom)

/-- `detail::table_lookup(ph, table)` (table_lookup.hpp 15-36); an access outside the array is undefined. -/
def table_lookup (table : List ℚ) (ph : Phase.Rep) : C ℚ := do
  let index := (ph >>> 22).toNat
  let v1 ← readAt table index
  let v2 ← readAt table (index + 1)
  return linear_interpolate fl v1 v2 (fl (ofU32 fl (ph &&& mask) * factor fl))

/-- The elements of `sin_table` (sin_table.hpp 16-147): `double` literals converted to `float`. -/
def entries : List ℚ := SinTable.table.map (fun z : Int => fl (fd ((z : ℚ) / 10 ^ 15)))

/-- `detail::sin_gen(ph)` (sin_table.hpp 149-152), `sin_synth::operator()` (sin.hpp 19-27). -/
def sin_gen (ph : Phase.Rep) : C ℚ := table_lookup fl (entries fl fd) ph

end Sin
end Verif
