import Verif.Model.Sin
import Verif.Model.DbTable
/-!
# Decibel conversions: `q/detail/db_table.hpp`, `q/support/decibel.hpp`

`fl` is rounding to `float`, `fd` rounding to `double`.
-/
namespace Verif
namespace Decibel

variable (fl fd : ℚ → ℚ)

/-- Conversion of a `float` to `std::uint32_t`: truncation; undefined if the result does not fit. -/
def toU32 (x : ℚ) : C ℕ := if -1 < x ∧ x < 2 ^ 32 then .ok ⌊x⌋₊ else .error .badFloatCast

/-- The elements of `db_table0` (db_table.hpp 18-148): `double` literals converted to `float`. -/
def entries0 : List ℚ := DbTable.table0.map (fun z : Int => fl (fd ((z : ℚ) / 10 ^ 15)))
/-- The elements of `db_table1` (db_table.hpp 150-280). -/
def entries1 : List ℚ := DbTable.table1.map (fun z : Int => fl (fd ((z : ℚ) / 10 ^ 15)))
/-- The elements of `db_table2` (db_table.hpp 282-412). -/
def entries2 : List ℚ := DbTable.table2.map (fun z : Int => fl (fd ((z : ℚ) / 10 ^ 15)))
/-- The elements of `inv_db_table` (db_table.hpp 414-567). -/
def entriesInv : List ℚ := DbTable.invTable.map (fun z : Int => fl (fd ((z : ℚ) / 10 ^ 15)))

/-- `detail::a2db(a)` for `a >= 1` (db_table.hpp 576-600).  `(a-1) * (1024/8.0)` and `a /= 1024.0` are computed in
`double` and converted to `float`; `a - index` converts `index` to `float`. -/
def a2dbUp (a : ℚ) : C ℚ :=
  if a < 8 then do
    let a := fl (fd (fl (a - 1) * fd (1024 / 8)))
    let index ← toU32 a
    let v1 ← readAt (entries0 fl fd) index
    let v2 ← readAt (entries0 fl fd) (index + 1)
    return Sin.linear_interpolate fl v1 v2 (fl (a - fl index))
  else if a < 1024 then do
    let index ← toU32 a
    let v1 ← readAt (entries1 fl fd) (index - 1)
    let v2 ← readAt (entries1 fl fd) index
    return Sin.linear_interpolate fl v1 v2 (fl (a - fl index))
  else if a < 1048576 then do
    let a := fl (fd (a / 1024))
    let index ← toU32 a
    let v1 ← readAt (entries2 fl fd) (index - 1)
    let v2 ← readAt (entries2 fl fd) index
    return Sin.linear_interpolate fl v1 v2 (fl (a - fl index))
  else return 121

/-- `detail::a2db(a)` (db_table.hpp 569-601).  The recursive call has an argument of at least one (`inv_ge_one`), so
its own two tests are not repeated here.  For `a = 0` the quotient is infinite and the recursive call returns `121`. -/
def a2db (a : ℚ) : C ℚ :=
  if a < 0 then .error .assertFail
  else if a = 0 then return -121
  else if a < 1 then do
    let v ← a2dbUp fl fd (fl (1 / a))
    return -v
  else a2dbUp fl fd a

/-- `detail::db2a(db)` for `db >= 0` (db_table.hpp 608-616). -/
def db2aUp (db : ℚ) : C ℚ :=
  if db < 120 then do
    let db_10 := fl (db * 10)
    let index ← toU32 db_10
    let v1 ← readAt (entriesInv fl fd) index
    let v2 ← readAt (entriesInv fl fd) (index + 1)
    return Sin.linear_interpolate fl v1 v2 (fl (db_10 - fl index))
  else return 1000000

/-- `detail::db2a(db)` (db_table.hpp 603-617). -/
def db2a (db : ℚ) : C ℚ :=
  if db < 0 then do
    let v ← db2aUp fl fd (-db)
    return fl (1 / v)
  else db2aUp fl fd db

end Decibel
end Verif
