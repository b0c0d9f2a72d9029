import Mathlib.Data.BitVec
/-!
# The random number generator (q_lib/include/q/support/base.hpp)
-/
namespace Verif

/-- The update of the static `seed` in `fast_rand()`, support/base.hpp:178; `unsigned` is a 32-bit word. -/
def randNext (seed : BitVec 32) : BitVec 32 := 214013#32 * seed + 2531011#32

/-- `fast_rand()`, support/base.hpp:175-180: the new seed and the result. -/
def fastRand (seed : BitVec 32) : BitVec 32 × BitVec 32 :=
  let s := randNext seed
  (s, (s >>> 16) &&& 0x7FFF#32)

/-- The initial value of the static `seed`, support/base.hpp:177. -/
def randSeed : BitVec 32 := 87263876#32

end Verif
