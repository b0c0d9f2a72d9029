import Verif.Model.UB
/-!
# `bitset` (q_lib/include/q/utility/bitset.hpp), `bitstream_acf` (utility/bitstream_acf.hpp),
`count_bits` (detail/count_bits.hpp)

`W` is the width of the word type `T` (8, 16, 32 or 64).  The default `T` is `natural_uint`, 64 bits.
`std::size_t` values are natural numbers; the one place where a `size_t` sum may wrap is modelled with an
explicit reduction modulo `2^64`.
-/
namespace Verif

/-- `bitset<T>`: the vector of words, utility/bitset.hpp:60. -/
structure Bitset (W : Nat) where
  bits : List (BitVec W)
  deriving DecidableEq

namespace Bitset
variable {W : Nat}

/-- `bitset(std::size_t num_bits)`, utility/bitset.hpp:66-71. -/
def mk' (W : Nat) (numBits : Nat) : Bitset W :=
  { bits := List.replicate ((numBits + W - 1) / W) 0 }

/-- `size()`, utility/bitset.hpp:73-77. -/
def size (b : Bitset W) : Nat := b.bits.length * W

/-- `clear()`, utility/bitset.hpp:79-83. -/
def clear (b : Bitset W) : Bitset W := { bits := b.bits.map fun _ => 0 }

/-- `1 << k` of utility/bitset.hpp:92, converted to `T` where it meets the word on line 94.  The literal
is an `int` (32 bits): the shift is undefined for `k ≥ 32`, and the `int` result is converted to `T` by
sign extension (or truncation, for narrow `T`). -/
def setMask (W : Nat) (k : Nat) : C (BitVec W) :=
  if 32 ≤ k then .error .badShift else .ok ((BitVec.twoPow 32 k).signExtend W)

/-- `-T(val)`, utility/bitset.hpp:94. -/
def negBool (W : Nat) (val : Bool) : BitVec W := if val then BitVec.allOnes W else 0

/-- `set(std::size_t i, bool val)`, utility/bitset.hpp:85-95. -/
def set (b : Bitset W) (i : Nat) (val : Bool) : C (Bitset W) :=
  if i > b.size then .ok b
  else do
    let mask ← setMask W (i % W)
    let ref ← readAt b.bits (i / W)
    let bits ← writeAt b.bits (i / W) (ref ^^^ ((negBool W val ^^^ ref) &&& mask))
    return { bits := bits }

/-- `get(std::size_t i)`, utility/bitset.hpp:97-106.  Here the shifted literal `one` has type `T`. -/
def get (b : Bitset W) (i : Nat) : C Bool :=
  if i > b.size then .ok false
  else do
    let w ← readAt b.bits (i / W)
    return (w &&& BitVec.twoPow W (i % W)) != 0

/-- `if (val) *p |= mask; else *p &= ~mask;`, utility/bitset.hpp:138-141 and 173-176. -/
def maskWord (bits : List (BitVec W)) (p : Nat) (mask : BitVec W) (val : Bool) :
    C (List (BitVec W)) := do
  let w ← readAt bits p
  writeAt bits p (if val then w ||| mask else w &&& ~~~mask)

/-- The loop writing full words, utility/bitset.hpp:152-163 (`do … while` guarded by the same condition,
i.e. a `while`).  Returns the words, the pointer and the remaining count. -/
def fillWords (bits : List (BitVec W)) (p n : Nat) (v : BitVec W) : C (List (BitVec W) × Nat × Nat) :=
  if 0 < W ∧ W ≤ n then do
    let bits ← writeAt bits p v
    fillWords bits (p + 1) (n - W) v
  else .ok (bits, p, n)
termination_by n
decreasing_by omega

/-- The part of `set(i, n, val)` after the first partial word, utility/bitset.hpp:151-177. -/
def setTail (bits : List (BitVec W)) (p n : Nat) (val : Bool) : C (Bitset W) := do
  let (bits, p, n) ← fillWords bits p n (if val then BitVec.allOnes W else 0)
  if n ≠ 0 then
    let bits ← maskWord bits p ((BitVec.twoPow W (n % W)) - 1) val
    return { bits := bits }
  else return { bits := bits }

/-- `set(std::size_t i, std::size_t n, bool val)`, utility/bitset.hpp:108-178. -/
def setRange (b : Bitset W) (i n : Nat) (val : Bool) : C (Bitset W) :=
  if i > b.size then .ok b
  else
    let n := if (i + n) % 2 ^ 64 > b.size then b.size - i else n
    let p := i / W
    let mod := i % W
    if mod ≠ 0 then do
      let mod := W - mod
      let mask := ~~~(BitVec.allOnes W >>> mod)
      let mask := if n < mod then mask &&& (BitVec.allOnes W >>> (mod - n)) else mask
      let bits ← maskWord b.bits p mask val
      if n < mod then return { bits := bits }
      else setTail bits (p + 1) (n - mod) val
    else setTail b.bits p n val

end Bitset

/-- `count_bits`, detail/count_bits.hpp:16-38: the compiler builtin, i.e. the number of one bits. -/
def countBits {W : Nat} (w : BitVec W) : Nat := (List.range W).countP fun j => w.getLsbD j

namespace Acf
variable {W : Nat}

/-- `_mid_array`, utility/bitstream_acf.hpp:48; note the unsigned wrap-around of `- 1`. -/
def midArray (b : Bitset W) : Nat := max ((b.size / 64 / 2 + (2 ^ 64 - 1)) % 2 ^ 64) 1

/-- The loop for `shift == 0`, utility/bitstream_acf.hpp:62-63.  `k` is the number of iterations left.
Simplification: the accumulator `count` (an `int`) does not overflow. -/
def loopAligned (bits : List (BitVec W)) (p1 p2 : Nat) : Nat → Nat → C Nat
  | 0, count => .ok count
  | k + 1, count => do
    let a ← readAt bits p1
    let b ← readAt bits p2
    loopAligned bits (p1 + 1) (p2 + 1) k (count + countBits (a ^^^ b))

/-- The loop for `shift != 0`, utility/bitstream_acf.hpp:67-73.  Shifting a word by its width or more is
undefined. -/
def loopShifted (bits : List (BitVec W)) (shift p1 p2 : Nat) : Nat → Nat → C Nat
  | 0, count => .ok count
  | k + 1, count => do
    let lo ← readAt bits p2
    let hi ← readAt bits (p2 + 1)
    if W ≤ shift ∨ W ≤ 64 - shift then .error .badShift
    else
      let v := (lo >>> shift) ||| (hi <<< (64 - shift))
      let a ← readAt bits p1
      loopShifted bits shift (p1 + 1) (p2 + 1) k (count + countBits (a ^^^ v))

/-- `bitstream_acf<T>::operator()(pos)`, utility/bitstream_acf.hpp:51-76.  `value_size` is
`bitset<>::value_size`, i.e. 64 whatever `T` is. -/
def acf (b : Bitset W) (pos : Nat) : C Nat :=
  let index := pos / 64
  let shift := pos % 64
  if shift = 0 then loopAligned b.bits 0 index (midArray b) 0
  else loopShifted b.bits shift 0 index (midArray b) 0

end Acf
end Verif
