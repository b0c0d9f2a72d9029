import Verif.Model.UB
/-!
# `ring_buffer` (q_lib/include/q/utility/ring_buffer.hpp, q_lib/include/q/detail/init_store.hpp)
-/
namespace Verif

/-- `smallest_pow2(n)`, used at detail/init_store.hpp:27.  The function lives in the `infra` submodule,
which is not part of the checkout; the assumed behaviour is "double `m`, starting from 1, until it is
at least `n`".  Simplification: natural numbers instead of `size_t` (the callers below are only used with
`n ≤ 2^63`, where no overflow occurs). -/
def smallestPow2From (n m : Nat) : Nat :=
  if h : 0 < m ∧ m < n then smallestPow2From n (2 * m) else m
termination_by n - m
decreasing_by omega

/-- `smallest_pow2(n)`; see `smallestPow2From`. -/
def smallestPow2 (n : Nat) : Nat := smallestPow2From n 1

/-- `ring_buffer<T, Storage>` data members, utility/ring_buffer.hpp:47-51.  `data` is the contents of
the storage (`std::vector<T>` or `std::array<T, N>`). -/
structure RingBuf (α : Type _) where
  mask : BitVec 64
  pos  : BitVec 64
  data : List α
  deriving DecidableEq

namespace RingBuf
variable {α : Type _}

/-- `ring_buffer(std::size_t size)`, utility/ring_buffer.hpp:66-73, with `init_store`,
detail/init_store.hpp:23-30.  `zero` is the value of `T{}`. -/
def mk' (zero : α) (size : Nat) : RingBuf α :=
  let capacity := smallestPow2 size
  { mask := BitVec.ofNat 64 capacity - 1, pos := 0, data := List.replicate capacity zero }

/-- `ring_buffer()` for `std::array<T, N>` storage, utility/ring_buffer.hpp:57-64 with `init_store`,
detail/init_store.hpp:32-38: the array is *not* initialised by the constructor, so its contents `arr` are
a parameter. -/
def ofArray (arr : List α) : RingBuf α :=
  { mask := BitVec.ofNat 64 arr.length - 1, pos := 0, data := arr }

/-- `size()`, utility/ring_buffer.hpp:76-80. -/
def size (r : RingBuf α) : Nat := r.data.length

/-- `push(val)`, utility/ring_buffer.hpp:83-88. -/
def push (r : RingBuf α) (v : α) : C (RingBuf α) := do
  let pos := (r.pos - 1) &&& r.mask
  let data ← writeAt r.data pos.toNat v
  return { r with pos := pos, data := data }

/-- `operator[](index)` as an rvalue, utility/ring_buffer.hpp:120-124. -/
def get (r : RingBuf α) (i : BitVec 64) : C α :=
  readAt r.data ((r.pos + i) &&& r.mask).toNat

/-- Assignment through the reference returned by `operator[](index)`,
utility/ring_buffer.hpp:128-132. -/
def assign (r : RingBuf α) (i : BitVec 64) (v : α) : C (RingBuf α) := do
  let data ← writeAt r.data ((r.pos + i) &&& r.mask).toNat v
  return { r with data := data }

/-- `front()`, utility/ring_buffer.hpp:91-95. -/
def front (r : RingBuf α) : C α := r.get 0

/-- `back()`, utility/ring_buffer.hpp:105-109. -/
def back (r : RingBuf α) : C α := r.get (BitVec.ofNat 64 r.size - 1)

/-- `fill(val)`, utility/ring_buffer.hpp:143-148.  The loop assigns every element. -/
def fill (r : RingBuf α) (v : α) : RingBuf α := { r with data := r.data.map (fun _ => v) }

/-- `clear()`, utility/ring_buffer.hpp:135-140; `zero` is the value of `T()`. -/
def clear (r : RingBuf α) (zero : α) : RingBuf α := { r with data := r.data.map (fun _ => zero) }

/-- `pop_front()`, utility/ring_buffer.hpp:149-153.  The position is not masked. -/
def popFront (r : RingBuf α) : RingBuf α := { r with pos := r.pos + 1 }

/-- The mutating operations of the public interface. -/
inductive Op (α : Type _) where
  | push (v : α)
  | popFront
  | assign (i : BitVec 64) (v : α)
  | fill (v : α)
  | clear

/-- One call of a mutating operation. -/
def step (zero : α) (r : RingBuf α) : Op α → C (RingBuf α)
  | .push v => r.push v
  | .popFront => .ok r.popFront
  | .assign i v => r.assign i v
  | .fill v => .ok (r.fill v)
  | .clear => .ok (r.clear zero)

/-- A history of calls. -/
def run (zero : α) (r : RingBuf α) : List (Op α) → C (RingBuf α)
  | [] => .ok r
  | op :: ops => (r.step zero op).bind fun r' => run zero r' ops

end RingBuf
end Verif
