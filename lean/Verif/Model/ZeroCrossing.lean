import Verif.Model.Ring
import Verif.Model.Float
import Verif.Model.Stream
/-!
# `zero_crossing` (q_lib/include/q/utility/zero_crossing.hpp)

Floating point is uninterpreted (`FloatOps`).  `int` members hold `Int` values in the range of `int`, all
conversions to `int` are explicit (`i32`).  `std::size_t` members are natural numbers (the sizes and the
frame counter never come near `2^64`; the one subtraction that can wrap is explicit).
-/
namespace Verif
open FloatOps

/-- `zero_crossing::undefined_edge`, utility/zero_crossing.hpp:60. -/
def undefinedEdge : Int := -2 ^ 31

/-- `zero_crossing::info`, utility/zero_crossing.hpp:62-76.  The crossing data is a pair. -/
structure ZInfo (F : Type) where
  crossing : F × F
  peak : F
  leading : Int := undefinedEdge
  trailing : Int := undefinedEdge
  width : F

/-- `zero_crossing` data members, utility/zero_crossing.hpp:103-112. -/
structure ZC (F : Type) where
  prev : F
  hyst : F
  state : Bool
  numEdges : Nat
  window : Nat
  info : RingBuf (ZInfo F)
  frame : Nat
  ready : Bool
  peakUpdate : F
  peak : F

/-- `detail::adjust_window_size`, utility/zero_crossing.hpp:120-124; `bitset<>::value_size` is 64. -/
def adjustWindowSize (window : Nat) : Nat := max 2 ((window + 64 - 1) / 64)

namespace ZC
variable {F : Type} [FloatOps F]

/-- A default-initialised `info` (its `float` members without initialiser are set to zero by the
value-initialisation of the vector elements). -/
def zinfo0 : ZInfo F := { crossing := (lit 0, lit 0), peak := lit 0, width := lit 0 }

/-- `zero_crossing(hysteresis, window)`, utility/zero_crossing.hpp:127-131.  `hyst` is the value of
`float(hysteresis)`, the amplitude of the hysteresis. -/
def mk' (hyst : F) (window : Nat) : ZC F :=
  let w := adjustWindowSize window * 64
  { prev := lit 0, hyst := neg hyst, state := false, numEdges := 0, window := w
    info := RingBuf.mk' zinfo0 (w / 2), frame := 0, ready := false, peakUpdate := lit 0, peak := lit 0 }

/-- `info::update_peak`, utility/zero_crossing.hpp:133-138.  `frame - _leading_edge` is a `size_t`
subtraction.  `_peak * 0.3` is a `double` product in the C++ code. -/
def updatePeak (e : ZInfo F) (s : F) (frame : Nat) : ZInfo F :=
  let peak := FloatOps.max s e.peak
  { e with
    peak := peak
    width := if eq e.width (lit 0) && lt s (mul peak (lit (3 / 10))) then
      ofInt (u64 (frame - e.leading)) else e.width }

/-- `capacity()`, utility/zero_crossing.hpp:172-175. -/
def capacity (z : ZC F) : Nat := z.info.size

/-- `reset()`, utility/zero_crossing.hpp:187-192. -/
def reset (z : ZC F) : ZC F := { z with numEdges := 0, state := false, frame := 0 }

/-- `is_reset()`, utility/zero_crossing.hpp:194-197. -/
def isReset (z : ZC F) : Bool := z.frame == 0

/-- `peak_pulse()`, utility/zero_crossing.hpp:204-207. -/
def peakPulse (z : ZC F) : F := FloatOps.max z.peak z.peakUpdate

/-- The loop of `shift(n)`, utility/zero_crossing.hpp:306-313.  `fuel` counts the values the `int` loop
variable can still take. -/
def shiftLoop (n : Nat) (numEdges : Nat) : Nat → Nat → RingBuf (ZInfo F) → C (Nat × RingBuf (ZInfo F))
  | 0, _, _ => .error .signedOverflow
  | fuel + 1, i, r =>
    if i = numEdges then .ok (i, r)
    else do
      let e ← r.get (BitVec.ofNat 64 i)
      let edge := i32 (e.trailing - n)
      let r ← r.assign (BitVec.ofNat 64 i) { e with leading := i32 (e.leading - n), trailing := edge }
      if edge < 0 then .ok (i, r) else shiftLoop n numEdges fuel (i + 1) r

/-- `shift(n)`, utility/zero_crossing.hpp:301-315. -/
def shift (z : ZC F) (n : Nat) : C (ZC F) := do
  let e ← z.info.get 0
  let r ← z.info.assign 0
    { e with leading := i32 (e.leading - n)
             trailing := if !z.state then i32 (e.trailing - n) else e.trailing }
  let (i, r) ← shiftLoop n z.numEdges (2 ^ 31 - 1) 1 r
  return { z with info := r, numEdges := i }

/-- utility/zero_crossing.hpp:211-217 (start of `update_state`). -/
def preShift (z : ZC F) : C (ZC F) :=
  if z.ready then do
    let z ← z.shift (z.window / 2)
    return { z with ready := false, peak := z.peakUpdate, peakUpdate := lit 0 }
  else .ok z

/-- utility/zero_crossing.hpp:219-220 and 261-262: `if (num_edges() >= capacity()) reset();`. -/
def capReset (z : ZC F) : ZC F := if z.numEdges ≥ z.capacity then z.reset else z

/-- utility/zero_crossing.hpp:222-247 (the detection proper of `update_state`). -/
def detect (z : ZC F) (s : F) : C (ZC F) :=
  if lt (lit 0) s then do
    let z ← (if !z.state then
        if z.numEdges < z.info.size then do
          let r ← z.info.push { crossing := (z.prev, s), peak := s, leading := i32 z.frame, width := lit 0 }
          return { z with info := r, numEdges := z.numEdges + 1, state := true }
        else .error .assertFail
      else do
        let e ← z.info.get 0
        let r ← z.info.assign 0 (updatePeak e s z.frame)
        return { z with info := r })
    return { z with peakUpdate := if lt z.peakUpdate s then s else z.peakUpdate }
  else if z.state && lt s z.hyst then do
    let e ← z.info.get 0
    let r ← z.info.assign 0 { e with trailing := i32 z.frame }
    return { z with state := false, info := r, peak := if eq z.peak (lit 0) then z.peakUpdate else z.peak }
  else .ok z

/-- utility/zero_crossing.hpp:249-250. -/
def lateReset (z : ZC F) : ZC F := if z.frame > z.window * 2 then z.reset else z

/-- `update_state(s)`, utility/zero_crossing.hpp:209-253. -/
def updateState (z : ZC F) (s : F) : C (ZC F) := do
  let z ← z.preShift
  let z ← z.capReset.detect s
  return { z.lateReset with prev := s }

/-- `operator()(s)` after `update_state`, utility/zero_crossing.hpp:269-279. -/
def advance (z : ZC F) : ZC F :=
  if z.window ≤ z.frame + 1 ∧ z.state = false then
    let z := { z with frame := z.frame + 1 - z.window / 2 }
    if 1 < z.numEdges then { z with ready := true } else z.reset
  else { z with frame := z.frame + 1 }

/-- utility/zero_crossing.hpp:264-265. -/
def idleReset (z : ZC F) : ZC F := if z.frame = z.window / 2 ∧ z.numEdges = 0 then z.reset else z

/-- `operator()(s)`, utility/zero_crossing.hpp:255-282. -/
def step (z : ZC F) (s : F) : C (ZC F × Bool) := do
  let s := add s (div z.hyst (lit 2))
  let z ← z.capReset.idleReset.updateState s
  let z := z.advance
  return (z, z.state)

/-- `operator[](index)`, utility/zero_crossing.hpp:289-299; the index arithmetic is on `size_t`. -/
def edge (z : ZC F) (index : Nat) : C (ZInfo F) :=
  z.info.get (BitVec.ofNat 64 z.numEdges - 1 - BitVec.ofNat 64 index)

end ZC

/-- `info::period`, utility/zero_crossing.hpp:140-144. -/
def ZInfo.period {F : Type} (e next : ZInfo F) : C Nat :=
  if e.leading ≤ next.leading then do
    let d ← subInt next.leading e.leading
    return u64 d
  else .error .assertFail

/-- `info::fractional_period`, utility/zero_crossing.hpp:146-165. -/
def ZInfo.fractionalPeriod {F : Type} [FloatOps F] (e next : ZInfo F) : C F :=
  if e.leading ≤ next.leading then
    let dx1 := div (neg e.crossing.1) (sub e.crossing.2 e.crossing.1)
    let dx2 := div (neg next.crossing.1) (sub next.crossing.2 next.crossing.1)
    do
      let result ← subInt next.leading e.leading
      return add (ofInt result) (sub dx2 dx1)
  else .error .assertFail

end Verif
