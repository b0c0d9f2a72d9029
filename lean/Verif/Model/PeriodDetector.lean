import Verif.Model.ZeroCrossing
import Verif.Model.Bitset
/-!
# `period_detector` (q_lib/include/q/pitch/period_detector.hpp)

Floating point is uninterpreted (`FloatOps`).  Edges are addressed through `zero_crossing::operator[]`.
-/
namespace Verif
open FloatOps
variable {F : Type} [FloatOps F]

/-- `period_detector::info`, pitch/period_detector.hpp:29-33 (defaults: `PInfo.default`). -/
structure PInfo (F : Type) where
  period : F
  periodicity : F

/-- A default-constructed `period_detector::info`. -/
def PInfo.default : PInfo F := { period := lit (-1), periodicity := lit 0 }

/-- `period_detector` data members, pitch/period_detector.hpp:60-72. -/
structure PD (F : Type) where
  zc : ZC F
  fundamental : PInfo F
  minPeriod : Nat
  range : Int
  bits : Bitset 64
  weight : F
  midPoint : Nat
  periodDiffThreshold : F
  predictedPeriod : F
  edgeMark : Nat
  predictEdge : Nat
  numPulses : Nat
  halfEmpty : Bool

/-- `sub_collector::info`, pitch/period_detector.hpp:129-136. -/
structure SInfo (F : Type) where
  i1 : Nat
  i2 : Nat
  period : Int
  periodicity : F
  harmonic : Nat

/-- `sub_collector` data members, pitch/period_detector.hpp:238-243.  `fundamental = none` stands for the
default-constructed `_fundamental`, recognised in the code by `_period == -1`; in that case `_first_period`
is not initialised and not read.  Simplification: a collected period is never `-1` (it is the `int` value
of a lag, which is at least `min_period`). -/
structure Coll (F : Type) where
  firstPeriod : F
  fundamental : Option (SInfo F)

namespace PD

/-- `period_detector(lowest, highest, sps, hysteresis)`, pitch/period_detector.hpp:78-96.  Frequencies are
the numbers of Hz; `hyst` is the amplitude `float(hysteresis)`. -/
def mk' (lowest highest : F) (sps : Nat) (hyst : F) : C (PD F) := do
  let window ← toU64 (mul (mul (div (lit 1) lowest) (lit 2)) (ofInt sps))
  let zc := ZC.mk' hyst window
  let minPeriod ← toU64 (mul (div (lit 1) highest) (ofInt sps))
  let range ← toI32 (div highest lowest)
  if le highest lowest then .error .thrown
  else
    return { zc := zc, fundamental := PInfo.default, minPeriod := minPeriod, range := range
             bits := Bitset.mk' 64 zc.window, weight := div (lit 2) (ofInt zc.window)
             midPoint := zc.window / 2
             periodDiffThreshold := mul (ofInt (zc.window / 2 : Nat)) (lit (8 / 1000))
             predictedPeriod := lit (-1), edgeMark := 0, predictEdge := 0, numPulses := 0
             halfEmpty := false }

/-- The threshold for a pulse to count, pitch/period_detector.hpp:100, 284, 389. -/
def threshold (p : PD F) : F := mul p.zc.peakPulse (lit (6 / 10))

/-- The loop of `set_bitstream`, pitch/period_detector.hpp:106-120, `k` iterations left, from index `i`.
The result is `(leading_edge, trailing_edge, _num_pulses, _bits)`. -/
def setBitsLoop (zc : ZC F) (thr : F) : Nat → Nat → Nat → Nat → Nat → Bitset 64 →
    C (Nat × Nat × Nat × Bitset 64)
  | 0, _, le_, tr, np, bits => .ok (le_, tr, np, bits)
  | k + 1, i, le_, tr, np, bits => do
    let info ← zc.edge i
    if le thr info.peak then
      let le' := if u64 info.leading < le_ then u64 info.leading else le_
      let tr' := if u64 info.trailing > tr then u64 info.trailing else tr
      let pos := max info.leading 0
      let n ← subInt info.trailing pos
      let bits ← bits.setRange (u64 pos) (u64 n) true
      setBitsLoop zc thr k (i + 1) le' tr' (np + 1) bits
    else setBitsLoop zc thr k (i + 1) le_ tr np bits

/-- `set_bitstream()`, pitch/period_detector.hpp:98-122. -/
def setBitstream (p : PD F) : C (PD F) := do
  let (le_, tr, np, bits) ← setBitsLoop p.zc p.threshold p.zc.numEdges 0 p.zc.window 0 0 p.bits.clear
  return { p with numPulses := np, bits := bits
                  halfEmpty := decide (le_ > p.midPoint) || decide (tr < p.midPoint) }

/-- The upward search, pitch/period_detector.hpp:260-268, with `k = mid - p` iterations left. Returns
`(count, period)`. -/
def searchUp (bits : Bitset 64) : Nat → Nat → Nat → Nat → C (Nat × Nat)
  | 0, _, count, period => .ok (count, period)
  | k + 1, p, count, period => do
    let c ← Acf.acf bits p
    if c > count then return (count, period)
    else searchUp bits k (p + 1) c p

/-- The downward search, pitch/period_detector.hpp:269-277, with `k = p - min_period` iterations left. -/
def searchDown (bits : Bitset 64) : Nat → Nat → Nat → Nat → C (Nat × Nat)
  | 0, _, count, period => .ok (count, period)
  | k + 1, p, count, period => do
    let c ← Acf.acf bits p
    if c > count then return (count, period)
    else searchDown bits k (p - 1) c p

/-- `autocorrelate(ac, period, first)`, pitch/period_detector.hpp:247-280.  Returns the count (`none` for
the flag `-1`) and the possibly modified period. -/
def acPeriod (bits : Bitset 64) (minPeriod period : Nat) (first : Bool) : C (Option Nat × Nat) := do
  let count ← Acf.acf bits period
  let mid := Acf.midArray bits * 64
  if first && count == 0 then
    let c2 ← Acf.acf bits (period / 2)
    if c2 = 0 then return (none, period) else return (some count, period)
  else if period < 32 then
    let (count, p) ← searchUp bits (mid - (period + 1)) (period + 1) count period
    let down := (period + (2 ^ 64 - 1)) % 2 ^ 64
    let (count, p) ← searchDown bits (down - minPeriod) down count p
    return (some count, p)
  else return (some count, period)

/-- `sub_collector::period_of`, pitch/period_detector.hpp:151-156. -/
def periodOf (zc : ZC F) (x : SInfo F) : C F := do
  let first ← zc.edge x.i1
  let next ← zc.edge x.i2
  first.fractionalPeriod next

/-- `sub_collector::save`, pitch/period_detector.hpp:158-163. -/
def save (zc : ZC F) (x : SInfo F) : C (Coll F) := do
  let x := { x with harmonic := 1 }
  let fp ← periodOf zc x
  return { firstPeriod := fp, fundamental := some x }

/-- `sub_collector::try_sub_harmonic`, pitch/period_detector.hpp:165-198; `fund` is the current
`_fundamental`. -/
def trySubHarmonic (p : PD F) (c : Coll F) (fund : SInfo F) (harmonic : Nat) (x : SInfo F) (xp : F) :
    C (Bool × Coll F) :=
  if lt (FloatOps.abs (sub xp c.firstPeriod)) p.periodDiffThreshold then
    if lt fund.periodicity x.periodicity && harmonic != fund.harmonic then
      let diff := FloatOps.abs (sub x.periodicity fund.periodicity)
      if le diff (div (lit 32) (ofInt p.zc.window)) then
        .ok (true, { c with fundamental := some { fund with i1 := x.i1, i2 := x.i2, periodicity := x.periodicity, harmonic := harmonic } })
      else do
        let c ← save p.zc x
        return (true, c)
    else .ok (true, c)
  else .ok (false, c)

/-- `sub_collector::process_harmonics`, pitch/period_detector.hpp:200-208.  `std::min(_range, multiple)` is
converted to `std::size_t`. -/
def processHarmonics (p : PD F) (c : Coll F) (fund : SInfo F) (x : SInfo F) : C (Bool × Coll F) :=
  if lt (ofInt x.period) c.firstPeriod then .ok (false, c)
  else do
    let xp ← periodOf p.zc x
    let multiple ← toI32 (FloatOps.max (lit 1) (round (div xp c.firstPeriod)))
    trySubHarmonic p c fund (u64 (min p.range multiple)) x (div xp (ofInt multiple))

/-- `sub_collector::operator()`, pitch/period_detector.hpp:210-220. -/
def collect (p : PD F) (c : Coll F) (x : SInfo F) : C (Coll F) :=
  match c.fundamental with
  | none => save p.zc x
  | some fund => do
    let (done, c) ← processHarmonics p c fund x
    if done then return c
    else if lt fund.periodicity x.periodicity then save p.zc x
    else return c

/-- `1.0f - (count * _weight)`, pitch/period_detector.hpp:318, 370. -/
def periodicityOf (p : PD F) (count : Nat) : F := sub (lit 1) (mul (ofInt count) p.weight)

/-- The inner loop of `autocorrelate()`, pitch/period_detector.hpp:305-324, `k` iterations left, index `j`.
The flag says that the whole search stops. -/
def innerLoop (p : PD F) (i : Nat) (first : ZInfo F) : Nat → Nat → Coll F → C (Bool × Coll F)
  | 0, _, c => .ok (false, c)
  | k + 1, j, c => do
    let next ← p.zc.edge j
    if le p.threshold next.peak then
      let period ← first.period next
      if period > p.midPoint then return (false, c)
      else if period ≥ p.minPeriod then
        let (count, period) ← acPeriod p.bits p.minPeriod period c.fundamental.isNone
        match count with
        | none => return (true, c)
        | some count =>
          let c ← collect p c { i1 := i, i2 := j, period := i32 period, periodicity := periodicityOf p count, harmonic := 0 }
          if count = 0 then return (true, c) else innerLoop p i first k (j + 1) c
      else innerLoop p i first k (j + 1) c
    else innerLoop p i first k (j + 1) c

/-- The outer loop of `autocorrelate()`, pitch/period_detector.hpp:300-326, `k` iterations left. -/
def outerLoop (p : PD F) : Nat → Nat → Coll F → C (Coll F)
  | 0, _, c => .ok c
  | k + 1, i, c => do
    let first ← p.zc.edge i
    if le p.threshold first.peak then
      let (stop, c) ← innerLoop p i first (p.zc.numEdges - (i + 1)) (i + 1) c
      if stop then return c else outerLoop p k (i + 1) c
    else outerLoop p k (i + 1) c

/-- `autocorrelate()`, pitch/period_detector.hpp:282-332, with `sub_collector::get`, 222-236. -/
def autocorrelate (p : PD F) : C (PD F) :=
  if ¬ 1 < p.zc.numEdges then .error .assertFail
  else if p.halfEmpty || decide (p.numPulses < 2) then
    .ok { p with fundamental := { p.fundamental with periodicity := lit (-1) } }
  else do
    let c ← outerLoop p (p.zc.numEdges - 1) 0 { firstPeriod := lit 0, fundamental := none }
    match c.fundamental with
    | none => return { p with fundamental := PInfo.default }
    | some x => do
      let per ← periodOf p.zc x
      return { p with fundamental := { period := div per (ofInt x.harmonic), periodicity := x.periodicity } }

/-- `operator()(s)`, pitch/period_detector.hpp:334-356. -/
def step (p : PD F) (s : F) : C (PD F × Bool) := do
  let prev := p.zc.state
  let (zc, st) ← p.zc.step s
  let p := { p with zc := zc }
  let p := if !st && prev != st then { p with edgeMark := p.edgeMark + 1, predictedPeriod := lit (-1) } else p
  let p := if p.zc.isReset then { p with fundamental := PInfo.default } else p
  if p.zc.ready then do
    let p ← p.setBitstream
    let p ← p.autocorrelate
    return (p, true)
  else return (p, false)

/-- `harmonic(index)`, pitch/period_detector.hpp:358-375. -/
def harmonic (p : PD F) (index : Nat) : C F :=
  if index > 0 then
    if index = 1 then .ok p.fundamental.periodicity
    else
      let target := div p.fundamental.period (ofInt index)
      if le (ofInt p.minPeriod) target && lt target (ofInt p.midPoint) then do
        let lag ← toU64 (round target)
        let count ← Acf.acf p.bits lag
        return periodicityOf p count
      else .ok (lit 0)
  else .ok (lit 0)

/-- The inner loop of `predict_period`, pitch/period_detector.hpp:395-404, for `j = k-1, …, 0`. -/
def predictInner (p : PD F) (edge2 : ZInfo F) : Nat → C (Option F)
  | 0 => .ok none
  | j + 1 => do
    let edge1 ← p.zc.edge j
    if le p.threshold edge1.peak then
      let per ← edge1.fractionalPeriod edge2
      if lt (ofInt p.minPeriod) per then return some per else predictInner p edge2 j
    else predictInner p edge2 j

/-- The outer loop of `predict_period`, pitch/period_detector.hpp:390-407, for `i = k, …, 1`. -/
def predictOuter (p : PD F) : Nat → C (Option F)
  | 0 => .ok none
  | i + 1 => do
    let edge2 ← p.zc.edge (i + 1)
    if le p.threshold edge2.peak then predictInner p edge2 (i + 1)
    else predictOuter p i

/-- `predict_period()`, pitch/period_detector.hpp:382-411.  The members it changes are `mutable`.  The assignment
`_predicted_period = -1.0f` on line 405 happens only when the member already compares equal to `-1`, and is
omitted. -/
def predictPeriod (p : PD F) : C (PD F × F) :=
  if eq p.predictedPeriod (lit (-1)) && p.edgeMark != p.predictEdge then
    let p := { p with predictEdge := p.edgeMark }
    if 1 < p.zc.numEdges then do
      match ← predictOuter p (p.zc.numEdges - 1) with
      | some per => return ({ p with predictedPeriod := per }, per)
      | none => return (p, p.predictedPeriod)
    else .ok (p, p.predictedPeriod)
  else .ok (p, p.predictedPeriod)

end PD
end Verif
