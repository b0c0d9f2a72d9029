import Verif.Model.Rounding
import Verif.Model.Stream
import Verif.Model.Moving
import Verif.Model.Delay
/-!
# Comparators, gates and pulse generators
(q_lib/include/q/fx/feature_detection.hpp, fx/noise_gate.hpp, fx/special.hpp)
-/
namespace Verif
namespace Logic

/-- `schmitt_trigger::operator()(pos, neg)`, fx/feature_detection.hpp:39-46; state `y` (line 54, initially 0), hysteresis
`h`.  `fl` is the rounding of `float` operations. -/
def schmitt (fl : ℚ → ℚ) (h : ℚ) (y : Bool) (x : ℚ × ℚ) : Bool × Bool :=
  let y := if !y && decide (x.1 > fl (x.2 + h)) then true
    else if y && decide (x.1 < fl (x.2 - h)) then false else y
  (y, y)

/-- `zero_cross::operator()(s)`, fx/feature_detection.hpp:132-135. -/
def zeroCross (fl : ℚ → ℚ) (h : ℚ) (y : Bool) (s : ℚ) : Bool × Bool := schmitt fl h y (s, 0)

/-- `peak::operator()(s, env)`, fx/feature_detection.hpp:161-164. -/
def peak (fl : ℚ → ℚ) (sens h : ℚ) (y : Bool) (x : ℚ × ℚ) : Bool × Bool := schmitt fl h y (x.1, fl (x.2 * sens))

section order
variable {α : Type} [LinearOrder α]

/-- `window_comparator` members, fx/feature_detection.hpp:110-111. -/
structure Window (α : Type) where
  low : α
  high : α
  y : Bool

/-- `operator()(s)`, fx/feature_detection.hpp:78-85. -/
def Window.feed (w : Window α) (s : α) : Window α × Bool :=
  let y := if s < w.low then false else if s > w.high then true else w.y
  ({ w with y := y }, y)

/-- The public operations: a sample, `operator=(bool)` (fx/feature_detection.hpp:92-96) and `threshold(low, high)` (98-102). -/
inductive Window.Op (α : Type) where
  | feed (s : α)
  | assign (b : Bool)
  | threshold (low high : α)

/-- One public operation; the output is `operator()() const` after it (fx/feature_detection.hpp:87-90). -/
def Window.step (w : Window α) : Window.Op α → Window α × Bool
  | .feed s => w.feed s
  | .assign b => ({ w with y := b }, b)
  | .threshold low high => ({ w with low := low, high := high }, w.y)

/-- `basic_noise_gate<0>` members, fx/noise_gate.hpp:72-74. -/
structure Gate (α : Type) where
  state : Bool
  onset : α
  release : α

/-- `operator()(s, env)` for `attack_window = 0`, fx/noise_gate.hpp:98-117 (`s` is not used). -/
def Gate.feed (g : Gate α) (env : α) : Gate α × Bool :=
  let state := if !g.state && decide (env > g.onset) then true
    else if g.state && decide (env < g.release) then false else g.state
  ({ g with state := state }, state)

/-- The public operations: a call, `onset_threshold(x)` (fx/noise_gate.hpp:137-141) and `release_threshold(x)` (143-147). -/
inductive Gate.Op (α : Type) where
  | feed (env : α)
  | onset (x : α)
  | release (x : α)

/-- One public operation; the output is `operator()() const` after it (fx/noise_gate.hpp:119-123). -/
def Gate.step (g : Gate α) : Gate.Op α → Gate α × Bool
  | .feed env => g.feed env
  | .onset x => ({ g with onset := x }, g.state)
  | .release x => ({ g with release := x }, g.state)

end order

/-- `basic_noise_gate<attack_window>` with `attack_window > 0`: members fx/noise_gate.hpp:38-39 and 72-74.  Exact
arithmetic. -/
structure WGate where
  diff : ℚ
  sum : MovingSum ℚ
  state : Bool
  onset : ℚ
  release : ℚ

/-- The constructor, fx/noise_gate.hpp:82-90. -/
def WGate.mk' (window : Nat) (onset release : ℚ) : WGate :=
  { diff := 0, sum := MovingSum.mk' window, state := false, onset := onset, release := release }

/-- `operator()(s, env)` for `attack_window > 0`, fx/noise_gate.hpp:98-107,116.  `&&` does not evaluate the filters
while the gate is open. -/
def WGate.feed (g : WGate) (env : ℚ) : C (WGate × Bool) := do
  if !g.state then
    let (diff, d) := differentiator g.diff env
    let (sum, v) ← g.sum.feed d
    let g := { g with diff := diff, sum := sum }
    if v > g.onset then return ({ g with state := true }, true)
    else return (g, false)
  else if env < g.release then return ({ g with state := false }, false)
  else return (g, true)

/-- `monostable` members, fx/special.hpp:317-318.  Simplification: unbounded counters (they are only loaded with
`_n_samples` and decremented when not 0, so no wrap-around). -/
structure Mono where
  nSamples : Nat
  ticks : Nat

/-- `operator()(val)`, fx/special.hpp:293-305. -/
def Mono.feed (m : Mono) (val : Bool) : Mono × Bool :=
  let ticks := if m.ticks = 0 then (if val then m.nSamples else m.ticks) else m.ticks - 1
  ({ m with ticks := ticks }, decide (ticks ≠ 0))

/-- `reset()`, fx/special.hpp:312-315. -/
def Mono.reset (m : Mono) : Mono := { m with ticks := 0 }

/-- `rising_edge::operator()(val)`, fx/special.hpp:327-332; state `_state`, initially 0. -/
def risingEdge (state : Bool) (val : Bool) : Bool × Bool := (val, val && (state != val))

end Logic
end Verif
