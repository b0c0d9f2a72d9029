import Verif.Model.Envelope
import Verif.Model.Stream
import Verif.Model.Moving
/-!
# Envelope followers (q_lib/include/q/fx/envelope.hpp) and one-pole smoothers (fx/lowpass.hpp)

`fl` is the rounding of `float` operations, `fd` of `double` operations (`id` for exact arithmetic).
-/
namespace Verif
namespace Follow

variable (fl fd : ℚ → ℚ)

/-- `envelope_follower` members, fx/envelope.hpp:61. -/
structure EnvFollower where
  y : ℚ
  attack : ℚ
  release : ℚ

/-- `envelope_follower(attack, release, sps)`, fx/envelope.hpp:24-27 (`config` 45-49 assigns the same values). -/
def EnvFollower.mk' (attack release : ℚ) (sps : Nat) : EnvFollower :=
  { y := 0, attack := Env.coef fl fd sps attack, release := Env.coef fl fd sps release }

/-- `operator()(s)`, fx/envelope.hpp:29-32. -/
def EnvFollower.feed (e : EnvFollower) (s : ℚ) : EnvFollower × ℚ :=
  let y := fl (s + fl ((if s > e.y then e.attack else e.release) * fl (e.y - s)))
  ({ e with y := y }, y)

/-- `envelope_follower::attack(attack_, sps)` with a `float` time constant (fx/envelope.hpp:51-59):
`-2.0f / (sps * attack_)` is computed in `float`, where `sps` is first converted to `float`. -/
def coefF (sps : Nat) (d : ℚ) : ℚ := Env.fastExp3 fl (fl (-2 / fl (fl sps * d)))

/-- `peak_envelope_follower` members, fx/envelope.hpp:98. -/
structure PeakFollower where
  y : ℚ
  release : ℚ

/-- `peak_envelope_follower(release, sps)`, fx/envelope.hpp:69-71. -/
def PeakFollower.mk' (release : ℚ) (sps : Nat) : PeakFollower := { y := 0, release := Env.coef fl fd sps release }

/-- `operator()(s)`, fx/envelope.hpp:73-80. -/
def PeakFollower.feed (e : PeakFollower) (s : ℚ) : PeakFollower × ℚ :=
  let y := if s > e.y then s else fl (s + fl (e.release * fl (e.y - s)))
  ({ e with y := y }, y)

/-- `leaky_integrator::operator()(s)`, fx/lowpass.hpp:74-77; state `y`, coefficient `a`. -/
def leaky (a : ℚ) (y : ℚ) (s : ℚ) : ℚ × ℚ :=
  let y := fl (s + fl (a * fl (y - s)))
  (y, y)

/-- `one_pole_lowpass::operator()(s)`, fx/lowpass.hpp:111-114; state `y`, coefficient `a`. -/
def onePole (a : ℚ) (y : ℚ) (s : ℚ) : ℚ × ℚ :=
  let y := fl (y + fl (a * fl (s - y)))
  (y, y)

/-- `one_pole_lowpass(freq, sps)`, fx/lowpass.hpp:107-109: the coefficient `1.0 - fast_exp3(x)`, where `x` is the
`float` nearest to `-2 pi freq / sps` (computed in `long double`; `x` is a parameter of the model). -/
def onePoleCoef (x : ℚ) : ℚ := fl (fd (1 - Env.fastExp3 fl x))

/-- `leaky_integrator(f, sps)` and `cutoff(f, sps)`, fx/lowpass.hpp:70-72, 91-94: the coefficient `1.0f - 2 pi f / sps`,
computed in `long double` and rounded to `float`; `x = 2 pi f / sps` is a parameter of the model. -/
def leakyCoef (x : ℚ) : ℚ := fl (1 - x)

end Follow

/-- `basic_fast_envelope_follower<div>` members, fx/envelope.hpp:156-159; `size = div + 1` is `y.length`. -/
structure FastEnv (α : Type) where
  y : List α
  peak : α
  tick : BitVec 16
  i : BitVec 16
  reset : BitVec 16

namespace FastEnv
variable {α : Type} [LinearOrder α] [Zero α]

/-- `basic_fast_envelope_follower(std::size_t hold_samples)`, fx/envelope.hpp:127-131: the hold time is truncated to
16 bits. -/
def mk' (div hold : Nat) : FastEnv α :=
  { y := List.replicate (div + 1) 0, peak := 0, tick := 0, i := 0, reset := BitVec.ofNat 16 hold }

/-- `*std::max_element(begin, end)` of a non-empty range (0 for an empty one, which does not occur: `div ≥ 1`). -/
def maxElement : List α → α
  | [] => 0
  | x :: xs => xs.foldl (fun m v => if m < v then v else m) x

/-- `operator()(s)`, fx/envelope.hpp:133-149.  `std::max(s, y)` is `(s < y) ? y : s`. -/
def feed (e : FastEnv α) (s : α) : FastEnv α × α :=
  let y := e.y.map fun y => if s < y then y else s
  let hit := e.tick = e.reset
  let tick := e.tick + 1
  let e' : FastEnv α :=
    if hit then { e with y := y.set (e.i.toNat % e.y.length) 0, tick := 0, i := e.i + 1 }
    else { e with y := y, tick := tick }
  let peak := maxElement e'.y
  ({ e' with peak := peak }, peak)

end FastEnv
end Verif
