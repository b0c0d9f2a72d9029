import Verif.Model.Logic
import Verif.Model.RoundFilter
/-!
# The windowed noise gate with every operation rounded
-/
namespace Verif
namespace RoundFilter

/-- `basic_noise_gate<attack_window>::operator()(s, env)` for `attack_window > 0`, fx/noise_gate.hpp:98-107,116, in `float`: the
differentiator (fx/special.hpp:113-118) rounds its subtraction with `fl`, the moving sum (fx/moving_average.hpp:33-39) is
`movingSum`, whose accumulator rounds with `fa`; the comparisons are exact. -/
def wgate (fl fa : ℚ → ℚ) (g : Logic.WGate) (env : ℚ) : C (Logic.WGate × Bool) := do
  if !g.state then
    let (sum, v) ← movingSum fl fa g.sum (fl (env - g.diff))
    let g := { g with diff := env, sum := sum }
    if v > g.onset then return ({ g with state := true }, true)
    else return (g, false)
  else if env < g.release then return ({ g with state := false }, false)
  else return (g, true)

theorem wgate_id : wgate id id = Logic.WGate.feed := rfl

end RoundFilter
end Verif
