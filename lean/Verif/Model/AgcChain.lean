import Verif.Model.Conditioner
import Verif.Model.Delay
import Verif.Model.Units
/-!
# Automatic gain control with look-ahead and noise reduction: the processing loop of test/agc.cpp

`fl` is the rounding of `float` operations, `fd` of `double` operations, `fa` of the accumulators of the moving sums.
-/
namespace Verif
namespace AgcChain

open Dyn Decibel Cond

variable (fl fd fa : ℚ → ℚ)

/-- The processors of test/agc.cpp:38-49; the `agc` and the `level_crossfade` have no state. -/
structure Agc where
  env : Smooth
  delay : RingBuf ℚ
  nrf : MovingSum ℚ

/-- test/agc.cpp:38-48, with a hold time of `hold` samples and a look-ahead of `lookahead` samples. -/
def Agc.mk' (hold lookahead : Nat) : Agc :=
  { env := Smooth.mk' 2 hold, delay := RingBuf.mk' 0 lookahead, nrf := MovingSum.mk' 32 }

/-- `std::size_t lookahead = float(500_us * sps)`, test/agc.cpp:44 (a nonnegative value below 2^63). -/
def lookahead (sps : Nat) : Nat := ⌊fl (fd (UnitTypes.scaledInt fd (1 / 1000000) 500 * sps))⌋.toNat

/-- What the loop computes for one sample: `out[ch2]`, `agc_result`, `env_out` (decibel), `float(gain_db)`. -/
structure Out where
  out : ℚ
  leveled : ℚ
  level : ℚ
  amp : ℚ
  deriving DecidableEq

/-- One iteration, test/agc.cpp:60-81: `env(s)`, `delay(s, lookahead)`, `agc(env_out, -10_dB)` with a maximum of `45_dB`,
`nrf(agc_result)` (a `moving_average` of 32 samples, fx/moving_average.hpp:110-120), `xfade(agc_result, nr_result, env_out)`
with a pivot of `-20_dB`. -/
def Agc.feed (lookahead : Nat) (c : Agc) (s : ℚ) : C (Agc × Out) := do
  let (env, lev) ← rmsFeed fl fd fa c.env s
  let (delay, d) ← nfDelay c.delay (s, BitVec.ofNat 64 lookahead)
  let amp ← toAmp fl fd (agcGain fd 45 lev (-10))
  let r := fl (d * amp)
  let (nrf, sum) ← RoundFilter.movingSum fl fa c.nrf r
  let o ← crossfade fl fd (-20) r (fl (sum / fl nrf.size.toNat)) lev
  return ({ env := env, delay := delay, nrf := nrf }, { out := o, leveled := r, level := lev, amp := amp })

end AgcChain
end Verif
