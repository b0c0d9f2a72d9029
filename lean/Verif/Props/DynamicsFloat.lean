import Verif.Props.SoftKneeFloat
/-!
# C47, C49: compressor, expander and automatic gain control as the program computes them

Binary32/binary64 rounding included.
-/
namespace Verif
open Rounding Dyn Soft

/-- **C47** (IEEE rounding included) The gain of the compressor is that of the ideal one, `1 - ratio` dB down for every dB above the threshold, within a
hundred-thousandth of a decibel, for levels up to 120 dB above the threshold (and however far below). -/
theorem C47_rounded (threshold ratio env : ℚ) (h0 : 0 ≤ ratio) (h1 : ratio ≤ 1) (he : env ≤ threshold + 120) :
    |(Compressor.mk' fl32 threshold ratio).gain fl64 env - (1 - ratio) * min 0 (threshold - env)| ≤ 1 / 10 ^ 5 := by
  unfold Compressor.gain Compressor.mk'
  simp only []
  split_ifs with k
  · rw [min_eq_left (by linarith)]; norm_num
  · push Not at k
    rw [min_eq_right (by linarith)]
    have es := small32 (x := 1 - ratio) (abs_le.2 ⟨by linarith, by linarith⟩)
    obtain ⟨s0, s1⟩ := slope_range h0 h1
    have x1 := small64 (x := threshold - env) (abs_le.2 ⟨by linarith, by linarith⟩)
    obtain ⟨n1, n2⟩ := abs_le.1 x1
    have x2 := mul_close (A := 1) (B := 120) es x1 (abs_le.2 ⟨by linarith, s1⟩) (abs_le.2 ⟨by linarith, by linarith⟩)
    have z : |fl32 (1 - ratio) * fl64 (threshold - env)| ≤ 4096 := by
      rw [abs_mul, abs_of_nonneg s0]
      have c : |fl64 (threshold - env)| ≤ 200 := abs_le.2 ⟨by linarith, by linarith⟩
      calc fl32 (1 - ratio) * |fl64 (threshold - env)| ≤ 1 * 200 := mul_le_mul s1 c (abs_nonneg _) (by norm_num)
        _ ≤ 4096 := by norm_num
    have x3 := small64 z
    obtain ⟨n3, n4⟩ := abs_le.1 x2
    obtain ⟨n5, n6⟩ := abs_le.1 x3
    rw [abs_le]; constructor <;> linarith only [n3, n4, n5, n6]

/-- **C49** (IEEE rounding included) The gain of the expander is `ratio` dB down for every dB below the threshold, within 10^-11 dB, for levels up to
4096 dB below the threshold, ratios up to 4 and reductions up to 4000 dB. -/
theorem C49_expander_rounded (threshold ratio env : ℚ) (h0 : 0 ≤ ratio) (h4 : ratio ≤ 4) (he : threshold - env ≤ 4096)
    (hl : ratio * (threshold - env) ≤ 4000) :
    |(Expander.mk' threshold ratio).gain fl64 env - ratio * min 0 (env - threshold)| ≤ 1 / 10 ^ 11 := by
  unfold Expander.gain Expander.mk'
  simp only []
  split_ifs with k
  · rw [min_eq_left (by linarith)]; norm_num
  · push Not at k
    rw [min_eq_right (by linarith)]
    have x1 := small64 (x := env - threshold) (abs_le.2 ⟨by linarith, by linarith⟩)
    have x2 := mul_close (a := ratio) (a' := ratio) (A := 4) (B := 4096) (α := 0) (by norm_num) x1 (by rw [abs_of_nonneg h0]; exact h4)
      (abs_le.2 ⟨by linarith, by linarith⟩)
    have p0 : 0 ≤ ratio * (threshold - env) := mul_nonneg h0 (by linarith)
    have e : ratio * (env - threshold) = -(ratio * (threshold - env)) := by ring
    obtain ⟨n1, n2⟩ := abs_le.1 x2
    have x3 := small64 (x := ratio * fl64 (env - threshold)) (abs_le.2 ⟨by linarith, by linarith⟩)
    obtain ⟨n3, n4⟩ := abs_le.1 x3
    rw [abs_le]; constructor <;> linarith

/-- **C49** (IEEE rounding included) AGC: the output level `env + gain` is the reference within 10^-11 dB for every envelope within the maximum gain of it;
for a quieter one the gain is `2 max - (ref - env)` within 10^-11 dB. -/
theorem C49_agc_rounded (max env ref : ℚ) (hm : Rep 53 (-1074) max) (hmax : |max| ≤ 1000) (hd : |ref - env| ≤ 1000) :
    |agcGain fl64 max env ref - (if ref - env ≤ max then ref - env else 2 * max - (ref - env))| ≤ 1 / 10 ^ 11 := by
  obtain ⟨a1, a2⟩ := abs_le.1 hmax
  obtain ⟨b1, b2⟩ := abs_le.1 hd
  have x1 := small64 (x := ref - env) (abs_le.2 ⟨by linarith, by linarith⟩)
  obtain ⟨n1, n2⟩ := abs_le.1 x1
  split_ifs with k
  · rw [(C49_agc max env ref hm).2 k, abs_le]; constructor <;> linarith
  · push Not at k
    unfold agcGain
    simp only []
    have x2 := small64 (x := fl64 (ref - env) - max) (abs_le.2 ⟨by linarith, by linarith⟩)
    obtain ⟨n3, n4⟩ := abs_le.1 x2
    have x3 := small64 (x := max - fl64 (fl64 (ref - env) - max)) (abs_le.2 ⟨by linarith, by linarith⟩)
    obtain ⟨n5, n6⟩ := abs_le.1 x3
    split_ifs with h
    · rw [abs_le]; constructor <;> linarith
    · push Not at h
      have := fl64_lawful.mono _ _ k.le
      rw [fl64_lawful.fix _ hm] at this
      rw [abs_le]; constructor <;> linarith

example : |(Compressor.mk' fl32 (-20) (1 / 10)).gain fl64 0 - (-18)| ≤ 1 / 10 ^ 5 := by
  have h := C47_rounded (-20) (1 / 10) 0 (by norm_num) (by norm_num) (by norm_num)
  norm_num at h ⊢
  exact h

example : |(Expander.mk' (-20) 4).gain fl64 (-30) - (-40)| ≤ 1 / 10 ^ 11 := by
  have h := C49_expander_rounded (-20) 4 (-30) (by norm_num) (by norm_num) (by norm_num) (by norm_num)
  norm_num at h ⊢
  exact h

example : |agcGain fl64 30 (-50) (-10 - 1 / 3) - (40 - 1 / 3 - 2 * (40 - 1 / 3 - 30))| ≤ 1 / 10 ^ 11 := by
  have h := C49_agc_rounded 30 (-50) (-10 - 1 / 3) ⟨30, 0, by norm_num, by norm_num, by norm_num⟩ (by norm_num [abs_le]) (by norm_num [abs_le])
  norm_num at h ⊢
  exact h

end Verif
