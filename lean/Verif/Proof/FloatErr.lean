import Verif.Proof.RoundFilter
import Mathlib.Analysis.Complex.Trigonometric
import Mathlib.Analysis.SpecialFunctions.Trigonometric.Basic
import Mathlib.Analysis.Real.Pi.Bounds
/-!
# Propagation of rounding errors in `float` expressions, and Taylor bounds
-/
namespace Verif
open Rounding
namespace FloatErr

theorem rnd_step (x : ℚ) {X : ℝ} (h : |(x : ℝ)| ≤ X) : |((fl32 x : ℚ) : ℝ) - x| ≤ X / 2 ^ 24 + 1 / 2 ^ 149 := by
  have h1 := fl32_lawful.err x
  have h2 : max (|x| / 2 ^ 24) ((2 : ℚ) ^ (-149 : ℤ) / 2) ≤ |x| / 2 ^ 24 + 1 / 2 ^ 149 := by
    refine max_le (by linarith [show (0 : ℚ) ≤ 1 / 2 ^ 149 by positivity]) ?_
    have : (0 : ℚ) ≤ |x| / 2 ^ 24 := by positivity
    calc (2 : ℚ) ^ (-149 : ℤ) / 2 ≤ 1 / 2 ^ 149 := by norm_num
      _ ≤ _ := by linarith
  have h3 := (Rat.cast_le (K := ℝ)).2 (h1.trans h2)
  rw [Rat.cast_abs] at h3
  push_cast at h3
  have : |(x : ℝ)| / 2 ^ 24 ≤ X / 2 ^ 24 := div_le_div_of_nonneg_right h (by positivity)
  linarith

theorem lit {x : ℚ} {a X e1 e : ℝ} (h1 : |(x : ℝ) - a| ≤ e1) (h2 : |(x : ℝ)| ≤ X) (he : e1 + (X / 2 ^ 24 + 1 / 2 ^ 149) ≤ e) :
    |((fl32 x : ℚ) : ℝ) - a| ≤ e := by
  have := rnd_step x h2
  have := abs_sub_le ((fl32 x : ℚ) : ℝ) x a
  linarith

theorem mul {ah bh : ℚ} {a b A B ea eb e : ℝ} (ha : |(ah : ℝ) - a| ≤ ea) (hb : |(bh : ℝ) - b| ≤ eb) (hA : |a| ≤ A)
    (hB : |b| ≤ B) (he : A * eb + B * ea + ea * eb + ((A + ea) * (B + eb) / 2 ^ 24 + 1 / 2 ^ 149) ≤ e) :
    |((fl32 (ah * bh) : ℚ) : ℝ) - a * b| ≤ e := by
  have a0 := abs_nonneg a
  have b0 := abs_nonneg b
  have ea0 := (abs_nonneg _).trans ha
  have eb0 := (abs_nonneg _).trans hb
  have hah : |(ah : ℝ)| ≤ A + ea := by
    have := abs_add_le ((ah : ℝ) - a) a; rw [sub_add_cancel] at this; linarith
  have hbh : |(bh : ℝ)| ≤ B + eb := by
    have := abs_add_le ((bh : ℝ) - b) b; rw [sub_add_cancel] at this; linarith
  have h1 := rnd_step (ah * bh) (X := (A + ea) * (B + eb)) (by
    push_cast; rw [abs_mul]; exact mul_le_mul hah hbh (abs_nonneg _) (by linarith))
  have h2 : |(ah : ℝ) * bh - a * b| ≤ A * eb + B * ea + ea * eb := by
    rw [show (ah : ℝ) * bh - a * b = a * (bh - b) + b * (ah - a) + (ah - a) * (bh - b) by ring]
    refine (abs_add_le _ _).trans (add_le_add ((abs_add_le _ _).trans (add_le_add ?_ ?_)) ?_)
    · rw [abs_mul]; exact mul_le_mul hA hb (abs_nonneg _) (by linarith)
    · rw [abs_mul]; exact mul_le_mul hB ha (abs_nonneg _) (by linarith)
    · rw [abs_mul]; exact mul_le_mul ha hb (abs_nonneg _) ea0
  push_cast at h1
  have := abs_sub_le ((fl32 (ah * bh) : ℚ) : ℝ) (ah * bh) (a * b)
  linarith

theorem add {ah bh : ℚ} {a b S ea eb e : ℝ} (ha : |(ah : ℝ) - a| ≤ ea) (hb : |(bh : ℝ) - b| ≤ eb) (hS : |a + b| ≤ S)
    (he : ea + eb + ((S + (ea + eb)) / 2 ^ 24 + 1 / 2 ^ 149) ≤ e) : |((fl32 (ah + bh) : ℚ) : ℝ) - (a + b)| ≤ e := by
  have h2 : |(ah : ℝ) + bh - (a + b)| ≤ ea + eb := by
    rw [show (ah : ℝ) + bh - (a + b) = (ah - a) + (bh - b) by ring]
    exact (abs_add_le _ _).trans (add_le_add ha hb)
  have h1 := rnd_step (ah + bh) (X := S + (ea + eb)) (by
    push_cast
    have := abs_add_le ((ah : ℝ) + bh - (a + b)) (a + b); rw [sub_add_cancel] at this; linarith)
  push_cast at h1
  have := abs_sub_le ((fl32 (ah + bh) : ℚ) : ℝ) (ah + bh) (a + b)
  linarith

theorem sub {ah bh : ℚ} {a b S ea eb e : ℝ} (ha : |(ah : ℝ) - a| ≤ ea) (hb : |(bh : ℝ) - b| ≤ eb) (hS : |a - b| ≤ S)
    (he : ea + eb + ((S + (ea + eb)) / 2 ^ 24 + 1 / 2 ^ 149) ≤ e) : |((fl32 (ah - bh) : ℚ) : ℝ) - (a - b)| ≤ e := by
  have hb' : |((-bh : ℚ) : ℝ) - (-b)| ≤ eb := by
    push_cast; rw [show -(bh : ℝ) - -b = -(bh - b) by ring, abs_neg]; exact hb
  have := add ha hb' (S := S) (by rwa [← sub_eq_add_neg]) he
  rwa [← sub_eq_add_neg, ← sub_eq_add_neg] at this

/-- The first 16 terms of the series of `exp (i y)`. -/
theorem exp_I_sum (y : ℝ) : ∑ m ∈ Finset.range 16, ((y : ℂ) * Complex.I) ^ m / (m.factorial : ℂ) =
    ((1 - y ^ 2 / 2 + y ^ 4 / 24 - y ^ 6 / 720 + y ^ 8 / 40320 - y ^ 10 / 3628800 + y ^ 12 / 479001600 - y ^ 14 / 87178291200 : ℝ) : ℂ)
    + ((y - y ^ 3 / 6 + y ^ 5 / 120 - y ^ 7 / 5040 + y ^ 9 / 362880 - y ^ 11 / 39916800 + y ^ 13 / 6227020800 - y ^ 15 / 1307674368000 : ℝ) : ℂ) * Complex.I := by
  have i2 : Complex.I ^ 2 = -1 := Complex.I_sq
  have i3 : Complex.I ^ 3 = -Complex.I := Complex.I_pow_three
  have i4 : Complex.I ^ 4 = 1 := Complex.I_pow_four
  simp only [Finset.sum_range_succ, Finset.sum_range_zero, mul_pow, Nat.factorial]
  rw [show Complex.I ^ 5 = Complex.I by rw [show 5 = 4 + 1 from rfl, pow_add, i4]; ring,
    show Complex.I ^ 6 = -1 by rw [show 6 = 4 + 2 from rfl, pow_add, i4, i2]; ring,
    show Complex.I ^ 7 = -Complex.I by rw [show 7 = 4 + 3 from rfl, pow_add, i4, i3]; ring,
    show Complex.I ^ 8 = 1 by rw [show 8 = 4 + 4 from rfl, pow_add, i4]; ring,
    show Complex.I ^ 9 = Complex.I by rw [show 9 = 4 + 4 + 1 from rfl, pow_add, pow_add, i4]; ring,
    show Complex.I ^ 10 = -1 by rw [show 10 = 4 + 4 + 2 from rfl, pow_add, pow_add, i4, i2]; ring,
    show Complex.I ^ 11 = -Complex.I by rw [show 11 = 4 + 4 + 3 from rfl, pow_add, pow_add, i4, i3]; ring,
    show Complex.I ^ 12 = 1 by rw [show 12 = 4 + 4 + 4 from rfl, pow_add, pow_add, i4]; ring,
    show Complex.I ^ 13 = Complex.I by rw [show 13 = 4 + 4 + 4 + 1 from rfl, pow_add, pow_add, pow_add, i4]; ring,
    show Complex.I ^ 14 = -1 by rw [show 14 = 4 + 4 + 4 + 2 from rfl, pow_add, pow_add, pow_add, i4, i2]; ring,
    show Complex.I ^ 15 = -Complex.I by rw [show 15 = 4 + 4 + 4 + 3 from rfl, pow_add, pow_add, pow_add, i4, i3]; ring,
    i2, i3, i4]
  push_cast
  ring

/-- Taylor's formula for the cosine, up to the term in `y^14`, for `|y| ≤ 2`. -/
theorem cos_taylor (y : ℝ) (h : |y| ≤ 2) :
    |Real.cos y - (1 - y ^ 2 / 2 + y ^ 4 / 24 - y ^ 6 / 720 + y ^ 8 / 40320 - y ^ 10 / 3628800 + y ^ 12 / 479001600
      - y ^ 14 / 87178291200)| ≤ 2 * |y| ^ 16 / 20922789888000 := by
  have hb := Complex.exp_bound' (x := (y : ℂ) * Complex.I) (n := 16) (by
    rw [norm_mul, Complex.norm_I, mul_one, Complex.norm_real, Real.norm_eq_abs]
    rw [div_le_iff₀ (by positivity)]
    push_cast; linarith)
  rw [norm_mul, Complex.norm_I, mul_one, Complex.norm_real, Real.norm_eq_abs] at hb
  have hre := Complex.abs_re_le_norm (Complex.exp ((y : ℂ) * Complex.I) - ∑ m ∈ Finset.range 16, ((y : ℂ) * Complex.I) ^ m / (m.factorial : ℂ))
  rw [Complex.sub_re, Complex.exp_ofReal_mul_I_re] at hre
  have hs : (∑ m ∈ Finset.range 16, ((y : ℂ) * Complex.I) ^ m / (m.factorial : ℂ)).re =
      1 - y ^ 2 / 2 + y ^ 4 / 24 - y ^ 6 / 720 + y ^ 8 / 40320 - y ^ 10 / 3628800 + y ^ 12 / 479001600 - y ^ 14 / 87178291200 := by
    have key := exp_I_sum y
    rw [key, Complex.add_re, Complex.ofReal_re, Complex.re_ofReal_mul, Complex.I_re]
    ring
  rw [hs] at hre
  refine hre.trans (hb.trans (le_of_eq ?_))
  norm_num [Nat.factorial]
  ring

/-- Taylor's formula for the sine, up to the term in `y^15`, for `|y| ≤ 2`. -/
theorem sin_taylor (y : ℝ) (h : |y| ≤ 2) :
    |Real.sin y - (y - y ^ 3 / 6 + y ^ 5 / 120 - y ^ 7 / 5040 + y ^ 9 / 362880 - y ^ 11 / 39916800 + y ^ 13 / 6227020800
      - y ^ 15 / 1307674368000)| ≤ 2 * |y| ^ 16 / 20922789888000 := by
  have hb := Complex.exp_bound' (x := (y : ℂ) * Complex.I) (n := 16) (by
    rw [norm_mul, Complex.norm_I, mul_one, Complex.norm_real, Real.norm_eq_abs]
    rw [div_le_iff₀ (by positivity)]
    push_cast; linarith)
  rw [norm_mul, Complex.norm_I, mul_one, Complex.norm_real, Real.norm_eq_abs] at hb
  have him := Complex.abs_im_le_norm (Complex.exp ((y : ℂ) * Complex.I) - ∑ m ∈ Finset.range 16, ((y : ℂ) * Complex.I) ^ m / (m.factorial : ℂ))
  rw [Complex.sub_im, Complex.exp_ofReal_mul_I_im] at him
  rw [exp_I_sum y, Complex.add_im, Complex.ofReal_im, Complex.im_ofReal_mul, Complex.I_im, zero_add, mul_one,
    ← exp_I_sum y] at him
  refine him.trans (hb.trans (le_of_eq ?_))
  norm_num [Nat.factorial]
  ring

end FloatErr
end Verif
