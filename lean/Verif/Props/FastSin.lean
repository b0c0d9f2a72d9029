import Verif.Model.FastMath
import Verif.Proof.FloatErr
import Mathlib.Analysis.SpecialFunctions.Trigonometric.Bounds
/-!
# C84: the fast sine and tangent

Specification: `Real.sin`, `Real.cos`, `Real.tan`.  `fl32` is the rounding of `float` operations.
-/
namespace Verif
open Rounding
namespace FastMath

theorem fl32_neg (x : ℚ) : fl32 (-x) = -fl32 x := rnd_neg _ _ x

theorem fl32_sub_neg (x y : ℚ) : fl32 (-x - -y) = -fl32 (x - y) := by
  rw [← fl32_neg]; congr 1; ring

/-- The polynomial of `fastsin` in `t`, without rounding. -/
noncomputable def P (t : ℝ) : ℝ :=
  78444488374548933 / 10 ^ 17 * t + t * t * (20363937680730309 / 10 ^ 17 + t * t * (15124940802184233 / 10 ^ 18 + t * t * (-32225901625579573 / 10 ^ 19)))

theorem poly_bounds (w : ℝ) (h0 : 0 ≤ w) (h1 : w ≤ 1) :
    |P (1 - w) - (1 - (157079633 / 10 ^ 8) ^ 2 * w / 2 + (157079633 / 10 ^ 8) ^ 4 * w ^ 2 / 24 - (157079633 / 10 ^ 8) ^ 6 * w ^ 3 / 720
      + (157079633 / 10 ^ 8) ^ 8 * w ^ 4 / 40320 - (157079633 / 10 ^ 8) ^ 10 * w ^ 5 / 3628800
      + (157079633 / 10 ^ 8) ^ 12 * w ^ 6 / 479001600 - (157079633 / 10 ^ 8) ^ 14 * w ^ 7 / 87178291200)| ≤ 954 / 10 ^ 7 := by
  have b (i j : ℕ) : 0 ≤ w ^ i * (1 - w) ^ j := mul_nonneg (pow_nonneg h0 _) (pow_nonneg (by linarith) _)
  unfold P
  rw [abs_le]
  constructor
  · linarith [b 0 10, b 1 9, b 2 8, b 3 7, b 4 6, b 5 5, b 6 4, b 7 3, b 8 2, b 9 1, b 10 0]
  · linarith [b 0 10, b 1 9, b 2 8, b 3 7, b 4 6, b 5 5, b 6 4, b 7 3, b 8 2, b 9 1, b 10 0]

theorem pi_lo : (3.14159265358979323846 : ℝ) < Real.pi := Real.pi_gt_d20
theorem pi_hi : Real.pi < (3.14159265358979323847 : ℝ) := Real.pi_lt_d20

/-- Without rounding, `fastsin` is within 9.55e-5 of the sine. -/
theorem P_sin (x : ℝ) (h0 : 0 ≤ x) (h1 : x ≤ Real.pi) :
    |P (4 / Real.pi * x - 4 / Real.pi ^ 2 * x * x) - Real.sin x| ≤ 955 / 10 ^ 7 := by
  have hp := Real.pi_pos
  set u : ℝ := 1 - 2 * x / Real.pi with hu
  have hxu : x = Real.pi / 2 - Real.pi / 2 * u := by rw [hu]; field_simp; ring
  have hu0 : -1 ≤ u := by
    have : 2 * x / Real.pi ≤ 2 := by rw [div_le_iff₀ hp]; linarith
    linarith
  have hu1 : u ≤ 1 := by
    have : 0 ≤ 2 * x / Real.pi := by positivity
    linarith
  have hua : |u| ≤ 1 := abs_le.2 ⟨hu0, hu1⟩
  have ht : 4 / Real.pi * x - 4 / Real.pi ^ 2 * x * x = 1 - u ^ 2 := by rw [hu]; field_simp; ring
  have hs : Real.sin x = Real.cos (Real.pi / 2 * u) := by
    conv_lhs => rw [hxu]
    rw [Real.sin_pi_div_two_sub]
  rw [ht, hs]
  have hw1 : u ^ 2 ≤ 1 := by rw [sq_le_one_iff_abs_le_one]; exact hua
  have e1 := poly_bounds (u ^ 2) (sq_nonneg u) hw1
  have hy : |157079633 / 10 ^ 8 * u| ≤ (157079633 / 10 ^ 8 : ℝ) := by
    rw [abs_mul, abs_of_pos (by norm_num)]; nlinarith
  have e2 := FloatErr.cos_taylor (157079633 / 10 ^ 8 * u) (hy.trans (by norm_num))
  have e2' : 2 * |157079633 / 10 ^ 8 * u| ^ 16 / 20922789888000 ≤ (1 / 10 ^ 8 : ℝ) := by
    have := pow_le_pow_left₀ (abs_nonneg _) hy 16
    have h2 : ((157079633 / 10 ^ 8 : ℝ)) ^ 16 ≤ 2000 := by norm_num
    generalize |157079633 / 10 ^ 8 * u| ^ 16 = z at *
    rw [div_le_iff₀ (by positivity)]
    linarith
  have e3 := Real.abs_cos_sub_cos_le (Real.pi / 2 * u) (157079633 / 10 ^ 8 * u)
  have e3' : |Real.pi / 2 * u - 157079633 / 10 ^ 8 * u| ≤ 1 / 10 ^ 8 := by
    rw [← sub_mul, abs_mul]
    have : |Real.pi / 2 - 157079633 / 10 ^ 8| ≤ 1 / 10 ^ 8 := by
      rw [abs_le]; constructor <;> nlinarith [pi_lo, pi_hi]
    calc _ ≤ 1 / 10 ^ 8 * 1 := mul_le_mul this hua (abs_nonneg _) (by positivity)
      _ = _ := by ring
  have e4 : (1 - (157079633 / 10 ^ 8 * u) ^ 2 / 2 + (157079633 / 10 ^ 8 * u) ^ 4 / 24 - (157079633 / 10 ^ 8 * u) ^ 6 / 720
      + (157079633 / 10 ^ 8 * u) ^ 8 / 40320 - (157079633 / 10 ^ 8 * u) ^ 10 / 3628800 + (157079633 / 10 ^ 8 * u) ^ 12 / 479001600
      - (157079633 / 10 ^ 8 * u) ^ 14 / 87178291200 : ℝ) = (1 - (157079633 / 10 ^ 8) ^ 2 * u ^ 2 / 2 + (157079633 / 10 ^ 8) ^ 4 * (u ^ 2) ^ 2 / 24 - (157079633 / 10 ^ 8) ^ 6 * (u ^ 2) ^ 3 / 720
      + (157079633 / 10 ^ 8) ^ 8 * (u ^ 2) ^ 4 / 40320 - (157079633 / 10 ^ 8) ^ 10 * (u ^ 2) ^ 5 / 3628800
      + (157079633 / 10 ^ 8) ^ 12 * (u ^ 2) ^ 6 / 479001600 - (157079633 / 10 ^ 8) ^ 14 * (u ^ 2) ^ 7 / 87178291200) := by
    generalize (157079633 / 10 ^ 8 : ℝ) = c
    ring
  rw [e4] at e2
  generalize (1 - (157079633 / 10 ^ 8) ^ 2 * u ^ 2 / 2 + (157079633 / 10 ^ 8) ^ 4 * (u ^ 2) ^ 2 / 24 - (157079633 / 10 ^ 8) ^ 6 * (u ^ 2) ^ 3 / 720
      + (157079633 / 10 ^ 8) ^ 8 * (u ^ 2) ^ 4 / 40320 - (157079633 / 10 ^ 8) ^ 10 * (u ^ 2) ^ 5 / 3628800
      + (157079633 / 10 ^ 8) ^ 12 * (u ^ 2) ^ 6 / 479001600 - (157079633 / 10 ^ 8) ^ 14 * (u ^ 2) ^ 7 / 87178291200 : ℝ) = T at *
  have e2 := e2.trans e2'
  have e3 := e3.trans e3'
  rw [abs_le] at *
  constructor <;> linarith [e1.1, e1.2, e2.1, e2.2, e3.1, e3.2]

/-- The rounding errors of `fastsin`. -/
theorem sin_round (x : ℚ) (h0 : 0 ≤ x) (h1 : (x : ℝ) ≤ Real.pi) :
    |((sin fl32 x : ℚ) : ℝ) - P (4 / Real.pi * x - 4 / Real.pi ^ 2 * x * x)| ≤ 3 / 10 ^ 6 := by
  have hp := Real.pi_pos
  have hx0 : (0 : ℝ) ≤ x := by exact_mod_cast h0
  have hx3 : (x : ℝ) ≤ 3.15 := by linarith [pi_hi]
  have hxa : |(x : ℝ)| ≤ 3.15 := by rw [abs_of_nonneg hx0]; exact hx3
  have hxx : |(x : ℝ) - x| ≤ 0 := by simp
  have ha : |(((12732395447351627 / 10 ^ 16 : ℚ)) : ℝ) - 4 / Real.pi| ≤ 1 / 10 ^ 15 := by
    have h1 : 4 / Real.pi ≤ 4 / 3.14159265358979323846 := div_le_div_of_nonneg_left (by norm_num) (by norm_num) pi_lo.le
    have h2 : 4 / 3.14159265358979323847 ≤ 4 / Real.pi := div_le_div_of_nonneg_left (by norm_num) hp pi_hi.le
    push_cast
    rw [abs_le]; constructor
    · refine le_trans ?_ (sub_le_sub_left h1 _); norm_num
    · refine le_trans (sub_le_sub_left h2 _) ?_; norm_num
  have hb : |(((40528473456935109 / 10 ^ 17 : ℚ)) : ℝ) - 4 / Real.pi ^ 2| ≤ 1 / 10 ^ 15 := by
    have h1 : 4 / Real.pi ^ 2 ≤ 4 / 3.14159265358979323846 ^ 2 :=
      div_le_div_of_nonneg_left (by norm_num) (by norm_num) (pow_le_pow_left₀ (by norm_num) pi_lo.le 2)
    have h2 : 4 / 3.14159265358979323847 ^ 2 ≤ 4 / Real.pi ^ 2 :=
      div_le_div_of_nonneg_left (by norm_num) (by positivity) (pow_le_pow_left₀ hp.le pi_hi.le 2)
    push_cast
    rw [abs_le]; constructor
    · refine le_trans ?_ (sub_le_sub_left h1 _); norm_num
    · refine le_trans (sub_le_sub_left h2 _) ?_; norm_num
  have la := FloatErr.lit ha (X := 1.28) (e := 8 / 10 ^ 8) (by push_cast; rw [abs_of_nonneg (by norm_num)]; norm_num) (by norm_num)
  have lb := FloatErr.lit hb (X := 0.41) (e := 3 / 10 ^ 8) (by push_cast; rw [abs_of_nonneg (by norm_num)]; norm_num) (by norm_num)
  have a0 : 0 < 4 / Real.pi := by positivity
  have b0 : 0 < 4 / Real.pi ^ 2 := by positivity
  have aA : |4 / Real.pi| ≤ 1.28 := by
    push_cast at ha; rw [abs_le] at ha ⊢; constructor <;> linarith [ha.1]
  have bB : |4 / Real.pi ^ 2| ≤ 0.41 := by
    push_cast at hb; rw [abs_le] at hb ⊢; constructor <;> linarith [hb.1]
  have m1 := FloatErr.mul la hxx aA hxa (e := 50 / 10 ^ 8) (by norm_num)
  have m2 := FloatErr.mul lb hxx bB hxa (e := 18 / 10 ^ 8) (by norm_num)
  have bx : |4 / Real.pi ^ 2 * x| ≤ 1.2915 := by
    rw [abs_mul]; exact (mul_le_mul bB hxa (abs_nonneg _) (by norm_num)).trans (by norm_num)
  have m3 := FloatErr.mul m2 hxx bx hxa (e := 82 / 10 ^ 8) (by norm_num)
  set t : ℝ := 4 / Real.pi * x - 4 / Real.pi ^ 2 * x * x with ht
  have ht0 : 0 ≤ t := by
    have : t = 4 / Real.pi ^ 2 * x * (Real.pi - x) := by rw [ht]; field_simp
    rw [this]; exact mul_nonneg (by positivity) (by linarith)
  have ht1 : t ≤ 1 := by
    have : t = 1 - (1 - 2 * x / Real.pi) ^ 2 := by rw [ht]; field_simp; ring
    rw [this]; linarith [sq_nonneg (1 - 2 * (x : ℝ) / Real.pi)]
  have hta : |t| ≤ 1 := by rw [abs_of_nonneg ht0]; exact ht1
  have d := FloatErr.sub m1 m3 (S := 1) (e := 140 / 10 ^ 8) (by rw [← ht]; exact hta) (by norm_num)
  rw [← ht] at d
  have tt := FloatErr.mul d d hta hta (e := 290 / 10 ^ 8) (by norm_num)
  have htt : |t * t| ≤ 1 := by rw [abs_mul]; nlinarith [abs_nonneg t]
  have lq := FloatErr.lit (x := 78444488374548933 / 10 ^ 17) (a := 78444488374548933 / 10 ^ 17) (e1 := 0) (X := 0.79) (e := 5 / 10 ^ 8)
    (by simp) (by push_cast; rw [abs_of_nonneg (by norm_num)]; norm_num) (by norm_num)
  have lp := FloatErr.lit (x := 20363937680730309 / 10 ^ 17) (a := 20363937680730309 / 10 ^ 17) (e1 := 0) (X := 0.21) (e := 2 / 10 ^ 8)
    (by simp) (by push_cast; rw [abs_of_nonneg (by norm_num)]; norm_num) (by norm_num)
  have lr := FloatErr.lit (x := 15124940802184233 / 10 ^ 18) (a := 15124940802184233 / 10 ^ 18) (e1 := 0) (X := 0.016) (e := 1 / 10 ^ 9)
    (by simp) (by push_cast; rw [abs_of_nonneg (by norm_num)]; norm_num) (by norm_num)
  have ls := FloatErr.lit (x := -32225901625579573 / 10 ^ 19) (a := -32225901625579573 / 10 ^ 19) (e1 := 0) (X := 0.004) (e := 1 / 10 ^ 9)
    (by simp) (by push_cast; rw [abs_of_nonpos (by norm_num)]; norm_num) (by norm_num)
  have n1 := FloatErr.mul tt ls htt (B := 0.004) (e := 2 / 10 ^ 8) (by rw [abs_of_nonpos (by norm_num)]; norm_num) (by norm_num)
  have n1b : |t * t * (-32225901625579573 / 10 ^ 19)| ≤ 0.004 := by
    rw [abs_mul]
    exact (mul_le_mul htt (show |(-32225901625579573 / 10 ^ 19 : ℝ)| ≤ 0.004 by rw [abs_of_nonpos (by norm_num)]; norm_num) (abs_nonneg _) (by norm_num)).trans (by norm_num)
  have n2b : |15124940802184233 / 10 ^ 18 + t * t * (-32225901625579573 / 10 ^ 19)| ≤ 0.02 := by
    refine (abs_add_le _ _).trans ?_
    rw [abs_of_nonneg (show (0:ℝ) ≤ 15124940802184233 / 10 ^ 18 by norm_num)]
    linarith
  have n2 := FloatErr.add lr n1 (S := 0.02) (e := 3 / 10 ^ 8) n2b (by norm_num)
  have n3 := FloatErr.mul tt n2 htt n2b (e := 12 / 10 ^ 8) (by norm_num)
  have n3b : |t * t * (15124940802184233 / 10 ^ 18 + t * t * (-32225901625579573 / 10 ^ 19))| ≤ 0.02 := by
    rw [abs_mul]; exact (mul_le_mul htt n2b (abs_nonneg _) (by norm_num)).trans (by norm_num)
  have n4b : |20363937680730309 / 10 ^ 17 + t * t * (15124940802184233 / 10 ^ 18 + t * t * (-32225901625579573 / 10 ^ 19))| ≤ 0.23 := by
    refine (abs_add_le _ _).trans ?_
    rw [abs_of_nonneg (show (0:ℝ) ≤ 20363937680730309 / 10 ^ 17 by norm_num)]
    linarith
  have n4 := FloatErr.add lp n3 (S := 0.23) (e := 16 / 10 ^ 8) n4b (by norm_num)
  have n5 := FloatErr.mul tt n4 htt n4b (e := 86 / 10 ^ 8) (by norm_num)
  have n5b : |t * t * (20363937680730309 / 10 ^ 17 + t * t * (15124940802184233 / 10 ^ 18 + t * t * (-32225901625579573 / 10 ^ 19)))| ≤ 0.23 := by
    rw [abs_mul]; exact (mul_le_mul htt n4b (abs_nonneg _) (by norm_num)).trans (by norm_num)
  have n6 := FloatErr.mul lq d (A := 0.79) (e := 121 / 10 ^ 8) (by rw [abs_of_nonneg (by norm_num)]; norm_num) hta (by norm_num)
  have n6b : |78444488374548933 / 10 ^ 17 * t| ≤ 0.79 := by
    rw [abs_mul, abs_of_nonneg (show (0:ℝ) ≤ 78444488374548933 / 10 ^ 17 by norm_num)]; linarith
  have n7 := FloatErr.add n6 n5 (S := 1.02) (e := 3 / 10 ^ 6) ((abs_add_le _ _).trans (by linarith)) (by norm_num)
  unfold P FastMath.sin
  rw [if_neg (not_lt.2 h0), abs_of_nonneg h0]
  simp only [one_mul]
  exact n7

end FastMath
open FastMath

/-- C84 (odd): the fast sine is an odd function, exactly. -/
theorem C84_odd (x : ℚ) : FastMath.sin fl32 (-x) = -FastMath.sin fl32 x := by
  rcases eq_or_ne x 0 with rfl | hx
  · have z : fl32 0 = 0 := fl32_lawful.zero
    unfold FastMath.sin
    simp only [neg_zero, mul_zero, abs_zero, sub_zero, z, zero_mul, add_zero]
  · have hs : (if -x < 0 then (-1 : ℚ) else 1) = -(if x < 0 then (-1 : ℚ) else 1) := by
      rcases lt_or_gt_of_ne hx with h | h
      · rw [if_pos h, if_neg (by linarith)]; norm_num
      · rw [if_pos (by linarith), if_neg (by linarith)]
    unfold FastMath.sin
    rw [hs]
    simp only [abs_neg, mul_neg, neg_mul, fl32_neg, fl32_sub_neg, neg_neg]
    generalize fl32 (_ - _) = t
    have nadd (a b : ℚ) : fl32 (-a + -b) = -fl32 (a + b) := by rw [← fl32_neg]; congr 1; ring
    simp only [nadd, mul_neg, fl32_neg]

/-- C84 (accuracy): on `[-π, π]` the fast sine, rounding included, is within 1e-4 of the sine. -/
theorem C84_sine (x : ℚ) (h : |(x : ℝ)| ≤ Real.pi) : |((FastMath.sin fl32 x : ℚ) : ℝ) - Real.sin x| ≤ 1 / 10 ^ 4 := by
  have key (x : ℚ) (h0 : 0 ≤ x) (h : |(x : ℝ)| ≤ Real.pi) : |((FastMath.sin fl32 x : ℚ) : ℝ) - Real.sin x| ≤ 1 / 10 ^ 4 := by
    have hx0 : (0 : ℝ) ≤ x := by exact_mod_cast h0
    rw [abs_of_nonneg hx0] at h
    have e1 := sin_round x h0 h
    have e2 := P_sin x hx0 h
    have := abs_sub_le ((FastMath.sin fl32 x : ℚ) : ℝ) (P (4 / Real.pi * x - 4 / Real.pi ^ 2 * x * x)) (Real.sin x)
    linarith
  rcases le_total 0 x with h0 | h0
  · exact key x h0 h
  · have := key (-x) (by linarith) (by push_cast; rwa [abs_neg])
    rw [C84_odd] at this
    push_cast at this
    rw [Real.sin_neg, ← neg_add', abs_neg] at this
    rwa [sub_eq_add_neg]

example : |((1 : ℚ) : ℝ)| ≤ Real.pi := by norm_num; linarith [Real.pi_gt_three]

end Verif
