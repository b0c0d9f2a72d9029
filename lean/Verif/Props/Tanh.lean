import Verif.Props.FastSin
import Verif.Proof.RoundEval
import Mathlib.Analysis.SpecialFunctions.Trigonometric.DerivHyp
import Mathlib.Analysis.Complex.Exponential
/-!
# C86: the rational approximation of the hyperbolic tangent

Specification: `Real.tanh`.
-/
namespace Verif
open Rounding
namespace FastMath

/-- The approximation without rounding. -/
noncomputable def R (x : ℝ) : ℝ := x * (27 + x * x) / (27 + 9 * x * x)

theorem R_den (x : ℝ) : 27 ≤ 27 + 9 * x * x := by nlinarith [mul_self_nonneg x]

theorem R_mono {a b : ℝ} (h : a ≤ b) : R a ≤ R b := by
  unfold R
  rw [div_le_div_iff₀ (by linarith [R_den a]) (by linarith [R_den b])]
  have e : b * (27 + b * b) * (27 + 9 * a * a) - a * (27 + a * a) * (27 + 9 * b * b)
      = (b - a) * (27 * (b - a) ^ 2 + 9 * (9 - a * b) ^ 2) := by ring
  have : 0 ≤ (b - a) * (27 * (b - a) ^ 2 + 9 * (9 - a * b) ^ 2) := mul_nonneg (by linarith) (by positivity)
  linarith

/-- The three-angle formula. -/
theorem tanh_three (y : ℝ) : Real.tanh (3 * y) = R (3 * Real.tanh y) := by
  unfold R
  have hc := Real.cosh_pos y
  have sq := Real.cosh_sq y
  have e1 : Real.sinh (3 * y) = Real.sinh y * (Real.sinh y ^ 2 + 3 * Real.cosh y ^ 2) := by
    rw [Real.sinh_three_mul, sq]; ring
  have e2 : Real.cosh (3 * y) = Real.cosh y * (Real.cosh y ^ 2 + 3 * Real.sinh y ^ 2) := by
    rw [Real.cosh_three_mul]
    have : Real.sinh y ^ 2 = Real.cosh y ^ 2 - 1 := by linarith
    rw [this]; ring
  rw [Real.tanh_eq_sinh_div_cosh, Real.tanh_eq_sinh_div_cosh, e1, e2]
  generalize Real.cosh y = c at *
  generalize Real.sinh y = s at *
  have h1 : c ^ 2 + 3 * s ^ 2 ≠ 0 := by positivity
  have h2 : 27 + 9 * (3 * (s / c)) * (3 * (s / c)) ≠ 0 := by
    have := R_den (3 * (s / c)); linarith
  have h3 : c ≠ 0 := hc.ne'
  rw [div_eq_div_iff (by positivity) h2]
  field_simp
  ring

theorem tanh_le_self (y : ℝ) (h : 0 ≤ y) : Real.tanh y ≤ y := by
  rw [Real.tanh_eq_sinh_div_cosh, div_le_iff₀ (Real.cosh_pos y)]
  have key : MonotoneOn (fun y => y * Real.cosh y - Real.sinh y) (Set.Ici 0) := by
    apply monotoneOn_of_deriv_nonneg (convex_Ici 0)
    · fun_prop
    · exact Differentiable.differentiableOn (by fun_prop)
    · intro x hx
      rw [interior_Ici, Set.mem_Ioi] at hx
      have hd : HasDerivAt (fun y => y * Real.cosh y - Real.sinh y) (1 * Real.cosh x + x * Real.sinh x - Real.cosh x) x :=
        ((hasDerivAt_id x).mul (Real.hasDerivAt_cosh x)).sub (Real.hasDerivAt_sinh x)
      rw [hd.deriv]
      have : 0 ≤ x * Real.sinh x := mul_nonneg hx.le (Real.sinh_nonneg_iff.2 hx.le)
      linarith
  have := key (Set.mem_Ici.2 le_rfl) (Set.mem_Ici.2 h) h
  simp only [zero_mul, Real.sinh_zero, sub_zero] at this
  linarith

theorem tanh_le_R (x : ℝ) (h : 0 ≤ x) : Real.tanh x ≤ R x := by
  have e : Real.tanh x = R (3 * Real.tanh (x / 3)) := by rw [← tanh_three]; congr 1; ring
  rw [e]
  exact R_mono (by linarith [tanh_le_self (x / 3) (by linarith)])

/-- A lower bound of `exp (2 x)`. -/
noncomputable def E (x : ℝ) : ℝ :=
  1 + 2 * x + 2 * x ^ 2 + 4 / 3 * x ^ 3 + 2 / 3 * x ^ 4 + 4 / 15 * x ^ 5 + 4 / 45 * x ^ 6 + 8 / 315 * x ^ 7 + 2 / 315 * x ^ 8
    + 4 / 2835 * x ^ 9 + 4 / 14175 * x ^ 10

theorem E_le (x : ℝ) (h : 0 ≤ x) : E x ≤ Real.exp (2 * x) := by
  have := Real.sum_le_exp_of_nonneg (x := 2 * x) (by linarith) 11
  refine le_trans (le_of_eq ?_) this
  simp only [E, Finset.sum_range_succ, Finset.sum_range_zero, Nat.factorial]
  push_cast
  ring

theorem E_poly (x : ℝ) (h0 : 0 ≤ x) (h3 : x ≤ 3) :
    x * (27 + x * x) * (E x + 1) - (E x - 1) * (27 + 9 * x * x) ≤ 25 / 1000 * ((E x + 1) * (27 + 9 * x * x)) := by
  unfold E
  have b (a c : ℝ) (ha : a ≤ x) (hc : x ≤ c) (i j : ℕ) : 0 ≤ (x - a) ^ i * (c - x) ^ j :=
    mul_nonneg (pow_nonneg (by linarith) _) (pow_nonneg (by linarith) _)
  rcases le_total x 1 with h1 | h1
  · have b := b 0 1 h0 h1
    linarith [b 0 13, b 1 12, b 2 11, b 3 10, b 4 9, b 5 8, b 6 7, b 7 6, b 8 5, b 9 4, b 10 3, b 11 2, b 12 1, b 13 0]
  rcases le_total x 2 with h2 | h2
  · have b := b 1 2 h1 h2
    linarith [b 0 13, b 1 12, b 2 11, b 3 10, b 4 9, b 5 8, b 6 7, b 7 6, b 8 5, b 9 4, b 10 3, b 11 2, b 12 1, b 13 0]
  · have b := b 2 3 h2 h3
    linarith [b 0 13, b 1 12, b 2 11, b 3 10, b 4 9, b 5 8, b 6 7, b 7 6, b 8 5, b 9 4, b 10 3, b 11 2, b 12 1, b 13 0]

theorem R_le_tanh (x : ℝ) (h0 : 0 ≤ x) (h3 : x ≤ 3) : R x ≤ Real.tanh x + 25 / 1000 := by
  have hE := E_le x h0
  have hE1 : 1 ≤ E x := by
    unfold E
    have : 0 ≤ 2 * x + 2 * x ^ 2 + 4 / 3 * x ^ 3 + 2 / 3 * x ^ 4 + 4 / 15 * x ^ 5 + 4 / 45 * x ^ 6 + 8 / 315 * x ^ 7
      + 2 / 315 * x ^ 8 + 4 / 2835 * x ^ 9 + 4 / 14175 * x ^ 10 := by positivity
    linarith
  have hp := E_poly x h0 h3
  have hd := R_den x
  have ht : Real.tanh x = (Real.exp (2 * x) - 1) / (Real.exp (2 * x) + 1) := by
    rw [Real.tanh_eq_sinh_div_cosh, Real.sinh_eq, Real.cosh_eq, Real.exp_neg, two_mul, Real.exp_add]
    have := Real.exp_pos x
    generalize Real.exp x = w at *
    field_simp
  have h1 : (E x - 1) / (E x + 1) ≤ Real.tanh x := by
    rw [ht, div_le_div_iff₀ (by linarith) (by linarith)]
    linarith
  refine le_trans ?_ (add_le_add_left h1 _)
  unfold R
  rw [div_add' _ _ _ (by linarith), div_le_div_iff₀ (by linarith) (by linarith)]
  linarith

theorem R_odd (x : ℝ) : R (-x) = -R x := by
  unfold R; rw [show 27 + 9 * -x * -x = 27 + 9 * x * x by ring, ← neg_div]; congr 1; ring

theorem R_abs (x : ℝ) (h : |x| ≤ 3) : |R x| ≤ 1 := by
  have := abs_le.1 h
  have r3 : R 3 = 1 := by unfold R; norm_num
  rw [abs_le]
  constructor
  · rw [← r3, ← R_odd]; exact R_mono this.1
  · rw [← r3]; exact R_mono this.2

theorem tanh_round (x : ℚ) (h : |(x : ℝ)| ≤ 3) : |((tanh fl32 x : ℚ) : ℝ) - R x| ≤ 14 / 10 ^ 7 := by
  have hxx : |(x : ℝ) - x| ≤ 0 := by simp
  have hsq : |(x : ℝ) * x| ≤ 9 := by rw [abs_mul]; nlinarith [abs_nonneg (x : ℝ)]
  have hsq0 := mul_self_nonneg (x : ℝ)
  have hsq9 := (abs_le.1 hsq).2
  have m1 := FloatErr.mul hxx hxx h h (e := 54 / 10 ^ 8) (by norm_num)
  have hk : |((27 : ℚ) : ℝ) - 27| ≤ 0 := by simp
  have a1b : |27 + (x : ℝ) * x| ≤ 36 := by rw [abs_le]; constructor <;> linarith
  have a1 := FloatErr.add hk m1 (S := 36) (e := 27 / 10 ^ 7) a1b (by norm_num)
  have m2 := FloatErr.mul hxx a1 h a1b (e := 15 / 10 ^ 6) (by norm_num)
  have hk9 : |((9 : ℚ) : ℝ) - 9| ≤ 0 := by simp
  have m3 := FloatErr.mul hk9 hxx (A := 9) (by norm_num) h (e := 17 / 10 ^ 7) (by norm_num)
  have h9 : |9 * (x : ℝ)| ≤ 27 := by rw [abs_mul, abs_of_pos (by norm_num)]; linarith
  have m4 := FloatErr.mul m3 hxx h9 h (e := 10 / 10 ^ 6) (by norm_num)
  have a2b : |27 + 9 * (x : ℝ) * x| ≤ 108 := by
    rw [abs_of_nonneg (by linarith [R_den x])]; linarith [show 9 * (x : ℝ) * x = 9 * (x * x) by ring]
  have a2 := FloatErr.add hk m4 (S := 108) (e := 17 / 10 ^ 6) a2b (by norm_num)
  unfold FastMath.tanh
  generalize fl32 (x * fl32 (27 + fl32 (x * x))) = n at *
  generalize fl32 (27 + fl32 (fl32 (9 * x) * x)) = d at *
  have hR := R_abs x h
  have hd := R_den x
  have hda := abs_le.1 a2
  have d26 : (26 : ℝ) ≤ d := by linarith
  have q : |(n : ℝ) / d - R x| ≤ 125 / 10 ^ 8 := by
    have e : (n : ℝ) / d - R x = ((n - x * (27 + x * x)) - R x * (d - (27 + 9 * x * x))) / d := by
      unfold R
      have : (d : ℝ) ≠ 0 := by linarith
      have : 27 + 9 * (x : ℝ) * x ≠ 0 := by linarith
      field_simp
      ring
    rw [e, abs_div, abs_of_pos (show (0 : ℝ) < d by linarith), div_le_iff₀ (by linarith)]
    have h1 : |R x * (d - (27 + 9 * x * x))| ≤ 1 * (17 / 10 ^ 6) := by
      rw [abs_mul]; exact mul_le_mul hR a2 (abs_nonneg _) (by norm_num)
    have h2 := abs_sub ((n : ℝ) - x * (27 + x * x)) (R x * (d - (27 + 9 * x * x)))
    linarith
  have qa := abs_le.1 q
  have Ra := abs_le.1 hR
  have e7 := FloatErr.rnd_step (n / d) (X := 1.1) (by push_cast; rw [abs_le]; constructor <;> linarith)
  push_cast at e7
  have hk2 : (1.1 : ℝ) / 2 ^ 24 + 1 / 2 ^ 149 ≤ 1 / 10 ^ 7 := by norm_num
  have e8 := abs_sub_le ((fl32 (n / d) : ℚ) : ℝ) ((n : ℝ) / d) (R x)
  linarith

end FastMath
open FastMath

/-- **C86** On `[-3, 3]` the rational approximation, rounding included, is within 0.0251 of the hyperbolic tangent. -/
theorem C86_accuracy (x : ℚ) (h : |(x : ℝ)| ≤ 3) : |((FastMath.tanh fl32 x : ℚ) : ℝ) - Real.tanh x| ≤ 251 / 10000 := by
  have e1 := abs_le.1 (tanh_round x h)
  have hx := abs_le.1 h
  have key : |R x - Real.tanh x| ≤ 25 / 1000 := by
    rcases le_total 0 (x : ℝ) with h0 | h0
    · rw [abs_le]; constructor <;> linarith [tanh_le_R x h0, R_le_tanh x h0 hx.2]
    · have a := tanh_le_R (-x) (by linarith)
      have b := R_le_tanh (-x) (by linarith) (by linarith)
      rw [R_odd, Real.tanh_neg] at a b
      rw [abs_le]; constructor <;> linarith
  have k := abs_le.1 key
  rw [abs_le]; constructor <;> linarith

/-- **C86** It is exactly odd. -/
theorem C86_odd (x : ℚ) : FastMath.tanh fl32 (-x) = -FastMath.tanh fl32 x := by
  unfold FastMath.tanh
  simp only [mul_neg, neg_mul, fl32_neg, neg_neg, neg_div]

/-- **C86** (part) On `[-3, 3]` its modulus is at most `1 + 1.4e-6`.  Missing: at most 1, which is false of the code
(`C86_bounded_violation`). -/
theorem C86_bounded_partial (x : ℚ) (h : |(x : ℝ)| ≤ 3) : |FastMath.tanh fl32 x| ≤ 1 + 14 / 10 ^ 7 := by
  have e1 := abs_le.1 (tanh_round x h)
  have r := abs_le.1 (R_abs x h)
  have : |((FastMath.tanh fl32 x : ℚ) : ℝ)| ≤ 1 + 14 / 10 ^ 7 := by rw [abs_le]; constructor <;> linarith
  rw [← Rat.cast_abs] at this
  have h2 : ((|FastMath.tanh fl32 x| : ℚ) : ℝ) ≤ ((1 + 14 / 10 ^ 7 : ℚ) : ℝ) := by push_cast at this ⊢; exact this
  exact_mod_cast h2

/-- **C86 fails**: there is a `float` below 3, namely `3 - 2^-22`, for which the approximation exceeds 1 (unlike every value
of the hyperbolic tangent). -/
theorem C86_bounded_violation : ∃ x : ℚ, Rep 24 (-149) x ∧ 0 < x ∧ x < 3 ∧ FastMath.tanh fl32 x = 1 + 1 / 2 ^ 23 := by
  refine ⟨12582911 / 2 ^ 22, ⟨12582911, -22, by norm_num, by norm_num, by norm_num⟩, by norm_num, by norm_num, ?_⟩
  unfold FastMath.tanh
  have s : fl32 (12582911 / 2 ^ 22 * (12582911 / 2 ^ 22)) = (9437183 : ℤ) * (2 : ℚ) ^ (-20 : ℤ) :=
    rnd_eq _ _ (by norm_num) (by norm_num) (by norm_num) (by norm_num [abs_lt])
  have a : fl32 (27 + (9437183 : ℤ) * (2 : ℚ) ^ (-20 : ℤ)) = (9437184 : ℤ) * (2 : ℚ) ^ (-18 : ℤ) :=
    rnd_eq _ _ (by norm_num) (by norm_num) (by norm_num) (by norm_num [abs_lt])
  have n : fl32 (12582911 / 2 ^ 22 * ((9437184 : ℤ) * (2 : ℚ) ^ (-18 : ℤ))) = (14155775 : ℤ) * (2 : ℚ) ^ (-17 : ℤ) :=
    rnd_eq _ _ (by norm_num) (by norm_num) (by norm_num) (by norm_num [abs_lt])
  have m : fl32 (9 * (12582911 / 2 ^ 22)) = (14155775 : ℤ) * (2 : ℚ) ^ (-19 : ℤ) :=
    rnd_eq _ _ (by norm_num) (by norm_num) (by norm_num) (by norm_num [abs_lt])
  have p : fl32 ((14155775 : ℤ) * (2 : ℚ) ^ (-19 : ℤ) * (12582911 / 2 ^ 22)) = (10616830 : ℤ) * (2 : ℚ) ^ (-17 : ℤ) :=
    rnd_eq _ _ (by norm_num) (by norm_num) (by norm_num) (by norm_num [abs_lt])
  have d : fl32 (27 + (10616830 : ℤ) * (2 : ℚ) ^ (-17 : ℤ)) = (14155774 : ℤ) * (2 : ℚ) ^ (-17 : ℤ) :=
    rnd_eq _ _ (by norm_num) (by norm_num) (by norm_num) (by norm_num [abs_lt])
  have q : fl32 ((14155775 : ℤ) * (2 : ℚ) ^ (-17 : ℤ) / ((14155774 : ℤ) * (2 : ℚ) ^ (-17 : ℤ))) = (8388609 : ℤ) * (2 : ℚ) ^ (-23 : ℤ) :=
    rnd_eq _ _ (by norm_num) (by norm_num) (by norm_num) (by norm_num [abs_lt])
  rw [s, a, n, m, p, d, q]
  norm_num

/-- **C86** Without rounding the approximation is increasing on the whole line and equals `tanh (3 artanh (x / 3))`, stated
here with `x = 3 tanh y`. -/
theorem C86_curve (a b : ℚ) (h : a ≤ b) : FastMath.tanh id a ≤ FastMath.tanh id b ∧
    ∀ y : ℝ, (a : ℝ) = 3 * Real.tanh y → ((FastMath.tanh id a : ℚ) : ℝ) = Real.tanh (3 * y) := by
  have e (x : ℚ) : ((FastMath.tanh id x : ℚ) : ℝ) = R x := by
    unfold FastMath.tanh R; simp only [id]; push_cast; rfl
  constructor
  · have := R_mono (a := (a : ℝ)) (b := b) (by exact_mod_cast h)
    rw [← e, ← e] at this
    exact_mod_cast this
  · intro y hy
    rw [e, tanh_three, hy]

example : |((5 / 2 : ℚ) : ℝ)| ≤ 3 := by norm_num

end Verif
