import Verif.Model.FastHyper
import Verif.Props.FastMathPow
import Verif.Proof.RoundCompute
import Mathlib.Analysis.SpecialFunctions.Trigonometric.DerivHyp
/-!
# The fast exponential, hyperbolic functions and natural logarithm are accurate; symmetric where they should be (C106)
-/
namespace Verif
open Rounding FastMath

namespace FastMath

theorem cErr : |fl32 (1442695040 / 10 ^ 9) - 1442695040 / 10 ^ 9| ≤ 2 / 2 ^ 24 := err_le (by norm_num [abs_le]) (by norm_num)

/-- The exponent `fasterexp` passes on. -/
theorem exp_arg {p : ℚ} (h : |p| ≤ 88) : |fl32 (fl32 (1442695040 / 10 ^ 9) * p) - 1442695040 / 10 ^ 9 * p| ≤ 2 / 100000 := by
  have hc := cErr
  generalize fl32 (1442695040 / 10 ^ 9) = c at *
  have h1 : |c * p - 1442695040 / 10 ^ 9 * p| ≤ 2 / 2 ^ 24 * 88 := by
    rw [← sub_mul, abs_mul]; exact mul_le_mul hc h (abs_nonneg _) (by norm_num)
  have hcc : |c| ≤ 3 / 2 := by rw [abs_le] at hc ⊢; norm_num at hc ⊢; constructor <;> linarith [hc.1, hc.2]
  have h2 : |fl32 (c * p) - c * p| ≤ 132 / 2 ^ 24 := by
    refine err_le ?_ (by norm_num)
    rw [abs_mul]
    calc |c| * |p| ≤ 3 / 2 * 88 := mul_le_mul hcc h (abs_nonneg _) (by norm_num)
      _ = 132 := by norm_num
  have := abs_sub_le (fl32 (c * p)) (c * p) (1442695040 / 10 ^ 9 * p)
  have e : (2 : ℚ) / 2 ^ 24 * 88 + 132 / 2 ^ 24 ≤ 2 / 100000 := by norm_num
  linarith

/-- A power of two whose exponent is nearly `p` over the logarithm of two is nearly the exponential. -/
theorem two_rpow_exp {q p : ℝ} (hp : |p| ≤ 88) (h : |q - 1442695040 / 10 ^ 9 * p| ≤ 2 / 100000) :
    (1 - 2 / 100000) * Real.exp p ≤ (2 : ℝ) ^ q ∧ (2 : ℝ) ^ q ≤ (1 + 2 / 100000) * Real.exp p := by
  have g1 := Real.log_two_gt_d9
  have g2 := Real.log_two_lt_d9
  set l := Real.log 2
  have e : (2 : ℝ) ^ q = Real.exp p * Real.exp (l * q - p) := by
    rw [← Real.exp_add, Real.rpow_def_of_pos (by norm_num)]; congr 1; ring
  have t : |l * q - p| ≤ 15 / 1000000 := by
    have a1 : |l * (q - 1442695040 / 10 ^ 9 * p)| ≤ 7 / 10 * (2 / 100000) := by
      rw [abs_mul, abs_of_pos (by linarith)]
      exact mul_le_mul (by linarith) h (abs_nonneg _) (by norm_num)
    have a2 : |(l * (1442695040 / 10 ^ 9) - 1) * p| ≤ 1 / 10 ^ 8 * 88 := by
      rw [abs_mul]
      refine mul_le_mul ?_ hp (abs_nonneg _) (by norm_num)
      rw [abs_le]; constructor <;> linarith
    have : l * q - p = l * (q - 1442695040 / 10 ^ 9 * p) + (l * (1442695040 / 10 ^ 9) - 1) * p := by ring
    rw [this]
    refine (abs_add_le _ _).trans ?_
    norm_num at a1 a2 ⊢
    linarith
  rw [abs_le] at t
  have hE := Real.exp_pos p
  have lo := Real.add_one_le_exp (l * q - p)
  have hi : Real.exp (l * q - p) ≤ 1 + 2 / 100000 := by
    have := Real.add_one_le_exp (-(l * q - p))
    rw [Real.exp_neg] at this
    have hx := Real.exp_pos (l * q - p)
    have h3 : 1 - 15 / 1000000 ≤ (Real.exp (l * q - p))⁻¹ := by linarith [t.2]
    have h4 : Real.exp (l * q - p) * (1 - 15 / 1000000) ≤ 1 := by
      calc _ ≤ Real.exp (l * q - p) * (Real.exp (l * q - p))⁻¹ := mul_le_mul_of_nonneg_left h3 hx.le
        _ = 1 := mul_inv_cancel₀ hx.ne'
    nlinarith
  rw [e]
  constructor
  · rw [mul_comm]; exact mul_le_mul_of_nonneg_left (by linarith [t.1]) hE.le
  · rw [mul_comm (1 + 2 / 100000 : ℝ)]; exact mul_le_mul_of_nonneg_left hi hE.le

end FastMath

/-- **C106** (rounding included) The fast exponential is between 4.1 % below and 2.2 % above the exponential, for arguments from -87 to 88. -/
theorem C106_exp (p : ℚ) (h0 : -87 ≤ p) (h1 : p ≤ 88) :
    ∃ r w, FastMath.exp fl32 p = .ok r ∧ f32Val r = some w ∧ 959 / 1000 * Real.exp p ≤ w ∧ (w : ℝ) ≤ 1022 / 1000 * Real.exp p := by
  have hp : |p| ≤ 88 := abs_le.2 ⟨by linarith, h1⟩
  have ha := exp_arg hp
  unfold FastMath.exp
  generalize fl32 (fl32 (1442695040 / 10 ^ 9) * p) = q at *
  have ha' := abs_le.1 ha
  norm_num at ha'
  obtain ⟨r, w, e, ev, w1, w2, -, -⟩ := C83_pow2 q (by linarith [ha'.1]) (by linarith [ha'.2])
  have hR : |((q : ℚ) : ℝ) - 1442695040 / 10 ^ 9 * p| ≤ 2 / 100000 := by
    have := (Rat.cast_le (K := ℝ)).mpr ha
    push_cast at this
    exact this
  have hpR : |((p : ℚ) : ℝ)| ≤ 88 := by exact_mod_cast hp
  obtain ⟨b1, b2⟩ := two_rpow_exp hpR hR
  have hE := Real.exp_pos (p : ℝ)
  refine ⟨r, w, e, ev, ?_, ?_⟩ <;> nlinarith

namespace FastMath

/-- Rounding to single precision, as seen from the real numbers. -/
theorem errR (x : ℚ) : |((fl32 x : ℚ) : ℝ) - x| ≤ max (|(x : ℝ)| / 2 ^ 24) (1 / 2 ^ 150) := by
  have := (Rat.cast_le (K := ℝ)).mpr (fl32_lawful.err x)
  push_cast at this
  refine this.trans (max_le_max le_rfl ?_)
  norm_num

end FastMath

/-- **C106** (rounding included) The fast hyperbolic sine is exactly odd and within 4.2 % of the hyperbolic cosine of the true value. -/
theorem C106_sinh (p : ℚ) (h : |p| ≤ 87) :
    ∃ s, FastMath.sinh fl32 p = .ok (some s) ∧ FastMath.sinh fl32 (-p) = .ok (some (-s)) ∧
      |(s : ℝ) - Real.sinh p| ≤ 42 / 1000 * Real.cosh p := by
  obtain ⟨a1, a2⟩ := abs_le.1 h
  obtain ⟨r, x, e1, v1, x1, x2⟩ := C106_exp p a1 (by linarith)
  obtain ⟨r', y, e2, v2, y1, y2⟩ := C106_exp (-p) (by linarith) (by linarith)
  push_cast at y1 y2
  refine ⟨fl32 (fl32 (1 / 2) * fl32 (x - y)), ?_, ?_, ?_⟩
  · unfold FastMath.sinh; rw [e1, e2]; simp only [bind, Except.bind, v1, v2]; rfl
  · unfold FastMath.sinh; rw [neg_neg, e1, e2]; simp only [bind, Except.bind, v1, v2]
    show Except.ok (some _) = _
    congr 2
    show fl32 (fl32 (1 / 2) * fl32 (y - x)) = _
    rw [← neg_sub x y]
    unfold fl32
    rw [rnd_neg, mul_neg, rnd_neg]
  · rw [Real.sinh_eq, Real.cosh_eq]
    have hh : fl32 (1 / 2) = 1 / 2 := fl32_lawful.fix _ ⟨1, -1, by norm_num, by norm_num, by norm_num⟩
    rw [hh]
    have q1 := errR (x - y)
    have q2 := errR (1 / 2 * fl32 (x - y))
    generalize fl32 (1 / 2 * fl32 (x - y)) = s at *
    generalize fl32 (x - y) = d at *
    push_cast at q1 q2
    generalize (s : ℝ) = s at *
    generalize (d : ℝ) = d at *
    generalize (x : ℝ) = x at *
    generalize (y : ℝ) = y at *
    have hA := Real.exp_pos (p : ℝ)
    have hB := Real.exp_pos (-p : ℝ)
    have hAB : Real.exp (p : ℝ) * Real.exp (-p : ℝ) = 1 := by rw [← Real.exp_add]; simp
    generalize Real.exp (p : ℝ) = A at *
    generalize Real.exp (-p : ℝ) = B at *
    have hs : 1 ≤ A + B := by nlinarith [sq_nonneg (A - B)]
    have k1 : |x - y| ≤ 1022 / 1000 * (A + B) := by rw [abs_le]; constructor <;> nlinarith
    have k2 : |d - (x - y)| ≤ 1 / 10 ^ 6 * (A + B) := by
      refine q1.trans (max_le ?_ ?_)
      · rw [div_le_iff₀ (by norm_num)]; norm_num; linarith
      · norm_num; linarith
    have k3 : |1 / 2 * d| ≤ A + B := by
      rw [abs_le] at k1 k2 ⊢
      norm_num at k1 k2 ⊢
      constructor <;> linarith [k1.1, k1.2, k2.1, k2.2]
    have k4 : |s - 1 / 2 * d| ≤ 1 / 10 ^ 6 * (A + B) := by
      refine q2.trans (max_le ?_ ?_)
      · rw [div_le_iff₀ (by norm_num)]; norm_num; norm_num at k3; linarith
      · norm_num; linarith
    rw [abs_le] at k2 k4 ⊢
    norm_num at k2 k4 ⊢
    constructor <;> linarith [k2.1, k2.2, k4.1, k4.2]

/-- **C106** (rounding included) The fast hyperbolic cosine is exactly even and between 4.2 % below and 2.3 % above the true value. -/
theorem C106_cosh (p : ℚ) (h : |p| ≤ 87) :
    ∃ s, FastMath.cosh fl32 p = .ok (some s) ∧ FastMath.cosh fl32 (-p) = .ok (some s) ∧
      958 / 1000 * Real.cosh p ≤ s ∧ (s : ℝ) ≤ 1023 / 1000 * Real.cosh p := by
  obtain ⟨a1, a2⟩ := abs_le.1 h
  obtain ⟨r, x, e1, v1, x1, x2⟩ := C106_exp p a1 (by linarith)
  obtain ⟨r', y, e2, v2, y1, y2⟩ := C106_exp (-p) (by linarith) (by linarith)
  push_cast at y1 y2
  refine ⟨fl32 (fl32 (1 / 2) * fl32 (x + y)), ?_, ?_, ?_⟩
  · unfold FastMath.cosh; rw [e1, e2]; simp only [bind, Except.bind, v1, v2]; rfl
  · unfold FastMath.cosh; rw [neg_neg, e1, e2]; simp only [bind, Except.bind, v1, v2]
    show Except.ok (some _) = _
    rw [add_comm]
  · rw [Real.cosh_eq]
    have hh : fl32 (1 / 2) = 1 / 2 := fl32_lawful.fix _ ⟨1, -1, by norm_num, by norm_num, by norm_num⟩
    rw [hh]
    have q1 := errR (x + y)
    have q2 := errR (1 / 2 * fl32 (x + y))
    generalize fl32 (1 / 2 * fl32 (x + y)) = s at *
    generalize fl32 (x + y) = d at *
    push_cast at q1 q2
    generalize (s : ℝ) = s at *
    generalize (d : ℝ) = d at *
    generalize (x : ℝ) = x at *
    generalize (y : ℝ) = y at *
    have hA := Real.exp_pos (p : ℝ)
    have hB := Real.exp_pos (-p : ℝ)
    have hAB : Real.exp (p : ℝ) * Real.exp (-p : ℝ) = 1 := by rw [← Real.exp_add]; simp
    generalize Real.exp (p : ℝ) = A at *
    generalize Real.exp (-p : ℝ) = B at *
    have hs : 1 ≤ A + B := by nlinarith [sq_nonneg (A - B)]
    have k1 : |x + y| ≤ 1022 / 1000 * (A + B) := by rw [abs_le]; constructor <;> nlinarith
    have k2 : |d - (x + y)| ≤ 1 / 10 ^ 6 * (A + B) := by
      refine q1.trans (max_le ?_ ?_)
      · rw [div_le_iff₀ (by norm_num)]; norm_num; linarith
      · norm_num; linarith
    have k3 : |1 / 2 * d| ≤ A + B := by
      rw [abs_le] at k1 k2 ⊢
      norm_num at k1 k2 ⊢
      constructor <;> linarith [k1.1, k1.2, k2.1, k2.2]
    have k4 : |s - 1 / 2 * d| ≤ 1 / 10 ^ 6 * (A + B) := by
      refine q2.trans (max_le ?_ ?_)
      · rw [div_le_iff₀ (by norm_num)]; norm_num; norm_num at k3; linarith
      · norm_num; linarith
    rw [abs_le] at k2 k4
    norm_num at k2 k4 ⊢
    constructor <;> linarith [k2.1, k2.2, k4.1, k4.2]

namespace FastMath

/-- Far below, `fasterpow2` is a tiny non-negative number. -/
theorem pow2_tiny {q : ℚ} (h : q ≤ -125) : ∃ r w, pow2 fl32 q = .ok r ∧ f32Val r = some w ∧ 0 ≤ w ∧ w ≤ 1 / 2 ^ 100 := by
  rcases le_or_gt q (-126) with h0 | h0
  · obtain ⟨r, w, e, -, ev, b1, b2⟩ := C83_clamp q h0
    refine ⟨r, w, e, ev, le_trans (by positivity) b1, b2.trans (by norm_num)⟩
  · obtain ⟨n, e, hn, ha⟩ := pow2_val h0.le (by linarith)
    have ha := abs_le.1 ha
    norm_num at ha
    have hn2 : n < 3 * 2 ^ 23 := by
      have : (n : ℚ) < ((3 * 2 ^ 23 : Nat) : ℚ) := by push_cast; linarith [ha.2]
      exact_mod_cast this
    refine ⟨_, _, e, val_of_toNat (by omega), mag_nonneg n, ?_⟩
    unfold f32Mag
    have hd : n / 2 ^ 23 < 3 := by omega
    have hr : n % 2 ^ 23 < 2 ^ 23 := Nat.mod_lt _ (by norm_num)
    have nz : (0 : ℚ) < 2 ^ (-149 : ℤ) := by positivity
    split
    · have : (n : ℚ) ≤ 2 ^ 25 := by exact_mod_cast (by omega : n ≤ 2 ^ 25)
      calc (n : ℚ) * 2 ^ (-149 : ℤ) ≤ 2 ^ 25 * 2 ^ (-149 : ℤ) := mul_le_mul_of_nonneg_right this nz.le
        _ ≤ 1 / 2 ^ 100 := by norm_num
    · have h1 : ((2 ^ 23 + n % 2 ^ 23 : Nat) : ℚ) ≤ 2 ^ 24 := by exact_mod_cast (by omega : 2 ^ 23 + n % 2 ^ 23 ≤ 2 ^ 24)
      have h2 : (2 : ℚ) ^ (((n / 2 ^ 23 : Nat) : ℤ) - 150) ≤ 2 ^ (-148 : ℤ) := zpow_le_zpow_right₀ (by norm_num) (by omega)
      calc _ ≤ (2 : ℚ) ^ 24 * 2 ^ (-148 : ℤ) := mul_le_mul h1 h2 (by positivity) (by positivity)
        _ ≤ 1 / 2 ^ 100 := by norm_num

theorem tanh_exp (p : ℝ) : Real.tanh p = -1 + 2 / (1 + Real.exp (-2 * p)) := by
  rw [Real.tanh_eq_sinh_div_cosh, Real.sinh_eq, Real.cosh_eq]
  have h : Real.exp (-2 * p) = Real.exp (-p) * Real.exp (-p) := by rw [← Real.exp_add]; congr 1; ring
  have h1 : Real.exp p * Real.exp (-p) = 1 := by rw [← Real.exp_add]; simp
  have a := Real.exp_pos p
  have b := Real.exp_pos (-p)
  rw [h]
  generalize Real.exp p = A at *
  generalize Real.exp (-p) = B at *
  have : B * B + 1 = B * (A + B) := by nlinarith
  field_simp
  nlinarith

/-- From the exponential on, `fastertanh`. -/
theorem tanh_tail (w : ℚ) (E : ℝ) (w0 : 0 ≤ w) (h : |2 / (1 + (w : ℝ)) - 2 / (1 + E)| ≤ 215 / 10000) :
    |fl32 (-1 + fl32 (2 / fl32 (1 + w)))| ≤ 1 ∧ |((fl32 (-1 + fl32 (2 / fl32 (1 + w))) : ℚ) : ℝ) - (-1 + 2 / (1 + E))| ≤ 22 / 1000 := by
  have L := fl32_lawful
  have r1 : Rep 24 (-149) 1 := ⟨1, 0, by norm_num, by norm_num, by norm_num⟩
  have d1 : 1 ≤ fl32 (1 + w) := L.ge_of_rep r1 (by linarith)
  have q1 := errR (1 + w)
  generalize fl32 (1 + w) = d at *
  have t0 : 0 ≤ 2 / d := by positivity
  have t2 : 2 / d ≤ 2 := by rw [div_le_iff₀ (by linarith)]; linarith
  have u0 : 0 ≤ fl32 (2 / d) := L.nonneg t0
  have u2 : fl32 (2 / d) ≤ 2 := L.le_of_rep ⟨2, 0, by norm_num, by norm_num, by norm_num⟩ t2
  have q2 := errR (2 / d)
  generalize fl32 (2 / d) = u at *
  have q3 := errR (-1 + u)
  refine ⟨L.abs_le_of_rep r1 (abs_le.2 ⟨by linarith, by linarith⟩), ?_⟩
  generalize fl32 (-1 + u) = t at *
  push_cast at q1 q2 q3
  have d1 : (1 : ℝ) ≤ d := by exact_mod_cast d1
  have w0 : (0 : ℝ) ≤ w := by exact_mod_cast w0
  have u0 : (0 : ℝ) ≤ u := by exact_mod_cast u0
  have u2 : (u : ℝ) ≤ 2 := by exact_mod_cast u2
  generalize (d : ℝ) = d at *
  generalize (w : ℝ) = w at *
  generalize (u : ℝ) = u at *
  generalize (t : ℝ) = t at *
  have k1 : |d - (1 + w)| ≤ (1 + w) / 2 ^ 24 := by
    refine q1.trans (max_le ?_ ?_)
    · rw [abs_of_nonneg (by linarith)]
    · rw [div_le_div_iff₀ (by norm_num) (by norm_num)]; norm_num; linarith
  have k2 : |2 / d - 2 / (1 + w)| ≤ 2 / 2 ^ 24 := by
    have hd : 2 / d - 2 / (1 + w) = -(2 * (d - (1 + w)) / (d * (1 + w))) := by field_simp; ring
    rw [hd, abs_neg, abs_div, abs_mul, abs_of_pos (by norm_num : (0 : ℝ) < 2), abs_of_pos (by positivity : 0 < d * (1 + w)),
      div_le_div_iff₀ (by positivity) (by norm_num)]
    have : |d - (1 + w)| * 2 ^ 24 ≤ 1 + w := by rwa [le_div_iff₀ (by norm_num)] at k1
    nlinarith
  have k3 : |u - 2 / d| ≤ 2 / 2 ^ 24 := by
    have s0 : 0 ≤ 2 / d := by positivity
    have s2 : 2 / d ≤ 2 := by rw [div_le_iff₀ (by linarith)]; linarith
    refine q2.trans (max_le ?_ (by norm_num))
    rw [abs_of_nonneg s0]
    exact div_le_div_of_nonneg_right s2 (by norm_num)
  have k4 : |t - (-1 + u)| ≤ 1 / 2 ^ 24 := by
    refine q3.trans (max_le ?_ (by norm_num))
    refine div_le_div_of_nonneg_right ?_ (by norm_num)
    rw [abs_le]; constructor <;> linarith
  generalize 2 / d = a at *
  generalize 2 / (1 + w) = b at *
  generalize 2 / (1 + E) = c at *
  rw [abs_le] at *
  norm_num at k2 k3 k4 h ⊢
  constructor <;> linarith [h.1, h.2, k2.1, k2.2, k3.1, k3.2, k4.1, k4.2]

end FastMath

/-- **C106** (rounding included) The fast hyperbolic tangent of every `float` from -43 on is between -1 and 1 and within 0.022 of the
hyperbolic tangent. -/
theorem C106_tanh_partial (p : ℚ) (hp : Rep 24 (-149) p) (h : -43 ≤ p) :
    ∃ t, fasterTanh fl32 p = .ok (some t) ∧ |t| ≤ 1 ∧ |(t : ℝ) - Real.tanh p| ≤ 22 / 1000 := by
  have hx : fl32 (-2 * p) = -2 * p := by
    obtain ⟨m, e, h1, h2, h3⟩ := hp
    exact fl32_lawful.fix _ ⟨-m, e + 1, by rwa [abs_neg], by omega, by
      rw [h3, zpow_add₀ (by norm_num)]; push_cast; ring⟩
  rw [tanh_exp]
  have hE := Real.exp_pos (-2 * (p : ℝ))
  have key : ∃ r w, FastMath.exp fl32 (-2 * p) = .ok r ∧ f32Val r = some w ∧ 0 ≤ w ∧
      |2 / (1 + (w : ℝ)) - 2 / (1 + Real.exp (-2 * (p : ℝ)))| ≤ 215 / 10000 := by
    rcases le_or_gt p (435 / 10) with h1 | h1
    · obtain ⟨r, w, e, ev, w1, w2⟩ := C106_exp (-2 * p) (by linarith) (by linarith)
      push_cast at w1 w2
      generalize Real.exp (-2 * (p : ℝ)) = E at *
      have w0 : (0 : ℝ) ≤ w := by nlinarith
      refine ⟨r, w, e, ev, by exact_mod_cast w0, ?_⟩
      generalize (w : ℝ) = w at *
      have hd : 2 / (1 + w) - 2 / (1 + E) = 2 * (E - w) / ((1 + w) * (1 + E)) := by field_simp; ring
      rw [hd, abs_div, abs_of_pos (by positivity : 0 < (1 + w) * (1 + E)), div_le_div_iff₀ (by positivity) (by norm_num), abs_mul, abs_of_pos (by norm_num : (0 : ℝ) < 2)]
      have k : |E - w| ≤ 41 / 1000 * E := by rw [abs_le]; constructor <;> linarith
      have q : E ≤ 26 / 100 * ((1 + w) * (1 + E)) := by nlinarith [sq_nonneg (E - 1), mul_le_mul_of_nonneg_right w1 (by linarith : 0 ≤ 1 + E)]
      nlinarith
    · have a : ∃ r w, FastMath.exp fl32 (-2 * p) = .ok r ∧ f32Val r = some w ∧ 0 ≤ w ∧ w ≤ 1 / 2 ^ 100 := by
        refine pow2_tiny ?_
        have hc := abs_le.1 cErr
        norm_num at hc
        have : fl32 (1442695040 / 10 ^ 9) * (-2 * p) ≤ -125 := by
          norm_num at hc ⊢
          nlinarith [hc.1, hc.2]
        exact fl32_lawful.le_of_rep ⟨-125, 0, by norm_num, by norm_num, by norm_num⟩ this
      obtain ⟨r, w, e, ev, w0, w1⟩ := a
      refine ⟨r, w, e, ev, w0, ?_⟩
      have E2 : Real.exp (-2 * (p : ℝ)) ≤ 1 / 100 := by
        have hp2 : (43 : ℝ) ≤ p := by exact_mod_cast (by linarith : (43 : ℚ) ≤ p)
        have h3 := Real.add_one_le_exp (p : ℝ)
        have h4 : Real.exp (2 * (p : ℝ)) = Real.exp p * Real.exp p := by rw [← Real.exp_add]; congr 1; ring
        rw [show (-2 : ℝ) * p = -(2 * p) by ring, Real.exp_neg, inv_eq_one_div]
        refine one_div_le_one_div_of_le (by norm_num) ?_
        rw [h4]
        nlinarith
      have w0 : (0 : ℝ) ≤ w := by exact_mod_cast w0
      have w1 : (w : ℝ) ≤ 1 / 2 ^ 100 := by
        have := (Rat.cast_le (K := ℝ)).mpr w1
        push_cast at this
        exact this
      generalize Real.exp (-2 * (p : ℝ)) = E at *
      generalize (w : ℝ) = w at *
      have hd : 2 / (1 + w) - 2 / (1 + E) = 2 * (E - w) / ((1 + w) * (1 + E)) := by field_simp; ring
      rw [hd, abs_div, abs_of_pos (by positivity : 0 < (1 + w) * (1 + E)), div_le_div_iff₀ (by positivity) (by norm_num), abs_mul, abs_of_pos (by norm_num : (0 : ℝ) < 2)]
      have k : |E - w| ≤ 1 / 100 := by rw [abs_le]; norm_num at w1 ⊢; constructor <;> linarith
      nlinarith
  obtain ⟨r, w, e, ev, w0, hw⟩ := key
  obtain ⟨t1, t2⟩ := tanh_tail w _ w0 hw
  refine ⟨_, ?_, t1, t2⟩
  unfold fasterTanh
  rw [hx, e]
  simp only [bind, Except.bind, ev]
  rfl

/-- **C106** is false for large negative arguments: at -70 the result is 1 instead of -1, and at -140 the conversion to an unsigned number
is undefined. -/
theorem C106_tanh_violation : fasterTanh fl32 (-70) = .ok (some 1) ∧ fasterTanh fl32 (-140) = .error .badFloatCast := by
  constructor
  · unfold fasterTanh FastMath.exp pow2 bias fl32
    rw [← rndc_eq]
    decide +kernel
  · unfold fasterTanh FastMath.exp pow2 bias fl32
    rw [← rndc_eq]
    decide +kernel

namespace FastMath

/-- The rounding errors of `fasterlog`. -/
theorem ln_err (n : Nat) (h : n < 2 ^ 31) :
    |fl32 (fl32 (fl32 n * fl32 (82629582881927490 / 10 ^ 24)) - fl32 (87989971088 / 10 ^ 9)) -
      ((n : ℚ) * (82629582881927490 / 10 ^ 24) - 87989971088 / 10 ^ 9)| ≤ 6 / 100000 := by
  have L := fl32_lawful
  have hq : (n : ℚ) ≤ 2 ^ 31 := by exact_mod_cast h.le
  have h0 : (0 : ℚ) ≤ n := by positivity
  have e1 : |fl32 n - n| ≤ 2 ^ 31 / 2 ^ 24 := err_le (by rw [abs_of_nonneg h0]; exact hq) (by norm_num)
  have b1 : fl32 (n : ℚ) ≤ 2 ^ 31 := L.le_of_rep ⟨1, 31, by norm_num, by norm_num, by norm_num⟩ hq
  have b0 : 0 ≤ fl32 (n : ℚ) := L.nonneg h0
  have ec : |fl32 (82629582881927490 / 10 ^ 24) - 82629582881927490 / 10 ^ 24| ≤ 9 / 10 ^ 8 / 2 ^ 24 := by
    refine (L.err _).trans (max_le ?_ (by norm_num))
    refine div_le_div_of_nonneg_right ?_ (by norm_num)
    norm_num [abs_le]
  have ed : |fl32 (87989971088 / 10 ^ 9) - 87989971088 / 10 ^ 9| ≤ 88 / 2 ^ 24 := err_le (by norm_num [abs_le]) (by norm_num)
  generalize fl32 (n : ℚ) = x at *
  generalize fl32 (82629582881927490 / 10 ^ 24) = c at *
  generalize fl32 (87989971088 / 10 ^ 9) = d at *
  have hc := abs_le.1 ec
  norm_num at hc
  have c0 : 0 ≤ c := by linarith [hc.1]
  have c1 : c ≤ 9 / 10 ^ 8 := by norm_num; linarith [hc.2]
  have p0 : 0 ≤ x * c := mul_nonneg b0 c0
  have p1 : x * c ≤ 256 := by
    calc x * c ≤ 2 ^ 31 * (9 / 10 ^ 8) := mul_le_mul b1 c1 c0 (by norm_num)
      _ ≤ 256 := by norm_num
  have e2 : |fl32 (x * c) - x * c| ≤ 256 / 2 ^ 24 := err_le (by rw [abs_of_nonneg p0]; exact p1) (by norm_num)
  have m0 : 0 ≤ fl32 (x * c) := L.nonneg p0
  have m1 : fl32 (x * c) ≤ 256 := L.le_of_rep ⟨256, 0, by norm_num, by norm_num, by norm_num⟩ p1
  generalize fl32 (x * c) = m at *
  have hd := abs_le.1 ed
  norm_num at hd
  have e3 : |fl32 (m - d) - (m - d)| ≤ 256 / 2 ^ 24 := err_le (by rw [abs_le]; constructor <;> linarith [hd.1, hd.2]) (by norm_num)
  generalize fl32 (m - d) = r at *
  have e4 : |x * c - n * (82629582881927490 / 10 ^ 24)| ≤ 2 ^ 31 / 2 ^ 24 * (9 / 10 ^ 8) + 2 ^ 31 * (9 / 10 ^ 8 / 2 ^ 24) := by
    have : x * c - n * (82629582881927490 / 10 ^ 24) = (x - n) * c + n * (c - 82629582881927490 / 10 ^ 24) := by ring
    rw [this]
    refine (abs_add_le _ _).trans (add_le_add ?_ ?_)
    · rw [abs_mul, abs_of_nonneg c0]; exact mul_le_mul e1 c1 c0 (by norm_num)
    · rw [abs_mul, abs_of_nonneg h0]; exact mul_le_mul hq ec (abs_nonneg _) (by norm_num)
  generalize (n : ℚ) * (82629582881927490 / 10 ^ 24) = y at *
  generalize x * c = z at *
  rw [abs_le] at e2 e3 e4 ⊢
  norm_num at e2 e3 e4 ⊢
  constructor <;> linarith [e2.1, e2.2, e3.1, e3.2, e4.1, e4.2, hd.1, hd.2]

end FastMath

/-- **C106** (rounding included) The fast natural logarithm of every normal positive `float` is within 0.041 of its logarithm. -/
theorem C106_log (b : BitVec 32) (v : ℚ) (hv : f32Val b = some v) (h0 : (2 : ℚ) ^ (-126 : ℤ) ≤ v) :
    |(FastMath.log fl32 b : ℝ) - Real.log v| ≤ 41 / 1000 := by
  obtain ⟨E, k, hE, hE', hk, hb, hval⟩ := val_normal hv h0
  obtain ⟨hv0, l1, l2⟩ := log_bounds (E := E) hk hval
  have he := ln_err b.toNat (by omega)
  have heR : |((FastMath.log fl32 b : ℚ) : ℝ) - ((b.toNat : ℝ) / 2 ^ 23 * (2 ^ 23 * (82629582881927490 / 10 ^ 24)) - 87989971088 / 10 ^ 9)| ≤ 6 / 100000 := by
    unfold FastMath.log
    have := (Rat.cast_le (K := ℝ)).mpr he
    rw [Rat.cast_abs] at this
    push_cast at this
    rw [show (b.toNat : ℝ) / 2 ^ 23 * (2 ^ 23 * (82629582881927490 / 10 ^ 24)) = (b.toNat : ℝ) * (82629582881927490 / 10 ^ 24) by ring]
    exact this
  rw [hb] at heR
  have z0 : 0 ≤ ((2 ^ 23 * E + k : Nat) : ℝ) / 2 ^ 23 := by positivity
  have z1 : ((2 ^ 23 * E + k : Nat) : ℝ) / 2 ^ 23 ≤ 255 := by
    rw [div_le_iff₀ (by positivity)]
    have : ((2 ^ 23 * E + k : Nat) : ℝ) ≤ ((255 * 2 ^ 23 : Nat) : ℝ) := by exact_mod_cast (by omega)
    refine this.trans (by norm_num)
  generalize ((2 ^ 23 * E + k : Nat) : ℝ) / 2 ^ 23 = z at *
  have g1 := Real.log_two_gt_d9
  have g2 := Real.log_two_lt_d9
  have hl : Real.log v = Real.logb 2 v * Real.log 2 := by rw [Real.logb, div_mul_cancel₀ _ (by linarith)]
  rw [hl]
  generalize Real.logb 2 (v : ℝ) = y at *
  generalize Real.log 2 = l at *
  have m1 : (z - 127) * l ≤ y * l := mul_le_mul_of_nonneg_right l1 (by linarith)
  have m2 : y * l ≤ (z - 127 + 866 / 10000) * l := mul_le_mul_of_nonneg_right l2 (by linarith)
  have m3 : |z * (2 ^ 23 * (82629582881927490 / 10 ^ 24)) - z * l| ≤ 255 * (1 / 10 ^ 8) := by
    rw [← mul_sub, abs_mul, abs_of_nonneg z0]
    refine mul_le_mul z1 ?_ (abs_nonneg _) (by norm_num)
    rw [abs_le]; norm_num; constructor <;> linarith
  rw [abs_le] at heR m3 ⊢
  norm_num at heR m3 ⊢
  constructor <;> nlinarith [heR.1, heR.2, m3.1, m3.2]

/-- The hypotheses are met: the fast exponential, sine and tangent at 1, the logarithm of 2. -/
example : |(1 : ℚ)| ≤ 87 ∧ Rep 24 (-149) 1 ∧ (-43 : ℚ) ≤ 1 ∧ f32Val 0x40000000#32 = some 2 ∧ (2 : ℚ) ^ (-126 : ℤ) ≤ 2 :=
  ⟨by norm_num, ⟨1, 0, by norm_num, by norm_num, by norm_num⟩, by norm_num, by decide +kernel, by norm_num⟩

end Verif
