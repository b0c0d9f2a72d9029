import Verif.Proof.FFT
import Verif.Proof.Rounding
import Mathlib.Analysis.Real.Pi.Bounds
import Mathlib.Analysis.Complex.ExponentialBounds
/-!
# FFT: rounding error of the transform in `double` arithmetic
-/
namespace Verif
namespace FFT
open Rounding

/-- The unit roundoff of `double`. -/
noncomputable def u : ℝ := 1 / 2 ^ 53
/-- Half the smallest positive `double`. -/
noncomputable def η : ℝ := 1 / 2 ^ 1075

theorem u_pos : 0 < u := by unfold u; positivity
theorem u_le : u ≤ 1 / 10 ^ 15 := by unfold u; norm_num
theorem η_pos : 0 < η := by unfold η; positivity
theorem η_le : η ≤ u / 10 ^ 100 := by
  unfold η u
  rw [show (1075 : ℕ) = 53 + 1022 from rfl, pow_add, ← one_div_mul_one_div]
  rw [div_eq_mul_one_div (1 / 2 ^ 53) ((10 : ℝ) ^ 100)]
  apply mul_le_mul_of_nonneg_left _ (by positivity)
  apply one_div_le_one_div_of_le (by positivity)
  have h1 : (10 : ℝ) ^ 100 ≤ (2 ^ 4) ^ 100 := pow_le_pow_left₀ (by norm_num) (by norm_num) _
  refine h1.trans ?_
  rw [← pow_mul]
  exact pow_le_pow_right₀ (by norm_num) (by norm_num)

set_option exponentiation.threshold 2000 in
theorem err64 (q : ℚ) : |((fl64 q : ℚ) : ℝ) - (q : ℝ)| ≤ u * |(q : ℝ)| + η := by
  have h := fl64_lawful.err q
  have h2 : max (|q| / 2 ^ 53) ((2 : ℚ) ^ (-1074 : ℤ) / 2) ≤ |q| / 2 ^ 53 + (2 : ℚ) ^ (-1074 : ℤ) / 2 :=
    max_le (le_add_of_nonneg_right (by positivity)) (le_add_of_nonneg_left (by positivity))
  have h3 : ((|fl64 q - q| : ℚ) : ℝ) ≤ ((|q| / 2 ^ 53 + (2 : ℚ) ^ (-1074 : ℤ) / 2 : ℚ) : ℝ) :=
    Rat.cast_le.mpr (h.trans h2)
  have e : ((2 : ℝ) ^ (-1074 : ℤ) / 2) = η := by
    unfold η
    rw [zpow_neg, show (1075 : ℕ) = 1074 + 1 from rfl, pow_succ]
    rw [show ((2 : ℝ) ^ (1074 : ℤ)) = 2 ^ (1074 : ℕ) from by rw [← zpow_natCast]; rfl]
    generalize (2 : ℝ) ^ (1074 : ℕ) = P
    rw [one_div, mul_inv]; rfl
  push_cast at h3
  rw [e] at h3
  refine h3.trans (le_of_eq ?_)
  unfold u
  ring

/-- A pair of rationals as a complex number. -/
noncomputable def cq (a : ℚ × ℚ) : ℂ := ⟨(a.1 : ℝ), (a.2 : ℝ)⟩

theorem vec (e s : ℂ) (c h : ℝ) (hc : 0 ≤ c) (hh : 0 ≤ h) (h1 : |e.re| ≤ c * |s.re| + h)
    (h2 : |e.im| ≤ c * |s.im| + h) : ‖e‖ ≤ c * ‖s‖ + 2 * h := by
  have a1 : ‖e‖ ≤ ‖(⟨c * |s.re| + h, c * |s.im| + h⟩ : ℂ)‖ := by
    rw [Complex.norm_eq_sqrt_sq_add_sq, Complex.norm_eq_sqrt_sq_add_sq]
    apply Real.sqrt_le_sqrt
    have := sq_le_sq' (by linarith [neg_abs_le |e.re|, abs_nonneg e.re, abs_nonneg s.re]) h1
    have := sq_le_sq' (by linarith [neg_abs_le |e.im|, abs_nonneg e.im, abs_nonneg s.im]) h2
    simp only [sq_abs] at *
    linarith
  have a2 : (⟨c * |s.re| + h, c * |s.im| + h⟩ : ℂ) = (c : ℂ) * ⟨|s.re|, |s.im|⟩ + ⟨h, h⟩ := by
    apply Complex.ext <;> simp
  have a3 : ‖(⟨|s.re|, |s.im|⟩ : ℂ)‖ = ‖s‖ := by
    rw [Complex.norm_eq_sqrt_sq_add_sq, Complex.norm_eq_sqrt_sq_add_sq]
    simp
  have a4 : ‖(⟨h, h⟩ : ℂ)‖ ≤ 2 * h := by
    refine (Complex.norm_le_abs_re_add_abs_im _).trans ?_
    simp only [abs_of_nonneg hh]
    linarith
  refine a1.trans ?_
  rw [a2]
  refine (norm_add_le _ _).trans ?_
  rw [norm_mul, a3, Complex.norm_of_nonneg hc]
  linarith

theorem cadd_err (a b : ℚ × ℚ) : ‖cq (cadd fl64 a b) - (cq a + cq b)‖ ≤ u * ‖cq a + cq b‖ + 2 * η := by
  apply vec _ _ _ _ u_pos.le η_pos.le
  · have := err64 (a.1 + b.1)
    simpa [cq, cadd] using this
  · have := err64 (a.2 + b.2)
    simpa [cq, cadd] using this

theorem csub_err (a b : ℚ × ℚ) : ‖cq (csub fl64 a b) - (cq a - cq b)‖ ≤ u * ‖cq a - cq b‖ + 2 * η := by
  apply vec _ _ _ _ u_pos.le η_pos.le
  · have := err64 (a.1 - b.1)
    simpa [cq, csub] using this
  · have := err64 (a.2 - b.2)
    simpa [cq, csub] using this

/-- Rounded `x*y ± z*w`. -/
theorem dot_err (p q : ℚ) (s : ℚ) (P Q : ℝ) (hP : |((fl64 p : ℚ) : ℝ) - P| ≤ u * |P| + η)
    (hQ : |((fl64 q : ℚ) : ℝ) - Q| ≤ u * |Q| + η) (hs : |s| = 1) :
    |((fl64 (fl64 p + s * fl64 q) : ℚ) : ℝ) - (P + s * Q)| ≤ (2 * u + u ^ 2) * (|P| + |Q|) + 4 * η := by
  have h := err64 (fl64 p + s * fl64 q)
  have hsr : |(s : ℝ)| = 1 := by exact_mod_cast hs
  push_cast at h
  have hs2 : |(s : ℝ) * ((fl64 q : ℚ) : ℝ) - s * Q| = |((fl64 q : ℚ) : ℝ) - Q| := by
    rw [← mul_sub, abs_mul, hsr, one_mul]
  have hs3 : |(s : ℝ) * Q| = |Q| := by rw [abs_mul, hsr, one_mul]
  have hu := u_pos
  have hu2 := u_le
  have hη := η_pos
  generalize ((fl64 (fl64 p + s * fl64 q) : ℚ) : ℝ) = R at *
  generalize ((fl64 p : ℚ) : ℝ) = p' at *
  generalize (s : ℝ) * ((fl64 q : ℚ) : ℝ) = q' at *
  have t1 : |p' + q'| ≤ |P| + |Q| + (u * |P| + η) + (u * |Q| + η) := by
    have e : p' + q' = P + s * Q + (p' - P) + (q' - s * Q) := by ring
    rw [e]
    have := abs_add_le (P + s * Q + (p' - P)) (q' - s * Q)
    have := abs_add_le (P + s * Q) (p' - P)
    have := abs_add_le P (s * Q)
    linarith
  have t2 : |R - (P + s * Q)| ≤ |R - (p' + q')| + |p' - P| + |q' - s * Q| := by
    have e : R - (P + s * Q) = R - (p' + q') + (p' - P) + (q' - s * Q) := by ring
    rw [e]
    have := abs_add_le (R - (p' + q') + (p' - P)) (q' - s * Q)
    have := abs_add_le (R - (p' + q')) (p' - P)
    linarith
  have t3 : u * |p' + q'| ≤ u * (|P| + |Q| + (u * |P| + η) + (u * |Q| + η)) :=
    mul_le_mul_of_nonneg_left t1 hu.le
  have t4 : u * η ≤ 1 / 10 ^ 15 * η := mul_le_mul_of_nonneg_right hu2 hη.le
  nlinarith [abs_nonneg P, abs_nonneg Q]

theorem prod_norm (b w : ℂ) : ‖(⟨|b.re * w.re| + |b.im * w.im|, |b.re * w.im| + |b.im * w.re|⟩ : ℂ)‖ ≤ 3 / 2 * (‖b‖ * ‖w‖) := by
  rw [Complex.norm_eq_sqrt_sq_add_sq]
  apply Real.sqrt_le_iff.mpr
  constructor
  · positivity
  · have hb : ‖b‖ ^ 2 = b.re ^ 2 + b.im ^ 2 := by rw [Complex.sq_norm, Complex.normSq_apply]; ring
    have hw : ‖w‖ ^ 2 = w.re ^ 2 + w.im ^ 2 := by rw [Complex.sq_norm, Complex.normSq_apply]; ring
    have e : (3 / 2 * (‖b‖ * ‖w‖)) ^ 2 = 9 / 4 * ((b.re ^ 2 + b.im ^ 2) * (w.re ^ 2 + w.im ^ 2)) := by
      rw [← hb, ← hw]; ring
    rw [e]
    simp only [abs_mul]
    have s1 := sq_abs b.re
    have s2 := sq_abs b.im
    have s3 := sq_abs w.re
    have s4 := sq_abs w.im
    rw [← s1, ← s2, ← s3, ← s4]
    generalize |b.re| = x
    generalize |b.im| = y
    generalize |w.re| = z
    generalize |w.im| = t
    nlinarith [sq_nonneg (x * z - y * t), sq_nonneg (x * t - y * z), sq_nonneg (x * z), sq_nonneg (x * t),
      sq_nonneg (y * z), sq_nonneg (y * t)]

theorem dot_pair (e b w : ℂ)
    (h1 : |e.re| ≤ (2 * u + u ^ 2) * (|b.re * w.re| + |b.im * w.im|) + 4 * η)
    (h2 : |e.im| ≤ (2 * u + u ^ 2) * (|b.re * w.im| + |b.im * w.re|) + 4 * η) :
    ‖e‖ ≤ 4 * u * (‖b‖ * ‖w‖) + 8 * η := by
  have hu := u_pos
  have hu2 := u_le
  have h := vec e ⟨|b.re * w.re| + |b.im * w.im|, |b.re * w.im| + |b.im * w.re|⟩ (2 * u + u ^ 2) (4 * η) (by positivity)
    (by linarith [η_pos]) (by simpa only [abs_of_nonneg (add_nonneg (abs_nonneg (b.re * w.re)) (abs_nonneg (b.im * w.im)))] using h1)
    (by simpa only [abs_of_nonneg (add_nonneg (abs_nonneg (b.re * w.im)) (abs_nonneg (b.im * w.re)))] using h2)
  have hp := prod_norm b w
  have hp2 := mul_le_mul_of_nonneg_left hp (show 0 ≤ 2 * u + u ^ 2 by positivity)
  have hbw : 0 ≤ ‖b‖ * ‖w‖ := by positivity
  have h3 : u ^ 2 ≤ u / 10 := by nlinarith
  have h4 : (2 * u + u ^ 2) * (3 / 2 * (‖b‖ * ‖w‖)) ≤ 4 * u * (‖b‖ * ‖w‖) := by
    have : (2 * u + u ^ 2) * (3 / 2) ≤ 4 * u := by linarith
    nlinarith
  linarith

theorem cmul_err (b w : ℚ × ℚ) : ‖cq (cmul fl64 b w) - cq b * cq w‖ ≤ 4 * u * (‖cq b‖ * ‖cq w‖) + 8 * η := by
  apply dot_pair
  · have h := dot_err (b.1 * w.1) (b.2 * w.2) (-1) (b.1 * w.1) (b.2 * w.2)
      (by have := err64 (b.1 * w.1); push_cast at this; exact this)
      (by have := err64 (b.2 * w.2); push_cast at this; exact this) (by norm_num)
    simp only [cq, cmul, Complex.sub_re, Complex.mul_re]
    rw [show fl64 (b.1 * w.1) - fl64 (b.2 * w.2) = fl64 (b.1 * w.1) + -1 * fl64 (b.2 * w.2) by ring,
      show (b.1 : ℝ) * w.1 - b.2 * w.2 = b.1 * w.1 + ((-1 : ℚ) : ℝ) * (b.2 * w.2) by push_cast; ring]
    exact h
  · have h := dot_err (b.1 * w.2) (b.2 * w.1) 1 (b.1 * w.2) (b.2 * w.1)
      (by have := err64 (b.1 * w.2); push_cast at this; exact this)
      (by have := err64 (b.2 * w.1); push_cast at this; exact this) (by norm_num)
    simp only [cq, cmul, Complex.sub_im, Complex.mul_im]
    rw [show fl64 (b.1 * w.2) + fl64 (b.2 * w.1) = fl64 (b.1 * w.2) + 1 * fl64 (b.2 * w.1) by ring,
      show (b.1 : ℝ) * w.2 + b.2 * w.1 = b.1 * w.2 + ((1 : ℚ) : ℝ) * (b.2 * w.1) by push_cast; ring]
    exact h

theorem cstep_eq (v w : ℚ × ℚ) : cstep fl64 v w = cadd fl64 w (cmul fl64 w v) := by
  unfold cstep cadd cmul
  simp only [Prod.mk.injEq, true_and]
  rw [add_comm (fl64 (w.2 * v.1))]

theorem cstep_err (v w : ℚ × ℚ) (hv : ‖cq v‖ ≤ 4 / 5) (hw : ‖cq w‖ ≤ 1001 / 1000) :
    ‖cq (cstep fl64 v w) - cq w * (1 + cq v)‖ ≤ 5.1 * u := by
  have hu := u_pos
  have hu2 := u_le
  have hη := η_pos
  have hη2 := η_le
  have h1 := cmul_err w v
  have h2 := cadd_err w (cmul fl64 w v)
  have hwv : ‖cq w‖ * ‖cq v‖ ≤ 1001 / 1000 * (4 / 5) := mul_le_mul hw hv (norm_nonneg _) (by norm_num)
  have h1' : ‖cq (cmul fl64 w v) - cq w * cq v‖ ≤ 3.21 * u := by
    have : 4 * u * (‖cq w‖ * ‖cq v‖) ≤ 4 * u * (1001 / 1000 * (4 / 5)) := mul_le_mul_of_nonneg_left hwv (by linarith)
    norm_num at *
    linarith
  have h3 : ‖cq w + cq (cmul fl64 w v)‖ ≤ 1.81 := by
    have e : cq w + cq (cmul fl64 w v) = cq w + cq w * cq v + (cq (cmul fl64 w v) - cq w * cq v) := by ring
    rw [e]
    have a1 := norm_add_le (cq w + cq w * cq v) (cq (cmul fl64 w v) - cq w * cq v)
    have a2 := norm_add_le (cq w) (cq w * cq v)
    rw [norm_mul] at a2
    norm_num at *
    linarith
  have e : cq (cstep fl64 v w) - cq w * (1 + cq v) = (cq (cadd fl64 w (cmul fl64 w v)) - (cq w + cq (cmul fl64 w v))) +
      (cq (cmul fl64 w v) - cq w * cq v) := by rw [cstep_eq]; ring
  rw [e]
  refine (norm_add_le _ _).trans ?_
  have h4 : u * ‖cq w + cq (cmul fl64 w v)‖ ≤ u * 1.81 := mul_le_mul_of_nonneg_left h3 hu.le
  norm_num at *
  linarith

/-- Accumulated error of the twiddle recurrence. -/
theorem twid_err (v : ℚ × ℚ) (ω : ℂ) (hω : ‖ω‖ = 1) (hv : ‖cq v‖ ≤ 4 / 5) (hδ : ‖1 + cq v - ω‖ ≤ 6.5 * u) (j : ℕ)
    (hj : j ≤ 2 ^ 29) : ‖cq (twid fl64 v j) - ω ^ j‖ ≤ 12 * j * u := by
  have hu := u_pos
  have hu2 := u_le
  induction j with
  | zero =>
    have : cq (twid fl64 v 0) = 1 := by apply Complex.ext <;> simp [twid, cq]
    rw [this]; simp
  | succ j ih =>
    have h := ih (by omega)
    have hjr : (j : ℝ) ≤ 2 ^ 29 := by exact_mod_cast (by omega : j ≤ 2 ^ 29)
    have hj0 : (0 : ℝ) ≤ j := Nat.cast_nonneg j
    have hju : (j : ℝ) * u ≤ 2 ^ 29 * (1 / 10 ^ 15) := mul_le_mul hjr hu2 hu.le (by norm_num)
    have hw : ‖cq (twid fl64 v j)‖ ≤ 1001 / 1000 := by
      have a := norm_add_le (ω ^ j) (cq (twid fl64 v j) - ω ^ j)
      rw [add_sub_cancel, norm_pow, hω, one_pow] at a
      norm_num at hju
      linarith
    have hs := cstep_err v (twid fl64 v j) hv hw
    have e : cq (twid fl64 v (j + 1)) - ω ^ (j + 1) = (cq (cstep fl64 v (twid fl64 v j)) - cq (twid fl64 v j) * (1 + cq v)) +
        cq (twid fl64 v j) * (1 + cq v - ω) + (cq (twid fl64 v j) - ω ^ j) * ω := by
      rw [twid]; ring
    rw [e]
    have a1 := norm_add_le ((cq (cstep fl64 v (twid fl64 v j)) - cq (twid fl64 v j) * (1 + cq v)) +
        cq (twid fl64 v j) * (1 + cq v - ω)) ((cq (twid fl64 v j) - ω ^ j) * ω)
    have a2 := norm_add_le (cq (cstep fl64 v (twid fl64 v j)) - cq (twid fl64 v j) * (1 + cq v))
      (cq (twid fl64 v j) * (1 + cq v - ω))
    rw [norm_mul _ ω, hω, mul_one] at a1
    rw [norm_mul] at a2
    have a3 : ‖cq (twid fl64 v j)‖ * ‖1 + cq v - ω‖ ≤ 1001 / 1000 * (6.5 * u) := mul_le_mul hw hδ (norm_nonneg _) (by norm_num)
    push_cast
    norm_num at *
    linarith

/-- One butterfly: error of the result from the errors of the two halves and of the twiddle factor. -/
theorem butterfly (e E o O w ω m R σ : ℂ) (Se So ε κ τ : ℝ) (hσ : ‖σ‖ = 1) (hω : ‖ω‖ = 1)
    (hSe : 0 ≤ Se) (hSo : 0 ≤ So) (hε0 : 0 ≤ ε) (hε : ε ≤ 1 / 10 ^ 4) (hκ : 64 * η ≤ κ) (hτ0 : 0 ≤ τ) (hτ : τ ≤ 1 / 10 ^ 3)
    (he : ‖e - E‖ ≤ ε * Se + κ) (ho : ‖o - O‖ ≤ ε * So + κ) (hO : ‖O‖ ≤ So) (hE : ‖E‖ ≤ Se)
    (hw : ‖w - ω‖ ≤ τ) (hm : ‖m - o * w‖ ≤ 4 * u * (‖o‖ * ‖w‖) + 8 * η)
    (hR : ‖R - (e + σ * m)‖ ≤ u * ‖e + σ * m‖ + 2 * η) :
    ‖R - (E + σ * (O * ω))‖ ≤ (ε + 1.0012 * τ + 5.1 * u) * (Se + So) + 4 * κ := by
  have hu := u_pos
  have hu2 := u_le
  have hη := η_pos
  have hη2 := η_le
  have hon : ‖o‖ ≤ (1 + ε) * So + κ := by
    have a := norm_add_le (o - O) O
    rw [sub_add_cancel] at a
    linarith
  have hwn : ‖w‖ ≤ 1001 / 1000 := by
    have a := norm_add_le (w - ω) ω
    rw [sub_add_cancel, hω] at a
    norm_num at *
    linarith
  -- the product
  set M := 1.0001 * So + κ with hM
  have hoM : ‖o‖ ≤ M := by
    have : ε * So ≤ 1 / 10 ^ 4 * So := mul_le_mul_of_nonneg_right hε hSo
    rw [hM]; norm_num at *; linarith
  have hκ0 : 0 ≤ κ := by linarith
  have hM0 : 0 ≤ M := by rw [hM]; linarith [mul_nonneg (show (0 : ℝ) ≤ 1.0001 by norm_num) hSo]
  have hmerr : ‖m - O * ω‖ ≤ (4.01 * u + τ) * M + 8 * η + (ε * So + κ) := by
    have e1 : m - O * ω = (m - o * w) + o * (w - ω) + (o - O) * ω := by ring
    rw [e1]
    have a1 := norm_add_le ((m - o * w) + o * (w - ω)) ((o - O) * ω)
    have a2 := norm_add_le (m - o * w) (o * (w - ω))
    rw [norm_mul _ ω, hω, mul_one] at a1
    rw [norm_mul] at a2
    have a3 : ‖o‖ * ‖w - ω‖ ≤ M * τ := mul_le_mul hoM hw (norm_nonneg _) hM0
    have a4 : ‖o‖ * ‖w‖ ≤ M * (1001 / 1000) := mul_le_mul hoM hwn (norm_nonneg _) hM0
    have a5 : 4 * u * (‖o‖ * ‖w‖) ≤ 4 * u * (M * (1001 / 1000)) := mul_le_mul_of_nonneg_left a4 (by linarith)
    have a6 : 4 * u * (M * (1001 / 1000)) = 4.004 * (u * M) := by ring
    have a7 : 0 ≤ u * M := by positivity
    have a8 : (4.01 * u + τ) * M = 4.01 * (u * M) + M * τ := by ring
    rw [a8]
    norm_num at *
    linarith
  -- the sum before the last rounding
  set G := (4.01 * u + τ) * M + 8 * η + (ε * So + κ) + (ε * Se + κ) with hG
  have hG0 : 0 ≤ G := by
    rw [hG]
    have g1 : 0 ≤ (4.01 * u + τ) * M := mul_nonneg (by norm_num at *; linarith) hM0
    have g2 : 0 ≤ ε * So := mul_nonneg hε0 hSo
    have g3 : 0 ≤ ε * Se := mul_nonneg hε0 hSe
    linarith
  have hsum : ‖e + σ * m - (E + σ * (O * ω))‖ ≤ G := by
    have e1 : e + σ * m - (E + σ * (O * ω)) = (e - E) + σ * (m - O * ω) := by ring
    rw [e1]
    have a1 := norm_add_le (e - E) (σ * (m - O * ω))
    rw [norm_mul, hσ, one_mul] at a1
    linarith
  have hexact : ‖E + σ * (O * ω)‖ ≤ Se + So := by
    have a1 := norm_add_le E (σ * (O * ω))
    rw [norm_mul, hσ, one_mul, norm_mul, hω, mul_one] at a1
    linarith
  have hsz : ‖e + σ * m‖ ≤ Se + So + G := by
    have a := norm_add_le (e + σ * m - (E + σ * (O * ω))) (E + σ * (O * ω))
    rw [sub_add_cancel] at a
    linarith
  have hfin : ‖R - (E + σ * (O * ω))‖ ≤ u * (Se + So + G) + 2 * η + G := by
    have e1 : R - (E + σ * (O * ω)) = (R - (e + σ * m)) + (e + σ * m - (E + σ * (O * ω))) := by ring
    rw [e1]
    have a1 := norm_add_le (R - (e + σ * m)) (e + σ * m - (E + σ * (O * ω)))
    have a2 := mul_le_mul_of_nonneg_left hsz hu.le
    linarith
  refine hfin.trans ?_
  -- collect
  have b1 : (4.01 * u + τ) * M = 1.0001 * ((4.01 * u + τ) * So) + (4.01 * u + τ) * κ := by rw [hM]; ring
  have b2 : (4.01 * u + τ) * κ ≤ 1 / 100 * κ := by
    apply mul_le_mul_of_nonneg_right _ hκ0
    norm_num at *; linarith
  have b3 : u * G ≤ 1 / 10 ^ 15 * G := mul_le_mul_of_nonneg_right hu2 hG0
  have b4 : G = 1.0001 * ((4.01 * u + τ) * So) + (4.01 * u + τ) * κ + 8 * η + ε * (Se + So) + 2 * κ := by
    rw [hG, b1]; ring
  have b5 : u * G = u * (1.0001 * ((4.01 * u + τ) * So)) + u * ((4.01 * u + τ) * κ + 8 * η + 2 * κ) + u * (ε * (Se + So)) := by
    rw [b4]; ring
  have hS : 0 ≤ Se + So := by linarith
  have b6 : u * (ε * (Se + So)) ≤ 1 / 10 ^ 4 * (u * (Se + So)) := by
    have : u * (ε * (Se + So)) = ε * (u * (Se + So)) := by ring
    rw [this]
    exact mul_le_mul_of_nonneg_right hε (by positivity)
  have b7 : (4.01 * u + τ) * So ≤ (4.01 * u + τ) * (Se + So) := mul_le_mul_of_nonneg_left (by linarith) (by positivity)
  have b8 : 0 ≤ (4.01 * u + τ) * (Se + So) := by positivity
  have b9 : u * (1.0001 * ((4.01 * u + τ) * So)) ≤ 1 / 10 ^ 15 * (1.0001 * ((4.01 * u + τ) * So)) :=
    mul_le_mul_of_nonneg_right hu2 (by positivity)
  have b10 : u * ((4.01 * u + τ) * κ + 8 * η + 2 * κ) ≤ 1 / 10 ^ 15 * ((4.01 * u + τ) * κ + 8 * η + 2 * κ) :=
    mul_le_mul_of_nonneg_right hu2 (by
      have : 0 ≤ (4.01 * u + τ) * κ := mul_nonneg (by norm_num at *; linarith) hκ0
      linarith)
  have b11 : (4.01 * u + τ) * (Se + So) = 4.01 * (u * (Se + So)) + τ * (Se + So) := by ring
  have b12 : 0 ≤ u * (Se + So) := by positivity
  have b13 : 0 ≤ τ * (Se + So) := by positivity
  have b14 : (ε + 1.0012 * τ + 5.1 * u) * (Se + So) = ε * (Se + So) + 1.0012 * (τ * (Se + So)) + 5.1 * (u * (Se + So)) := by ring
  have b15 : u * (Se + So + G) = u * (Se + So) + u * G := by ring
  rw [b14, b15, b5]
  generalize u * (Se + So) = X1 at *
  generalize τ * (Se + So) = X2 at *
  generalize ε * (Se + So) = X3 at *
  generalize (4.01 * u + τ) * So = X4 at *
  generalize (4.01 * u + τ) * κ = X5 at *
  norm_num at *
  linarith

/-- The accumulated relative error. -/
noncomputable def εk (k : ℕ) : ℝ := 14 * 2 ^ k * u
/-- The accumulated absolute error (underflow). -/
noncomputable def κk (k : ℕ) : ℝ := 4 * 4 ^ k * η

theorem T_err (sn : ℕ → ℕ → ℚ) (hsn : ∀ k, 3 ≤ k → k ≤ 30 →
    ‖cq (wstep fl64 sn k)‖ ≤ 4 / 5 ∧ ‖1 + cq (wstep fl64 sn k) - om k‖ ≤ 6.5 * u) :
    ∀ k, 1 ≤ k → k ≤ 30 → ∀ (x : ℕ → ℚ × ℚ) p, p < 2 ^ k →
      ‖cq (T fl64 sn k x p) - D k (fun n => cq (x n)) p‖ ≤ εk k * ∑ n ∈ Finset.range (2 ^ k), ‖cq (x n)‖ + κk k
  | 0, h, _, x, p, hp => absurd h (by norm_num)
  | 1, _, _, x, p, hp => by
    have hu := u_pos
    have hη := η_pos
    norm_num at hp
    have hs : ∑ n ∈ Finset.range (2 ^ 1), ‖cq (x n)‖ = ‖cq (x 0)‖ + ‖cq (x 1)‖ := by simp [Finset.sum_range_succ]
    rw [hs]
    have key : u * (‖cq (x 0)‖ + ‖cq (x 1)‖) + 2 * η ≤ εk 1 * (‖cq (x 0)‖ + ‖cq (x 1)‖) + κk 1 := by
      unfold εk κk
      have : 0 ≤ u * (‖cq (x 0)‖ + ‖cq (x 1)‖) := by positivity
      nlinarith
    interval_cases p
    · have h := cadd_err (x 0) (x 1)
      have h2 := norm_add_le (cq (x 0)) (cq (x 1))
      have h3 := mul_le_mul_of_nonneg_left h2 hu.le
      simp only [T, D]
      norm_num
      linarith
    · have h := csub_err (x 0) (x 1)
      have h2 := norm_sub_le (cq (x 0)) (cq (x 1))
      have h3 := mul_le_mul_of_nonneg_left h2 hu.le
      simp only [T, D]
      norm_num
      linarith
  | 2, _, _, x, p, hp => by
    have hu := u_pos
    have hu2 := u_le
    have hη := η_pos
    norm_num at hp
    have hs : ∑ n ∈ Finset.range (2 ^ 2), ‖cq (x n)‖ = ‖cq (x 0)‖ + ‖cq (x 2)‖ + (‖cq (x 1)‖ + ‖cq (x 3)‖) := by
      simp [Finset.sum_range_succ]; ring
    rw [hs]
    set S1 := ‖cq (x 0)‖ + ‖cq (x 2)‖ with hS1
    set S2 := ‖cq (x 1)‖ + ‖cq (x 3)‖ with hS2
    have hS1n : 0 ≤ S1 := by positivity
    have hS2n : 0 ≤ S2 := by positivity
    -- first stage
    have add1 : ∀ a b c : ℂ, ∀ S, ‖a - (b + c)‖ ≤ u * ‖b + c‖ + 2 * η → ‖b‖ + ‖c‖ ≤ S → ‖a - (b + c)‖ ≤ u * S + 2 * η := by
      intro a b c S h1 h2
      have := mul_le_mul_of_nonneg_left ((norm_add_le b c).trans h2) hu.le
      linarith
    have sub1 : ∀ a b c : ℂ, ∀ S, ‖a - (b - c)‖ ≤ u * ‖b - c‖ + 2 * η → ‖b‖ + ‖c‖ ≤ S → ‖a - (b - c)‖ ≤ u * S + 2 * η := by
      intro a b c S h1 h2
      have := mul_le_mul_of_nonneg_left ((norm_sub_le b c).trans h2) hu.le
      linarith
    have hA := add1 _ _ _ S1 (cadd_err (x 0) (x 2)) le_rfl
    have hB := sub1 _ _ _ S1 (csub_err (x 0) (x 2)) le_rfl
    have hC := add1 _ _ _ S2 (cadd_err (x 1) (x 3)) le_rfl
    have hE : ‖cq (fl64 ((x 1).2 - (x 3).2), fl64 ((x 3).1 - (x 1).1)) - (cq (x 1) - cq (x 3)) * -Complex.I‖ ≤ u * S2 + 2 * η := by
      have h1 : ‖cq (fl64 ((x 1).2 - (x 3).2), fl64 ((x 3).1 - (x 1).1)) - (cq (x 1) - cq (x 3)) * -Complex.I‖ ≤
          u * ‖(cq (x 1) - cq (x 3)) * -Complex.I‖ + 2 * η := by
        apply vec _ _ _ _ hu.le hη.le
        · have := err64 ((x 1).2 - (x 3).2)
          push_cast at this
          simp only [cq, Complex.sub_re, Complex.mul_re, Complex.sub_im, Complex.neg_re, Complex.neg_im, Complex.I_re, Complex.I_im]
          rw [show ((x 1).1 - (x 3).1 : ℝ) * -0 - ((x 1).2 - (x 3).2) * -1 = (x 1).2 - (x 3).2 by ring]
          exact this
        · have := err64 ((x 3).1 - (x 1).1)
          push_cast at this
          simp only [cq, Complex.sub_re, Complex.mul_im, Complex.sub_im, Complex.neg_re, Complex.neg_im, Complex.I_re, Complex.I_im]
          rw [show ((x 1).1 - (x 3).1 : ℝ) * -1 + ((x 1).2 - (x 3).2) * -0 = (x 3).1 - (x 1).1 by ring]
          exact this
      have h2 : ‖(cq (x 1) - cq (x 3)) * -Complex.I‖ ≤ S2 := by
        rw [norm_mul, norm_neg, Complex.norm_I, mul_one]
        exact norm_sub_le _ _
      have := mul_le_mul_of_nonneg_left h2 hu.le
      linarith
    -- second stage
    have fin : ∀ R a A c C σ : ℂ, ‖σ‖ = 1 → ‖a - A‖ ≤ u * S1 + 2 * η → ‖c - C‖ ≤ u * S2 + 2 * η → ‖A‖ ≤ S1 → ‖C‖ ≤ S2 →
        ‖R - (a + σ * c)‖ ≤ u * ‖a + σ * c‖ + 2 * η → ‖R - (A + σ * C)‖ ≤ εk 2 * (S1 + S2) + κk 2 := by
      intro R a A c C σ hσ ha hc hAn hCn hR
      have e1 : a + σ * c = (a - A) + σ * (c - C) + (A + σ * C) := by ring
      have a1 := norm_add_le ((a - A) + σ * (c - C)) (A + σ * C)
      have a2 := norm_add_le (a - A) (σ * (c - C))
      have a3 := norm_add_le A (σ * C)
      rw [norm_mul, hσ, one_mul] at a2 a3
      rw [← e1] at a1
      have a4 : ‖a + σ * c‖ ≤ (1 + u) * (S1 + S2) + 4 * η := by linarith
      have e2 : R - (A + σ * C) = (R - (a + σ * c)) + ((a - A) + σ * (c - C)) := by ring
      have a5 := norm_add_le (R - (a + σ * c)) ((a - A) + σ * (c - C))
      rw [← e2] at a5
      have a6 := mul_le_mul_of_nonneg_left a4 hu.le
      have a7 : u * ((1 + u) * (S1 + S2) + 4 * η) ≤ u * (2 * (S1 + S2)) + 4 * η := by
        have t1 : u * (u * (S1 + S2)) ≤ 1 * (u * (S1 + S2)) := mul_le_mul_of_nonneg_right (by norm_num at *; linarith) (by positivity)
        have t2 : u * η ≤ 1 * η := mul_le_mul_of_nonneg_right (by norm_num at *; linarith) hη.le
        nlinarith
      have a8 : 0 ≤ u * (S1 + S2) := by positivity
      unfold εk κk
      nlinarith
    have nA : ‖cq (x 0) + cq (x 2)‖ ≤ S1 := norm_add_le _ _
    have nB : ‖cq (x 0) - cq (x 2)‖ ≤ S1 := norm_sub_le _ _
    have nC : ‖cq (x 1) + cq (x 3)‖ ≤ S2 := norm_add_le _ _
    have nE : ‖(cq (x 1) - cq (x 3)) * -Complex.I‖ ≤ S2 := by
      rw [norm_mul, norm_neg, Complex.norm_I, mul_one]
      exact norm_sub_le _ _
    interval_cases p
    · have h := fin _ _ _ _ _ 1 (by simp) hA hC nA nC (by simpa using cadd_err (cadd fl64 (x 0) (x 2)) (cadd fl64 (x 1) (x 3)))
      simpa [T, D] using h
    · have h := fin _ _ _ _ _ 1 (by simp) hB hE nB nE
        (by simpa using cadd_err (csub fl64 (x 0) (x 2)) (fl64 ((x 1).2 - (x 3).2), fl64 ((x 3).1 - (x 1).1)))
      simpa [T, D, om_two] using h
    · have h := fin _ _ _ _ _ (-1) (by simp) hA hC nA nC
        (by simpa [← sub_eq_add_neg] using csub_err (cadd fl64 (x 0) (x 2)) (cadd fl64 (x 1) (x 3)))
      rw [neg_one_mul, ← sub_eq_add_neg] at h
      simpa [T, D] using h
    · have h := fin _ _ _ _ _ (-1) (by simp) hB hE nB nE
        (by simpa [← sub_eq_add_neg] using csub_err (csub fl64 (x 0) (x 2)) (fl64 ((x 1).2 - (x 3).2), fl64 ((x 3).1 - (x 1).1)))
      simpa [T, D, om_two, ← sub_eq_add_neg] using h
  | k + 3, _, hk, x, p, hp => by
    have hu := u_pos
    have hu2 := u_le
    have hη := η_pos
    have e : 2 ^ (k + 3) = 2 * 2 ^ (k + 2) := by ring
    have hm : p % 2 ^ (k + 2) < 2 ^ (k + 2) := Nat.mod_lt _ (by positivity)
    have hE := T_err sn hsn (k + 2) (by omega) (by omega) (fun n => x (2 * n)) _ hm
    have hO := T_err sn hsn (k + 2) (by omega) (by omega) (fun n => x (2 * n + 1)) _ hm
    have nE := norm_D (k + 2) (fun n => cq (x (2 * n))) _ hm
    have nO := norm_D (k + 2) (fun n => cq (x (2 * n + 1))) _ hm
    obtain ⟨hv, hδ⟩ := hsn (k + 3) (by omega) hk
    have hpow : (2 : ℕ) ^ (k + 2) ≤ 2 ^ 29 := Nat.pow_le_pow_right (by norm_num) (by omega)
    have hw := twid_err _ (om (k + 3)) (norm_om _) hv hδ (p % 2 ^ (k + 2)) (by omega)
    have hsum : ∑ n ∈ Finset.range (2 ^ (k + 3)), ‖cq (x n)‖ = ∑ n ∈ Finset.range (2 ^ (k + 2)), ‖cq (x (2 * n))‖ +
        ∑ n ∈ Finset.range (2 ^ (k + 2)), ‖cq (x (2 * n + 1))‖ := by
      rw [e, sum_even_odd_real]
    rw [hsum, T, D]
    have hP : ((2 : ℝ) ^ (k + 2)) ≤ 2 ^ 29 := by exact_mod_cast hpow
    have hP4 : (4 : ℝ) ≤ 2 ^ (k + 2) := by
      have : (2 : ℝ) ^ 2 ≤ 2 ^ (k + 2) := pow_le_pow_right₀ (by norm_num) (by omega)
      linarith
    have hQ4 : (16 : ℝ) ≤ 4 ^ (k + 2) := by
      have : (4 : ℝ) ^ 2 ≤ 4 ^ (k + 2) := pow_le_pow_right₀ (by norm_num) (by omega)
      linarith
    have hPu : (2 : ℝ) ^ (k + 2) * u ≤ 2 ^ 29 * (1 / 10 ^ 15) := mul_le_mul hP hu2 hu.le (by norm_num)
    have hε0 : 0 ≤ εk (k + 2) := by unfold εk; positivity
    have hε : εk (k + 2) ≤ 1 / 10 ^ 4 := by
      unfold εk
      have : 14 * (2 : ℝ) ^ (k + 2) * u = 14 * ((2 : ℝ) ^ (k + 2) * u) := by ring
      rw [this]
      generalize (2 : ℝ) ^ (k + 2) * u = X at *
      norm_num at *
      linarith
    have hκ : 64 * η ≤ κk (k + 2) := by
      unfold κk
      have := mul_le_mul_of_nonneg_right hQ4 hη.le
      linarith
    set τ : ℝ := 12 * 2 ^ (k + 2) * u with hτd
    have hτ0 : 0 ≤ τ := by positivity
    have hτ : τ ≤ 1 / 10 ^ 3 := by
      have : τ = 12 * ((2 : ℝ) ^ (k + 2) * u) := by rw [hτd]; ring
      rw [this]
      generalize (2 : ℝ) ^ (k + 2) * u = X at *
      norm_num at *
      linarith
    have hwτ : ‖cq (twid fl64 (wstep fl64 sn (k + 3)) (p % 2 ^ (k + 2))) - om (k + 3) ^ (p % 2 ^ (k + 2))‖ ≤ τ := by
      refine hw.trans ?_
      rw [hτd]
      apply mul_le_mul_of_nonneg_right _ hu.le
      apply mul_le_mul_of_nonneg_left _ (by norm_num)
      exact_mod_cast hm.le
    set Se := ∑ n ∈ Finset.range (2 ^ (k + 2)), ‖cq (x (2 * n))‖
    set So := ∑ n ∈ Finset.range (2 ^ (k + 2)), ‖cq (x (2 * n + 1))‖
    have hSe : 0 ≤ Se := Finset.sum_nonneg fun _ _ => norm_nonneg _
    have hSo : 0 ≤ So := Finset.sum_nonneg fun _ _ => norm_nonneg _
    have hfin : (εk (k + 2) + 1.0012 * τ + 5.1 * u) * (Se + So) + 4 * κk (k + 2) ≤ εk (k + 3) * (Se + So) + κk (k + 3) := by
      have h1 : 4 * κk (k + 2) = κk (k + 3) := by unfold κk; ring
      have h2 : εk (k + 2) + 1.0012 * τ + 5.1 * u ≤ εk (k + 3) := by
        have h3 : εk (k + 3) = 2 * εk (k + 2) := by unfold εk; ring
        have h4 : εk (k + 2) = 14 * (2 ^ (k + 2) * u) := by unfold εk; ring
        have h5 : τ = 12 * (2 ^ (k + 2) * u) := by rw [hτd]; ring
        have h6 : 4 * u ≤ 2 ^ (k + 2) * u := mul_le_mul_of_nonneg_right hP4 hu.le
        rw [h3, h4, h5]
        generalize (2 : ℝ) ^ (k + 2) * u = X at *
        norm_num
        linarith
      have := mul_le_mul_of_nonneg_right h2 (add_nonneg hSe hSo)
      linarith
    have hωn : ‖om (k + 3) ^ (p % 2 ^ (k + 2))‖ = 1 := by rw [norm_pow, norm_om, one_pow]
    refine le_trans ?_ hfin
    split_ifs
    · have h := butterfly _ _ _ _ _ _ _ (cq (cadd fl64 (T fl64 sn (k + 2) (fun n => x (2 * n)) (p % 2 ^ (k + 2)))
        (cmul fl64 (T fl64 sn (k + 2) (fun n => x (2 * n + 1)) (p % 2 ^ (k + 2)))
          (twid fl64 (wstep fl64 sn (k + 3)) (p % 2 ^ (k + 2)))))) 1 Se So (εk (k + 2)) (κk (k + 2)) τ (by simp) hωn hSe hSo hε0 hε hκ hτ0 hτ
        hE hO nO nE hwτ (cmul_err _ _) (by rw [one_mul]; exact cadd_err _ _)
      rw [one_mul] at h
      exact h
    · have h := butterfly _ _ _ _ _ _ _ (cq (csub fl64 (T fl64 sn (k + 2) (fun n => x (2 * n)) (p % 2 ^ (k + 2)))
        (cmul fl64 (T fl64 sn (k + 2) (fun n => x (2 * n + 1)) (p % 2 ^ (k + 2)))
          (twid fl64 (wstep fl64 sn (k + 3)) (p % 2 ^ (k + 2)))))) (-1) Se So (εk (k + 2)) (κk (k + 2)) τ (by simp) hωn hSe hSo hε0 hε hκ hτ0 hτ
        hE hO nO nE hwτ (cmul_err _ _) (by rw [neg_one_mul, ← sub_eq_add_neg]; exact csub_err _ _)
      rw [neg_one_mul, ← sub_eq_add_neg] at h
      exact h

end FFT
end Verif
