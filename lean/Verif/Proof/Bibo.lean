import Mathlib.Analysis.Complex.Polynomial.Basic
import Mathlib.Analysis.SpecificLimits.Normed
import Mathlib.Algebra.QuadraticDiscriminant
import Mathlib.Tactic.LinearCombination
/-!
# Stability of second-order recurrences

If `|a2| < 1` and `|a1| < 1 + a2` (the Jury conditions), both roots of `z² + a1 z + a2` are inside the unit circle, and
the recurrence `y(n+2) + a1 y(n+1) + a2 y(n) = u(n)` maps bounded inputs to bounded outputs and forgets its initial
state.
-/
namespace Verif
namespace Bibo
open Filter Topology

/-- The Jury stability conditions. -/
structure Jury (a1 a2 : ℝ) : Prop where
  c0 : a2 < 1
  c1 : 0 < 1 + a1 + a2
  c2 : 0 < 1 - a1 + a2

theorem roots {a1 a2 : ℝ} (h : Jury a1 a2) :
    ∃ α β : ℂ, α + β = -(a1 : ℂ) ∧ α * β = (a2 : ℂ) ∧ ‖α‖ < 1 ∧ ‖β‖ < 1 := by
  obtain ⟨α, hα⟩ : ∃ z : ℂ, 1 * (z * z) + (a1 : ℂ) * z + (a2 : ℂ) = 0 :=
    by
    obtain ⟨s, hs⟩ := IsAlgClosed.exists_eq_mul_self (discrim (1 : ℂ) a1 a2)
    exact exists_quadratic_eq_zero one_ne_zero ⟨s, hs⟩
  refine ⟨α, -(a1 : ℂ) - α, by ring, by linear_combination -hα, ?_⟩
  have key : ∀ z : ℂ, 1 * (z * z) + (a1 : ℂ) * z + (a2 : ℂ) = 0 → ‖z‖ < 1 := by
    intro z hz
    have hre := congrArg Complex.re hz
    have him := congrArg Complex.im hz
    simp only [one_mul, Complex.add_re, Complex.mul_re, Complex.ofReal_re, Complex.ofReal_im, zero_mul, sub_zero,
      Complex.zero_re, Complex.add_im, Complex.mul_im, add_zero, Complex.zero_im] at hre him
    have hn : ‖z‖ ^ 2 = z.re ^ 2 + z.im ^ 2 := by
      rw [← Complex.normSq_eq_norm_sq, Complex.normSq_apply]; ring
    have : ‖z‖ ^ 2 < 1 := by
      rw [hn]
      obtain ⟨h0, h1, h2⟩ := h
      by_cases hi : z.im = 0
      · rw [hi] at hre ⊢
        -- real root x: (x + 1)(x - 1) < 0
        have hx : z.re ^ 2 + a1 * z.re + a2 = 0 := by nlinarith
        generalize z.re = x at *
        by_contra hc
        push Not at hc
        have hx2 : 1 ≤ x ^ 2 := by nlinarith
        rcases le_total 0 x with hp | hp
        · have : 1 ≤ x := by nlinarith
          -- other root = a2 / x <= ... ; p(1) = (1 - x)(1 - b), b = -a1 - x
          have e : (1 - x) * (1 + a1 + x) = 1 + a1 + a2 - (x ^ 2 + a1 * x + a2) := by ring
          rw [hx, sub_zero] at e
          have : 1 + a1 + x < 0 := by nlinarith
          nlinarith
        · have : x ≤ -1 := by nlinarith
          have e : (1 + x) * (1 - a1 - x) = 1 - a1 + a2 - (x ^ 2 + a1 * x + a2) := by ring
          rw [hx, sub_zero] at e
          have : 1 - a1 - x < 0 := by nlinarith
          nlinarith
      · have : 2 * z.re + a1 = 0 := by
          have : z.im * (2 * z.re + a1) = 0 := by linear_combination him
          rcases mul_eq_zero.1 this with h | h
          · exact absurd h hi
          · exact h
        nlinarith
    have hz0 := norm_nonneg z
    nlinarith
  refine ⟨key α hα, key _ (by linear_combination hα)⟩

variable {a1 a2 : ℝ}

theorem split {α β : ℂ} (h1 : α + β = -(a1 : ℂ)) (h2 : α * β = (a2 : ℂ)) (y u : ℕ → ℝ)
    (hr : ∀ n, y (n + 2) + a1 * y (n + 1) + a2 * y n = u n) (n : ℕ) :
    ((y (n + 2) : ℂ) - α * y (n + 1)) = u n + β * ((y (n + 1) : ℂ) - α * y n) := by
  have : (y (n + 2) : ℂ) = u n - a1 * y (n + 1) - a2 * y n := by
    rw [← hr n]; push_cast; ring
  rw [this, ← h2]
  linear_combination (-(y (n + 1) : ℂ)) * h1

theorem geom {β : ℂ} (hβ : ‖β‖ < 1) (v : ℕ → ℂ) (w : ℕ → ℂ) (B : ℝ) (hB : ∀ n, ‖w n‖ ≤ B)
    (hr : ∀ n, v (n + 1) = w n + β * v n) (n : ℕ) : ‖v n‖ ≤ ‖v 0‖ + B / (1 - ‖β‖) := by
  have hp : 0 < 1 - ‖β‖ := by linarith
  have hB0 : 0 ≤ B := le_trans (norm_nonneg _) (hB 0)
  induction n with
  | zero => have : 0 ≤ B / (1 - ‖β‖) := div_nonneg hB0 hp.le; linarith
  | succ n ih =>
    rw [hr n]
    have e : B + ‖β‖ * (B / (1 - ‖β‖)) = B / (1 - ‖β‖) := by field_simp; ring
    calc ‖w n + β * v n‖ ≤ ‖w n‖ + ‖β‖ * ‖v n‖ := by rw [← norm_mul]; exact norm_add_le _ _
      _ ≤ B + ‖β‖ * (‖v 0‖ + B / (1 - ‖β‖)) := add_le_add (hB n) (mul_le_mul_of_nonneg_left ih (norm_nonneg _))
      _ = ‖β‖ * ‖v 0‖ + (B + ‖β‖ * (B / (1 - ‖β‖))) := by ring
      _ = ‖β‖ * ‖v 0‖ + B / (1 - ‖β‖) := by rw [e]
      _ ≤ _ := by
        have := mul_le_mul_of_nonneg_right hβ.le (norm_nonneg (v 0))
        linarith

/-- Bounded input, bounded output: the bound depends only on the coefficients. -/
theorem bibo (h : Jury a1 a2) : ∃ K : ℝ, 0 ≤ K ∧ ∀ (y u : ℕ → ℝ) (B : ℝ),
    (∀ n, y (n + 2) + a1 * y (n + 1) + a2 * y n = u n) → (∀ n, |u n| ≤ B) →
    ∀ n, |y n| ≤ K * (B + |y 0| + |y 1|) := by
  obtain ⟨α, β, h1, h2, hα, hβ⟩ := roots h
  have pa : 0 < 1 - ‖α‖ := by linarith
  have pb : 0 < 1 - ‖β‖ := by linarith
  refine ⟨1 + (1 + 1 / (1 - ‖β‖)) / (1 - ‖α‖), by positivity, ?_⟩
  intro y u B hr hu n
  have hB0 : 0 ≤ B := le_trans (abs_nonneg _) (hu 0)
  have hv := geom hβ (fun n => (y (n + 1) : ℂ) - α * y n) (fun n => (u n : ℂ)) B
    (fun n => by rw [Complex.norm_real]; exact hu n) (fun n => split h1 h2 y u hr n)
  have hv0 : ‖((y 1 : ℂ) - α * y 0)‖ ≤ |y 1| + |y 0| := by
    calc ‖((y 1 : ℂ) - α * y 0)‖ ≤ ‖(y 1 : ℂ)‖ + ‖α * y 0‖ := norm_sub_le _ _
      _ = |y 1| + ‖α‖ * |y 0| := by rw [norm_mul, Complex.norm_real, Complex.norm_real]; rfl
      _ ≤ _ := by have := abs_nonneg (y 0); nlinarith
  have hy := geom hα (fun n => (y n : ℂ)) (fun n => (y (n + 1) : ℂ) - α * y n) (|y 1| + |y 0| + B / (1 - ‖β‖))
    (fun n => le_trans (hv n) (by simpa using hv0)) (fun n => by ring) n
  simp only [Complex.norm_real, Real.norm_eq_abs] at hy
  refine le_trans hy ?_
  have a0 := abs_nonneg (y 0)
  have a1' := abs_nonneg (y 1)
  have e1 : B / (1 - ‖β‖) = B * (1 / (1 - ‖β‖)) := by ring
  have pb' : 0 ≤ 1 / (1 - ‖β‖) := by positivity
  have : |y 1| + |y 0| + B / (1 - ‖β‖) ≤ (1 + 1 / (1 - ‖β‖)) * (B + |y 0| + |y 1|) := by
    rw [e1]; nlinarith [mul_nonneg pb' a0, mul_nonneg pb' a1']
  calc |y 0| + (|y 1| + |y 0| + B / (1 - ‖β‖)) / (1 - ‖α‖)
      ≤ (B + |y 0| + |y 1|) + ((1 + 1 / (1 - ‖β‖)) * (B + |y 0| + |y 1|)) / (1 - ‖α‖) := by
        refine add_le_add (by linarith) ?_
        exact div_le_div_of_nonneg_right this pa.le
    _ = _ := by ring

/-- With no input the output dies away, whatever the initial state. -/
theorem decay (h : Jury a1 a2) (y : ℕ → ℝ) (hr : ∀ n, y (n + 2) + a1 * y (n + 1) + a2 * y n = 0) :
    Tendsto y atTop (𝓝 0) := by
  obtain ⟨α, β, h1, h2, hα, hβ⟩ := roots h
  have hs := split h1 h2 y (fun _ => 0) hr
  set r := max (max ‖α‖ ‖β‖) (1 / 2) with hrdef
  have r1 : r < 1 := max_lt (max_lt hα hβ) (by norm_num)
  have r0 : 0 < r := lt_of_lt_of_le (by norm_num) (le_max_right _ _)
  have ra : ‖α‖ ≤ r := le_trans (le_max_left _ _) (le_max_left _ _)
  have rb : ‖β‖ ≤ r := le_trans (le_max_right _ _) (le_max_left _ _)
  set V := ‖((y 1 : ℂ) - α * y 0)‖
  have hv : ∀ n, ‖((y (n + 1) : ℂ) - α * y n)‖ ≤ r ^ n * V := by
    intro n
    induction n with
    | zero => simp [V]
    | succ n ih =>
      rw [hs n]
      simp only [Complex.ofReal_zero, zero_add, norm_mul]
      calc ‖β‖ * ‖((y (n + 1) : ℂ) - α * y n)‖ ≤ r * (r ^ n * V) :=
            mul_le_mul rb ih (norm_nonneg _) r0.le
        _ = _ := by ring
  have hy : ∀ n : ℕ, |y n| ≤ r ^ n * |y 0| + (n * r ^ n) * (V / r) := by
    intro n
    induction n with
    | zero => simp
    | succ n ih =>
      have e : (y (n + 1) : ℂ) = α * y n + ((y (n + 1) : ℂ) - α * y n) := by ring
      have : |y (n + 1)| ≤ ‖α‖ * |y n| + r ^ n * V := by
        calc |y (n + 1)| = ‖(y (n + 1) : ℂ)‖ := by rw [Complex.norm_real]; rfl
          _ = ‖α * y n + ((y (n + 1) : ℂ) - α * y n)‖ := by rw [← e]
          _ ≤ ‖α * y n‖ + ‖((y (n + 1) : ℂ) - α * y n)‖ := norm_add_le _ _
          _ ≤ ‖α‖ * |y n| + r ^ n * V := by
            rw [norm_mul, Complex.norm_real]; exact add_le_add le_rfl (hv n)
      calc |y (n + 1)| ≤ ‖α‖ * |y n| + r ^ n * V := this
        _ ≤ r * (r ^ n * |y 0| + (n * r ^ n) * (V / r)) + r ^ n * V :=
            add_le_add (mul_le_mul ra ih (abs_nonneg _) r0.le) le_rfl
        _ = _ := by push_cast; field_simp; ring
  have t1 : Tendsto (fun n : ℕ => r ^ n * |y 0| + (n * r ^ n) * (V / r)) atTop (𝓝 (0 * |y 0| + 0 * (V / r))) := by
    refine Tendsto.add ?_ ?_
    · exact (tendsto_pow_atTop_nhds_zero_of_lt_one r0.le r1).mul_const _
    · exact (tendsto_self_mul_const_pow_of_lt_one r0.le r1).mul_const _
  simp only [zero_mul, add_zero] at t1
  exact squeeze_zero_norm hy t1

end Bibo
end Verif
