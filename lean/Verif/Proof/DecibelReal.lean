import Verif.Proof.DbTable
import Mathlib.Analysis.SpecialFunctions.Pow.NNReal
import Mathlib.Analysis.Convex.SpecificFunctions.Basic
import Mathlib.Analysis.SpecialFunctions.Exponential
/-!
# Chords of the logarithm and of the exponential
-/
namespace Verif
namespace DbTable

/-- The chord of the logarithm over `[n, n+1]` lies below it by at most `t - 1 - log t`, `t = n log (1 + 1/n)`. -/
theorem chord_log (n μ : ℝ) (hn : 0 < n) (m0 : 0 ≤ μ) (m1 : μ ≤ 1) :
    let t := n * (Real.log (n + 1) - Real.log n)
    0 ≤ Real.log (n + μ) - (Real.log n + μ * (Real.log (n + 1) - Real.log n)) ∧
    Real.log (n + μ) - (Real.log n + μ * (Real.log (n + 1) - Real.log n)) ≤ t - 1 - Real.log t := by
  intro t
  have d0 : 0 < Real.log (n + 1) - Real.log n := sub_pos.mpr (Real.log_lt_log hn (by linarith))
  constructor
  · have n1 : n + 1 ∈ Set.Ioi (0 : ℝ) := Set.mem_Ioi.mpr (by linarith)
    have := strictConcaveOn_log_Ioi.concaveOn.2 (Set.mem_Ioi.mpr hn) n1 (by linarith : (0 : ℝ) ≤ 1 - μ) m0 (by ring)
    simp only [smul_eq_mul] at this
    have e : (1 - μ) * n + μ * (n + 1) = n + μ := by ring
    rw [e] at this
    linarith
  · have ht : 0 < t := mul_pos hn d0
    have h := Real.log_le_sub_one_of_pos (x := (n + μ) * (Real.log (n + 1) - Real.log n)) (by positivity)
    rw [Real.log_mul (by positivity) d0.ne'] at h
    have e : Real.log t = Real.log n + Real.log (Real.log (n + 1) - Real.log n) := Real.log_mul hn.ne' d0.ne'
    rw [e]
    have e2 : t = n * (Real.log (n + 1) - Real.log n) := rfl
    rw [e2]
    linarith

/-- `t ≤ 1` and `1 - t ≤ 1/(2n)`. -/
theorem t_bounds (n : ℝ) (hn : 1 ≤ n) :
    n * (Real.log (n + 1) - Real.log n) ≤ 1 ∧ 1 - 1 / (2 * n) ≤ n * (Real.log (n + 1) - Real.log n) := by
  have e : Real.log (n + 1) - Real.log n = Real.log (1 + 1 / n) := by
    rw [← Real.log_div (by positivity) (by positivity)]; congr 1; field_simp
  rw [e]
  constructor
  · have := Real.log_le_sub_one_of_pos (x := 1 + 1 / n) (by positivity)
    have h : n * Real.log (1 + 1 / n) ≤ n * (1 / n) := mul_le_mul_of_nonneg_left (by linarith) (by linarith)
    rwa [mul_one_div_cancel (by positivity)] at h
  · -- the first term of the series of the inverse hyperbolic tangent
    have u1 : 1 / (2 * n + 1) < 1 := by rw [div_lt_one (by positivity)]; linarith
    have h := Real.sum_range_le_log_div (x := 1 / (2 * n + 1)) (by positivity) u1 1
    have e2 : (1 + 1 / (2 * n + 1)) / (1 - 1 / (2 * n + 1)) = 1 + 1 / n := by
      have : 1 - 1 / (2 * n + 1) ≠ 0 := by linarith
      have h3 : n ≠ 0 := by positivity
      rw [div_eq_iff this]
      field_simp
      ring
    rw [e2] at h
    simp only [Finset.sum_range_one, mul_zero, zero_add, pow_one, Nat.cast_zero, div_one] at h
    have h' : 2 / (2 * n + 1) ≤ Real.log (1 + 1 / n) := by
      have : 2 / (2 * n + 1) = 2 * (1 / (2 * n + 1)) := by ring
      linarith
    have h4 : n * (2 / (2 * n + 1)) ≤ n * Real.log (1 + 1 / n) := mul_le_mul_of_nonneg_left h' (by linarith)
    refine le_trans ?_ h4
    rw [← mul_div_assoc, le_div_iff₀ (by positivity)]
    have : (1 - 1 / (2 * n)) * (2 * n + 1) = 2 * n - 1 / (2 * n) := by field_simp; ring
    rw [this]
    have : 0 < 1 / (2 * n) := by positivity
    linarith

/-- For `t` near one. -/
theorem gap_small (t x : ℝ) (h1 : t ≤ 1) (hx : 1 - t ≤ x) (hx1 : x ≤ 1 / 16) :
    t - 1 - Real.log t ≤ x ^ 2 / 2 + 16 / 15 * x ^ 3 := by
  have h := Real.abs_log_sub_add_sum_range_le (x := 1 - t) (by rw [abs_of_nonneg] <;> linarith) 2
  rw [abs_of_nonneg (by linarith : 0 ≤ 1 - t), show 1 - (1 - t) = t by ring] at h
  simp only [Finset.sum_range_succ, Finset.range_zero, Finset.sum_empty] at h
  norm_num at h
  have h2 := (abs_le.mp h).1
  set y := 1 - t with hy
  have y0 : 0 ≤ y := by linarith
  have e : y ^ 3 / t ≤ 16 / 15 * y ^ 3 := by
    rw [div_le_iff₀ (by linarith)]
    have : 0 ≤ y ^ 3 := by positivity
    nlinarith
  have p2 : y ^ 2 ≤ x ^ 2 := pow_le_pow_left₀ y0 hx 2
  have p3 : y ^ 3 ≤ x ^ 3 := pow_le_pow_left₀ y0 hx 3
  linarith

/-- For `t ≥ log 2`. -/
theorem gap_all (t : ℝ) (h1 : t ≤ 1) (h2 : Real.log 2 ≤ t) : t - 1 - Real.log t ≤ 0.05968 := by
  have l1 := Real.log_two_gt_d9
  have l2 := Real.log_two_lt_d9
  have a : Real.log t - Real.log (Real.log 2) ≥ t - Real.log 2 := by
    have h := Real.log_le_sub_one_of_pos (x := Real.log 2 / t) (by apply div_pos <;> linarith)
    rw [Real.log_div (by linarith) (by linarith)] at h
    have : Real.log 2 / t - 1 ≤ Real.log 2 - t := by
      have h3 : t ≠ 0 := by linarith
      have e : Real.log 2 / t - 1 = (Real.log 2 - t) / t := by field_simp
      rw [e, div_le_iff₀ (by linarith)]
      nlinarith
    linarith
  have b : -Real.log (Real.log 2) ≤ 0.36653 := by
    have h := Real.log_div_le_sum_range_add (x := 0.181235) (by norm_num) (by norm_num) 4
    have h3 : Real.log ((Real.log 2)⁻¹) ≤ Real.log ((1 + 0.181235) / (1 - 0.181235)) := by
      apply Real.log_le_log (by positivity)
      rw [inv_le_comm₀ (by linarith) (by norm_num)]
      norm_num at l1 ⊢
      linarith
    rw [Real.log_inv] at h3
    simp only [Finset.sum_range_succ, Finset.range_zero, Finset.sum_empty] at h
    norm_num at h h3 ⊢
    linarith
  norm_num at *
  linarith

theorem t_ge_log_two (n : ℝ) (hn : 1 ≤ n) : Real.log 2 ≤ n * (Real.log (n + 1) - Real.log n) := by
  have e : Real.log (n + 1) - Real.log n = Real.log (1 + 1 / n) := by
    rw [← Real.log_div (by positivity) (by positivity)]; congr 1; field_simp
  rw [e, ← Real.log_rpow (by positivity)]
  apply Real.log_le_log (by norm_num)
  have := one_add_mul_self_le_rpow_one_add (s := 1 / n) (by have : 0 < 1 / n := by positivity
                                                            linarith) hn
  rw [mul_one_div_cancel (by positivity)] at this
  linarith

theorem c_bounds : 0 < 20 / Real.log 10 ∧ 20 / Real.log 10 ≤ 8.68589 := by
  have h := cst_close
  have := log_ten_bounds.1
  refine ⟨div_pos (by norm_num) (by linarith), ?_⟩
  rw [abs_le] at h
  norm_num [Cst] at h ⊢
  linarith

/-- Interpolating between two values close to `20 log10 (s n)` and `20 log10 (s (n+1))` gives a value close to
`20 log10 (s (n + μ))`. -/
theorem chord_dB (s n μ y1 y2 ε E : ℝ) (hs : 0 < s) (hn : 0 < n) (m0 : 0 ≤ μ) (m1 : μ ≤ 1)
    (h1 : |y1 - dB (s * n)| ≤ ε) (h2 : |y2 - dB (s * (n + 1))| ≤ ε)
    (hE : n * (Real.log (n + 1) - Real.log n) - 1 - Real.log (n * (Real.log (n + 1) - Real.log n)) ≤ E) :
    |(y1 + μ * (y2 - y1)) - dB (s * (n + μ))| ≤ ε + 8.68589 * E := by
  obtain ⟨c0, c1⟩ := c_bounds
  obtain ⟨g0, g1⟩ := chord_log n μ hn m0 m1
  have n1 : 0 < n + μ := by linarith
  have n2 : 0 < n + 1 := by linarith
  rw [dB_eq, Real.log_mul hs.ne' hn.ne'] at h1
  rw [dB_eq, Real.log_mul hs.ne' n2.ne'] at h2
  rw [dB_eq, Real.log_mul hs.ne' n1.ne']
  generalize 20 / Real.log 10 = c at *
  generalize Real.log s = ls at *
  set l0 := Real.log n
  set l1 := Real.log (n + 1)
  set lm := Real.log (n + μ)
  have e : (y1 + μ * (y2 - y1)) - c * (ls + lm)
      = ((1 - μ) * (y1 - c * (ls + l0)) + μ * (y2 - c * (ls + l1))) - c * (lm - (l0 + μ * (l1 - l0))) := by ring
  rw [e]
  refine (abs_sub _ _).trans (add_le_add ?_ ?_)
  · refine (abs_add_le _ _).trans ?_
    rw [abs_mul, abs_mul, abs_of_nonneg (by linarith : 0 ≤ 1 - μ), abs_of_nonneg m0]
    nlinarith
  · rw [abs_mul, abs_of_pos c0, abs_of_nonneg g0]
    exact mul_le_mul c1 (g1.trans hE) g0 (by norm_num)

theorem log_R : Real.log R = Real.log 10 / 200 := by
  unfold R; rw [Real.log_rpow (by norm_num)]; ring

/-- The chord of `10^(x/200)` over a unit interval lies above it by at most 17 parts in a million. -/
theorem chord_exp (μ : ℝ) (m0 : 0 ≤ μ) (m1 : μ ≤ 1) :
    R ^ μ ≤ 1 + μ * (R - 1) ∧ 1 + μ * (R - 1) ≤ R ^ μ * (1 + 17 / 10 ^ 6) := by
  obtain ⟨R1, R2⟩ := R_bounds
  constructor
  · have := rpow_one_add_le_one_add_mul_self (s := R - 1) (by linarith) m0 m1
    simpa using this
  · set l := Real.log R with hl
    have l0 : 0 ≤ l := Real.log_nonneg R1
    have l1 : l ≤ 0.01152 := by
      rw [hl, log_R]; have := log_ten_bounds.2; norm_num at this ⊢; linarith
    have e : R ^ μ = Real.exp (l * μ) := Real.rpow_def_of_pos R_pos μ
    have h1 := Real.quadratic_le_exp_of_nonneg (x := l * μ) (by positivity)
    rw [← e] at h1
    have h2 : R ≤ 1 + l + l ^ 2 / 2 + l ^ 3 * (4 / 18) := by
      have h := Real.exp_bound' (x := l) l0 (by linarith) (n := 3) (by norm_num)
      rw [Real.exp_log R_pos] at h
      simp only [Finset.sum_range_succ, Finset.range_zero, Finset.sum_empty] at h
      norm_num [Nat.factorial] at h
      linarith
    have h3 : 1 ≤ R ^ μ := Real.one_le_rpow R1 m0
    have ll : l ^ 2 ≤ 0.01152 ^ 2 := pow_le_pow_left₀ l0 l1 2
    have lll : l ^ 3 ≤ 0.01152 ^ 3 := pow_le_pow_left₀ l0 l1 3
    have l3 : 0 ≤ l ^ 3 := by positivity
    have l2 : 0 ≤ l ^ 2 := by positivity
    have q : μ * (1 - μ) ≤ 1 / 4 := by nlinarith [sq_nonneg (μ - 1 / 2)]
    have q0 : 0 ≤ μ * (1 - μ) := mul_nonneg m0 (by linarith)
    have a1 : μ * (R - 1) ≤ μ * (l + l ^ 2 / 2 + l ^ 3 * (4 / 18)) := mul_le_mul_of_nonneg_left (by linarith) m0
    have a2 : μ * (1 - μ) * (l ^ 2 / 2) ≤ 1 / 4 * (l ^ 2 / 2) := mul_le_mul_of_nonneg_right q (by positivity)
    have a3 : μ * (l ^ 3 * (4 / 18)) ≤ l ^ 3 * (4 / 18) := by nlinarith
    norm_num at *
    nlinarith

end DbTable
end Verif
