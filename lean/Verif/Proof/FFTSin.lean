import Verif.Proof.FFTRound
/-!
# FFT: accuracy of the compile-time sine
-/
namespace Verif
namespace FFT
open Rounding

/-- The `double` nearest to the literal, from above or below, is within `1.3e-16` of it. -/
theorem pi_err : |((fl64 piLiteral : ℚ) : ℝ) - Real.pi| ≤ 1.3 / 10 ^ 16 := by
  have h := fl64_lawful.nearest piLiteral (884279719003555 / 281474976710656)
    ⟨884279719003555, -48, by norm_num, by norm_num, by norm_num⟩
  have h1 : |(884279719003555 / 281474976710656 : ℚ) - piLiteral| ≤ 1.2247 / 10 ^ 16 := by
    rw [abs_le]; unfold piLiteral; norm_num
  have h2 : ((|fl64 piLiteral - piLiteral| : ℚ) : ℝ) ≤ ((1.2247 / 10 ^ 16 : ℚ) : ℝ) := Rat.cast_le.mpr (h.trans h1)
  rw [Rat.cast_abs, Rat.cast_sub] at h2
  have h3 : |((piLiteral : ℚ) : ℝ) - Real.pi| ≤ 1 / 10 ^ 19 := by
    have a1 := Real.pi_gt_d20
    have a2 := Real.pi_lt_d20
    unfold piLiteral
    push_cast
    rw [abs_le]
    constructor <;> norm_num at * <;> linarith
  have h4 := abs_add_le (((fl64 piLiteral : ℚ) : ℝ) - piLiteral) (piLiteral - Real.pi)
  rw [sub_add_sub_cancel] at h4
  push_cast at h2
  norm_num at *
  linarith

theorem pi_ge : (3 : ℚ) ≤ fl64 piLiteral :=
  fl64_lawful.ge_of_rep ⟨3, 0, by norm_num, by norm_num, by norm_num⟩ (by unfold piLiteral; norm_num)

/-- Multiplying or dividing the constant by a moderate power of two is exact. -/
theorem rep_pi_scale (c : ℤ) (hc : -1000 ≤ c) : Rep 53 (-1074) (fl64 piLiteral * (2 : ℚ) ^ c) := by
  obtain ⟨m, e, hm, he, hx⟩ := fl64_lawful.rep piLiteral
  have h3 := pi_ge
  have hem : -60 ≤ e := by
    by_contra hlt
    have h1 : (2 : ℚ) ^ e ≤ 2 ^ (-60 : ℤ) := zpow_le_zpow_right₀ (by norm_num) (by omega)
    have h2 : (m : ℚ) ≤ 2 ^ 53 := by
      have := (abs_le.mp hm).2
      exact_mod_cast this
    have h4 : (0 : ℚ) < 2 ^ e := zpow_pos (by norm_num) e
    have h5 : (m : ℚ) * 2 ^ e ≤ 2 ^ 53 * 2 ^ (-60 : ℤ) := by
      calc (m : ℚ) * 2 ^ e ≤ 2 ^ 53 * 2 ^ e := mul_le_mul_of_nonneg_right h2 h4.le
        _ ≤ 2 ^ 53 * 2 ^ (-60 : ℤ) := mul_le_mul_of_nonneg_left h1 (by norm_num)
    rw [← hx] at h5
    norm_num at h5
    linarith
  refine ⟨m, e + c, hm, by omega, ?_⟩
  rw [hx, zpow_add₀ (by norm_num)]
  ring

theorem angle_exact (k a : ℕ) (hk : k ≤ 30) (ha : a ≤ 1) :
    angle fl64 (fl64 piLiteral) (2 ^ k) (2 ^ a) = 2 ^ a * fl64 piLiteral / 2 ^ k := by
  unfold angle
  have h1 : fl64 (((2 ^ a : ℕ) : ℚ) * fl64 piLiteral) = 2 ^ a * fl64 piLiteral := by
    rw [fl64_lawful.fix]
    · push_cast; rfl
    · have := rep_pi_scale a (by omega)
      rw [zpow_natCast, mul_comm] at this
      exact_mod_cast this
  rw [h1]
  have h2 : (2 : ℚ) ^ a * fl64 piLiteral / ((2 ^ k : ℕ) : ℚ) = fl64 piLiteral * (2 : ℚ) ^ ((a : ℤ) - k) := by
    rw [zpow_sub₀ (by norm_num), zpow_natCast, zpow_natCast]
    push_cast
    ring
  rw [h2, fl64_lawful.fix _ (rep_pi_scale _ (by omega)), ← h2]
  push_cast
  rfl

/-- The exact series. -/
noncomputable def S (n M : ℕ) (X : ℝ) : ℝ := sin_cos_series id n M X

theorem S_succ (n M : ℕ) (X : ℝ) : S (n + 1) M X = 1 - X * X / M / (M + 1 : ℕ) * S n (M + 2) X := rfl

theorem series_step (X M L q1 q2 q3 q4 q5 s' S' v w : ℝ) (hv : 0 < v) (hv2 : v ≤ 1 / 10 ^ 15) (hw : 0 < w) (hw2 : w ≤ v / 1000)
    (hX0 : 0 ≤ X) (hX1 : X ≤ 786 / 1000) (hM : 2 ≤ M) (hL : 3 ≤ L)
    (e1 : |q1 - X * X| ≤ v * |X * X| + w) (e2 : |q2 - q1 / M| ≤ v * |q1 / M| + w) (e3 : |q3 - q2 / L| ≤ v * |q2 / L| + w)
    (e4 : |q4 - q3 * s'| ≤ v * |q3 * s'| + w) (e5 : |q5 - (1 - q4)| ≤ v * |1 - q4| + w)
    (ih : |s' - S'| ≤ 2 * v) (hS0 : 0 ≤ S') (hS1 : S' ≤ 1) :
    |q5 - (1 - X * X / M / L * S')| ≤ 2 * v ∧ 0 ≤ 1 - X * X / M / L * S' ∧ 1 - X * X / M / L * S' ≤ 1 := by
  have hy : X * X ≤ 618 / 1000 := by nlinarith
  have hy0 : 0 ≤ X * X := by positivity
  rw [abs_of_nonneg hy0] at e1
  have hv3 : v ≤ 1 / 10000 := hv2.trans (by norm_num)
  clear hv2
  have b1 : |q1 - X * X| ≤ 63 / 100 * v := by
    have : v * (X * X) ≤ v * (618 / 1000) := mul_le_mul_of_nonneg_left hy hv.le
    linarith
  have d2 : |q1 / M - X * X / M| ≤ 315 / 1000 * v := by
    rw [← sub_div, abs_div, abs_of_pos (show (0 : ℝ) < M by linarith), div_le_iff₀ (by linarith)]
    nlinarith
  have v2 : X * X / M ≤ 309 / 1000 := by rw [div_le_iff₀ (by linarith)]; linarith
  have v20 : 0 ≤ X * X / M := by positivity
  have n2 : |q1 / M| ≤ 31 / 100 := by
    have := abs_le.mp d2
    rw [abs_le]; constructor <;> linarith
  have b2 : |q2 - X * X / M| ≤ 63 / 100 * v := by
    have t := abs_add_le (q2 - q1 / M) (q1 / M - X * X / M)
    rw [sub_add_sub_cancel] at t
    have : v * |q1 / M| ≤ v * (31 / 100) := mul_le_mul_of_nonneg_left n2 hv.le
    linarith
  have d3 : |q2 / L - X * X / M / L| ≤ 21 / 100 * v := by
    rw [← sub_div, abs_div, abs_of_pos (show (0 : ℝ) < L by linarith), div_le_iff₀ (by linarith)]
    nlinarith
  have v3 : X * X / M / L ≤ 103 / 1000 := by rw [div_le_iff₀ (by linarith)]; linarith
  have v30 : 0 ≤ X * X / M / L := by positivity
  generalize X * X / M / L = y at *
  have n3 : |q2 / L| ≤ 104 / 1000 := by
    have := abs_le.mp d3
    rw [abs_le]; constructor <;> linarith
  have b3 : |q3 - y| ≤ 32 / 100 * v := by
    have t := abs_add_le (q3 - q2 / L) (q2 / L - y)
    rw [sub_add_sub_cancel] at t
    have : v * |q2 / L| ≤ v * (104 / 1000) := mul_le_mul_of_nonneg_left n3 hv.le
    linarith
  have ns : |s'| ≤ 1001 / 1000 := by
    have := abs_le.mp ih
    rw [abs_le]; constructor <;> linarith
  have d4 : |q3 * s' - y * S'| ≤ 53 / 100 * v := by
    have e : q3 * s' - y * S' = (q3 - y) * s' + y * (s' - S') := by ring
    rw [e]
    have t := abs_add_le ((q3 - y) * s') (y * (s' - S'))
    rw [abs_mul, abs_mul, abs_of_nonneg v30] at t
    have t1 : |q3 - y| * |s'| ≤ 32 / 100 * v * (1001 / 1000) := mul_le_mul b3 ns (abs_nonneg _) (by linarith)
    have t2 : y * |s' - S'| ≤ 103 / 1000 * (2 * v) := mul_le_mul v3 ih (abs_nonneg _) (by norm_num)
    linarith
  have vy0 : 0 ≤ y * S' := mul_nonneg v30 hS0
  have vy1 : y * S' ≤ 103 / 1000 := by
    have := mul_le_mul v3 hS1 hS0 (by norm_num)
    linarith
  have n4 : |q3 * s'| ≤ 104 / 1000 := by
    have := abs_le.mp d4
    rw [abs_le]; constructor <;> linarith
  have b4 : |q4 - y * S'| ≤ 64 / 100 * v := by
    have t := abs_add_le (q4 - q3 * s') (q3 * s' - y * S')
    rw [sub_add_sub_cancel] at t
    have : v * |q3 * s'| ≤ v * (104 / 1000) := mul_le_mul_of_nonneg_left n4 hv.le
    linarith
  have n5 : |1 - q4| ≤ 101 / 100 := by
    have := abs_le.mp b4
    rw [abs_le]; constructor <;> linarith
  refine ⟨?_, by linarith, by linarith⟩
  have t := abs_add_le (q5 - (1 - q4)) ((1 - q4) - (1 - y * S'))
  rw [sub_add_sub_cancel] at t
  have t2 : |1 - q4 - (1 - y * S')| = |q4 - y * S'| := by
    rw [← abs_neg]; congr 1; ring
  have t3 : v * |1 - q4| ≤ v * (101 / 100) := mul_le_mul_of_nonneg_left n5 hv.le
  rw [t2] at t
  linarith

theorem η_le' : η ≤ u / 1000 := by
  have := η_le
  have : u / 10 ^ 100 ≤ u / 1000 := div_le_div_of_nonneg_left u_pos.le (by norm_num) (by norm_num)
  linarith

theorem series_err (x : ℚ) (h0 : 0 ≤ x) (h1 : (x : ℝ) ≤ 786 / 1000) : ∀ n M : ℕ, 2 ≤ M →
    |((sin_cos_series fl64 n M x : ℚ) : ℝ) - S n M x| ≤ 2 * u ∧ 0 ≤ S n M x ∧ S n M x ≤ 1
  | 0, M, hM => by
    have hu := u_pos
    simp [S, sin_cos_series]
    exact hu.le
  | n + 1, M, hM => by
    obtain ⟨ih, hS0, hS1⟩ := series_err x h0 h1 n (M + 2) (by omega)
    rw [S_succ]
    have e1 := err64 (x * x)
    have e2 := err64 (fl64 (x * x) / M)
    have e3 := err64 (fl64 (fl64 (x * x) / M) / (M + 1 : ℕ))
    have e4 := err64 (fl64 (fl64 (fl64 (x * x) / M) / (M + 1 : ℕ)) * sin_cos_series fl64 n (M + 2) x)
    have e5 := err64 (1 - fl64 (fl64 (fl64 (fl64 (x * x) / M) / (M + 1 : ℕ)) * sin_cos_series fl64 n (M + 2) x))
    rw [Rat.cast_mul] at e1 e4
    rw [Rat.cast_div, Rat.cast_natCast] at e2 e3
    rw [Rat.cast_sub, Rat.cast_one] at e5
    exact series_step x M (M + 1 : ℕ) _ _ _ _ _ _ _ u η u_pos u_le η_pos η_le' (by exact_mod_cast h0) h1
      (by exact_mod_cast hM) (by exact_mod_cast (by omega : 3 ≤ M + 1)) e1 e2 e3 e4 e5 ih hS0 hS1

theorem xI_even (X : ℝ) (j : ℕ) : ((X : ℂ) * Complex.I) ^ (2 * j) = (((-1) ^ j * X ^ (2 * j) : ℝ) : ℂ) := by
  rw [pow_mul, mul_pow, Complex.I_sq]
  push_cast
  rw [pow_mul, ← mul_pow]
  congr 1; ring

theorem taylor_sin (X : ℝ) (h0 : 0 ≤ X) (h1 : X ≤ 1) : |X * S 16 2 X - Real.sin X| ≤ X / 10 ^ 38 := by
  have hn : ‖(X : ℂ) * Complex.I‖ = X := by
    rw [norm_mul, Complex.norm_I, mul_one, Complex.norm_of_nonneg h0]
  have hb := Complex.exp_bound (x := (X : ℂ) * Complex.I) (by rw [hn]; exact h1) (n := 35) (by norm_num)
  rw [hn] at hb
  have him := (Complex.abs_im_le_norm _).trans hb
  have e1 : (Complex.exp ((X : ℂ) * Complex.I)).im = Real.sin X := by
    rw [Complex.exp_ofReal_mul_I_im]
  have e2 : (∑ m ∈ Finset.range 35, ((X : ℂ) * Complex.I) ^ m / (m.factorial : ℂ)).im = X * S 16 2 X := by
    have hodd : ∀ j, (((X : ℂ) * Complex.I) ^ (2 * j + 1) / ((2 * j + 1).factorial : ℂ)).im =
        (-1) ^ j * X ^ (2 * j + 1) / ((2 * j + 1).factorial : ℝ) := by
      intro j
      rw [pow_succ, xI_even, show ((2 * j + 1).factorial : ℂ) = (((2 * j + 1).factorial : ℝ) : ℂ) by push_cast; rfl,
        Complex.div_ofReal_im]
      congr 1
      rw [← mul_assoc, ← Complex.ofReal_mul, Complex.im_ofReal_mul, Complex.I_im]
      ring
    have heven : ∀ j, (((X : ℂ) * Complex.I) ^ (2 * j) / ((2 * j).factorial : ℂ)).im = 0 := by
      intro j
      rw [xI_even, show ((2 * j).factorial : ℂ) = (((2 * j).factorial : ℝ) : ℂ) by push_cast; rfl,
        Complex.div_ofReal_im, Complex.ofReal_im, zero_div]
    rw [show (35 : ℕ) = 2 * 17 + 1 from rfl, Finset.sum_range_succ, Complex.add_im, heven, add_zero, sum_even_odd,
      Complex.add_im, Complex.im_sum, Complex.im_sum]
    simp only [heven, hodd]
    simp only [S, sin_cos_series, id, Finset.sum_range_succ, Finset.sum_range_zero, Nat.factorial]
    push_cast
    ring
  rw [Complex.sub_im, e1, e2, abs_sub_comm] at him
  refine him.trans ?_
  have h34 : X ^ 35 ≤ X := by
    have := pow_le_pow_of_le_one h0 h1 (show 1 ≤ 35 by norm_num)
    simpa using this
  have hc : ((Nat.succ 35 : ℕ) : ℝ) * (((35 : ℕ).factorial : ℝ) * ((35 : ℕ) : ℝ))⁻¹ ≤ 1 / 10 ^ 38 := by
    simp only [Nat.factorial]
    norm_num
  calc X ^ 35 * (((Nat.succ 35 : ℕ) : ℝ) * (((35 : ℕ).factorial : ℝ) * ((35 : ℕ) : ℝ))⁻¹) ≤ X * (1 / 10 ^ 38) :=
        mul_le_mul h34 hc (by positivity) h0
    _ = X / 10 ^ 38 := by ring

/-- The sines of the code. -/
abbrev sn64 : ℕ → ℕ → ℚ := sinSeries fl64 (fl64 piLiteral)

theorem sn_err (k a : ℕ) (hk3 : 3 ≤ k) (hk : k ≤ 30) (ha : a ≤ 1) :
    |((sn64 (2 ^ k) (2 ^ a) : ℚ) : ℝ) - Real.sin (2 ^ a * Real.pi / 2 ^ k)| ≤ 36 / 10 * u * (2 ^ a * Real.pi / 2 ^ k) := by
  have hu := u_pos
  have hη := η_pos
  have hη2 := η_le
  set t : ℝ := 2 ^ a / 2 ^ k with ht
  have ha2 : (2 : ℝ) ^ a ≤ 2 := by
    have : (2 : ℝ) ^ a ≤ 2 ^ 1 := pow_le_pow_right₀ (by norm_num) ha
    linarith
  have ha1 : (1 : ℝ) ≤ 2 ^ a := one_le_pow₀ (by norm_num)
  have hk8 : (8 : ℝ) ≤ 2 ^ k := by
    have : (2 : ℝ) ^ 3 ≤ 2 ^ k := pow_le_pow_right₀ (by norm_num) hk3
    linarith
  have hk30 : (2 : ℝ) ^ k ≤ 2 ^ 30 := pow_le_pow_right₀ (by norm_num) hk
  have ht1 : t ≤ 1 / 4 := by
    rw [ht, div_le_iff₀ (by positivity)]; linarith
  have ht0 : 1 / 2 ^ 30 ≤ t := by
    rw [ht]
    exact div_le_div₀ (by positivity) ha1 (by positivity) hk30
  have htp : 0 < t := lt_of_lt_of_le (by positivity) ht0
  have hx : 2 ^ a * Real.pi / 2 ^ k = t * Real.pi := by rw [ht]; ring
  rw [hx]
  have hpi1 := Real.pi_gt_d20
  have hpi2 := Real.pi_lt_d20
  have hpe := pi_err
  have hang := angle_exact k a hk ha
  set x : ℚ := angle fl64 (fl64 piLiteral) (2 ^ k) (2 ^ a) with hxq
  have hX : (x : ℝ) = t * ((fl64 piLiteral : ℚ) : ℝ) := by
    rw [hang, ht]; push_cast; ring
  have hsn : sn64 (2 ^ k) (2 ^ a) = fl64 (x * sin_cos_series fl64 16 2 x) := rfl
  set P : ℝ := ((fl64 piLiteral : ℚ) : ℝ) with hP
  have hPb := abs_le.mp hpe
  have hdX : |(x : ℝ) - t * Real.pi| ≤ 4 / 10 * u * (t * Real.pi) := by
    rw [hX, ← mul_sub, abs_mul, abs_of_pos htp]
    have h1 : 1.3 / 10 ^ 16 ≤ 4 / 10 * u * Real.pi := by
      unfold u
      norm_num at *
      linarith
    calc t * |P - Real.pi| ≤ t * (4 / 10 * u * Real.pi) := mul_le_mul_of_nonneg_left (hpe.trans h1) htp.le
      _ = 4 / 10 * u * (t * Real.pi) := by ring
  have hP0 : 3 ≤ P := by norm_num at *; linarith
  have hP1 : P ≤ 31416 / 10000 := by norm_num at *; linarith
  have hX0 : 0 ≤ (x : ℝ) := by rw [hX]; positivity
  have hX1 : (x : ℝ) ≤ 786 / 1000 := by
    rw [hX]
    have := mul_le_mul ht1 hP1 (by linarith) (by norm_num)
    linarith
  obtain ⟨hs, hS0, hS1⟩ := series_err x (by exact_mod_cast hX0) hX1 16 2 le_rfl
  have hT := taylor_sin x hX0 (by linarith)
  have e := err64 (x * sin_cos_series fl64 16 2 x)
  rw [← hsn, Rat.cast_mul] at e
  have hsin : |Real.sin x - Real.sin (t * Real.pi)| ≤ |(x : ℝ) - t * Real.pi| := by
    have := Real.abs_sin_sub_sin_le (x : ℝ) (t * Real.pi)
    exact this
  set s : ℝ := ((sin_cos_series fl64 16 2 x : ℚ) : ℝ)
  set X : ℝ := (x : ℝ)
  have hu2 : u ≤ 1 / 10000 := u_le.trans (by norm_num)
  have hsn' : |s| ≤ 1001 / 1000 := by
    have := abs_le.mp hs
    rw [abs_le]; constructor <;> linarith
  have h1 : |X * s| ≤ 1001 / 1000 * X := by
    rw [abs_mul, abs_of_nonneg hX0, mul_comm]
    exact mul_le_mul_of_nonneg_right hsn' hX0
  have h2 : |X * s - X * S 16 2 X| ≤ 2 * u * X := by
    rw [← mul_sub, abs_mul, abs_of_nonneg hX0]
    have := mul_le_mul_of_nonneg_left hs hX0
    linarith
  set y : ℝ := t * Real.pi with hy
  have hy0 : 0 < y := by rw [hy]; positivity
  have hXy : X ≤ 1001 / 1000 * y := by
    have := (abs_le.mp hdX).2
    have : 4 / 10 * u * y ≤ 4 / 10 * (1 / 10000) * y := mul_le_mul_of_nonneg_right (by linarith) hy0.le
    linarith
  have hηy : η ≤ 1 / 1000 * u * y := by
    have h3 : 1 / 2 ^ 30 * 3 ≤ y := by
      rw [hy]; exact mul_le_mul ht0 (by norm_num at *; linarith) (by norm_num) htp.le
    have h4 : u * (1 / 10 ^ 10) ≤ u * y := mul_le_mul_of_nonneg_left (le_trans (by norm_num) h3) hu.le
    have h5 : u / 10 ^ 100 ≤ u / 10 ^ 13 := div_le_div_of_nonneg_left hu.le (by norm_num) (by norm_num)
    norm_num at *
    linarith
  have hsml : X / 10 ^ 38 ≤ 1 / 1000 * u * y := by
    have h6 : (1 : ℝ) / 10 ^ 20 ≤ u := by unfold u; norm_num
    have h7 : 1 / 10 ^ 20 * y ≤ u * y := mul_le_mul_of_nonneg_right h6 hy0.le
    norm_num at *
    linarith
  have huX : u * X ≤ 1001 / 1000 * (u * y) := by
    have := mul_le_mul_of_nonneg_left hXy hu.le
    linarith
  have huXs : u * |X * s| ≤ u * (1001 / 1000 * X) := mul_le_mul_of_nonneg_left h1 hu.le
  have t1 := abs_add_le (((sn64 (2 ^ k) (2 ^ a) : ℚ) : ℝ) - X * s) (X * s - Real.sin y)
  have t2 := abs_add_le (X * s - X * S 16 2 X) (X * S 16 2 X - Real.sin y)
  have t3 := abs_add_le (X * S 16 2 X - Real.sin X) (Real.sin X - Real.sin y)
  rw [sub_add_sub_cancel] at t1 t2 t3
  have huy : 0 ≤ u * y := by positivity
  have r1 : 36 / 10 * u * y = 36 / 10 * (u * y) := by ring
  have r2 : 4 / 10 * u * y = 4 / 10 * (u * y) := by ring
  have r3 : 1 / 1000 * u * y = 1 / 1000 * (u * y) := by ring
  have r4 : 2 * u * X = 2 * (u * X) := by ring
  have r5 : u * (1001 / 1000 * X) = 1001 / 1000 * (u * X) := by ring
  rw [r1]
  rw [r2] at hdX
  rw [r3] at hηy hsml
  rw [r4] at h2
  rw [r5] at huXs
  generalize u * y = Z at *
  generalize u * X = Z2 at *
  linarith

theorem wstep64 (k : ℕ) (hk3 : 3 ≤ k) (hk : k ≤ 30) :
    ‖cq (wstep fl64 sn64 k)‖ ≤ 4 / 5 ∧ ‖1 + cq (wstep fl64 sn64 k) - om k‖ ≤ 6.5 * u := by
  have hu := u_pos
  have hu2 : u ≤ 1 / 10000 := u_le.trans (by norm_num)
  have hη := η_pos
  have hη2 := η_le'
  have s1 := sn_err k 0 hk3 hk (by norm_num)
  have s2 := sn_err k 1 hk3 hk (by norm_num)
  rw [pow_zero, pow_zero, one_mul] at s1
  rw [pow_one, pow_one] at s2
  have hk8 : (8 : ℝ) ≤ 2 ^ k := by
    have : (2 : ℝ) ^ 3 ≤ 2 ^ k := pow_le_pow_right₀ (by norm_num) hk3
    linarith
  have hpi1 := Real.pi_gt_d20
  have hpi2 := Real.pi_lt_d20
  set y : ℝ := Real.pi / 2 ^ k with hy
  have h2y : 2 * Real.pi / 2 ^ k = 2 * y := by rw [hy]; ring
  have hy0 : 0 ≤ y := by rw [hy]; positivity
  have hy1 : y ≤ 3927 / 10000 := by
    rw [hy, div_le_iff₀ (by positivity)]
    norm_num at *
    linarith
  rw [h2y] at s2
  have hsin0 : 0 ≤ Real.sin y := Real.sin_nonneg_of_nonneg_of_le_pi hy0 (by norm_num at *; linarith)
  have hsin1 : Real.sin y ≤ 3927 / 10000 := (Real.sin_le hy0).trans hy1
  have hsin20 : 0 ≤ Real.sin (2 * y) := Real.sin_nonneg_of_nonneg_of_le_pi (by linarith) (by norm_num at *; linarith)
  have hcos : Real.cos (2 * y) = 1 - 2 * (Real.sin y) ^ 2 := by
    rw [Real.cos_two_mul]
    have := Real.sin_sq_add_cos_sq y
    linarith
  have hunit : Real.sin (2 * y) ^ 2 + Real.cos (2 * y) ^ 2 = 1 := Real.sin_sq_add_cos_sq _
  set a : ℚ := sn64 (2 ^ k) 1 with ha
  set b : ℚ := sn64 (2 ^ k) 2 with hb
  have e1 := err64 (-2 * -a)
  have e2 := err64 (fl64 (-2 * -a) * -a)
  have hw : wstep fl64 sn64 k = (fl64 (fl64 (-2 * -a) * -a), -b) := rfl
  rw [hw]
  set c := fl64 (-2 * -a)
  set d := fl64 (c * -a)
  push_cast at e1 e2
  set A : ℝ := (a : ℝ)
  set B : ℝ := (b : ℝ)
  set C : ℝ := (c : ℝ)
  set Dd : ℝ := (d : ℝ)
  set σ : ℝ := Real.sin y with hσ
  have hom : om k = ⟨1 - 2 * σ ^ 2, -Real.sin (2 * y)⟩ := by rw [om_re_im, h2y, hcos]
  set θ : ℝ := Real.sin (2 * y)
  have dA : |A - σ| ≤ 142 / 100 * u := by
    have : 36 / 10 * u * y ≤ 36 / 10 * u * (3927 / 10000) := mul_le_mul_of_nonneg_left hy1 (by positivity)
    linarith
  have dB : |B - θ| ≤ 283 / 100 * u := by
    have : 36 / 10 * u * (2 * y) ≤ 36 / 10 * u * (2 * (3927 / 10000)) := mul_le_mul_of_nonneg_left (by linarith) (by positivity)
    linarith
  have nA : |A| ≤ 393 / 1000 := by
    have := abs_le.mp dA
    rw [abs_le]; constructor <;> linarith
  have eC : |C - 2 * A| ≤ 79 / 100 * u := by
    rw [show -2 * -A = 2 * A by ring, abs_mul, abs_of_pos (by norm_num : (0 : ℝ) < 2)] at e1
    have : u * (2 * |A|) ≤ u * (2 * (393 / 1000)) := mul_le_mul_of_nonneg_left (by linarith) hu.le
    linarith
  have nC : |C| ≤ 787 / 1000 := by
    have h1 := abs_le.mp eC
    have h2 := abs_le.mp nA
    rw [abs_le]; constructor <;> linarith
  have nCA : |C * -A| ≤ 31 / 100 := by
    rw [abs_mul, abs_neg]
    have := mul_le_mul nC nA (abs_nonneg _) (by norm_num)
    linarith
  have eD1 : |Dd - C * -A| ≤ 32 / 100 * u := by
    have : u * |C * -A| ≤ u * (31 / 100) := mul_le_mul_of_nonneg_left nCA hu.le
    linarith
  have eD2 : |C * -A - 2 * A * -A| ≤ 32 / 100 * u := by
    rw [← sub_mul, abs_mul, abs_neg]
    have := mul_le_mul eC nA (abs_nonneg _) (by linarith)
    linarith
  have eD3 : |2 * A * -A - -2 * σ ^ 2| ≤ 225 / 100 * u := by
    rw [show 2 * A * -A - -2 * σ ^ 2 = (A - σ) * (-2 * (A + σ)) by ring, abs_mul]
    have h1 : |-2 * (A + σ)| ≤ 1572 / 1000 := by
      have h2 := abs_le.mp nA
      rw [abs_le]; constructor <;> linarith
    have := mul_le_mul dA h1 (abs_nonneg _) (by linarith)
    linarith
  have eD : |Dd - -2 * σ ^ 2| ≤ 29 / 10 * u := by
    have t1 := abs_add_le (Dd - C * -A) (C * -A - -2 * σ ^ 2)
    have t2 := abs_add_le (C * -A - 2 * A * -A) (2 * A * -A - -2 * σ ^ 2)
    rw [sub_add_sub_cancel] at t1 t2
    linarith
  have hcqd : 1 + cq (d, -b) - om k = ⟨Dd - -2 * σ ^ 2, -(B - θ)⟩ := by
    rw [hom]
    apply Complex.ext
    · simp only [cq, Complex.sub_re, Complex.add_re, Complex.one_re]
      show 1 + Dd - (1 - 2 * σ ^ 2) = _
      ring
    · simp only [cq, Complex.sub_im, Complex.add_im, Complex.one_im]
      push_cast
      show 0 + -B - -θ = _
      ring
  have hδ : ‖1 + cq (d, -b) - om k‖ ≤ 6.5 * u := by
    rw [hcqd]
    refine (Complex.norm_le_abs_re_add_abs_im _).trans ?_
    simp only [abs_neg]
    rw [show (6.5 : ℝ) = 13 / 2 by norm_num]
    linarith
  refine ⟨?_, hδ⟩
  -- the norm of the step
  have hnorm : ‖om k - 1‖ ≤ 787 / 1000 := by
    have e : om k - 1 = ⟨-2 * σ ^ 2, -θ⟩ := by
      rw [hom]; apply Complex.ext <;> simp
    rw [e, Complex.norm_eq_sqrt_sq_add_sq]
    apply Real.sqrt_le_iff.mpr
    constructor
    · norm_num
    · simp only
      have hθ : θ ^ 2 = 1 - (1 - 2 * σ ^ 2) ^ 2 := by rw [← hcos]; linarith
      have hσ2 : σ ^ 2 ≤ (3927 / 10000) ^ 2 := pow_le_pow_left₀ hsin0 hsin1 2
      rw [neg_sq θ, hθ]
      norm_num at hσ2 ⊢
      nlinarith
  have e : cq (d, -b) = (1 + cq (d, -b) - om k) + (om k - 1) := by ring
  rw [e]
  refine (norm_add_le _ _).trans ?_
  norm_num at *
  linarith

set_option exponentiation.threshold 2000 in
theorem fft64_err (k : ℕ) (h1 : 1 ≤ k) (hk : k ≤ 30) (x : ℕ → ℚ × ℚ) (p : ℕ) (hp : p < 2 ^ k) :
    ‖cq (T fl64 sn64 k x p) - D k (fun n => cq (x n)) p‖ ≤
      2 ^ k / 2 ^ 49 * ∑ n ∈ Finset.range (2 ^ k), ‖cq (x n)‖ + 1 / 2 ^ 1000 := by
  refine (T_err sn64 (fun k h3 h30 => wstep64 k h3 h30) k h1 hk x p hp).trans ?_
  have hs : 0 ≤ ∑ n ∈ Finset.range (2 ^ k), ‖cq (x n)‖ := Finset.sum_nonneg fun _ _ => norm_nonneg _
  have a1 : εk k ≤ 2 ^ k / 2 ^ 49 := by
    unfold εk u
    rw [show 14 * (2 : ℝ) ^ k * (1 / 2 ^ 53) = 2 ^ k * (14 / 2 ^ 53) by ring, div_eq_mul_inv]
    apply mul_le_mul_of_nonneg_left _ (by positivity)
    norm_num
  have a2 : κk k ≤ 1 / 2 ^ 1000 := by
    unfold κk η
    have h4 : (4 : ℝ) ^ k ≤ 4 ^ 30 := pow_le_pow_right₀ (by norm_num) hk
    have h5 : 4 * (4 : ℝ) ^ 30 ≤ 2 ^ 75 := by norm_num
    have h6 : (2 : ℝ) ^ 1075 = 2 ^ 75 * 2 ^ 1000 := by rw [← pow_add]
    rw [h6, ← one_div_mul_one_div, ← mul_assoc]
    have hQ : (0 : ℝ) ≤ 1 / 2 ^ 1000 := by positivity
    have h7 : 4 * (4 : ℝ) ^ k * (1 / 2 ^ 75) ≤ 1 := by
      rw [mul_one_div, div_le_one (by positivity)]
      linarith
    have := mul_le_mul_of_nonneg_right h7 hQ
    rwa [one_mul] at this
  have := mul_le_mul_of_nonneg_right a1 hs
  linarith

end FFT
end Verif
