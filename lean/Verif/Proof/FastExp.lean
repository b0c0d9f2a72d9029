import Verif.Model.Envelope
import Verif.Proof.RoundMore
/-!
# `fast_exp3` under rounding
-/
namespace Verif
open Rounding
namespace Env
variable {fl fd : ℚ → ℚ}

/-- The literal `0.16666666f` rounds to the float just below 1/6. -/
theorem sixth_le (L : Lawful 24 (-149) fl) : fl (16666666 / 10 ^ 8) ≤ 11184810 / 2 ^ 26 := by
  have hr : Rep 24 (-149) (11184810 / 2 ^ 26) := ⟨11184810, -26, by norm_num, by norm_num, by norm_num⟩
  have near := L.nearest (16666666 / 10 ^ 8) _ hr
  have hb : fl (16666666 / 10 ^ 8) < 11184811 / 2 ^ 26 := by
    have := (abs_le.1 (le_refl |fl (16666666 / 10 ^ 8) - 16666666 / 10 ^ 8|)).2
    rw [show |(11184810 / 2 ^ 26 : ℚ) - 16666666 / 10 ^ 8| = 16666666 / 10 ^ 8 - 11184810 / 2 ^ 26 by
      rw [abs_of_nonpos (by norm_num)]; ring] at near
    have h3 : fl (16666666 / 10 ^ 8) ≤ 16666666 / 10 ^ 8 + (16666666 / 10 ^ 8 - 11184810 / 2 ^ 26) := by linarith
    refine lt_of_le_of_lt h3 ?_
    norm_num
  by_contra hc
  push Not at hc
  obtain ⟨m, e, hm, -, he⟩ := L.rep (16666666 / 10 ^ 8)
  rw [he] at hb hc
  by_cases h26 : -26 ≤ e
  · obtain ⟨n, hn⟩ := Int.eq_ofNat_of_zero_le (by omega : 0 ≤ e + 26)
    have : (m : ℚ) * 2 ^ e = ((m * 2 ^ n : ℤ) : ℚ) / 2 ^ 26 := by
      rw [show e = (n : ℤ) + (-26) by omega, zpow_add₀ (by norm_num), zpow_natCast]
      push_cast; norm_num; ring
    rw [this] at hb hc
    have h1 : ((11184810 : ℤ) : ℚ) < ((m * 2 ^ n : ℤ) : ℚ) := by
      push_cast at hc ⊢; rw [div_lt_div_iff_of_pos_right (by norm_num)] at hc; exact hc
    have h2 : ((m * 2 ^ n : ℤ) : ℚ) < ((11184811 : ℤ) : ℚ) := by
      push_cast at hb ⊢; rw [div_lt_div_iff_of_pos_right (by norm_num)] at hb; exact hb
    have h1 : (11184810 : ℤ) < m * 2 ^ n := by exact_mod_cast h1
    have h2 : m * 2 ^ n < (11184811 : ℤ) := by exact_mod_cast h2
    omega
  · have h2 : (2 : ℚ) ^ e ≤ 2 ^ (-27 : ℤ) := zpow_le_zpow_right₀ (by norm_num) (by omega)
    have hmq : (m : ℚ) ≤ 2 ^ 24 :=
      le_trans (b := ((|m| : ℤ) : ℚ)) (by exact_mod_cast le_abs_self m) (by exact_mod_cast hm)
    have pos := two_zpow_pos e
    have : (m : ℚ) * 2 ^ e ≤ 2 ^ 24 * 2 ^ (-27 : ℤ) :=
      le_trans (mul_le_mul_of_nonneg_right hmq pos.le) (mul_le_mul_of_nonneg_left h2 (by norm_num))
    norm_num at this hc
    linarith

theorem sixth_ge (L : Lawful 24 (-149) fl) : 1 / 8 ≤ fl (16666666 / 10 ^ 8) :=
  L.ge_of_rep ⟨1, -3, by norm_num, by norm_num, by norm_num⟩ (by norm_num)

/-- A crude absolute error bound. -/
theorem err_abs (L : Lawful 24 (-149) fl) {x : ℚ} (h : |x| ≤ 8) : |fl x - x| ≤ 1 / 2 ^ 21 := by
  refine (L.err x).trans (max_le ?_ ?_)
  · rw [div_le_iff₀ (by norm_num)]; norm_num; linarith
  · rw [show (2 : ℚ) ^ (-149 : ℤ) / 2 = 2 ^ (-150 : ℤ) by norm_num]
    rw [show (1 : ℚ) / 2 ^ 21 = 2 ^ (-21 : ℤ) by norm_num]
    exact zpow_le_zpow_right₀ (by norm_num) (by norm_num)

/-- `fast_exp3` of a non-positive number is below 1 by at least `2^-24`, whatever the rounding does. -/
theorem fastExp3_lt_one (L : Lawful 24 (-149) fl) {x : ℚ} (h0 : x ≤ 0)
    (hc : 0 ≤ fl (6 + fl (x * fl (3 + x)))) : fastExp3 fl x ≤ 1 - 1 / 2 ^ 24 := by
  have r6 : Rep 24 (-149) 6 := ⟨6, 0, by norm_num, by norm_num, by norm_num⟩
  unfold fastExp3
  have hd : fl (x * fl (6 + fl (x * fl (3 + x)))) ≤ 0 := L.nonpos (mul_nonpos_of_nonpos_of_nonneg h0 hc)
  have he : fl (6 + fl (x * fl (6 + fl (x * fl (3 + x))))) ≤ 6 := L.le_of_rep r6 (by linarith)
  have hs := sixth_le L
  have hs' := sixth_ge L
  apply L.le_of_rep ⟨2 ^ 24 - 1, -24, by norm_num, by norm_num, by norm_num⟩
  generalize fl (6 + fl (x * fl (6 + fl (x * fl (3 + x))))) = e at *
  generalize fl (16666666 / 10 ^ 8) = c at *
  have : e * c ≤ 6 * c := mul_le_mul_of_nonneg_right he (by linarith)
  have : 6 * c ≤ 6 * (11184810 / 2 ^ 26) := by linarith
  norm_num at *
  linarith

/-- The literal `0.16666666f` is above 0.16666. -/
theorem sixth_ge' (L : Lawful 24 (-149) fl) : (16666 : ℚ) / 10 ^ 5 ≤ fl (16666666 / 10 ^ 8) := by
  have h2 : |fl (16666666 / 10 ^ 8) - 16666666 / 10 ^ 8| ≤ 1 / 2 ^ 21 := err_abs L (by norm_num [abs_le])
  rw [abs_le] at h2
  linarith [h2.1, (by norm_num : (16666 : ℚ) / 10 ^ 5 ≤ 16666666 / 10 ^ 8 - 1 / 2 ^ 21)]

/-- `fast_exp3` on `[-1.595, 0]`: positive and below 1.  (The polynomial has its root at -1.5961.) -/
theorem fastExp3_bounds (L : Lawful 24 (-149) fl) {x : ℚ} (h0 : x ≤ 0) (h1 : -1595 / 1000 ≤ x) :
    1 / 2 ^ 11 ≤ fastExp3 fl x ∧ fastExp3 fl x ≤ 1 - 1 / 2 ^ 24 := by
  have r3 : Rep 24 (-149) 3 := ⟨3, 0, by norm_num, by norm_num, by norm_num⟩
  have ha := err_abs L (x := 3 + x) (by rw [abs_le]; constructor <;> linarith)
  have ha3 : fl (3 + x) ≤ 3 := L.le_of_rep r3 (by linarith)
  have ha1 : 1 ≤ fl (3 + x) := L.ge_of_rep ⟨1, 0, by norm_num, by norm_num, by norm_num⟩ (by linarith)
  unfold fastExp3 at *
  have key := fastExp3_lt_one L h0
  unfold fastExp3 at key
  generalize fl (3 + x) = a at *
  rw [abs_le] at ha
  have q1 : -226 / 100 ≤ x * a := by
    nlinarith [mul_nonneg (by linarith : 0 ≤ -x) (by linarith : 0 ≤ 3 + x + 1 / 2 ^ 21 - a), sq_nonneg (x + 3 / 2)]
  have q2 : x * a ≤ 0 := by nlinarith
  have hb := err_abs L (x := x * a) (by rw [abs_le]; constructor <;> linarith)
  have hb0 : fl (x * a) ≤ 0 := L.nonpos q2
  generalize fl (x * a) = b at *
  rw [abs_le] at hb
  have hc := err_abs L (x := 6 + b) (by rw [abs_le]; constructor <;> linarith)
  generalize fl (6 + b) = c at *
  rw [abs_le] at hc
  have key := key (by linarith)
  refine ⟨?_, key⟩
  have c2 : c ≤ 6 + x * (3 + x) + 1 / 2 ^ 18 := by nlinarith
  have q3 : -59958 / 10000 ≤ x * c := by
    have : x * (6 + x * (3 + x) + 1 / 2 ^ 18) ≤ x * c := mul_le_mul_of_nonpos_left c2 h0
    nlinarith [mul_nonneg (by linarith : 0 ≤ x + 1595 / 1000) (sq_nonneg (x + 1)), sq_nonneg (x + 1),
      mul_nonneg (by linarith : 0 ≤ x + 1595 / 1000) (by linarith : 0 ≤ -x)]
  have q4 : x * c ≤ 0 := by nlinarith
  have hd := err_abs L (x := x * c) (by rw [abs_le]; constructor <;> linarith)
  have hd0 : fl (x * c) ≤ 0 := L.nonpos q4
  generalize fl (x * c) = d at *
  rw [abs_le] at hd
  have he := err_abs L (x := 6 + d) (by rw [abs_le]; constructor <;> linarith)
  generalize fl (6 + d) = e at *
  rw [abs_le] at he
  have hs := sixth_le L
  have hs' := sixth_ge' L
  generalize fl (16666666 / 10 ^ 8) = s at *
  have p1 : 68 / 100000 ≤ e * s := by
    have : (419 : ℚ) / 100000 ≤ e := by linarith
    nlinarith
  have hf := err_abs L (x := e * s) (by
    have : e * s ≤ 7 * s := mul_le_mul_of_nonneg_right (by linarith) (by linarith)
    rw [abs_le]; constructor
    · linarith
    · norm_num at hs; linarith)
  generalize fl (e * s) = r at *
  rw [abs_le] at hf
  linarith

/-- `fast_exp3` is negative below -1.597. -/
theorem fastExp3_neg (L : Lawful 24 (-149) fl) {x : ℚ} (h1 : x ≤ -1597 / 1000) : fastExp3 fl x ≤ -1 / 2 ^ 11 := by
  have r : Rep 24 (-149) (-1 / 2 ^ 11) := ⟨-1, -11, by norm_num, by norm_num, by norm_num⟩
  have hs' := sixth_ge' L
  have main : fl (6 + fl (x * fl (6 + fl (x * fl (3 + x))))) ≤ -35 / 10000 := by
    by_cases h4 : -4 ≤ x
    · have ha := err_abs L (x := 3 + x) (by rw [abs_le]; constructor <;> linarith)
      generalize fl (3 + x) = a at *
      rw [abs_le] at ha
      have q1 : x * (3 + x) - 1 / 2 ^ 19 ≤ x * a ∧ x * a ≤ x * (3 + x) + 1 / 2 ^ 19 := by
        constructor <;>
        nlinarith [mul_nonneg (by linarith : 0 ≤ -x) (by linarith : 0 ≤ 3 + x + 1 / 2 ^ 21 - a),
          mul_nonneg (by linarith : 0 ≤ -x) (by linarith : 0 ≤ a - (3 + x) + 1 / 2 ^ 21)]
      have p : -9 / 4 ≤ x * (3 + x) ∧ x * (3 + x) ≤ 4 := by
        constructor <;> nlinarith [sq_nonneg (x + 3 / 2), mul_nonneg (by linarith : 0 ≤ x + 4) (by linarith : 0 ≤ -x - 1)]
      have hb := err_abs L (x := x * a) (by rw [abs_le]; constructor <;> linarith [p.1, p.2, q1.1, q1.2])
      generalize fl (x * a) = b at *
      rw [abs_le] at hb
      have hc : 6 + b - 1 / 2 ^ 20 ≤ fl (6 + b) := by
        have e1 := L.err (6 + b)
        have : max (|6 + b| / 2 ^ 24) ((2 : ℚ) ^ (-149 : ℤ) / 2) ≤ 1 / 2 ^ 20 := by
          refine max_le ?_ ?_
          · rw [abs_of_nonneg (by linarith [p.1, q1.1]), div_le_iff₀ (by norm_num)]; norm_num; linarith [p.2, q1.2]
          · rw [show (2 : ℚ) ^ (-149 : ℤ) / 2 = 2 ^ (-150 : ℤ) by norm_num]
            rw [show (1 : ℚ) / 2 ^ 20 = 2 ^ (-20 : ℤ) by norm_num]
            exact zpow_le_zpow_right₀ (by norm_num) (by norm_num)
        have := e1.trans this
        rw [abs_le] at this
        linarith [this.1]
      generalize fl (6 + b) = c at *
      have c2 : 6 + x * (3 + x) - 1 / 2 ^ 17 ≤ c := by linarith [q1.1]
      have q3 : x * c ≤ -60037 / 10000 := by
        have h := mul_le_mul_of_nonpos_left c2 (by linarith : x ≤ 0)
        nlinarith [mul_nonneg (by linarith : 0 ≤ -1597 / 1000 - x) (sq_nonneg (x + 1)), sq_nonneg (x + 1),
          mul_nonneg (by linarith : 0 ≤ -1597 / 1000 - x) (by linarith : 0 ≤ -x)]
      have hd : fl (x * c) ≤ -60036 / 10000 := by
        have r2 : Rep 24 (-149) (-12590671 / 2 ^ 21) := ⟨-12590671, -21, by norm_num, by norm_num, by norm_num⟩
        refine (L.le_of_rep r2 ?_).trans ?_
        · refine q3.trans ?_; norm_num
        · norm_num
      generalize fl (x * c) = d at *
      refine (L.le_of_rep (r := -15099 / 2 ^ 22) ⟨-15099, -22, by norm_num, by norm_num, by norm_num⟩ ?_).trans ?_
      · norm_num at hd ⊢; linarith
      · norm_num
    · push Not at h4
      have ha : fl (3 + x) ≤ -1 := L.le_of_rep ⟨-1, 0, by norm_num, by norm_num, by norm_num⟩ (by linarith)
      have hb : 4 ≤ fl (x * fl (3 + x)) := L.ge_of_rep ⟨4, 0, by norm_num, by norm_num, by norm_num⟩ (by nlinarith)
      have hc : 10 ≤ fl (6 + fl (x * fl (3 + x))) := L.ge_of_rep ⟨10, 0, by norm_num, by norm_num, by norm_num⟩ (by linarith)
      have hd : fl (x * fl (6 + fl (x * fl (3 + x)))) ≤ -40 :=
        L.le_of_rep ⟨-40, 0, by norm_num, by norm_num, by norm_num⟩ (by nlinarith)
      exact (L.le_of_rep (r := -34) ⟨-34, 0, by norm_num, by norm_num, by norm_num⟩ (by linarith)).trans (by norm_num)
  unfold fastExp3
  refine L.le_of_rep r ?_
  generalize fl (6 + fl (x * fl (6 + fl (x * fl (3 + x))))) = e at *
  generalize fl (16666666 / 10 ^ 8) = s at *
  nlinarith

/-- The coefficient of a time constant between `10^-12` and 1.252 samples is negative. -/
theorem coef_neg (L : Lawful 24 (-149) fl) (D : Lawful 53 (-1074) fd) {sps : Nat} {d : ℚ}
    (h0 : 1 / 10 ^ 12 ≤ sps * d) (h : sps * d ≤ 1252 / 1000) : coef fl fd sps d ≤ -1 / 2 ^ 11 := by
  unfold coef
  have r1 : Rep 53 (-1074) (5251269 / 2 ^ 22) := ⟨5251269, -22, by norm_num, by norm_num, by norm_num⟩
  have h1 : fd (sps * d) ≤ 5251269 / 2 ^ 22 := D.le_of_rep r1 (h.trans (by norm_num))
  have h2 : 1 / 2 ^ 41 ≤ fd (sps * d) :=
    D.ge_of_rep ⟨1, -41, by norm_num, by norm_num, by norm_num⟩ (le_trans (by norm_num) h0)
  generalize fd (sps * d) = x at *
  have x0 : 0 < x := lt_of_lt_of_le (by norm_num) h2
  have h3 : -2 / x ≤ -15972 / 10000 := by rw [div_le_iff₀ x0]; norm_num at h1; linarith
  have r2 : ∀ p emin, 24 ≤ p → emin ≤ -149 → Rep p emin (-6699000 / 2 ^ 22) := fun p emin hp he => by
    refine ⟨-6699000, -22, ?_, by omega, by norm_num⟩
    calc |(-6699000 : ℤ)| ≤ 2 ^ 24 := by norm_num
      _ ≤ 2 ^ p := pow_le_pow_right₀ (by norm_num) hp
  have h4 : fd (-2 / x) ≤ -6699000 / 2 ^ 22 := D.le_of_rep (r2 _ _ (by norm_num) (by norm_num)) (h3.trans (by norm_num))
  have h5 : fl (fd (-2 / x)) ≤ -6699000 / 2 ^ 22 := L.le_of_rep (r2 _ _ (by norm_num) (by norm_num)) h4
  exact fastExp3_neg L (h5.trans (by norm_num))

/-- The smoothing coefficient of a time constant of at least 1.255 samples. -/
theorem coef_bounds (L : Lawful 24 (-149) fl) (D : Lawful 53 (-1074) fd) {sps : Nat} {d : ℚ}
    (h : 1255 / 1000 ≤ sps * d) : 1 / 2 ^ 11 ≤ coef fl fd sps d ∧ coef fl fd sps d ≤ 1 - 1 / 2 ^ 24 := by
  unfold coef
  have h1 : 5263851 / 2 ^ 22 ≤ fd (sps * d) :=
    D.ge_of_rep ⟨5263851, -22, by norm_num, by norm_num, by norm_num⟩ (le_trans (by norm_num) h)
  generalize fd (sps * d) = x at *
  have x0 : 0 < x := lt_of_lt_of_le (by norm_num) h1
  have h2 : -2 / x ≤ 0 := div_nonpos_of_nonpos_of_nonneg (by norm_num) x0.le
  have h3 : -1594 / 1000 ≤ -2 / x := by rw [le_div_iff₀ x0]; norm_num at h1; linarith
  have hr : ∀ p emin, 24 ≤ p → emin ≤ -149 → Rep p emin (-6685721 / 2 ^ 22) := fun p emin hp he => by
    refine ⟨-6685721, -22, ?_, by omega, by norm_num⟩
    calc |(-6685721 : ℤ)| ≤ 2 ^ 24 := by norm_num
      _ ≤ 2 ^ p := pow_le_pow_right₀ (by norm_num) hp
  have h4 : -6685721 / 2 ^ 22 ≤ fd (-2 / x) := D.ge_of_rep (hr _ _ (by norm_num) (by norm_num)) (by norm_num; linarith)
  have h5 : -6685721 / 2 ^ 22 ≤ fl (fd (-2 / x)) := L.ge_of_rep (hr _ _ (by norm_num) (by norm_num)) h4
  exact fastExp3_bounds L (L.nonpos (D.nonpos h2)) (by norm_num at h5; linarith)

end Env
end Verif
