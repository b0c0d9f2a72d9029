import Verif.Props.FastMath
import Mathlib.Analysis.Convex.SpecificFunctions.Basic
/-!
# C82, C83: `fast_log2`, `fast_log10`, `fast_pow2`, `fast_pow10`
-/
namespace Verif
open Rounding FastMath

namespace FastMath

/-- Comparing a real power of 2 with a constant through integer powers. -/
theorem two_rpow_le {a c : ℝ} (n m : ℕ) (hn : 0 < n) (hc : 0 ≤ c) (ha : a * n ≤ m) (h : (2 : ℝ) ^ m ≤ c ^ n) : (2 : ℝ) ^ a ≤ c := by
  have h1 : ((2 : ℝ) ^ a) ^ n ≤ c ^ n := by
    rw [← Real.rpow_mul_natCast (by norm_num)]
    refine le_trans ?_ h
    rw [← Real.rpow_natCast 2 m]
    exact Real.rpow_le_rpow_of_exponent_le (by norm_num) ha
  exact le_of_pow_le_pow_left₀ hn.ne' hc h1

theorem le_two_rpow {a c : ℝ} (n m : ℕ) (hn : 0 < n) (ha : m ≤ a * n) (h : c ^ n ≤ (2 : ℝ) ^ m) : c ≤ (2 : ℝ) ^ a := by
  have h1 : c ^ n ≤ ((2 : ℝ) ^ a) ^ n := by
    rw [← Real.rpow_mul_natCast (by norm_num)]
    refine le_trans h ?_
    rw [← Real.rpow_natCast 2 m]
    exact Real.rpow_le_rpow_of_exponent_le (by norm_num) ha
  exact le_of_pow_le_pow_left₀ hn.ne' (by positivity) h1

/-- The bits of a normal float, divided by `2^23`, are within 0.0866 of its logarithm plus 127, from below. -/
theorem log_bounds {E k : Nat} (hk : k < 2 ^ 23) {v : ℚ}
    (hv : v = ((2 ^ 23 + k : Nat) : ℚ) * (2 : ℚ) ^ ((E : ℤ) - 150)) :
    0 < (v : ℝ) ∧
    ((2 ^ 23 * E + k : Nat) : ℝ) / 2 ^ 23 - 127 ≤ Real.logb 2 v ∧
    Real.logb 2 v ≤ ((2 ^ 23 * E + k : Nat) : ℝ) / 2 ^ 23 - 127 + 866 / 10000 := by
  set m : ℝ := (k : ℝ) / 2 ^ 23 with hm
  have m0 : 0 ≤ m := by positivity
  have m1 : m < 1 := by
    rw [hm, div_lt_one (by positivity)]; exact_mod_cast hk
  have hv' : (v : ℝ) = (1 + m) * (2 : ℝ) ^ ((E : ℤ) - 127) := by
    rw [hv, hm, show ((E : ℤ) - 127) = 23 + ((E : ℤ) - 150) by ring, zpow_add₀ (by norm_num : (2 : ℝ) ≠ 0)]
    push_cast
    norm_num
    ring
  have hp : 0 < 1 + m := by linarith
  have hpow : (0 : ℝ) < (2 : ℝ) ^ ((E : ℤ) - 127) := by positivity
  have hlog : Real.logb 2 v = Real.logb 2 (1 + m) + ((E : ℝ) - 127) := by
    rw [hv', Real.logb_mul hp.ne' hpow.ne', ← Real.rpow_intCast, Real.logb_rpow (by norm_num) (by norm_num)]
    push_cast; ring
  have hn : ((2 ^ 23 * E + k : Nat) : ℝ) / 2 ^ 23 = E + m := by
    rw [hm]; push_cast; field_simp; ring
  have l2 : 0 < Real.log 2 := Real.log_pos (by norm_num)
  rw [hlog, hn]
  refine ⟨by rw [hv']; positivity, ?_, ?_⟩
  · have h1 : (1 + 1 : ℝ) ^ m ≤ 1 + m * 1 := rpow_one_add_le_one_add_mul_self (by norm_num) m0 m1.le
    have h2 : m ≤ Real.logb 2 (1 + m) := by
      rw [Real.le_logb_iff_rpow_le (by norm_num) hp]
      norm_num at h1 ⊢; exact h1
    linarith
  · have h1 : Real.log (1 + m) ≤ (1 + m) / (1443 / 1000) - 1 + Real.log (1443 / 1000) := by
      have := Real.log_le_sub_one_of_pos (x := (1 + m) / (1443 / 1000)) (by positivity)
      rw [Real.log_div hp.ne' (by norm_num)] at this
      linarith
    have h2 : Real.log (1443 / 1000) ≤ 9 / 17 * Real.log 2 := by
      have : Real.log ((1443 / 1000 : ℝ) ^ 17) ≤ Real.log ((2 : ℝ) ^ 9) := Real.log_le_log (by positivity) (by norm_num)
      rw [Real.log_pow, Real.log_pow] at this
      push_cast at this
      linarith
    have h3 : Real.logb 2 (1 + m) ≤ m + 866 / 10000 := by
      rw [Real.logb, div_le_iff₀ l2]
      have g1 := Real.log_two_gt_d9
      have g2 := Real.log_two_lt_d9
      nlinarith
    linarith

/-- The rounding errors of `fasterlog2`. -/
theorem log2_err (n : Nat) (h : n < 2 ^ 31) :
    |fl32 (fl32 (fl32 n * fl32 (11920928955078125 / 10 ^ 23)) - bias fl32) - ((n : ℚ) / 2 ^ 23 - 12694269504 / 10 ^ 8)| ≤ 6 / 100000 := by
  have L := fl32_lawful
  have he : ∀ (x B : ℚ), |x| ≤ B → 1 ≤ B → |fl32 x - x| ≤ B / 2 ^ 24 := by
    intro x B h1 h2
    refine (L.err x).trans (max_le (div_le_div_of_nonneg_right h1 (by positivity)) ?_)
    calc (2 : ℚ) ^ (-149 : ℤ) / 2 ≤ 1 / 2 ^ 24 := by norm_num
      _ ≤ B / 2 ^ 24 := div_le_div_of_nonneg_right h2 (by positivity)
  have hlit : fl32 (11920928955078125 / 10 ^ 23) = 1 / 2 ^ 23 := by
    rw [show (11920928955078125 / 10 ^ 23 : ℚ) = 1 / 2 ^ 23 by norm_num]
    exact L.fix _ ⟨1, -23, by norm_num, by norm_num, by norm_num⟩
  have hq : (n : ℚ) ≤ 2 ^ 31 := by exact_mod_cast h.le
  have h0 : (0 : ℚ) ≤ n := by positivity
  have e1 := he n (2 ^ 31) (by rw [abs_of_nonneg h0]; exact hq) (by norm_num)
  have e4 : |bias fl32 - 12694269504 / 10 ^ 8| ≤ 127 / 2 ^ 24 := he _ 127 (by norm_num [abs_le]) (by norm_num)
  rw [hlit]
  have b1 : fl32 (n : ℚ) ≤ 2 ^ 31 := L.le_of_rep ⟨1, 31, by norm_num, by norm_num, by norm_num⟩ hq
  have b0 : 0 ≤ fl32 (n : ℚ) := L.nonneg h0
  generalize fl32 (n : ℚ) = x1 at *
  have e2 := he (x1 * (1 / 2 ^ 23)) 256 (by rw [abs_of_nonneg (by positivity)]; norm_num at b1 ⊢; linarith) (by norm_num)
  generalize hx2 : fl32 (x1 * (1 / 2 ^ 23)) = x2 at *
  have c0 : 0 ≤ x2 := by rw [← hx2]; exact L.nonneg (by positivity)
  have c1 : x2 ≤ 256 := by
    rw [← hx2]; exact L.le_of_rep ⟨256, 0, by norm_num, by norm_num, by norm_num⟩ (by norm_num at b1 ⊢; linarith)
  generalize bias fl32 = c at *
  rw [abs_le] at e4 e1 e2
  have e3 := he (x2 - c) 256 (by rw [abs_le]; constructor <;> linarith [e4.1, e4.2]) (by norm_num)
  generalize fl32 (x2 - c) = r at *
  rw [abs_le] at e3 ⊢
  obtain ⟨e11, e12⟩ := e1
  obtain ⟨e21, e22⟩ := e2
  obtain ⟨e31, e32⟩ := e3
  obtain ⟨e41, e42⟩ := e4
  norm_num at *
  constructor <;> linarith

end FastMath

set_option exponentiation.threshold 3000 in
theorem FastMath.logb_ten : (3.321926 : ℝ) ≤ Real.logb 2 10 ∧ Real.logb 2 10 ≤ 3.321929 := by
  constructor
  · rw [Real.le_logb_iff_rpow_le (by norm_num) (by norm_num)]
    exact two_rpow_le 789 2621 (by norm_num) (by norm_num) (by norm_num) (by norm_num)
  · rw [Real.logb_le_iff_le_rpow (by norm_num) (by norm_num)]
    exact le_two_rpow 643 2136 (by norm_num) (by norm_num) (by norm_num)

/-- **C82** (rounding included) `fast_log2` of every normal positive `float` is between 0.0294 below and 0.0574 above
its binary logarithm. -/
theorem C82_log2 (b : BitVec 32) (v : ℚ) (hv : f32Val b = some v) (h0 : (2 : ℚ) ^ (-126 : ℤ) ≤ v) :
    -294 / 10000 ≤ (FastMath.log2 fl32 b : ℝ) - Real.logb 2 v ∧ (FastMath.log2 fl32 b : ℝ) - Real.logb 2 v ≤ 574 / 10000 := by
  obtain ⟨E, k, hE, hE', hk, hb, hval⟩ := val_normal hv h0
  obtain ⟨-, l1, l2⟩ := log_bounds (E := E) hk hval
  have he := log2_err b.toNat (by omega)
  have he' : |((FastMath.log2 fl32 b : ℚ) : ℝ) - ((b.toNat : ℝ) / 2 ^ 23 - 12694269504 / 10 ^ 8)| ≤ 6 / 100000 := by
    unfold FastMath.log2
    have : (((|fl32 (fl32 (fl32 b.toNat * fl32 (11920928955078125 / 10 ^ 23)) - bias fl32) - ((b.toNat : ℚ) / 2 ^ 23 - 12694269504 / 10 ^ 8)| : ℚ)) : ℝ)
        ≤ ((6 / 100000 : ℚ) : ℝ) := Rat.cast_le.2 he
    rw [Rat.cast_abs] at this
    push_cast at this
    exact this
  rw [hb] at he'
  rw [abs_le] at he'
  generalize ((2 ^ 23 * E + k : Nat) : ℝ) / 2 ^ 23 = z at *
  norm_num at he'
  constructor <;> linarith [he'.1, he'.2]

/-- **C82** (rounding included) `fast_log10` of every normal positive `float` is within 0.0174 of its decimal logarithm. -/
theorem C82_log10 (b : BitVec 32) (v : ℚ) (hv : f32Val b = some v) (h0 : (2 : ℚ) ^ (-126 : ℤ) ≤ v) :
    |(FastMath.log10 fl32 b : ℝ) - Real.logb 10 v| ≤ 174 / 10000 := by
  obtain ⟨h1, h2⟩ := C82_log2 b v hv h0
  have L := fl32_lawful
  have hvb : |Real.logb 2 v| ≤ 128 := by
    obtain ⟨E, k, hE, hE', hk, hb, hval⟩ := val_normal hv h0
    obtain ⟨-, l1, l2⟩ := log_bounds (E := E) hk hval
    have z1 : ((2 ^ 23 * E + k : Nat) : ℝ) / 2 ^ 23 ≤ 254.9 + 0.1 := by
      rw [div_le_iff₀ (by positivity)]
      have : ((2 ^ 23 * E + k : Nat) : ℝ) ≤ ((255 * 2 ^ 23 : Nat) : ℝ) := by exact_mod_cast (by omega)
      refine this.trans (by norm_num)
    have z0 : 1 ≤ ((2 ^ 23 * E + k : Nat) : ℝ) / 2 ^ 23 := by
      rw [le_div_iff₀ (by positivity)]
      have : ((2 ^ 23 : Nat) : ℝ) ≤ ((2 ^ 23 * E + k : Nat) : ℝ) := by exact_mod_cast (by omega)
      refine le_trans (by norm_num) this
    rw [abs_le]
    constructor
    · linarith
    · -- the largest float is below 2^128
      have hlt : v < 2 ^ 128 := by
        have := ((val_iff v).1 ⟨b, hv⟩).2
        exact lt_of_le_of_lt (le_abs_self v) this
      have vp : (0 : ℝ) < v := by
        have : 0 < v := lt_of_lt_of_le (by positivity) h0
        exact_mod_cast this
      rw [Real.logb_le_iff_le_rpow (by norm_num) vp]
      have : (v : ℝ) ≤ 2 ^ 128 := by exact_mod_cast hlt.le
      refine this.trans (le_of_eq ?_)
      norm_num
  have hten : Real.logb 10 v = Real.logb 2 v / Real.logb 2 10 := by
    rw [Real.logb, Real.logb, Real.logb]
    have : Real.log 2 ≠ 0 := (Real.log_pos (by norm_num)).ne'
    field_simp
  have t1 := logb_ten.1
  have t2 := logb_ten.2
  have hL : |FastMath.log2 fl32 b| ≤ 129 := by
    have : |((FastMath.log2 fl32 b : ℚ) : ℝ)| ≤ 129 := by
      rw [abs_le] at hvb ⊢; constructor <;> linarith [hvb.1, hvb.2]
    exact_mod_cast this
  have hlit : |fl32 (301029995663981 / 10 ^ 15) - 301029995663981 / 10 ^ 15| ≤ 1 / 2 ^ 24 := by
    refine (L.err _).trans (max_le (div_le_div_of_nonneg_right (by norm_num [abs_le]) (by positivity)) (by norm_num))
  have hmul : |fl32 (fl32 (301029995663981 / 10 ^ 15) * FastMath.log2 fl32 b) - fl32 (301029995663981 / 10 ^ 15) * FastMath.log2 fl32 b| ≤ 65 / 2 ^ 24 := by
    refine (L.err _).trans (max_le (div_le_div_of_nonneg_right ?_ (by positivity)) (by norm_num))
    rw [abs_mul]
    have : |fl32 (301029995663981 / 10 ^ 15)| ≤ 1 / 2 :=
      L.abs_le_of_rep ⟨1, -1, by norm_num, by norm_num, by norm_num⟩ (by norm_num [abs_le])
    calc _ ≤ 1 / 2 * 129 := mul_le_mul this hL (abs_nonneg _) (by norm_num)
      _ ≤ 65 := by norm_num
  unfold FastMath.log10
  generalize fl32 (301029995663981 / 10 ^ 15) = c at *
  generalize FastMath.log2 fl32 b = y at *
  have hlit' : |(c : ℝ) - 301029995663981 / 10 ^ 15| ≤ 1 / 2 ^ 24 := by
    have := (Rat.cast_le (K := ℝ)).2 hlit
    rw [Rat.cast_abs] at this; push_cast at this; exact this
  have hmul' : |((fl32 (c * y) : ℚ) : ℝ) - c * y| ≤ 65 / 2 ^ 24 := by
    have := (Rat.cast_le (K := ℝ)).2 hmul
    rw [Rat.cast_abs] at this; push_cast at this; exact this
  have hL' : |(y : ℝ)| ≤ 129 := by exact_mod_cast hL
  rw [hten]
  generalize ((fl32 (c * y) : ℚ) : ℝ) = r at *
  generalize (c : ℝ) = c at *
  generalize (y : ℝ) = y at *
  generalize Real.logb 2 v = g at *
  generalize Real.logb 2 10 = t at *
  have tp : 0 < t := by linarith
  -- 1/t is close to the literal
  have ht : |301029995663981 / 10 ^ 15 - 1 / t| ≤ 2 / 10 ^ 7 := by
    have u1 : 1 / t ≤ 1 / 3.321926 := one_div_le_one_div_of_le (by norm_num) t1
    have u2 : 1 / 3.321929 ≤ 1 / t := one_div_le_one_div_of_le tp t2
    rw [abs_le]
    norm_num at u1 u2 ⊢
    constructor <;> linarith
  have k1 : |c * y - 301029995663981 / 10 ^ 15 * y| ≤ 129 / 2 ^ 24 := by
    rw [← sub_mul, abs_mul]
    calc _ ≤ 1 / 2 ^ 24 * 129 := mul_le_mul hlit' hL' (abs_nonneg _) (by norm_num)
      _ = _ := by ring
  have k2 : |301029995663981 / 10 ^ 15 * g - g / t| ≤ 2 / 10 ^ 7 * 128 := by
    rw [show 301029995663981 / 10 ^ 15 * g - g / t = (301029995663981 / 10 ^ 15 - 1 / t) * g by ring, abs_mul]
    exact mul_le_mul ht hvb (abs_nonneg _) (by norm_num)
  rw [abs_le] at *
  norm_num at *
  constructor <;> linarith [k1.1, k1.2, k2.1, k2.2, hmul'.1, hmul'.2]

end Verif
