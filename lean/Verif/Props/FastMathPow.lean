import Verif.Props.FastMathLog
/-!
# C83: `fast_pow2`, `fast_pow10`
-/
namespace Verif
open Rounding FastMath

namespace FastMath

theorem err_le {x B : ℚ} (h1 : |x| ≤ B) (h2 : 1 ≤ B) : |fl32 x - x| ≤ B / 2 ^ 24 := by
  refine (fl32_lawful.err x).trans (max_le (div_le_div_of_nonneg_right h1 (by positivity)) ?_)
  calc (2 : ℚ) ^ (-149 : ℤ) / 2 ≤ 1 / 2 ^ 24 := by norm_num
    _ ≤ B / 2 ^ 24 := div_le_div_of_nonneg_right h2 (by positivity)

theorem bias_err : |bias fl32 - 12694269504 / 10 ^ 8| ≤ 127 / 2 ^ 24 := err_le (by norm_num [abs_le]) (by norm_num)

/-- The argument of the conversion to `uint32_t`, for `-126 ≤ p ≤ 1000`. -/
theorem pow2_arg {p : ℚ} (h0 : -126 ≤ p) (h1 : p ≤ 1000) :
    |fl32 (2 ^ 23 * fl32 (p + bias fl32)) / 2 ^ 23 - (p + 12694269504 / 10 ^ 8)| ≤ 2500 / 2 ^ 24 := by
  have hb := bias_err
  generalize bias fl32 = c at *
  rw [abs_le] at hb
  norm_num at hb
  by_cases hs : p ≤ 129
  · have e1 := err_le (x := p + c) (B := 1000) (by rw [abs_le]; constructor <;> linarith [hb.1, hb.2]) (by norm_num)
    generalize fl32 (p + c) = x at *
    rw [abs_le] at e1
    norm_num at e1
    have e2 : |fl32 (2 ^ 23 * x) - 2 ^ 23 * x| ≤ (2 ^ 23 * 1200) / 2 ^ 24 := by
      refine err_le ?_ (by norm_num)
      rw [abs_le]; constructor <;> norm_num <;> linarith [e1.1, e1.2, hb.1, hb.2]
    generalize fl32 (2 ^ 23 * x) = t at *
    rw [abs_le] at e2 ⊢
    norm_num at *
    constructor <;> linarith [e1.1, e1.2, hb.1, hb.2, e2.1, e2.2]
  · have e1 := err_le (x := p + c) (B := 1130) (by rw [abs_le]; constructor <;> linarith [hb.1, hb.2]) (by norm_num)
    generalize fl32 (p + c) = x at *
    rw [abs_le] at e1
    norm_num at e1
    have e2 : |fl32 (2 ^ 23 * x) - 2 ^ 23 * x| ≤ (2 ^ 23 * 1140) / 2 ^ 24 := by
      refine err_le ?_ (by norm_num)
      rw [abs_le]; constructor <;> norm_num <;> linarith [e1.1, e1.2, hb.1, hb.2]
    generalize fl32 (2 ^ 23 * x) = t at *
    rw [abs_le] at e2 ⊢
    norm_num at *
    constructor <;> linarith [e1.1, e1.2, hb.1, hb.2, e2.1, e2.2]

/-- What `fasterpow2` returns for `-126 ≤ p`, when the conversion is defined. -/
theorem pow2_val {p : ℚ} (h0 : -126 ≤ p) (h1 : p ≤ 385) :
    ∃ n : Nat, pow2 fl32 p = .ok (BitVec.ofNat 32 n) ∧ n < 2 ^ 32 ∧
      |(n : ℚ) / 2 ^ 23 - (p + 12694269504 / 10 ^ 8)| ≤ 16 / 100000 := by
  have ha := pow2_arg h0 (by linarith)
  unfold pow2
  simp only
  rw [if_neg (not_lt.2 h0)]
  generalize fl32 (2 ^ 23 * fl32 (p + bias fl32)) = t at *
  rw [abs_le] at ha
  norm_num at ha
  have tf := Int.floor_le t
  have tf' := Int.lt_floor_add_one t
  have t0 : 0 ≤ ⌊t⌋ := Int.floor_nonneg.2 (by linarith [ha.1])
  have tl : ⌊t⌋ < 2 ^ 32 := by
    have : (⌊t⌋ : ℚ) < ((2 ^ 32 : ℤ) : ℚ) := by push_cast; linarith [ha.2]
    exact_mod_cast this
  rw [if_pos tl]
  obtain ⟨n, hn⟩ := Int.eq_ofNat_of_zero_le t0
  rw [hn] at tf tf' tl ⊢
  refine ⟨n, rfl, by exact_mod_cast tl, ?_⟩
  rw [abs_le]
  push_cast at tf tf'
  norm_num
  constructor <;> linarith [ha.1, ha.2]

end FastMath

/-- **C83** (rounding included) `fast_pow2`: for every exponent from -125.9 to 128 the result is a number between 4 % below
and 2.1 % above the power of two. -/
theorem C83_pow2 (p : ℚ) (h0 : -1259 / 10 ≤ p) (h1 : p ≤ 128) :
    ∃ r w, pow2 fl32 p = .ok r ∧ f32Val r = some w ∧
      96 / 100 * (2 : ℝ) ^ (p : ℝ) ≤ w ∧ (w : ℝ) ≤ 1021 / 1000 * (2 : ℝ) ^ (p : ℝ) ∧
      (2 : ℝ) ^ ((p : ℝ) - 575 / 10000) ≤ w ∧ (w : ℝ) ≤ (2 : ℝ) ^ ((p : ℝ) + 295 / 10000) := by
  obtain ⟨n, e, hn, ha⟩ := pow2_val (p := p) (by linarith) (by linarith)
  rw [abs_le] at ha
  norm_num at ha
  have n1 : 2 ^ 23 ≤ n := by
    have : ((2 ^ 23 : Nat) : ℚ) ≤ n := by push_cast; linarith [ha.1]
    exact_mod_cast this
  have n2 : n < 255 * 2 ^ 23 := by
    have : (n : ℚ) < ((255 * 2 ^ 23 : Nat) : ℚ) := by push_cast; linarith [ha.2]
    exact_mod_cast this
  refine ⟨_, _, e, val_of_toNat n2, ?_⟩
  obtain ⟨E, k, hk, rfl⟩ : ∃ E k, k < 2 ^ 23 ∧ n = 2 ^ 23 * E + k := ⟨n / 2 ^ 23, n % 2 ^ 23, by omega, by omega⟩
  have hm := mag_normal (E := E) (k := k) (by omega) hk
  obtain ⟨wp, l1, l2⟩ := log_bounds (E := E) hk hm
  have ha' : |(((2 ^ 23 * E + k : Nat) : ℚ) : ℝ) / 2 ^ 23 - ((p : ℝ) + 12694269504 / 10 ^ 8)| ≤ 16 / 100000 := by
    have h3 : |((2 ^ 23 * E + k : Nat) : ℚ) / 2 ^ 23 - (p + 12694269504 / 10 ^ 8)| ≤ 16 / 100000 := by
      rw [abs_le]; push_cast at ha ⊢; norm_num; constructor <;> linarith [ha.1, ha.2]
    have := (Rat.cast_le (K := ℝ)).2 h3
    rw [Rat.cast_abs] at this; push_cast at this ⊢; exact this
  rw [Rat.cast_natCast] at ha'
  rw [abs_le] at ha'
  norm_num at ha'
  have wlo : (2 : ℝ) ^ ((p : ℝ) - 575 / 10000) ≤ (f32Mag (2 ^ 23 * E + k) : ℝ) := by
    rw [← Real.le_logb_iff_rpow_le (by norm_num) wp]
    push_cast at l1
    linarith [ha'.1]
  have whi : (f32Mag (2 ^ 23 * E + k) : ℝ) ≤ (2 : ℝ) ^ ((p : ℝ) + 295 / 10000) := by
    rw [← Real.logb_le_iff_le_rpow (by norm_num) wp]
    push_cast at l2
    linarith [ha'.2]
  have pp : 0 < (2 : ℝ) ^ (p : ℝ) := by positivity
  refine ⟨le_trans ?_ wlo, whi.trans ?_, wlo, whi⟩
  · rw [Real.rpow_sub (by norm_num), le_div_iff₀ (by positivity)]
    have : (2 : ℝ) ^ (575 / 10000 : ℝ) ≤ 25 / 24 := two_rpow_le 17 1 (by norm_num) (by norm_num) (by norm_num) (by norm_num)
    nlinarith
  · rw [Real.rpow_add (by norm_num)]
    have : (2 : ℝ) ^ (295 / 10000 : ℝ) ≤ 1021 / 1000 := two_rpow_le 67 2 (by norm_num) (by norm_num) (by norm_num) (by norm_num)
    nlinarith

/-- **C83** (rounding included) Below -126 the result is the constant that -126 gives, a positive subnormal number close to
`2^-126`: `fast_pow2` does not underflow to zero. -/
theorem C83_clamp (p : ℚ) (h : p ≤ -126) :
    ∃ r w, pow2 fl32 p = .ok r ∧ pow2 fl32 (-126) = .ok r ∧ f32Val r = some w ∧
      94 / 100 * (2 : ℚ) ^ (-126 : ℤ) ≤ w ∧ w ≤ (2 : ℚ) ^ (-126 : ℤ) := by
  obtain ⟨n, e, hn, ha⟩ := pow2_val (p := -126) le_rfl (by norm_num)
  have e' : pow2 fl32 p = pow2 fl32 (-126) := by
    rcases h.eq_or_lt with rfl | h
    · rfl
    · unfold pow2; simp only [h, if_true, lt_irrefl, if_false]
  rw [abs_le] at ha
  norm_num at ha
  have n2 : n < 2 ^ 23 := by
    have : (n : ℚ) < ((2 ^ 23 : Nat) : ℚ) := by push_cast; linarith [ha.2]
    exact_mod_cast this
  refine ⟨_, _, e'.trans e, e, val_of_toNat (by omega), ?_, (mag_sub_lt n2).le⟩
  unfold f32Mag
  rw [if_pos (by omega)]
  rw [show (2 : ℚ) ^ (-126 : ℤ) = 2 ^ 23 * (2 : ℚ) ^ (-149 : ℤ) by norm_num, ← mul_assoc]
  refine mul_le_mul_of_nonneg_right ?_ (by positivity)
  norm_num; linarith [ha.1]

/-- **C83 fails** above 129.06, where the exponent spills into the sign bit: up to 385 the result is negative or not a
number (for instance a negative number at 200), and from 386 to 1000 the conversion to `uint32_t` is undefined. -/
theorem C83_overflow_violation (p : ℚ) :
    (1291 / 10 ≤ p → p ≤ 385 → ∃ r, pow2 fl32 p = .ok r ∧ (f32Val r = none ∨ ∃ w, f32Val r = some w ∧ w ≤ 0)) ∧
    (386 ≤ p → p ≤ 1000 → pow2 fl32 p = .error .badFloatCast) := by
  constructor
  · intro h0 h1
    obtain ⟨n, e, hn, ha⟩ := pow2_val (p := p) (by linarith) h1
    rw [abs_le] at ha
    norm_num at ha
    have n1 : 2 ^ 31 ≤ n := by
      have : ((2 ^ 31 : Nat) : ℚ) ≤ n := by push_cast; linarith [ha.1]
      exact_mod_cast this
    refine ⟨_, e, ?_⟩
    have et : (BitVec.ofNat 32 n).toNat = n := by rw [BitVec.toNat_ofNat]; omega
    unfold f32Val
    rw [et]
    split_ifs with h2
    · right
      exact ⟨_, rfl, by have := mag_nonneg (n % 2 ^ 31); linarith⟩
    · left; rfl
  · intro h0 h1
    have ha := pow2_arg (p := p) (by linarith) h1
    unfold pow2
    simp only
    rw [if_neg (show ¬ p < -126 by linarith)]
    generalize fl32 (2 ^ 23 * fl32 (p + bias fl32)) = t at *
    rw [abs_le] at ha
    norm_num at ha
    rw [if_neg]
    rw [not_lt, Int.le_floor]
    norm_num
    linarith [ha.1]

/-- A negative result: `fast_pow2(200)`. -/
theorem C83_negative_violation : ∃ r w, pow2 fl32 200 = .ok r ∧ f32Val r = some w ∧ w < 0 := by
  obtain ⟨n, e, hn, ha⟩ := pow2_val (p := 200) (by norm_num) (by norm_num)
  rw [abs_le] at ha
  norm_num at ha
  have n1 : 2 ^ 31 + 70 * 2 ^ 23 ≤ n := by
    have : ((2 ^ 31 + 70 * 2 ^ 23 : Nat) : ℚ) ≤ n := by push_cast; linarith [ha.1]
    exact_mod_cast this
  have n2 : n ≤ 2 ^ 31 + 71 * 2 ^ 23 := by
    have : (n : ℚ) ≤ ((2 ^ 31 + 71 * 2 ^ 23 : Nat) : ℚ) := by push_cast; linarith [ha.2]
    exact_mod_cast this
  have et : (BitVec.ofNat 32 n).toNat = n := by rw [BitVec.toNat_ofNat]; omega
  refine ⟨_, _, e, by unfold f32Val; rw [et, if_pos (by omega), if_pos (by omega)], ?_⟩
  have hp : 0 < f32Mag (n % 2 ^ 31) := by
    obtain ⟨E, k, hk, e2⟩ : ∃ E k, k < 2 ^ 23 ∧ n % 2 ^ 31 = 2 ^ 23 * E + k := ⟨n % 2 ^ 31 / 2 ^ 23, n % 2 ^ 31 % 2 ^ 23, by omega, by omega⟩
    rw [e2, mag_normal (by omega) hk]; positivity
  linarith

namespace FastMath
/-- `fasterlog2(10)`. -/
theorem log2_ten : |FastMath.log2 fl32 0x41200000#32 - 330730496 / 10 ^ 8| ≤ 6 / 100000 := by
  have := log2_err 1092616192 (by norm_num)
  have e : (1092616192 : ℚ) / 2 ^ 23 - 12694269504 / 10 ^ 8 = 330730496 / 10 ^ 8 := by norm_num
  unfold FastMath.log2
  rw [show (0x41200000#32).toNat = 1092616192 from rfl]
  push_cast at this
  rw [e] at this
  push_cast
  exact this

/-- The exponent `fast_pow10` passes on. -/
theorem pow10_arg {x : ℚ} (h : |x| ≤ 38) :
    |fl32 (x * FastMath.log2 fl32 0x41200000#32) - x * (330730496 / 10 ^ 8)| ≤ |x| * (6 / 100000) + 128 / 2 ^ 24 := by
  have ht := log2_ten
  generalize FastMath.log2 fl32 0x41200000#32 = t at *
  have h1 : |x * t - x * (330730496 / 10 ^ 8)| ≤ |x| * (6 / 100000) := by
    rw [← mul_sub, abs_mul]; exact mul_le_mul_of_nonneg_left ht (abs_nonneg x)
  have h2 : |fl32 (x * t) - x * t| ≤ 128 / 2 ^ 24 := by
    refine err_le ?_ (by norm_num)
    rw [abs_mul]
    have : |t| ≤ 336 / 100 := by
      rw [abs_le] at ht ⊢; norm_num at ht ⊢; constructor <;> linarith [ht.1, ht.2]
    calc |x| * |t| ≤ 38 * (336 / 100) := mul_le_mul h this (abs_nonneg _) (by norm_num)
      _ ≤ 128 := by norm_num
  have := abs_sub_le (fl32 (x * t)) (x * t) (x * (330730496 / 10 ^ 8))
  linarith

theorem ten_rpow (x : ℝ) : (10 : ℝ) ^ x = (2 : ℝ) ^ (Real.logb 2 10 * x) := by
  rw [Real.rpow_mul (by norm_num), Real.rpow_logb (by norm_num) (by norm_num) (by norm_num)]
end FastMath

/-- **C83** (rounding included) `fast_pow10`: for exponents between -1 and 1 the result is within 5 % of the power of ten. -/
theorem C83_pow10_partial (x : ℚ) (h : |x| ≤ 1) :
    ∃ r w, pow10 fl32 x = .ok r ∧ f32Val r = some w ∧ |(w : ℝ) - (10 : ℝ) ^ (x : ℝ)| ≤ 5 / 100 * (10 : ℝ) ^ (x : ℝ) := by
  have ha := pow10_arg (x := x) (by linarith)
  have hx := abs_le.1 h
  unfold pow10 FastMath.pow
  generalize fl32 (x * FastMath.log2 fl32 0x41200000#32) = p at *
  have ha2 : |p - x * (330730496 / 10 ^ 8)| ≤ 7 / 100000 := by
    refine ha.trans ?_
    norm_num; linarith
  have ha3 := abs_le.1 ha2
  norm_num at ha3
  obtain ⟨r, w, e, ev, -, -, wlo, whi⟩ := C83_pow2 p (by linarith [ha3.1, hx.1]) (by linarith [ha3.2, hx.2])
  refine ⟨r, w, e, ev, ?_⟩
  have ha' : |(p : ℝ) - x * (330730496 / 10 ^ 8)| ≤ 7 / 100000 := by
    have := (Rat.cast_le (K := ℝ)).2 ha2
    rw [Rat.cast_abs] at this; push_cast at this; exact this
  have hx' : |(x : ℝ)| ≤ 1 := by exact_mod_cast h
  have t1 := logb_ten.1
  have t2 := logb_ten.2
  have hd : |(p : ℝ) - Real.logb 2 10 * x| ≤ 148 / 10000 := by
    have k : |(x : ℝ) * (330730496 / 10 ^ 8) - Real.logb 2 10 * x| ≤ 1463 / 100000 := by
      rw [show (x : ℝ) * (330730496 / 10 ^ 8) - Real.logb 2 10 * x = (330730496 / 10 ^ 8 - Real.logb 2 10) * x by ring, abs_mul]
      have k1 : |330730496 / 10 ^ 8 - Real.logb 2 10| ≤ 1463 / 100000 := by
        rw [abs_le]; norm_num at t1 t2 ⊢; constructor <;> linarith
      calc _ ≤ 1463 / 100000 * 1 := mul_le_mul k1 hx' (abs_nonneg _) (by norm_num)
        _ = _ := by norm_num
    have := abs_sub_le (p : ℝ) (x * (330730496 / 10 ^ 8)) (Real.logb 2 10 * x)
    linarith
  rw [ten_rpow]
  generalize Real.logb 2 10 * x = q at *
  rw [abs_le] at hd
  have qp : 0 < (2 : ℝ) ^ q := by positivity
  have up : (w : ℝ) ≤ 105 / 100 * (2 : ℝ) ^ q := by
    refine whi.trans ?_
    calc (2 : ℝ) ^ ((p : ℝ) + 295 / 10000) ≤ (2 : ℝ) ^ (443 / 10000 + q) :=
          Real.rpow_le_rpow_of_exponent_le (by norm_num) (by linarith [hd.2])
      _ = (2 : ℝ) ^ (443 / 10000 : ℝ) * (2 : ℝ) ^ q := Real.rpow_add (by norm_num) _ _
      _ ≤ 105 / 100 * (2 : ℝ) ^ q := mul_le_mul_of_nonneg_right
          (two_rpow_le 15 1 (by norm_num) (by norm_num) (by norm_num) (by norm_num)) qp.le
  have lo : 95 / 100 * (2 : ℝ) ^ q ≤ w := by
    refine le_trans ?_ wlo
    have h1 : (2 : ℝ) ^ q ≤ (2 : ℝ) ^ (723 / 10000 + ((p : ℝ) - 575 / 10000)) :=
      Real.rpow_le_rpow_of_exponent_le (by norm_num) (by linarith [hd.1])
    rw [Real.rpow_add (by norm_num)] at h1
    have h2 : (2 : ℝ) ^ (723 / 10000 : ℝ) ≤ 20 / 19 := two_rpow_le 41 3 (by norm_num) (by norm_num) (by norm_num) (by norm_num)
    have h3 : 0 < (2 : ℝ) ^ ((p : ℝ) - 575 / 10000) := by positivity
    have := mul_le_mul_of_nonneg_right h2 h3.le
    linarith
  rw [abs_le]; constructor <;> linarith

/-- **C83** (rounding included) `fast_pow10` in general: for every exponent between -38 and 38 the result is a positive float, off from `10^x` by the factor `2^(-0.0146 x)` of the
approximated logarithm of 10, within -0.0577 - 0.0002 |x| and 0.0297 + 0.0002 |x| binary orders. -/
theorem C83_pow10 (x : ℚ) (h : |x| ≤ 38) :
    ∃ r w, pow10 fl32 x = .ok r ∧ f32Val r = some w ∧
      (10 : ℝ) ^ (x : ℝ) * (2 : ℝ) ^ (-(146 / 10000) * (x : ℝ) - 2 / 10000 * |(x : ℝ)| - 577 / 10000) ≤ w ∧
      (w : ℝ) ≤ (10 : ℝ) ^ (x : ℝ) * (2 : ℝ) ^ (-(146 / 10000) * (x : ℝ) + 2 / 10000 * |(x : ℝ)| + 297 / 10000) := by
  have ha := pow10_arg (x := x) h
  unfold pow10 FastMath.pow
  generalize fl32 (x * FastMath.log2 fl32 0x41200000#32) = p at *
  have ha3 := abs_le.1 ha
  have hx := abs_le.1 h
  norm_num at ha3
  obtain ⟨r, w, e, ev, -, -, wlo, whi⟩ := C83_pow2 p (by linarith [ha3.1, hx.1]) (by linarith [ha3.2, hx.2])
  refine ⟨r, w, e, ev, ?_, ?_⟩
  all_goals
    have ha' : |(p : ℝ) - x * (330730496 / 10 ^ 8)| ≤ |(x : ℝ)| * (6 / 100000) + 128 / 2 ^ 24 := by
      have := (Rat.cast_le (K := ℝ)).2 ha
      rw [Rat.cast_abs] at this; push_cast at this; exact this
    have t1 := logb_ten.1
    have t2 := logb_ten.2
    have hd : |(p : ℝ) - (Real.logb 2 10 - 146 / 10000) * x| ≤ 2 / 10000 * |(x : ℝ)| + 1 / 10000 := by
      have k : |(x : ℝ) * (330730496 / 10 ^ 8) - (Real.logb 2 10 - 146 / 10000) * x| ≤ 1 / 10000 * |(x : ℝ)| := by
        rw [show (x : ℝ) * (330730496 / 10 ^ 8) - (Real.logb 2 10 - 146 / 10000) * x = (330730496 / 10 ^ 8 + 146 / 10000 - Real.logb 2 10) * x by ring, abs_mul]
        refine mul_le_mul_of_nonneg_right ?_ (abs_nonneg _)
        rw [abs_le]; norm_num at t1 t2 ⊢; constructor <;> linarith
      have := abs_sub_le (p : ℝ) (x * (330730496 / 10 ^ 8)) ((Real.logb 2 10 - 146 / 10000) * x)
      norm_num at this ha' ⊢
      linarith [abs_nonneg (x : ℝ)]
    have hd := abs_le.1 hd
    rw [ten_rpow, ← Real.rpow_add (by norm_num)]
  · refine le_trans (Real.rpow_le_rpow_of_exponent_le (by norm_num) ?_) wlo
    linarith [hd.1]
  · refine whi.trans (Real.rpow_le_rpow_of_exponent_le (by norm_num) ?_)
    linarith [hd.2]

/-- **C83 fails** for `fast_pow10` of larger arguments: for every exponent from 10 to 38 the result is more than 7 % too
small, because the logarithm of 10 itself is approximated. -/
theorem C83_pow10_violation (x : ℚ) (h0 : 10 ≤ x) (h1 : x ≤ 38) :
    ∃ r w, pow10 fl32 x = .ok r ∧ f32Val r = some w ∧ (w : ℝ) ≤ 93 / 100 * (10 : ℝ) ^ (x : ℝ) := by
  have hx : |x| = x := abs_of_nonneg (by linarith)
  have ha := pow10_arg (x := x) (by rw [hx]; exact h1)
  rw [hx] at ha
  unfold pow10 FastMath.pow
  generalize fl32 (x * FastMath.log2 fl32 0x41200000#32) = p at *
  have ha3 := abs_le.1 ha
  norm_num at ha3
  obtain ⟨r, w, e, ev, -, -, -, whi⟩ := C83_pow2 p (by linarith [ha3.1]) (by linarith [ha3.2])
  refine ⟨r, w, e, ev, whi.trans ?_⟩
  have hp : (p : ℝ) ≤ x * (33074 / 10000) := by
    have : p ≤ x * (33074 / 10000) := by linarith [ha3.2]
    have := (Rat.cast_le (K := ℝ)).2 this
    push_cast at this; exact this
  have hx0 : (10 : ℝ) ≤ x := by exact_mod_cast h0
  rw [ten_rpow]
  have t1 := logb_ten.1
  have hq : Real.logb 2 10 * x ≥ 3321926 / 1000000 * x := by
    have : (3321926 / 1000000 : ℝ) ≤ Real.logb 2 10 := by norm_num at t1 ⊢; exact t1
    exact mul_le_mul_of_nonneg_right this (by linarith)
  generalize Real.logb 2 10 * (x : ℝ) = q at *
  have h2 : (2 : ℝ) ^ (1155 / 10000 + ((p : ℝ) + 295 / 10000)) ≤ (2 : ℝ) ^ q :=
    Real.rpow_le_rpow_of_exponent_le (by norm_num) (by linarith)
  rw [Real.rpow_add (by norm_num)] at h2
  have h3 : (100 / 93 : ℝ) ≤ (2 : ℝ) ^ (1155 / 10000 : ℝ) := le_two_rpow 9 1 (by norm_num) (by norm_num) (by norm_num)
  have h4 : 0 < (2 : ℝ) ^ ((p : ℝ) + 295 / 10000) := by positivity
  have := mul_le_mul_of_nonneg_right h3 h4.le
  linarith

/-- The hypotheses are met: 1.0 (bits `0x3F800000`) is a normal float, -1.0 a negative one, and the exponents are numbers in
range. -/
example : f32Val 0x3F800000#32 = some 1 ∧ f32Val 0xBF800000#32 = some (-1) ∧ f32Val 0x41200000#32 = some 10 := by
  have h1 : (0x3F800000#32).toNat = 1065353216 := rfl
  have h2 : (0xBF800000#32).toNat = 3212836864 := rfl
  have h3 : (0x41200000#32).toNat = 1092616192 := rfl
  unfold f32Val f32Mag
  rw [h1, h2, h3]
  norm_num

end Verif
