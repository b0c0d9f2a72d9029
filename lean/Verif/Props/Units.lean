import Verif.Model.Units
import Verif.Props.DecibelInverse
import Mathlib.Tactic.IntervalCases
/-!
# C70: unit types
-/
namespace Verif
open Rounding UnitTypes

variable {fl fd fx : ℚ → ℚ}

/-- One over one-and-a-bit, twice: the composition of two roundings of a reciprocal. -/
theorem UnitTypes.recip_recip {x y z u : ℚ} (hx : 0 < x) (hu : 0 ≤ u) (hu1 : u ≤ 1 / 1000) (hy : |y - 1 / x| ≤ u * (1 / x))
    (hz : |z - 1 / y| ≤ u * (1 / y)) : |z - x| ≤ 2 * u * (1 + 2 * u) * x := by
  have hix : 0 < 1 / x := by positivity
  rw [abs_le] at hy
  have y0 : 0 < y := by nlinarith
  have e1 : |1 / y - x| ≤ u * (1 / y) := by
    have : 1 / y - x = -((y - 1 / x) * x) * (1 / y) := by field_simp; ring
    rw [this, abs_mul, abs_of_pos (by positivity : 0 < 1 / y), abs_neg, abs_mul, abs_of_pos hx]
    apply mul_le_mul_of_nonneg_right _ (by positivity)
    have h : |y - 1 / x| ≤ u * (1 / x) := abs_le.mpr hy
    calc |y - 1 / x| * x ≤ u * (1 / x) * x := mul_le_mul_of_nonneg_right h hx.le
      _ = u := by field_simp
  have iy : 1 / y ≤ (1 + 2 * u) * x := by
    rw [abs_le] at e1
    have h2 := e1.2
    have iy0 : 0 < 1 / y := by positivity
    have : (1 - u) * (1 / y) ≤ x := by linarith
    by_contra hc
    push Not at hc
    have a1 : (1 - u) * ((1 + 2 * u) * x) < (1 - u) * (1 / y) := mul_lt_mul_of_pos_left hc (by linarith)
    have a2 : (1 - u) * ((1 + 2 * u) * x) = x + (u - 2 * u * u) * x := by ring
    have a3 : 0 ≤ (u - 2 * u * u) * x := mul_nonneg (by nlinarith) hx.le
    linarith
  have iy0 : 0 < 1 / y := by positivity
  calc |z - x| = |(z - 1 / y) + (1 / y - x)| := by ring_nf
    _ ≤ |z - 1 / y| + |1 / y - x| := abs_add_le _ _
    _ ≤ u * (1 / y) + u * (1 / y) := add_le_add hz e1
    _ = 2 * u * (1 / y) := by ring
    _ ≤ 2 * u * ((1 + 2 * u) * x) := mul_le_mul_of_nonneg_left iy (by linarith)
    _ = 2 * u * (1 + 2 * u) * x := by ring

/-- The relative error of rounding a number that is not subnormal. -/
theorem UnitTypes.rel_err {x : ℚ} (D : Lawful 53 (-1074) fd) (hx : 1 / 2 ^ 1000 ≤ x) : |fd x - x| ≤ 1 / 2 ^ 53 * x := by
  have x0 : 0 < x := lt_of_lt_of_le (by positivity) hx
  have e := D.err x
  rw [abs_of_pos x0] at e
  refine e.trans (max_le (by rw [one_div_mul_eq_div]) ?_)
  have : (2 : ℚ) ^ (-1074 : ℤ) / 2 ≤ 1 / 2 ^ 53 * (1 / 2 ^ 1000) := by
    rw [show (-1074 : ℤ) = -((1074 : ℕ) : ℤ) by norm_num, zpow_neg, zpow_natCast]
    have a : (2 : ℚ) ^ 1074 = 2 ^ 53 * 2 ^ 1000 * 2 ^ 21 := by rw [← pow_add, ← pow_add]
    rw [a]
    have p : (0 : ℚ) < 2 ^ 1000 := by positivity
    generalize (2 : ℚ) ^ 1000 = w at *
    rw [mul_inv, mul_inv]
    have : 0 < w⁻¹ := inv_pos.mpr p
    rw [one_div w]
    nlinarith
  refine this.trans (mul_le_mul_of_nonneg_left hx (by positivity))

section
variable (D : Lawful 53 (-1074) fd)
include D

/-- **C70.** Period and frequency are inverse up to `2^-51.99`: for every frequency between `2^-999` and `2^999`, the frequency of its
period differs from it by at most that relative amount; and a longer period is never a higher frequency. -/
theorem C70_period (f : ℚ) (h1 : 1 / 2 ^ 999 ≤ f) (h2 : f ≤ 2 ^ 999) :
    0 < (Frequency.period fd ⟨f⟩).rep ∧
    |(Frequency.ofDuration fd (Frequency.period fd ⟨f⟩)).rep - f| ≤ 1001 / 1000 / 2 ^ 52 * f := by
  have le_two : ∀ {z : ℚ}, 0 ≤ z → z ≤ 2 * z := fun h => by linarith
  have p999 : (0 : ℚ) < 2 ^ 999 := by positivity
  have f0 : 0 < f := lt_of_lt_of_le (by positivity) h1
  have w : (2 : ℚ) ^ 1000 = 2 * 2 ^ 999 := by rw [← pow_succ']
  have b1 : 1 / 2 ^ 999 ≤ 1 / f := one_div_le_one_div_of_le f0 h2
  have b1' : (1 : ℚ) / 2 ^ 1000 ≤ 1 / f := le_trans (by
    apply one_div_le_one_div_of_le p999; rw [w]; exact le_two p999.le) b1
  have r1 := UnitTypes.rel_err D b1'
  have b2 : 1 / f ≤ 2 ^ 999 := by
    rw [div_le_iff₀ f0]
    have := mul_le_mul_of_nonneg_left h1 p999.le
    rw [mul_one_div_cancel p999.ne'] at this
    exact this
  have rep999 : Rep 53 (-1074) ((2 : ℚ) ^ 999) := ⟨1, 999, by norm_num, by norm_num, by rw [show (999 : ℤ) = ((999 : ℕ) : ℤ) by norm_num, zpow_natCast]; simp⟩
  have rep999' : Rep 53 (-1074) (1 / (2 : ℚ) ^ 999) := ⟨1, -999, by norm_num, by norm_num, by
    rw [show (-999 : ℤ) = -((999 : ℕ) : ℤ) by norm_num, zpow_neg, zpow_natCast]; simp⟩
  have c1 : fd (1 / f) ≤ 2 ^ 999 := D.le_of_rep rep999 b2
  have c2 : 1 / 2 ^ 999 ≤ fd (1 / f) := D.ge_of_rep rep999' b1
  have y0 : 0 < fd (1 / f) := lt_of_lt_of_le (by positivity) c2
  refine ⟨y0, ?_⟩
  have b3 : (1 : ℚ) / 2 ^ 1000 ≤ 1 / fd (1 / f) := by
    apply one_div_le_one_div_of_le y0
    rw [w]; exact c1.trans (le_two p999.le)
  have r2 := UnitTypes.rel_err D b3
  have := UnitTypes.recip_recip f0 (by norm_num) (by norm_num) r1 r2
  refine this.trans (mul_le_mul_of_nonneg_right (by norm_num) f0.le)

/-- **C70.** A longer period is never a higher frequency, and conversely. -/
theorem C70_period_order (f g : ℚ) (h0 : 0 < f) (h : Frequency.lt ⟨f⟩ ⟨g⟩ = true) :
    Duration.lt (Frequency.period fd ⟨f⟩) (Frequency.period fd ⟨g⟩) = false ∧
    Frequency.lt (Frequency.ofDuration fd ⟨f⟩) (Frequency.ofDuration fd ⟨g⟩) = false := by
  have h : f < g := by simpa [Frequency.lt] using h
  have m := D.mono _ _ (one_div_le_one_div_of_le h0 h.le)
  constructor
  · exact decide_eq_false (not_lt.mpr m)
  · exact decide_eq_false (not_lt.mpr m)

/-- **C70.** The period constructed from a frequency is its `period()`, so within `2^-53` (relative) of the true reciprocal, and the
frequency constructed from a period likewise. -/
theorem C70_period_value (f : ℚ) (h1 : 0 < f) (h2 : f ≤ 2 ^ 1000) :
    |(Duration.ofFrequency fd ⟨f⟩).rep - 1 / f| ≤ 1 / 2 ^ 53 * (1 / f) ∧ |(Frequency.period fd ⟨f⟩).rep - 1 / f| ≤ 1 / 2 ^ 53 * (1 / f) ∧
    |(Frequency.ofDuration fd ⟨f⟩).rep - 1 / f| ≤ 1 / 2 ^ 53 * (1 / f) :=
  have h := UnitTypes.rel_err D (one_div_le_one_div_of_le h1 h2)
  ⟨h, h, h⟩

/-- **C70.** Sums, differences and multiples of frequencies: the true value correctly rounded to `double`, i.e. a double at least as
close to the true value as every other double; in particular exact whenever the true value is a double, and ordered like the true
values. -/
theorem C70_frequency_arith (a b c d k : ℚ) :
    (∀ v, Rep 53 (-1074) v → |(Frequency.add fd ⟨a⟩ ⟨b⟩).rep - (a + b)| ≤ |v - (a + b)| ∧
      |(Frequency.sub fd ⟨a⟩ ⟨b⟩).rep - (a - b)| ≤ |v - (a - b)| ∧ |(Frequency.scale fd k ⟨a⟩).rep - k * a| ≤ |v - k * a|) ∧
    Rep 53 (-1074) (Frequency.add fd ⟨a⟩ ⟨b⟩).rep ∧ Rep 53 (-1074) (Frequency.sub fd ⟨a⟩ ⟨b⟩).rep ∧ Rep 53 (-1074) (Frequency.scale fd k ⟨a⟩).rep ∧
    (a + b ≤ c + d → Frequency.lt (Frequency.add fd ⟨c⟩ ⟨d⟩) (Frequency.add fd ⟨a⟩ ⟨b⟩) = false) ∧
    (a - b ≤ c - d → Frequency.lt (Frequency.sub fd ⟨c⟩ ⟨d⟩) (Frequency.sub fd ⟨a⟩ ⟨b⟩) = false) :=
  ⟨fun v hv => ⟨D.nearest _ v hv, D.nearest _ v hv, D.nearest _ v hv⟩, D.rep _, D.rep _, D.rep _, fun h => decide_eq_false (not_lt.mpr (D.mono _ _ h)),
    fun h => decide_eq_false (not_lt.mpr (D.mono _ _ h))⟩

/-- **C70.** For powers of two the inverse is exact. -/
theorem C70_period_exact (k : ℤ) (h1 : -1074 ≤ k) (h2 : k ≤ 1074) :
    (Frequency.ofDuration fd (Frequency.period fd ⟨(2 : ℚ) ^ k⟩)).rep = (2 : ℚ) ^ k := by
  simp only [Frequency.ofDuration, Frequency.period]
  rw [one_div ((2 : ℚ) ^ k), ← zpow_neg, D.fix _ (rep_zpow (by omega)), one_div, ← zpow_neg, neg_neg, D.fix _ (rep_zpow (by omega))]

/-- The value a rounding takes when one number of the format is closer than half the spacing. -/
theorem UnitTypes.fl_eq {x r s : ℚ} (hr : Rep 53 (-1074) r) (gap : ∀ t, Rep 53 (-1074) t → |t - r| < s → t = r)
    (h : |r - x| < s / 2) : fd x = r := by
  apply gap _ (D.rep x)
  have n := D.nearest x r hr
  have e : fd x - r = (fd x - x) - (r - x) := by ring
  rw [e]
  refine lt_of_le_of_lt (abs_sub _ _) ?_
  linarith

end

/-- Numbers of the `double` format near a number with a 53-bit significand are at least a unit in the last place apart. -/
theorem UnitTypes.gap53 {m e : ℤ} (hm : 2 ^ 52 < m) (t : ℚ) (ht : Rep 53 (-1074) t)
    (h : |t - m * (2 : ℚ) ^ e| < (2 : ℚ) ^ e) : t = m * (2 : ℚ) ^ e := by
  have pe : (0 : ℚ) < (2 : ℚ) ^ e := two_zpow_pos e
  have t1 : ((2 : ℚ) ^ (e + 52)) ≤ t := by
    rw [zpow_add₀ (by norm_num)]
    have hm' : ((2 : ℤ) ^ 52 + 1 : ℤ) ≤ m := hm
    have hm' : (2 : ℚ) ^ 52 + 1 ≤ m := by exact_mod_cast hm'
    have := (abs_lt.mp h).1
    have h52 : ((2 : ℚ) ^ (52 : ℤ)) = 2 ^ 52 := by norm_cast
    rw [h52]
    nlinarith
  obtain ⟨z, hz⟩ := rep_grid (by norm_num) ht (j := e + 52) t1
  have e1 : (e + 52 + 1 - ((53 : ℕ) : ℤ)) = e := by push_cast; ring
  rw [e1] at hz
  rw [hz] at h ⊢
  have e2 : (z : ℚ) * (2 : ℚ) ^ e - m * (2 : ℚ) ^ e = ((z - m : ℤ) : ℚ) * (2 : ℚ) ^ e := by push_cast; ring
  rw [e2, abs_mul, abs_of_pos pe] at h
  have h3 : |((z - m : ℤ) : ℚ)| < 1 := by
    by_contra hc
    push Not at hc
    have := mul_le_mul_of_nonneg_right hc pe.le
    linarith
  have h4 : |z - m| < 1 := by exact_mod_cast h3
  have h5 : z = m := by rw [Int.abs_lt_one_iff] at h4; omega
  rw [h5]

/-- **C70.** In general the inverse is not exact: the frequency of the period of 49 Hz is not 49 Hz. -/
theorem C70_period_inexact (D : Lawful 53 (-1074) fd) :
    (Frequency.ofDuration fd (Frequency.period fd ⟨49⟩)).rep = 49 + 1 / 2 ^ 47 := by
  have e1 : fd (1 / 49) = 5882252574524729 * (2 : ℚ) ^ (-58 : ℤ) := by
    refine UnitTypes.fl_eq D (s := (2 : ℚ) ^ (-58 : ℤ)) ⟨5882252574524729, -58, by norm_num, by norm_num, by norm_num⟩
      (fun t ht h => ?_) ?_
    · have := UnitTypes.gap53 (m := 5882252574524729) (e := -58) (by norm_num) t ht (by exact_mod_cast h)
      exact_mod_cast this
    · rw [abs_lt]; constructor <;> norm_num
  have e2 : fd (1 / (5882252574524729 * (2 : ℚ) ^ (-58 : ℤ))) = 6896136929411073 * (2 : ℚ) ^ (-47 : ℤ) := by
    refine UnitTypes.fl_eq D (s := (2 : ℚ) ^ (-47 : ℤ)) ⟨6896136929411073, -47, by norm_num, by norm_num, by norm_num⟩
      (fun t ht h => ?_) ?_
    · have := UnitTypes.gap53 (m := 6896136929411073) (e := -47) (by norm_num) t ht (by exact_mod_cast h)
      exact_mod_cast this
    · rw [abs_lt]; constructor <;> norm_num
  simp only [Frequency.ofDuration, Frequency.period]
  rw [e1, e2]
  norm_num


/-- **C70.** Integer literals: `n_Hz` and `n_s` are exact below `2^53`, and `n_KHz`, `n_MHz` are exact when the result is below `2^53`. -/
theorem C70_literals_exact (D : Lawful 53 (-1074) fd) (n : ℕ) :
    (n ≤ 2 ^ 53 → unitInt fd n = n) ∧ (n * 1000 ≤ 2 ^ 53 → scaledInt fd 1000 n = n * 1000) ∧
    (n * 1000000 ≤ 2 ^ 53 → scaledInt fd 1000000 n = n * 1000000) := by
  have ex : ∀ k : ℕ, k ≤ 2 ^ 53 → fd (k : ℚ) = k := by
    intro k hk
    have := rep_int (p := 53) (emin := -1074) (by norm_num) (m := (k : ℤ)) (by
      rw [abs_of_nonneg (by positivity)]; exact_mod_cast hk)
    rw [D.fix _ (by exact_mod_cast this)]
  have sc : ∀ c : ℕ, 1 ≤ c → c ≤ 2 ^ 53 → n * c ≤ 2 ^ 53 → scaledInt fd (c : ℚ) n = n * c := by
    intro c hc hc2 h
    have hn : n ≤ 2 ^ 53 := le_trans (Nat.le_mul_of_pos_right _ hc) h
    unfold scaledInt
    rw [ex n hn, ex c hc2]
    have := ex (n * c) h
    push_cast at this
    exact this
  refine ⟨ex n, fun h => ?_, fun h => ?_⟩
  · exact_mod_cast sc 1000 (by norm_num) (by norm_num) h
  · exact_mod_cast sc 1000000 (by norm_num) (by norm_num) h

/-- Relative errors compose. -/
theorem UnitTypes.compose {a b c u v : ℚ} (hu : 0 ≤ u) (h1 : |a - b| ≤ u * b) (h2 : |b - c| ≤ v * c) :
    |a - c| ≤ (u + v + u * v) * c := by
  have e : a - c = (a - b) + (b - c) := by ring
  rw [e]
  refine (abs_add_le _ _).trans ?_
  have b1 : b ≤ (1 + v) * c := by have := (abs_le.mp h2).2; linarith
  have := mul_le_mul_of_nonneg_left b1 hu
  nlinarith

/-- Relative errors survive a multiplication. -/
theorem UnitTypes.times {a b k u : ℚ} (hk : 0 ≤ k) (h1 : |a - b| ≤ u * b) : |k * a - k * b| ≤ u * (k * b) := by
  rw [← mul_sub, abs_mul, abs_of_nonneg hk]
  have := mul_le_mul_of_nonneg_left h1 hk
  linarith

/-- The relative error of a format at least as precise as `double`. -/
theorem UnitTypes.rel_err' {p : ℕ} {emin : ℤ} (X : Lawful p emin fx) (hp : 53 ≤ p) (he : emin ≤ -1074) {x : ℚ}
    (hx : 1 / 2 ^ 1000 ≤ x) : |fx x - x| ≤ 1 / 2 ^ 53 * x := by
  have x0 : 0 < x := lt_of_lt_of_le (by positivity) hx
  have e := X.err x
  rw [abs_of_pos x0] at e
  have D := Rounding.fl64_lawful
  refine e.trans (max_le ?_ ?_)
  · rw [one_div_mul_eq_div]
    apply div_le_div_of_nonneg_left x0.le (by positivity)
    exact pow_le_pow_right₀ (by norm_num) hp
  · have h1 : (2 : ℚ) ^ emin / 2 ≤ (2 : ℚ) ^ (-1074 : ℤ) / 2 := by
      apply div_le_div_of_nonneg_right _ (by norm_num)
      exact zpow_le_zpow_right₀ (by norm_num) he
    refine h1.trans ?_
    have : (2 : ℚ) ^ (-1074 : ℤ) / 2 ≤ 1 / 2 ^ 53 * (1 / 2 ^ 1000) := by
      rw [show (-1074 : ℤ) = -((1074 : ℕ) : ℤ) by norm_num, zpow_neg, zpow_natCast]
      have a : (2 : ℚ) ^ 1074 = 2 ^ 53 * 2 ^ 1000 * 2 ^ 21 := by rw [← pow_add, ← pow_add]
      rw [a]
      have p : (0 : ℚ) < 2 ^ 1000 := by positivity
      generalize (2 : ℚ) ^ 1000 = w at *
      rw [mul_inv, mul_inv]
      have : 0 < w⁻¹ := inv_pos.mpr p
      rw [one_div w]
      nlinarith
    exact this.trans (mul_le_mul_of_nonneg_left hx (by positivity))

/-- A number with a small relative error keeps half its size. -/
theorem UnitTypes.half {a b : ℚ} (hb : 0 ≤ b) (h : |a - b| ≤ 1 / 2 ^ 53 * b) : b / 2 ≤ a := by
  have := (abs_le.mp h).1
  norm_num at this
  linarith

/-- **C70.** Every literal with a scale suffix denotes the scaled quantity up to a relative error of `3.1 * 2^-53`: every integer of
64 bits, and every `long double` literal of at least `2^-900`, for a `long double` at least as precise as `double`. -/
theorem C70_literals (D : Lawful 53 (-1074) fd) {p : ℕ} {emin : ℤ} (X : Lawful p emin fx) (hp : 53 ≤ p) (he : emin ≤ -1074)
    (c : ℚ) (hc : c = 1000 ∨ c = 1000000 ∨ c = 1 / 1000 ∨ c = 1 / 1000000) :
    (∀ n : ℕ, |scaledInt fd c n - n * c| ≤ 31 / 10 / 2 ^ 53 * (n * c)) ∧
    (∀ x : ℚ, 1 / 2 ^ 900 ≤ x → |scaledReal fd fx c x - x * c| ≤ 31 / 10 / 2 ^ 53 * (x * c)) := by
  have small : ∀ {y : ℚ}, 1 / 2 ^ 950 ≤ y → (1 : ℚ) / 2 ^ 1000 ≤ y := by
    intro y h
    refine le_trans ?_ h
    apply one_div_le_one_div_of_le (by positivity)
    exact pow_le_pow_right₀ (by norm_num) (by norm_num)
  have c0 : (1 : ℚ) / 2 ^ 20 ≤ c := by rcases hc with rfl | rfl | rfl | rfl <;> norm_num
  have cpos : 0 < c := lt_of_lt_of_le (by positivity) c0
  have csmall : (1 : ℚ) / 2 ^ 1000 ≤ c := le_trans (by
    apply one_div_le_one_div_of_le (by positivity)
    exact pow_le_pow_right₀ (by norm_num) (by norm_num)) c0
  have ec := UnitTypes.rel_err D csmall
  have c' := UnitTypes.half cpos.le ec
  have c21 : (1 : ℚ) / 2 ^ 21 ≤ fd c := by
    refine le_trans ?_ c'
    have : (1 : ℚ) / 2 ^ 21 = 1 / 2 ^ 20 / 2 := by norm_num
    linarith
  have c'0 : 0 < fd c := lt_of_lt_of_le (by positivity) c21
  constructor
  · intro n
    rcases Nat.eq_zero_or_pos n with rfl | hn
    · unfold scaledInt
      simp only [Nat.cast_zero, D.zero, zero_mul, sub_zero, abs_zero, mul_zero, le_refl]
    have n1 : (1 : ℚ) ≤ n := by exact_mod_cast hn
    have nn : |fd (n : ℚ) - n| ≤ 1 / 2 ^ 53 * n := UnitTypes.rel_err D (small (le_trans (by
      rw [div_le_one (by positivity)]; exact one_le_pow₀ (by norm_num)) n1))
    have n2 := UnitTypes.half (by linarith) nn
    have e1 : |fd n * fd c - fd n * c| ≤ 1 / 2 ^ 53 * (fd n * c) := UnitTypes.times (by linarith) ec
    have e2 : |fd n * c - n * c| ≤ 1 / 2 ^ 53 * (n * c) := by
      have := UnitTypes.times cpos.le nn
      rw [mul_comm c, mul_comm c] at this; exact this
    have pr : (1 : ℚ) / 2 ^ 22 ≤ fd n * fd c := by
      have : (1 : ℚ) / 2 * (1 / 2 ^ 21) ≤ fd n * fd c := mul_le_mul (by linarith) c21 (by positivity) (by linarith)
      have e : (1 : ℚ) / 2 ^ 22 = 1 / 2 * (1 / 2 ^ 21) := by norm_num
      rw [e]; exact this
    have e3 : |fd (fd n * fd c) - fd n * fd c| ≤ 1 / 2 ^ 53 * (fd n * fd c) := UnitTypes.rel_err D (le_trans (by
      apply one_div_le_one_div_of_le (by positivity)
      exact pow_le_pow_right₀ (by norm_num) (by norm_num)) pr)
    have := UnitTypes.compose (by norm_num) (UnitTypes.compose (by norm_num) e3 e1) e2
    refine this.trans (mul_le_mul_of_nonneg_right (by norm_num) ?_)
    exact mul_nonneg (by linarith) cpos.le
  · intro x hx
    have x0 : 0 < x := lt_of_lt_of_le (by positivity) hx
    have e1 : |x * fd c - x * c| ≤ 1 / 2 ^ 53 * (x * c) := UnitTypes.times x0.le ec
    have pr : (1 : ℚ) / 2 ^ 921 ≤ x * fd c := by
      have : (1 : ℚ) / 2 ^ 900 * (1 / 2 ^ 21) ≤ x * fd c := mul_le_mul hx c21 (by positivity) x0.le
      have e : (1 : ℚ) / 2 ^ 921 = 1 / 2 ^ 900 * (1 / 2 ^ 21) := by
        rw [one_div_mul_one_div, ← pow_add]
      rw [e]; exact this
    have e3 : |fx (x * fd c) - x * fd c| ≤ 1 / 2 ^ 53 * (x * fd c) := UnitTypes.rel_err' X hp he (le_trans (by
      apply one_div_le_one_div_of_le (by positivity)
      exact pow_le_pow_right₀ (by norm_num) (by norm_num)) pr)
    have h3 := UnitTypes.half (mul_nonneg x0.le c'0.le) e3
    have h4 : (1 : ℚ) / 2 ^ 922 ≤ fx (x * fd c) := by
      refine le_trans ?_ h3
      rw [pow_succ, ← div_div]
      exact div_le_div_of_nonneg_right pr (by norm_num)
    have e4 : |fd (fx (x * fd c)) - fx (x * fd c)| ≤ 1 / 2 ^ 53 * fx (x * fd c) := UnitTypes.rel_err D (le_trans (by
      apply one_div_le_one_div_of_le (by positivity)
      exact pow_le_pow_right₀ (by norm_num) (by norm_num)) h4)
    have := UnitTypes.compose (by norm_num) (UnitTypes.compose (by norm_num) e4 e3) e1
    refine this.trans (mul_le_mul_of_nonneg_right (by norm_num) ?_)
    exact mul_nonneg x0.le cpos.le

/-! ## Phases -/

theorem UnitTypes.fract_div (k : ℤ) : ((k % 2 ^ 32 : ℤ) : ℚ) / 2 ^ 32 = Int.fract ((k : ℚ) / 2 ^ 32) := by
  have h := Int.emod_add_mul_ediv k (2 ^ 32)
  have h1 := Int.emod_nonneg k (b := 2 ^ 32) (by norm_num)
  have h2 := Int.emod_lt_of_pos k (b := 2 ^ 32) (by norm_num)
  rw [eq_comm, Int.fract_eq_iff]
  refine ⟨?_, ?_, k / 2 ^ 32, ?_⟩
  · have : (0 : ℚ) ≤ ((k % 2 ^ 32 : ℤ) : ℚ) := by exact_mod_cast h1
    positivity
  · rw [div_lt_one (by norm_num)]; exact_mod_cast h2
  · have h' : ((k % 2 ^ 32 : ℤ) : ℚ) + 2 ^ 32 * ((k / 2 ^ 32 : ℤ) : ℚ) = k := by exact_mod_cast h
    generalize ((k % 2 ^ 32 : ℤ) : ℚ) = a at *
    rw [← h']; field_simp; ring

/-- **C70.** Phases are fractions of a turn: adding, subtracting, negating phases and multiplying them by an integer is the
corresponding operation on fractions of a turn, modulo a whole turn; comparing phases compares the fractions. -/
theorem C70_phase (a b : Phase.Rep) (n : ℤ) :
    Phase.toDouble (phaseAdd a b) = Int.fract (Phase.toDouble a + Phase.toDouble b) ∧
    Phase.toDouble (phaseSub a b) = Int.fract (Phase.toDouble a - Phase.toDouble b) ∧
    Phase.toDouble (phaseNeg a) = Int.fract (-Phase.toDouble a) ∧
    Phase.toDouble (phaseMulInt a n) = Int.fract (n * Phase.toDouble a) ∧
    (phaseLt a b = true ↔ Phase.toDouble a < Phase.toDouble b) := by
  have key : ∀ (r : Phase.Rep) (k : ℤ), r = BitVec.ofInt 32 k → Phase.toDouble r = Int.fract ((k : ℚ) / 2 ^ 32) := by
    intro r k h
    rw [← UnitTypes.fract_div, h]
    unfold Phase.toDouble
    have : ((BitVec.ofInt 32 k).toNat : ℤ) = k % 2 ^ 32 := by
      rw [BitVec.toNat_ofInt]; norm_num
      exact Int.emod_nonneg _ (by norm_num)
    rw [← this]; push_cast; rfl
  have self : ∀ a : Phase.Rep, a = BitVec.ofInt 32 a.toNat := fun a => by simp
  refine ⟨?_, ?_, ?_, ?_, ?_⟩
  · rw [key (phaseAdd a b) (a.toNat + b.toNat) (by rw [BitVec.ofInt_add, ← self, ← self]; rfl)]
    congr 1; unfold Phase.toDouble; push_cast; ring
  · rw [key (phaseSub a b) (a.toNat - b.toNat) (by
      rw [sub_eq_add_neg, BitVec.ofInt_add, BitVec.ofInt_neg, ← self, ← self, ← BitVec.sub_eq_add_neg]; rfl)]
    congr 1; unfold Phase.toDouble; push_cast; ring
  · rw [key (phaseNeg a) (-a.toNat) (by rw [BitVec.ofInt_neg, ← self]; rfl)]
    congr 1; unfold Phase.toDouble; push_cast; ring
  · rw [key (phaseMulInt a n) (a.toNat * n) (by rw [BitVec.ofInt_mul, ← self]; rfl)]
    congr 1; unfold Phase.toDouble; push_cast; ring
  · unfold phaseLt Phase.toDouble
    rw [BitVec.ult_iff_lt, BitVec.lt_def, div_lt_div_iff_of_pos_right (by norm_num)]
    exact_mod_cast Iff.rfl

/-- **C70.** Dividing a phase by a positive integer divides the fraction of a turn, rounded down to a multiple of `2^-32`; dividing by
zero is undefined. -/
theorem C70_phase_div (a : Phase.Rep) (n : ℕ) (hn : 0 < n) (h : n < 2 ^ 32) :
    (∃ r, phaseDivInt a n = .ok r ∧ Phase.toDouble r ≤ Phase.toDouble a / n ∧ Phase.toDouble a / n < Phase.toDouble r + 1 / 2 ^ 32) ∧
    phaseDivInt a 0 = .error .divByZero := by
  constructor
  · have e : BitVec.ofInt 32 (n : ℤ) = BitVec.ofNat 32 n := by simp
    have tn : (BitVec.ofNat 32 n).toNat = n := by rw [BitVec.toNat_ofNat, Nat.mod_eq_of_lt h]
    refine ⟨a / BitVec.ofNat 32 n, ?_, ?_, ?_⟩
    · unfold phaseDivInt
      rw [e, if_neg]
      intro hc
      have := congrArg BitVec.toNat hc
      rw [tn] at this
      simp at this
      omega
    · have nq : (0 : ℚ) < n := by exact_mod_cast hn
      unfold Phase.toDouble
      rw [BitVec.toNat_udiv, tn, div_right_comm]
      apply div_le_div_of_nonneg_right _ (by norm_num)
      exact Nat.cast_div_le
    · have nq : (0 : ℚ) < n := by exact_mod_cast hn
      unfold Phase.toDouble
      rw [BitVec.toNat_udiv, tn, div_right_comm, ← add_div]
      apply div_lt_div_of_pos_right _ (by norm_num)
      rw [div_lt_iff₀ nq]
      have := Nat.lt_div_mul_add (a := a.toNat) hn
      have : (a.toNat : ℚ) < (a.toNat / n : ℕ) * n + n := by exact_mod_cast this
      linarith
  · rfl

/-- **C70.** Scaling or shifting a phase by a floating-point number does not do this: whenever the product of the *raw 32-bit value* by
the factor reaches 1, the result is the end of the turn.  So every phase of at least two raw units "halved" by `* 0.5` or by `/ 2.0`
is the end of the turn, and so is every phase to which a positive fraction of a turn is added. -/
theorem C70_phase_float (D : Lawful 53 (-1074) fd) (a : Phase.Rep) (k : ℚ) :
    (1 ≤ a.toNat * k → phaseMulDouble fd a k = .ok Phase.end_) ∧
    (2 ≤ a.toNat → phaseMulDouble fd a (1 / 2) = .ok Phase.end_ ∧ phaseDivDouble fd a 2 = .ok Phase.end_) ∧
    (1 ≤ a.toNat → 0 ≤ k → phaseAddDouble fd a k = .ok Phase.end_) := by
  have key : ∀ x : ℚ, 1 ≤ x → Phase.frac_phase (fd x) = .ok Phase.end_ := by
    intro x hx
    have := D.ge_of_rep ⟨1, 0, by norm_num, by norm_num, by norm_num⟩ hx
    unfold Phase.frac_phase
    rw [if_pos (by linarith), if_pos this]
  refine ⟨fun h => key _ h, fun h => ⟨key _ ?_, key _ ?_⟩, fun h hk => key _ ?_⟩
  · have : (2 : ℚ) ≤ a.toNat := by exact_mod_cast h
    linarith
  · have : (2 : ℚ) ≤ a.toNat := by exact_mod_cast h
    linarith
  · have : (1 : ℚ) ≤ a.toNat := by exact_mod_cast h
    linarith

/-- **C70.** Hence a quarter turn times 2.0 is not half a turn (with the integer factor 2 it is). -/
theorem C70_phase_float_counterexample (D : Lawful 53 (-1074) fd) :
    phaseMulDouble fd 0x40000000#32 2 = .ok 0xffffffff#32 ∧ phaseMulInt 0x40000000#32 2 = 0x80000000#32 ∧
    Phase.toDouble 0x80000000#32 = 1 / 2 := by
  refine ⟨(C70_phase_float D _ _).1 ?_, by decide, ?_⟩
  · rw [show (0x40000000#32).toNat = 1073741824 by decide]; norm_num
  · unfold Phase.toDouble
    rw [show (0x80000000#32).toNat = 2147483648 by decide]; norm_num

/-! ## Decibels -/

/-- Products of quantities with small relative errors. -/
theorem UnitTypes.prod_close {P Q E x y z : ℝ} (P0 : 0 < P) (Q0 : 0 < Q) (A : |x - P| ≤ 25 / 10 ^ 6 * P) (B : |y - Q| ≤ 25 / 10 ^ 6 * Q)
    (S : |z - P * Q * E| ≤ 25 / 10 ^ 6 * (P * Q * E)) (hE : |E - 1| ≤ 52 / 10 ^ 7) : |z - x * y| ≤ 100 / 10 ^ 6 * (x * y) := by
  rw [abs_le] at A B S hE ⊢
  have x1 : 999975 / 1000000 * P ≤ x := by norm_num at A; linarith
  have x2 : x ≤ 1000025 / 1000000 * P := by norm_num at A; linarith
  have y1 : 999975 / 1000000 * Q ≤ y := by norm_num at B; linarith
  have y2 : y ≤ 1000025 / 1000000 * Q := by norm_num at B; linarith
  have W0 : 0 < P * Q := mul_pos P0 Q0
  have w1 : (999975 / 1000000 * P) * (999975 / 1000000 * Q) ≤ x * y := mul_le_mul x1 y1 (by positivity) (le_trans (by positivity) x1)
  have w2 : x * y ≤ (1000025 / 1000000 * P) * (1000025 / 1000000 * Q) := mul_le_mul x2 y2 (le_trans (by positivity) y1) (by positivity)
  have w1' : 99995 / 100000 * (P * Q) ≤ x * y := by nlinarith
  have w2' : x * y ≤ 1000051 / 1000000 * (P * Q) := by nlinarith
  have z1 : 9999948 / 10000000 * (P * Q) ≤ P * Q * E := by norm_num at hE; nlinarith
  have z2 : P * Q * E ≤ 10000052 / 10000000 * (P * Q) := by norm_num at hE; nlinarith
  norm_num at S ⊢
  constructor <;> nlinarith

/-- Rounding the factors and the product. -/
theorem UnitTypes.prod_round {x y X Y P Z : ℚ} (x0 : 0 < x) (y0 : 0 < y) (r1 : |X - x| ≤ 1 / 2 ^ 24 * x) (r2 : |Y - y| ≤ 1 / 2 ^ 24 * y)
    (r3 : |Z - P| ≤ 1 / 2 ^ 24 * P) (r4 : |P - x * y| ≤ 1 / 2 ^ 53 * (x * y)) : |Z - X * Y| ≤ 1 / 10 ^ 6 * (X * Y) := by
  have h := UnitTypes.compose (by norm_num) r3 r4
  have X1 : (1 - 1 / 10 ^ 7) * x ≤ X := by have := (abs_le.mp r1).1; norm_num at this ⊢; linarith
  have X2 : X ≤ (1 + 1 / 10 ^ 7) * x := by have := (abs_le.mp r1).2; norm_num at this ⊢; linarith
  have Y1 : (1 - 1 / 10 ^ 7) * y ≤ Y := by have := (abs_le.mp r2).1; norm_num at this ⊢; linarith
  have Y2 : Y ≤ (1 + 1 / 10 ^ 7) * y := by have := (abs_le.mp r2).2; norm_num at this ⊢; linarith
  have xy : 0 < x * y := mul_pos x0 y0
  have x' : 0 ≤ (1 - 1 / 10 ^ 7) * x := mul_nonneg (by norm_num) x0.le
  have y' : 0 ≤ (1 - 1 / 10 ^ 7) * y := mul_nonneg (by norm_num) y0.le
  have w1 : (1 - 1 / 10 ^ 7) * x * ((1 - 1 / 10 ^ 7) * y) ≤ X * Y := mul_le_mul X1 Y1 y' (x'.trans X1)
  have w2 : X * Y ≤ (1 + 1 / 10 ^ 7) * x * ((1 + 1 / 10 ^ 7) * y) := mul_le_mul X2 Y2 (y'.trans Y1) (mul_nonneg (by norm_num) x0.le)
  have w1' : (1 - 2 / 10 ^ 7) * (x * y) ≤ X * Y := by nlinarith
  have w2' : X * Y ≤ (1 + 3 / 10 ^ 7) * (x * y) := by nlinarith
  clear w1 w2 X1 X2 Y1 Y2 r1 r2 r3 r4
  rw [abs_le] at h ⊢
  norm_num at h w1' w2' ⊢
  constructor <;> linarith

/-- The level of a product with a small relative error. -/
theorem UnitTypes.log_close {X Y Z : ℝ} (X0 : 0 < X) (Y0 : 0 < Y) (h : |Z - X * Y| ≤ 1 / 10 ^ 6 * (X * Y)) :
    |20 * Real.logb 10 Z - (20 * Real.logb 10 X + 20 * Real.logb 10 Y)| ≤ 2 / 10 ^ 5 := by
  have W : 0 < X * Y := mul_pos X0 Y0
  have r : |Z / (X * Y) - 1| ≤ 1 / 10 ^ 6 := by
    rw [div_sub_one W.ne', abs_div, abs_of_pos W, div_le_iff₀ W]; exact h
  rw [abs_le] at r
  have t0 : 0 < Z / (X * Y) := by norm_num at r; linarith
  have Z0 : 0 < Z := by
    have := mul_pos t0 W
    rwa [div_mul_cancel₀ _ W.ne'] at this
  have e : 20 * Real.logb 10 Z - (20 * Real.logb 10 X + 20 * Real.logb 10 Y) = 20 / Real.log 10 * Real.log (Z / (X * Y)) := by
    rw [Real.log_div Z0.ne' W.ne', Real.log_mul X0.ne' Y0.ne']
    unfold Real.logb; ring
  rw [e]
  have l10 : (2 : ℝ) < Real.log 10 := lt_trans (by norm_num) DbTable.log_ten_bounds.1
  have c : 20 / Real.log 10 ≤ 10 := by rw [div_le_iff₀ (by linarith)]; linarith
  have c0 : 0 ≤ 20 / Real.log 10 := by positivity
  have u1 := Real.log_le_sub_one_of_pos t0
  have u2 := Real.one_sub_inv_le_log_of_pos t0
  generalize Z / (X * Y) = t at *
  have u3 : -(2 / 10 ^ 6) ≤ 1 - t⁻¹ := by
    have : t⁻¹ ≤ 1 + 2 / 10 ^ 6 := by
      rw [inv_le_iff_one_le_mul₀ t0]
      norm_num at r ⊢
      linarith
    linarith
  have l : |Real.log t| ≤ 2 / 10 ^ 6 := by
    rw [abs_le]; constructor
    · linarith
    · norm_num at r ⊢; linarith
  rw [abs_mul, abs_of_nonneg c0]
  refine (mul_le_mul c l (abs_nonneg _) (by norm_num)).trans (by norm_num)

section
variable (L : Lawful 24 (-149) fl) (D : Lawful 53 (-1074) fd)
include L D

/-- **C70.** Every level has an amplitude; comparing levels compares amplitudes; a louder amplitude never has a lower level. -/
theorem C70_level_order (a b : Level) :
    ∃ x y, a.amplitude fl fd = .ok x ∧ b.amplitude fl fd = .ok y ∧ 0 < x ∧ (Level.lt b a = false → x ≤ y) := by
  obtain ⟨x, ex, x0, _⟩ := C61_db2a_total L D (fl a.val) (L.rep _)
  obtain ⟨y, ey, _⟩ := C61_db2a_total L D (fl b.val) (L.rep _)
  refine ⟨x, y, ex, ey, x0, fun h => ?_⟩
  have h : a.val ≤ b.val := by simpa [Level.lt] using h
  exact C61_db2a_mono L D _ _ _ _ (L.rep _) (L.rep _) (L.mono _ _ h) ex ey

/-- **C70.** A louder amplitude never has a lower level. -/
theorem C70_amplitude_order (x y : ℚ) (h0 : 0 ≤ x) (h : x ≤ y) :
    ∃ a b, Level.ofAmplitude fl fd x = .ok a ∧ Level.ofAmplitude fl fd y = .ok b ∧ Level.lt b a = false := by
  obtain ⟨v, ev, _⟩ := (C61_a2db_total L D (fl x) (L.rep _)).1 (L.nonneg h0)
  obtain ⟨w, ew, _⟩ := (C61_a2db_total L D (fl y) (L.rep _)).1 (L.nonneg (h0.trans h))
  refine ⟨⟨v⟩, ⟨w⟩, by unfold Level.ofAmplitude; rw [ev], by unfold Level.ofAmplitude; rw [ew], ?_⟩
  exact decide_eq_false (not_lt.mpr (C61_a2db_mono L D _ _ _ _ (L.rep _) (L.rep _) (L.nonneg h0) (L.mono _ _ h) ev ew))

omit D in
/-- The rounding of a number of size at most 120 to `float`. -/
theorem UnitTypes.err120 {x : ℚ} (h1 : -120 ≤ x) (h2 : x ≤ 120) : |fl x - x| ≤ 120 / 2 ^ 24 := by
  refine (L.err x).trans (max_le ?_ ?_)
  · exact div_le_div_of_nonneg_right (abs_le.mpr ⟨h1, h2⟩) (by norm_num)
  · norm_num

omit L in
/-- The rounding of a number of size at most 120 to `double`. -/
theorem UnitTypes.err120d {x : ℚ} (h1 : -120 ≤ x) (h2 : x ≤ 120) : |fd x - x| ≤ 120 / 2 ^ 53 := by
  refine (D.err _).trans (max_le ?_ ?_)
  · exact div_le_div_of_nonneg_right (abs_le.mpr ⟨h1, h2⟩) (by norm_num)
  · rw [show (-1074 : ℤ) = -((1074 : ℕ) : ℤ) by norm_num, zpow_neg, zpow_natCast]
    have : ((2 : ℚ) ^ 1074)⁻¹ ≤ 1 / 2 ^ 53 := by
      rw [← one_div]
      apply one_div_le_one_div_of_le (by positivity)
      exact pow_le_pow_right₀ (by norm_num) (by norm_num)
    generalize ((2 : ℚ) ^ 1074)⁻¹ = w at *
    norm_num at this ⊢
    linarith

/-- Levels that add up (within rounding) have amplitudes that multiply. -/
theorem UnitTypes.level_close {p0 q0 s0 x y z : ℚ} (rp : Rep 24 (-149) p0) (rq : Rep 24 (-149) q0) (rs : Rep 24 (-149) s0)
    (hp1 : -120 ≤ p0) (hp2 : p0 ≤ 120) (hq1 : -120 ≤ q0) (hq2 : q0 ≤ 120) (hs1 : -120 ≤ s0) (hs2 : s0 ≤ 120)
    (ex : Decibel.db2a fl fd p0 = .ok x) (ey : Decibel.db2a fl fd q0 = .ok y) (ez : Decibel.db2a fl fd s0 = .ok z)
    (δ : |s0 - (p0 + q0)| ≤ 22 / 10 ^ 6) : |z - x * y| ≤ 100 / 10 ^ 6 * (x * y) := by
  have A := C61_db2a_accuracy L D p0 x rp hp1 hp2 ex
  have B := C61_db2a_accuracy L D q0 y rq hq1 hq2 ey
  have S := C61_db2a_accuracy L D s0 z rs hs1 hs2 ez
  have δ' : |((s0 : ℚ) : ℝ) - (((p0 : ℚ) : ℝ) + ((q0 : ℚ) : ℝ))| ≤ 22 / 10 ^ 6 := by
    have : ((|s0 - (p0 + q0)| : ℚ) : ℝ) ≤ ((22 / 10 ^ 6 : ℚ) : ℝ) := by exact_mod_cast δ
    push_cast at this
    exact this
  have hz : (((|z - x * y| : ℚ)) : ℝ) ≤ ((100 / 10 ^ 6 * (x * y) : ℚ) : ℝ) := by
    push_cast
    generalize ((s0 : ℚ) : ℝ) = s at *
    generalize ((p0 : ℚ) : ℝ) = p at *
    generalize ((q0 : ℚ) : ℝ) = q at *
    generalize (x : ℝ) = x at *
    generalize (y : ℝ) = y at *
    generalize (z : ℝ) = z at *
    have eS : (10 : ℝ) ^ (s / 20) = (10 : ℝ) ^ (p / 20) * (10 : ℝ) ^ (q / 20) * Real.exp (Real.log 10 / 20 * (s - (p + q))) := by
      rw [← Real.rpow_add (by norm_num), Real.rpow_def_of_pos (by norm_num), Real.rpow_def_of_pos (by norm_num), ← Real.exp_add]
      congr 1; ring
    have c1 : Real.log 10 / 20 ≤ 1 / 2 := by
      have := Real.log_le_sub_one_of_pos (by norm_num : (0 : ℝ) < 10)
      linarith
    have c0 : 0 ≤ Real.log 10 / 20 := div_nonneg (Real.log_nonneg (by norm_num)) (by norm_num)
    have c2 := DbTable.log_ten_bounds
    have t1 : |Real.log 10 / 20 * (s - (p + q))| ≤ 26 / 10 ^ 7 := by
      rw [abs_mul, abs_of_nonneg c0]
      have c : Real.log 10 / 20 ≤ 0.1152 := by have := c2.2; norm_num at this ⊢; linarith
      calc Real.log 10 / 20 * |s - (p + q)| ≤ 0.1152 * (22 / 10 ^ 6) := mul_le_mul c δ' (abs_nonneg _) (by norm_num)
        _ ≤ 26 / 10 ^ 7 := by norm_num
    have t2 := Real.abs_exp_sub_one_le (x := Real.log 10 / 20 * (s - (p + q))) (t1.trans (by norm_num))
    have P0 : 0 < (10 : ℝ) ^ (p / 20) := Real.rpow_pos_of_pos (by norm_num) _
    have Q0 : 0 < (10 : ℝ) ^ (q / 20) := Real.rpow_pos_of_pos (by norm_num) _
    rw [eS] at S
    generalize Real.exp (Real.log 10 / 20 * (s - (p + q))) = E at *
    generalize (10 : ℝ) ^ (p / 20) = P at *
    generalize (10 : ℝ) ^ (q / 20) = Q at *
    have E2 : |E - 1| ≤ 52 / 10 ^ 7 := t2.trans (by linarith)
    clear t2 t1 eS δ' δ c2 c1 c0
    exact UnitTypes.prod_close P0 Q0 A B S E2
  exact_mod_cast hz

/-- **C70.** Adding levels multiplies amplitudes: for all levels such that both and their sum lie between
-120 and 120 dB, the amplitude of the sum is the product of the amplitudes up to 100 parts in a million. -/
theorem C70_level_sum (a b : Level) (x y z : ℚ) (ha1 : -120 ≤ a.val) (ha2 : a.val ≤ 120) (hb1 : -120 ≤ b.val) (hb2 : b.val ≤ 120)
    (hs1 : -120 ≤ a.val + b.val) (hs2 : a.val + b.val ≤ 120) (ex : a.amplitude fl fd = .ok x) (ey : b.amplitude fl fd = .ok y)
    (ez : (a.add fd b).amplitude fl fd = .ok z) : |z - x * y| ≤ 100 / 10 ^ 6 * (x * y) := by
  have r120 : Rep 24 (-149) (120 : ℚ) := ⟨120, 0, by norm_num, by norm_num, by norm_num⟩
  have r120' : Rep 24 (-149) (-120 : ℚ) := ⟨-120, 0, by norm_num, by norm_num, by norm_num⟩
  have d120 : Rep 53 (-1074) (120 : ℚ) := ⟨120, 0, by norm_num, by norm_num, by norm_num⟩
  have d120' : Rep 53 (-1074) (-120 : ℚ) := ⟨-120, 0, by norm_num, by norm_num, by norm_num⟩
  have s1 : -120 ≤ fd (a.val + b.val) := D.ge_of_rep d120' hs1
  have s2 : fd (a.val + b.val) ≤ 120 := D.le_of_rep d120 hs2
  have e1 := UnitTypes.err120 L ha1 ha2
  have e2 := UnitTypes.err120 L hb1 hb2
  have e3 := UnitTypes.err120 L s1 s2
  have e4 := UnitTypes.err120d D hs1 hs2
  refine UnitTypes.level_close L D (L.rep _) (L.rep _) (L.rep _) (L.ge_of_rep r120' ha1) (L.le_of_rep r120 ha2) (L.ge_of_rep r120' hb1)
    (L.le_of_rep r120 hb2) (L.ge_of_rep r120' s1) (L.le_of_rep r120 s2) ex ey ez ?_
  rw [abs_le] at e1 e2 e3 e4 ⊢
  norm_num at e1 e2 e3 e4 ⊢
  constructor <;> linarith

/-- **C70.** Subtracting levels divides amplitudes: for all levels such that both and their difference lie between
-120 and 120 dB, the amplitude of the first is the product of the amplitudes of the difference and of the second up to 100 parts in a million. -/
theorem C70_level_difference (a b : Level) (x y z : ℚ) (ha1 : -120 ≤ a.val) (ha2 : a.val ≤ 120) (hb1 : -120 ≤ b.val) (hb2 : b.val ≤ 120)
    (hs1 : -120 ≤ a.val - b.val) (hs2 : a.val - b.val ≤ 120) (ex : a.amplitude fl fd = .ok x) (ey : b.amplitude fl fd = .ok y)
    (ez : (a.sub fd b).amplitude fl fd = .ok z) : |x - z * y| ≤ 100 / 10 ^ 6 * (z * y) := by
  have r120 : Rep 24 (-149) (120 : ℚ) := ⟨120, 0, by norm_num, by norm_num, by norm_num⟩
  have r120' : Rep 24 (-149) (-120 : ℚ) := ⟨-120, 0, by norm_num, by norm_num, by norm_num⟩
  have d120 : Rep 53 (-1074) (120 : ℚ) := ⟨120, 0, by norm_num, by norm_num, by norm_num⟩
  have d120' : Rep 53 (-1074) (-120 : ℚ) := ⟨-120, 0, by norm_num, by norm_num, by norm_num⟩
  have s1 : -120 ≤ fd (a.val - b.val) := D.ge_of_rep d120' hs1
  have s2 : fd (a.val - b.val) ≤ 120 := D.le_of_rep d120 hs2
  have e1 := UnitTypes.err120 L ha1 ha2
  have e2 := UnitTypes.err120 L hb1 hb2
  have e3 := UnitTypes.err120 L s1 s2
  have e4 := UnitTypes.err120d D hs1 hs2
  refine UnitTypes.level_close L D (L.rep _) (L.rep _) (L.rep _) (L.ge_of_rep r120' s1) (L.le_of_rep r120 s2) (L.ge_of_rep r120' hb1)
    (L.le_of_rep r120 hb2) (L.ge_of_rep r120' ha1) (L.le_of_rep r120 ha2) ez ey ex ?_
  rw [abs_le] at e1 e2 e3 e4 ⊢
  norm_num at e1 e2 e3 e4 ⊢
  constructor <;> linarith

omit D in
/-- The relative error of rounding to `float`. -/
theorem UnitTypes.rel_err32 {x : ℚ} (hx : 1 / 2 ^ 100 ≤ x) : |fl x - x| ≤ 1 / 2 ^ 24 * x := by
  have x0 : 0 < x := lt_of_lt_of_le (by positivity) hx
  have e := L.err x
  rw [abs_of_pos x0] at e
  refine e.trans (max_le (by rw [one_div_mul_eq_div]) ?_)
  norm_num at hx ⊢
  linarith

/-- **C70.** The level of a product is the sum of the levels, up to 0.0004 dB if the factors and the product lie between 1/8 and 8, and
up to 0.061 dB if they lie between 1/1024 and 1024. -/
theorem C70_level_product (x y : ℚ) (hx : 1 / 1024 ≤ x) (hx' : x ≤ 1024) (hy : 1 / 1024 ≤ y) (hy' : y ≤ 1024)
    (hp : 1 / 1024 ≤ x * y) (hp' : x * y ≤ 1024) :
    ∃ a b c, Level.ofAmplitude fl fd x = .ok a ∧ Level.ofAmplitude fl fd y = .ok b ∧ Level.ofAmplitude fl fd (fd (x * y)) = .ok c ∧
      |c.val - (a.add fd b).val| ≤ 61 / 1000 ∧
      (1 / 8 ≤ x → x ≤ 8 → 1 / 8 ≤ y → y ≤ 8 → 1 / 8 ≤ x * y → x * y ≤ 8 → |c.val - (a.add fd b).val| ≤ 4 / 10000) := by
  have f1024 : Rep 24 (-149) (1024 : ℚ) := ⟨1024, 0, by norm_num, by norm_num, by norm_num⟩
  have f1024' : Rep 24 (-149) (1 / 1024 : ℚ) := ⟨1, -10, by norm_num, by norm_num, by norm_num⟩
  have d1024 : Rep 53 (-1074) (1024 : ℚ) := ⟨1024, 0, by norm_num, by norm_num, by norm_num⟩
  have d1024' : Rep 53 (-1074) (1 / 1024 : ℚ) := ⟨1, -10, by norm_num, by norm_num, by norm_num⟩
  have f8 : Rep 24 (-149) (8 : ℚ) := ⟨8, 0, by norm_num, by norm_num, by norm_num⟩
  have f8' : Rep 24 (-149) (1 / 8 : ℚ) := ⟨1, -3, by norm_num, by norm_num, by norm_num⟩
  have d8 : Rep 53 (-1074) (8 : ℚ) := ⟨8, 0, by norm_num, by norm_num, by norm_num⟩
  have d8' : Rep 53 (-1074) (1 / 8 : ℚ) := ⟨1, -3, by norm_num, by norm_num, by norm_num⟩
  have x0 : 0 < x := lt_of_lt_of_le (by norm_num) hx
  have y0 : 0 < y := lt_of_lt_of_le (by norm_num) hy
  obtain ⟨u, eu, u1, u2, -⟩ := (C61_a2db_total L D (fl x) (L.rep _)).1 (L.nonneg x0.le)
  obtain ⟨v, ev, v1, v2, -⟩ := (C61_a2db_total L D (fl y) (L.rep _)).1 (L.nonneg y0.le)
  have P1 : 1 / 1024 ≤ fd (x * y) := D.ge_of_rep d1024' hp
  have P2 : fd (x * y) ≤ 1024 := D.le_of_rep d1024 hp'
  obtain ⟨w, ew, -⟩ := (C61_a2db_total L D (fl (fd (x * y))) (L.rep _)).1 (L.nonneg (by linarith))
  have X1 : 1 / 1024 ≤ fl x := L.ge_of_rep f1024' hx
  have X2 : fl x ≤ 1024 := L.le_of_rep f1024 hx'
  have Y1 : 1 / 1024 ≤ fl y := L.ge_of_rep f1024' hy
  have Y2 : fl y ≤ 1024 := L.le_of_rep f1024 hy'
  have Z1 : 1 / 1024 ≤ fl (fd (x * y)) := L.ge_of_rep f1024' P1
  have Z2 : fl (fd (x * y)) ≤ 1024 := L.le_of_rep f1024 P2
  refine ⟨⟨u⟩, ⟨v⟩, ⟨w⟩, by unfold Level.ofAmplitude; rw [eu], by unfold Level.ofAmplitude; rw [ev],
    by unfold Level.ofAmplitude; rw [ew], ?_⟩
  have A := C61_a2db_accuracy L D _ _ (L.rep _) eu
  have B := C61_a2db_accuracy L D _ _ (L.rep _) ev
  have Cc := C61_a2db_accuracy L D _ _ (L.rep _) ew
  -- the arguments multiply up to rounding
  have tiny : ∀ {t : ℚ}, 1 / 1024 ≤ t → 1 / 2 ^ 100 ≤ t := fun h => le_trans (by norm_num) h
  have tiny' : ∀ {t : ℚ}, 1 / 1024 ≤ t → 1 / 2 ^ 1000 ≤ t := fun h => le_trans (by
    have : (1024 : ℚ) = 2 ^ 10 := by norm_num
    rw [this]
    apply one_div_le_one_div_of_le (by positivity)
    exact pow_le_pow_right₀ (by norm_num) (by norm_num)) h
  have r1 := UnitTypes.rel_err32 L (tiny hx)
  have r2 := UnitTypes.rel_err32 L (tiny hy)
  have r3 := UnitTypes.rel_err32 L (tiny P1)
  have r4 := UnitTypes.rel_err D (tiny' hp)
  have sum : |fd (u + v) - (u + v)| ≤ 1 / 10 ^ 6 := by
    refine (D.err _).trans (max_le ?_ ?_)
    · have : |u + v| ≤ 242 := abs_le.mpr ⟨by linarith, by linarith⟩
      refine (div_le_div_of_nonneg_right this (by norm_num)).trans (by norm_num)
    · rw [show (-1074 : ℤ) = -((1074 : ℕ) : ℤ) by norm_num, zpow_neg, zpow_natCast]
      have : ((2 : ℚ) ^ 1074)⁻¹ ≤ 1 / 2 ^ 53 := by
        rw [← one_div]
        apply one_div_le_one_div_of_le (by positivity)
        exact pow_le_pow_right₀ (by norm_num) (by norm_num)
      generalize ((2 : ℚ) ^ 1074)⁻¹ = w at *
      norm_num at this ⊢
      linarith
  have q : |fl (fd (x * y)) - fl x * fl y| ≤ 1 / 10 ^ 6 * (fl x * fl y) := by
    generalize fl (fd (x * y)) = Z at *
    generalize fd (x * y) = P at *
    generalize fl x = X at *
    generalize fl y = Y at *
    exact UnitTypes.prod_round x0 y0 r1 r2 r3 r4
  have qd : |20 * Real.logb 10 ((fl (fd (x * y)) : ℚ) : ℝ) - (20 * Real.logb 10 ((fl x : ℚ) : ℝ) + 20 * Real.logb 10 ((fl y : ℚ) : ℝ))| ≤ 2 / 10 ^ 5 := by
    have q' : |((fl (fd (x * y)) : ℚ) : ℝ) - ((fl x : ℚ) : ℝ) * ((fl y : ℚ) : ℝ)| ≤ 1 / 10 ^ 6 * (((fl x : ℚ) : ℝ) * ((fl y : ℚ) : ℝ)) := by
      have := (Rat.cast_le (K := ℝ)).mpr q
      push_cast at this
      exact this
    apply UnitTypes.log_close _ _ q'
    · have : (0 : ℚ) < fl x := by linarith
      exact_mod_cast this
    · have : (0 : ℚ) < fl y := by linarith
      exact_mod_cast this
  have sum' : |((fd (u + v) : ℚ) : ℝ) - ((u : ℝ) + v)| ≤ 1 / 10 ^ 6 := by
    have := (Rat.cast_le (K := ℝ)).mpr sum
    push_cast at this
    exact this
  have fin : ∀ E : ℚ, |(u : ℝ) - 20 * Real.logb 10 ((fl x : ℚ) : ℝ)| ≤ E → |(v : ℝ) - 20 * Real.logb 10 ((fl y : ℚ) : ℝ)| ≤ E →
      |(w : ℝ) - 20 * Real.logb 10 ((fl (fd (x * y)) : ℚ) : ℝ)| ≤ E → |w - fd (u + v)| ≤ 3 * E + 3 / 10 ^ 5 := by
    intro E h1 h2 h3
    have : |(w : ℝ) - ((fd (u + v) : ℚ) : ℝ)| ≤ 3 * (E : ℝ) + 3 / 10 ^ 5 := by
      rw [abs_le] at h1 h2 h3 qd sum' ⊢
      norm_num at qd sum' ⊢
      constructor <;> linarith
    have h : ((|w - fd (u + v)| : ℚ) : ℝ) ≤ ((3 * E + 3 / 10 ^ 5 : ℚ) : ℝ) := by push_cast; exact this
    exact_mod_cast h
  constructor
  · refine (fin (2 / 100) ?_ ?_ ?_).trans (by norm_num)
    · have := A.2.1 X1 X2; push_cast; exact this
    · have := B.2.1 Y1 Y2; push_cast; exact this
    · have := Cc.2.1 Z1 Z2; push_cast; exact this
  · intro a1 a2 b1 b2 c1 c2
    refine (fin (1 / 10000) ?_ ?_ ?_).trans (by norm_num)
    · have := A.1 (L.ge_of_rep f8' a1) (L.le_of_rep f8 a2); push_cast; exact this
    · have := B.1 (L.ge_of_rep f8' b1) (L.le_of_rep f8 b2); push_cast; exact this
    · have := Cc.1 (L.ge_of_rep f8' (D.ge_of_rep d8' c1)) (L.le_of_rep f8 (D.le_of_rep d8 c2)); push_cast; exact this

end

/-- The hypotheses are met: 20 dB and 20 dB, and amplitudes 2 and 3, for IEEE rounding. -/
example : ∃ x y z, Level.amplitude fl32 fl64 ⟨20⟩ = .ok x ∧ Level.amplitude fl32 fl64 ⟨-15 / 2⟩ = .ok y ∧
    (Level.add fl64 ⟨20⟩ ⟨-15 / 2⟩).amplitude fl32 fl64 = .ok z ∧ |z - x * y| ≤ 100 / 10 ^ 6 * (x * y) := by
  obtain ⟨x, y, ex, ey, _⟩ := C70_level_order fl32_lawful fl64_lawful ⟨20⟩ ⟨-15 / 2⟩
  obtain ⟨z, _, ez, _⟩ := C70_level_order fl32_lawful fl64_lawful (Level.add fl64 ⟨20⟩ ⟨-15 / 2⟩) ⟨0⟩
  exact ⟨x, y, z, ex, ey, ez, C70_level_sum fl32_lawful fl64_lawful _ _ x y z (by norm_num) (by norm_num) (by norm_num) (by norm_num)
    (by norm_num) (by norm_num) ex ey ez⟩

/-- 440 Hz. -/
example : |(Frequency.ofDuration fl64 (Frequency.period fl64 ⟨440⟩)).rep - 440| ≤ 1001 / 1000 / 2 ^ 52 * 440 :=
  (C70_period fl64_lawful 440 (le_trans (by
    rw [div_le_one (by positivity)]; exact one_le_pow₀ (by norm_num)) (by norm_num : (1 : ℚ) ≤ 440))
    (le_trans (by norm_num : (440 : ℚ) ≤ 2 ^ 9) (pow_le_pow_right₀ (by norm_num) (by norm_num)))).2

end Verif
