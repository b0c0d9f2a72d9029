import Verif.Props.FastSin
import Verif.Props.Allpass
import Verif.Props.Reso
import Mathlib.Analysis.SpecialFunctions.Trigonometric.Arctan
import Mathlib.Analysis.SpecialFunctions.Trigonometric.ArctanDeriv
/-!
# C84: the fast tangent, and the filter coefficients computed with the fast sine and tangent
-/
namespace Verif
open Rounding
namespace FastMath

theorem rnd_step_of {p : ℕ} {emin : ℤ} {fl : ℚ → ℚ} (L : Lawful p emin fl) (hp : 53 ≤ p) (he : emin ≤ -1074) (x : ℚ) {X : ℝ}
    (h : |(x : ℝ)| ≤ X) : |((fl x : ℚ) : ℝ) - x| ≤ X / 2 ^ 53 + 1 / 10 ^ 50 := by
  have h1 := L.err x
  have h2 : max (|x| / 2 ^ p) ((2 : ℚ) ^ emin / 2) ≤ |x| / 2 ^ 53 + 1 / 10 ^ 50 := by
    have h0 : (0 : ℚ) ≤ |x| / 2 ^ 53 := by positivity
    refine max_le ?_ ?_
    · have : |x| / 2 ^ p ≤ |x| / 2 ^ 53 :=
        div_le_div_of_nonneg_left (abs_nonneg x) (by positivity) (pow_le_pow_right₀ (by norm_num) hp)
      linarith [show (0 : ℚ) ≤ 1 / 10 ^ 50 by positivity]
    · have : (2 : ℚ) ^ emin ≤ (2 : ℚ) ^ (-1074 : ℤ) := zpow_le_zpow_right₀ (by norm_num) he
      have h4 : (2 : ℚ) ^ (-1074 : ℤ) ≤ (2 : ℚ) ^ (-200 : ℤ) := zpow_le_zpow_right₀ (by norm_num) (by norm_num)
      have h5 : (2 : ℚ) ^ (-200 : ℤ) / 2 ≤ 1 / 10 ^ 50 := by norm_num
      exact ((div_le_div_of_nonneg_right (this.trans h4) (by norm_num)).trans h5).trans (by linarith)
  have h3 := (Rat.cast_le (K := ℝ)).2 (h1.trans h2)
  rw [Rat.cast_abs] at h3
  push_cast at h3
  have : |(x : ℝ)| / 2 ^ 53 ≤ X / 2 ^ 53 := div_le_div_of_nonneg_right h (by positivity)
  linarith

theorem pi64_err : |((pi64 fl64 : ℚ) : ℝ) - Real.pi| ≤ 1 / 10 ^ 15 := by
  have h := rnd_step_of fl64_lawful le_rfl le_rfl (31415926535897932384626433832795 / 10 ^ 31) (X := 3.2) (by
    push_cast; rw [abs_of_nonneg (by norm_num)]; norm_num)
  have h2 : |((31415926535897932384626433832795 / 10 ^ 31 : ℚ) : ℝ) - Real.pi| ≤ 1 / 10 ^ 18 := by
    push_cast
    rw [abs_le]; constructor <;> linarith [pi_lo, pi_hi]
  have := abs_sub_le ((pi64 fl64 : ℚ) : ℝ) ((31415926535897932384626433832795 / 10 ^ 31 : ℚ) : ℝ) Real.pi
  unfold pi64 at *
  have h3 : (3.2 : ℝ) / 2 ^ 53 + 1 / 10 ^ 50 ≤ 9 / 10 ^ 16 := by norm_num
  linarith

/-- The angle `pi * f / sps` computed in `double`. -/
theorem angle_err (f : ℚ) (sps : Nat) (hs : 0 < sps) (h0 : 0 ≤ f) (h1 : f ≤ sps) :
    |((fl64 (fl64 (pi64 fl64 * f) / sps) : ℚ) : ℝ) - Real.pi * f / sps| ≤ 1 / 10 ^ 14 := by
  have hs1 : (1 : ℝ) ≤ sps := by exact_mod_cast hs
  have f0 : (0 : ℝ) ≤ f := by exact_mod_cast h0
  have f1 : (f : ℝ) ≤ sps := by exact_mod_cast h1
  have hp := pi64_err
  have hpa := abs_le.1 hp
  have e1 := rnd_step_of fl64_lawful le_rfl le_rfl (pi64 fl64 * f) (X := 3.2 * f) (by
    push_cast
    rw [abs_mul, abs_of_nonneg f0]
    refine mul_le_mul_of_nonneg_right ?_ f0
    rw [abs_le]; constructor <;> linarith [pi_lo, pi_hi, hpa.1, hpa.2])
  have e2 : |((pi64 fl64 * f : ℚ) : ℝ) - Real.pi * f| ≤ 1 / 10 ^ 15 * f := by
    push_cast
    rw [← sub_mul, abs_mul, abs_of_nonneg f0]
    exact mul_le_mul_of_nonneg_right hp f0
  have e3 : |((fl64 (pi64 fl64 * f) : ℚ) : ℝ) - Real.pi * f| ≤ 3 / 10 ^ 15 * sps := by
    have := abs_sub_le ((fl64 (pi64 fl64 * f) : ℚ) : ℝ) ((pi64 fl64 * f : ℚ) : ℝ) (Real.pi * f)
    have h3 : 3.2 * (f : ℝ) / 2 ^ 53 ≤ 5 / 10 ^ 16 * f := by
      rw [show 3.2 * (f : ℝ) / 2 ^ 53 = (3.2 / 2 ^ 53) * f by ring]
      exact mul_le_mul_of_nonneg_right (by norm_num) f0
    have h4 : (1 : ℝ) / 10 ^ 50 ≤ 1 / 10 ^ 15 := by norm_num
    linarith
  have e4 : |((fl64 (pi64 fl64 * f) / sps : ℚ) : ℝ) - Real.pi * f / sps| ≤ 3 / 10 ^ 15 := by
    push_cast
    rw [← sub_div, abs_div, abs_of_nonneg (show (0 : ℝ) ≤ sps by linarith), div_le_iff₀ (by linarith)]
    exact e3
  have hq : Real.pi * f / sps ≤ Real.pi := by
    rw [div_le_iff₀ (by linarith)]; exact mul_le_mul_of_nonneg_left f1 Real.pi_pos.le
  have hq0 : 0 ≤ Real.pi * f / sps := by have := Real.pi_pos; positivity
  have e5 := rnd_step_of fl64_lawful le_rfl le_rfl (fl64 (pi64 fl64 * f) / sps) (X := 3.2) (by
    rw [abs_le] at e4 ⊢; constructor <;> linarith [e4.1, e4.2, pi_hi])
  have := abs_sub_le ((fl64 (fl64 (pi64 fl64 * f) / sps) : ℚ) : ℝ) ((fl64 (pi64 fl64 * f) / sps : ℚ) : ℝ) (Real.pi * f / sps)
  have h3 : (3.2 : ℝ) / 2 ^ 53 + 1 / 10 ^ 50 ≤ 9 / 10 ^ 16 := by norm_num
  linarith

theorem cos_lo (x : ℝ) (h : |x| ≤ 8 / 10) : 68 / 100 ≤ Real.cos x := by
  have h1 := Real.one_sub_sq_div_two_le_cos (x := x)
  have h2 : x ^ 2 ≤ (8 / 10) ^ 2 := by rw [← sq_abs]; exact pow_le_pow_left₀ (abs_nonneg x) h 2
  linarith

theorem tan_abs (x : ℝ) (h : |x| ≤ 8 / 10) : |Real.tan x| ≤ 11 / 10 := by
  have hc := cos_lo x h
  have hs := Real.sin_sq_add_cos_sq x
  have : |Real.sin x| ≤ 74 / 100 := abs_le_of_sq_le_sq (by nlinarith) (by norm_num)
  rw [Real.tan_eq_sin_div_cos, abs_div, abs_of_pos (by linarith : 0 < Real.cos x), div_le_iff₀ (by linarith)]
  linarith

end FastMath
open FastMath

/-- C84 (tangent): for every angle of modulus at most 0.8 (a little more than π/4) the fast tangent, rounding included,
is within 3.3e-4 of the tangent. -/
theorem C84_tangent (x : ℚ) (h : |(x : ℝ)| ≤ 8 / 10) :
    |((FastMath.tan fl32 x : ℚ) : ℝ) - Real.tan x| ≤ 33 / 10 ^ 5 := by
  have hc := cos_lo x h
  have ht := tan_abs x h
  have hpi := pi_lo
  have hpi' := pi_hi
  have hx := abs_le.1 h
  have e1 := C84_sine x (by linarith)
  have l := FloatErr.lit (x := 15707963267948966 / 10 ^ 16) (a := Real.pi / 2) (e1 := 1 / 10 ^ 15) (X := 1.6) (e := 1 / 10 ^ 7)
    (by push_cast; rw [abs_le]; constructor <;> linarith) (by push_cast; rw [abs_of_nonneg (by norm_num)]; norm_num) (by norm_num)
  have ha := FloatErr.add (ah := x) (a := x) (ea := 0) (by simp) l (S := 2.4) (e := 3 / 10 ^ 7)
    (by rw [abs_le]; constructor <;> linarith) (by norm_num)
  have haa := abs_le.1 ha
  have e2 := C84_sine (fl32 (x + fl32 (15707963267948966 / 10 ^ 16))) (by
    rw [abs_le]; constructor <;> linarith)
  have e3 : |Real.sin ((fl32 (x + fl32 (15707963267948966 / 10 ^ 16)) : ℚ) : ℝ) - Real.cos x| ≤ 3 / 10 ^ 7 := by
    rw [← Real.sin_add_pi_div_two]
    exact (Real.abs_sin_sub_sin_le _ _).trans ha
  unfold FastMath.tan
  generalize FastMath.sin fl32 (fl32 (x + fl32 (15707963267948966 / 10 ^ 16))) = d at *
  generalize FastMath.sin fl32 x = s at *
  have e4 : |(d : ℝ) - Real.cos x| ≤ 1003 / 10 ^ 7 := by
    have := abs_sub_le (d : ℝ) (Real.sin ((fl32 (x + fl32 (15707963267948966 / 10 ^ 16)) : ℚ) : ℝ)) (Real.cos x)
    linarith
  have e4a := abs_le.1 e4
  have d0 : (679 / 1000 : ℝ) ≤ d := by linarith
  have e5 : |(s : ℝ) / d - Real.tan x| ≤ 32 / 10 ^ 5 := by
    have hd : (d : ℝ) ≠ 0 := by linarith
    have hcn : Real.cos x ≠ 0 := by linarith
    have eq : (s : ℝ) / d - Real.tan x = ((s - Real.sin x) - Real.tan x * (d - Real.cos x)) / d := by
      rw [Real.tan_eq_sin_div_cos]; field_simp; ring
    rw [eq, abs_div, abs_of_pos (show (0 : ℝ) < d by linarith), div_le_iff₀ (by linarith)]
    have h1 : |Real.tan x * (d - Real.cos x)| ≤ 11 / 10 * (1003 / 10 ^ 7) := by
      rw [abs_mul]; exact mul_le_mul ht e4 (abs_nonneg _) (by norm_num)
    have h2 := abs_sub (s - Real.sin x) (Real.tan x * (d - Real.cos x))
    linarith
  have e6 : |((s / d : ℚ) : ℝ)| ≤ 2 := by
    push_cast
    rw [abs_le] at e5 ht ⊢; constructor <;> linarith [e5.1, e5.2]
  have e7 := FloatErr.rnd_step (s / d) e6
  have e8 := abs_sub_le ((fl32 (s / d) : ℚ) : ℝ) ((s / d : ℚ) : ℝ) (Real.tan x)
  have e9 : (2 : ℝ) / 2 ^ 24 + 1 / 2 ^ 149 ≤ 1 / 10 ^ 5 := by norm_num
  have e10 : ((s / d : ℚ) : ℝ) = (s : ℝ) / d := by push_cast; ring
  rw [e10] at e8
  rw [e10] at e7
  linarith

theorem arctan_lip (a b : ℝ) : |Real.arctan a - Real.arctan b| ≤ |a - b| := by
  have := Convex.norm_image_sub_le_of_norm_deriv_le (f := Real.arctan) (s := Set.univ) (C := 1) (x := b) (y := a)
    (fun x _ => Real.differentiableAt_arctan x) (fun x _ => by
      rw [Real.deriv_arctan, Real.norm_eq_abs, abs_of_pos (by positivity)]
      rw [div_le_one (by positivity)]; nlinarith [sq_nonneg x]) convex_univ (Set.mem_univ _) (Set.mem_univ _)
  simpa [Real.norm_eq_abs] using this

/-- The tangent of an angle at least `π / 10000 - 1e-6` below `π / 4`. -/
theorem tan_lt (x : ℝ) (h0 : 0 ≤ x) (h : x ≤ Real.pi / 4 - 313 / 10 ^ 6) : Real.tan x ≤ 1 - 43 / 10 ^ 5 := by
  have hp := pi_lo
  have hp' := pi_hi
  have hmono : Real.tan x ≤ Real.tan (Real.pi / 4 - 313 / 10 ^ 6) := by
    rcases eq_or_lt_of_le h with e | e
    · rw [e]
    · exact (Real.tan_lt_tan_of_lt_of_lt_pi_div_two (by linarith) (by linarith) e).le
  refine hmono.trans ?_
  have hc : 0 < Real.cos (Real.pi / 4 - 313 / 10 ^ 6) := Real.cos_pos_of_mem_Ioo ⟨by linarith, by linarith⟩
  have hs := Real.sin_gt_sub_cube (x := 313 / 10 ^ 6) (by norm_num)
  have hc1 := Real.cos_le_one (Real.pi / 4 - 313 / 10 ^ 6)
  rw [Real.tan_eq_sin_div_cos, div_le_iff₀ hc]
  have key : Real.cos (Real.pi / 4 - 313 / 10 ^ 6) - Real.sin (Real.pi / 4 - 313 / 10 ^ 6) = √2 * Real.sin (313 / 10 ^ 6) := by
    rw [Real.sin_sub, Real.cos_sub, Real.cos_pi_div_four, Real.sin_pi_div_four]; ring
  have h2 : (1.414 : ℝ) ≤ √2 := Real.le_sqrt_of_sq_le (by norm_num)
  have h3 : 43 / 10 ^ 5 ≤ √2 * Real.sin (313 / 10 ^ 6) := by
    have : (312 / 10 ^ 6 : ℝ) ≤ Real.sin (313 / 10 ^ 6) := by
      refine le_trans ?_ hs.le; norm_num
    calc (43 / 10 ^ 5 : ℝ) ≤ 1.414 * (312 / 10 ^ 6) := by norm_num
      _ ≤ _ := mul_le_mul h2 this (by norm_num) (by positivity)
  nlinarith

/-- C57, C84 (pivot): the coefficient of a one-pole all-pass filter made for the pivot frequency `f`, computed in floating
point with the fast tangent (whatever the precision of `long double`), is less than 1 in modulus, for every sample rate and
every `f` from `sps / 10000` to `sps / 2 - sps / 10000`, and the filter with that coefficient shifts the phase by exactly a
quarter of a period at a frequency less than `sps / 9000` away from `f`. -/
theorem C57_pivot_float {p : ℕ} {emin : ℤ} {flx : ℚ → ℚ} (L : Lawful p emin flx) (hp : 53 ≤ p) (he : emin ≤ -1074)
    (f : ℚ) (sps : Nat) (hs : 0 < sps) (h0 : (sps : ℚ) / 10000 ≤ f) (h1 : f ≤ sps / 2 - sps / 10000) :
    let a : ℝ := (pivotCoef fl32 fl64 flx f sps : ℚ)
    |a| < 1 ∧ ∃ f' : ℝ, |f' - f| < sps / 9000 ∧
      ∀ y, Shifts (outAt (Fx.onePoleAllpass a) y) (2 * Real.pi * f' / sps) (-(Real.pi / 2)) := by
  have hpi := pi_lo
  have hpi' := pi_hi
  have hs1 : (1 : ℝ) ≤ sps := by exact_mod_cast hs
  have f0 : (sps : ℝ) / 10000 ≤ f := by have := (Rat.cast_le (K := ℝ)).2 h0; push_cast at this; exact this
  have f1 : (f : ℝ) ≤ sps / 2 - sps / 10000 := by have := (Rat.cast_le (K := ℝ)).2 h1; push_cast at this; exact this
  have hsq : (1 : ℚ) ≤ sps := by exact_mod_cast hs
  have ang := angle_err f sps hs (by linarith [show (0 : ℚ) < sps / 10000 by positivity]) (by linarith)
  have hp4 := pi64_err
  set v : ℝ := Real.pi * f / sps with hv
  have v0 : Real.pi / 10000 ≤ v := by
    rw [hv, le_div_iff₀ (by linarith)]
    calc Real.pi / 10000 * sps = Real.pi * (sps / 10000) := by ring
      _ ≤ _ := mul_le_mul_of_nonneg_left f0 Real.pi_pos.le
  have v1 : v ≤ Real.pi / 2 - Real.pi / 10000 := by
    rw [hv, div_le_iff₀ (by linarith)]
    calc Real.pi * f ≤ Real.pi * (sps / 2 - sps / 10000) := mul_le_mul_of_nonneg_left f1 Real.pi_pos.le
      _ = _ := by ring
  unfold pivotCoef
  generalize fl64 (fl64 (pi64 fl64 * f) / sps) = w at *
  generalize pi64 fl64 = P at *
  have hd : |((w - P / 4 : ℚ) : ℝ) - (v - Real.pi / 4)| ≤ 2 / 10 ^ 14 := by
    push_cast
    rw [abs_le] at *; constructor <;> linarith [ang.1, ang.2, hp4.1, hp4.2]
  have hda := abs_le.1 hd
  have x1 := rnd_step_of L hp he (w - P / 4) (X := 1) (by rw [abs_le]; constructor <;> linarith)
  have hk : (1 : ℝ) / 2 ^ 53 + 1 / 10 ^ 50 ≤ 1 / 10 ^ 14 := by norm_num
  have x1a := abs_le.1 (x1.trans hk)
  have x2 := FloatErr.rnd_step (flx (w - P / 4)) (X := 1) (by rw [abs_le]; constructor <;> linarith)
  have hk2 : (1 : ℝ) / 2 ^ 24 + 1 / 2 ^ 149 ≤ 1 / 10 ^ 7 := by norm_num
  have x2a := abs_le.1 (x2.trans hk2)
  generalize fl32 (flx (w - P / 4)) = x at *
  have hx : |(x : ℝ) - (v - Real.pi / 4)| ≤ 11 / 10 ^ 8 := by
    rw [abs_le]; constructor <;> linarith
  have hxa := abs_le.1 hx
  have xb : |(x : ℝ)| ≤ Real.pi / 4 - 313 / 10 ^ 6 := by rw [abs_le]; constructor <;> linarith
  have T := C84_tangent x (by linarith)
  have tb : |Real.tan x| ≤ 1 - 43 / 10 ^ 5 := by
    rcases le_total 0 (x : ℝ) with hh | hh
    · rw [abs_of_nonneg hh] at xb
      rw [abs_of_nonneg (Real.tan_nonneg_of_nonneg_of_le_pi_div_two hh (by linarith))]
      exact tan_lt x hh xb
    · rw [abs_of_nonpos hh] at xb
      rw [← abs_neg, ← Real.tan_neg, abs_of_nonneg (Real.tan_nonneg_of_nonneg_of_le_pi_div_two (by linarith) (by linarith))]
      exact tan_lt _ (by linarith) xb
  intro a
  have T' : |a - Real.tan x| ≤ 33 / 10 ^ 5 := T
  have a1 : |a| < 1 := by
    rw [abs_le] at T' tb; rw [abs_lt]; constructor <;> linarith [T'.1, T'.2, tb.1, tb.2]
  refine ⟨a1, sps * (Real.arctan a + Real.pi / 4) / Real.pi, ?_, ?_⟩
  · have hat : Real.arctan (Real.tan x) = x := Real.arctan_tan (by linarith [(abs_le.1 xb).1]) (by linarith [(abs_le.1 xb).2])
    have hl := arctan_lip a (Real.tan x)
    rw [hat] at hl
    have hf : (f : ℝ) = sps * v / Real.pi := by
      have hpp := Real.pi_pos.ne'
      have hss : (sps : ℝ) ≠ 0 := by linarith
      rw [hv]; field_simp
    rw [hf, ← sub_div, ← mul_sub, abs_div, abs_mul, abs_of_pos Real.pi_pos, abs_of_pos (show (0 : ℝ) < sps by linarith),
      div_lt_iff₀ Real.pi_pos]
    have h3 : |Real.arctan a + Real.pi / 4 - v| ≤ 331 / 10 ^ 6 := by
      have h2 := hl.trans T'
      rw [abs_le] at *; constructor <;> linarith [h2.1, h2.2]
    calc _ ≤ (sps : ℝ) * (331 / 10 ^ 6) := mul_le_mul_of_nonneg_left h3 (by linarith)
      _ < (sps : ℝ) * (Real.pi / 9000) := by
        refine mul_lt_mul_of_pos_left ?_ (by linarith)
        linarith
      _ = _ := by ring
  · intro y
    have haa := abs_lt.1 a1
    have k1 : Real.arctan a < Real.pi / 4 := by rw [← Real.arctan_one]; exact Real.arctan_strictMono haa.2
    have k2 : -(Real.pi / 4) < Real.arctan a := by
      rw [← Real.arctan_one, ← Real.arctan_neg]; exact Real.arctan_strictMono haa.1
    have hsp : (0 : ℝ) < sps := by linarith
    have hpp := Real.pi_pos
    have q := C57_pivot (sps * (Real.arctan a + Real.pi / 4) / Real.pi) sps y hsp
      (by apply div_pos _ hpp; exact mul_pos hsp (by linarith))
      (by rw [div_lt_iff₀ hpp, div_mul_eq_mul_div, mul_div_assoc]; exact mul_lt_mul_of_pos_left (by linarith) hsp)
    have e : Real.pi * (sps * (Real.arctan a + Real.pi / 4) / Real.pi) / sps - Real.pi / 4 = Real.arctan a := by
      field_simp; ring
    simp only [e, Real.tan_arctan] at q
    exact q.2

/-- The hypotheses are met by a pivot of 1 kHz at 44.1 kHz, with `long double` the 64-bit significand format of x87. -/
example : ∃ flx : ℚ → ℚ, Lawful 64 (-16445) flx ∧ ((44100 : Nat) : ℚ) / 10000 ≤ 1000 ∧
    (1000 : ℚ) ≤ (44100 : Nat) / 2 - (44100 : Nat) / 10000 :=
  ⟨rnd 64 (-16445), rnd_lawful 64 (by norm_num) _, by norm_num, by norm_num⟩

/-- C84 (resonant filter): the cut-off coefficient of the resonant filter, computed in floating point with the fast sine,
is within 2.1e-4 of `2 sin (π f / sps)` for every frequency up to half the sample rate. -/
theorem C84_reso (f : ℚ) (sps : Nat) (hs : 0 < sps) (h0 : 0 ≤ f) (h1 : f ≤ sps / 2) :
    |((resoCoef fl32 fl64 f sps : ℚ) : ℝ) - 2 * Real.sin (Real.pi * f / sps)| ≤ 21 / 10 ^ 5 := by
  have hpi := pi_lo
  have hpi' := pi_hi
  have hs1 : (1 : ℝ) ≤ sps := by exact_mod_cast hs
  have f0 : (0 : ℝ) ≤ f := by exact_mod_cast h0
  have f1 : (f : ℝ) ≤ sps / 2 := by have := (Rat.cast_le (K := ℝ)).2 h1; push_cast at this; exact this
  have hf := FloatErr.rnd_step f (X := f) (by rw [abs_of_nonneg f0])
  have hf0 : 0 ≤ fl32 f := fl32_lawful.nonneg h0
  have hf' : |((fl32 f : ℚ) : ℝ) - f| ≤ sps / 10 ^ 7 := by
    refine hf.trans ?_
    have : (1 : ℝ) / 2 ^ 149 ≤ 1 / 10 ^ 9 := by norm_num
    have : (f : ℝ) / 2 ^ 24 ≤ sps / 2 / 2 ^ 24 := div_le_div_of_nonneg_right f1 (by positivity)
    linarith
  have hfa := abs_le.1 hf'
  have hfs : fl32 f ≤ sps := by
    have : ((fl32 f : ℚ) : ℝ) ≤ ((sps : ℚ) : ℝ) := by push_cast; linarith
    exact_mod_cast this
  have ang := angle_err (fl32 f) sps hs hf0 hfs
  unfold resoCoef
  generalize fl64 (fl64 (pi64 fl64 * fl32 f) / sps) = w at *
  generalize fl32 f = g at *
  set v : ℝ := Real.pi * f / sps with hv
  have v0 : 0 ≤ v := by have := Real.pi_pos; positivity
  have v1 : v ≤ Real.pi / 2 := by
    rw [hv, div_le_iff₀ (by linarith)]
    calc Real.pi * f ≤ Real.pi * (sps / 2) := mul_le_mul_of_nonneg_left f1 Real.pi_pos.le
      _ = _ := by ring
  have hg : |Real.pi * g / sps - v| ≤ 4 / 10 ^ 7 := by
    rw [hv, ← sub_div, ← mul_sub, abs_div, abs_mul, abs_of_pos Real.pi_pos, abs_of_pos (show (0 : ℝ) < sps by linarith),
      div_le_iff₀ (by linarith)]
    calc Real.pi * |(g : ℝ) - f| ≤ 4 * (sps / 10 ^ 7) := mul_le_mul (by linarith) hf' (abs_nonneg _) (by norm_num)
      _ = _ := by ring
  have hw : |(w : ℝ) - v| ≤ 41 / 10 ^ 8 := by
    rw [abs_le] at *; constructor <;> linarith [ang.1, ang.2, hg.1, hg.2]
  have hwa := abs_le.1 hw
  have x2 := FloatErr.rnd_step w (X := 1.6) (by rw [abs_le]; constructor <;> linarith)
  have hk2 : (1.6 : ℝ) / 2 ^ 24 + 1 / 2 ^ 149 ≤ 1 / 10 ^ 7 := by norm_num
  have x2a := abs_le.1 (x2.trans hk2)
  generalize fl32 w = x at *
  have S := C84_sine x (by rw [abs_le]; constructor <;> linarith)
  have sl : |Real.sin x - Real.sin v| ≤ 51 / 10 ^ 8 :=
    (Real.abs_sin_sub_sin_le _ _).trans (by rw [abs_le]; constructor <;> linarith)
  generalize FastMath.sin fl32 x = s at *
  have Sa := abs_le.1 S
  have sla := abs_le.1 sl
  have b1 := Real.sin_le_one v
  have b2 := Real.neg_one_le_sin v
  have x3 := FloatErr.rnd_step (2 * s) (X := 2.1) (by push_cast; rw [abs_le]; constructor <;> linarith)
  have hk3 : (2.1 : ℝ) / 2 ^ 24 + 1 / 2 ^ 149 ≤ 1 / 10 ^ 6 := by norm_num
  have x3a := abs_le.1 (x3.trans hk3)
  push_cast at x3a
  rw [abs_le]; constructor <;> linarith

/-- C74, C84: for every frequency from `sps / 20000` to `0.1666 sps` the coefficient of the resonant filter lies strictly
between 0 and 1, so that the filter is stable (C74) and the division by `1 - f` is defined. -/
theorem C74_cutoff_float (f : ℚ) (sps : Nat) (hs : 0 < sps) (h0 : (sps : ℚ) / 20000 ≤ f) (h1 : f ≤ 1666 / 10000 * sps) :
    0 < resoCoef fl32 fl64 f sps ∧ resoCoef fl32 fl64 f sps < 1 := by
  have hpi := pi_lo
  have hpi' := pi_hi
  have hs1 : (1 : ℝ) ≤ sps := by exact_mod_cast hs
  have hsq : (1 : ℚ) ≤ sps := by exact_mod_cast hs
  have f0 : (sps : ℝ) / 20000 ≤ f := by have := (Rat.cast_le (K := ℝ)).2 h0; push_cast at this; exact this
  have f1 : (f : ℝ) ≤ 1666 / 10000 * sps := by have := (Rat.cast_le (K := ℝ)).2 h1; push_cast at this; exact this
  have E := abs_le.1 (C84_reso f sps hs (by linarith [show (0 : ℚ) < sps / 20000 by positivity]) (by linarith))
  set v : ℝ := Real.pi * f / sps with hv
  have v0 : Real.pi / 20000 ≤ v := by
    rw [hv, le_div_iff₀ (by linarith)]
    calc Real.pi / 20000 * sps = Real.pi * (sps / 20000) := by ring
      _ ≤ _ := mul_le_mul_of_nonneg_left f0 Real.pi_pos.le
  have v1 : v ≤ Real.pi * (1666 / 10000) := by
    rw [hv, div_le_iff₀ (by linarith)]
    calc Real.pi * f ≤ Real.pi * (1666 / 10000 * sps) := mul_le_mul_of_nonneg_left f1 Real.pi_pos.le
      _ = _ := by ring
  have lo : (15 / 10 ^ 5 : ℝ) ≤ Real.sin v := by
    have h1 := Real.sin_gt_sub_cube (x := 157 / 10 ^ 6) (by norm_num)
    have h2 : Real.sin (157 / 10 ^ 6) ≤ Real.sin v := Real.sin_le_sin_of_le_of_le_pi_div_two (by linarith) (by linarith) (by linarith)
    have h3 : (15 / 10 ^ 5 : ℝ) ≤ 157 / 10 ^ 6 - (157 / 10 ^ 6) ^ 3 / 6 := by norm_num
    linarith
  have hi : Real.sin v ≤ 1 / 2 - 11 / 10 ^ 5 := by
    have h2 : Real.sin v ≤ Real.sin (Real.pi / 6 - 2 / 10 ^ 4) :=
      Real.sin_le_sin_of_le_of_le_pi_div_two (by linarith) (by linarith) (by linarith)
    rw [Real.sin_sub, Real.sin_pi_div_six, Real.cos_pi_div_six] at h2
    have h3 := Real.sin_gt_sub_cube (x := 2 / 10 ^ 4) (by norm_num)
    have h4 := Real.cos_le_one (2 / 10 ^ 4)
    have h5 : (1.73 : ℝ) ≤ √3 := Real.le_sqrt_of_sq_le (by norm_num)
    have h6 : (199 / 10 ^ 6 : ℝ) ≤ Real.sin (2 / 10 ^ 4) := le_trans (by norm_num) h3.le
    have h7 : 1.73 / 2 * (199 / 10 ^ 6) ≤ √3 / 2 * Real.sin (2 / 10 ^ 4) := mul_le_mul (by linarith) h6 (by norm_num) (by positivity)
    have h8 : (11 / 10 ^ 5 : ℝ) ≤ 1.73 / 2 * (199 / 10 ^ 6) := by norm_num
    linarith
  constructor
  · have : (0 : ℝ) < (resoCoef fl32 fl64 f sps : ℚ) := by linarith
    exact_mod_cast this
  · have : ((resoCoef fl32 fl64 f sps : ℚ) : ℝ) < 1 := by linarith
    exact_mod_cast this

/-- The hypotheses are met by a cut-off of 7 kHz at 44.1 kHz. -/
example : ((44100 : Nat) : ℚ) / 20000 ≤ 7000 ∧ (7000 : ℚ) ≤ 1666 / 10000 * (44100 : Nat) := by norm_num

end Verif
