import Verif.Props.FastTan
import Verif.Model.Sin
import Verif.Proof.RoundMore
/-!
# C87: the polynomial tangent `fast_tan`; C88: interpolation and comparison helpers (support/base.hpp)

Specification: `Real.tan`; order and distance of numbers.
-/
namespace Verif
open Rounding
namespace FastMath

/-- The polynomial of `fast_tan` without rounding. -/
noncomputable def TP (x : ℝ) : ℝ := ((2033 / 10 ^ 4 * (x * x) + 31755 / 10 ^ 5) * (x * x) + 1) * x

theorem tan_poly (x : ℝ) (h0 : 0 ≤ x) (h1 : x ≤ 7854 / 10000) :
    let c := 1 - x ^ 2 / 2 + x ^ 4 / 24 - x ^ 6 / 720 + x ^ 8 / 40320
    let s := x - x ^ 3 / 6 + x ^ 5 / 120 - x ^ 7 / 5040 + x ^ 9 / 362880
    |TP x * c - s| ≤ 9 / 10 ^ 4 * c - 1 / 10 ^ 6 := by
  intro c s
  have b (a c : ℝ) (ha : a ≤ x) (hc : x ≤ c) (i j : ℕ) : 0 ≤ (x - a) ^ i * (c - x) ^ j :=
    mul_nonneg (pow_nonneg (by linarith) _) (pow_nonneg (by linarith) _)
  rw [abs_le]
  constructor
  · have b := b 0 (7854 / 10000) h0 h1
    simp only [TP, c, s]
    linarith [b 0 13, b 1 12, b 2 11, b 3 10, b 4 9, b 5 8, b 6 7, b 7 6, b 8 5, b 9 4, b 10 3, b 11 2, b 12 1, b 13 0]
  · simp only [TP, c, s]
    rcases le_total x (4 / 10) with h2 | h2
    · have b := b 0 (4 / 10) h0 h2
      linarith [b 0 13, b 1 12, b 2 11, b 3 10, b 4 9, b 5 8, b 6 7, b 7 6, b 8 5, b 9 4, b 10 3, b 11 2, b 12 1, b 13 0]
    rcases le_total x (6 / 10) with h3 | h3
    · have b := b (4 / 10) (6 / 10) h2 h3
      linarith [b 0 13, b 1 12, b 2 11, b 3 10, b 4 9, b 5 8, b 6 7, b 7 6, b 8 5, b 9 4, b 10 3, b 11 2, b 12 1, b 13 0]
    · have b := b (6 / 10) (7854 / 10000) h3 h1
      linarith [b 0 13, b 1 12, b 2 11, b 3 10, b 4 9, b 5 8, b 6 7, b 7 6, b 8 5, b 9 4, b 10 3, b 11 2, b 12 1, b 13 0]

theorem pow_small (x : ℝ) (h0 : 0 ≤ x) (h1 : x ≤ 8 / 10) (n : ℕ) (hn : 10 ≤ n) : 0 ≤ x ^ n ∧ x ^ n ≤ 11 / 100 := by
  refine ⟨pow_nonneg h0 n, ?_⟩
  calc x ^ n ≤ x ^ 10 := pow_le_pow_of_le_one h0 (by linarith) hn
    _ ≤ (8 / 10) ^ 10 := pow_le_pow_left₀ h0 h1 10
    _ ≤ _ := by norm_num

theorem TP_tan (x : ℝ) (h0 : 0 ≤ x) (h1 : x ≤ 7854 / 10000) : |TP x - Real.tan x| ≤ 9 / 10 ^ 4 := by
  have hxa : |x| ≤ 8 / 10 := by rw [abs_of_nonneg h0]; linarith
  have hc := FloatErr.cos_taylor x (by linarith)
  have hs := FloatErr.sin_taylor x (by linarith)
  have hcl := cos_lo x hxa
  rw [abs_of_nonneg h0] at hc hs
  have p10 := pow_small x h0 (by linarith) 10 (by norm_num)
  have p11 := pow_small x h0 (by linarith) 11 (by norm_num)
  have p12 := pow_small x h0 (by linarith) 12 (by norm_num)
  have p13 := pow_small x h0 (by linarith) 13 (by norm_num)
  have p14 := pow_small x h0 (by linarith) 14 (by norm_num)
  have p15 := pow_small x h0 (by linarith) 15 (by norm_num)
  have p16 := pow_small x h0 (by linarith) 16 (by norm_num)
  have key := tan_poly x h0 h1
  simp only at key
  have hTP : |TP x| ≤ 2 := by
    have hxx : x * x ≤ 1 := by nlinarith
    have hxx0 := mul_self_nonneg x
    unfold TP
    generalize x * x = w at *
    have a1 : (2033 / 10 ^ 4 * w + 31755 / 10 ^ 5) * w ≤ 6 / 10 := by nlinarith
    have a0 : 0 ≤ (2033 / 10 ^ 4 * w + 31755 / 10 ^ 5) * w := by positivity
    rw [abs_le]; constructor <;> nlinarith
  have ec : |Real.cos x - (1 - x ^ 2 / 2 + x ^ 4 / 24 - x ^ 6 / 720 + x ^ 8 / 40320)| ≤ 1 / 10 ^ 7 := by
    rw [abs_le] at hc ⊢; constructor <;> linarith [hc.1, hc.2]
  have es : |Real.sin x - (x - x ^ 3 / 6 + x ^ 5 / 120 - x ^ 7 / 5040 + x ^ 9 / 362880)| ≤ 1 / 10 ^ 7 := by
    rw [abs_le] at hs ⊢; constructor <;> linarith [hs.1, hs.2]
  generalize (1 - x ^ 2 / 2 + x ^ 4 / 24 - x ^ 6 / 720 + x ^ 8 / 40320) = c at *
  generalize (x - x ^ 3 / 6 + x ^ 5 / 120 - x ^ 7 / 5040 + x ^ 9 / 362880) = s at *
  have e : TP x - Real.tan x = (TP x * Real.cos x - Real.sin x) / Real.cos x := by
    rw [Real.tan_eq_sin_div_cos]
    have : Real.cos x ≠ 0 := by linarith
    field_simp
  rw [e, abs_div, abs_of_pos (by linarith : 0 < Real.cos x), div_le_iff₀ (by linarith)]
  have h3 : |TP x * (Real.cos x - c)| ≤ 2 * (1 / 10 ^ 7) := by
    rw [abs_mul]; exact mul_le_mul hTP ec (abs_nonneg _) (by norm_num)
  have e2 : TP x * Real.cos x - Real.sin x = (TP x * c - s) + TP x * (Real.cos x - c) - (Real.sin x - s) := by ring
  rw [e2]
  rw [abs_le] at *
  constructor <;> linarith [key.1, key.2, h3.1, h3.2, es.1, es.2, ec.1, ec.2]

theorem tanPoly_round (x : ℚ) (h : |(x : ℝ)| ≤ 7854 / 10000) : |((tanPoly fl32 x : ℚ) : ℝ) - TP x| ≤ 1 / 10 ^ 6 := by
  have hxx : |(x : ℝ) - x| ≤ 0 := by simp
  have hsq : |(x : ℝ) * x| ≤ 62 / 100 := by rw [abs_mul]; nlinarith [abs_nonneg (x : ℝ)]
  have m0 := FloatErr.mul hxx hxx h h (e := 4 / 10 ^ 8) (by norm_num)
  have l1 := FloatErr.lit (x := 2033 / 10 ^ 4) (a := 2033 / 10 ^ 4) (e1 := 0) (X := 0.21) (e := 2 / 10 ^ 8)
    (by simp) (by push_cast; rw [abs_of_nonneg (by norm_num)]; norm_num) (by norm_num)
  have l2 := FloatErr.lit (x := 31755 / 10 ^ 5) (a := 31755 / 10 ^ 5) (e1 := 0) (X := 0.32) (e := 2 / 10 ^ 8)
    (by simp) (by push_cast; rw [abs_of_nonneg (by norm_num)]; norm_num) (by norm_num)
  have m1 := FloatErr.mul l1 m0 (A := 0.21) (by rw [abs_of_nonneg (by norm_num)]; norm_num) hsq (e := 3 / 10 ^ 8) (by norm_num)
  have b1 : |2033 / 10 ^ 4 * ((x : ℝ) * x)| ≤ 0.13 := by
    rw [abs_mul, abs_of_nonneg (show (0 : ℝ) ≤ 2033 / 10 ^ 4 by norm_num)]; linarith
  have b2 : |2033 / 10 ^ 4 * ((x : ℝ) * x) + 31755 / 10 ^ 5| ≤ 0.45 := by
    refine (abs_add_le _ _).trans ?_
    rw [abs_of_nonneg (show (0 : ℝ) ≤ 31755 / 10 ^ 5 by norm_num)]; linarith
  have a1 := FloatErr.add m1 l2 (S := 0.45) (e := 8 / 10 ^ 8) b2 (by norm_num)
  have m2 := FloatErr.mul a1 m0 b2 hsq (e := 9 / 10 ^ 8) (by norm_num)
  have b3 : |(2033 / 10 ^ 4 * ((x : ℝ) * x) + 31755 / 10 ^ 5) * ((x : ℝ) * x)| ≤ 0.28 := by
    rw [abs_mul]; exact (mul_le_mul b2 hsq (abs_nonneg _) (by norm_num)).trans (by norm_num)
  have b4 : |(2033 / 10 ^ 4 * ((x : ℝ) * x) + 31755 / 10 ^ 5) * ((x : ℝ) * x) + 1| ≤ 1.28 := by
    refine (abs_add_le _ _).trans ?_
    rw [abs_one]; linarith
  have a2 := FloatErr.add m2 (bh := 1) (b := 1) (eb := 0) (by simp) (S := 1.28) (e := 18 / 10 ^ 8) b4 (by norm_num)
  have m3 := FloatErr.mul a2 hxx b4 h (e := 1 / 10 ^ 6) (by norm_num)
  exact m3

end FastMath
open FastMath

/-- **C87** For every angle of modulus at most 0.7854 (hence up to π/4) `fast_tan`, rounding included, is within 9.1e-4 of
the tangent. -/
theorem C87_fast_tan (x : ℚ) (h : |(x : ℝ)| ≤ 7854 / 10000) :
    |((tanPoly fl32 x : ℚ) : ℝ) - Real.tan x| ≤ 91 / 10 ^ 5 := by
  have e1 := abs_le.1 (tanPoly_round x h)
  have hx := abs_le.1 h
  have key : |TP x - Real.tan x| ≤ 9 / 10 ^ 4 := by
    rcases le_total 0 (x : ℝ) with h0 | h0
    · exact TP_tan x h0 hx.2
    · have a := TP_tan (-x) (by linarith) (by linarith)
      have e : TP (-x) = -TP x := by unfold TP; ring
      rw [e, Real.tan_neg, show -TP (x : ℝ) - -Real.tan x = -(TP x - Real.tan x) by ring, abs_neg] at a
      exact a
  have k := abs_le.1 key
  rw [abs_le]; constructor <;> linarith

/-- **C87** It is exactly odd. -/
theorem C87_odd (x : ℚ) : tanPoly fl32 (-x) = -tanPoly fl32 x := by
  unfold tanPoly
  rw [show -x * -x = x * x by ring]
  simp only [mul_neg, fl32_neg]

example : |((3 / 4 : ℚ) : ℝ)| ≤ 7854 / 10000 := by norm_num

section interp
variable {p : ℕ} {emin : ℤ} {fl : ℚ → ℚ}

/-- **C88** Interpolation between two numbers of the format, in rounded arithmetic, for `0 ≤ mu < 1`: the result lies between
them; `mu = 0` gives the first of them exactly; between equal numbers the result is that number. -/
theorem C88_interpolate (L : Lawful p emin fl) (hp : 0 < p) (y1 y2 mu : ℚ) (h1 : Rep p emin y1) (h2 : Rep p emin y2)
    (hm : Rep p emin mu) (m0 : 0 ≤ mu) (m1 : mu < 1) :
    let r := Sin.linear_interpolate fl y1 y2 mu
    min y1 y2 ≤ r ∧ r ≤ max y1 y2 ∧ (mu = 0 → r = y1) := by
  intro r
  have key : ∀ a b : ℚ, Rep p emin a → Rep p emin b → a ≤ b →
      a ≤ Sin.linear_interpolate fl a b mu ∧ Sin.linear_interpolate fl a b mu ≤ b := by
    intro a b ha hb hab
    refine ⟨L.ge_of_rep ha ?_, L.approach_le hp ha hm hb m0 m1 hab⟩
    have := L.nonneg (mul_nonneg m0 (L.nonneg (sub_nonneg.2 hab)))
    linarith
  have neg : ∀ a b : ℚ, Sin.linear_interpolate fl (-a) (-b) mu = -Sin.linear_interpolate fl a b mu := by
    intro a b
    unfold Sin.linear_interpolate
    rw [show -b - -a = -(b - a) by ring, L.neg, mul_neg, L.neg, ← neg_add, L.neg]
  refine ⟨?_, ?_, ?_⟩
  · rcases le_total y1 y2 with h | h
    · rw [min_eq_left h]; exact (key y1 y2 h1 h2 h).1
    · rw [min_eq_right h]
      have := (key (-y1) (-y2) (rep_neg h1) (rep_neg h2) (by linarith)).2
      rw [neg] at this
      simp only [r]; linarith
  · rcases le_total y1 y2 with h | h
    · rw [max_eq_right h]; exact (key y1 y2 h1 h2 h).2
    · rw [max_eq_left h]
      have := (key (-y1) (-y2) (rep_neg h1) (rep_neg h2) (by linarith)).1
      rw [neg] at this
      simp only [r]; linarith
  · intro h
    simp only [r, Sin.linear_interpolate, h, zero_mul, L.zero, add_zero]
    exact L.fix _ h1

/-- **C88 fails** for `mu = 1`, where the documentation promises the second number: between 1 and `2^-26` the result is 0,
which is not even between them. -/
theorem C88_end_violation (L : Lawful 24 (-149) fl) :
    ∃ y1 y2 : ℚ, Rep 24 (-149) y1 ∧ Rep 24 (-149) y2 ∧ 0 < y2 ∧ y2 < y1 ∧ Sin.linear_interpolate fl y1 y2 1 = 0 := by
  refine ⟨1, (2 : ℚ) ^ (-26 : ℤ), ⟨1, 0, by norm_num, by norm_num, by norm_num⟩, rep_zpow (by norm_num), by positivity,
    by norm_num, ?_⟩
  have hd : fl ((2 : ℚ) ^ (-26 : ℤ) - 1) = -1 := by
    have hr : Rep 24 (-149) (-1 : ℚ) := ⟨-1, 0, by norm_num, by norm_num, by norm_num⟩
    have lo : -1 ≤ fl ((2 : ℚ) ^ (-26 : ℤ) - 1) := L.ge_of_rep hr (by norm_num)
    have near := L.nearest ((2 : ℚ) ^ (-26 : ℤ) - 1) _ hr
    rcases eq_or_lt_of_le lo with h | h
    · exact h.symm
    exfalso
    have hlt := rep_lt_one (p := 24) (emin := -149) (by norm_num) (rep_neg (L.rep ((2 : ℚ) ^ (-26 : ℤ) - 1))) (by linarith)
    generalize fl ((2 : ℚ) ^ (-26 : ℤ) - 1) = r at *
    norm_num at hlt near
    rw [abs_of_nonneg (by linarith)] at near
    linarith
  unfold Sin.linear_interpolate
  rw [hd, one_mul, L.fix (-1) ⟨-1, 0, by norm_num, by norm_num, by norm_num⟩]
  norm_num [L.zero]

/-- **C88** (comparison with an absolute tolerance, rounded arithmetic) never rejects numbers at most `eps` apart, is
symmetric, and with tolerance 0 accepts exactly equal numbers. -/
theorem C88_abs_within (L : Lawful p emin fl) (a b eps : ℚ) (ha : Rep p emin a) (hb : Rep p emin b) (he : Rep p emin eps) :
    (|a - b| ≤ eps → absWithin fl a b eps = true) ∧ absWithin fl a b eps = absWithin fl b a eps ∧
      (absWithin fl a b 0 = true ↔ a = b) := by
  have habs : |fl (a - b)| = |fl (b - a)| := by rw [← neg_sub, L.neg, abs_neg]
  refine ⟨fun h => ?_, ?_, ?_⟩
  · unfold absWithin
    rw [decide_eq_true_iff]
    exact L.abs_le_of_rep he h
  · unfold absWithin; rw [habs]
  · unfold absWithin
    rw [decide_eq_true_iff, abs_nonpos_iff]
    constructor
    · intro h
      by_contra hne
      rcases le_total (|a - b|) ((2 : ℚ) ^ (emin + p)) with hs | hs
      · rw [L.fix _ (Lawful.rep_sub_small ha hb hs)] at h
        exact hne (by linarith)
      · have hr : Rep p emin ((2 : ℚ) ^ (emin + p)) := rep_zpow (by omega)
        have pos := two_zpow_pos (emin + p)
        rcases le_total 0 (a - b) with h0 | h0
        · rw [abs_of_nonneg h0] at hs
          have := L.ge_of_rep hr hs
          linarith
        · rw [abs_of_nonpos h0] at hs
          have := L.le_of_rep (x := a - b) (rep_neg hr) (by linarith)
          linarith
    · intro h; rw [h, sub_self, L.zero]

/-- **C88** (comparison with a relative tolerance, rounded arithmetic) never rejects numbers whose distance is at most `eps`
times the larger modulus, and is symmetric. -/
theorem C88_rel_within (L : Lawful p emin fl) (a b eps : ℚ) :
    (|a - b| ≤ eps * max |a| |b| → relWithin fl a b eps = true) ∧ relWithin fl a b eps = relWithin fl b a eps := by
  have habs : |fl (a - b)| = |fl (b - a)| := by rw [← neg_sub, L.neg, abs_neg]
  refine ⟨fun h => ?_, ?_⟩
  · unfold relWithin
    rw [decide_eq_true_iff]
    have h1 : |fl (a - b)| = fl |a - b| := by
      rcases le_total 0 (a - b) with h0 | h0
      · rw [abs_of_nonneg h0, abs_of_nonneg (L.nonneg h0)]
      · rw [abs_of_nonpos h0, abs_of_nonpos (L.nonpos h0), L.neg]
    rw [h1]
    exact L.mono _ _ h
  · unfold relWithin; rw [habs, max_comm]

/-- The hypotheses of the three theorems are met by `float`. -/
example : Lawful 24 (-149) fl32 ∧ Rep 24 (-149) (1 / 2 : ℚ) ∧ Rep 24 (-149) (3 : ℚ) :=
  ⟨fl32_lawful, ⟨1, -1, by norm_num, by norm_num, by norm_num⟩, ⟨3, 0, by norm_num, by norm_num, by norm_num⟩⟩

end interp

/-- **C88** (comparison of `int`s) If the two numbers are less than `2^31` apart the comparison is correct; otherwise it is
undefined behaviour (signed overflow). -/
theorem C88_abs_within_int (a b eps : BitVec 32) :
    absWithinInt a b eps =
      if |a.toInt - b.toInt| < 2 ^ 31 then .ok (decide (|a.toInt - b.toInt| ≤ eps.toInt)) else .error .signedOverflow := by
  unfold absWithinInt
  simp only
  generalize a.toInt - b.toInt = d
  by_cases h0 : d < 0
  · rw [abs_of_neg h0]
    by_cases h : -d < 2 ^ 31
    · rw [if_pos ⟨by omega, by omega⟩, if_pos h0, if_pos h]
    · rw [if_neg h, if_pos h0]
      split_ifs <;> rfl
  · rw [abs_of_nonneg (by omega)]
    by_cases h : d < 2 ^ 31
    · rw [if_pos ⟨by omega, h⟩, if_neg h0, if_pos h]
    · rw [if_neg (by omega), if_neg h]

/-- The overflow happens, for instance comparing `INT_MIN` with 1 (and with 0). -/
example : absWithinInt 0x80000000#32 1#32 5#32 = .error .signedOverflow ∧
    absWithinInt 0x80000000#32 0#32 5#32 = .error .signedOverflow ∧ absWithinInt 7#32 3#32 4#32 = .ok true := by
  decide +kernel

end Verif
