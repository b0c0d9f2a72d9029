import Verif.Props.CompChain
/-!
# C48, C103: the soft knee compressor as the program computes it

Binary32/binary64 rounding included.
-/
namespace Verif
open Rounding Dyn Follow Decibel Cond Chain

/-- The soft knee curve: gain in dB for an envelope of `env` dB, threshold `T`, knee width `W`, ratio `r`. -/
def softCurve {K : Type} [Field K] [LinearOrder K] (T W r env : K) : K :=
  if env ≤ T - W / 2 then 0
  else if env ≤ T + W / 2 then -((1 - r) * (env - (T - W / 2)) ^ 2 / (2 * W))
  else (1 - r) * (T - env)

namespace Soft

/-- The curve without the slope, as a function of the distance from the lower edge. -/
theorem knee_mono {K : Type} [Field K] [LinearOrder K] [IsStrictOrderedRing K] {W x y : K} (w : 0 < W) (hx : 0 ≤ x) (hxy : x ≤ y)
    (hy : y ≤ W) : x ^ 2 / (2 * W) ≤ y ^ 2 / (2 * W) ∧ y ^ 2 / (2 * W) - x ^ 2 / (2 * W) ≤ y - x := by
  constructor
  · gcongr
  · rw [← sub_div, div_le_iff₀ (by positivity)]; nlinarith

/-- One continuous function, written with the position in the knee clamped to it. -/
theorem curve_eq {K : Type} [Field K] [LinearOrder K] [IsStrictOrderedRing K] {T W : K} (w : 0 < W) (r env : K) :
    softCurve T W r env = (1 - r) * (-((max 0 (min W (env - (T - W / 2)))) ^ 2 / (2 * W)) - max 0 (env - (T + W / 2))) := by
  unfold softCurve
  split_ifs with a b
  · rw [min_eq_right (by linarith), max_eq_left (by linarith), max_eq_left (by linarith)]; simp
  · push Not at a
    rw [min_eq_right (by linarith), max_eq_right (by linarith), max_eq_left (by linarith)]; ring
  · push Not at a b
    rw [min_eq_left (by linarith), max_eq_right (by linarith), max_eq_right (by linarith)]
    field_simp
    ring

theorem curve_lip {K : Type} [Field K] [LinearOrder K] [IsStrictOrderedRing K] {T W r : K} (w : 0 < W) (h0 : 0 ≤ r) (h1 : r ≤ 1) (a b : K) :
    |softCurve T W r a - softCurve T W r b| ≤ |a - b| := by
  wlog h : a ≤ b generalizing a b
  · rw [abs_sub_comm, abs_sub_comm a]; exact this b a (le_of_not_ge h)
  rw [curve_eq w, curve_eq w, ← mul_sub, abs_mul, abs_of_nonneg (by linarith : (0 : K) ≤ 1 - r)]
  refine (mul_le_of_le_one_left (abs_nonneg _) (by linarith)).trans ?_
  rw [abs_sub_comm a, abs_of_nonneg (by linarith : 0 ≤ b - a)]
  set p := max 0 (min W (a - (T - W / 2))) with hp
  set q := max 0 (min W (b - (T - W / 2))) with hq
  have p0 : 0 ≤ p := le_max_left _ _
  have pq : p ≤ q := max_le_max le_rfl (min_le_min le_rfl (by linarith))
  have qw : q ≤ W := max_le w.le (min_le_left _ _)
  obtain ⟨k1, k2⟩ := knee_mono w p0 pq qw
  have m1 : max 0 (a - (T + W / 2)) ≤ max 0 (b - (T + W / 2)) := max_le_max le_rfl (by linarith)
  have m2 : q - p + (max 0 (b - (T + W / 2)) - max 0 (a - (T + W / 2))) ≤ b - a := by
    rw [hp, hq]
    rcases le_total (a - (T - W / 2)) 0 with ha | ha <;> rcases le_total (b - (T - W / 2)) 0 with hb | hb <;>
      rcases le_total (a - (T - W / 2)) W with ha' | ha' <;> rcases le_total (b - (T - W / 2)) W with hb' | hb' <;>
      simp only [min_eq_left, min_eq_right, max_eq_left, max_eq_right, ha, hb, ha', hb', w.le] <;>
      (rcases le_total (a - (T + W / 2)) 0 with ha2 | ha2 <;> rcases le_total (b - (T + W / 2)) 0 with hb2 | hb2 <;>
        simp only [max_eq_left, max_eq_right, ha2, hb2] <;> linarith)
  rw [abs_le]; constructor <;> linarith

theorem curve_cast (T W r env : ℚ) : ((softCurve T W r env : ℚ) : ℝ) = softCurve (T : ℝ) W r env := by
  unfold softCurve
  have e1 : (env ≤ T - W / 2) ↔ ((env : ℝ) ≤ T - W / 2) := by
    rw [← Rat.cast_le (K := ℝ)]; push_cast; rfl
  have e2 : (env ≤ T + W / 2) ↔ ((env : ℝ) ≤ T + W / 2) := by
    rw [← Rat.cast_le (K := ℝ)]; push_cast; rfl
  by_cases a : env ≤ T - W / 2
  · rw [if_pos a, if_pos (e1.1 a)]; simp
  · rw [if_neg a, if_neg (mt e1.2 a)]
    by_cases b : env ≤ T + W / 2
    · rw [if_pos b, if_pos (e2.1 b)]; push_cast; rfl
    · rw [if_neg b, if_neg (mt e2.2 b)]; push_cast; rfl

theorem small64 {x : ℚ} (h : |x| ≤ 4096) : |fl64 x - x| ≤ 1 / 10 ^ 12 := by
  refine (fl64_lawful.err x).trans (max_le ((div_le_div_of_nonneg_right h (by norm_num)).trans (by norm_num)) ?_)
  rw [show (-1074 : ℤ) = -((1074 : ℕ) : ℤ) by norm_num, zpow_neg, zpow_natCast]
  have h1 : ((2 : ℚ) ^ 1074)⁻¹ ≤ 1 / 2 ^ 53 := by
    rw [← one_div]
    apply one_div_le_one_div_of_le (by positivity)
    exact pow_le_pow_right₀ (by norm_num) (by norm_num)
  have h3 : 0 < ((2 : ℚ) ^ 1074)⁻¹ := by positivity
  generalize ((2 : ℚ) ^ 1074)⁻¹ = w at *
  norm_num at *
  linarith

theorem small32 {x : ℚ} (h : |x| ≤ 1) : |fl32 x - x| ≤ 1 / 2 ^ 24 := by
  refine (fl32_lawful.err x).trans (max_le (div_le_div_of_nonneg_right h (by norm_num)) ?_)
  rw [show (-149 : ℤ) = -((149 : ℕ) : ℤ) by norm_num, zpow_neg, zpow_natCast]
  norm_num

theorem mul_close {a a' b b' A B α β : ℚ} (ha : |a - a'| ≤ α) (hb : |b - b'| ≤ β) (hA : |a| ≤ A) (hB : |b'| ≤ B) :
    |a * b - a' * b'| ≤ A * β + α * B := by
  have e : a * b - a' * b' = a * (b - b') + (a - a') * b' := by ring
  rw [e]
  refine (abs_add_le _ _).trans (add_le_add ?_ ?_)
  · rw [abs_mul]; exact mul_le_mul hA hb (abs_nonneg _) ((abs_nonneg _).trans hA)
  · rw [abs_mul]; exact mul_le_mul ha hB (abs_nonneg _) ((abs_nonneg _).trans ha)

end Soft
open Soft

set_option maxHeartbeats 1600000 in
/-- **C48** (IEEE rounding included) The gain that the program computes is that of the soft knee curve within a hundred-thousandth of a decibel, for levels up
to 120 dB above the threshold (and however far below), thresholds between -1024 and 1024 dB and knees between 1/100 and 100 dB wide. -/
theorem C48_rounded (T W r env : ℚ) (h0 : 0 ≤ r) (h1 : r ≤ 1) (hT : |T| ≤ 1024) (w0 : 1 / 100 ≤ W) (w1 : W ≤ 100) (he : env ≤ T + 120) :
    |(SoftKnee.mk' fl32 fl64 T W r).gain fl64 env - softCurve T W r env| ≤ 1 / 10 ^ 5 := by
  have wp : 0 < W := by linarith
  obtain ⟨t1, t2⟩ := abs_le.1 hT
  have es := small32 (x := 1 - r) (abs_le.2 ⟨by linarith, by linarith⟩)
  obtain ⟨s0, s1⟩ := slope_range h0 h1
  have eh := small64 (x := W * (1 / 2)) (abs_le.2 ⟨by linarith, by linarith⟩)
  obtain ⟨eh1, eh2⟩ := abs_le.1 eh
  have eL := small64 (x := T - fl64 (W * (1 / 2))) (abs_le.2 ⟨by linarith, by linarith⟩)
  have eU := small64 (x := T + fl64 (W * (1 / 2))) (abs_le.2 ⟨by linarith, by linarith⟩)
  unfold SoftKnee.gain SoftKnee.mk'
  simp only []
  generalize hL : fl64 (T - fl64 (W * (1 / 2))) = L at *
  generalize hU : fl64 (T + fl64 (W * (1 / 2))) = U at *
  generalize hs : fl32 (1 - r) = s at *
  have eL' : |L - (T - W / 2)| ≤ 2 / 10 ^ 12 := by
    obtain ⟨n1, n2⟩ := abs_le.1 eL
    rw [abs_le]; constructor <;> linarith only [n1, n2, eh1, eh2]
  have eU' : |U - (T + W / 2)| ≤ 2 / 10 ^ 12 := by
    obtain ⟨n1, n2⟩ := abs_le.1 eU
    rw [abs_le]; constructor <;> linarith only [n1, n2, eh1, eh2]
  obtain ⟨l1, l2⟩ := abs_le.1 eL'
  obtain ⟨u1, u2⟩ := abs_le.1 eU'
  -- move the level onto the nearest point of its own piece of the curve
  have move : ∀ e' g : ℚ, |env - e'| ≤ 3 / 10 ^ 12 → |g - softCurve T W r e'| ≤ 99 / 10 ^ 7 → |g - softCurve T W r env| ≤ 1 / 10 ^ 5 := by
    intro e' g a b
    have c := curve_lip (T := T) wp h0 h1 e' env
    rw [abs_sub_comm] at a
    have d := c.trans a
    rw [abs_le] at b d ⊢
    constructor <;> linarith [b.1, b.2, d.1, d.2]
  split_ifs with ca cb
  · refine move (min env (T - W / 2)) 0 ?_ ?_
    · rcases le_total env (T - W / 2) with h | h
      · rw [min_eq_left h]; norm_num
      · rw [min_eq_right h, abs_of_nonneg (by linarith)]; linarith
    · rw [softCurve, if_pos (min_le_right _ _)]; norm_num
  · push Not at ca
    -- inside the knee
    set e' := max (T - W / 2) (min (T + W / 2) env) with he'
    have b1 : T - W / 2 ≤ e' := le_max_left _ _
    have b2 : e' ≤ T + W / 2 := max_le (by linarith) (min_le_left _ _)
    have b3 : |env - e'| ≤ 3 / 10 ^ 12 := by
      rw [he']
      rcases le_total (T + W / 2) env with h | h
      · rw [min_eq_left h, max_eq_right (by linarith), abs_of_nonneg (by linarith)]; linarith
      · rw [min_eq_right h]
        rcases le_total (T - W / 2) env with h' | h'
        · rw [max_eq_right h']; norm_num
        · rw [max_eq_left h', abs_le]; constructor <;> linarith
    have hc : softCurve T W r e' = ((1 - r) * ((e' - (T - W / 2)) / W) * (1 / 2)) * ((T - W / 2) - e') := by
      unfold softCurve
      split_ifs with k
      · have : e' = T - W / 2 := le_antisymm k b1
        rw [this]; ring
      · field_simp
        ring
    refine move e' _ b3 ?_
    rw [hc]
    set y := e' - (T - W / 2) with hy
    have y0 : 0 ≤ y := by linarith
    have yW : y ≤ W := by linarith
    obtain ⟨b4, b5⟩ := abs_le.1 b3
    have x1 := small64 (x := env - L) (abs_le.2 ⟨by linarith, by linarith⟩)
    have x2 := small64 (x := L - env) (abs_le.2 ⟨by linarith, by linarith⟩)
    obtain ⟨x3, x4⟩ := abs_le.1 x1
    obtain ⟨x5, x6⟩ := abs_le.1 x2
    have q0 : |fl64 (env - L) / W - y / W| ≤ 1 / 10 ^ 9 := by
      rw [← sub_div, abs_div, abs_of_pos wp, div_le_iff₀ wp]
      have : |fl64 (env - L) - y| ≤ 6 / 10 ^ 12 := by rw [abs_le]; constructor <;> linarith
      linarith
    have yq : y / W ≤ 1 := (div_le_one wp).2 yW
    have yq0 : 0 ≤ y / W := by positivity
    obtain ⟨q1, q2⟩ := abs_le.1 q0
    have q3 := small64 (x := fl64 (env - L) / W) (abs_le.2 ⟨by linarith, by linarith⟩)
    have q4 : |fl64 (fl64 (env - L) / W) - y / W| ≤ 2 / 10 ^ 9 := by
      obtain ⟨q5, q6⟩ := abs_le.1 q3
      rw [abs_le]; constructor <;> linarith only [q1, q2, q5, q6]
    generalize fl64 (fl64 (env - L) / W) = q at *
    obtain ⟨q5, q6⟩ := abs_le.1 q4
    have m1 := mul_close (A := 1) (B := 1) es q4 (abs_le.2 ⟨by linarith, s1⟩) (abs_le.2 ⟨by linarith, yq⟩)
    have sq0 : |s * q| ≤ 2 := by
      rw [abs_mul, abs_of_nonneg s0]
      have : |q| ≤ 2 := abs_le.2 ⟨by linarith, by linarith⟩
      calc s * |q| ≤ 1 * 2 := mul_le_mul s1 this (abs_nonneg _) (by norm_num)
        _ = 2 := by norm_num
    have m2 := small64 (x := s * q) (sq0.trans (by norm_num))
    have m3 : |fl64 (s * q) - (1 - r) * (y / W)| ≤ 7 / 10 ^ 8 := by
      obtain ⟨n1, n2⟩ := abs_le.1 m1
      obtain ⟨n3, n4⟩ := abs_le.1 m2
      rw [abs_le]
      constructor <;> linarith only [n1, n2, n3, n4]
    have p0 : 0 ≤ (1 - r) * (y / W) := mul_nonneg (by linarith) yq0
    have p1 : (1 - r) * (y / W) ≤ 1 := by
      calc (1 - r) * (y / W) ≤ 1 * 1 := mul_le_mul (by linarith) yq yq0 (by norm_num)
        _ = 1 := by norm_num
    generalize fl64 (s * q) = a at *
    obtain ⟨m4, m5⟩ := abs_le.1 m3
    have m6 := small64 (x := a * (1 / 2)) (abs_le.2 ⟨by linarith, by linarith⟩)
    have m7 : |fl64 (a * (1 / 2)) - (1 - r) * (y / W) * (1 / 2)| ≤ 4 / 10 ^ 8 := by
      obtain ⟨n1, n2⟩ := abs_le.1 m6
      rw [abs_le]; constructor <;> linarith only [m4, m5, n1, n2]
    generalize fl64 (a * (1 / 2)) = b at *
    obtain ⟨m8, m9⟩ := abs_le.1 m7
    have z1 : |fl64 (L - env) - (T - W / 2 - e')| ≤ 6 / 10 ^ 12 := by rw [abs_le]; constructor <;> linarith
    have z2 : |T - W / 2 - e'| ≤ 100 := abs_le.2 ⟨by linarith, by linarith⟩
    have m10 := mul_close (A := 1) (B := 100) m7 z1 (abs_le.2 ⟨by linarith, by linarith⟩) z2
    generalize fl64 (L - env) = z at *
    have z3 : |b * z| ≤ 4096 := by
      obtain ⟨z4, z5⟩ := abs_le.1 z1
      obtain ⟨z6, z7⟩ := abs_le.1 z2
      rw [abs_mul]
      have c1 : |b| ≤ 1 := abs_le.2 ⟨by linarith, by linarith⟩
      have c2 : |z| ≤ 200 := abs_le.2 ⟨by linarith, by linarith⟩
      calc |b| * |z| ≤ 1 * 200 := mul_le_mul c1 c2 (abs_nonneg _) (by norm_num)
        _ ≤ 4096 := by norm_num
    have m11 := small64 z3
    obtain ⟨n1, n2⟩ := abs_le.1 m10
    obtain ⟨n3, n4⟩ := abs_le.1 m11
    rw [abs_le]
    constructor <;> linarith only [n1, n2, n3, n4]
  · push Not at ca cb
    set e' := max env (T + W / 2) with he'
    have b1 : T + W / 2 ≤ e' := le_max_right _ _
    have b3 : |env - e'| ≤ 3 / 10 ^ 12 := by
      rw [he']
      rcases le_total env (T + W / 2) with h | h
      · rw [max_eq_right h, abs_le]; constructor <;> linarith
      · rw [max_eq_left h]; norm_num
    have hc : softCurve T W r e' = (1 - r) * (T - e') := by
      unfold softCurve
      rw [if_neg (by linarith)]
      split_ifs with k
      · have : e' = T + W / 2 := le_antisymm k b1
        rw [this]
        field_simp
        ring
      · rfl
    refine move e' _ b3 ?_
    rw [hc]
    obtain ⟨b4, b5⟩ := abs_le.1 b3
    have x1 := small64 (x := T - env) (abs_le.2 ⟨by linarith, by linarith⟩)
    obtain ⟨x3, x4⟩ := abs_le.1 x1
    have x5 : |fl64 (T - env) - (T - e')| ≤ 4 / 10 ^ 12 := by rw [abs_le]; constructor <;> linarith
    have x6 : |T - e'| ≤ 121 := abs_le.2 ⟨by linarith, by linarith⟩
    have m1 := mul_close (A := 1) (B := 121) es x5 (abs_le.2 ⟨by linarith, s1⟩) x6
    generalize fl64 (T - env) = z at *
    obtain ⟨x7, x8⟩ := abs_le.1 x5
    obtain ⟨x9, x10⟩ := abs_le.1 x6
    have z3 : |s * z| ≤ 4096 := by
      rw [abs_mul, abs_of_nonneg s0]
      have c2 : |z| ≤ 200 := abs_le.2 ⟨by linarith, by linarith⟩
      calc s * |z| ≤ 1 * 200 := mul_le_mul s1 c2 (abs_nonneg _) (by norm_num)
        _ ≤ 4096 := by norm_num
    have m2 := small64 z3
    obtain ⟨n1, n2⟩ := abs_le.1 m1
    obtain ⟨n3, n4⟩ := abs_le.1 m2
    rw [abs_le]
    constructor <;> linarith only [n1, n2, n3, n4]

/-- -20 dB, a knee of 6 dB, 4 : 1: half way through the knee the gain is -0.5625 dB. -/
example : |(SoftKnee.mk' fl32 fl64 (-20) 6 (1 / 4)).gain fl64 (-20) - (-9 / 16)| ≤ 1 / 10 ^ 5 := by
  have h := C48_rounded (-20) 6 (1 / 4) (-20) (by norm_num) (by norm_num) (by norm_num [abs_le]) (by norm_num) (by norm_num) (by norm_num)
  have e : softCurve (-20 : ℚ) 6 (1 / 4) (-20) = -9 / 16 := by norm_num [softCurve]
  rwa [e] at h

namespace Soft

/-- The factor `fl32 (amp * m)` when the gain `x` of the processor, a float, is within `ε` and a bit of the intended gain `Id`. -/
theorem factor_key {m amp x : ℚ} (hm : 1 / 2 ^ 100 ≤ m) (ha0 : 0 < amp) (hx : IsFloat x) (eamp : db2a fl32 fl64 x = .ok amp) {Id ε E : ℝ}
    (dx : |(x : ℝ) - Id| ≤ ε + 2 / 10 ^ 5) (d2 : -120 ≤ x) (d3 : x ≤ 0) (hE : Real.exp (0.1152 * (ε + 2 / 10 ^ 5)) ≤ 1 + E) :
    |((fl32 (amp * m) : ℚ) : ℝ) - m * (10 : ℝ) ^ (Id / 20)| ≤ (E * (1 + 26 / 10 ^ 6) + 26 / 10 ^ 6) * (m * (10 : ℝ) ^ (Id / 20)) := by
  have m0q : 0 ≤ m := le_trans (by norm_num) hm
  have hp := C61_db2a_accuracy fl32_lawful fl64_lawful _ amp hx d2 (d3.trans (by norm_num)) eamp
  have I0 : 0 < (10 : ℝ) ^ (Id / 20) := Real.rpow_pos_of_pos (by norm_num) _
  have lg : 20 * Real.logb 10 ((10 : ℝ) ^ (Id / 20)) = Id := by
    rw [Real.logb_rpow (by norm_num) (by norm_num)]; field_simp
  have hx2 := Decibel.amp_of_level (y := (x : ℝ)) (ε := ε + 2 / 10 ^ 5) I0 (by rw [lg]; exact dx)
  have E0 : 0 ≤ E := by
    have := Real.one_le_exp (x := 0.1152 * (ε + 2 / 10 ^ 5)) (by have := (abs_nonneg _).trans dx; positivity)
    linarith
  have m0 : (0 : ℝ) ≤ m := by exact_mod_cast m0q
  refine rel3 (p := amp) m0 I0.le E0 ?_ hp
    (hx2.trans (mul_le_mul_of_nonneg_left (by linarith) I0.le))
  have ha1 : 1 / 2 ^ 20 ≤ amp := by
    have := (C61_db2a_saturates (fl := fl32) (fd := fl64) (-120)).2 le_rfl
    have hmono := C61_db2a_mono fl32_lawful fl64_lawful (-120) x _ amp ⟨-120, 0, by norm_num, by norm_num, by norm_num⟩
      hx d2 this eamp
    refine le_trans (fl32_lawful.ge_of_rep ⟨1, -20, by norm_num, by norm_num, by norm_num⟩ (by norm_num)) hmono
  have pm : 1 / 2 ^ 120 ≤ amp * m := by
    calc (1 / 2 ^ 120 : ℚ) = 1 / 2 ^ 20 * (1 / 2 ^ 100) := by norm_num
      _ ≤ _ := mul_le_mul ha1 hm (by norm_num) ha0.le
  have er : |fl32 (amp * m) - amp * m| ≤ amp * m / 2 ^ 24 := by
    have pp : 0 < amp * m := lt_of_lt_of_le (by norm_num) pm
    refine (fl32_lawful.err _).trans (max_le (by rw [abs_of_pos pp]) ?_)
    have t : (2 : ℚ) ^ (-149 : ℤ) / 2 ≤ 1 / 2 ^ 120 / 2 ^ 24 := by
      rw [show (-149 : ℤ) = -((149 : ℕ) : ℤ) by norm_num, zpow_neg, zpow_natCast]; norm_num
    exact t.trans (div_le_div_of_nonneg_right pm (by norm_num))
  have := (Rat.cast_le (K := ℝ)).mpr er
  push_cast at this
  exact this

theorem exp_le_quad (z : ℝ) (z0 : 0 ≤ z) (z1 : z ≤ 1) : Real.exp z ≤ 1 + (z + z ^ 2) := by
  have := Real.abs_exp_sub_one_sub_id_le (x := z) (by rw [abs_of_nonneg z0]; exact z1)
  linarith [(abs_le.1 this).2]

/-- The accuracy of the factor of a chain, whatever the processor: `x` is its gain as a float, `Id` the intended gain. -/
theorem factor_acc {m e lev amp x : ℚ} (hm : 1 / 2 ^ 100 ≤ m) (he : IsFloat e) (ha0 : 0 < amp) (hx : IsFloat x)
    (elev : a2db fl32 fl64 e = .ok lev) (eamp : db2a fl32 fl64 x = .ok amp) {Id : ℝ}
    (dx : ∀ ε : ℝ, ε ≤ 1 → |(lev : ℝ) - 20 * Real.logb 10 (e : ℝ)| ≤ ε → |(x : ℝ) - Id| ≤ ε + 2 / 10 ^ 5 ∧ -120 ≤ x ∧ x ≤ 0) :
    (1 / 8 ≤ (e : ℝ) → (e : ℝ) ≤ 8 → |((fl32 (amp * m) : ℚ) : ℝ) - m * (10 : ℝ) ^ (Id / 20)| ≤ 45 / 10 ^ 6 * (m * (10 : ℝ) ^ (Id / 20))) ∧
    (1 / 1024 ≤ (e : ℝ) → (e : ℝ) ≤ 1024 → |((fl32 (amp * m) : ℚ) : ℝ) - m * (10 : ℝ) ^ (Id / 20)| ≤ 3 / 1000 * (m * (10 : ℝ) ^ (Id / 20))) ∧
    (1 / 1048576 < (e : ℝ) → (e : ℝ) < 1048576 →
      |((fl32 (amp * m) : ℚ) : ℝ) - m * (10 : ℝ) ^ (Id / 20)| ≤ 7 / 100 * (m * (10 : ℝ) ^ (Id / 20))) := by
  have m0q : 0 ≤ m := le_trans (by norm_num) hm
  obtain ⟨acc1, acc2, acc3⟩ := C61_a2db_accuracy fl32_lawful fl64_lawful _ lev he elev
  have key : ∀ ε E : ℝ, |(lev : ℝ) - 20 * Real.logb 10 (e : ℝ)| ≤ ε → ε ≤ 1 → Real.exp (0.1152 * (ε + 2 / 10 ^ 5)) ≤ 1 + E →
      |((fl32 (amp * m) : ℚ) : ℝ) - m * (10 : ℝ) ^ (Id / 20)| ≤ (E * (1 + 26 / 10 ^ 6) + 26 / 10 ^ 6) * (m * (10 : ℝ) ^ (Id / 20)) := by
    intro ε E hε hε1 hE
    obtain ⟨dx, d2, d3⟩ := dx ε hε1 hε
    exact factor_key hm ha0 hx eamp dx d2 d3 hE
  have ex := exp_le_quad
  have pos : 0 ≤ (m : ℝ) * (10 : ℝ) ^ (Id / 20) := mul_nonneg (by exact_mod_cast m0q) (Real.rpow_pos_of_pos (by norm_num) _).le
  refine ⟨fun k1 k2 => ?_, fun k1 k2 => ?_, fun k1 k2 => ?_⟩
  · refine (key _ _ (acc1 (by
      have : ((1 / 8 : ℚ) : ℝ) ≤ e := by push_cast; exact k1
      exact_mod_cast this) (by exact_mod_cast k2)) (by norm_num) (ex _ (by norm_num) (by norm_num))).trans
      (mul_le_mul_of_nonneg_right (by norm_num) pos)
  · refine (key _ _ (acc2 (by
      have : ((1 / 1024 : ℚ) : ℝ) ≤ e := by push_cast; exact k1
      exact_mod_cast this) (by exact_mod_cast k2)) (by norm_num) (ex _ (by norm_num) (by norm_num))).trans
      (mul_le_mul_of_nonneg_right (by norm_num) pos)
  · refine (key _ _ (acc3 (by
      have : ((1 / 1048576 : ℚ) : ℝ) < e := by push_cast; exact k1
      exact_mod_cast this) (by exact_mod_cast k2)) (by norm_num) (ex _ (by norm_num) (by norm_num))).trans
      (mul_le_mul_of_nonneg_right (by norm_num) pos)

/-- Nothing above the threshold is cut by more than it exceeds it plus an eighth of the knee; nothing is boosted. -/
theorem curve_range {T W r env : ℚ} (w : 0 < W) (w1 : W ≤ 100) (h0 : 0 ≤ r) (he : env ≤ T + 119) :
    -119 ≤ softCurve T W r env := by
  rw [curve_eq w]
  set p := max 0 (min W (env - (T - W / 2))) with hp
  have p0 : 0 ≤ p := le_max_left _ _
  have pw : p ≤ W := max_le w.le (min_le_left _ _)
  have k : p ^ 2 / (2 * W) ≤ W / 2 := by rw [div_le_iff₀ (by positivity)]; nlinarith
  have k0 : 0 ≤ p ^ 2 / (2 * W) := by positivity
  have q : p ^ 2 / (2 * W) + max 0 (env - (T + W / 2)) ≤ 119 := by
    rcases le_total (env - (T + W / 2)) 0 with h | h
    · rw [max_eq_left h]; linarith
    · rw [max_eq_right h]; linarith
  have q0 : 0 ≤ max 0 (env - (T + W / 2)) := le_max_left _ _
  nlinarith

/-- The gain of the soft knee as a float. -/
theorem soft_db {T W r lev : ℚ} (h0 : 0 ≤ r) (h1 : r ≤ 1) (rT : Rep 53 (-1074) T) (hT : |T| ≤ 1024) (w0 : 1 / 100 ≤ W) (w1 : W ≤ 100)
    (hl : lev ≤ T + 119) :
    |fl32 ((SoftKnee.mk' fl32 fl64 T W r).gain fl64 lev) - softCurve T W r lev| ≤ 2 / 10 ^ 5 ∧
      -120 ≤ fl32 ((SoftKnee.mk' fl32 fl64 T W r).gain fl64 lev) ∧ fl32 ((SoftKnee.mk' fl32 fl64 T W r).gain fl64 lev) ≤ 0 := by
  have c := C48_rounded T W r lev h0 h1 hT w0 w1 (by linarith)
  have n := (C48_never_boosts T W r (by linarith) h0 h1 rT).2.1 lev
  have g := curve_range (T := T) (env := lev) (by linarith : 0 < W) w1 h0 hl
  generalize (SoftKnee.mk' fl32 fl64 T W r).gain fl64 lev = x at *
  obtain ⟨c1, c2⟩ := abs_le.1 c
  have x0 : -120 ≤ x := by linarith
  refine ⟨?_, fl32_lawful.ge_of_rep ⟨-120, 0, by norm_num, by norm_num, by norm_num⟩ x0, fnonpos fl32_lawful (by norm_num) n⟩
  have e : |fl32 x - x| ≤ 8 / 10 ^ 6 := by
    refine (fl32_lawful.err x).trans (max_le ?_ ?_)
    · rw [abs_of_nonpos n]
      exact (div_le_div_of_nonneg_right (show -x ≤ 120 by linarith) (by norm_num)).trans (by norm_num)
    · rw [show (-149 : ℤ) = -((149 : ℕ) : ℤ) by norm_num, zpow_neg, zpow_natCast]; norm_num
  obtain ⟨e1, e2⟩ := abs_le.1 e
  rw [abs_le]; constructor <;> linarith

end Soft

/-- **C103** The factor applied by a chain with a soft knee compressor is the make-up gain times the soft knee curve for the level of the envelope
in use, with the accuracy of the hard compressor (`C103_gain`).  The envelope is that of the input with the current sample (feed-forward), or that of
the earlier outputs (feedback). -/
theorem C103_soft_gain (T W r : ℚ) (h0 : 0 ≤ r) (h1 : r ≤ 1) (rT : Rep 53 (-1074) T) (hT : |T| ≤ 1024) (w0 : 1 / 100 ≤ W) (w1 : W ≤ 100)
    (m : ℚ) (hm : IsFloat m) (hm1 : 1 / 2 ^ 100 ≤ m) (attack release : ℚ) (sps : Nat)
    (ha : 1255 / 1000 ≤ sps * attack) (hr : 1255 / 1000 ≤ sps * release) (xs : List ℚ) (hx : ∀ x ∈ xs, IsFloat x) (s : ℚ) (hs : IsFloat s) :
    let good (env : ℚ) (g : ℚ) : Prop := ∀ e level ideal : ℝ, e = env → level = 20 * Real.logb 10 e →
        ideal = m * (10 : ℝ) ^ (softCurve (T : ℝ) W r level / 20) → level ≤ T + 118 →
        (1 / 8 ≤ e → e ≤ 8 → |g - ideal| ≤ 45 / 10 ^ 6 * ideal) ∧
        (1 / 1024 ≤ e → e ≤ 1024 → |g - ideal| ≤ 3 / 1000 * ideal) ∧
        (1 / 1048576 < e → e < 1048576 → |g - ideal| ≤ 7 / 100 * ideal)
    let comp := (SoftKnee.mk' fl32 fl64 T W r).gain fl64
    (∃ e ys e' g, runC (ffStep fl32 fl64 comp m) (EnvFollower.mk' fl32 fl64 attack release sps) xs = .ok (e, ys) ∧
      ffStep fl32 fl64 comp m e s = .ok (e', fl32 (s * g)) ∧ e' = (e.feed fl32 |s|).1 ∧ good e'.y g) ∧
    (∃ e ys e' g, runC (fbStep fl32 fl64 comp m) (EnvFollower.mk' fl32 fl64 attack release sps) xs = .ok (e, ys) ∧
      fbStep fl32 fl64 comp m e s = .ok (e', fl32 (s * g)) ∧ e' = (e.feed fl32 |fl32 (s * g)|).1 ∧
      e = final (EnvFollower.feed fl32) (EnvFollower.mk' fl32 fl64 attack release sps) (ys.map fun y => |y|) ∧ good e.y g) := by
  intro good comp
  have m0 : 0 ≤ m := le_trans (by norm_num) hm1
  have hg := (C48_never_boosts T W r (by linarith) h0 h1 rT).2.1
  have key : ∀ env, IsFloat env → 0 ≤ env → ∃ g, apply fl32 fl64 comp m env s = .ok (fl32 (s * g)) ∧ good env g := by
    intro env he e0
    obtain ⟨lev, amp, elev, eamp, ha0, ea, -⟩ := apply_ok hg hm m0 (s := s) he e0
    refine ⟨_, ea, ?_⟩
    rintro e level ideal rfl hlevel rfl htop
    refine factor_acc hm1 he ha0 (fl32_lawful.rep _) elev eamp (Id := softCurve (T : ℝ) W r level) fun ε e1 hε => ?_
    rw [← hlevel] at hε
    have hl : lev ≤ T + 119 := by
      have : (lev : ℝ) ≤ T + 119 := by linarith [(abs_le.1 hε).2]
      exact_mod_cast this
    obtain ⟨d1, d2, d3⟩ := soft_db (W := W) h0 h1 rT hT w0 w1 hl
    refine ⟨?_, d2, d3⟩
    have d1' := (Rat.cast_le (K := ℝ)).mpr d1
    push_cast at d1'
    rw [curve_cast] at d1'
    have wp : (0 : ℝ) < W := by
      have : 0 < W := by linarith
      exact_mod_cast this
    have lip := (curve_lip (T := (T : ℝ)) (r := (r : ℝ)) wp (by exact_mod_cast h0) (by exact_mod_cast h1) lev level).trans hε
    have := abs_sub_le ((fl32 (comp lev) : ℚ) : ℝ) (softCurve (T : ℝ) W r lev) (softCurve (T : ℝ) W r level)
    linarith
  constructor
  · obtain ⟨e, ys, h, i, -⟩ := run (step := ffStep fl32 fl64 comp m) (I := EInv) (P := IsFloat) (Q := Tame m) (fun e s i hs => by
      obtain ⟨e', y, h, i', t, -⟩ := ff_ok hg hm m0 i hs
      exact ⟨e', y, h, i', t⟩) _ (einv_mk ha hr) xs hx
    obtain ⟨e', y, h', i', -, he, hy⟩ := ff_ok hg hm m0 i hs
    obtain ⟨g, hg', k⟩ := key _ i'.y i'.y0
    rw [hg'] at hy
    injection hy with hy
    rw [← hy] at h'
    exact ⟨e, ys, e', g, h, h', he, k⟩
  · have hrun : ∀ (e0 : EnvFollower), EInv e0 → ∃ e ys, runC (fbStep fl32 fl64 comp m) e0 xs = .ok (e, ys) ∧ EInv e ∧
        e = final (EnvFollower.feed fl32) e0 (ys.map fun y => |y|) := by
      clear hx
      induction xs with
      | nil => intro e0 i; exact ⟨e0, [], rfl, i, rfl⟩
      | cons x xs ih =>
        intro e0 i
        obtain ⟨e1, y, e, i1, -, he, -⟩ := fb_ok hg hm m0 i x
        obtain ⟨e2, ys, e3, i2, h2⟩ := ih e1 i1
        refine ⟨e2, y :: ys, ?_, i2, ?_⟩
        · rw [runC, e]
          simp only [bind, Except.bind, e3]
          rfl
        · rw [h2, he]; rfl
    obtain ⟨e, ys, h, i, hf⟩ := hrun _ (einv_mk ha hr)
    obtain ⟨e', y, h', i', -, he, -, hy⟩ := fb_ok hg hm m0 i s
    obtain ⟨g, hg', k⟩ := key _ i.y i.y0
    rw [hg'] at hy
    injection hy with hy
    rw [← hy] at h' he
    exact ⟨e, ys, e', g, h, h', he, hf, k⟩

/-- A feed-forward chain at 48 kHz (attack 2 ms, release 50 ms), -20 dB, a knee of 6 dB, 4 : 1, make-up gain 2, in the middle of any history. -/
example (xs : List ℚ) (hx : ∀ x ∈ xs, IsFloat x) :=
  C103_soft_gain (-20) 6 (1 / 4) (by norm_num) (by norm_num) ⟨-20, 0, by norm_num, by norm_num, by norm_num⟩ (by norm_num [abs_le])
    (by norm_num) (by norm_num) 2 ⟨2, 0, by norm_num, by norm_num, by norm_num⟩ (by norm_num) (2 / 1000) (50 / 1000) 48000 (by norm_num) (by norm_num) xs hx
    (1 / 2) ⟨1, -1, by norm_num, by norm_num, by norm_num⟩

end Verif
