import Verif.Model.Dynamics
import Verif.Proof.Rounding
/-!
# C47, C48, C49: compressors, expander, automatic gain control
-/
namespace Verif
open Rounding Dyn

namespace Dyn
theorem rep_zero (p : ℕ) (hp : emin ≤ 0) : Rep p emin 0 := ⟨0, 0, by simp, hp, by simp⟩
theorem rep_one (p : ℕ) (hp : emin ≤ 0) : Rep p emin 1 := ⟨1, 0, by simp [one_le_pow₀], hp, by simp⟩

variable {p : ℕ} {emin : ℤ} {fd : ℚ → ℚ}

theorem fnonneg (L : Lawful p emin fd) (h : emin ≤ 0) {x : ℚ} (hx : 0 ≤ x) : 0 ≤ fd x := by
  have := L.mono 0 x hx
  rwa [L.fix 0 (rep_zero p h)] at this

theorem fnonpos (L : Lawful p emin fd) (h : emin ≤ 0) {x : ℚ} (hx : x ≤ 0) : fd x ≤ 0 := by
  have := L.mono x 0 hx
  rwa [L.fix 0 (rep_zero p h)] at this

theorem slope_range {ratio : ℚ} (h0 : 0 ≤ ratio) (h1 : ratio ≤ 1) : 0 ≤ fl32 (1 - ratio) ∧ fl32 (1 - ratio) ≤ 1 := by
  refine ⟨fnonneg fl32_lawful (by norm_num) (by linarith), ?_⟩
  have := fl32_lawful.mono (1 - ratio) 1 (by linarith)
  rwa [fl32_lawful.fix 1 (rep_one 24 (by norm_num))] at this

/-- What an ideal compressor outputs (in dB): the level up to the threshold, and `ratio` dB more per dB above it. -/
def idealLevel (threshold ratio env : ℚ) : ℚ := if env ≤ threshold then env else threshold + ratio * (env - threshold)
end Dyn

/-- **C47** (IEEE rounding included) For every ratio in [0, 1]: no gain at and below the threshold, never a boost
above it, and never more gain for a louder signal. -/
theorem C47_never_boosts (threshold ratio : ℚ) (h0 : 0 ≤ ratio) (h1 : ratio ≤ 1) :
    let c := Compressor.mk' fl32 threshold ratio
    (∀ env, env ≤ threshold → c.gain fl64 env = 0) ∧
    (∀ env, c.gain fl64 env ≤ 0) ∧
    (∀ e1 e2, e1 ≤ e2 → c.gain fl64 e2 ≤ c.gain fl64 e1) := by
  intro c
  have hs := (slope_range h0 h1).1
  have hneg : ∀ env, c.gain fl64 env ≤ 0 := by
    intro env
    unfold Compressor.gain
    split_ifs with h
    · exact le_rfl
    · refine fnonpos fl64_lawful (by norm_num) (mul_nonpos_of_nonneg_of_nonpos hs (fnonpos fl64_lawful (by norm_num) ?_))
      push Not at h; linarith
  refine ⟨fun env h => by unfold Compressor.gain; exact if_pos h, hneg, ?_⟩
  intro e1 e2 h
  by_cases h1 : e1 ≤ threshold
  · rw [show c.gain fl64 e1 = 0 by unfold Compressor.gain; exact if_pos h1]; exact hneg e2
  · have h2 : ¬ e2 ≤ threshold := by intro h3; exact h1 (le_trans h h3)
    unfold Compressor.gain
    rw [if_neg (show ¬ e1 ≤ c.threshold from h1), if_neg (show ¬ e2 ≤ c.threshold from h2)]
    exact fl64_lawful.mono _ _ (mul_le_mul_of_nonneg_left (fl64_lawful.mono _ _ (by linarith)) hs)

/-- **C47** (exact arithmetic) The output level `env + gain` is the ideal one for every level, threshold and ratio; it
never decreases with the input level when the ratio is in [0, 1], and two levels never end up further apart. -/
theorem C47_output_level (threshold ratio : ℚ) :
    let c := Compressor.mk' id threshold ratio
    (∀ env, env + c.gain id env = idealLevel threshold ratio env) ∧
    (0 ≤ ratio → ratio ≤ 1 → ∀ e1 e2, e1 ≤ e2 →
      e1 + c.gain id e1 ≤ e2 + c.gain id e2 ∧ (e2 + c.gain id e2) - (e1 + c.gain id e1) ≤ e2 - e1) := by
  intro c
  have hl : ∀ env, env + c.gain id env = idealLevel threshold ratio env := by
    intro env
    simp only [Compressor.gain, idealLevel, c, Compressor.mk', id]
    split_ifs
    · ring
    · ring
  refine ⟨hl, fun h0 h1 e1 e2 h => ?_⟩
  rw [hl, hl]
  unfold idealLevel
  split_ifs with a b b
  · constructor <;> linarith
  · push Not at b; constructor <;> nlinarith
  · exact absurd (le_trans h b) a
  · push Not at a b; constructor <;> nlinarith

/-- **C47** Changing the threshold or the ratio of a compressor gives exactly the compressor constructed with the new
values, whatever it was before. -/
theorem C47_setters (fl : ℚ → ℚ) (threshold threshold' ratio ratio' : ℚ) :
    (Compressor.mk' fl threshold ratio).setThreshold threshold' = Compressor.mk' fl threshold' ratio ∧
    (Compressor.mk' fl threshold ratio).setRatio fl ratio' = Compressor.mk' fl threshold ratio' :=
  ⟨rfl, rfl⟩

example : (Compressor.mk' id (-20) (1 / 4)).gain id (-8) = -9 := by norm_num [Compressor.gain, Compressor.mk']

/-! ## Soft knee -/

/-- **C48** (IEEE rounding included) For every ratio in [0, 1] and every knee width `≥ 0` the soft-knee compressor's
gain is 0 up to the lower knee edge and never positive. -/
theorem C48_never_boosts (threshold width ratio : ℚ) (hw : 0 ≤ width) (h0 : 0 ≤ ratio) (h1 : ratio ≤ 1)
    (ht : Rep 53 (-1074) threshold) :
    let c := SoftKnee.mk' fl32 fl64 threshold width ratio
    (∀ env, env ≤ c.lower → c.gain fl64 env = 0) ∧ (∀ env, c.gain fl64 env ≤ 0) ∧
    (∀ e1 e2, e1 ≤ e2 → e2 ≤ c.upper → c.gain fl64 e2 ≤ c.gain fl64 e1) ∧
    (∀ e1 e2, c.upper < e1 → e1 ≤ e2 → c.gain fl64 e2 ≤ c.gain fl64 e1) := by
  intro c
  have hs : 0 ≤ c.slope := (slope_range h0 h1).1
  have hhalf : 0 ≤ fl64 (width * (1 / 2)) := fnonneg fl64_lawful (by norm_num) (by positivity)
  have hup : threshold ≤ c.upper := by
    have := fl64_lawful.mono threshold (threshold + fl64 (width * (1 / 2))) (by linarith)
    rwa [fl64_lawful.fix _ ht] at this
  have soft : ∀ env, c.lower < env → 0 ≤ fl64 (fl64 (c.slope * fl64 (fl64 (env - c.lower) / c.width)) * (1 / 2)) := by
    intro env h
    have a1 : 0 ≤ fl64 (env - c.lower) := fnonneg fl64_lawful (by norm_num) (by linarith)
    have a2 : 0 ≤ fl64 (fl64 (env - c.lower) / c.width) := fnonneg fl64_lawful (by norm_num) (div_nonneg a1 hw)
    have a3 : 0 ≤ fl64 (c.slope * fl64 (fl64 (env - c.lower) / c.width)) :=
      fnonneg fl64_lawful (by norm_num) (mul_nonneg hs a2)
    exact fnonneg fl64_lawful (by norm_num) (by linarith)
  have hneg : ∀ env, c.gain fl64 env ≤ 0 := by
    intro env
    unfold SoftKnee.gain
    split_ifs with a b
    · exact le_rfl
    · push Not at a
      exact fnonpos fl64_lawful (by norm_num) (mul_nonpos_of_nonneg_of_nonpos (soft env a)
        (fnonpos fl64_lawful (by norm_num) (by linarith)))
    · push Not at b
      refine fnonpos fl64_lawful (by norm_num) (mul_nonpos_of_nonneg_of_nonpos hs
        (fnonpos fl64_lawful (by norm_num) ?_))
      show threshold - env ≤ 0
      linarith
  refine ⟨fun env h => by unfold SoftKnee.gain; exact if_pos h, hneg, ?_, ?_⟩
  · intro e1 e2 h hu
    by_cases hl1 : e1 ≤ c.lower
    · rw [show c.gain fl64 e1 = 0 by unfold SoftKnee.gain; exact if_pos hl1]; exact hneg e2
    have hl2 : ¬ e2 ≤ c.lower := by intro h3; exact hl1 (le_trans h h3)
    unfold SoftKnee.gain
    rw [if_neg hl1, if_neg hl2, if_pos hu, if_pos (le_trans h hu)]
    push Not at hl1 hl2
    have s1 := soft e1 hl1
    have m : fl64 (fl64 (c.slope * fl64 (fl64 (e1 - c.lower) / c.width)) * (1 / 2)) ≤
        fl64 (fl64 (c.slope * fl64 (fl64 (e2 - c.lower) / c.width)) * (1 / 2)) := by
      refine fl64_lawful.mono _ _ (mul_le_mul_of_nonneg_right (fl64_lawful.mono _ _ (mul_le_mul_of_nonneg_left
        (fl64_lawful.mono _ _ ?_) hs)) (by norm_num))
      exact div_le_div_of_nonneg_right (fl64_lawful.mono _ _ (by linarith)) hw
    have d : fl64 (c.lower - e2) ≤ fl64 (c.lower - e1) := fl64_lawful.mono _ _ (by linarith)
    have d1 : fl64 (c.lower - e1) ≤ 0 := fnonpos fl64_lawful (by norm_num) (by linarith)
    refine fl64_lawful.mono _ _ ?_
    generalize fl64 (c.lower - e2) = u2 at *
    generalize fl64 (c.lower - e1) = u1 at *
    generalize fl64 (fl64 (c.slope * fl64 (fl64 (e1 - c.lower) / c.width)) * (1 / 2)) = v1 at *
    generalize fl64 (fl64 (c.slope * fl64 (fl64 (e2 - c.lower) / c.width)) * (1 / 2)) = v2 at *
    nlinarith
  · intro e1 e2 hu h
    have hlu : c.lower ≤ c.upper := by
      have : fl64 (threshold - fl64 (width * (1 / 2))) ≤ fl64 threshold := fl64_lawful.mono _ _ (by linarith)
      rw [fl64_lawful.fix _ ht] at this
      exact le_trans this hup
    unfold SoftKnee.gain
    rw [if_neg (by linarith), if_neg (by linarith), if_neg (by linarith), if_neg (by linarith)]
    exact fl64_lawful.mono _ _ (mul_le_mul_of_nonneg_left (fl64_lawful.mono _ _ (by linarith)) hs)

/-- **C48** (exact arithmetic) For every threshold, width and ratio: outside the knee (more than half a width from the
threshold) the gain is that of the hard compressor; inside, it is the parabola `-(1 - ratio) (env - lower)² / (2 width)`,
which meets the hard gain at both edges. -/
theorem C48_hard_outside_knee (threshold width ratio : ℚ) (hw : 0 < width) :
    let c := SoftKnee.mk' id id threshold width ratio
    let hard := (Compressor.mk' id threshold ratio).gain id
    (∀ env, env ≤ threshold - width / 2 ∨ threshold + width / 2 ≤ env → c.gain id env = hard env) ∧
    (∀ env, threshold - width / 2 ≤ env → env ≤ threshold + width / 2 →
      c.gain id env = -(1 - ratio) * (env - (threshold - width / 2)) ^ 2 / (2 * width)) := by
  intro c hard
  have hpar : ∀ env, threshold - width / 2 ≤ env → env ≤ threshold + width / 2 →
      c.gain id env = -(1 - ratio) * (env - (threshold - width / 2)) ^ 2 / (2 * width) := by
    intro env h1 h2
    simp only [SoftKnee.gain, c, SoftKnee.mk', id]
    split_ifs with a b
    · have : env = threshold - width / 2 := by linarith
      rw [this]; simp
    · field_simp; ring
    · exact absurd (by linarith) b
  refine ⟨fun env h => ?_, hpar⟩
  rcases h with h | h
  · have : c.gain id env = 0 := by
      simp only [SoftKnee.gain, c, SoftKnee.mk', id]; exact if_pos (by linarith)
    rw [this]
    simp only [hard, Compressor.gain, Compressor.mk', id]
    rw [if_pos (by linarith)]
  · have hh : hard env = (1 - ratio) * (threshold - env) := by
      simp only [hard, Compressor.gain, Compressor.mk', id]
      rw [if_neg (by linarith)]
    rw [hh]
    rcases eq_or_lt_of_le h with h' | h'
    · rw [hpar env (by linarith) (by linarith), ← h']
      field_simp; ring
    · simp only [SoftKnee.gain, c, SoftKnee.mk', id]
      rw [if_neg (by linarith), if_neg (by linarith)]

/-- **C48** (exact arithmetic) For every ratio in [0, 1], width > 0: compared with the hard compressor the soft knee
only attenuates more, by at most `(1 - ratio) width / 8` dB; the gain never increases and the output level never
decreases with the input level; and two input levels `d` apart never give gains more than `(1 - ratio) d` apart (so
there is no jump anywhere, in particular not at the knee edges). -/
theorem C48_soft_knee_curve (threshold width ratio : ℚ) (hw : 0 < width) (h0 : 0 ≤ ratio) (h1 : ratio ≤ 1) :
    let c := SoftKnee.mk' id id threshold width ratio
    let hard := (Compressor.mk' id threshold ratio).gain id
    (∀ env, c.gain id env ≤ hard env ∧ hard env - c.gain id env ≤ (1 - ratio) * width / 8) ∧
    (∀ e1 e2, e1 ≤ e2 → c.gain id e2 ≤ c.gain id e1 ∧ c.gain id e1 - c.gain id e2 ≤ (1 - ratio) * (e2 - e1) ∧
      e1 + c.gain id e1 ≤ e2 + c.gain id e2) := by
  intro c hard
  obtain ⟨hout, hin⟩ := C48_hard_outside_knee threshold width ratio hw
  have hhard : ∀ env, hard env = (1 - ratio) * min 0 (threshold - env) := by
    intro env
    simp only [hard, Compressor.gain, Compressor.mk', id]
    split_ifs with h
    · rw [min_eq_left (by linarith)]; ring
    · push Not at h; rw [min_eq_right (by linarith)]
  -- normalised curve: gain = (1 - ratio) * G
  set G : ℚ → ℚ := fun env =>
    if env ≤ threshold - width / 2 then 0 else if env ≤ threshold + width / 2 then
      -(env - (threshold - width / 2)) ^ 2 / (2 * width) else threshold - env with hG
  have hc : ∀ env, c.gain id env = (1 - ratio) * G env := by
    intro env
    simp only [hG]
    split_ifs with a b
    · rw [hout env (.inl a)]
      show hard env = _
      rw [hhard, min_eq_left (by linarith)]
    · rw [hin env (by linarith) b]; ring
    · rw [hout env (.inr (by linarith))]
      show hard env = _
      rw [hhard, min_eq_right (by linarith)]
  have hG1 : ∀ env, G env ≤ min 0 (threshold - env) ∧ min 0 (threshold - env) - G env ≤ width / 8 := by
    intro env
    simp only [hG]
    split_ifs with a b
    · rw [min_eq_left (by linarith)]; constructor <;> linarith
    · have e : -(env - (threshold - width / 2)) ^ 2 / (2 * width) = -((env - (threshold - width / 2)) ^ 2 / (2 * width)) := by ring
      rw [e]
      have q0 : 0 ≤ (env - (threshold - width / 2)) ^ 2 / (2 * width) := by positivity
      rcases le_total 0 (threshold - env) with h | h
      · rw [min_eq_left h]
        refine ⟨by linarith, ?_⟩
        have : (env - (threshold - width / 2)) ^ 2 / (2 * width) ≤ width / 8 := by
          rw [div_le_iff₀ (by positivity)]; nlinarith
        linarith
      · rw [min_eq_right h]
        constructor
        · have : env - threshold ≤ (env - (threshold - width / 2)) ^ 2 / (2 * width) := by
            rw [le_div_iff₀ (by positivity)]; nlinarith [sq_nonneg (env - threshold - width / 2)]
          linarith
        · have : (env - (threshold - width / 2)) ^ 2 / (2 * width) ≤ width / 8 + (env - threshold) := by
            rw [div_le_iff₀ (by positivity)]; nlinarith
          linarith
    · rw [min_eq_right (by linarith)]; constructor <;> linarith
  have hG2 : ∀ e1 e2, e1 ≤ e2 → G e2 ≤ G e1 ∧ G e1 - G e2 ≤ e2 - e1 := by
    have knee : ∀ x y : ℚ, 0 ≤ x → x ≤ y → y ≤ width →
        x ^ 2 / (2 * width) ≤ y ^ 2 / (2 * width) ∧ y ^ 2 / (2 * width) - x ^ 2 / (2 * width) ≤ y - x := by
      intro x y hx hxy hy
      constructor
      · gcongr
      · rw [← sub_div, div_le_iff₀ (by positivity)]; nlinarith
    intro e1 e2 h
    simp only [hG]
    have n : ∀ z : ℚ, -z ^ 2 / (2 * width) = -(z ^ 2 / (2 * width)) := fun z => by ring
    rw [n, n]
    have hwv : width ^ 2 / (2 * width) = width / 2 := by field_simp
    split_ifs
    all_goals first
      | exact ⟨by linarith, by linarith⟩
      | (exfalso; linarith)
      | (have := knee 0 (e2 - (threshold - width / 2)) le_rfl (by linarith) (by linarith)
         simp at this
         constructor <;> linarith)
      | (have := knee (e1 - (threshold - width / 2)) (e2 - (threshold - width / 2)) (by linarith) (by linarith)
           (by linarith)
         constructor <;> linarith)
      | (have := knee (e1 - (threshold - width / 2)) width (by linarith) (by linarith) le_rfl
         constructor <;> linarith)
  have hr : 0 ≤ 1 - ratio := by linarith
  constructor
  · intro env
    rw [hc, hhard]
    have := hG1 env
    constructor <;> nlinarith
  · intro e1 e2 h
    rw [hc, hc]
    have := hG2 e1 e2 h
    refine ⟨by nlinarith, by nlinarith, by nlinarith⟩

/-- **C48** Changing threshold, width or ratio gives exactly the compressor constructed with the new values, in
particular the knee edges are never stale. -/
theorem C48_setters (fl fd : ℚ → ℚ) (threshold threshold' width width' ratio ratio' : ℚ) :
    (SoftKnee.mk' fl fd threshold width ratio).setThreshold fd threshold' = SoftKnee.mk' fl fd threshold' width ratio ∧
    (SoftKnee.mk' fl fd threshold width ratio).setWidth fd width' = SoftKnee.mk' fl fd threshold width' ratio ∧
    (SoftKnee.mk' fl fd threshold width ratio).setRatio fl ratio' = SoftKnee.mk' fl fd threshold width ratio' :=
  ⟨rfl, rfl, rfl⟩

example : (SoftKnee.mk' id id (-20) 10 (1 / 4)).gain id (-20) = -15 / 16 := by norm_num [SoftKnee.gain, SoftKnee.mk']

/-! ## Expander and AGC -/

/-- **C49** (IEEE rounding included) Expander, every ratio `≥ 0`: unity gain at and above the threshold, attenuation
below, less gain for a quieter signal. -/
theorem C49_expander (threshold ratio : ℚ) (h0 : 0 ≤ ratio) :
    let c := Expander.mk' threshold ratio
    (∀ env, threshold ≤ env → c.gain fl64 env = 0) ∧ (∀ env, c.gain fl64 env ≤ 0) ∧
    (∀ e1 e2, e1 ≤ e2 → c.gain fl64 e1 ≤ c.gain fl64 e2) := by
  intro c
  have hneg : ∀ env, c.gain fl64 env ≤ 0 := by
    intro env
    unfold Expander.gain
    split_ifs with h
    · exact le_rfl
    · push Not at h
      exact fnonpos fl64_lawful (by norm_num) (mul_nonpos_of_nonneg_of_nonpos h0
        (fnonpos fl64_lawful (by norm_num) (by linarith)))
  refine ⟨fun env h => by unfold Expander.gain; exact if_pos h, hneg, ?_⟩
  intro e1 e2 h
  by_cases h2 : threshold ≤ e2
  · rw [show c.gain fl64 e2 = 0 by unfold Expander.gain; exact if_pos h2]; exact hneg e1
  · have h1 : ¬ threshold ≤ e1 := by intro h3; exact h2 (le_trans h3 h)
    unfold Expander.gain
    rw [if_neg (show ¬ e1 ≥ c.threshold from h1), if_neg (show ¬ e2 ≥ c.threshold from h2)]
    exact fl64_lawful.mono _ _ (mul_le_mul_of_nonneg_left (fl64_lawful.mono _ _ (by linarith)) h0)

/-- **C49** (exact arithmetic) Below the threshold the expander attenuates `ratio` dB per dB, and the output level
still increases with the input level; the setters give exactly the expander constructed with the new values. -/
theorem C49_expander_level (threshold ratio : ℚ) (h0 : 0 ≤ ratio) :
    let c := Expander.mk' threshold ratio
    (∀ env, env < threshold → c.gain id env = -(ratio * (threshold - env))) ∧
    (∀ e1 e2, e1 < e2 → e1 + c.gain id e1 < e2 + c.gain id e2) ∧
    (∀ threshold' ratio', c.setThreshold threshold' = Expander.mk' threshold' ratio ∧
      c.setRatio ratio' = Expander.mk' threshold ratio') := by
  intro c
  refine ⟨?_, ?_, fun _ _ => ⟨rfl, rfl⟩⟩
  · intro env h
    simp only [Expander.gain, c, Expander.mk', id]
    rw [if_neg (by simpa using h)]; ring
  · intro e1 e2 h
    simp only [Expander.gain, c, Expander.mk', id]
    split_ifs with a b b
    · linarith
    · push Not at b; linarith
    · push Not at a; nlinarith
    · push Not at a b; nlinarith

/-- **C49** (IEEE rounding included) AGC: the gain never exceeds the maximum gain; and whenever the gain needed to
bring the envelope to the reference does not exceed it, that is the gain returned. -/
theorem C49_agc (max env ref : ℚ) (hm : Rep 53 (-1074) max) :
    agcGain fl64 max env ref ≤ max ∧ (ref - env ≤ max → agcGain fl64 max env ref = fl64 (ref - env)) := by
  unfold agcGain
  simp only
  constructor
  · split_ifs with h
    · have h1 : 0 ≤ fl64 (fl64 (ref - env) - max) := fnonneg fl64_lawful (by norm_num) (by linarith)
      have := fl64_lawful.mono (max - fl64 (fl64 (ref - env) - max)) max (by linarith)
      rwa [fl64_lawful.fix _ hm] at this
    · push Not at h; exact h
  · intro h
    have := fl64_lawful.mono _ _ h
    rw [fl64_lawful.fix _ hm] at this
    rw [if_neg (not_lt.2 this)]

/-- **C49** (exact arithmetic) AGC: the output level `env + gain` is the reference for every envelope within the
maximum gain of it; for a quieter one the gain is reflected at the maximum, `2 max - (ref - env)`. -/
theorem C49_agc_level (max env ref : ℚ) :
    (ref - env ≤ max → env + agcGain id max env ref = ref) ∧
    (max < ref - env → agcGain id max env ref = 2 * max - (ref - env)) := by
  unfold agcGain
  simp only [id]
  constructor
  · intro h; rw [if_neg (not_lt.2 h)]; ring
  · intro h; rw [if_pos h]; ring

example : agcGain id 30 (-50) (-10) = 20 := by norm_num [agcGain]
example : Rep 53 (-1074) 30 := ⟨30, 0, by norm_num, by norm_num, by norm_num⟩
end Verif
