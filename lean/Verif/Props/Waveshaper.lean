import Verif.Model.Fx
import Verif.Props.Dynamics
import Verif.Proof.RoundMore
/-!
# C51: clipping
-/
namespace Verif
open Rounding Fx Dyn

/-- **C51** `clip` with any limit `max ≥ 0` (no arithmetic, so true of floats as it stands): the result is within
`[-max, max]`, a sample within the limits is unchanged, a sample beyond is set to the limit it exceeds; clipping twice
is clipping once, and order is preserved. -/
theorem C51_clip (max : ℚ) (h0 : 0 ≤ max) :
    (∀ s, -max ≤ clip max s ∧ clip max s ≤ max) ∧ (∀ s, -max ≤ s → s ≤ max → clip max s = s) ∧
    (∀ s, max ≤ s → clip max s = max) ∧ (∀ s, s ≤ -max → clip max s = -max) ∧
    (∀ s, clip max (clip max s) = clip max s) ∧ (∀ s t, s ≤ t → clip max s ≤ clip max t) ∧
    (∀ s, clip max (-s) = -clip max s) := by
  have hb : ∀ s, -max ≤ clip max s ∧ clip max s ≤ max := by
    intro s; unfold clip
    split_ifs with a b
    · constructor <;> linarith
    · constructor <;> linarith
    · push Not at a b; exact ⟨b, a⟩
  have hid : ∀ s, -max ≤ s → s ≤ max → clip max s = s := by
    intro s h1 h2; unfold clip
    rw [if_neg (not_lt.2 h2), if_neg (not_lt.2 h1)]
  refine ⟨hb, hid, ?_, ?_, fun s => hid _ (hb s).1 (hb s).2, ?_, ?_⟩
  · intro s h; unfold clip
    split_ifs with a b
    · rfl
    · linarith
    · push Not at a; linarith
  · intro s h; unfold clip
    split_ifs with a b
    · linarith
    · rfl
    · push Not at b; linarith
  · intro s t h; unfold clip
    split_ifs with a b c d e f g
    all_goals linarith
  · intro s; unfold clip
    split_ifs with a b c d e f g
    all_goals first | rfl | linarith

namespace Fx
variable {fd : ℚ → ℚ}

theorem softClip_eq (fl fd : ℚ → ℚ) (s : ℚ) (h0 : 0 ≤ s) (h1 : s ≤ 1) :
    softClip fl fd s = fl (fd (fd (3 / 2 * s) - fd (fd (fd (1 / 2 * s) * s) * s))) := by
  unfold softClip
  rw [(C51_clip 1 (by norm_num)).2.1 s (by linarith) h1]

/-- The double-precision cubic stays within `[0, 1]` on `[0, 1 - 2^-24] ∪ {1}`. -/
theorem cubic_bounds (s : ℚ) (h0 : 0 ≤ s) (h1 : s ≤ 1) (hs : s ≤ 1 - 1 / 2 ^ 24 ∨ s = 1) :
    0 ≤ fl64 (3 / 2 * s) - fl64 (fl64 (fl64 (1 / 2 * s) * s) * s) ∧
    fl64 (3 / 2 * s) - fl64 (fl64 (fl64 (1 / 2 * s) * s) * s) ≤ 1 := by
  have L := fl64_lawful
  have p0 : 0 ≤ fl64 (1 / 2 * s) := fnonneg L (by norm_num) (by positivity)
  have c1 : fl64 (fl64 (1 / 2 * s) * s) ≤ fl64 (1 / 2 * s) := by
    have := L.mono (fl64 (1 / 2 * s) * s) (fl64 (1 / 2 * s)) (by nlinarith)
    rwa [L.fix _ (L.rep _)] at this
  have p1 : 0 ≤ fl64 (fl64 (1 / 2 * s) * s) := fnonneg L (by norm_num) (mul_nonneg p0 h0)
  have c2 : fl64 (fl64 (fl64 (1 / 2 * s) * s) * s) ≤ fl64 (fl64 (1 / 2 * s) * s) := by
    have := L.mono (fl64 (fl64 (1 / 2 * s) * s) * s) (fl64 (fl64 (1 / 2 * s) * s)) (by nlinarith)
    rwa [L.fix _ (L.rep _)] at this
  constructor
  · have : fl64 (1 / 2 * s) ≤ fl64 (3 / 2 * s) := L.mono _ _ (by linarith)
    linarith
  · rcases hs with hs | rfl
    · have e1 := L.err (3 / 2 * s)
      have e2 := L.err (1 / 2 * s)
      have e3 := L.err (fl64 (1 / 2 * s) * s)
      have e4 := L.err (fl64 (fl64 (1 / 2 * s) * s) * s)
      have half : fl64 (1 / 2 * s) ≤ 1 / 2 := by
        have r : Rep 53 (-1074) (1 / 2) := ⟨1, -1, by norm_num, by norm_num, by norm_num⟩
        exact L.le_of_rep r (by linarith)
      have tiny : (2 : ℚ) ^ (-1074 : ℤ) / 2 ≤ 1 / 2 ^ 53 := by
        have : (2 : ℚ) ^ (-1074 : ℤ) ≤ (2 : ℚ) ^ (-53 : ℤ) := zpow_le_zpow_right₀ (by norm_num) (by norm_num)
        have h2 : (2 : ℚ) ^ (-53 : ℤ) = 1 / 2 ^ 53 := by rw [zpow_neg]; norm_num
        rw [h2] at this
        have hp : (0 : ℚ) < (2 : ℚ) ^ (-1074 : ℤ) := two_zpow_pos _
        linarith
      generalize (2 : ℚ) ^ (-1074 : ℤ) / 2 = t at *
      have mx : ∀ x : ℚ, 0 ≤ x → x ≤ 3 / 2 → max (|x| / 2 ^ 53) t ≤ 3 / 2 ^ 54 := by
        intro x hx hx1
        rw [abs_of_nonneg hx]
        apply max_le
        · rw [div_le_iff₀ (by norm_num)]; norm_num; linarith
        · refine le_trans tiny (by norm_num)
      have q1 := le_trans e1 (mx _ (by positivity) (by linarith))
      have q2 := le_trans e2 (mx _ (by positivity) (by linarith))
      have q3 := le_trans e3 (mx _ (mul_nonneg p0 h0) (by nlinarith))
      have q4 := le_trans e4 (mx _ (mul_nonneg p1 h0) (by nlinarith))
      generalize fl64 (3 / 2 * s) = A at *
      generalize fl64 (fl64 (fl64 (1 / 2 * s) * s) * s) = D at *
      generalize fl64 (fl64 (1 / 2 * s) * s) = Cc at *
      generalize fl64 (1 / 2 * s) = B at *
      rw [abs_le] at q1 q2 q3 q4
      have k2 : (1 / 2 * s - 3 / 2 ^ 54) * s ≤ B * s := mul_le_mul_of_nonneg_right (by linarith) h0
      have k3 : (1 / 2 * s * s - 2 * (3 / 2 ^ 54)) * s ≤ Cc * s := by
        refine mul_le_mul_of_nonneg_right ?_ h0
        have : (3 / 2 ^ 54 : ℚ) * s ≤ 3 / 2 ^ 54 := by
          have : (0:ℚ) ≤ 3 / 2 ^ 54 := by norm_num
          nlinarith
        nlinarith
      have k4 : 1 / 2 * s * s * s - 3 * (3 / 2 ^ 54) ≤ D := by
        have : (2 * (3 / 2 ^ 54) : ℚ) * s ≤ 2 * (3 / 2 ^ 54) := by
          have : (0:ℚ) ≤ 2 * (3 / 2 ^ 54) := by norm_num
          nlinarith
        nlinarith
      have poly : 3 / 2 * s - 1 / 2 * s * s * s = 1 - (1 - s) ^ 2 * (2 + s) / 2 := by ring
      have gap : (1 / 2 ^ 24 : ℚ) ^ 2 ≤ (1 - s) ^ 2 * (2 + s) / 2 := by
        have h2 : (1 / 2 ^ 24 : ℚ) ^ 2 ≤ (1 - s) ^ 2 := by
          apply pow_le_pow_left₀ (by norm_num); linarith
        have h3 : 0 ≤ (1 - s) ^ 2 := sq_nonneg _
        nlinarith
      norm_num at gap q1 k4 ⊢
      linarith
    · have r1 : Rep 53 (-1074) (3 / 2) := ⟨3, -1, by norm_num, by norm_num, by norm_num⟩
      have r2 : Rep 53 (-1074) (1 / 2) := ⟨1, -1, by norm_num, by norm_num, by norm_num⟩
      simp only [mul_one]
      rw [L.fix _ r1, L.fix _ r2, L.fix _ r2, L.fix _ r2]
      norm_num

theorem softClip_neg (s : ℚ) : softClip fl32 fl64 (-s) = -softClip fl32 fl64 s := by
  unfold softClip
  simp only
  rw [(C51_clip 1 (by norm_num)).2.2.2.2.2.2 s]
  generalize clip 1 s = t
  rw [show 3 / 2 * -t = -(3 / 2 * t) by ring, show 1 / 2 * -t = -(1 / 2 * t) by ring, fl64_lawful.neg (3 / 2 * t),
    fl64_lawful.neg (1 / 2 * t), show -fl64 (1 / 2 * t) * -t = fl64 (1 / 2 * t) * t by ring,
    show fl64 (fl64 (1 / 2 * t) * t) * -t = -(fl64 (fl64 (1 / 2 * t) * t) * t) by ring,
    fl64_lawful.neg (fl64 (fl64 (1 / 2 * t) * t) * t)]
  rw [show ∀ a b : ℚ, -a - -b = -(a - b) from fun a b => by ring, fl64_lawful.neg, fl32_lawful.neg]
end Fx

/-- **C51** (IEEE rounding included, `double` intermediates) `soft_clip`: for every float sample the output is within
`[-1, 1]`, has the sample's sign, is odd, and is exactly ±1 beyond ±1. -/
theorem C51_soft_clip (s : ℚ) (hs : Rep 24 (-149) s) :
    -1 ≤ softClip fl32 fl64 s ∧ softClip fl32 fl64 s ≤ 1 ∧ (0 ≤ s → 0 ≤ softClip fl32 fl64 s) ∧
    softClip fl32 fl64 (-s) = -softClip fl32 fl64 s ∧ (1 ≤ s → softClip fl32 fl64 s = 1) := by
  have r1 : Rep 24 (-149) 1 := ⟨1, 0, by norm_num, by norm_num, by norm_num⟩
  have rd1 : Rep 53 (-1074) 1 := ⟨1, 0, by norm_num, by norm_num, by norm_num⟩
  have hone : ∀ s : ℚ, 1 ≤ s → softClip fl32 fl64 s = 1 := by
    intro s h
    unfold softClip
    rw [(C51_clip 1 (by norm_num)).2.2.1 s h]
    have q1 : Rep 53 (-1074) (3 / 2) := ⟨3, -1, by norm_num, by norm_num, by norm_num⟩
    have q2 : Rep 53 (-1074) (1 / 2) := ⟨1, -1, by norm_num, by norm_num, by norm_num⟩
    simp only [mul_one]
    rw [fl64_lawful.fix _ q1, fl64_lawful.fix _ q2, fl64_lawful.fix _ q2, fl64_lawful.fix _ q2]
    rw [show (3 / 2 - 1 / 2 : ℚ) = 1 by norm_num, fl64_lawful.fix _ rd1, fl32_lawful.fix _ r1]
  have pos : ∀ s : ℚ, Rep 24 (-149) s → 0 ≤ s → 0 ≤ softClip fl32 fl64 s ∧ softClip fl32 fl64 s ≤ 1 := by
    intro s hs h0
    rcases le_or_gt 1 s with h | h
    · rw [hone s h]; constructor <;> norm_num
    · have hgap : s ≤ 1 - 1 / 2 ^ 24 := by
        have := rep_lt_one (by norm_num) hs h
        simpa using this
      have hb := cubic_bounds s h0 h.le (.inl hgap)
      rw [softClip_eq fl32 fl64 s h0 h.le]
      refine ⟨fnonneg fl32_lawful (by norm_num) (fnonneg fl64_lawful (by norm_num) hb.1), ?_⟩
      exact fl32_lawful.le_of_rep r1 (fl64_lawful.le_of_rep rd1 hb.2)
  refine ⟨?_, ?_, fun h => (pos s hs h).1, softClip_neg s, hone s⟩
  · rcases le_total 0 s with h | h
    · linarith [(pos s hs h).1]
    · have hn : Rep 24 (-149) (-s) := by
        have := fl32_lawful.rep (-s); rwa [fl32_lawful.neg, fl32_lawful.fix s hs] at this
      have := (pos (-s) hn (by linarith)).2
      rw [softClip_neg] at this; linarith
  · rcases le_total 0 s with h | h
    · exact (pos s hs h).2
    · have hn : Rep 24 (-149) (-s) := by
        have := fl32_lawful.rep (-s); rwa [fl32_lawful.neg, fl32_lawful.fix s hs] at this
      have := (pos (-s) hn (by linarith)).1
      rw [softClip_neg] at this; linarith

/-- **C51** (exact arithmetic) `soft_clip` is increasing, never expands a difference by more than 3/2, and never lowers
the magnitude of a sample within the limits. -/
theorem C51_soft_clip_curve (s t : ℚ) :
    (s ≤ t → softClip id id s ≤ softClip id id t ∧ softClip id id t - softClip id id s ≤ 3 / 2 * (t - s)) ∧
    (0 ≤ s → s ≤ 1 → s ≤ softClip id id s) := by
  have hb := (C51_clip 1 (by norm_num)).1
  have hm := (C51_clip 1 (by norm_num)).2.2.2.2.2.1
  have e : ∀ s, softClip id id s = 3 / 2 * clip 1 s - 1 / 2 * clip 1 s * clip 1 s * clip 1 s := fun s => rfl
  constructor
  · intro h
    rw [e, e]
    have hc : clip 1 t - clip 1 s ≤ t - s := by
      unfold clip
      split_ifs
      all_goals linarith
    have h1 := hb s; have h2 := hb t; have h3 := hm s t h
    generalize clip 1 s = a at *
    generalize clip 1 t = b at *
    have f : 3 / 2 * b - 1 / 2 * b * b * b - (3 / 2 * a - 1 / 2 * a * a * a) =
      (b - a) * (3 / 2 - 1 / 2 * (a ^ 2 + a * b + b ^ 2)) := by ring
    have g : a ^ 2 + a * b + b ^ 2 ≤ 3 := by nlinarith
    have g' : 0 ≤ a ^ 2 + a * b + b ^ 2 := by nlinarith [sq_nonneg (a + b), sq_nonneg a, sq_nonneg b]
    constructor
    · have : 0 ≤ (b - a) * (3 / 2 - 1 / 2 * (a ^ 2 + a * b + b ^ 2)) := mul_nonneg (by linarith) (by linarith)
      linarith
    · rw [f]; nlinarith
  · intro h0 h1
    rw [e, (C51_clip 1 (by norm_num)).2.1 s (by linarith) h1]
    have : 0 ≤ s * (1 - s * s) := mul_nonneg h0 (by nlinarith)
    nlinarith

example : softClip id id (1 / 2) = 11 / 16 := by norm_num [softClip, clip]
example : Rep 24 (-149) (1 / 2) := ⟨1, -1, by norm_num, by norm_num, by norm_num⟩
end Verif
