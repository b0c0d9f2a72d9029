import Verif.Proof.DrWav
import Verif.Proof.Rounding
import Verif.Proof.RoundEval
import Mathlib.Tactic.Positivity
import Mathlib.Tactic.FieldSimp
import Mathlib.Tactic.IntervalCases
/-!
# C93: PCM samples as floats
-/
namespace Verif
open DrWav Rounding

namespace WavSpec

/-- The integer stored in a sample of `b.length` bytes: two's complement, least significant byte first. -/
def pcmInt (b : List Byte) : Int := if leNat b < 2 ^ (8 * b.length - 1) then leNat b else leNat b - 2 ^ (8 * b.length)

/-- The value of a sample of two or more bytes, relative to full scale. -/
def pcmValue (b : List Byte) : ℚ := pcmInt b / 2 ^ (8 * b.length - 1)

end WavSpec

open WavSpec

namespace DrWav

theorem signed_bounds (n v : Nat) (hn : 0 < n) (hv : v < 2 ^ (8 * n)) : -2 ^ (8 * n - 1) ≤ signed n v ∧ signed n v ≤ 2 ^ (8 * n - 1) - 1 := by
  have e : (2 : ℕ) ^ (8 * n) = 2 * 2 ^ (8 * n - 1) := by
    conv_lhs => rw [show 8 * n = (8 * n - 1) + 1 by omega, pow_succ']
  have e' : (2 : ℤ) ^ (8 * n) = 2 * 2 ^ (8 * n - 1) := by exact_mod_cast e
  have ec : ((2 ^ (8 * n - 1) : ℕ) : ℤ) = 2 ^ (8 * n - 1) := by push_cast; rfl
  unfold signed
  rw [e'] 
  rw [e] at hv
  rw [← ec]
  generalize 2 ^ (8 * n - 1) = X at *
  split <;> omega

theorem leNat_lt' (b : List Byte) : leNat b < 2 ^ (8 * b.length) := by
  have := leNat_lt b
  rwa [show (256 : ℕ) = 2 ^ 8 by norm_num, ← pow_mul] at this

/-- Scaling. -/
theorem signed_shift (n v : Nat) (hn : 0 < n) (hv : v < 2 ^ (8 * n)) (k : Nat) : signed (n + k) (v * 256 ^ k) = 256 ^ k * signed n v := by
  unfold signed
  have e1 : (2 : ℕ) ^ (8 * (n + k) - 1) = 2 ^ (8 * n - 1) * 256 ^ k := by
    rw [show (256 : ℕ) = 2 ^ 8 by norm_num, ← pow_mul, ← pow_add]; congr 1; omega
  have e2 : (2 : ℤ) ^ (8 * (n + k)) = 2 ^ (8 * n) * 256 ^ k := by
    rw [show (256 : ℤ) = 2 ^ 8 by norm_num, ← pow_mul, ← pow_add]; congr 1; omega
  have hk : 0 < 256 ^ k := by positivity
  rw [e1, e2]
  by_cases h : v < 2 ^ (8 * n - 1)
  · rw [if_pos h, if_pos (Nat.mul_lt_mul_of_pos_right h hk)]
    push_cast; ring
  · rw [if_neg h, if_neg (by intro h2; exact h (Nat.lt_of_mul_lt_mul_right h2))]
    push_cast; ring

theorem signed_eq (b : List Byte) : signed b.length (leNat b) = pcmInt b := rfl

theorem rep_scaled {p : ℕ} {emin : ℤ} {m : ℤ} (k : ℕ) (h : |m| ≤ 2 ^ p) (he : emin ≤ -k) : Rep p emin ((m : ℚ) / 2 ^ k) :=
  ⟨m, -k, h, he, by rw [zpow_neg, zpow_natCast, div_eq_mul_inv]⟩

theorem fl64_big : fl64 9223372036854775807 = 2 ^ 63 := by
  have := rnd_eq (p := 53) (emin := -1074) (x := 9223372036854775807) (2 ^ 53) 10 (by norm_num) (by norm_num) (by norm_num) (by norm_num [abs_lt])
  rw [show fl64 9223372036854775807 = _ from this]
  norm_num

/-- The rounding before the last one, for samples of more than four bytes. -/
def pre64 (n : Nat) (x : ℚ) : ℚ := if n ≤ 4 then x else fl64 (fl64 (x * 2 ^ 63) / 2 ^ 63)

theorem rep_one64 : Rep 53 (-1074) 1 := ⟨1, 0, by norm_num, by norm_num, by norm_num⟩
theorem rep_one32 : Rep 24 (-149) 1 := ⟨1, 0, by norm_num, by norm_num, by norm_num⟩

theorem pre64_mono (n : Nat) {x y : ℚ} (h : x ≤ y) : pre64 n x ≤ pre64 n y := by
  unfold pre64
  split
  · exact h
  · apply fl64_lawful.mono
    apply div_le_div_of_nonneg_right _ (by positivity)
    apply fl64_lawful.mono
    exact mul_le_mul_of_nonneg_right h (by positivity)

theorem pre64_abs (n : Nat) {x : ℚ} (h : |x| ≤ 1) : |pre64 n x| ≤ 1 := by
  unfold pre64
  split
  · exact h
  · apply fl64_lawful.abs_le_of_rep rep_one64
    rw [abs_div, abs_of_pos (by positivity : (0 : ℚ) < 2 ^ 63), div_le_one (by positivity)]
    apply fl64_lawful.abs_le_of_rep ⟨1, 63, by norm_num, by norm_num, by norm_num⟩
    rw [abs_mul, abs_of_pos (by positivity : (0 : ℚ) < 2 ^ 63)]
    nlinarith

theorem err_one {p : ℕ} {emin : ℤ} {fl : ℚ → ℚ} (L : Lawful p emin fl) (hp : p ≤ 100) (he : emin ≤ -100) {x : ℚ} (h : |x| ≤ 1) :
    |fl x - x| ≤ 1 / 2 ^ p := by
  refine le_trans (L.err x) (max_le ?_ ?_)
  · exact div_le_div_of_nonneg_right h (by positivity)
  · have h1 : (2 : ℚ) ^ emin ≤ (2 : ℚ) ^ (-100 : ℤ) := zpow_le_zpow_right₀ (by norm_num) he
    have h2 : (2 : ℚ) ^ (-100 : ℤ) ≤ 1 / 2 ^ p := by
      rw [zpow_neg, ← one_div, show ((100 : ℤ)) = ((100 : ℕ) : ℤ) by norm_num, zpow_natCast]
      apply one_div_le_one_div_of_le (by positivity)
      exact pow_le_pow_right₀ (by norm_num) hp
    have h3 : (0 : ℚ) < (2 : ℚ) ^ emin := zpow_pos (by norm_num) _
    have h4 := h1.trans h2
    generalize (2 : ℚ) ^ emin = a at h3 h4 ⊢
    generalize (1 : ℚ) / 2 ^ p = c at h4 ⊢
    linarith

theorem pre64_err (n : Nat) {x : ℚ} (h : |x| ≤ 1) : |pre64 n x - x| ≤ 2 / 2 ^ 53 := by
  unfold pre64
  split
  · rw [sub_self, abs_zero]; positivity
  · have h1 := fl64_lawful.err (x * 2 ^ 63)
    have ha : |fl64 (x * 2 ^ 63) / 2 ^ 63| ≤ 1 := by
      rw [abs_div, abs_of_pos (by positivity : (0 : ℚ) < 2 ^ 63), div_le_one (by positivity)]
      apply fl64_lawful.abs_le_of_rep ⟨1, 63, by norm_num, by norm_num, by norm_num⟩
      rw [abs_mul, abs_of_pos (by positivity : (0 : ℚ) < 2 ^ 63)]
      nlinarith
    have h2 := err_one fl64_lawful (by norm_num) (by norm_num) ha
    have h3 : |fl64 (x * 2 ^ 63) / 2 ^ 63 - x| ≤ 1 / 2 ^ 53 := by
      have e : fl64 (x * 2 ^ 63) / 2 ^ 63 - x = (fl64 (x * 2 ^ 63) - x * 2 ^ 63) / 2 ^ 63 := by field_simp
      rw [e, abs_div, abs_of_pos (by positivity : (0 : ℚ) < 2 ^ 63), div_le_iff₀ (by positivity)]
      refine le_trans h1 (max_le ?_ ?_)
      · rw [abs_mul, abs_of_pos (by positivity : (0 : ℚ) < 2 ^ 63)]
        have h4 : |x| * 2 ^ 63 ≤ 1 * 2 ^ 63 := mul_le_mul_of_nonneg_right h (by positivity)
        calc |x| * 2 ^ 63 / 2 ^ 53 ≤ 1 * 2 ^ 63 / 2 ^ 53 := div_le_div_of_nonneg_right h4 (by positivity)
          _ = 1 / 2 ^ 53 * 2 ^ 63 := by norm_num
      · have h1 : (2 : ℚ) ^ (-1074 : ℤ) ≤ (2 : ℚ) ^ (0 : ℤ) := zpow_le_zpow_right₀ (by norm_num) (by norm_num)
        rw [zpow_zero] at h1
        have : (1 : ℚ) ≤ 1 / 2 ^ 53 * 2 ^ 63 := by norm_num
        linarith
    have := abs_sub_le (fl64 (fl64 (x * 2 ^ 63) / 2 ^ 63)) (fl64 (x * 2 ^ 63) / 2 ^ 63) x
    have e2 : (2 : ℚ) / 2 ^ 53 = 1 / 2 ^ 53 + 1 / 2 ^ 53 := by ring
    rw [e2]
    linarith

theorem pcmInt_bounds (b : List Byte) (h : b ≠ []) : -2 ^ (8 * b.length - 1) ≤ pcmInt b ∧ pcmInt b ≤ 2 ^ (8 * b.length - 1) - 1 := by
  have hl : 0 < b.length := List.length_pos_iff.2 h
  exact signed_bounds b.length (leNat b) hl (leNat_lt' b)

theorem pcmValue_abs (b : List Byte) (h : b ≠ []) : |pcmValue b| ≤ 1 := by
  obtain ⟨h1, h2⟩ := pcmInt_bounds b h
  unfold pcmValue
  have hp : (0 : ℚ) < 2 ^ (8 * b.length - 1) := by positivity
  rw [abs_div, abs_of_pos hp, div_le_one hp]
  have : |pcmInt b| ≤ 2 ^ (8 * b.length - 1) := by rw [abs_le]; omega
  exact_mod_cast this

theorem pcm_u8 (a : Byte) : pcmToF32 [a] = fl32 (fl32 (fl32 ((a.toNat : ℚ) / 255) * 2) - 1) := by
  unfold pcmToF32
  simp only [List.length_singleton, if_true, leNat, Nat.mul_zero, Nat.add_zero]

/-- All formats of two to eight bytes at once. -/
theorem pcm_eq (b : List Byte) (h2 : 2 ≤ b.length) (h8 : b.length ≤ 8) : pcmToF32 b = fl32 (pre64 b.length (pcmValue b)) := by
  have hne : b ≠ [] := by intro h; rw [h] at h2; simp at h2
  have hv := leNat_lt' b
  obtain ⟨b1, b2⟩ := pcmInt_bounds b hne
  unfold pcmToF32 pre64
  simp only
  rw [if_neg (by omega)]
  by_cases e2 : b.length = 2
  · rw [if_pos e2, if_pos (by omega)]
    have := signed_eq b
    unfold pcmValue
    rw [e2] at this ⊢
    rw [this]
    norm_num
  rw [if_neg e2]
  by_cases e3 : b.length = 3
  · rw [if_pos e3, if_pos (by omega)]
    rw [e3] at hv b1 b2
    have hs := signed_shift 3 (leNat b) (by omega) hv 1
    rw [pow_one, pow_one, Nat.mul_comm] at hs
    have hq := signed_eq b
    rw [e3] at hq
    rw [show (4 : ℕ) = 3 + 1 from rfl, hs, hq]
    have e : (((256 * pcmInt b : ℤ)) : ℚ) / 2147483648 = (pcmInt b : ℚ) / 2 ^ 23 := by push_cast; ring
    rw [e, fl64_lawful.fix _ (rep_scaled 23 (by rw [abs_le]; norm_num at b1 b2 ⊢; omega) (by norm_num))]
    unfold pcmValue
    rw [e3]
  rw [if_neg e3]
  by_cases e4 : b.length = 4
  · rw [if_pos e4, if_pos (by omega)]
    rw [e4] at b1 b2
    have hq := signed_eq b
    rw [e4] at hq
    rw [hq, show (2147483648 : ℚ) = 2 ^ 31 by norm_num,
      fl64_lawful.fix _ (rep_scaled 31 (by rw [abs_le]; norm_num at b1 b2 ⊢; omega) (by norm_num))]
    unfold pcmValue
    rw [e4]
  rw [if_neg e4, if_neg (by omega), if_neg (by omega), fl64_big]
  have hs := signed_shift b.length (leNat b) (by omega) hv (8 - b.length)
  rw [Nat.add_sub_cancel' h8, signed_eq] at hs
  rw [hs]
  have e : (((256 ^ (8 - b.length) * pcmInt b : ℤ)) : ℚ) = pcmValue b * 2 ^ 63 := by
    unfold pcmValue
    have e1 : (2 : ℚ) ^ 63 = 2 ^ (8 * b.length - 1) * 256 ^ (8 - b.length) := by
      rw [show (256 : ℚ) = 2 ^ 8 by norm_num, ← pow_mul, ← pow_add]; congr 1; omega
    rw [e1]
    have : (2 : ℚ) ^ (8 * b.length - 1) ≠ 0 := by positivity
    push_cast
    field_simp
  rw [e]

end DrWav

/-- **C93.** Every PCM sample, whatever its size (1 to 8 bytes), is converted to a float between -1 and 1. -/
theorem C93_range (b : List Byte) (h1 : 1 ≤ b.length) (h8 : b.length ≤ 8) : -1 ≤ pcmToF32 b ∧ pcmToF32 b ≤ 1 := by
  rw [← abs_le]
  by_cases e1 : b.length = 1
  · have hv := leNat_lt b
    rw [e1, pow_one] at hv
    unfold pcmToF32
    simp only
    rw [if_pos e1]
    have hq : (leNat b : ℚ) ≤ 255 := by exact_mod_cast (by omega : leNat b ≤ 255)
    have h0 : (0 : ℚ) ≤ leNat b := by positivity
    have a1 : 0 ≤ fl32 (leNat b / 255) := fl32_lawful.nonneg (by positivity)
    have a2 : fl32 (leNat b / 255) ≤ 1 := fl32_lawful.le_of_rep rep_one32 (by rw [div_le_one (by norm_num)]; exact hq)
    have a3 : 0 ≤ fl32 (fl32 (leNat b / 255) * 2) := fl32_lawful.nonneg (by linarith)
    have a4 : fl32 (fl32 (leNat b / 255) * 2) ≤ 2 := fl32_lawful.le_of_rep ⟨1, 1, by norm_num, by norm_num, by norm_num⟩ (by linarith)
    apply fl32_lawful.abs_le_of_rep rep_one32
    rw [abs_le]; constructor <;> linarith
  · rw [pcm_eq b (by omega) h8]
    exact fl32_lawful.abs_le_of_rep rep_one32 (pre64_abs _ (pcmValue_abs b (by intro h; rw [h] at h1; simp at h1)))

/-- **C93.** 16-bit and 24-bit samples are converted exactly. -/
theorem C93_exact (b : List Byte) (h : b.length = 2 ∨ b.length = 3) : pcmToF32 b = pcmValue b := by
  have hne : b ≠ [] := by intro h2; rw [h2] at h; simp at h
  obtain ⟨b1, b2⟩ := pcmInt_bounds b hne
  rw [pcm_eq b (by omega) (by omega), pre64, if_pos (by omega)]
  apply fl32_lawful.fix
  unfold pcmValue
  rcases h with h | h
  · rw [h] at b1 b2 ⊢
    exact rep_scaled _ (by rw [abs_le]; norm_num at b1 b2 ⊢; omega) (by norm_num)
  · rw [h] at b1 b2 ⊢
    exact rep_scaled _ (by rw [abs_le]; norm_num at b1 b2 ⊢; omega) (by norm_num)

/-- **C93.** Samples of 32 bits are rounded to the nearest float. -/
theorem C93_nearest (b : List Byte) (h : b.length = 4) : pcmToF32 b = fl32 (pcmValue b) := by
  rw [pcm_eq b (by omega) (by omega), pre64, if_pos (by omega)]

/-- **C93.** All samples of two to eight bytes are converted with an error of less than 2^-23 of full scale. -/
theorem C93_accuracy (b : List Byte) (h2 : 2 ≤ b.length) (h8 : b.length ≤ 8) : |pcmToF32 b - pcmValue b| < 1 / 2 ^ 23 := by
  have hne : b ≠ [] := by intro h; rw [h] at h2; simp at h2
  have hv := pcmValue_abs b hne
  rw [pcm_eq b h2 h8]
  have e1 := pre64_err b.length hv
  have e2 := err_one fl32_lawful (by norm_num) (by norm_num) (pre64_abs b.length hv)
  have := abs_sub_le (fl32 (pre64 b.length (pcmValue b))) (pre64 b.length (pcmValue b)) (pcmValue b)
  have e3 : (1 : ℚ) / 2 ^ 24 + 2 / 2 ^ 53 < 1 / 2 ^ 23 := by norm_num
  linarith

/-- **C93.** The conversion is monotone, for two to eight bytes. -/
theorem C93_monotone (a b : List Byte) (hl : a.length = b.length) (h2 : 2 ≤ b.length) (h8 : b.length ≤ 8) (h : pcmInt a ≤ pcmInt b) :
    pcmToF32 a ≤ pcmToF32 b := by
  rw [pcm_eq a (by omega) (by omega), pcm_eq b h2 h8, hl]
  apply fl32_lawful.mono
  apply pre64_mono
  unfold pcmValue
  rw [hl]
  apply div_le_div_of_nonneg_right _ (by positivity)
  exact_mod_cast h

/-- **C93.** The conversion is monotone for single (unsigned) bytes, from -1 to 1. -/
theorem C93_monotone_u8 (a b : Byte) (h : a.toNat ≤ b.toNat) : pcmToF32 [a] ≤ pcmToF32 [b] := by
  rw [pcm_u8, pcm_u8]
  apply fl32_lawful.mono
  have : fl32 (fl32 ((a.toNat : ℚ) / 255) * 2) ≤ fl32 (fl32 ((b.toNat : ℚ) / 255) * 2) := by
    apply fl32_lawful.mono
    have : fl32 ((a.toNat : ℚ) / 255) ≤ fl32 ((b.toNat : ℚ) / 255) := by
      apply fl32_lawful.mono
      apply div_le_div_of_nonneg_right _ (by norm_num)
      exact_mod_cast h
    linarith
  linarith

/-- **C93.** The extremes of 8-bit samples. -/
theorem C93_u8_extremes : pcmToF32 [0] = -1 ∧ pcmToF32 [255] = 1 := by
  have z := fl32_lawful.zero
  have o := fl32_lawful.fix _ rep_one32
  have t : fl32 2 = 2 := fl32_lawful.fix _ ⟨1, 1, by norm_num, by norm_num, by norm_num⟩
  have m : fl32 (-1) = -1 := by rw [fl32_lawful.neg, o]
  constructor
  · rw [pcm_u8]
    rw [show (0 : Byte).toNat = 0 from rfl, Nat.cast_zero, zero_div, z, zero_mul, z, zero_sub, m]
  · rw [pcm_u8]
    rw [show (255 : Byte).toNat = 255 from rfl, show ((255 : ℕ) : ℚ) / 255 = 1 by norm_num, o, one_mul, t, show (2 : ℚ) - 1 = 1 by norm_num, o]

/-- **C93.** No 8-bit sample is converted to zero: the byte 128 that stands for silence becomes more than 0.003. -/
theorem C93_u8_silence_violation : (∀ a : Byte, pcmToF32 [a] ≠ 0) ∧ 0.003 < pcmToF32 [128] := by
  have key : ∀ q : ℚ, |q| ≤ 1 → |fl32 q - q| ≤ 1 / 2 ^ 24 := fun q h => err_one fl32_lawful (by norm_num) (by norm_num) h
  have val : ∀ v : ℕ, v ≤ 255 → ∃ d : ℚ, |d| ≤ 1 / 2 ^ 21 ∧ fl32 (fl32 (fl32 ((v : ℚ) / 255) * 2) - 1) = 2 * (v : ℚ) / 255 - 1 + d := by
    intro v hv
    have hq : (v : ℚ) ≤ 255 := by exact_mod_cast hv
    have h0 : (0 : ℚ) ≤ v := by positivity
    have hd0 : 0 ≤ (v : ℚ) / 255 := by positivity
    have hd1 : (v : ℚ) / 255 ≤ 1 := by rw [div_le_one (by norm_num)]; exact hq
    have a1 : 0 ≤ fl32 ((v : ℚ) / 255) := fl32_lawful.nonneg hd0
    have a2 : fl32 ((v : ℚ) / 255) ≤ 1 := fl32_lawful.le_of_rep rep_one32 hd1
    have a3 : 0 ≤ fl32 (fl32 ((v : ℚ) / 255) * 2) := fl32_lawful.nonneg (by linarith)
    have a4 : fl32 (fl32 ((v : ℚ) / 255) * 2) ≤ 2 := fl32_lawful.le_of_rep ⟨1, 1, by norm_num, by norm_num, by norm_num⟩ (by linarith)
    have b1 := key _ (abs_le.2 ⟨by linarith, hd1⟩)
    have b2 : |fl32 (fl32 ((v : ℚ) / 255) * 2) - fl32 ((v : ℚ) / 255) * 2| ≤ 2 / 2 ^ 24 := by
      refine le_trans (fl32_lawful.err _) (max_le ?_ ?_)
      · rw [abs_of_nonneg (by linarith)]
        exact div_le_div_of_nonneg_right (by linarith) (by positivity)
      · have h1 : (2 : ℚ) ^ (-149 : ℤ) ≤ (2 : ℚ) ^ (-24 : ℤ) := zpow_le_zpow_right₀ (by norm_num) (by norm_num)
        have h2 : (2 : ℚ) ^ (-24 : ℤ) ≤ 2 / 2 ^ 24 := by norm_num
        have : (0 : ℚ) < (2 : ℚ) ^ (-149 : ℤ) := zpow_pos (by norm_num) _
        linarith
    have b3 := key (fl32 (fl32 ((v : ℚ) / 255) * 2) - 1) (abs_le.2 ⟨by linarith, by linarith⟩)
    generalize fl32 (fl32 (fl32 ((v : ℚ) / 255) * 2) - 1) = z at *
    generalize fl32 (fl32 ((v : ℚ) / 255) * 2) = y at *
    generalize fl32 ((v : ℚ) / 255) = x at *
    refine ⟨z - (2 * (v : ℚ) / 255 - 1), ?_, by ring⟩
    have e2 : 2 * (v : ℚ) / 255 = 2 * ((v : ℚ) / 255) := by ring
    rw [e2]
    generalize (v : ℚ) / 255 = u at *
    rw [abs_le] at *
    norm_num at *
    constructor <;> linarith
  constructor
  · intro a
    rw [pcm_u8]
    have ha := a.isLt
    obtain ⟨d, hd, e⟩ := val a.toNat (by omega)
    rw [e]
    rw [abs_le] at hd
    have hk : (a.toNat : ℚ) ≤ 127 ∨ (128 : ℚ) ≤ a.toNat := by
      rcases Nat.lt_or_ge a.toNat 128 with h | h
      · left; exact_mod_cast (by omega : a.toNat ≤ 127)
      · right; exact_mod_cast h
    norm_num at hd
    generalize (a.toNat : ℚ) = v at *
    rcases hk with h | h
    · apply ne_of_lt; linarith
    · apply ne_of_gt; linarith
  · rw [pcm_u8]
    obtain ⟨d, hd, e⟩ := val 128 (by omega)
    rw [show (128 : Byte).toNat = 128 from rfl, e]
    rw [abs_le] at hd
    norm_num at hd ⊢
    linarith

/-- Concrete samples. -/
example : pcmToF32 [0x00, 0x80] = -1 ∧ pcmToF32 [0x00, 0x40] = 1 / 2 ∧ pcmToF32 [0x00, 0x00, 0xC0] = -1 / 2 := by
  rw [C93_exact _ (Or.inl rfl), C93_exact _ (Or.inl rfl), C93_exact _ (Or.inr rfl)]
  have h1 : pcmInt [0x00, 0x80] = -32768 := by decide
  have h2 : pcmInt [0x00, 0x40] = 16384 := by decide
  have h3 : pcmInt [0x00, 0x00, 0xC0] = -4194304 := by decide
  unfold pcmValue
  rw [h1, h2, h3]
  norm_num

end Verif
