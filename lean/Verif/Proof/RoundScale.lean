import Verif.Proof.Rounding
/-!
# Rounding commutes with doubling (in the normal range)
-/
namespace Verif
namespace Rounding

theorem log_two_mul {x : ℚ} (hx : 0 < x) : Int.log 2 (2 * x) = Int.log 2 x + 1 := by
  have h1 : Int.log 2 x + 1 ≤ Int.log 2 (2 * x) := by
    rw [← Int.zpow_le_iff_le_log (by norm_num) (by positivity)]
    have := Int.zpow_log_le_self (b := 2) (by norm_num) hx
    rw [zpow_add₀ (by norm_num)]
    push_cast at *
    linarith
  have h2 : Int.log 2 (2 * x) < Int.log 2 x + 1 + 1 := by
    rw [← Int.lt_zpow_iff_log_lt (by norm_num) (by positivity)]
    have := Int.lt_zpow_succ_log_self (b := 2) (by norm_num) x
    rw [zpow_add₀ (by norm_num) (Int.log 2 x + 1)]
    push_cast at *
    linarith
  omega

/-- If `|x|` is at least the smallest normal number, rounding commutes with doubling. -/
theorem rnd_two_mul (p : ℕ) (emin : ℤ) {x : ℚ} (hx : (2 : ℚ) ^ (emin + (p - 1)) ≤ |x|) :
    rnd p emin (2 * x) = 2 * rnd p emin x := by
  have h0 : 0 < |x| := lt_of_lt_of_le (two_zpow_pos _) hx
  have hl : emin + (p - 1) ≤ Int.log 2 |x| := by
    rw [← Int.zpow_le_iff_le_log (by norm_num) h0]
    exact_mod_cast hx
  have e : ulpExp p emin (2 * x) = ulpExp p emin x + 1 := by
    unfold ulpExp
    rw [abs_mul, abs_two, log_two_mul h0, max_eq_left (by omega), max_eq_left (by omega)]
    ring
  unfold rnd
  rw [e, zpow_add₀ (by norm_num), zpow_one]
  have : 2 * x / ((2 : ℚ) ^ ulpExp p emin x * 2) = x / (2 : ℚ) ^ ulpExp p emin x := by
    field_simp
  rw [this]; ring

end Rounding
end Verif
