import Verif.Proof.Rounding
/-!
# Evaluating the rounding of a given number
-/
namespace Verif
namespace Rounding

/-- The rounding of `x` is `n * 2^e` if `x` lies in the binade of unit in the last place `2^e` and is less than half a unit
away from it. -/
theorem rnd_eq {p : ℕ} {emin : ℤ} {x : ℚ} (n e : ℤ) (he : emin ≤ e) (h1 : (2 : ℚ) ^ (e + (p - 1)) ≤ |x|)
    (h2 : |x| < (2 : ℚ) ^ (e + p)) (h3 : |x / (2 : ℚ) ^ e - n| < 1 / 2) : rnd p emin x = n * (2 : ℚ) ^ e := by
  have x0 : 0 < |x| := lt_of_lt_of_le (two_zpow_pos _) h1
  have hl : Int.log 2 |x| = e + (p - 1) := by
    apply le_antisymm
    · have : Int.log 2 |x| < e + p := by
        apply (Int.lt_zpow_iff_log_lt (by norm_num) x0).1
        exact_mod_cast h2
      omega
    · apply (Int.zpow_le_iff_le_log (by norm_num) x0).1
      exact_mod_cast h1
  have hu : ulpExp p emin x = e := by
    unfold ulpExp; rw [hl]; rw [max_eq_left (by omega)]; omega
  unfold rnd
  rw [hu]
  have h4 := rneInt_err (x / (2 : ℚ) ^ e)
  have : rneInt (x / (2 : ℚ) ^ e) = n := by
    generalize x / (2 : ℚ) ^ e = y at *
    have a := abs_lt.1 h3
    have b := abs_le.1 h4
    have c1 : ((rneInt y : ℤ) : ℚ) < (n + 1 : ℤ) := by push_cast; linarith
    have c2 : ((n - 1 : ℤ) : ℚ) < (rneInt y : ℤ) := by push_cast; linarith
    have d1 : rneInt y < n + 1 := by exact_mod_cast c1
    have d2 : n - 1 < rneInt y := by exact_mod_cast c2
    omega
  rw [this]

end Rounding
end Verif
