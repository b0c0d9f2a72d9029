import Verif.Props.Decibel
/-!
# Accuracy of the decibel conversions (C61)
-/
namespace Verif
open Rounding Decibel DbTable

variable {fl fd : ℚ → ℚ}

namespace Decibel
open Interp Sin

section
variable (L : Lawful 24 (-149) fl) (D : Lawful 53 (-1074) fd)
include L D

omit L D in
theorem combine (li : ℚ) (X Y μ : ℚ) (T : ℚ) (t e : ℝ) (h1 : |li - (X + μ * (Y - X))| ≤ T)
    (h2 : |((X : ℝ) + (μ : ℝ) * ((Y : ℝ) - X)) - t| ≤ e) : |(li : ℝ) - t| ≤ (T : ℝ) + e := by
  have h1' : |(li : ℝ) - ((X : ℝ) + μ * ((Y : ℝ) - X))| ≤ (T : ℝ) := by exact_mod_cast h1
  have := abs_sub_le (li : ℝ) ((X : ℝ) + μ * ((Y : ℝ) - X)) t
  linarith

omit L D in
/-- The level of the entries is bounded. -/
theorem top_bound (l : List ℤ) (hc : chain l = true) (n k : ℕ) (hn : n < l.length) (hk : k ≤ n) :
    ((l[k]?.getD 0 : ℤ) : ℚ) / 10 ^ 15 ≤ ((l[n]?.getD 0 : ℤ) : ℚ) / 10 ^ 15 := by
  have : ∀ n, k ≤ n → n < l.length → l[k]?.getD 0 ≤ l[n]?.getD 0 := by
    intro n hk
    induction n, hk using Nat.le_induction with
    | base => intro _; exact le_rfl
    | succ n _ ih => intro h; exact (ih (by omega)).trans (chain_get l hc n h).1.2.1
  apply div_le_div_of_nonneg_right _ (by norm_num)
  exact_mod_cast this n hk hn

omit L D in
theorem tops : table0[896]? = some 18061799739838872 ∧ table1[1023]? = some 60205999132796244
    ∧ table2[1023]? = some 120411998265592487 := by decide +kernel

/-- Accuracy for `1 ≤ a < 8`. -/
theorem acc0 {a v : ℚ} (ha : Rep 24 (-149) a) (h1 : 1 ≤ a) (h8 : a < 8) (e : a2dbUp fl fd a = .ok v) :
    |(v : ℝ) - dB a| ≤ 8 / 10 ^ 5 := by
  obtain ⟨k, μ, hk, m0, m1, ea, e'⟩ := up0 L D ha h1 h8
  rw [e] at e'; injection e' with e'
  have hT := top_bound table0 chains.1 896 (k + 1) (by rw [lengths.1]; norm_num) (by omega)
  rw [tops.1] at hT
  have cl := interp_close L D chains.1 (k := k) (by rw [lengths.1]; omega) m0 m1.le 19 (hT.trans (by norm_num))
  rw [← e'] at cl
  have n1 := near0 k (by omega)
  have n2 := near0 (k + 1) (by omega)
  have s1 : (1 : ℝ) + k / 128 = 1 / 128 * (128 + k) := by ring
  have s2 : (1 : ℝ) + ((k + 1 : ℕ) : ℝ) / 128 = 1 / 128 * ((128 + k) + 1) := by push_cast; ring
  rw [s1] at n1
  rw [s2] at n2
  have k0 : (0 : ℝ) ≤ k := Nat.cast_nonneg _
  obtain ⟨t1, t2⟩ := t_bounds (128 + k) (by linarith)
  have g := gap_small _ (1 / 256) t1 (by
    have : 1 / (2 * (128 + (k : ℝ))) ≤ 1 / 256 := one_div_le_one_div_of_le (by norm_num) (by linarith)
    linarith) (by norm_num)
  have ch := chord_dB (1 / 128) (128 + k) μ (lit0 k) (lit0 (k + 1)) (2 / 10 ^ 8) _ (by norm_num) (by linarith)
    (by exact_mod_cast m0) (by exact_mod_cast m1.le) n1 n2 g
  have ae : (1 : ℝ) / 128 * (128 + k + μ) = a := by rw [ea]; push_cast; ring
  rw [ae] at ch
  have := combine v _ _ μ _ _ _ cl ch
  refine this.trans ?_
  norm_num

/-- Accuracy for `8 ≤ a < 1024`. -/
theorem acc1 {a v : ℚ} (ha : Rep 24 (-149) a) (h1 : 8 ≤ a) (h2 : a < 1024) (e : a2dbUp fl fd a = .ok v) :
    |(v : ℝ) - dB a| ≤ 196 / 10 ^ 4 := by
  obtain ⟨k, μ, hk0, hk, m0, m1, ea, e'⟩ := up1 L D ha h1 h2
  rw [e] at e'; injection e' with e'
  have hT := top_bound table1 chains.2.1 1023 (k + 1) (by rw [lengths.2.1]; norm_num) (by omega)
  rw [tops.2.1] at hT
  have cl := interp_close L D chains.2.1 (k := k) (by rw [lengths.2.1]; omega) m0 m1.le 61 (hT.trans (by norm_num))
  rw [← e'] at cl
  have n1 := near1 (k + 1) (by omega) (by omega)
  have n2 := near1 (k + 2) (by omega) (by omega)
  rw [show k + 1 - 1 = k by omega, show ((k + 1 : ℕ) : ℝ) = 1 * ((k : ℝ) + 1) by push_cast; ring] at n1
  rw [show k + 2 - 1 = k + 1 by omega, show ((k + 2 : ℕ) : ℝ) = 1 * (((k : ℝ) + 1) + 1) by push_cast; ring] at n2
  have k0 : (7 : ℝ) ≤ k := by exact_mod_cast hk0
  obtain ⟨t1, t2⟩ := t_bounds ((k : ℝ) + 1) (by linarith)
  have g := gap_small _ (1 / 16) t1 (by
    have : 1 / (2 * ((k : ℝ) + 1)) ≤ 1 / 16 := one_div_le_one_div_of_le (by norm_num) (by linarith)
    linarith) (by norm_num)
  have ch := chord_dB 1 ((k : ℝ) + 1) μ (lit1 k) (lit1 (k + 1)) (4 / 10 ^ 7) _ (by norm_num) (by linarith)
    (by exact_mod_cast m0) (by exact_mod_cast m1.le) n1 n2 g
  have ae : (1 : ℝ) * ((k : ℝ) + 1 + μ) = a := by rw [ea]; push_cast; ring
  rw [ae] at ch
  have := combine v _ _ μ _ _ _ cl ch
  refine this.trans ?_
  norm_num

/-- Accuracy for `1024 ≤ a < 1048576`. -/
theorem acc2 {a v : ℚ} (ha : Rep 24 (-149) a) (h1 : 1024 ≤ a) (h2 : a < 1048576) (e : a2dbUp fl fd a = .ok v) :
    |(v : ℝ) - dB a| ≤ 519 / 10 ^ 3 := by
  obtain ⟨k, μ, hk, m0, m1, ea, e'⟩ := up2 L D ha h1 h2
  rw [e] at e'; injection e' with e'
  have hT := top_bound table2 chains.2.2.1 1023 (k + 1) (by rw [lengths.2.2.1]; norm_num) (by omega)
  rw [tops.2.2] at hT
  have cl := interp_close L D chains.2.2.1 (k := k) (by rw [lengths.2.2.1]; omega) m0 m1.le 121 (hT.trans (by norm_num))
  rw [← e'] at cl
  have n1 := near2 (k + 1) (by omega) (by omega)
  have n2 := near2 (k + 2) (by omega) (by omega)
  rw [show k + 1 - 1 = k by omega, show ((k + 1 : ℕ) : ℝ) = ((k : ℝ) + 1) by push_cast; ring] at n1
  rw [show k + 2 - 1 = k + 1 by omega, show ((k + 2 : ℕ) : ℝ) = (((k : ℝ) + 1) + 1) by push_cast; ring] at n2
  have k0 : (0 : ℝ) ≤ k := Nat.cast_nonneg _
  obtain ⟨t1, t2⟩ := t_bounds ((k : ℝ) + 1) (by linarith)
  have g := gap_all _ t1 (t_ge_log_two ((k : ℝ) + 1) (by linarith))
  have ch := chord_dB 1024 ((k : ℝ) + 1) μ (lit2 k) (lit2 (k + 1)) (7 / 10 ^ 7) _ (by norm_num) (by linarith)
    (by exact_mod_cast m0) (by exact_mod_cast m1.le) n1 n2 g
  have ae : (1024 : ℝ) * ((k : ℝ) + 1 + μ) = a := by rw [ea]; push_cast; ring
  rw [ae] at ch
  have := combine v _ _ μ _ _ _ cl ch
  refine this.trans ?_
  norm_num

theorem at8 {v : ℚ} (e : a2dbUp fl fd 8 = .ok v) : |(v : ℝ) - dB (8 : ℚ)| ≤ 8 / 10 ^ 5 := by
  obtain ⟨k, μ, hk0, hk, m0, m1, ea, e'⟩ := up1 L D (a := 8) ⟨8, 0, by norm_num, by norm_num, by norm_num⟩ le_rfl (by norm_num)
  rw [e] at e'; injection e' with e'
  have k7 : (7 : ℚ) ≤ k := by exact_mod_cast hk0
  have hμ : μ = 0 := by linarith
  have hk7' : (k : ℚ) = 7 := by linarith
  have hk7 : k = 7 := by exact_mod_cast hk7'
  subst hk7 hμ
  have hT := top_bound table1 chains.2.1 1023 (7 + 1) (by rw [lengths.2.1]; norm_num) (by omega)
  rw [tops.2.1] at hT
  have cl := interp_close L D chains.2.1 (k := 7) (by rw [lengths.2.1]; omega) m0 m1.le 61 (hT.trans (by norm_num))
  rw [← e'] at cl
  have n1 := near1 8 (by norm_num) (by norm_num)
  rw [show 8 - 1 = 7 by norm_num] at n1
  unfold lit1 at n1
  have := combine v _ _ 0 _ (dB (8 : ℚ)) (4 / 10 ^ 7) cl (by
    rw [Rat.cast_zero, zero_mul, add_zero]; norm_num at n1 ⊢; exact n1)
  refine this.trans ?_
  norm_num

theorem at1024 {v : ℚ} (e : a2dbUp fl fd 1024 = .ok v) : |(v : ℝ) - dB (1024 : ℚ)| ≤ 8 / 10 ^ 5 := by
  obtain ⟨k, μ, hk, m0, m1, ea, e'⟩ := up2 L D (a := 1024) ⟨1024, 0, by norm_num, by norm_num, by norm_num⟩ le_rfl (by norm_num)
  rw [e] at e'; injection e' with e'
  have k0 : (0 : ℚ) ≤ k := Nat.cast_nonneg k
  have hμ : μ = 0 := by linarith
  have hk0' : (k : ℚ) = 0 := by linarith
  have hk0 : k = 0 := by exact_mod_cast hk0'
  subst hk0 hμ
  have hT := top_bound table2 chains.2.2.1 1023 (0 + 1) (by rw [lengths.2.2.1]; norm_num) (by omega)
  rw [tops.2.2] at hT
  have cl := interp_close L D chains.2.2.1 (k := 0) (by rw [lengths.2.2.1]; omega) m0 m1.le 121 (hT.trans (by norm_num))
  rw [← e'] at cl
  have n1 := near2 1 (by norm_num) (by norm_num)
  rw [show 1 - 1 = 0 by norm_num] at n1
  unfold lit2 at n1
  have := combine v _ _ 0 _ (dB (1024 : ℚ)) (7 / 10 ^ 7) cl (by
    rw [Rat.cast_zero, zero_mul, add_zero]; norm_num at n1 ⊢; exact n1)
  refine this.trans ?_
  norm_num

/-- Accuracy from amplitude one on. -/
theorem acc_up {a v : ℚ} (ha : Rep 24 (-149) a) (h1 : 1 ≤ a) (e : a2dbUp fl fd a = .ok v) :
    (a ≤ 8 → |(v : ℝ) - dB a| ≤ 8 / 10 ^ 5) ∧ (a ≤ 1024 → |(v : ℝ) - dB a| ≤ 196 / 10 ^ 4) ∧
    (a < 1048576 → |(v : ℝ) - dB a| ≤ 519 / 10 ^ 3) := by
  have i0 : a ≤ 8 → |(v : ℝ) - dB a| ≤ 8 / 10 ^ 5 := by
    intro h
    rcases eq_or_lt_of_le h with rfl | h
    · exact at8 L D e
    · exact acc0 L D ha h1 h e
  have i1 : a ≤ 1024 → |(v : ℝ) - dB a| ≤ 196 / 10 ^ 4 := by
    intro h
    rcases le_or_gt a 8 with h8 | h8
    · exact (i0 h8).trans (by norm_num)
    rcases eq_or_lt_of_le h with rfl | h
    · exact (at1024 L D e).trans (by norm_num)
    · exact acc1 L D ha h8.le h e
  refine ⟨i0, i1, fun h => ?_⟩
  rcases le_or_gt a 1024 with h8 | h8
  · exact (i1 h8).trans (by norm_num)
  · exact acc2 L D ha h8.le h e

omit L D in
theorem dB_inv (x : ℝ) : dB x⁻¹ = -dB x := by rw [dB_eq, dB_eq, Real.log_inv]; ring

omit D in
/-- Rounding the reciprocal changes the level by less than a millionth of a decibel. -/
theorem inv_level {a : ℚ} (h0 : 1 / 2 ^ 21 ≤ a) (h1 : a < 1) : |dB (fl (1 / a) : ℚ) + dB a| ≤ 2 / 10 ^ 6 := by
  have a0 : 0 < a := lt_of_lt_of_le (by norm_num) h0
  have i1 : 1 ≤ 1 / a := by rw [le_div_iff₀ a0]; linarith
  have er : |fl (1 / a) - 1 / a| ≤ 1 / a / 2 ^ 24 := by
    refine (L.err _).trans (max_le (by rw [abs_of_pos (by linarith)]) ?_)
    have : (2 : ℚ) ^ (-149 : ℤ) / 2 ≤ 1 / 2 ^ 24 := by
      rw [show (-149 : ℤ) = -((149 : ℕ) : ℤ) by norm_num, zpow_neg, zpow_natCast]; norm_num
    refine this.trans ?_
    gcongr
  have q : |fl (1 / a) * a - 1| ≤ 1 / 2 ^ 24 := by
    have e : fl (1 / a) * a - 1 = (fl (1 / a) - 1 / a) * a := by field_simp
    rw [e, abs_mul, abs_of_pos a0]
    calc _ ≤ 1 / a / 2 ^ 24 * a := mul_le_mul_of_nonneg_right er a0.le
      _ = 1 / 2 ^ 24 := by field_simp
  have r1 := inv_ge_one L a0 h1
  generalize fl (1 / a) = r at *
  have r0 : 0 < r := by linarith
  have r0' : (0 : ℝ) < r := by exact_mod_cast r0
  have a0' : (0 : ℝ) < a := by exact_mod_cast a0
  rw [← dB_mul r0' a0', dB_eq, abs_mul, abs_of_pos c_bounds.1]
  have q' : |(r : ℝ) * a - 1| ≤ 1 / 2 ^ 24 := by
    have : ((|r * a - 1| : ℚ) : ℝ) ≤ ((1 / 2 ^ 24 : ℚ) : ℝ) := Rat.cast_le.mpr q
    push_cast at this
    exact this
  have hp : 0 < (r : ℝ) * a := by positivity
  generalize (r : ℝ) * a = z at *
  have lz : |Real.log z| ≤ 2 / 2 ^ 24 := by
    rw [abs_le] at q' ⊢
    constructor
    · have := Real.one_sub_inv_le_log_of_pos hp
      have hz : z⁻¹ ≤ 1 + 2 / 2 ^ 24 := by
        rw [inv_le_comm₀ hp (by norm_num)]
        refine le_trans ?_ (by linarith [q'.1] : 1 - 1 / 2 ^ 24 ≤ z)
        norm_num
      linarith
    · have := Real.log_le_sub_one_of_pos hp
      norm_num at q' ⊢
      linarith [q'.2]
  calc _ ≤ 8.68589 * (2 / 2 ^ 24) := mul_le_mul c_bounds.2 lz (abs_nonneg _) (by norm_num)
    _ ≤ 2 / 10 ^ 6 := by norm_num

end
end Decibel

section
variable (L : Lawful 24 (-149) fl) (D : Lawful 53 (-1074) fd)
include L D

/-- **C61.** Accuracy, for every float: amplitude to decibel differs from `20 log10 a` by at most 0.0001 dB for
amplitudes between 1/8 and 8, by at most 0.02 dB between 1/1024 and 1024, and by at most 0.52 dB strictly between
2^-20 and 2^20. -/
theorem C61_a2db_accuracy (a v : ℚ) (ha : Rep 24 (-149) a) (e : a2db fl fd a = .ok v) :
    (1 / 8 ≤ a → a ≤ 8 → |(v : ℝ) - 20 * Real.logb 10 a| ≤ 1 / 10000) ∧
    (1 / 1024 ≤ a → a ≤ 1024 → |(v : ℝ) - 20 * Real.logb 10 a| ≤ 2 / 100) ∧
    (1 / 1048576 < a → a < 1048576 → |(v : ℝ) - 20 * Real.logb 10 a| ≤ 52 / 100) := by
  change (_ → _ → |(v : ℝ) - dB a| ≤ _) ∧ (_ → _ → |(v : ℝ) - dB a| ≤ _) ∧ (_ → _ → |(v : ℝ) - dB a| ≤ _)
  rcases lt_or_ge a (1 / 1048576) with hs | hs
  · refine ⟨fun h => ?_, fun h => ?_, fun h => ?_⟩ <;> (norm_num at h hs; linarith)
  have a0 : 0 < a := lt_of_lt_of_le (by norm_num) hs
  rcases a2db_cases L D a0.le e with ⟨h, _⟩ | ⟨p, q, h⟩ | ⟨p, h⟩
  · linarith
  · obtain ⟨i1, i2, i3⟩ := acc_up L D (L.rep (1 / a)) (inv_ge_one L p q) h
    have lv := inv_level L (a := a) (le_trans (by norm_num) hs) q
    have tri : ∀ T : ℝ, |((-v : ℚ) : ℝ) - dB (fl (1 / a) : ℚ)| ≤ T → |(v : ℝ) - dB a| ≤ T + 2 / 10 ^ 6 := by
      intro T hT
      push_cast at hT
      rw [abs_le] at hT lv ⊢
      constructor <;> linarith [hT.1, hT.2, lv.1, lv.2]
    refine ⟨fun g _ => ?_, fun g _ => ?_, fun g _ => ?_⟩
    · refine (tri _ (i1 (L.le_of_rep ⟨8, 0, by norm_num, by norm_num, by norm_num⟩ ?_))).trans (by norm_num)
      rw [div_le_iff₀ p]; linarith
    · refine (tri _ (i2 (L.le_of_rep ⟨1024, 0, by norm_num, by norm_num, by norm_num⟩ ?_))).trans (by norm_num)
      rw [div_le_iff₀ p]; linarith
    · refine (tri _ (i3 ?_)).trans (by norm_num)
      -- the next float above 2^-20 has a reciprocal that does not round to 2^20
      have hz := rep_grid (by norm_num) ha (j := -20) (by
        rw [show (-20 : ℤ) = -((20 : ℕ) : ℤ) by norm_num, zpow_neg, zpow_natCast]; norm_num at g ⊢; linarith)
      obtain ⟨z, hz⟩ := hz
      have e43 : (2 : ℚ) ^ (-20 + 1 - ((24 : ℕ) : ℤ)) = 1 / 2 ^ 43 := by
        rw [show (-20 + 1 - ((24 : ℕ) : ℤ) : ℤ) = -((43 : ℕ) : ℤ) by norm_num, zpow_neg, zpow_natCast, one_div]
      rw [e43] at hz
      have z1 : (8388608 : ℚ) < z := by
        rw [hz] at g; norm_num at g; linarith
      have z2 : (8388608 : ℤ) < z := by exact_mod_cast z1
      have z3 : (8388609 : ℚ) ≤ z := by exact_mod_cast z2
      have ai : 1 / a ≤ 1048576 - 1 / 16 := by
        rw [div_le_iff₀ p, hz]; norm_num; linarith
      have := L.le_of_rep (x := 1 / a) (r := 1048576 - 1 / 16)
        ⟨16777215, -4, by norm_num, by norm_num, by norm_num⟩ ai
      linarith
  · obtain ⟨i1, i2, i3⟩ := acc_up L D ha p h
    exact ⟨fun _ g => (i1 g).trans (by norm_num), fun _ g => (i2 g).trans (by norm_num),
      fun _ g => (i3 g).trans (by norm_num)⟩

end
end Verif
