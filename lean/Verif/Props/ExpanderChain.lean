import Verif.Props.SoftKneeFloat
/-!
# C103: the factor applied by an expander

Binary32/binary64 rounding included.
-/
namespace Verif
open Rounding Dyn Follow Decibel Cond Chain Soft

namespace Soft

/-- The gain of the expander as a float. -/
theorem exp_db {T r lev : ℚ} (h0 : 0 ≤ r) (h4 : r ≤ 4) (hl : r * (T - lev) ≤ 119) (hT : T - lev ≤ 4096) :
    |fl32 ((Expander.mk' T r).gain fl64 lev) - r * min 0 (lev - T)| ≤ 2 / 10 ^ 5 ∧
      -120 ≤ fl32 ((Expander.mk' T r).gain fl64 lev) ∧ fl32 ((Expander.mk' T r).gain fl64 lev) ≤ 0 := by
  have n := (C49_expander T r h0).2.1 lev
  have c : |(Expander.mk' T r).gain fl64 lev - r * min 0 (lev - T)| ≤ 1 / 10 ^ 11 := by
    unfold Expander.gain Expander.mk'
    simp only []
    split_ifs with k
    · rw [min_eq_left (by linarith)]; norm_num
    · push Not at k
      rw [min_eq_right (by linarith)]
      have x1 := small64 (x := lev - T) (abs_le.2 ⟨by linarith, by linarith⟩)
      have x2 := mul_close (a := r) (a' := r) (A := 4) (B := 4096) (α := 0) (by norm_num) x1 (by rw [abs_of_nonneg h0]; exact h4)
        (abs_le.2 ⟨by linarith, by linarith⟩)
      have p0 : 0 ≤ r * (T - lev) := mul_nonneg h0 (by linarith)
      have e : r * (lev - T) = -(r * (T - lev)) := by ring
      obtain ⟨n1, n2⟩ := abs_le.1 x2
      have x3 := small64 (x := r * fl64 (lev - T)) (abs_le.2 ⟨by linarith, by linarith⟩)
      obtain ⟨n3, n4⟩ := abs_le.1 x3
      rw [abs_le]; constructor <;> linarith
  have g : -119 ≤ r * min 0 (lev - T) := by
    rcases le_total 0 (lev - T) with h | h
    · rw [min_eq_left h]; linarith
    · rw [min_eq_right h]; linarith
  generalize (Expander.mk' T r).gain fl64 lev = x at *
  obtain ⟨c1, c2⟩ := abs_le.1 c
  have x0 : -120 ≤ x := by linarith
  refine ⟨?_, fl32_lawful.ge_of_rep ⟨-120, 0, by norm_num, by norm_num, by norm_num⟩ x0, fnonpos fl32_lawful (by norm_num) n⟩
  have e : |fl32 x - x| ≤ 8 / 10 ^ 6 := by
    refine (fl32_lawful.err x).trans (max_le ?_ ?_)
    · rw [abs_of_nonpos n]
      exact (div_le_div_of_nonneg_right (show -x ≤ 120 by linarith) (by norm_num)).trans (by norm_num)
    · rw [show (-149 : ℤ) = -((149 : ℕ) : ℤ) by norm_num, zpow_neg, zpow_natCast]; norm_num
  obtain ⟨e1, e2⟩ := abs_le.1 e
  rw [abs_le]; constructor <;> linarith

end Soft

/-- **C103** The factor applied by an expander behind a peak follower is the make-up gain times the ideal expander for the level of the envelope: `r` dB
down for every dB that the level lies below the threshold (for reductions up to 118 dB; ratios up to 4), within 80 parts in a million for envelopes in
[1/8, 8], 1 % in [1/1024, 1024]. -/
theorem C103_expander_gain (T r : ℚ) (h0 : 0 ≤ r) (h4 : r ≤ 4) (hT : T ≤ 1024) (m : ℚ) (hm : IsFloat m) (hm1 : 1 / 2 ^ 100 ≤ m) (release : ℚ) (sps : Nat)
    (hr : 1255 / 1000 ≤ sps * release) (xs : List ℚ) (hx : ∀ x ∈ xs, IsFloat x) (s : ℚ) (hs : IsFloat s) :
    ∃ e ys e' g, runC (pkStep fl32 fl64 ((Expander.mk' T r).gain fl64) m) (PeakFollower.mk' fl32 fl64 release sps) xs = .ok (e, ys) ∧
      pkStep fl32 fl64 ((Expander.mk' T r).gain fl64) m e s = .ok (e', fl32 (s * g)) ∧ |s| ≤ e'.y ∧
      ∀ env level ideal : ℝ, env = e'.y → level = 20 * Real.logb 10 env → ideal = m * (10 : ℝ) ^ (r * min 0 (level - T) / 20) → r * (T - level) ≤ 118 →
        (1 / 8 ≤ env → env ≤ 8 → |g - ideal| ≤ 80 / 10 ^ 6 * ideal) ∧
        (1 / 1024 ≤ env → env ≤ 1024 → |g - ideal| ≤ 1 / 100 * ideal) := by
  have m0 : 0 ≤ m := le_trans (by norm_num) hm1
  have hg := (C49_expander T r h0).2.1
  obtain ⟨e, ys, h, i, -⟩ := run (step := pkStep fl32 fl64 ((Expander.mk' T r).gain fl64) m)
    (I := fun e => IsFloat e.y ∧ 0 ≤ e.y ∧ Env.IsRate e.release) (P := IsFloat) (Q := Tame m) (fun e s i hs => by
      obtain ⟨e', y, h, i', t, -⟩ := pk_ok hg hm m0 i hs
      exact ⟨e', y, h, i', t⟩) (PeakFollower.mk' fl32 fl64 release sps)
    ⟨isFloat_zero, le_rfl, Env.coef_rate fl32_lawful fl64_lawful hr⟩ xs hx
  obtain ⟨e', y, h', i', -, hle, -, hy⟩ := pk_ok hg hm m0 i hs
  obtain ⟨lev, amp, elev, eamp, ha0, ea, -⟩ := apply_ok hg hm m0 (s := s) i'.1 i'.2.1
  rw [ea] at hy
  injection hy with hy
  rw [← hy] at h'
  refine ⟨e, ys, e', _, h, h', hle, ?_⟩
  rintro env level ideal rfl hlevel rfl htop
  obtain ⟨acc1, acc2, -⟩ := C61_a2db_accuracy fl32_lawful fl64_lawful _ lev i'.1 elev
  have r0 : (0 : ℝ) ≤ r := by exact_mod_cast h0
  have r4 : (r : ℝ) ≤ 4 := by exact_mod_cast h4
  have key : ∀ ε E : ℝ, 1 / 1024 ≤ (e'.y : ℝ) → |(lev : ℝ) - 20 * Real.logb 10 (e'.y : ℝ)| ≤ ε → ε ≤ 1 / 50 →
      Real.exp (0.1152 * (4 * ε + 2 / 10 ^ 5)) ≤ 1 + E →
      |((fl32 (amp * m) : ℚ) : ℝ) - m * (10 : ℝ) ^ (r * min 0 (level - T) / 20)| ≤
        (E * (1 + 26 / 10 ^ 6) + 26 / 10 ^ 6) * (m * (10 : ℝ) ^ (r * min 0 (level - T) / 20)) := by
    intro ε E hlo hε hε1 hE
    rw [← hlevel] at hε
    obtain ⟨e1, e2⟩ := abs_le.1 hε
    have hl : r * (T - lev) ≤ 119 := by
      have : (r : ℝ) * (T - lev) ≤ 119 := by
        have : (r : ℝ) * (T - lev) = r * (T - level) + r * (level - lev) := by ring
        nlinarith
      exact_mod_cast this
    have hd : T - lev ≤ 4096 := by
      have l1 : (-100 : ℝ) ≤ level := by
        rw [hlevel]
        have : (-5 : ℝ) ≤ Real.logb 10 (e'.y : ℝ) := by
          rw [Real.le_logb_iff_rpow_le (by norm_num) (by linarith)]
          refine le_trans ?_ hlo
          rw [show (-5 : ℝ) = -((5 : ℕ) : ℝ) by norm_num, Real.rpow_neg (by norm_num), Real.rpow_natCast]
          norm_num
        linarith
      have : (-101 : ℝ) ≤ lev := by linarith
      have : (-101 : ℚ) ≤ lev := by exact_mod_cast this
      linarith
    obtain ⟨d1, d2, d3⟩ := exp_db h0 h4 hl hd
    refine factor_key hm1 ha0 (fl32_lawful.rep _) eamp (ε := 4 * ε) ?_ d2 d3 hE
    have d1' := (Rat.cast_le (K := ℝ)).mpr d1
    push_cast at d1'
    have lip : |min 0 ((lev : ℝ) - T) - min 0 (level - T)| ≤ ε := by
      refine (abs_min_sub_min_le_max _ _ _ _).trans (max_le (by simp; exact (abs_nonneg _).trans hε) ?_)
      rw [show (lev : ℝ) - T - (level - T) = lev - level by ring]
      exact hε
    have e3 : ((fl32 ((Expander.mk' T r).gain fl64 lev) : ℚ) : ℝ) - r * min 0 (level - T) =
        (((fl32 ((Expander.mk' T r).gain fl64 lev) : ℚ) : ℝ) - r * min 0 ((lev : ℝ) - T)) + r * (min 0 ((lev : ℝ) - T) - min 0 (level - T)) := by ring
    rw [e3]
    refine (abs_add_le _ _).trans ?_
    rw [abs_mul, abs_of_nonneg r0]
    have := mul_le_mul r4 lip (abs_nonneg _) (by norm_num)
    linarith
  have pos : 0 ≤ (m : ℝ) * (10 : ℝ) ^ (r * min 0 (level - T) / 20) :=
    mul_nonneg (by exact_mod_cast m0) (Real.rpow_pos_of_pos (by norm_num) _).le
  refine ⟨fun k1 k2 => ?_, fun k1 k2 => ?_⟩
  · refine (key _ _ (by linarith) (acc1 (by
      have : ((1 / 8 : ℚ) : ℝ) ≤ e'.y := by push_cast; exact k1
      exact_mod_cast this) (by exact_mod_cast k2)) (by norm_num) (exp_le_quad _ (by norm_num) (by norm_num))).trans
      (mul_le_mul_of_nonneg_right (by norm_num) pos)
  · refine (key _ _ k1 (acc2 (by
      have : ((1 / 1024 : ℚ) : ℝ) ≤ e'.y := by push_cast; exact k1
      exact_mod_cast this) (by exact_mod_cast k2)) (by norm_num) (exp_le_quad _ (by norm_num) (by norm_num))).trans
      (mul_le_mul_of_nonneg_right (by norm_num) pos)

/-- 1 : 4 below -20 dB, release 50 ms at 48 kHz, in the middle of any history. -/
example (xs : List ℚ) (hx : ∀ x ∈ xs, IsFloat x) :=
  C103_expander_gain (-20) 4 (by norm_num) (by norm_num) (by norm_num) 1 ⟨1, 0, by norm_num, by norm_num, by norm_num⟩ (by norm_num) (50 / 1000) 48000
    (by norm_num) xs hx (1 / 4) ⟨1, -2, by norm_num, by norm_num, by norm_num⟩

end Verif
