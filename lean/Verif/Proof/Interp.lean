import Verif.Model.Sin
import Verif.Proof.Rounding
/-!
# Table interpolation under rounding
-/
namespace Verif
namespace Rounding

variable {p : ℕ} {emin : ℤ}

theorem pow_sub_nat {e e' : ℤ} (h : e ≤ e') : ∃ n : ℕ, (2 : ℚ) ^ e' = 2 ^ n * (2 : ℚ) ^ e := by
  obtain ⟨n, hn⟩ := Int.eq_ofNat_of_zero_le (a := e' - e) (by omega)
  refine ⟨n, ?_⟩
  have : e' = (n : ℤ) + e := by omega
  rw [this, zpow_add₀ (by norm_num), zpow_natCast]

/-- Sterbenz's lemma: the difference of two numbers of the format within a factor two of each other is a number of
the format. -/
theorem rep_sub {x y : ℚ} (hx : Rep p emin x) (hy : Rep p emin y) (h1 : y ≤ 2 * x) (h2 : x ≤ 2 * y) :
    Rep p emin (x - y) := by
  obtain ⟨m, e, hm, he, rfl⟩ := hx
  obtain ⟨k, f, hk, hf, rfl⟩ := hy
  have pe := two_zpow_pos e
  have pf := two_zpow_pos f
  rcases le_total e f with h | h
  · obtain ⟨n, hn⟩ := pow_sub_nat h
    rw [hn] at h1 h2 ⊢
    refine ⟨m - k * 2 ^ n, e, ?_, he, by push_cast; ring⟩
    have a1 : (k : ℚ) * 2 ^ n ≤ 2 * m := by
      refine le_of_mul_le_mul_right ?_ pe; linarith
    have a2 : (m : ℚ) ≤ 2 * (k * 2 ^ n) := by
      refine le_of_mul_le_mul_right ?_ pe; linarith
    have b1 : k * 2 ^ n ≤ 2 * m := by exact_mod_cast a1
    have b2 : m ≤ 2 * (k * 2 ^ n) := by exact_mod_cast a2
    generalize k * 2 ^ n = z at *
    have := le_abs_self m
    generalize (2 : ℤ) ^ p = P at *
    rw [abs_le]; constructor <;> omega
  · obtain ⟨n, hn⟩ := pow_sub_nat h
    rw [hn] at h1 h2 ⊢
    refine ⟨m * 2 ^ n - k, f, ?_, hf, by push_cast; ring⟩
    have a1 : (k : ℚ) ≤ 2 * (m * 2 ^ n) := by
      refine le_of_mul_le_mul_right ?_ pf; linarith
    have a2 : (m : ℚ) * 2 ^ n ≤ 2 * k := by
      refine le_of_mul_le_mul_right ?_ pf; linarith
    have b1 : k ≤ 2 * (m * 2 ^ n) := by exact_mod_cast a1
    have b2 : m * 2 ^ n ≤ 2 * k := by exact_mod_cast a2
    generalize m * 2 ^ n = z at *
    have := le_abs_self k
    generalize (2 : ℤ) ^ p = P at *
    rw [abs_le]; constructor <;> omega

/-- Subtracting a smaller integer from a number of the format that is not too large is exact. -/
theorem rep_sub_nat (h0 : emin ≤ 0) {a : ℚ} (ha : Rep p emin a) {k : ℕ} (hk : (k : ℚ) ≤ a) (hb : a ≤ 2 ^ p) :
    Rep p emin (a - k) := by
  obtain ⟨m, e, hm, he, rfl⟩ := ha
  rcases le_or_gt 0 e with h | h
  · obtain ⟨n, rfl⟩ := Int.eq_ofNat_of_zero_le h
    have e1 : (m : ℚ) * (2 : ℚ) ^ ((n : ℕ) : ℤ) = ((m * 2 ^ n : ℤ) : ℚ) := by push_cast; simp
    rw [e1] at hk hb ⊢
    generalize m * 2 ^ n = z at *
    have k1 : (k : ℤ) ≤ z := by exact_mod_cast hk
    have k2 : z ≤ 2 ^ p := by exact_mod_cast hb
    have := rep_int (p := p) h0 (m := z - k) (by rw [abs_le]; constructor <;> omega)
    push_cast at this
    exact this
  · obtain ⟨n, hn⟩ := pow_sub_nat h.le
    rw [zpow_zero] at hn
    have pe := two_zpow_pos e
    have ek : (k : ℚ) = (k * 2 ^ n) * (2 : ℚ) ^ e := by rw [mul_assoc, ← hn, mul_one]
    rw [ek] at hk ⊢
    refine ⟨m - k * 2 ^ n, e, ?_, he, by push_cast; ring⟩
    have a1 : (k : ℚ) * 2 ^ n ≤ m := le_of_mul_le_mul_right hk pe
    have b1 : (k : ℤ) * 2 ^ n ≤ m := by exact_mod_cast a1
    have b0 : 0 ≤ (k : ℤ) * 2 ^ n := by positivity
    have := le_abs_self m
    generalize (k : ℤ) * 2 ^ n = z at *
    generalize (2 : ℤ) ^ p = P at *
    rw [abs_le]; constructor <;> omega

theorem rep_mul_two_pow {a : ℚ} (ha : Rep p emin a) (n : ℕ) : Rep p emin (a * 2 ^ n) := by
  obtain ⟨m, e, hm, he, rfl⟩ := ha
  exact ⟨m, e + n, hm, by omega, by rw [zpow_add₀ (by norm_num), zpow_natCast]; ring⟩

end Rounding

namespace Interp
open Rounding Sin

variable {fl : ℚ → ℚ} {v1 v2 : ℚ}

/-- Facts about two neighbouring entries that make interpolation between them well behaved. -/
structure Cell (v1 v2 : ℚ) : Prop where
  r1 : Rep 24 (-149) v1
  r2 : Rep 24 (-149) v2
  n1 : 0 ≤ v1
  le : v1 ≤ v2
  d : Rep 24 (-149) (v2 - v1)

variable (L : Lawful 24 (-149) fl) (c : Cell v1 v2)
include L c

theorem at_zero : linear_interpolate fl v1 v2 0 = v1 := by
  unfold linear_interpolate
  rw [zero_mul, L.zero, add_zero, L.fix _ c.r1]

theorem mono {μ ν : ℚ} (h : μ ≤ ν) : linear_interpolate fl v1 v2 μ ≤ linear_interpolate fl v1 v2 ν := by
  unfold linear_interpolate
  rw [L.fix _ c.d]
  apply L.mono
  have := L.mono (μ * (v2 - v1)) (ν * (v2 - v1)) (mul_le_mul_of_nonneg_right h (by linarith [c.le]))
  linarith

theorem ge {μ : ℚ} (h : 0 ≤ μ) : v1 ≤ linear_interpolate fl v1 v2 μ := by
  have := mono L c h; rwa [at_zero L c] at this

theorem le {μ : ℚ} (h : μ ≤ 1) : linear_interpolate fl v1 v2 μ ≤ v2 := by
  unfold linear_interpolate
  rw [L.fix _ c.d]
  have hd : 0 ≤ v2 - v1 := by linarith [c.le]
  have := L.le_of_rep (x := μ * (v2 - v1)) c.d (by nlinarith)
  exact L.le_of_rep c.r2 (by linarith)

/-- The rounded interpolation is the exact one up to two units in the last place. -/
theorem close {μ : ℚ} (h0 : 0 ≤ μ) (h1 : μ ≤ 1) (T : ℚ) (hT : v2 ≤ T) (hT1 : 1 / 2 ^ 40 ≤ T) :
    |linear_interpolate fl v1 v2 μ - (v1 + μ * (v2 - v1))| ≤ 2 * T / 2 ^ 24 := by
  unfold linear_interpolate
  rw [L.fix _ c.d]
  have tiny : (2 : ℚ) ^ (-149 : ℤ) / 2 ≤ T / 2 ^ 24 := by
    have : (2 : ℚ) ^ (-149 : ℤ) / 2 ≤ 1 / 2 ^ 64 := by
      rw [show (-149 : ℤ) = -((149 : ℕ) : ℤ) by norm_num, zpow_neg, zpow_natCast]; norm_num
    refine this.trans ?_
    rw [le_div_iff₀ (by norm_num)]
    refine le_trans ?_ hT1
    norm_num
  have hd : 0 ≤ v2 - v1 := by linarith [c.le]
  have n1 := c.n1
  have p0 : 0 ≤ μ * (v2 - v1) := mul_nonneg h0 hd
  have p1 : μ * (v2 - v1) ≤ v2 - v1 := by nlinarith
  have e1 : |fl (μ * (v2 - v1)) - μ * (v2 - v1)| ≤ T / 2 ^ 24 := by
    refine (L.err _).trans (max_le ?_ tiny)
    rw [abs_of_nonneg p0]; gcongr; linarith
  have q0 := L.nonneg p0
  have q1 := L.le_of_rep c.d p1
  generalize fl (μ * (v2 - v1)) = w at *
  have e2 : |fl (v1 + w) - (v1 + w)| ≤ T / 2 ^ 24 := by
    refine (L.err _).trans (max_le ?_ tiny)
    rw [abs_of_nonneg (by linarith)]; gcongr; linarith
  have : fl (v1 + w) - (v1 + μ * (v2 - v1)) = (fl (v1 + w) - (v1 + w)) + (w - μ * (v2 - v1)) := by ring
  rw [this]
  refine (abs_add_le _ _).trans ?_
  have : 2 * T / 2 ^ 24 = T / 2 ^ 24 + T / 2 ^ 24 := by ring
  linarith

end Interp
end Verif
