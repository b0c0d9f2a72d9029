import Verif.Proof.Rounding
/-!
# More consequences of the rounding laws
-/
namespace Verif
namespace Rounding

/-- The predecessor of 1. -/
theorem rep_lt_one {p : ℕ} {emin : ℤ} (hp : 0 < p) {r : ℚ} (hr : Rep p emin r) (h : r < 1) :
    r ≤ 1 - (2 : ℚ) ^ (-(p : ℤ)) := by
  obtain ⟨m, e, hm, _, rfl⟩ := hr
  have hmq : ((|m| : ℤ) : ℚ) ≤ 2 ^ p := by exact_mod_cast hm
  have hmq' : (m : ℚ) ≤ 2 ^ p := le_trans (by exact_mod_cast le_abs_self m) hmq
  have hpow : (2 : ℚ) ^ (-(p : ℤ)) ≤ 1 / 2 := by
    rw [show (1 / 2 : ℚ) = 2 ^ (-1 : ℤ) by norm_num]
    exact zpow_le_zpow_right₀ (by norm_num) (by omega)
  by_cases he : -(p : ℤ) ≤ e
  · by_cases he0 : 0 ≤ e
    · obtain ⟨n, rfl⟩ := Int.eq_ofNat_of_zero_le he0
      have : m * 2 ^ n < (1 : ℤ) := by
        have : (m : ℚ) * 2 ^ n < 1 := by exact_mod_cast h
        exact_mod_cast this
      have : m * 2 ^ n ≤ (0 : ℤ) := by omega
      have : (m : ℚ) * 2 ^ n ≤ 0 := by exact_mod_cast this
      rw [zpow_natCast]
      linarith
    · obtain ⟨n, hn⟩ := Int.eq_ofNat_of_zero_le (by omega : 0 ≤ -e)
      have hen : e = -(n : ℤ) := by omega
      subst hen
      have e1 : (2 : ℚ) ^ (-(n : ℤ)) * 2 ^ n = 1 := by
        rw [zpow_neg, zpow_natCast]; field_simp
      have pos := two_zpow_pos (-(n : ℤ))
      have hlt : m < 2 ^ n := by
        by_contra hge
        push Not at hge
        have : ((2 ^ n : ℤ) : ℚ) ≤ m := by exact_mod_cast hge
        push_cast at this
        nlinarith
      have hle : (m : ℚ) ≤ 2 ^ n - 1 := by
        have : m ≤ 2 ^ n - 1 := by omega
        exact_mod_cast this
      have h3 : (2 : ℚ) ^ (-(p : ℤ)) ≤ 2 ^ (-(n : ℤ)) := zpow_le_zpow_right₀ (by norm_num) he
      nlinarith
  · have h2 : (2 : ℚ) ^ e ≤ 2 ^ (-(p : ℤ) - 1) := zpow_le_zpow_right₀ (by norm_num) (by omega)
    have h3 : (2 : ℚ) ^ (-(p : ℤ) - 1) * 2 ^ p = 1 / 2 := by
      rw [sub_eq_add_neg, zpow_add₀ (by norm_num), zpow_neg, zpow_natCast]; field_simp
    have pos := two_zpow_pos e
    have pp : (0 : ℚ) < 2 ^ p := by positivity
    have : (m : ℚ) * 2 ^ e ≤ 2 ^ p * 2 ^ e := mul_le_mul_of_nonneg_right hmq' pos.le
    have : (2 : ℚ) ^ p * 2 ^ e ≤ 2 ^ p * 2 ^ (-(p : ℤ) - 1) := mul_le_mul_of_nonneg_left h2 pp.le
    linarith [mul_comm ((2 : ℚ) ^ p) (2 ^ (-(p : ℤ) - 1))]

/-- Normalised representation of a number that is not too small. -/
theorem rep_normal {p : ℕ} {emin : ℤ} {d : ℚ} (hd : Rep p emin d)
    (h : (2 : ℚ) ^ (emin + p) ≤ d) :
    ∃ m e : ℤ, d = m * (2 : ℚ) ^ e ∧ (2 : ℚ) ^ p < 2 * m ∧ m ≤ 2 ^ p ∧ emin ≤ e := by
  have d0 : 0 < d := lt_of_lt_of_le (two_zpow_pos _) h
  obtain ⟨m', e', hm, he', hd'⟩ := hd
  set k := Int.clog 2 d with hk
  have k1 : (2 : ℚ) ^ (k - 1) < d := by
    have := Int.zpow_pred_clog_lt_self (b := 2) (by norm_num) d0
    exact_mod_cast this
  have k2 : d ≤ (2 : ℚ) ^ k := by
    have := Int.self_le_zpow_clog (b := 2) (by norm_num) d
    exact_mod_cast this
  have hke : emin + p ≤ k := by
    by_contra hlt
    push Not at hlt
    have : (2 : ℚ) ^ k < 2 ^ (emin + p) := zpow_lt_zpow_right₀ (by norm_num) hlt
    linarith
  have hee : k - p ≤ e' := by
    by_contra hlt
    push Not at hlt
    have h1 : (2 : ℚ) ^ e' ≤ 2 ^ (k - 1 - p) := zpow_le_zpow_right₀ (by norm_num) (by omega)
    have h2 : (2 : ℚ) ^ (k - 1 - p) * 2 ^ p = 2 ^ (k - 1) := by
      rw [← zpow_natCast, ← zpow_add₀ (by norm_num)]; congr 1; ring
    have hmq : (m' : ℚ) ≤ 2 ^ p :=
      le_trans (b := ((|m'| : ℤ) : ℚ)) (by exact_mod_cast le_abs_self m') (by exact_mod_cast hm)
    have : d ≤ 2 ^ p * 2 ^ e' := by rw [hd']; exact mul_le_mul_of_nonneg_right hmq (two_zpow_pos _).le
    have : (2 : ℚ) ^ p * 2 ^ e' ≤ 2 ^ p * 2 ^ (k - 1 - p) := mul_le_mul_of_nonneg_left h1 (by positivity)
    linarith [mul_comm ((2 : ℚ) ^ p) (2 ^ (k - 1 - (p : ℤ)))]
  obtain ⟨n, hn⟩ := Int.eq_ofNat_of_zero_le (by omega : 0 ≤ e' - (k - p))
  have hdm : d = ((m' * 2 ^ n : ℤ) : ℚ) * 2 ^ (k - p) := by
    rw [hd', show e' = (n : ℤ) + (k - p) by omega, zpow_add₀ (by norm_num), zpow_natCast]
    push_cast; ring
  have pos := two_zpow_pos (k - p)
  have s1 : (2 : ℚ) ^ (k - 1) * 2 = 2 ^ p * 2 ^ (k - p) := by
    rw [← zpow_natCast, ← zpow_add₀ (by norm_num), ← zpow_add_one₀ (by norm_num)]; congr 1; ring
  have s2 : (2 : ℚ) ^ k = 2 ^ p * 2 ^ (k - p) := by
    rw [← zpow_natCast, ← zpow_add₀ (by norm_num)]; congr 1; ring
  refine ⟨m' * 2 ^ n, k - p, hdm, ?_, ?_, by omega⟩
  · rw [hdm] at k1
    generalize ((m' * 2 ^ n : ℤ) : ℚ) = M at *
    by_contra hc
    push Not at hc
    nlinarith
  · rw [hdm, s2] at k2
    have : ((m' * 2 ^ n : ℤ) : ℚ) ≤ 2 ^ p := le_of_mul_le_mul_right k2 pos
    exact_mod_cast this

namespace Lawful
variable {p : ℕ} {emin : ℤ} {fl : ℚ → ℚ} (L : Lawful p emin fl)
include L

/-- Multiplying by a number of the format below 1 strictly decreases (a number that is not too small). -/
theorem mul_lt (hp : 0 < p) {r d : ℚ} (hr : Rep p emin r) (h1 : r < 1) (hd : Rep p emin d)
    (h : (2 : ℚ) ^ (emin + p) ≤ d) : fl (r * d) < d := by
  have d0 : 0 < d := lt_of_lt_of_le (two_zpow_pos _) h
  have hle : fl (r * d) ≤ d := L.le_of_rep hd (by nlinarith)
  rcases lt_or_eq_of_le hle with hlt | heq
  · exact hlt
  exfalso
  obtain ⟨m, e, hde, hm1, hm2, he⟩ := rep_normal hd h
  have pos := two_zpow_pos e
  have m0 : 1 ≤ m := by
    have : (0 : ℚ) < m := by
      have : (0 : ℚ) < 2 ^ p := by positivity
      linarith
    have : 0 < m := by exact_mod_cast this
    omega
  have hq : Rep p emin ((m - 1 : ℤ) * (2 : ℚ) ^ e) := by
    refine ⟨m - 1, e, ?_, he, rfl⟩
    rw [abs_of_nonneg (by omega)]; omega
  have near := L.nearest (r * d) _ hq
  rw [heq] at near
  have hr1 := rep_lt_one hp hr h1
  have t1 : (2 : ℚ) ^ (-(p : ℤ)) * 2 ^ p = 1 := by rw [zpow_neg, zpow_natCast]; field_simp
  -- d - r d > 2^e / 2
  have gap : (2 : ℚ) ^ e / 2 < d - r * d := by
    have a1 : (2 : ℚ) ^ (-(p : ℤ)) * d ≤ d - r * d := by nlinarith
    have a2 : (2 : ℚ) ^ e / 2 < (2 : ℚ) ^ (-(p : ℤ)) * d := by
      rw [hde]
      have pp := two_zpow_pos (-(p : ℤ))
      generalize (2 : ℚ) ^ (-(p : ℤ)) = u at *
      generalize (2 : ℚ) ^ e = w at *
      have : 1 < u * (2 * m) := by nlinarith
      nlinarith
    linarith
  have e1 : ((m - 1 : ℤ) : ℚ) * 2 ^ e = d - 2 ^ e := by rw [hde]; push_cast; ring
  rw [e1, abs_of_nonneg (by linarith : 0 ≤ d - r * d)] at near
  rcases le_total 0 (d - 2 ^ e - r * d) with h' | h'
  · rw [abs_of_nonneg h'] at near; linarith
  · rw [abs_of_nonpos h'] at near; linarith

omit L in
theorem rep_sub_small {y l : ℚ} (hy : Rep p emin y) (hl : Rep p emin l) (h : |y - l| ≤ (2 : ℚ) ^ (emin + p)) :
    Rep p emin (y - l) := by
  obtain ⟨m1, e1, _, h1, rfl⟩ := hy
  obtain ⟨m2, e2, _, h2, rfl⟩ := hl
  obtain ⟨n1, hn1⟩ := Int.eq_ofNat_of_zero_le (by omega : 0 ≤ e1 - emin)
  obtain ⟨n2, hn2⟩ := Int.eq_ofNat_of_zero_le (by omega : 0 ≤ e2 - emin)
  have heq : (m1 : ℚ) * 2 ^ e1 - m2 * 2 ^ e2 = ((m1 * 2 ^ n1 - m2 * 2 ^ n2 : ℤ) : ℚ) * 2 ^ emin := by
    rw [show e1 = n1 + emin by omega, show e2 = n2 + emin by omega, zpow_add₀ (by norm_num),
      zpow_add₀ (by norm_num), zpow_natCast, zpow_natCast]
    push_cast; ring
  refine ⟨_, emin, ?_, le_rfl, heq⟩
  rw [heq, abs_mul, abs_of_pos (two_zpow_pos emin), zpow_add₀ (by norm_num), mul_comm ((2 : ℚ) ^ emin)] at h
  have := le_of_mul_le_mul_right h (two_zpow_pos emin)
  rw [zpow_natCast] at this
  exact_mod_cast this

/-- One step of exponential decay from `y` down to `l ≤ y` does not exceed `y`, whatever the rounding does. -/
theorem approach_le (hp : 0 < p) {l r y : ℚ} (hl : Rep p emin l) (hr : Rep p emin r) (hy : Rep p emin y)
    (h0 : 0 ≤ r) (h1 : r < 1) (h : l ≤ y) : fl (l + fl (r * fl (y - l))) ≤ y := by
  have d0 : 0 ≤ y - l := by linarith
  have hd0 : 0 ≤ fl (y - l) := L.nonneg d0
  have key : fl (r * fl (y - l)) ≤ y - l := by
    by_cases hs : y - l ≤ (2 : ℚ) ^ (emin + p)
    · have hrep := rep_sub_small hy hl (by rw [abs_of_nonneg d0]; exact hs)
      rw [L.fix _ hrep]
      exact L.le_of_rep hrep (by nlinarith)
    · push Not at hs
      have hbig : (2 : ℚ) ^ (emin + p) ≤ fl (y - l) := by
        apply L.ge_of_rep _ hs.le
        exact rep_zpow (by omega)
      have hlt := L.mul_lt hp hr h1 (L.rep _) hbig
      by_contra hc
      push Not at hc
      have near := L.nearest (y - l) _ (L.rep (r * fl (y - l)))
      rw [abs_of_nonneg (by linarith : 0 ≤ fl (y - l) - (y - l)),
        abs_of_nonneg (by linarith : 0 ≤ fl (r * fl (y - l)) - (y - l))] at near
      linarith
  exact L.le_of_rep hy (by linarith)

/-- One step towards `t` from a number in `[lo, t]` stays in `[lo, t]` for `lo = 0`. -/
theorem approach_nonneg {t r y : ℚ} (ht : Rep p emin t) (ht0 : 0 ≤ t)
    (h0 : 0 ≤ r) (h1 : r ≤ 1) (h : 0 ≤ y) : 0 ≤ fl (t + fl (r * fl (y - t))) := by
  have a : -t ≤ fl (y - t) := L.ge_of_rep (rep_neg ht) (by linarith)
  have b : -t ≤ r * fl (y - t) := by
    rcases le_total 0 (fl (y - t)) with h' | h'
    · nlinarith [mul_nonneg h0 h']
    · nlinarith
  have c : -t ≤ fl (r * fl (y - t)) := L.ge_of_rep (rep_neg ht) b
  exact L.nonneg (by linarith)

/-- One step towards `t` from below does not exceed `t`. -/
theorem approach_le_target {t r y : ℚ} (ht : Rep p emin t)
    (h0 : 0 ≤ r) (h : y ≤ t) : fl (t + fl (r * fl (y - t))) ≤ t := by
  have a : fl (y - t) ≤ 0 := L.nonpos (by linarith)
  have c : fl (r * fl (y - t)) ≤ 0 := L.nonpos (mul_nonpos_of_nonneg_of_nonpos h0 a)
  exact L.le_of_rep ht (by linarith)

end Lawful
end Rounding
end Verif
