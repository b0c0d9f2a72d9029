import Verif.Model.FastMath
import Verif.Proof.RoundFilter
import Verif.Proof.RoundMore
import Mathlib.Analysis.SpecialFunctions.Log.Base
import Mathlib.Analysis.SpecialFunctions.Pow.Real
import Mathlib.Analysis.Complex.ExponentialBounds
/-!
# C81-C83: reciprocal, logarithm and power approximations working on the bits of a `float`
-/
namespace Verif
open Rounding FastMath

namespace FastMath

theorem mag_normal {E k : Nat} (hE : 1 ≤ E) (hk : k < 2 ^ 23) :
    f32Mag (2 ^ 23 * E + k) = ((2 ^ 23 + k : Nat) : ℚ) * (2 : ℚ) ^ ((E : ℤ) - 150) := by
  have h1 : (2 ^ 23 * E + k) / 2 ^ 23 = E := by omega
  have h2 : (2 ^ 23 * E + k) % 2 ^ 23 = k := by omega
  unfold f32Mag
  rw [h1, h2, if_neg (by omega)]

theorem mag_nonneg (n : Nat) : 0 ≤ f32Mag n := by
  unfold f32Mag; split_ifs <;> positivity

theorem mag_sub_lt {n : Nat} (h : n < 2 ^ 23) : f32Mag n < (2 : ℚ) ^ (-126 : ℤ) := by
  unfold f32Mag
  rw [if_pos (by omega)]
  have : (n : ℚ) < 2 ^ 23 := by exact_mod_cast h
  calc (n : ℚ) * (2 : ℚ) ^ (-149 : ℤ) < 2 ^ 23 * (2 : ℚ) ^ (-149 : ℤ) := mul_lt_mul_of_pos_right this (by positivity)
    _ = (2 : ℚ) ^ (-126 : ℤ) := by norm_num

/-- The value of a positive finite pattern. -/
theorem val_pos {b : BitVec 32} {v : ℚ} (hv : f32Val b = some v) (h : 0 < v) :
    b.toNat < 255 * 2 ^ 23 ∧ v = f32Mag b.toNat := by
  unfold f32Val at hv
  split_ifs at hv with h1 h2
  · injection hv with hv
    have := mag_nonneg (b.toNat % 2 ^ 31)
    exfalso; linarith
  · injection hv with hv
    rw [Nat.mod_eq_of_lt (by omega)] at hv h1
    exact ⟨h1, by rw [← hv, one_mul]⟩

theorem val_normal {b : BitVec 32} {v : ℚ} (hv : f32Val b = some v) (h : (2 : ℚ) ^ (-126 : ℤ) ≤ v) :
    ∃ E k : Nat, 1 ≤ E ∧ E ≤ 254 ∧ k < 2 ^ 23 ∧ b.toNat = 2 ^ 23 * E + k ∧
      v = ((2 ^ 23 + k : Nat) : ℚ) * (2 : ℚ) ^ ((E : ℤ) - 150) := by
  obtain ⟨h1, h2⟩ := val_pos hv (lt_of_lt_of_le (by positivity) h)
  have h3 : 2 ^ 23 ≤ b.toNat := by
    by_contra hc
    have := mag_sub_lt (n := b.toNat) (by omega)
    linarith
  refine ⟨b.toNat / 2 ^ 23, b.toNat % 2 ^ 23, by omega, by omega, by omega, by omega, ?_⟩
  rw [h2, ← mag_normal (by omega) (by omega)]
  congr 1; omega

theorem val_of_toNat {n : Nat} (h : n < 255 * 2 ^ 23) : f32Val (BitVec.ofNat 32 n) = some (f32Mag n) := by
  have e : (BitVec.ofNat 32 n).toNat = n := by rw [BitVec.toNat_ofNat]; omega
  unfold f32Val
  rw [e, Nat.mod_eq_of_lt (by omega : n < 2 ^ 31), if_pos h, if_neg (by omega), one_mul]

/-- Every non-negative number of the format below `2^128` has a bit pattern. -/
theorem mag_surj {q : ℚ} (hq : Rep 24 (-149) q) (h0 : 0 ≤ q) (h1 : q < 2 ^ 128) : ∃ n, n < 255 * 2 ^ 23 ∧ f32Mag n = q := by
  rcases h0.eq_or_lt with rfl | hpos
  · exact ⟨0, by norm_num, by simp [f32Mag]⟩
  have hfix := rnd_fix (p := 24) (by norm_num) hq
  unfold rnd at hfix
  set u := ulpExp 24 (-149) q with hu
  set N := rneInt (q / (2 : ℚ) ^ u) with hN
  have up := two_zpow_pos u
  have l1 : (2 : ℚ) ^ (Int.log 2 q) ≤ q := by exact_mod_cast Int.zpow_log_le_self (b := 2) (by norm_num) hpos
  have l2 : q < (2 : ℚ) ^ (Int.log 2 q + 1) := by exact_mod_cast Int.lt_zpow_succ_log_self (b := 2) (by norm_num) q
  have lu : u = max (Int.log 2 q - 23) (-149) := by rw [hu]; unfold ulpExp; rw [abs_of_pos hpos]; norm_num
  have l127 : Int.log 2 q ≤ 127 := by
    by_contra hc
    have : (2 : ℚ) ^ (128 : ℤ) ≤ (2 : ℚ) ^ (Int.log 2 q) := zpow_le_zpow_right₀ (by norm_num) (by omega)
    norm_num at this h1
    linarith
  generalize Int.log 2 q = k at *
  have hN0 : 0 < N := by
    by_contra hc
    have : (N : ℚ) ≤ 0 := by exact_mod_cast (not_lt.1 hc)
    nlinarith
  obtain ⟨M, hM⟩ : ∃ M : Nat, N = M := ⟨N.toNat, by omega⟩
  rw [hM] at hfix hN0
  have hfix : (M : ℚ) * (2 : ℚ) ^ u = q := by rw [← hfix]; push_cast; rfl
  have M0 : 0 < M := by omega
  by_cases hk : -126 ≤ k
  · have hu' : u = k - 23 := by rw [lu]; omega
    have hMlo : 2 ^ 23 ≤ M := by
      have h3 : (2 : ℚ) ^ k = 2 ^ 23 * (2 : ℚ) ^ u := by
        rw [hu', ← zpow_natCast, ← zpow_add₀ (by norm_num)]; congr 1; push_cast; ring
      rw [← hfix, h3] at l1
      have := le_of_mul_le_mul_right l1 up
      exact_mod_cast this
    have hMhi : M < 2 ^ 24 := by
      have h3 : (2 : ℚ) ^ (k + 1) = 2 ^ 24 * (2 : ℚ) ^ u := by
        rw [hu', ← zpow_natCast, ← zpow_add₀ (by norm_num)]; congr 1; push_cast; ring
      rw [← hfix, h3] at l2
      have := lt_of_mul_lt_mul_right l2 up.le
      exact_mod_cast this
    refine ⟨2 ^ 23 * (k + 127).toNat + (M - 2 ^ 23), by omega, ?_⟩
    rw [mag_normal (by omega) (by omega), ← hfix, hu']
    rw [show 2 ^ 23 + (M - 2 ^ 23) = M by omega, show (((k + 127).toNat : Nat) : ℤ) - 150 = k - 23 by omega]
  · have hu' : u = -149 := by rw [lu]; omega
    have hMhi : M < 2 ^ 23 := by
      have h3 : (2 : ℚ) ^ (k + 1) ≤ 2 ^ 23 * (2 : ℚ) ^ u := by
        rw [hu', ← zpow_natCast, ← zpow_add₀ (by norm_num)]
        exact zpow_le_zpow_right₀ (by norm_num) (by push_cast; omega)
      rw [← hfix] at l2
      have := lt_of_mul_lt_mul_right (l2.trans_le h3) up.le
      exact_mod_cast this
    refine ⟨M, by omega, ?_⟩
    unfold f32Mag
    rw [if_pos (by omega), ← hfix, hu']

/-- `f32Val` and the rounding model agree: the finite bit patterns denote exactly the numbers of the binary32 format. -/
theorem val_iff (q : ℚ) : (∃ b, f32Val b = some q) ↔ (Rep 24 (-149) q ∧ |q| < 2 ^ 128) := by
  constructor
  · rintro ⟨b, hb⟩
    unfold f32Val at hb
    have h1 : b.toNat % 2 ^ 31 < 255 * 2 ^ 23 := by
      by_contra hc; rw [if_neg hc] at hb; exact absurd hb (by simp)
    rw [if_pos h1] at hb
    injection hb with hb
    have key : ∀ n, n < 255 * 2 ^ 23 → Rep 24 (-149) (f32Mag n) ∧ f32Mag n < 2 ^ 128 := by
      intro n hn
      unfold f32Mag
      split_ifs with h0
      · refine ⟨⟨n, -149, ?_, by norm_num, by push_cast; rfl⟩, ?_⟩
        · rw [abs_of_nonneg (by omega)]; norm_num; omega
        · have : (n : ℚ) ≤ 2 ^ 23 := by exact_mod_cast (by omega)
          calc (n : ℚ) * (2 : ℚ) ^ (-149 : ℤ) ≤ 2 ^ 23 * (2 : ℚ) ^ (-149 : ℤ) := mul_le_mul_of_nonneg_right this (by positivity)
            _ < 2 ^ 128 := by norm_num
      · refine ⟨⟨(2 ^ 23 + n % 2 ^ 23 : Nat), _, ?_, ?_, by push_cast; rfl⟩, ?_⟩
        · rw [abs_of_nonneg (by omega)]; norm_num; omega
        · omega
        · have h3 : (2 : ℚ) ^ (((n / 2 ^ 23 : Nat) : ℤ) - 150) ≤ (2 : ℚ) ^ (104 : ℤ) :=
            zpow_le_zpow_right₀ (by norm_num) (by omega)
          have h4 : ((2 ^ 23 + n % 2 ^ 23 : Nat) : ℚ) < ((2 ^ 24 : Nat) : ℚ) := by exact_mod_cast (by omega)
          calc _ ≤ ((2 ^ 23 + n % 2 ^ 23 : Nat) : ℚ) * (2 : ℚ) ^ (104 : ℤ) := mul_le_mul_of_nonneg_left h3 (by positivity)
            _ < ((2 ^ 24 : Nat) : ℚ) * (2 : ℚ) ^ (104 : ℤ) := mul_lt_mul_of_pos_right h4 (by positivity)
            _ = 2 ^ 128 := by norm_num
    obtain ⟨k1, k2⟩ := key _ h1
    have k3 := mag_nonneg (b.toNat % 2 ^ 31)
    rw [← hb]
    split_ifs
    · rw [neg_one_mul, abs_neg, abs_of_nonneg k3]; exact ⟨rep_neg k1, k2⟩
    · rw [one_mul, abs_of_nonneg k3]; exact ⟨k1, k2⟩
  · rintro ⟨h1, h2⟩
    rcases le_or_gt 0 q with h0 | h0
    · rw [abs_of_nonneg h0] at h2
      obtain ⟨n, hn, e⟩ := mag_surj h1 h0 h2
      exact ⟨_, by rw [val_of_toNat hn, e]⟩
    · rw [abs_of_neg h0] at h2
      obtain ⟨n, hn, e⟩ := mag_surj (rep_neg h1) (by linarith) h2
      refine ⟨BitVec.ofNat 32 (2 ^ 31 + n), ?_⟩
      have et : (BitVec.ofNat 32 (2 ^ 31 + n)).toNat = 2 ^ 31 + n := by rw [BitVec.toNat_ofNat]; omega
      unfold f32Val
      rw [et, show (2 ^ 31 + n) % 2 ^ 31 = n by omega, if_pos hn, if_pos (by omega), e]
      norm_num

end FastMath

/-- **C81** `fast_inverse`: for every normal `float` `v` between `2^-126` and `2^125` the call is defined and its result
`w` is within 5.06 % of `1 / v`. -/
theorem C81_reciprocal (b : BitVec 32) (v : ℚ) (hv : f32Val b = some v) (h0 : (2 : ℚ) ^ (-126 : ℤ) ≤ v)
    (h1 : v ≤ 2 ^ 125) :
    ∃ r w, inverse b = .ok r ∧ f32Val r = some w ∧ 0 < w ∧ |v * w - 1| ≤ 506 / 10000 := by
  obtain ⟨E, k, hE, hE', hk, hb, hval⟩ := val_normal hv h0
  have hE2 : 2 ^ 23 * E + k ≤ 252 * 2 ^ 23 := by
    by_contra hc
    push Not at hc
    have : (2 : ℚ) ^ (125 : ℕ) < v := by
      rw [hval]
      by_cases h252 : E = 252
      · subst h252
        have hk1 : ((2 ^ 23 + 1 : Nat) : ℚ) ≤ ((2 ^ 23 + k : Nat) : ℚ) := by exact_mod_cast (by omega)
        calc (2 : ℚ) ^ (125 : ℕ) < ((2 ^ 23 + 1 : Nat) : ℚ) * (2 : ℚ) ^ (((252 : Nat) : ℤ) - 150) := by norm_num
          _ ≤ _ := mul_le_mul_of_nonneg_right hk1 (by positivity)
      · have h3 : (2 : ℚ) ^ (103 : ℤ) ≤ (2 : ℚ) ^ ((E : ℤ) - 150) := zpow_le_zpow_right₀ (by norm_num) (by omega)
        have h4 : ((2 ^ 23 : Nat) : ℚ) ≤ ((2 ^ 23 + k : Nat) : ℚ) := by exact_mod_cast (by omega)
        calc (2 : ℚ) ^ (125 : ℕ) < ((2 ^ 23 : Nat) : ℚ) * (2 : ℚ) ^ (103 : ℤ) := by norm_num
          _ ≤ _ := mul_le_mul h4 h3 (by positivity) (by positivity)
    linarith
  have hint : b.toInt = ((2 ^ 23 * E + k : Nat) : ℤ) := by
    rw [BitVec.toInt_eq_toNat_of_lt (by omega), hb]
  have hinv : inverse b = .ok (BitVec.ofNat 32 (2129859010 - (2 ^ 23 * E + k))) := by
    unfold inverse
    rw [hint]
    simp only
    rw [if_pos (by omega)]
    congr 1
    rw [show (2129859010 : ℤ) - ((2 ^ 23 * E + k : Nat) : ℤ) = ((2129859010 - (2 ^ 23 * E + k) : Nat) : ℤ) by omega]
    exact BitVec.ofInt_natCast 32 _
  rw [hinv]
  refine ⟨_, _, rfl, val_of_toNat (by omega), ?_⟩
  have kq : (k : ℚ) < 2 ^ 23 := by exact_mod_cast hk
  have k0 : (0 : ℚ) ≤ k := by positivity
  by_cases hc : k ≤ 7541186
  · rw [show 2129859010 - (2 ^ 23 * E + k) = 2 ^ 23 * (253 - E) + (7541186 - k) by omega,
      mag_normal (by omega) (by omega), hval]
    refine ⟨by positivity, ?_⟩
    have e2 : (2 : ℚ) ^ ((E : ℤ) - 150) * (2 : ℚ) ^ (((253 - E : Nat) : ℤ) - 150) = 1 / 2 ^ 47 := by
      rw [← zpow_add₀ (by norm_num), show ((E : ℤ) - 150) + (((253 - E : Nat) : ℤ) - 150) = -47 by omega]
      norm_num
    rw [show ∀ a c d e : ℚ, a * c * (d * e) = a * d * (c * e) by intros; ring, e2]
    have kc : (k : ℚ) ≤ 7541186 := by exact_mod_cast hc
    rw [Nat.cast_add, Nat.cast_add, Nat.cast_sub hc]
    push_cast
    rw [abs_le]
    constructor <;> nlinarith [sq_nonneg ((k : ℚ) - 3770593)]
  · rw [show 2129859010 - (2 ^ 23 * E + k) = 2 ^ 23 * (252 - E) + (2 ^ 23 + 7541186 - k) by omega,
      mag_normal (by omega) (by omega), hval]
    refine ⟨by positivity, ?_⟩
    have e2 : (2 : ℚ) ^ ((E : ℤ) - 150) * (2 : ℚ) ^ (((252 - E : Nat) : ℤ) - 150) = 1 / 2 ^ 48 := by
      rw [← zpow_add₀ (by norm_num), show ((E : ℤ) - 150) + (((252 - E : Nat) : ℤ) - 150) = -48 by omega]
      norm_num
    rw [show ∀ a c d e : ℚ, a * c * (d * e) = a * d * (c * e) by intros; ring, e2]
    have kc : (7541186 : ℚ) < k := by exact_mod_cast (not_le.1 hc)
    rw [Nat.cast_add, Nat.cast_add, Nat.cast_sub (by omega)]
    push_cast
    rw [abs_le]
    constructor <;> nlinarith [sq_nonneg ((k : ℚ) - 7964897)]

/-- **C81** `fast_div` (rounding included): for a divisor `v` as above and a dividend for which the quotient does not
underflow, the result is within 5.07 % of `a / v`. -/
theorem C81_division (a : ℚ) (b : BitVec 32) (v : ℚ) (hv : f32Val b = some v) (h0 : (2 : ℚ) ^ (-126 : ℤ) ≤ v)
    (h1 : v ≤ 2 ^ 125) (ha : (2 : ℚ) ^ (-120 : ℤ) ≤ |a / v|) :
    ∃ q, FastMath.div fl32 a b = .ok (some q) ∧ |q - a / v| ≤ 507 / 10000 * |a / v| := by
  obtain ⟨r, w, e1, e2, hw, herr⟩ := C81_reciprocal b v hv h0 h1
  refine ⟨fl32 (a * w), ?_, ?_⟩
  · unfold FastMath.div
    rw [e1]
    show Except.ok ((f32Val r).map _) = _
    rw [e2]; rfl
  · have vp : 0 < v := lt_of_lt_of_le (by positivity) h0
    have eaw : a * w = a / v * (v * w) := by field_simp
    have hf := fl32_lawful.err (a * w)
    rw [eaw] at hf ⊢
    generalize a / v = q at *
    generalize v * w = p at *
    have hp := abs_le.1 herr
    have hq0 : 0 ≤ |q| := abs_nonneg q
    have hm : max (|q * p| / 2 ^ 24) ((2 : ℚ) ^ (-149 : ℤ) / 2) ≤ |q| / 100000 := by
      rw [abs_mul, abs_of_nonneg (by linarith : 0 ≤ p)]
      refine max_le ?_ ?_
      · rw [div_le_iff₀ (by norm_num)]
        nlinarith
      · have : (2 : ℚ) ^ (-149 : ℤ) / 2 ≤ (2 : ℚ) ^ (-120 : ℤ) / 100000 := by norm_num
        exact this.trans (div_le_div_of_nonneg_right ha (by norm_num))
    have h2 : |q * p - q| ≤ 506 / 10000 * |q| := by
      rw [show q * p - q = (p - 1) * q by ring, abs_mul]
      exact mul_le_mul_of_nonneg_right herr hq0
    have h3 := abs_sub_le (fl32 (q * p)) (q * p) q
    linarith [hf.trans hm]

/-- **C81 fails** for every negative number of modulus up to `2^126` (and for -0): the subtraction overflows `int`. -/
theorem C81_negative_violation (b : BitVec 32) (hs : 2 ^ 31 ≤ b.toNat) (v : ℚ) (hv : f32Val b = some v)
    (h : -2 ^ 126 ≤ v) : inverse b = .error .signedOverflow := by
  have hlt := b.isLt
  have hn : b.toNat % 2 ^ 31 = b.toNat - 2 ^ 31 := by omega
  have hsmall : b.toNat - 2 ^ 31 ≤ 253 * 2 ^ 23 := by
    by_contra hc
    push Not at hc
    unfold f32Val at hv
    split_ifs at hv with h1
    injection hv with hv
    have : (2 : ℚ) ^ 126 < f32Mag (b.toNat % 2 ^ 31) := by
      rw [hn] at h1 ⊢
      generalize b.toNat - 2 ^ 31 = n at *
      obtain ⟨E, k, hk, rfl⟩ : ∃ E k, k < 2 ^ 23 ∧ n = 2 ^ 23 * E + k := ⟨n / 2 ^ 23, n % 2 ^ 23, by omega, by omega⟩
      rw [mag_normal (by omega) hk]
      by_cases h253 : E = 253
      · subst h253
        have hk1 : ((2 ^ 23 + 1 : Nat) : ℚ) ≤ ((2 ^ 23 + k : Nat) : ℚ) := by exact_mod_cast (by omega)
        calc (2 : ℚ) ^ (126 : ℕ) < ((2 ^ 23 + 1 : Nat) : ℚ) * (2 : ℚ) ^ (((253 : Nat) : ℤ) - 150) := by norm_num
          _ ≤ _ := mul_le_mul_of_nonneg_right hk1 (by positivity)
      · have h3 : (2 : ℚ) ^ (104 : ℤ) ≤ (2 : ℚ) ^ ((E : ℤ) - 150) := zpow_le_zpow_right₀ (by norm_num) (by omega)
        have h4 : ((2 ^ 23 : Nat) : ℚ) ≤ ((2 ^ 23 + k : Nat) : ℚ) := by exact_mod_cast (by omega)
        calc (2 : ℚ) ^ (126 : ℕ) < ((2 ^ 23 : Nat) : ℚ) * (2 : ℚ) ^ (104 : ℤ) := by norm_num
          _ ≤ _ := mul_le_mul h4 h3 (by positivity) (by positivity)
    linarith
  have hint : b.toInt = (b.toNat : ℤ) - 2 ^ 32 := by
    rw [BitVec.toInt_eq_toNat_cond, if_neg (by omega)]; norm_num
  unfold inverse
  simp only [hint]
  rw [if_neg (by omega)]

/-- **C81 fails** for every finite number from `2^127` up: the result is negative or not finite. -/
theorem C81_huge_violation (b : BitVec 32) (v : ℚ) (hv : f32Val b = some v) (h : 2 ^ 127 ≤ v) :
    ∃ r, inverse b = .ok r ∧ (f32Val r = none ∨ ∃ w, f32Val r = some w ∧ w < 0) := by
  obtain ⟨E, k, hE, hE', hk, hb, hval⟩ := val_normal hv (le_trans (by norm_num) h)
  have hE2 : 254 ≤ E := by
    by_contra hc
    have h3 : (2 : ℚ) ^ ((E : ℤ) - 150) ≤ (2 : ℚ) ^ (103 : ℤ) := zpow_le_zpow_right₀ (by norm_num) (by omega)
    have h4 : ((2 ^ 23 + k : Nat) : ℚ) < ((2 ^ 24 : Nat) : ℚ) := by exact_mod_cast (by omega)
    have : v < 2 ^ 127 := by
      rw [hval]
      calc _ ≤ ((2 ^ 23 + k : Nat) : ℚ) * (2 : ℚ) ^ (103 : ℤ) := mul_le_mul_of_nonneg_left h3 (by positivity)
        _ < ((2 ^ 24 : Nat) : ℚ) * (2 : ℚ) ^ (103 : ℤ) := mul_lt_mul_of_pos_right h4 (by positivity)
        _ = 2 ^ 127 := by norm_num
    linarith
  have hint : b.toInt = ((2 ^ 23 * E + k : Nat) : ℤ) := by
    rw [BitVec.toInt_eq_toNat_of_lt (by omega), hb]
  have hr : inverse b = .ok (BitVec.ofInt 32 (0x7EF311C2 - b.toInt)) := by
    unfold inverse
    simp only
    rw [if_pos (by omega)]
  refine ⟨_, hr, ?_⟩
  have hn : (BitVec.ofInt 32 (0x7EF311C2 - b.toInt)).toNat = 2 ^ 32 + 2129859010 - (2 ^ 23 * E + k) := by
    rw [BitVec.toNat_ofInt, hint]; omega
  unfold f32Val
  rw [hn]
  split_ifs with h1 h2
  · right
    refine ⟨_, rfl, ?_⟩
    have : 0 < f32Mag ((2 ^ 32 + 2129859010 - (2 ^ 23 * E + k)) % 2 ^ 31) := by
      have hge : 2 ^ 23 ≤ (2 ^ 32 + 2129859010 - (2 ^ 23 * E + k)) % 2 ^ 31 := by omega
      generalize (2 ^ 32 + 2129859010 - (2 ^ 23 * E + k)) % 2 ^ 31 = n at *
      obtain ⟨E', k', hk', rfl⟩ : ∃ E k, k < 2 ^ 23 ∧ n = 2 ^ 23 * E + k := ⟨n / 2 ^ 23, n % 2 ^ 23, by omega, by omega⟩
      rw [mag_normal (by omega) hk']
      positivity
    linarith
  · omega
  · left; rfl

end Verif
