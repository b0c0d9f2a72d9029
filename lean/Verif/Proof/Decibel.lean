import Verif.Model.Decibel
import Verif.Proof.DbTable
import Verif.Proof.Interp
/-!
# Interpolation in the decibel tables
-/
namespace Verif
namespace Rounding

variable {p : ℕ} {emin : ℤ}

/-- The numbers of the format from `2^j` on are multiples of `2^(j+1-p)`. -/
theorem rep_grid (hp : 0 < p) {a : ℚ} (ha : Rep p emin a) {j : ℤ} (hj : (2 : ℚ) ^ j ≤ a) :
    ∃ z : ℤ, a = z * (2 : ℚ) ^ (j + 1 - p) := by
  obtain ⟨m, e, hm, he, rfl⟩ := ha
  rcases le_or_gt (j + 1 - p) e with h | h
  · obtain ⟨n, hn⟩ := pow_sub_nat h
    exact ⟨m * 2 ^ n, by rw [hn]; push_cast; ring⟩
  · have h1 : (m : ℚ) ≤ 2 ^ p := by exact_mod_cast (le_abs_self m).trans hm
    have h2 : (2 : ℚ) ^ e ≤ (2 : ℚ) ^ (j - p) := zpow_le_zpow_right₀ (by norm_num) (by omega)
    have h3 : (m : ℚ) * 2 ^ e ≤ 2 ^ p * (2 : ℚ) ^ (j - p) :=
      mul_le_mul h1 h2 (two_zpow_pos e).le (by positivity)
    have h4 : (2 : ℚ) ^ p * (2 : ℚ) ^ (j - p) = 2 ^ j := by
      rw [← zpow_natCast, ← zpow_add₀ (by norm_num)]; congr 1; ring
    have h5 : (m : ℚ) * 2 ^ e = 2 ^ j := le_antisymm (by linarith) hj
    obtain ⟨n, hn⟩ := pow_sub_nat (e := j + 1 - p) (e' := j) (by omega)
    exact ⟨2 ^ n, by rw [h5, hn]; push_cast; ring⟩

end Rounding

namespace Decibel
open Rounding DbTable Interp Sin

variable {fl fd : ℚ → ℚ}

/-- Entry `k` of the table with the literals `l`. -/
def val (fl fd : ℚ → ℚ) (l : List ℤ) (k : ℕ) : ℚ := fl (fd ((l[k]?.getD 0 : ℤ) / 10 ^ 15))

theorem read_val (l : List ℤ) (k : ℕ) (h : k < l.length) :
    readAt (l.map (fun z : Int => fl (fd ((z : ℚ) / 10 ^ 15)))) k = .ok (val fl fd l k) := by
  rw [readAt_ok (by simpa using h)]
  simp [val, h]

section
variable (L : Lawful 24 (-149) fl) (D : Lawful 53 (-1074) fd)
include L D

/-- Converting a literal to `float` through `double` has a small relative error. -/
theorem lit_err {x : ℚ} (h : 1 / 2 ^ 40 ≤ x) : |fl (fd x) - x| ≤ x * (11 / 10 / 2 ^ 24) := by
  have x0 : 0 < x := lt_of_lt_of_le (by norm_num) h
  have t1 : (2 : ℚ) ^ (-149 : ℤ) / 2 ≤ 1 / 2 ^ 140 := by
    rw [show (-149 : ℤ) = -((149 : ℕ) : ℤ) by norm_num, zpow_neg, zpow_natCast]; norm_num
  have t2 : (2 : ℚ) ^ (-1074 : ℤ) / 2 ≤ 1 / 2 ^ 140 := by
    have : (2 : ℚ) ^ (-1074 : ℤ) ≤ (2 : ℚ) ^ (-149 : ℤ) := zpow_le_zpow_right₀ (by norm_num) (by norm_num)
    exact (div_le_div_of_nonneg_right this (by norm_num)).trans t1
  have x1 : 1 / 2 ^ 140 ≤ x / 2 ^ 53 := by
    rw [le_div_iff₀ (by norm_num)]; refine le_trans ?_ h; norm_num
  have e2 : |fd x - x| ≤ x / 2 ^ 53 := by
    refine (D.err _).trans (max_le ?_ (t2.trans x1))
    rw [abs_of_pos x0]
  have y1 : fd x ≤ x * (1 + 1 / 2 ^ 53) := by rw [abs_le] at e2; linarith
  have y0 : 0 ≤ fd x := D.nonneg x0.le
  have e1 : |fl (fd x) - fd x| ≤ x * (1 + 1 / 2 ^ 53) / 2 ^ 24 := by
    refine (L.err _).trans (max_le ?_ (t1.trans (x1.trans ?_)))
    · rw [abs_of_nonneg y0]; gcongr
    · have : x ≤ x * (1 + 1 / 2 ^ 53) := by nlinarith
      refine le_trans ?_ (div_le_div_of_nonneg_right this (by norm_num))
      rw [div_le_div_iff₀ (by norm_num) (by norm_num)]
      norm_num; linarith
  have e : fl (fd x) - x = (fl (fd x) - fd x) + (fd x - x) := by ring
  rw [e]
  refine (abs_add_le _ _).trans ?_
  have : x * (11 / 10 / 2 ^ 24) = x / 2 ^ 24 + x * (1 / 10 / 2 ^ 24) := by ring
  have : x * (1 + 1 / 2 ^ 53) / 2 ^ 24 = x / 2 ^ 24 + x / 2 ^ 77 := by ring
  have : x / 2 ^ 77 + x / 2 ^ 53 ≤ x * (1 / 10 / 2 ^ 24) := by
    rw [← mul_one_div x (2 ^ 77), ← mul_one_div x (2 ^ 53), ← mul_add]
    apply mul_le_mul_of_nonneg_left _ x0.le
    norm_num
  linarith

variable {l : List ℤ} (hc : chain l = true)
include hc

/-- The entry is the literal up to rounding. -/
theorem val_err {k : ℕ} (hk : k + 1 < l.length) :
    |val fl fd l k - (l[k]?.getD 0 : ℤ) / 10 ^ 15| ≤ ((l[k]?.getD 0 : ℤ) : ℚ) / 10 ^ 15 * (11 / 10 / 2 ^ 24)
    ∧ |val fl fd l (k + 1) - (l[k + 1]?.getD 0 : ℤ) / 10 ^ 15|
        ≤ ((l[k + 1]?.getD 0 : ℤ) : ℚ) / 10 ^ 15 * (11 / 10 / 2 ^ 24) := by
  obtain ⟨-, h1, h2⟩ := chain_get l hc k hk
  unfold val
  generalize l[k]?.getD 0 = x at *
  generalize l[k + 1]?.getD 0 = y at *
  have big : ∀ z : ℤ, 10 ^ 13 ≤ z → 1 / 2 ^ 40 ≤ (z : ℚ) / 10 ^ 15 := by
    intro z hz
    have : (10 : ℚ) ^ 13 ≤ z := by exact_mod_cast hz
    rw [le_div_iff₀ (by norm_num)]; refine le_trans ?_ this; norm_num
  constructor
  · rcases h1 with rfl | h1
    · simp [D.zero, L.zero]
    · exact lit_err L D (big x h1)
  · exact lit_err L D (big y h2)

theorem cell {k : ℕ} (hk : k + 1 < l.length) : Cell (val fl fd l k) (val fl fd l (k + 1)) := by
  obtain ⟨⟨h1, h2, h3⟩, h4, h5⟩ := chain_get l hc k hk
  obtain ⟨e1, e2⟩ := val_err L D hc hk
  have n1 : 0 ≤ ((l[k]?.getD 0 : ℤ) : ℚ) / 10 ^ 15 := div_nonneg (by exact_mod_cast h1) (by norm_num)
  have le : ((l[k]?.getD 0 : ℤ) : ℚ) / 10 ^ 15 ≤ ((l[k + 1]?.getD 0 : ℤ) : ℚ) / 10 ^ 15 :=
    div_le_div_of_nonneg_right (by exact_mod_cast h2) (by norm_num)
  have r1 : Rep 24 (-149) (val fl fd l k) := L.rep _
  have r2 : Rep 24 (-149) (val fl fd l (k + 1)) := L.rep _
  have vle : val fl fd l k ≤ val fl fd l (k + 1) := L.mono _ _ (D.mono _ _ le)
  have vn : 0 ≤ val fl fd l k := L.nonneg (D.nonneg n1)
  refine ⟨r1, r2, vn, vle, ?_⟩
  rcases h3 with h3 | h3
  · have : val fl fd l k = 0 := by unfold val; rw [h3]; simp [D.zero, L.zero]
    rw [this, sub_zero]; exact r2
  · apply rep_sub r2 r1 (by linarith)
    have h3' : (1000 : ℚ) * (l[k + 1]?.getD 0 : ℤ) ≤ 1999 * (l[k]?.getD 0 : ℤ) := by exact_mod_cast h3
    generalize ((l[k]?.getD 0 : ℤ) : ℚ) = x at *
    generalize ((l[k + 1]?.getD 0 : ℤ) : ℚ) = y at *
    rw [abs_le] at e1 e2
    have : y / 10 ^ 15 ≤ 1999 / 1000 * (x / 10 ^ 15) := by
      rw [← mul_div_assoc]; apply div_le_div_of_nonneg_right _ (by norm_num); linarith
    generalize x / 10 ^ 15 = X at *
    generalize y / 10 ^ 15 = Y at *
    norm_num at e1 e2 ⊢
    linarith

theorem val_mono {j k : ℕ} (h : j ≤ k) (hk : k < l.length) : val fl fd l j ≤ val fl fd l k := by
  induction k, h using Nat.le_induction with
  | base => exact le_rfl
  | succ k _ ih => exact (ih (by omega)).trans (cell L D hc hk).le

/-- Interpolation in the table is monotone in the position. -/
theorem interp_mono {j k : ℕ} {μ ν : ℚ} (hj : j + 1 < l.length) (hk : k + 1 < l.length) (m0 : 0 ≤ μ) (m1 : μ < 1)
    (n0 : 0 ≤ ν) (n1 : ν < 1) (h : (j : ℚ) + μ ≤ k + ν) :
    linear_interpolate fl (val fl fd l j) (val fl fd l (j + 1)) μ
      ≤ linear_interpolate fl (val fl fd l k) (val fl fd l (k + 1)) ν := by
  rcases lt_trichotomy j k with hjk | rfl | hjk
  · refine (Interp.le L (cell L D hc hj) m1.le).trans ((val_mono L D hc (by omega) (by omega)).trans
      (Interp.ge L (cell L D hc hk) n0))
  · exact Interp.mono L (cell L D hc hj) (by linarith)
  · exfalso
    have : (k : ℚ) + 1 ≤ j := by exact_mod_cast hjk
    linarith

/-- Interpolation in the table with rounding is close to interpolation of the literals. -/
theorem interp_close {k : ℕ} {μ : ℚ} (hk : k + 1 < l.length) (m0 : 0 ≤ μ) (m1 : μ ≤ 1) (T : ℚ)
    (hT : ((l[k + 1]?.getD 0 : ℤ) : ℚ) / 10 ^ 15 ≤ T) :
    |linear_interpolate fl (val fl fd l k) (val fl fd l (k + 1)) μ
      - ((l[k]?.getD 0 : ℤ) / 10 ^ 15 + μ * ((l[k + 1]?.getD 0 : ℤ) / 10 ^ 15 - (l[k]?.getD 0 : ℤ) / 10 ^ 15))|
      ≤ 4 * T / 2 ^ 24 := by
  obtain ⟨⟨h1, h2, h3⟩, h4, h5⟩ := chain_get l hc k hk
  obtain ⟨e1, e2⟩ := val_err L D hc hk
  have c := cell L D hc hk
  have le : ((l[k]?.getD 0 : ℤ) : ℚ) / 10 ^ 15 ≤ ((l[k + 1]?.getD 0 : ℤ) : ℚ) / 10 ^ 15 :=
    div_le_div_of_nonneg_right (by exact_mod_cast h2) (by norm_num)
  have n1 : 0 ≤ ((l[k]?.getD 0 : ℤ) : ℚ) / 10 ^ 15 := div_nonneg (by exact_mod_cast h1) (by norm_num)
  have b2 : 1 / 100 ≤ ((l[k + 1]?.getD 0 : ℤ) : ℚ) / 10 ^ 15 := by
    have : (10 : ℚ) ^ 13 ≤ (l[k + 1]?.getD 0 : ℤ) := by exact_mod_cast h5
    rw [le_div_iff₀ (by norm_num)]; refine le_trans ?_ this; norm_num
  generalize ((l[k]?.getD 0 : ℤ) : ℚ) / 10 ^ 15 = X at *
  generalize ((l[k + 1]?.getD 0 : ℤ) : ℚ) / 10 ^ 15 = Y at *
  generalize val fl fd l k = v1 at *
  generalize val fl fd l (k + 1) = v2 at *
  have e2' := abs_le.mp e2
  have cl := Interp.close L c m0 m1 (T * (1 + 11 / 10 / 2 ^ 24)) (by norm_num at e2' ⊢; linarith) (by
    refine le_trans ?_ (le_trans b2 (hT.trans ?_))
    · norm_num
    · norm_num; linarith)
  have d : |(v1 + μ * (v2 - v1)) - (X + μ * (Y - X))| ≤ T * (11 / 10 / 2 ^ 24) := by
    have e : (v1 + μ * (v2 - v1)) - (X + μ * (Y - X)) = (1 - μ) * (v1 - X) + μ * (v2 - Y) := by ring
    rw [e]
    refine (abs_add_le _ _).trans ?_
    rw [abs_mul, abs_mul, abs_of_nonneg (by linarith : 0 ≤ 1 - μ), abs_of_nonneg m0]
    have a1 : |v1 - X| ≤ T * (11 / 10 / 2 ^ 24) := e1.trans (mul_le_mul_of_nonneg_right (by linarith) (by norm_num))
    have a2 : |v2 - Y| ≤ T * (11 / 10 / 2 ^ 24) := e2.trans (mul_le_mul_of_nonneg_right hT (by norm_num))
    nlinarith
  have := abs_sub_le (linear_interpolate fl v1 v2 μ) (v1 + μ * (v2 - v1)) (X + μ * (Y - X))
  norm_num at cl d ⊢
  linarith

end

/-- The position inside the cell is computed exactly. -/
theorem frac {fl : ℚ → ℚ} (L : Lawful 24 (-149) fl) {a : ℚ} (ha : Rep 24 (-149) a) (a0 : 0 ≤ a) (a1 : a < 2 ^ 24) :
    toU32 a = .ok ⌊a⌋₊ ∧ fl (a - fl (⌊a⌋₊ : ℕ)) = a - ⌊a⌋₊ ∧ 0 ≤ a - ⌊a⌋₊ ∧ a - ⌊a⌋₊ < 1 := by
  have h1 : (⌊a⌋₊ : ℚ) ≤ a := Nat.floor_le a0
  have h2 : a < ⌊a⌋₊ + 1 := Nat.lt_floor_add_one a
  refine ⟨?_, ?_, by linarith, by linarith⟩
  · unfold toU32; rw [if_pos ⟨by linarith, by linarith⟩]
  · have : Rep 24 (-149) ((⌊a⌋₊ : ℕ) : ℚ) := by
      have hz : ((⌊a⌋₊ : ℕ) : ℚ) ≤ 2 ^ 24 := by linarith
      have hz' : ⌊a⌋₊ ≤ 2 ^ 24 := by exact_mod_cast hz
      have := rep_int (p := 24) (emin := -149) (by norm_num) (m := (⌊a⌋₊ : ℕ)) (by
        rw [abs_of_nonneg (by positivity)]; exact_mod_cast hz')
      exact_mod_cast this
    rw [L.fix _ this, L.fix _ (rep_sub_nat (by norm_num) ha h1 a1.le)]

end Decibel
end Verif
