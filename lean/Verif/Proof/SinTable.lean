import Verif.Model.SinTable
import Mathlib.Analysis.Real.Pi.Bounds
import Mathlib.Analysis.SpecialFunctions.Trigonometric.Bounds
import Mathlib.Analysis.Complex.Exponential
import Mathlib.Analysis.Convex.Deriv
import Mathlib.Tactic.NormNum
/-!
# The sine table contains sines

Every entry of the table is within `10^-11` of the sine it stands for: the complex numbers `c_k + i s_k` formed
from the table satisfy the rotation recurrence up to `3e-15` (checked by the kernel on the integers of the
table), and the first one is `exp(2πi/1024)` up to `2e-15` (Taylor's theorem and Mathlib's bounds on `π`).
-/
namespace Verif
namespace SinTable
open Complex

/-- cosines: the table shifted by a quarter turn -/
def ctable : List Int := table.drop 256 ++ (table.drop 1).take 256

/-- One step of the rotation recurrence holds up to `3e-15`; entries are at most one, neighbours are close. -/
def stepOk (s c s' c' : Int) : Bool :=
  decide (|s * 999981175282601 + c * 6135884649154 - s' * 10 ^ 15| ≤ 3 * 10 ^ 15)
  && decide (|c * 999981175282601 - s * 6135884649154 - c' * 10 ^ 15| ≤ 3 * 10 ^ 15)
  && decide (|s| ≤ 10 ^ 15) && decide (|c| ≤ 10 ^ 15)
  && decide (|s'| ≤ 10 ^ 15) && decide (|s' - s| ≤ 62 * 10 ^ 11)

/-- The recurrence holds all along two lists. -/
def allOk : List Int → List Int → Bool
  | s :: s' :: ss, c :: c' :: cs => stepOk s c s' c' && allOk (s' :: ss) (c' :: cs)
  | _, _ => true

theorem table_ok : allOk table ctable = true := by decide +kernel

theorem table_length : table.length = 1025 := by decide +kernel
theorem ctable_length : ctable.length = 1025 := by decide +kernel

theorem allOk_get : ∀ (l m : List Int), allOk l m = true → ∀ k, (h : k + 1 < l.length) → (h' : k + 1 < m.length) →
    stepOk l[k] m[k] l[k + 1] m[k + 1] = true
  | [], _, _, k, h, _ => by simp at h
  | [_], _, _, k, h, _ => by simp at h
  | _ :: _ :: _, [], _, k, _, h => by simp at h
  | _ :: _ :: _, [_], _, k, _, h => by simp at h
  | s :: s' :: ss, c :: c' :: cs, hok, k, h, h' => by
    simp only [allOk, Bool.and_eq_true] at hok
    cases k with
    | zero => simpa using hok.1
    | succ k =>
      have := allOk_get (s' :: ss) (c' :: cs) hok.2 k (by simpa using h) (by simpa using h')
      simpa using this

/-- The point `c_k + i s_k` described by the table. -/
noncomputable def z (k : ℕ) : ℂ := ((ctable[k]?.getD 0 : ℤ) / 10 ^ 15 : ℝ) + ((table[k]?.getD 0 : ℤ) / 10 ^ 15 : ℝ) * I

theorem first_entries : table[0]? = some 0 ∧ ctable[0]? = some (10 ^ 15) ∧ table[1]? = some 6135884649154
    ∧ ctable[1]? = some 999981175282601 := by decide +kernel

/-- the rational approximation of `π/512` used in the Taylor polynomials -/
noncomputable def q : ℝ := 314159265358979323846 / 10 ^ 20 / 512

theorem q_close : |Real.pi / 512 - q| ≤ 1 / 10 ^ 21 := by
  have h1 := Real.pi_gt_d20
  have h2 := Real.pi_lt_d20
  unfold q
  rw [abs_le]
  constructor <;> linarith

theorem q_pos : 0 < q := by unfold q; norm_num
theorem q_small : q ≤ 62 / 10000 := by unfold q; norm_num

theorem exp_q : ‖Complex.exp (q * I) - z 1‖ ≤ 15 / 10 ^ 16 := by
  have hq : ‖(q : ℂ) * I‖ = q := by
    rw [norm_mul, Complex.norm_I, mul_one, Complex.norm_real, Real.norm_of_nonneg q_pos.le]
  have h1 := Complex.exp_bound (x := (q : ℂ) * I) (by rw [hq]; linarith [q_small]) (n := 6) (by norm_num)
  rw [hq] at h1
  have h2 : q ^ 6 * ((Nat.succ 6 : ℝ) * ((Nat.factorial 6 : ℝ) * (6 : ℕ))⁻¹) ≤ 1 / 10 ^ 16 := by
    have : q ^ 6 ≤ (62 / 10000) ^ 6 := pow_le_pow_left₀ q_pos.le q_small 6
    have h3 : ((Nat.succ 6 : ℝ) * ((Nat.factorial 6 : ℝ) * (6 : ℕ))⁻¹) = 7 / 4320 := by
      norm_num [Nat.factorial]
    rw [h3]
    calc q ^ 6 * (7 / 4320) ≤ (62 / 10000) ^ 6 * (7 / 4320) := by gcongr
      _ ≤ _ := by norm_num
  have hsum : ∑ m ∈ Finset.range 6, ((q : ℂ) * I) ^ m / (m.factorial : ℂ)
      = ((1 - q ^ 2 / 2 + q ^ 4 / 24 : ℝ) : ℂ) + ((q - q ^ 3 / 6 + q ^ 5 / 120 : ℝ) : ℂ) * I := by
    simp only [Finset.sum_range_succ, Finset.sum_range_zero, Nat.factorial]
    push_cast
    have i2 : I ^ 2 = -1 := Complex.I_sq
    have i3 : I ^ 3 = -I := by rw [pow_succ, i2]; ring
    have i4 : I ^ 4 = 1 := by rw [pow_succ, i3]; simp
    have i5 : I ^ 5 = I := by rw [pow_succ, i4]; ring
    simp only [mul_pow, i2, i3, i4, i5]
    ring
  rw [hsum] at h1
  have hz : z 1 = ((999981175282601 / 10 ^ 15 : ℝ) : ℂ) + ((6135884649154 / 10 ^ 15 : ℝ) : ℂ) * I := by
    unfold z
    obtain ⟨_, _, e1, e2⟩ := first_entries
    rw [e1, e2]
    norm_num
  have hdiff : ‖(((1 - q ^ 2 / 2 + q ^ 4 / 24 : ℝ) : ℂ) + ((q - q ^ 3 / 6 + q ^ 5 / 120 : ℝ) : ℂ) * I) - z 1‖
      ≤ 12 / 10 ^ 16 := by
    rw [hz]
    have e : (((1 - q ^ 2 / 2 + q ^ 4 / 24 : ℝ) : ℂ) + ((q - q ^ 3 / 6 + q ^ 5 / 120 : ℝ) : ℂ) * I)
        - (((999981175282601 / 10 ^ 15 : ℝ) : ℂ) + ((6135884649154 / 10 ^ 15 : ℝ) : ℂ) * I)
        = ((1 - q ^ 2 / 2 + q ^ 4 / 24 - 999981175282601 / 10 ^ 15 : ℝ) : ℂ)
          + ((q - q ^ 3 / 6 + q ^ 5 / 120 - 6135884649154 / 10 ^ 15 : ℝ) : ℂ) * I := by
      push_cast; ring
    rw [e]
    refine (norm_add_le _ _).trans ?_
    rw [norm_mul, Complex.norm_I, mul_one, Complex.norm_real, Complex.norm_real, Real.norm_eq_abs,
      Real.norm_eq_abs]
    have ha : |1 - q ^ 2 / 2 + q ^ 4 / 24 - 999981175282601 / 10 ^ 15| ≤ 6 / 10 ^ 16 := by
      unfold q; rw [abs_le]; constructor <;> norm_num
    have hb : |q - q ^ 3 / 6 + q ^ 5 / 120 - 6135884649154 / 10 ^ 15| ≤ 6 / 10 ^ 16 := by
      unfold q; rw [abs_le]; constructor <;> norm_num
    linarith
  have := norm_sub_le_norm_sub_add_norm_sub (Complex.exp (q * I))
    (((1 - q ^ 2 / 2 + q ^ 4 / 24 : ℝ) : ℂ) + ((q - q ^ 3 / 6 + q ^ 5 / 120 : ℝ) : ℂ) * I) (z 1)
  linarith

/-- one step of rotation -/
noncomputable def θ : ℝ := Real.pi / 512

theorem exp_θ : ‖Complex.exp (θ * I) - z 1‖ ≤ 2 / 10 ^ 15 := by
  have h : ‖Complex.exp (θ * I) - Complex.exp (q * I)‖ ≤ 1 / 10 ^ 21 := by
    have e : Complex.exp (θ * I) - Complex.exp (q * I)
        = Complex.exp (q * I) * (Complex.exp (I * ((θ - q : ℝ) : ℂ)) - 1) := by
      rw [mul_sub, ← Complex.exp_add, mul_one]
      congr 2
      push_cast; ring
    rw [e, norm_mul, Complex.norm_exp_ofReal_mul_I, one_mul]
    exact (Real.norm_exp_I_mul_ofReal_sub_one_le).trans q_close
  have := norm_sub_le_norm_sub_add_norm_sub (Complex.exp (θ * I)) (Complex.exp (q * I)) (z 1)
  have := exp_q
  norm_num at *
  linarith

theorem z_step (k : ℕ) (hk : k < 1024) : ‖z k * z 1 - z (k + 1)‖ ≤ 6 / 10 ^ 15 ∧ ‖z k‖ ≤ 2 := by
  have hs := allOk_get table ctable table_ok k (by rw [table_length]; omega) (by rw [ctable_length]; omega)
  have g : ∀ (l : List Int) (j : ℕ) (h : j < l.length), l[j]?.getD 0 = l[j] := by
    intro l j h; simp [h]
  have h0 := g table k (by rw [table_length]; omega)
  have h1 := g table (k + 1) (by rw [table_length]; omega)
  have h2 := g ctable k (by rw [ctable_length]; omega)
  have h3 := g ctable (k + 1) (by rw [ctable_length]; omega)
  rw [← h0, ← h1, ← h2, ← h3] at hs
  clear h0 h1 h2 h3 g
  have hz1 : z 1 = ((999981175282601 / 10 ^ 15 : ℝ) : ℂ) + ((6135884649154 / 10 ^ 15 : ℝ) : ℂ) * I := by
    unfold z
    obtain ⟨_, _, e1, e2⟩ := first_entries
    rw [e1, e2]
    norm_num
  unfold z at *
  rw [hz1]
  generalize table[k]?.getD 0 = s at *
  generalize table[k + 1]?.getD 0 = s' at *
  generalize ctable[k]?.getD 0 = c at *
  generalize ctable[k + 1]?.getD 0 = c' at *
  simp only [stepOk, Bool.and_eq_true, decide_eq_true_eq] at hs
  obtain ⟨⟨⟨⟨⟨a1, a2⟩, a3⟩, a4⟩, _⟩, _⟩ := hs
  have b1 : |(s : ℝ) * 999981175282601 + c * 6135884649154 - s' * 10 ^ 15| ≤ 3 * 10 ^ 15 := by exact_mod_cast a1
  have b2 : |(c : ℝ) * 999981175282601 - s * 6135884649154 - c' * 10 ^ 15| ≤ 3 * 10 ^ 15 := by exact_mod_cast a2
  have b3 : |(s : ℝ)| ≤ 10 ^ 15 := by exact_mod_cast a3
  have b4 : |(c : ℝ)| ≤ 10 ^ 15 := by exact_mod_cast a4
  generalize (s : ℝ) = s at *
  generalize (s' : ℝ) = s' at *
  generalize (c : ℝ) = c at *
  generalize (c' : ℝ) = c' at *
  constructor
  · have e : (((c / 10 ^ 15 : ℝ) : ℂ) + ((s / 10 ^ 15 : ℝ) : ℂ) * I)
        * (((999981175282601 / 10 ^ 15 : ℝ) : ℂ) + ((6135884649154 / 10 ^ 15 : ℝ) : ℂ) * I)
        - (((c' / 10 ^ 15 : ℝ) : ℂ) + ((s' / 10 ^ 15 : ℝ) : ℂ) * I)
        = (((c * 999981175282601 - s * 6135884649154 - c' * 10 ^ 15) / 10 ^ 30 : ℝ) : ℂ)
          + (((s * 999981175282601 + c * 6135884649154 - s' * 10 ^ 15) / 10 ^ 30 : ℝ) : ℂ) * I := by
      push_cast
      have i2 : I * I = -1 := Complex.I_mul_I
      linear_combination ((s : ℂ) * 6135884649154 / 10 ^ 30) * i2
    rw [e]
    refine (norm_add_le _ _).trans ?_
    rw [norm_mul, Complex.norm_I, mul_one, Complex.norm_real, Complex.norm_real, Real.norm_eq_abs,
      Real.norm_eq_abs, abs_div, abs_div, abs_of_pos (by norm_num : (0 : ℝ) < 10 ^ 30)]
    have h1 : |c * 999981175282601 - s * 6135884649154 - c' * 10 ^ 15| / 10 ^ 30 ≤ 3 / 10 ^ 15 := by
      rw [div_le_iff₀ (by norm_num)]; exact b2.trans (by norm_num)
    have h2 : |s * 999981175282601 + c * 6135884649154 - s' * 10 ^ 15| / 10 ^ 30 ≤ 3 / 10 ^ 15 := by
      rw [div_le_iff₀ (by norm_num)]; exact b1.trans (by norm_num)
    linarith
  · refine (norm_add_le _ _).trans ?_
    rw [norm_mul, Complex.norm_I, mul_one, Complex.norm_real, Complex.norm_real, Real.norm_eq_abs,
      Real.norm_eq_abs, abs_div, abs_div, abs_of_pos (by norm_num : (0 : ℝ) < 10 ^ 15)]
    have h1 : |c| / 10 ^ 15 ≤ 1 := by rw [div_le_one (by norm_num)]; exact b4
    have h2 : |s| / 10 ^ 15 ≤ 1 := by rw [div_le_one (by norm_num)]; exact b3
    linarith

theorem z_close (k : ℕ) (hk : k ≤ 1024) : ‖Complex.exp ((k * θ : ℝ) * I) - z k‖ ≤ k * (1 / 10 ^ 14) := by
  induction k with
  | zero =>
    have : z 0 = 1 := by
      unfold z
      obtain ⟨e1, e2, _, _⟩ := first_entries
      rw [e1, e2]
      norm_num
    rw [this]; simp
  | succ k ih =>
    have ih := ih (by omega)
    obtain ⟨h1, h2⟩ := z_step k (by omega)
    have h3 := exp_θ
    have e : Complex.exp ((((k + 1 : ℕ) : ℝ) * θ : ℝ) * I) - z (k + 1)
        = Complex.exp (θ * I) * (Complex.exp ((k * θ : ℝ) * I) - z k)
          + ((Complex.exp (θ * I) - z 1) * z k + (z k * z 1 - z (k + 1))) := by
      have : Complex.exp ((((k + 1 : ℕ) : ℝ) * θ : ℝ) * I) = Complex.exp (θ * I) * Complex.exp ((k * θ : ℝ) * I) := by
        rw [← Complex.exp_add]; congr 1; push_cast; ring
      rw [this]; ring
    rw [e]
    refine (norm_add_le _ _).trans ?_
    rw [norm_mul, Complex.norm_exp_ofReal_mul_I, one_mul]
    have h4 : ‖(Complex.exp (θ * I) - z 1) * z k + (z k * z 1 - z (k + 1))‖ ≤ 1 / 10 ^ 14 := by
      refine (norm_add_le _ _).trans ?_
      rw [norm_mul]
      have : ‖Complex.exp (θ * I) - z 1‖ * ‖z k‖ ≤ 2 / 10 ^ 15 * 2 := by gcongr
      norm_num at *
      linarith
    have e5 : (((k + 1 : ℕ) : ℝ)) = k + 1 := by push_cast; ring
    rw [e5]
    linarith

theorem table_near (k : ℕ) (hk : k + 1 < table.length) :
    |table[k]| ≤ 10 ^ 15 ∧ |table[k + 1]| ≤ 10 ^ 15 ∧ |table[k + 1] - table[k]| ≤ 62 * 10 ^ 11 := by
  have hs := allOk_get table ctable table_ok k hk (by rw [ctable_length]; rw [table_length] at hk; omega)
  simp only [stepOk, Bool.and_eq_true, decide_eq_true_eq] at hs
  exact ⟨hs.1.1.1.2, hs.1.2, hs.2⟩

/-- Every entry of the table is the sine it stands for, up to `2e-11`. -/
theorem table_sin (k : ℕ) (hk : k < table.length) :
    |((table[k] : ℤ) / 10 ^ 15 : ℝ) - Real.sin (k * (Real.pi / 512))| ≤ 2 / 10 ^ 11 := by
  have hk' : k ≤ 1024 := by rw [table_length] at hk; omega
  have h := z_close k hk'
  have h1 := (Complex.abs_im_le_norm _).trans h
  rw [Complex.sub_im, Complex.exp_ofReal_mul_I_im] at h1
  have hz : (z k).im = ((table[k] : ℤ) / 10 ^ 15 : ℝ) := by
    unfold z
    rw [Complex.add_im, Complex.ofReal_im, Complex.mul_im, Complex.ofReal_re, Complex.ofReal_im, Complex.I_im,
      List.getElem?_eq_getElem hk, Option.getD_some]
    ring
  rw [hz, abs_sub_comm] at h1
  unfold θ at h1
  refine h1.trans ?_
  have : (k : ℝ) ≤ 1024 := by exact_mod_cast hk'
  norm_num
  linarith

end SinTable
end Verif
