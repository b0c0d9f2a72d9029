import Verif.Model.FastMath
import Verif.Model.Envelope
import Verif.Proof.FloatErr
import Mathlib.Analysis.SpecialFunctions.Exp
import Mathlib.Analysis.Complex.Exponential
/-!
# C85: accuracy of the Taylor approximations `fast_exp3` to `fast_exp9`

Specification: `Real.exp`.
-/
namespace Verif
open Rounding
namespace FastMath

/-- `x * (c₀ + x * (c₁ + ... ))` with every operation rounded; the innermost factor of `x` is 1. -/
def horner (x : ℚ) : List ℚ → ℚ
  | [] => x
  | c :: cs => fl32 (x * fl32 (c + horner x cs))

/-- The same, exactly. -/
noncomputable def hornerR (x : ℝ) : List ℚ → ℝ
  | [] => x
  | c :: cs => x * (c + hornerR x cs)

theorem hornerR_abs (x : ℝ) (h : |x| ≤ 1) (cs : List ℚ) (hc : ∀ c ∈ cs, 0 ≤ c) : |hornerR x cs| ≤ 1 + (cs.sum : ℚ) := by
  induction cs with
  | nil => simpa [hornerR] using h
  | cons c cs ih =>
    have ih := ih (fun c hc' => hc c (List.mem_cons_of_mem _ hc'))
    have hc0 : (0 : ℝ) ≤ c := by exact_mod_cast hc c List.mem_cons_self
    simp only [hornerR, List.sum_cons, abs_mul]
    have h1 : |(c : ℝ) + hornerR x cs| ≤ c + (1 + (cs.sum : ℚ)) := by
      refine (abs_add_le _ _).trans ?_
      rw [abs_of_nonneg hc0]; linarith
    calc |x| * |(c : ℝ) + hornerR x cs| ≤ 1 * (c + (1 + (cs.sum : ℚ))) := mul_le_mul h h1 (abs_nonneg _) (by norm_num)
      _ = _ := by push_cast; ring

/-- The rounding error of the Horner scheme. -/
theorem horner_err (x : ℚ) (h : |(x : ℝ)| ≤ 1) (cs : List ℚ) (hc : ∀ c ∈ cs, 0 ≤ c) (hl : cs.length ≤ 20) :
    |((horner x cs : ℚ) : ℝ) - hornerR x cs| ≤ cs.length * (1 + (cs.sum : ℚ)) * (21 / 10 / 2 ^ 24) := by
  induction cs with
  | nil => simp [horner, hornerR]
  | cons c cs ih =>
    have hl' : cs.length ≤ 19 := by simp only [List.length_cons] at hl; omega
    have ih := ih (fun c hc' => hc c (List.mem_cons_of_mem _ hc')) (by omega)
    have hb := hornerR_abs x h cs (fun c hc' => hc c (List.mem_cons_of_mem _ hc'))
    have hc0 : (0 : ℝ) ≤ c := by exact_mod_cast hc c List.mem_cons_self
    have hs0 : (0 : ℝ) ≤ (cs.sum : ℚ) := by
      exact_mod_cast List.sum_nonneg (fun c hc' => hc c (List.mem_cons_of_mem _ hc'))
    have hln : (cs.length : ℝ) ≤ 19 := by exact_mod_cast hl'
    have hl0 : (0 : ℝ) ≤ cs.length := by positivity
    simp only [horner, hornerR, List.sum_cons, List.length_cons, Rat.cast_add, Nat.cast_add, Nat.cast_one]
    generalize ((cs.sum : ℚ) : ℝ) = s at *
    generalize (cs.length : ℝ) = n at *
    set S : ℝ := 1 + (c + s) with hS
    have hS1 : 1 ≤ S := by linarith
    have e0 : n * (1 + s) * (21 / 10 / 2 ^ 24) ≤ n * S * (21 / 10 / 2 ^ 24) :=
      mul_le_mul_of_nonneg_right (mul_le_mul_of_nonneg_left (by linarith) hl0) (by norm_num)
    have e1 := ih.trans e0
    have hnS : n * S ≤ 19 * S := mul_le_mul_of_nonneg_right hln (by linarith)
    have hcc : |((c : ℚ) : ℝ) - c| ≤ 0 := by simp
    have hsum : |(c : ℝ) + hornerR x cs| ≤ S := by
      refine (abs_add_le _ _).trans ?_
      rw [abs_of_nonneg hc0]; linarith
    have a1 := FloatErr.add hcc e1 (S := S) (e := n * S * (21 / 10 / 2 ^ 24) + 101 / 100 * S / 2 ^ 24) hsum (by
      have : (1 : ℝ) / 2 ^ 149 ≤ 1 / 1000 / 2 ^ 24 := by norm_num
      have : (n * S * (21 / 10 / 2 ^ 24)) / 2 ^ 24 ≤ 1 / 1000 * S / 2 ^ 24 := by
        rw [div_le_div_iff_of_pos_right (by norm_num)]
        calc n * S * (21 / 10 / 2 ^ 24) ≤ 19 * S * (21 / 10 / 2 ^ 24) := mul_le_mul_of_nonneg_right hnS (by norm_num)
          _ = S * (19 * (21 / 10 / 2 ^ 24)) := by ring
          _ ≤ S * (1 / 1000) := mul_le_mul_of_nonneg_left (by norm_num) (by linarith)
          _ = _ := by ring
      have : (S + (0 + n * S * (21 / 10 / 2 ^ 24))) / 2 ^ 24 = S / 2 ^ 24 + (n * S * (21 / 10 / 2 ^ 24)) / 2 ^ 24 := by ring
      have : (1 : ℝ) / 1000 / 2 ^ 24 ≤ 1 / 1000 * S / 2 ^ 24 := by
        rw [div_le_div_iff_of_pos_right (by norm_num)]; linarith
      linarith [show 101 / 100 * S / 2 ^ 24 = S / 2 ^ 24 + 10 * (1 / 1000 * S / 2 ^ 24) by ring,
        show 0 ≤ 1 / 1000 * S / 2 ^ 24 by positivity])
    have hxx : |(x : ℝ) - x| ≤ 0 := by simp
    refine FloatErr.mul hxx a1 h hsum ?_
    have b1 : (1 : ℝ) / 2 ^ 149 ≤ 1 / 1000 * S / 2 ^ 24 := by
      have : (1 : ℝ) / 2 ^ 149 ≤ 1 / 1000 / 2 ^ 24 := by norm_num
      refine this.trans ?_
      rw [div_le_div_iff_of_pos_right (by norm_num)]; linarith
    have b2 : (n * S * (21 / 10 / 2 ^ 24) + 101 / 100 * S / 2 ^ 24) / 2 ^ 24 ≤ 1 / 1000 * S / 2 ^ 24 := by
      rw [div_le_div_iff_of_pos_right (by norm_num)]
      calc n * S * (21 / 10 / 2 ^ 24) + 101 / 100 * S / 2 ^ 24
          ≤ 19 * S * (21 / 10 / 2 ^ 24) + 101 / 100 * S / 2 ^ 24 := by
            have := mul_le_mul_of_nonneg_right hnS (show (0 : ℝ) ≤ 21 / 10 / 2 ^ 24 by norm_num)
            linarith
        _ = S * (19 * (21 / 10 / 2 ^ 24) + 101 / 100 / 2 ^ 24) := by ring
        _ ≤ S * (1 / 1000) := mul_le_mul_of_nonneg_left (by norm_num) (by linarith)
        _ = _ := by ring
    have b3 : (1 + 0) * (S + (n * S * (21 / 10 / 2 ^ 24) + 101 / 100 * S / 2 ^ 24)) / 2 ^ 24
        = S / 2 ^ 24 + (n * S * (21 / 10 / 2 ^ 24) + 101 / 100 * S / 2 ^ 24) / 2 ^ 24 := by ring
    rw [b3]
    have b4 : (n + 1) * S * (21 / 10 / 2 ^ 24) = n * S * (21 / 10 / 2 ^ 24) + 21 / 10 * (S / 2 ^ 24) := by ring
    rw [b4]
    have b5 : 101 / 100 * S / 2 ^ 24 = 101 / 100 * (S / 2 ^ 24) := by ring
    have b6 : 1 / 1000 * S / 2 ^ 24 = 1 / 1000 * (S / 2 ^ 24) := by ring
    have b7 : 0 ≤ S / 2 ^ 24 := by positivity
    rw [b6] at b1 b2
    rw [b5] at b2 ⊢
    linarith

/-- Horner scheme, final addition and scaling together. -/
theorem exp_err (x : ℚ) (h : |(x : ℝ)| ≤ 1) (c l : ℚ) (cs : List ℚ) (N : ℝ) (n : ℕ) (hn : cs.length + 1 = n) (hn9 : n ≤ 9)
    (hc : ∀ c' ∈ c :: cs, 0 ≤ c') (hN : 1 ≤ N) (hsum : 1 + (((c :: cs).sum : ℚ) : ℝ) ≤ 272 / 100 * N)
    (hlit : |(l : ℝ) - 1 / N| ≤ 1 / 10 ^ 7 / N) (hN6 : N ≤ 10 ^ 6) (p : ℝ) (hp : (c + hornerR x cs) / N = p) :
    |((fl32 (fl32 (c + horner x cs) * fl32 l) : ℚ) : ℝ) - p| ≤ 4 / 10 ^ 6 := by
  have hN0 : 0 < N := by linarith
  have hl2 := horner_err x h cs (fun c' h' => hc c' (List.mem_cons_of_mem _ h')) (by omega)
  have hb := hornerR_abs x h cs (fun c' h' => hc c' (List.mem_cons_of_mem _ h'))
  have hc0 : (0 : ℝ) ≤ c := by exact_mod_cast hc c List.mem_cons_self
  have hs0 : (0 : ℝ) ≤ (cs.sum : ℚ) := by
    exact_mod_cast List.sum_nonneg (fun c' h' => hc c' (List.mem_cons_of_mem _ h'))
  have hlen : (cs.length : ℝ) ≤ 8 := by
    have : cs.length ≤ 8 := by omega
    exact_mod_cast this
  rw [List.sum_cons, Rat.cast_add] at hsum
  have e1 : |((horner x cs : ℚ) : ℝ) - hornerR x cs| ≤ N * (28 / 10 ^ 7) := by
    refine hl2.trans ?_
    calc (cs.length : ℝ) * (1 + (cs.sum : ℚ)) * (21 / 10 / 2 ^ 24) ≤ 8 * (272 / 100 * N) * (21 / 10 / 2 ^ 24) := by
          refine mul_le_mul_of_nonneg_right (mul_le_mul hlen (by linarith) (by linarith) (by norm_num)) (by norm_num)
      _ = N * (8 * (272 / 100) * (21 / 10 / 2 ^ 24)) := by ring
      _ ≤ _ := mul_le_mul_of_nonneg_left (by norm_num) hN0.le
  -- scale by `N`
  have hA : |(c : ℝ) + hornerR x cs| ≤ 272 / 100 * N := by
    refine (abs_add_le _ _).trans ?_
    rw [abs_of_nonneg hc0]; linarith
  have a1 := FloatErr.add (ah := c) (a := c) (ea := 0) (by simp) e1 (S := 272 / 100 * N) (e := N * (297 / 10 ^ 8)) hA (by
    have : (1 : ℝ) / 2 ^ 149 ≤ N * (1 / 10 ^ 12) := by
      calc (1 : ℝ) / 2 ^ 149 ≤ 1 * (1 / 10 ^ 12) := by norm_num
        _ ≤ _ := mul_le_mul_of_nonneg_right hN (by norm_num)
    have e : (272 / 100 * N + (0 + N * (28 / 10 ^ 7))) / 2 ^ 24 = N * ((272 / 100 + 28 / 10 ^ 7) / 2 ^ 24) := by ring
    rw [e]
    have : N * ((272 / 100 + 28 / 10 ^ 7) / 2 ^ 24) ≤ N * (165 / 10 ^ 9) := mul_le_mul_of_nonneg_left (by norm_num) hN0.le
    linarith)
  obtain ⟨m, hm, hNm, hm0⟩ : ∃ m : ℝ, m = 1 / N ∧ N * m = 1 ∧ 0 < m := ⟨1 / N, rfl, by field_simp, by positivity⟩
  have hmlo : 1 / 10 ^ 6 ≤ m := by
    rw [hm]; exact one_div_le_one_div_of_le hN0 hN6
  rw [← hm, show 1 / 10 ^ 7 / N = 1 / 10 ^ 7 * (1 / N) by ring, ← hm] at hlit
  have hla : |(l : ℝ)| ≤ 2 * m := by
    have h2 := abs_le.1 hlit
    rw [abs_le]; constructor <;> linarith
  have tiny : (1 : ℝ) / 2 ^ 149 ≤ m * (1 / 10 ^ 10) := by
    calc (1 : ℝ) / 2 ^ 149 ≤ 1 / 10 ^ 6 * (1 / 10 ^ 10) := by norm_num
      _ ≤ _ := mul_le_mul_of_nonneg_right hmlo (by norm_num)
  have l1 := FloatErr.lit hlit hla (e := m * (23 / 10 ^ 8)) (by
    have : 2 * m / 2 ^ 24 ≤ m * (12 / 10 ^ 8) := by
      rw [show 2 * m / 2 ^ 24 = m * (2 / 2 ^ 24) by ring]; exact mul_le_mul_of_nonneg_left (by norm_num) hm0.le
    linarith)
  have M := FloatErr.mul a1 l1 hA (B := m) (e := 4 / 10 ^ 6) (abs_of_pos hm0).le (by
    have e : 272 / 100 * N * (m * (23 / 10 ^ 8)) + m * (N * (297 / 10 ^ 8)) + N * (297 / 10 ^ 8) * (m * (23 / 10 ^ 8)) +
        ((272 / 100 * N + N * (297 / 10 ^ 8)) * (m + m * (23 / 10 ^ 8)) / 2 ^ 24 + 1 / 2 ^ 149)
        = N * m * (272 / 100 * (23 / 10 ^ 8) + 297 / 10 ^ 8 + 297 / 10 ^ 8 * (23 / 10 ^ 8)
          + (272 / 100 + 297 / 10 ^ 8) * (1 + 23 / 10 ^ 8) / 2 ^ 24) + 1 / 2 ^ 149 := by ring
    rw [e, hNm]
    norm_num)
  rw [← hp, div_eq_mul_one_div, ← hm]
  exact M

/-- The remainder of the Taylor series, from Mathlib. -/
theorem taylor_rem (x : ℝ) (h : |x| ≤ 1) (n : ℕ) (hn : 0 < n) (p e : ℝ) (hp : ∑ m ∈ Finset.range n, x ^ m / m.factorial = p)
    (he : ((n.succ : ℝ) / (n.factorial * n)) = e) : |p - Real.exp x| ≤ e * |x| ^ n := by
  have := Real.exp_bound h hn
  rw [hp] at this
  rw [abs_sub_comm, mul_comm, ← he]
  exact this

end FastMath
open FastMath

/-- **C85** `fast_exp3`: for every `|x| ≤ 1` within `5/96 |x|^4` (the remainder of the Taylor series) plus 4e-6 (rounding) of
the exponential. -/
theorem C85_exp3 (x : ℚ) (h : |(x : ℝ)| ≤ 1) :
    |((exp3 fl32 x : ℚ) : ℝ) - Real.exp x| ≤ 5 / 96 * |(x : ℝ)| ^ 4 + 4 / 10 ^ 6 := by
  have e1 := exp_err x h 6 (16666666 / 10 ^ 8) [6, 3] 6 3 rfl (by norm_num)
    (by simp) (by norm_num) (by norm_num) (by push_cast; rw [abs_le]; constructor <;> norm_num) (by norm_num) _ rfl
  have e2 := taylor_rem x h 4 (by norm_num) _ (5 / 96) rfl (by norm_num [Nat.factorial])
  have e3 : ((6 : ℚ) + hornerR x [6, 3]) / 6 = ∑ m ∈ Finset.range 4, (x : ℝ) ^ m / m.factorial := by
    simp only [hornerR, Finset.sum_range_succ, Finset.sum_range_zero, Nat.factorial]
    push_cast
    ring
  rw [e3] at e1
  have e4 := abs_sub_le ((exp3 fl32 x : ℚ) : ℝ) (∑ m ∈ Finset.range 4, (x : ℝ) ^ m / m.factorial) (Real.exp x)
  have e5 : |((exp3 fl32 x : ℚ) : ℝ) - ∑ m ∈ Finset.range 4, (x : ℝ) ^ m / m.factorial| ≤ 4 / 10 ^ 6 := e1
  linarith

/-- **C85** `fast_exp4`: for every `|x| ≤ 1` within `1/100 |x|^5` (the remainder of the Taylor series) plus 4e-6 (rounding) of
the exponential. -/
theorem C85_exp4 (x : ℚ) (h : |(x : ℝ)| ≤ 1) :
    |((exp4 fl32 x : ℚ) : ℝ) - Real.exp x| ≤ 1 / 100 * |(x : ℝ)| ^ 5 + 4 / 10 ^ 6 := by
  have e1 := exp_err x h 24 (41666666 / 10 ^ 9) [24, 12, 4] 24 4 rfl (by norm_num)
    (by simp) (by norm_num) (by norm_num) (by push_cast; rw [abs_le]; constructor <;> norm_num) (by norm_num) _ rfl
  have e2 := taylor_rem x h 5 (by norm_num) _ (1 / 100) rfl (by norm_num [Nat.factorial])
  have e3 : ((24 : ℚ) + hornerR x [24, 12, 4]) / 24 = ∑ m ∈ Finset.range 5, (x : ℝ) ^ m / m.factorial := by
    simp only [hornerR, Finset.sum_range_succ, Finset.sum_range_zero, Nat.factorial]
    push_cast
    ring
  rw [e3] at e1
  have e4 := abs_sub_le ((exp4 fl32 x : ℚ) : ℝ) (∑ m ∈ Finset.range 5, (x : ℝ) ^ m / m.factorial) (Real.exp x)
  have e5 : |((exp4 fl32 x : ℚ) : ℝ) - ∑ m ∈ Finset.range 5, (x : ℝ) ^ m / m.factorial| ≤ 4 / 10 ^ 6 := e1
  linarith

/-- **C85** `fast_exp5`: for every `|x| ≤ 1` within `7/4320 |x|^6` (the remainder of the Taylor series) plus 4e-6 (rounding) of
the exponential. -/
theorem C85_exp5 (x : ℚ) (h : |(x : ℝ)| ≤ 1) :
    |((exp5 fl32 x : ℚ) : ℝ) - Real.exp x| ≤ 7 / 4320 * |(x : ℝ)| ^ 6 + 4 / 10 ^ 6 := by
  have e1 := exp_err x h 120 (83333333 / 10 ^ 10) [120, 60, 20, 5] 120 5 rfl (by norm_num)
    (by simp) (by norm_num) (by norm_num) (by push_cast; rw [abs_le]; constructor <;> norm_num) (by norm_num) _ rfl
  have e2 := taylor_rem x h 6 (by norm_num) _ (7 / 4320) rfl (by norm_num [Nat.factorial])
  have e3 : ((120 : ℚ) + hornerR x [120, 60, 20, 5]) / 120 = ∑ m ∈ Finset.range 6, (x : ℝ) ^ m / m.factorial := by
    simp only [hornerR, Finset.sum_range_succ, Finset.sum_range_zero, Nat.factorial]
    push_cast
    ring
  rw [e3] at e1
  have e4 := abs_sub_le ((exp5 fl32 x : ℚ) : ℝ) (∑ m ∈ Finset.range 6, (x : ℝ) ^ m / m.factorial) (Real.exp x)
  have e5 : |((exp5 fl32 x : ℚ) : ℝ) - ∑ m ∈ Finset.range 6, (x : ℝ) ^ m / m.factorial| ≤ 4 / 10 ^ 6 := e1
  linarith

/-- **C85** `fast_exp6`: for every `|x| ≤ 1` within `1/4410 |x|^7` (the remainder of the Taylor series) plus 4e-6 (rounding) of
the exponential. -/
theorem C85_exp6 (x : ℚ) (h : |(x : ℝ)| ≤ 1) :
    |((exp6 fl32 x : ℚ) : ℝ) - Real.exp x| ≤ 1 / 4410 * |(x : ℝ)| ^ 7 + 4 / 10 ^ 6 := by
  have e1 := exp_err x h 720 (13888888 / 10 ^ 10) [720, 360, 120, 30, 6] 720 6 rfl (by norm_num)
    (by simp) (by norm_num) (by norm_num) (by push_cast; rw [abs_le]; constructor <;> norm_num) (by norm_num) _ rfl
  have e2 := taylor_rem x h 7 (by norm_num) _ (1 / 4410) rfl (by norm_num [Nat.factorial])
  have e3 : ((720 : ℚ) + hornerR x [720, 360, 120, 30, 6]) / 720 = ∑ m ∈ Finset.range 7, (x : ℝ) ^ m / m.factorial := by
    simp only [hornerR, Finset.sum_range_succ, Finset.sum_range_zero, Nat.factorial]
    push_cast
    ring
  rw [e3] at e1
  have e4 := abs_sub_le ((exp6 fl32 x : ℚ) : ℝ) (∑ m ∈ Finset.range 7, (x : ℝ) ^ m / m.factorial) (Real.exp x)
  have e5 : |((exp6 fl32 x : ℚ) : ℝ) - ∑ m ∈ Finset.range 7, (x : ℝ) ^ m / m.factorial| ≤ 4 / 10 ^ 6 := e1
  linarith

/-- **C85** `fast_exp7`: for every `|x| ≤ 1` within `1/35840 |x|^8` (the remainder of the Taylor series) plus 4e-6 (rounding) of
the exponential. -/
theorem C85_exp7 (x : ℚ) (h : |(x : ℝ)| ≤ 1) :
    |((exp7 fl32 x : ℚ) : ℝ) - Real.exp x| ≤ 1 / 35840 * |(x : ℝ)| ^ 8 + 4 / 10 ^ 6 := by
  have e1 := exp_err x h 5040 (19841269 / 10 ^ 11) [5040, 2520, 840, 210, 42, 7] 5040 7 rfl (by norm_num)
    (by simp) (by norm_num) (by norm_num) (by push_cast; rw [abs_le]; constructor <;> norm_num) (by norm_num) _ rfl
  have e2 := taylor_rem x h 8 (by norm_num) _ (1 / 35840) rfl (by norm_num [Nat.factorial])
  have e3 : ((5040 : ℚ) + hornerR x [5040, 2520, 840, 210, 42, 7]) / 5040 = ∑ m ∈ Finset.range 8, (x : ℝ) ^ m / m.factorial := by
    simp only [hornerR, Finset.sum_range_succ, Finset.sum_range_zero, Nat.factorial]
    push_cast
    ring
  rw [e3] at e1
  have e4 := abs_sub_le ((exp7 fl32 x : ℚ) : ℝ) (∑ m ∈ Finset.range 8, (x : ℝ) ^ m / m.factorial) (Real.exp x)
  have e5 : |((exp7 fl32 x : ℚ) : ℝ) - ∑ m ∈ Finset.range 8, (x : ℝ) ^ m / m.factorial| ≤ 4 / 10 ^ 6 := e1
  linarith

/-- **C85** `fast_exp8`: for every `|x| ≤ 1` within `1/326592 |x|^9` (the remainder of the Taylor series) plus 4e-6 (rounding) of
the exponential. -/
theorem C85_exp8 (x : ℚ) (h : |(x : ℝ)| ≤ 1) :
    |((exp8 fl32 x : ℚ) : ℝ) - Real.exp x| ≤ 1 / 326592 * |(x : ℝ)| ^ 9 + 4 / 10 ^ 6 := by
  have e1 := exp_err x h 40320 (24801587301 / 10 ^ 15) [40320, 20160, 6720, 1680, 336, 56, 8] 40320 8 rfl (by norm_num)
    (by simp) (by norm_num) (by norm_num) (by push_cast; rw [abs_le]; constructor <;> norm_num) (by norm_num) _ rfl
  have e2 := taylor_rem x h 9 (by norm_num) _ (1 / 326592) rfl (by norm_num [Nat.factorial])
  have e3 : ((40320 : ℚ) + hornerR x [40320, 20160, 6720, 1680, 336, 56, 8]) / 40320 = ∑ m ∈ Finset.range 9, (x : ℝ) ^ m / m.factorial := by
    simp only [hornerR, Finset.sum_range_succ, Finset.sum_range_zero, Nat.factorial]
    push_cast
    ring
  rw [e3] at e1
  have e4 := abs_sub_le ((exp8 fl32 x : ℚ) : ℝ) (∑ m ∈ Finset.range 9, (x : ℝ) ^ m / m.factorial) (Real.exp x)
  have e5 : |((exp8 fl32 x : ℚ) : ℝ) - ∑ m ∈ Finset.range 9, (x : ℝ) ^ m / m.factorial| ≤ 4 / 10 ^ 6 := e1
  linarith

/-- **C85** `fast_exp9`: for every `|x| ≤ 1` within `11/36288000 |x|^10` (the remainder of the Taylor series) plus 4e-6 (rounding) of
the exponential. -/
theorem C85_exp9 (x : ℚ) (h : |(x : ℝ)| ≤ 1) :
    |((exp9 fl32 x : ℚ) : ℝ) - Real.exp x| ≤ 11 / 36288000 * |(x : ℝ)| ^ 10 + 4 / 10 ^ 6 := by
  have e1 := exp_err x h 362880 (275573192 / 10 ^ 14) [362880, 181440, 60480, 15120, 3024, 504, 72, 9] 362880 9 rfl (by norm_num)
    (by simp) (by norm_num) (by norm_num) (by push_cast; rw [abs_le]; constructor <;> norm_num) (by norm_num) _ rfl
  have e2 := taylor_rem x h 10 (by norm_num) _ (11 / 36288000) rfl (by norm_num [Nat.factorial])
  have e3 : ((362880 : ℚ) + hornerR x [362880, 181440, 60480, 15120, 3024, 504, 72, 9]) / 362880 = ∑ m ∈ Finset.range 10, (x : ℝ) ^ m / m.factorial := by
    simp only [hornerR, Finset.sum_range_succ, Finset.sum_range_zero, Nat.factorial]
    push_cast
    ring
  rw [e3] at e1
  have e4 := abs_sub_le ((exp9 fl32 x : ℚ) : ℝ) (∑ m ∈ Finset.range 10, (x : ℝ) ^ m / m.factorial) (Real.exp x)
  have e5 : |((exp9 fl32 x : ℚ) : ℝ) - ∑ m ∈ Finset.range 10, (x : ℝ) ^ m / m.factorial| ≤ 4 / 10 ^ 6 := e1
  linarith

/-- The approximation the envelopes use (`Model/Envelope.lean`) is the same function. -/
theorem C85_same (fl : ℚ → ℚ) (x : ℚ) : exp3 fl x = Env.fastExp3 fl x := rfl

example : |((-1 / 2 : ℚ) : ℝ)| ≤ 1 := by norm_num

end Verif
