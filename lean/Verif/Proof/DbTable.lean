import Verif.Model.DbTable
import Mathlib.Analysis.Complex.ExponentialBounds
import Mathlib.Analysis.SpecialFunctions.Log.Base
import Mathlib.Analysis.SpecialFunctions.Pow.Real
import Mathlib.Tactic.NormNum
import Mathlib.Tactic.IntervalCases
/-!
# The decibel tables contain logarithms and powers

Every entry of the tables is close to the number it stands for.  The differences of neighbouring entries of the first
table agree with `20 log10 ((n+1)/n)` (series of the inverse hyperbolic tangent; checked by the kernel on the integers
of the table); the other two tables agree with the first up to multiples of its entry for 2; neighbouring entries of
the inverse table have the ratio `10^(1/200)`.
-/
namespace Verif
namespace DbTable

/-- The literals in the source. -/
def lit0 (k : ℕ) : ℚ := (table0[k]?.getD 0 : ℤ) / 10 ^ 15
def lit1 (k : ℕ) : ℚ := (table1[k]?.getD 0 : ℤ) / 10 ^ 15
def lit2 (k : ℕ) : ℚ := (table2[k]?.getD 0 : ℤ) / 10 ^ 15
def litInv (k : ℕ) : ℚ := (invTable[k]?.getD 0 : ℤ) / 10 ^ 15

theorem lengths : table0.length = 1024 ∧ table1.length = 1024 ∧ table2.length = 1024 ∧ invTable.length = 1201 := by
  decide +kernel

/-- Amplitude to decibel, mathematically: `20 log10 x`. -/
noncomputable def dB (x : ℝ) : ℝ := 20 * Real.logb 10 x

/-- rational approximation of `20 / log 10`, times `10^15` -/
def Cst : ℤ := 8685889638065037

/-- One difference of the first table. -/
def inc (x y : ℤ) (N : ℤ) : Bool :=
  decide (|15 * N ^ 5 * (y - x) - Cst * 2 * (15 * N ^ 4 + 5 * N ^ 2 + 3)| ≤ 8 * 15 * N ^ 5)

/-- All differences of a list. -/
def incs : ℤ → List ℤ → Bool
  | N, x :: y :: t => inc x y N && incs (N + 2) (y :: t)
  | _, _ => true

theorem incs_ok : incs 257 table0 = true := by decide +kernel

theorem incs_get : ∀ (l : List ℤ) (N : ℤ), incs N l = true → ∀ k, k + 1 < l.length →
    inc (l[k]?.getD 0) (l[k + 1]?.getD 0) (N + 2 * k) = true
  | [], _, _, k, h => by simp at h
  | [_], _, _, k, h => by simp at h
  | x :: y :: t, N, h, k, hk => by
    simp only [incs, Bool.and_eq_true] at h
    cases k with
    | zero => simpa using h.1
    | succ k =>
      have := incs_get (y :: t) (N + 2) h.2 k (by simpa using hk)
      have e : N + 2 * ((k + 1 : ℕ) : ℤ) = N + 2 + 2 * k := by push_cast; ring
      rw [e]
      simpa using this

theorem first0 : table0[0]? = some 0 := by decide +kernel

theorem log_step (n : ℝ) (hn : 128 ≤ n) :
    |Real.log ((n + 1) / n) - 2 * (1 / (2 * n + 1) + (1 / (2 * n + 1)) ^ 3 / 3 + (1 / (2 * n + 1)) ^ 5 / 5)|
      ≤ 1 / 10 ^ 16 := by
  set u := 1 / (2 * n + 1) with hu
  have u0 : 0 < u := by rw [hu]; positivity
  have u1 : u ≤ 1 / 257 := by rw [hu]; apply one_div_le_one_div_of_le <;> linarith
  have e : (1 + u) / (1 - u) = (n + 1) / n := by
    have h1 : (2 * n + 1) ≠ 0 := by linarith
    have h2 : n ≠ 0 := by linarith
    have h3 : 1 - u ≠ 0 := by linarith
    rw [div_eq_div_iff h3 h2, hu]
    field_simp
    ring
  have lo := Real.sum_range_le_log_div u0.le (by linarith) 3
  have hi := Real.log_div_le_sum_range_add u0.le (by linarith) 3
  rw [e] at lo hi
  simp only [Finset.sum_range_succ, Finset.range_zero, Finset.sum_empty] at lo hi
  norm_num at lo hi
  have r : u ^ 7 / (1 - u ^ 2) ≤ 1 / (2 * 10 ^ 16) := by
    have a : u ^ 2 ≤ (1 / 257) ^ 2 := pow_le_pow_left₀ u0.le u1 2
    have b : u ^ 7 ≤ (1 / 257) ^ 7 := pow_le_pow_left₀ u0.le u1 7
    rw [div_le_iff₀ (by linarith)]
    have : (1 / 257 : ℝ) ^ 7 ≤ 1 / (2 * 10 ^ 16) * (1 - (1 / 257) ^ 2) := by norm_num
    nlinarith
  rw [abs_le]
  constructor <;> linarith

theorem log_ten_bounds : 2.3025850926 < Real.log 10 ∧ Real.log 10 < 2.3025850934 := by
  rw [Real.log_ten_eq]
  have := Real.log_two_gt_d9
  have := Real.log_two_lt_d9
  have := Real.log_five_gt_d9
  have := Real.log_five_lt_d9
  constructor <;> linarith

theorem cst_close : |20 / Real.log 10 - (Cst : ℝ) / 10 ^ 15| ≤ 3 / 10 ^ 9 := by
  obtain ⟨h1, h2⟩ := log_ten_bounds
  have p : 0 < Real.log 10 := by linarith
  unfold Cst
  rw [abs_le]
  constructor
  · rw [neg_le_sub_iff_le_add, ← sub_le_iff_le_add, le_div_iff₀ p]
    push_cast
    nlinarith
  · rw [sub_le_iff_le_add, div_le_iff₀ p]
    push_cast
    nlinarith

theorem dB_eq (x : ℝ) : dB x = 20 / Real.log 10 * Real.log x := by
  unfold dB Real.logb; ring

theorem near0_aux (k : ℕ) (hk : k < 1024) :
    |(lit0 k : ℝ) - (Cst : ℝ) / 10 ^ 15 * Real.log (1 + k / 128)| ≤ (k : ℝ) / 10 ^ 14 := by
  induction k with
  | zero => simp [lit0, first0]
  | succ k ih =>
    replace ih := ih (by omega)
    have hi := incs_get table0 257 incs_ok k (by rw [lengths.1]; omega)
    have ls := log_step (128 + k) (by have : (0 : ℝ) ≤ k := by positivity
                                      linarith)
    have eln : Real.log ((128 + (k : ℝ) + 1) / (128 + k))
        = Real.log (1 + ((k + 1 : ℕ) : ℝ) / 128) - Real.log (1 + k / 128) := by
      rw [← Real.log_div (by positivity) (by positivity)]
      congr 1
      have : (128 + (k : ℝ)) ≠ 0 := by positivity
      have : (1 + (k : ℝ) / 128) ≠ 0 := by positivity
      push_cast
      field_simp
      ring
    rw [eln] at ls
    simp only [inc, decide_eq_true_eq] at hi
    unfold lit0 at ih ⊢
    generalize table0[k]?.getD 0 = x at *
    generalize table0[k + 1]?.getD 0 = y at *
    have hi' : |15 * (257 + 2 * (k : ℝ)) ^ 5 * (y - x)
        - Cst * 2 * (15 * (257 + 2 * (k : ℝ)) ^ 4 + 5 * (257 + 2 * (k : ℝ)) ^ 2 + 3)| ≤ 8 * 15 * (257 + 2 * (k : ℝ)) ^ 5 := by
      exact_mod_cast hi
    have eN : 2 * (128 + (k : ℝ)) + 1 = 257 + 2 * k := by ring
    rw [eN] at ls
    have Np : 0 < 257 + 2 * (k : ℝ) := by positivity
    generalize (257 + 2 * (k : ℝ)) = N at *
    have key : |((y : ℝ) - x) - Cst * (2 * (1 / N + (1 / N) ^ 3 / 3 + (1 / N) ^ 5 / 5))| ≤ 8 := by
      have e1 : ((y : ℝ) - x) - Cst * (2 * (1 / N + (1 / N) ^ 3 / 3 + (1 / N) ^ 5 / 5))
          = (15 * N ^ 5 * (y - x) - Cst * 2 * (15 * N ^ 4 + 5 * N ^ 2 + 3)) / (15 * N ^ 5) := by
        field_simp
        ring
      rw [e1, abs_div, abs_of_pos (by positivity : 0 < 15 * N ^ 5), div_le_iff₀ (by positivity)]
      linarith
    generalize 2 * (1 / N + (1 / N) ^ 3 / 3 + (1 / N) ^ 5 / 5) = s at *
    generalize Real.log (1 + ((k + 1 : ℕ) : ℝ) / 128) = l2 at *
    generalize Real.log (1 + (k : ℝ) / 128) = l1 at *
    push_cast
    rw [abs_le] at key ih ls ⊢
    have cp : (Cst : ℝ) = 8685889638065037 := by norm_num [Cst]
    rw [cp] at key ih ⊢
    obtain ⟨k1, k2⟩ := key
    obtain ⟨i1, i2⟩ := ih
    obtain ⟨j1, j2⟩ := ls
    push_cast at i1 i2
    rw [add_div]
    constructor <;> linarith

theorem log_nine : Real.log 9 ≤ 2.2 := by
  have : Real.log 9 = 2 * Real.log 3 := by
    rw [show (9 : ℝ) = 3 ^ 2 by norm_num, Real.log_pow]; norm_num
  have := Real.log_three_lt_d9
  linarith

/-- The first table: `20 log10 (1 + k/128)`. -/
theorem near0 (k : ℕ) (hk : k < 1024) : |(lit0 k : ℝ) - dB (1 + k / 128)| ≤ 2 / 10 ^ 8 := by
  have h := near0_aux k hk
  have hc := cst_close
  have k0 : (0 : ℝ) ≤ k := by positivity
  have k1 : (k : ℝ) ≤ 1024 := by exact_mod_cast hk.le
  have l0 : 0 ≤ Real.log (1 + (k : ℝ) / 128) := Real.log_nonneg (by linarith [div_nonneg k0 (by norm_num : (0 : ℝ) ≤ 128)])
  have l1 : Real.log (1 + (k : ℝ) / 128) ≤ 2.2 := by
    refine le_trans (Real.log_le_log (by positivity) ?_) log_nine
    linarith
  rw [dB_eq]
  generalize Real.log (1 + (k : ℝ) / 128) = l at *
  generalize (lit0 k : ℝ) = x at *
  generalize 20 / Real.log 10 = c at *
  have e : x - c * l = (x - Cst / 10 ^ 15 * l) - (c - Cst / 10 ^ 15) * l := by ring
  have b : |(c - Cst / 10 ^ 15) * l| ≤ 3 / 10 ^ 9 * 2.2 := by
    rw [abs_mul, abs_of_nonneg l0]
    exact mul_le_mul hc l1 l0 (by norm_num)
  rw [e]
  refine (abs_sub _ _).trans ?_
  have : (k : ℝ) / 10 ^ 14 ≤ 1024 / 10 ^ 14 := by gcongr
  norm_num at *
  linarith

/-- A relation holds between the corresponding elements of two lists. -/
def zipOk (f : ℤ → ℤ → Bool) : List ℤ → List ℤ → Bool
  | x :: l, y :: m => f x y && zipOk f l m
  | _, _ => true

theorem zipOk_get (f : ℤ → ℤ → Bool) : ∀ (l m : List ℤ), zipOk f l m = true → ∀ k, k < l.length → k < m.length →
    f (l[k]?.getD 0) (m[k]?.getD 0) = true
  | [], _, _, k, h, _ => by simp at h
  | _ :: _, [], _, k, _, h => by simp at h
  | x :: l, y :: m, h, k, h1, h2 => by
    simp only [zipOk, Bool.and_eq_true] at h
    cases k with
    | zero => simpa using h.1
    | succ k => simpa using zipOk_get f l m h.2 k (by simpa using h1) (by simpa using h2)

/-- The elements with odd index. -/
def odds : List ℤ → List ℤ
  | _ :: y :: t => y :: odds t
  | _ => []

theorem odds_get : ∀ (l : List ℤ) (k : ℕ), (odds l)[k]? = l[2 * k + 1]?
  | [], k => by simp [odds]
  | [x], k => by simp [odds]
  | _ :: y :: t, k => by
    cases k with
    | zero => simp [odds]
    | succ k =>
      have := odds_get t k
      simp only [odds, List.getElem?_cons_succ]
      rw [this, show 2 * (k + 1) = (2 * k + 1) + 1 by ring, List.getElem?_cons_succ]

/-- The entry for 2 of the first table. -/
theorem entry_two : table0[128]? = some 6020599913279624 := by decide +kernel

/-- The second and third table agree with the first. -/
theorem agree1_ok : zipOk (fun x y => decide (|x - y - 7 * 6020599913279624| ≤ 20)) (table1.drop 127) table0 = true := by
  decide +kernel
theorem agree1'_ok : zipOk (fun x y => decide (|x - y + 6020599913279624| ≤ 20)) table1 (odds table1) = true := by
  decide +kernel
theorem agree2_ok : zipOk (fun x y => decide (|x - y - 10 * 6020599913279624| ≤ 20)) table2 table1 = true := by
  decide +kernel
theorem odds_length : (odds table1).length = 512 := by decide +kernel

theorem dB_mul {x y : ℝ} (hx : 0 < x) (hy : 0 < y) : dB (x * y) = dB x + dB y := by
  rw [dB_eq, dB_eq, dB_eq, Real.log_mul hx.ne' hy.ne']; ring

theorem dB_two_pow (n : ℕ) : dB (2 ^ n) = n * dB 2 := by
  rw [dB_eq, dB_eq, Real.log_pow]; ring

theorem near_two : |(6020599913279624 : ℝ) / 10 ^ 15 - dB 2| ≤ 2 / 10 ^ 8 := by
  have := near0 128 (by norm_num)
  unfold lit0 at this
  rw [entry_two] at this
  norm_num at this ⊢
  exact this

/-- The second table: `20 log10 n`. -/
theorem near1 (n : ℕ) (h0 : 1 ≤ n) (hn : n ≤ 1024) : |(lit1 (n - 1) : ℝ) - dB n| ≤ 4 / 10 ^ 7 := by
  have big : ∀ n : ℕ, 128 ≤ n → n ≤ 1024 → |(lit1 (n - 1) : ℝ) - dB n| ≤ 17 / 10 ^ 8 := by
    intro n h0 hn
    have h := zipOk_get _ _ _ agree1_ok (n - 128) (by rw [List.length_drop, lengths.2.1]; omega) (by rw [lengths.1]; omega)
    simp only [decide_eq_true_eq] at h
    rw [List.getElem?_drop, show 127 + (n - 128) = n - 1 by omega] at h
    have h' : |(table1[n - 1]?.getD 0 : ℝ) - table0[n - 128]?.getD 0 - 7 * 6020599913279624| ≤ 20 := by
      exact_mod_cast h
    have a := near0 (n - 128) (by omega)
    have b := near_two
    have e : dB n = dB (1 + ((n - 128 : ℕ) : ℝ) / 128) + 7 * dB 2 := by
      have e1 : (n : ℝ) = (1 + ((n - 128 : ℕ) : ℝ) / 128) * 2 ^ 7 := by
        push_cast [Nat.cast_sub h0]; ring
      have m0 : (0 : ℝ) ≤ ((n - 128 : ℕ) : ℝ) := Nat.cast_nonneg _
      rw [e1]
      generalize ((n - 128 : ℕ) : ℝ) = m at *
      rw [dB_mul (by positivity) (by norm_num), dB_two_pow]
      norm_num
    rw [e]
    unfold lit0 at a
    unfold lit1
    generalize dB 2 = d2 at *
    generalize dB (1 + ((n - 128 : ℕ) : ℝ) / 128) = d at *
    push_cast at a b ⊢
    rw [abs_le] at *
    constructor <;> linarith
  have step : ∀ n : ℕ, 1 ≤ n → n < 128 → ∀ T : ℝ, |(lit1 (2 * n - 1) : ℝ) - dB (2 * n : ℕ)| ≤ T →
      |(lit1 (n - 1) : ℝ) - dB n| ≤ T + 3 / 10 ^ 8 := by
    intro n h0 hn T hT
    have h := zipOk_get _ _ _ agree1'_ok (n - 1) (by rw [lengths.2.1]; omega) (by rw [odds_length]; omega)
    simp only [decide_eq_true_eq] at h
    rw [odds_get, show 2 * (n - 1) + 1 = 2 * n - 1 by omega] at h
    have h' : |(table1[n - 1]?.getD 0 : ℝ) - table1[2 * n - 1]?.getD 0 + 6020599913279624| ≤ 20 := by
      exact_mod_cast h
    have b := near_two
    have e : dB (2 * n : ℕ) = dB 2 + dB n := by
      push_cast
      exact dB_mul (by norm_num) (by exact_mod_cast h0)
    rw [e] at hT
    unfold lit1 at hT ⊢
    generalize dB 2 = d2 at *
    generalize dB n = d at *
    push_cast at b hT ⊢
    rw [abs_le] at *
    constructor <;> linarith
  have all : ∀ j n : ℕ, j ≤ 7 → 128 ≤ n * 2 ^ j → 1 ≤ n → n ≤ 1024 →
      |(lit1 (n - 1) : ℝ) - dB n| ≤ 17 / 10 ^ 8 + j * (3 / 10 ^ 8) := by
    intro j
    induction j with
    | zero => intro n _ h _ h2; simpa using big n (by simpa using h) h2
    | succ j ih =>
      intro n hj h h1 h2
      rcases le_or_gt 128 n with hb | hb
      · refine (big n hb h2).trans ?_
        have : (0 : ℝ) ≤ ((j + 1 : ℕ) : ℝ) * (3 / 10 ^ 8) := by positivity
        linarith
      · have := step n h1 hb _ (ih (2 * n) (by omega) (by rw [pow_succ] at h; linarith) (by omega) (by omega))
        push_cast
        linarith
  have := all 7 n le_rfl (by omega) h0 hn
  norm_num at this ⊢
  linarith

/-- The third table: `20 log10 (1024 n)`. -/
theorem near2 (n : ℕ) (h0 : 1 ≤ n) (hn : n ≤ 1024) : |(lit2 (n - 1) : ℝ) - dB (1024 * n)| ≤ 7 / 10 ^ 7 := by
  have h := zipOk_get _ _ _ agree2_ok (n - 1) (by rw [lengths.2.2.1]; omega) (by rw [lengths.2.1]; omega)
  simp only [decide_eq_true_eq] at h
  have h' : |(table2[n - 1]?.getD 0 : ℝ) - table1[n - 1]?.getD 0 - 10 * 6020599913279624| ≤ 20 := by
    exact_mod_cast h
  have a := near1 n h0 hn
  have b := near_two
  have e : dB (1024 * n) = 10 * dB 2 + dB n := by
    rw [dB_mul (by norm_num) (by exact_mod_cast h0), show (1024 : ℝ) = 2 ^ 10 by norm_num, dB_two_pow]
    norm_num
  rw [e]
  unfold lit1 at a
  unfold lit2
  generalize dB 2 = d2 at *
  generalize dB n = d at *
  push_cast at a b ⊢
  rw [abs_le] at *
  constructor <;> linarith

/-- rational approximation of `10^(1/200)`, times `10^18` -/
def Ratio : ℤ := 1011579454259898524

/-- Neighbouring entries of the inverse table have the right ratio, to `4e-15`. -/
theorem ratios_ok : zipOk (fun y x => decide (|y * 10 ^ 18 - x * Ratio| * 10 ^ 15 ≤ 4 * (x * 10 ^ 18)) && decide (10 ^ 15 ≤ x))
    (invTable.drop 1) invTable = true := by decide +kernel
theorem firstInv : invTable[0]? = some (10 ^ 15) := by decide +kernel

/-- `10^(1/200)` -/
noncomputable def R : ℝ := (10 : ℝ) ^ ((1 : ℝ) / 200)

theorem R_pos : 0 < R := Real.rpow_pos_of_pos (by norm_num) _
theorem R_pow (k : ℕ) : R ^ k = (10 : ℝ) ^ ((k : ℝ) / 200) := by
  unfold R
  rw [← Real.rpow_natCast, ← Real.rpow_mul (by norm_num)]
  congr 1
  ring

theorem R_close : |R - (Ratio : ℝ) / 10 ^ 18| ≤ 1 / 10 ^ 17 := by
  have h : R ^ 200 = 10 := by rw [R_pow]; norm_num
  have lo : ((Ratio : ℝ) / 10 ^ 18 - 1 / 10 ^ 17) ^ 200 < R ^ 200 := by
    rw [h]; norm_num [Ratio]
  have hi : R ^ 200 < ((Ratio : ℝ) / 10 ^ 18 + 1 / 10 ^ 17) ^ 200 := by
    rw [h]; norm_num [Ratio]
  have l1 := lt_of_pow_lt_pow_left₀ 200 R_pos.le lo
  have l2 := lt_of_pow_lt_pow_left₀ 200 (by norm_num [Ratio]) hi
  rw [abs_le]
  constructor <;> linarith

theorem R_bounds : 1 ≤ R ∧ R ≤ 1.012 := by
  have h := R_close
  rw [abs_le] at h
  norm_num [Ratio] at h ⊢
  constructor <;> linarith

/-- The inverse table: `10^(k/200)`. -/
theorem nearInv (k : ℕ) (hk : k ≤ 1200) : |(litInv k : ℝ) - R ^ k| ≤ k / 10 ^ 14 * R ^ k := by
  induction k with
  | zero => norm_num [litInv, firstInv]
  | succ k ih =>
    replace ih := ih (by omega)
    have h := zipOk_get _ _ _ ratios_ok k (by rw [List.length_drop, lengths.2.2.2]; omega)
      (by rw [lengths.2.2.2]; omega)
    simp only [Bool.and_eq_true, decide_eq_true_eq] at h
    rw [List.getElem?_drop, show 1 + k = k + 1 by ring] at h
    obtain ⟨h1, h2⟩ := h
    unfold litInv at ih ⊢
    generalize invTable[k]?.getD 0 = x at *
    generalize invTable[k + 1]?.getD 0 = y at *
    have h1' : |(y : ℝ) * 10 ^ 18 - x * Ratio| * 10 ^ 15 ≤ 4 * ((x : ℝ) * 10 ^ 18) := by exact_mod_cast h1
    have h2' : (10 : ℝ) ^ 15 ≤ x := by exact_mod_cast h2
    have hR := R_close
    obtain ⟨R1, R2⟩ := R_bounds
    have k0 : (0 : ℝ) ≤ k := Nat.cast_nonneg _
    have k1 : (k : ℝ) ≤ 1200 := by exact_mod_cast (by omega : k ≤ 1200)
    have P1 : 1 ≤ R ^ k := one_le_pow₀ R1
    rw [pow_succ R k]
    push_cast at ih ⊢
    generalize R ^ k = P at *
    have kk : (k : ℝ) / 10 ^ 14 * P ≤ 1 / 10 ^ 10 * P := by
      have : (k : ℝ) / 10 ^ 14 ≤ 1 / 10 ^ 10 := by
        rw [div_le_iff₀ (by norm_num)]; norm_num; linarith
      exact mul_le_mul_of_nonneg_right this (by linarith)
    have kP : (k + 1 : ℝ) / 10 ^ 14 * (P * R) = (k / 10 ^ 14 * P) * R + 1 / 10 ^ 14 * P * R := by ring
    rw [kP]
    generalize (k : ℝ) / 10 ^ 14 * P = q at *
    have cp : (Ratio : ℝ) = 1011579454259898524 := by norm_num [Ratio]
    rw [cp] at hR h1'
    have a1 : |(y : ℝ) / 10 ^ 15 - x / 10 ^ 15 * (1011579454259898524 / 10 ^ 18)| ≤ 4 / 10 ^ 15 * ((x : ℝ) / 10 ^ 15) := by
      have e : (y : ℝ) / 10 ^ 15 - x / 10 ^ 15 * (1011579454259898524 / 10 ^ 18)
          = (y * 10 ^ 18 - x * 1011579454259898524) / 10 ^ 33 := by ring
      rw [e, abs_div, abs_of_pos (by norm_num : (0 : ℝ) < 10 ^ 33), div_le_iff₀ (by norm_num)]
      have : 4 / 10 ^ 15 * ((x : ℝ) / 10 ^ 15) * 10 ^ 33 = 4 * (x * 10 ^ 18) / 10 ^ 15 := by ring
      rw [this, le_div_iff₀ (by norm_num)]
      exact h1'
    have x0 : 0 ≤ (x : ℝ) / 10 ^ 15 := by
      have : (0 : ℝ) < 10 ^ 15 := by norm_num
      apply div_nonneg <;> linarith
    generalize (x : ℝ) / 10 ^ 15 = X at *
    generalize (y : ℝ) / 10 ^ 15 = Y at *
    have X2 : X ≤ 1.01 * P := by
      rw [abs_le] at ih
      have : q ≤ 1 / 10 ^ 10 * P := kk
      norm_num at this ⊢
      linarith [ih.2]
    have a2 : |X * (R - 1011579454259898524 / 10 ^ 18)| ≤ X * (1 / 10 ^ 17) := by
      rw [abs_mul, abs_of_nonneg x0]; exact mul_le_mul_of_nonneg_left hR x0
    have a3 : |R * (X - P)| ≤ R * q := by
      rw [abs_mul, abs_of_nonneg (by linarith : 0 ≤ R)]; exact mul_le_mul_of_nonneg_left ih (by linarith)
    have PR : P ≤ P * R := by nlinarith
    rw [abs_le] at a1 a2 a3 ⊢
    norm_num at a1 a2 a3 X2 ⊢
    constructor <;> linarith

/-- Neighbouring entries: increasing, and within a factor two of each other unless the first is zero. -/
def chain : List ℤ → Bool
  | x :: y :: t => decide (0 ≤ x) && decide (x ≤ y) && (decide (x = 0) || decide (1000 * y ≤ 1999 * x))
      && decide (x = 0 ∨ 10 ^ 13 ≤ x) && decide (10 ^ 13 ≤ y) && chain (y :: t)
  | _ => true

theorem chains : chain table0 = true ∧ chain table1 = true ∧ chain table2 = true ∧ chain invTable = true := by
  decide +kernel

theorem chain_get : ∀ (l : List ℤ), chain l = true → ∀ k, k + 1 < l.length →
    (0 ≤ l[k]?.getD 0 ∧ l[k]?.getD 0 ≤ l[k + 1]?.getD 0 ∧ (l[k]?.getD 0 = 0 ∨ 1000 * l[k + 1]?.getD 0 ≤ 1999 * l[k]?.getD 0))
      ∧ (l[k]?.getD 0 = 0 ∨ 10 ^ 13 ≤ l[k]?.getD 0) ∧ 10 ^ 13 ≤ l[k + 1]?.getD 0
  | [], _, k, h => by simp at h
  | [_], _, k, h => by simp at h
  | x :: y :: t, h, k, hk => by
    simp only [chain, Bool.and_eq_true, Bool.or_eq_true, decide_eq_true_eq] at h
    cases k with
    | zero => simpa [and_assoc] using h.1
    | succ k =>
      have := chain_get (y :: t) h.2 k (by simpa using hk)
      simpa using this

/-- The ends of the ranges of the tables fit together. -/
theorem seams : table0[896]? = table1[7]? ∧ table1[1023]? = table2[0]? ∧ table2[1023]? = some 120411998265592487
    ∧ invTable[1200]? = some (10 ^ 21) := by decide +kernel

end DbTable
end Verif
