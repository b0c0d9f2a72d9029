import Verif.Props.Fx
import Verif.Model.RoundFilter
import Verif.Proof.RoundEval
/-!
# C68: the dynamic smoother built from a frequency, retuned while running, and in `float` arithmetic
-/
namespace Verif
open Fx Rounding

namespace Fx

/-- A call on a dynamic smoother: a sample, or a change of the base frequency. -/
inductive SmootherOp where
  | feed (s : ℝ)
  | base (f sps : ℝ)

/-- One call, with the output if there is one. -/
noncomputable def Smoother.op (d : Smoother ℝ) : SmootherOp → Smoother ℝ × Option ℝ
  | .feed s => ((d.feed s).1, some (d.feed s).2)
  | .base f sps => (d.baseFrequency f sps, none)

theorem tan_half_pos {f sps : ℝ} (h0 : 0 ≤ f) (h1 : f < sps / 2) : 0 ≤ Real.tan (Real.pi * (f / sps)) := by
  have s0 : 0 < sps := by linarith
  have hp := Real.pi_pos
  apply Real.tan_nonneg_of_nonneg_of_le_pi_div_two
  · positivity
  · have : f / sps ≤ 1 / 2 := by rw [div_le_iff₀ s0]; linarith
    nlinarith

theorem g0_nonneg {f sps : ℝ} (h0 : 0 ≤ f) (h1 : f < sps / 2) :
    0 ≤ 2 * Real.tan (Real.pi * (f / sps)) / (1 + Real.tan (Real.pi * (f / sps))) := by
  have := tan_half_pos h0 h1
  positivity

end Fx

/-- **C68** (exact arithmetic) A dynamic smoother made with any base frequency below half the sampling rate and any sensitivity `≥ 0`, used in any way, including changes
of the base frequency at any time: all outputs stay within any range `[lo, hi]` containing 0 (its initial state) and the inputs. -/
theorem C68_history (base sens sps : ℝ) (hb : 0 ≤ base) (hb2 : base < sps / 2) (hs : 0 ≤ sens) (lo hi : ℝ) (hlo : lo ≤ 0) (hhi : 0 ≤ hi)
    (ops : List SmootherOp) (hops : ∀ o ∈ ops, match o with
      | .feed s => lo ≤ s ∧ s ≤ hi
      | .base f sps => 0 ≤ f ∧ f < sps / 2) :
    ∀ y, some y ∈ outputs Smoother.op (Smoother.mk' base sens sps) ops → lo ≤ y ∧ y ≤ hi := by
  have key : ∀ (ops : List SmootherOp) (d : Smoother ℝ), 0 ≤ d.g0 → 0 ≤ d.sense → (lo ≤ d.low1 ∧ d.low1 ≤ hi) → (lo ≤ d.low2 ∧ d.low2 ≤ hi) →
      (∀ o ∈ ops, match o with
        | .feed s => lo ≤ s ∧ s ≤ hi
        | .base f sps => 0 ≤ f ∧ f < sps / 2) → ∀ y, some y ∈ outputs Smoother.op d ops → lo ≤ y ∧ y ≤ hi := by
    intro ops
    induction ops with
    | nil => intro d _ _ _ _ _ y hy; simp [outputs] at hy
    | cons o ops ih =>
      intro d hg hse h1 h2 hops y hy
      have ho := hops o (by simp)
      have hr := fun o ho => hops o (List.mem_cons_of_mem _ ho)
      simp only [outputs, List.mem_cons] at hy
      cases o with
      | base f sps =>
        simp only [Smoother.op] at hy
        rcases hy with hy | hy
        · exact absurd hy (by simp)
        · exact ih (d.baseFrequency f sps) (g0_nonneg ho.1 ho.2) hse h1 h2 hr y hy
      | feed x =>
        simp only at ho
        simp only [Smoother.op] at hy
        rcases hy with hy | hy
        · simp only [Smoother.feed, Option.some.injEq] at hy
          rw [hy]; exact h2
        · have hG : 0 ≤ min (d.g0 + d.sense * |d.low1 - d.low2|) 1 :=
            le_min (add_nonneg hg (mul_nonneg hse (abs_nonneg _))) zero_le_one
          have hG1 : min (d.g0 + d.sense * |d.low1 - d.low2|) 1 ≤ 1 := min_le_right _ _
          refine ih (d.feed x).1 hg hse ?_ ?_ hr y hy
          · simp only [Smoother.feed]
            generalize min (d.g0 + d.sense * |d.low1 - d.low2|) 1 = g at *
            obtain ⟨o1, o2⟩ := ho
            obtain ⟨a1, a2⟩ := h1
            constructor <;> nlinarith
          · simp only [Smoother.feed]
            generalize min (d.g0 + d.sense * |d.low1 - d.low2|) 1 = g at *
            obtain ⟨o1, o2⟩ := ho
            obtain ⟨a1, a2⟩ := h1
            obtain ⟨b1, b2⟩ := h2
            have c1 : lo ≤ d.low1 + g * (x - d.low1) := by nlinarith
            have c2 : d.low1 + g * (x - d.low1) ≤ hi := by nlinarith
            generalize d.low1 + g * (x - d.low1) = l at *
            constructor <;> nlinarith
  exact key ops _ (g0_nonneg hb hb2) (by simp only [Smoother.mk']; linarith) ⟨hlo, hhi⟩ ⟨hlo, hhi⟩ hops

/-- A 100 Hz smoother at 48 kHz, retuned to 5 kHz. -/
example : ∀ y, some y ∈ outputs Smoother.op (Smoother.mkDefault 100 48000) [.feed 1, .feed (-1), .base 5000 48000, .feed 1] → -1 ≤ y ∧ y ≤ 1 :=
  C68_history 100 (1 / 2) 48000 (by norm_num) (by norm_num) (by norm_num) (-1) 1 (by norm_num) (by norm_num) _ (by
    intro o ho
    simp only [List.mem_cons, List.not_mem_nil, or_false] at ho
    rcases ho with rfl | rfl | rfl | rfl <;> norm_num)

/-! ## In `float` arithmetic -/

namespace Rounding

/-- Rounding a number of at most twice `2^k` errs by at most half a unit in the last place of `2^k`. -/
theorem err_pow {k : ℤ} (hk : -126 ≤ k) {x : ℚ} (hx : |x| ≤ 2 * (2 : ℚ) ^ k) : |fl32 x - x| ≤ (2 : ℚ) ^ (k - 24) := by
  have hp : (0 : ℚ) < (2 : ℚ) ^ (k - 23) := two_zpow_pos _
  have e1 : (2 : ℚ) ^ k = (2 : ℚ) ^ (k - 23) * 2 ^ 23 := by
    rw [← zpow_natCast, ← zpow_add₀ (by norm_num)]; congr 1; omega
  have e2 : (2 : ℚ) ^ (k - 23) = (2 : ℚ) ^ (k - 24) * 2 := by
    rw [← zpow_add_one₀ (by norm_num)]; congr 1; omega
  have hq : |x / (2 : ℚ) ^ (k - 23)| ≤ 2 ^ 24 := by
    rw [abs_div, abs_of_pos hp, div_le_iff₀ hp]
    rw [e1] at hx
    linarith
  have h1 := rneInt_err (x / (2 : ℚ) ^ (k - 23))
  have hb : |rneInt (x / (2 : ℚ) ^ (k - 23))| ≤ 2 ^ 24 := by
    have := rneInt_nearest (x / (2 : ℚ) ^ (k - 23))
    generalize x / (2 : ℚ) ^ (k - 23) = t at *
    generalize hn : rneInt t = n at *
    have a := abs_le.1 h1
    have b := abs_le.1 hq
    rw [abs_le]
    constructor
    · have : (-(2 : ℤ) ^ 24 - 1 : ℤ) < (n : ℚ) := by push_cast; linarith
      have : (-(2 : ℤ) ^ 24 - 1 : ℤ) < n := by exact_mod_cast this
      omega
    · have : (n : ℚ) < ((2 : ℤ) ^ 24 + 1 : ℤ) := by push_cast; linarith
      have : n < (2 : ℤ) ^ 24 + 1 := by exact_mod_cast this
      omega
  refine (fl32_lawful.nearest x _ ⟨_, k - 23, hb, by omega, rfl⟩).trans ?_
  have e3 : ((rneInt (x / (2 : ℚ) ^ (k - 23)) : ℤ) : ℚ) * (2 : ℚ) ^ (k - 23) - x =
      ((rneInt (x / (2 : ℚ) ^ (k - 23)) : ℤ) - x / (2 : ℚ) ^ (k - 23)) * (2 : ℚ) ^ (k - 23) := by
    field_simp
  rw [e3, abs_mul, abs_of_pos hp, e2]
  rw [e2] at h1
  have := two_zpow_pos (k - 24)
  nlinarith

/-- Half a unit above a power of two is a tie, rounded down to it. -/
theorem tie_pow {k : ℤ} (hk : -126 ≤ k) : fl32 ((2 : ℚ) ^ k + (2 : ℚ) ^ (k - 24)) = (2 : ℚ) ^ k := by
  have p24 := two_zpow_pos (k - 24)
  have e1 : (2 : ℚ) ^ k = (2 : ℚ) ^ (k - 24) * 2 ^ 24 := by
    rw [← zpow_natCast, ← zpow_add₀ (by norm_num)]; congr 1; omega
  have e2 : (2 : ℚ) ^ (k - 23) = (2 : ℚ) ^ (k - 24) * 2 := by
    rw [← zpow_add_one₀ (by norm_num)]; congr 1; omega
  have hx0 : (0 : ℚ) < (2 : ℚ) ^ k + (2 : ℚ) ^ (k - 24) := add_pos (two_zpow_pos _) p24
  have hl : Int.log 2 |(2 : ℚ) ^ k + (2 : ℚ) ^ (k - 24)| = k := by
    rw [abs_of_pos hx0]
    apply le_antisymm
    · have : Int.log 2 ((2 : ℚ) ^ k + (2 : ℚ) ^ (k - 24)) < k + 1 := by
        apply (Int.lt_zpow_iff_log_lt (by norm_num) hx0).1
        have : (2 : ℚ) ^ (k + 1) = (2 : ℚ) ^ k * 2 := zpow_add_one₀ (by norm_num) k
        push_cast
        rw [this, e1]
        linarith
      omega
    · apply (Int.zpow_le_iff_le_log (by norm_num) hx0).1
      push_cast
      linarith
  unfold fl32 rnd ulpExp
  rw [hl]
  have e3 : max (k - ((24 : ℕ) - 1)) (-149 : ℤ) = k - 23 := by push_cast; omega
  rw [e3]
  have e4 : ((2 : ℚ) ^ k + (2 : ℚ) ^ (k - 24)) / (2 : ℚ) ^ (k - 23) = 2 ^ 23 + 1 / 2 := by
    rw [e2, e1]; field_simp
  rw [e4]
  have e5 : rneInt (2 ^ 23 + 1 / 2 : ℚ) = 2 ^ 23 := by
    have hf : ⌊(2 ^ 23 + 1 / 2 : ℚ)⌋ = 2 ^ 23 := by rw [Int.floor_eq_iff]; norm_num
    unfold rneInt
    rw [hf]
    norm_num
  rw [e5, e1, e2]
  push_cast
  ring

/-- A step from `y` towards `s` by a fraction `g` in `float` arithmetic does not leave `[-2^k, 2^k]`. -/
theorem approach_pow {k : ℤ} (hk : -126 ≤ k) {y s g : ℚ} (hy : |y| ≤ (2 : ℚ) ^ k) (hs : |s| ≤ (2 : ℚ) ^ k) (g0 : 0 ≤ g) (g1 : g ≤ 1) :
    |fl32 (y + fl32 (g * fl32 (s - y)))| ≤ (2 : ℚ) ^ k := by
  have L := fl32_lawful
  have up : ∀ y s : ℚ, |y| ≤ (2 : ℚ) ^ k → |s| ≤ (2 : ℚ) ^ k → fl32 (y + fl32 (g * fl32 (s - y))) ≤ (2 : ℚ) ^ k := by
    intro y s hy hs
    have a := abs_le.1 hy
    have b := abs_le.1 hs
    have hr : Rep 24 (-149) ((2 : ℚ) ^ k) := rep_zpow (by omega)
    rcases le_total (fl32 (s - y)) 0 with hd | hd
    · apply L.le_of_rep hr
      have : fl32 (g * fl32 (s - y)) ≤ 0 := L.nonpos (mul_nonpos_of_nonneg_of_nonpos g0 hd)
      linarith
    · have h1 : fl32 (g * fl32 (s - y)) ≤ fl32 (s - y) := L.le_of_rep (L.rep _) (by nlinarith)
      have h2 := err_pow hk (x := s - y) (by rw [abs_le]; constructor <;> linarith)
      have h3 := (abs_le.1 h2).2
      rw [← tie_pow hk]
      apply L.mono
      linarith
  rw [abs_le]
  refine ⟨?_, up y s hy hs⟩
  have h := up (-y) (-s) (by rwa [abs_neg]) (by rwa [abs_neg])
  rw [show -s - -y = -(s - y) by ring, L.neg, mul_neg, L.neg, ← neg_add, L.neg] at h
  linarith

end Rounding

/-- **C68.** In `float` arithmetic, for every coefficient and sensitivity `≥ 0`, every signal of any length within `[-2^k, 2^k]` (for instance `[-1, 1]`): every output stays
within it. -/
theorem C68_float (d : Smoother ℚ) (hg : 0 ≤ d.g0) (hs : 0 ≤ d.sense) (k : ℤ) (hk : -126 ≤ k) (h1 : |d.low1| ≤ (2 : ℚ) ^ k) (h2 : |d.low2| ≤ (2 : ℚ) ^ k)
    (xs : List ℚ) (hx : ∀ x ∈ xs, |x| ≤ (2 : ℚ) ^ k) : ∀ y ∈ outputs (RoundFilter.smoother fl32) d xs, |y| ≤ (2 : ℚ) ^ k := by
  induction xs generalizing d with
  | nil => intro y hy; simp [outputs] at hy
  | cons x xs ih =>
    intro y hy
    simp only [outputs, List.mem_cons] at hy
    rcases hy with hy | hy
    · rw [hy]; exact h2
    · have hG : 0 ≤ min (fl32 (d.g0 + fl32 (d.sense * |fl32 (d.low1 - d.low2)|))) 1 := by
        refine le_min (fl32_lawful.nonneg (add_nonneg hg (fl32_lawful.nonneg (mul_nonneg hs (abs_nonneg _))))) zero_le_one
      have hG1 : min (fl32 (d.g0 + fl32 (d.sense * |fl32 (d.low1 - d.low2)|))) 1 ≤ 1 := min_le_right _ _
      have hx0 := hx x (by simp)
      have n1 := approach_pow hk h1 hx0 hG hG1
      have n2 := approach_pow hk h2 n1 hG hG1
      exact ih (RoundFilter.smoother fl32 d x).1 hg hs n1 n2 (fun x hx' => hx x (by simp [hx'])) y hy

/-- A smoother with coefficient 0.013 and sensitivity 0.5 at full scale. -/
example : ∀ y ∈ outputs (RoundFilter.smoother fl32) ⟨2, 13 / 1000, 0, 0⟩ [1, -1, 1 / 3], |y| ≤ (2 : ℚ) ^ (0 : ℤ) :=
  C68_float _ (by norm_num) (by norm_num) 0 (by norm_num) (by simp) (by simp) _ (by
    intro x hx
    simp only [List.mem_cons, List.not_mem_nil, or_false] at hx
    rcases hx with rfl | rfl | rfl <;> norm_num [abs_le])

end Verif
