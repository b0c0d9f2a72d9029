import Verif.Model.Echo
import Verif.Props.Delay
import Verif.Props.ToneLock
import Verif.Proof.Rounding
/-!
# C99: the echo programs (example/delay.cpp, example/io_delay.cpp)
-/
namespace Verif
open Rounding Example RingBuf

namespace Example
variable {fl fd : ℚ → ℚ}

/-- Specification: the right channel for the input `s`: each sample is the input plus the feedback times the right channel `D` samples earlier. -/
def echoSpec (fl : ℚ → ℚ) (fb : ℚ) (D : Nat) (s : Nat → ℚ) (n : Nat) : ℚ :=
  if h : 0 < D ∧ D ≤ n then fl (s n + fl (echoSpec fl fb D s (n - D) * fb)) else fl (s n + 0)
termination_by n
decreasing_by omega

/-- The state after the input `xs`: the line holds the fed back samples. -/
def EchoInv (fl : ℚ → ℚ) (fb : ℚ) (D : Nat) (s : Nat → ℚ) (n : Nat) (e : Echo) : Prop :=
  e.feedback = fb ∧ Hist 0 D e.delay ((List.range n).map fun i => fl (echoSpec fl fb D s i * fb))

theorem echo_step {fb : ℚ} {D : Nat} {s : Nat → ℚ} {n : Nat} {e : Echo} (h : EchoInv fl fb D s n e) :
    ∃ e', e.frame fl (s n) = .ok (e', (s n, echoSpec fl fb D s n)) ∧ EchoInv fl fb D s (n + 1) e' := by
  obtain ⟨hf, hh⟩ := h
  have hD := hh.cap_pos
  have hb : maxDelay e.delay = .ok (if D ≤ n then fl (echoSpec fl fb D s (n - D) * fb) else 0) := by
    rw [maxDelay, hh.back]
    congr 1
    by_cases hn : D ≤ n
    · rw [if_pos hn, ago_eq _ _ (by simp; omega)]
      simp only [List.length_map, List.length_range, List.getElem_map, List.getElem_range, Option.getD_some]
      rw [show n - 1 - (D - 1) = n - D by omega]
    · rw [if_neg hn, ago_none _ _ (by simp; omega)]
      rfl
  have hy : fl (s n + if D ≤ n then fl (echoSpec fl fb D s (n - D) * fb) else 0) = echoSpec fl fb D s n := by
    conv => rhs; rw [echoSpec]
    by_cases hn : D ≤ n
    · rw [if_pos hn, dif_pos ⟨hD, hn⟩]
    · rw [if_neg hn, dif_neg (by omega)]
  obtain ⟨r, er, hr⟩ := hh.push (fl (echoSpec fl fb D s n * fb))
  refine ⟨{ e with delay := r, y := echoSpec fl fb D s n }, ?_, hf, ?_⟩
  · rw [Echo.frame, hb]
    show (do let r ← e.delay.push (fl (fl _ * e.feedback)); _ : C _) = _
    rw [hy, hf, er]
    rfl
  · rw [List.range_succ, List.map_append]; exact hr

theorem echo_run {fb : ℚ} {D : Nat} {s : Nat → ℚ} {n : Nat} {e : Echo} (h : EchoInv fl fb D s n e) (m : Nat) :
    ∃ e', e.process fl ((List.range m).map fun i => s (n + i)) = .ok (e', (List.range m).map fun i => (s (n + i), echoSpec fl fb D s (n + i))) ∧
      EchoInv fl fb D s (n + m) e' := by
  induction m generalizing n e with
  | zero => exact ⟨e, rfl, h⟩
  | succ m ih =>
    obtain ⟨e1, s1, h1⟩ := echo_step h
    obtain ⟨e2, s2, h2⟩ := ih h1
    refine ⟨e2, ?_, by rw [show n + (m + 1) = n + 1 + m by omega]; exact h2⟩
    rw [List.range_succ_eq_map, List.map_cons, List.map_cons, List.map_map, List.map_map]
    have c1 : (fun i => s (n + i)) ∘ Nat.succ = fun i => s (n + 1 + i) := by
      funext i; show s (n + (i + 1)) = _; congr 1; omega
    have c2 : (fun i => (s (n + i), echoSpec fl fb D s (n + i))) ∘ Nat.succ = fun i => (s (n + 1 + i), echoSpec fl fb D s (n + 1 + i)) := by
      funext i; show (s (n + (i + 1)), echoSpec fl fb D s (n + (i + 1))) = _
      rw [show n + (i + 1) = n + 1 + i by omega]
    rw [c1, c2]
    rw [Echo.process] at s2 ⊢
    rw [runC]
    simp only [Nat.add_zero]
    rw [s1, PD.ok_bind]
    simp only []
    rw [s2]
    rfl

/-- The blocks of the callbacks: `sizes` frames each, of the input starting at time `n`. -/
def blocks (s : Nat → ℚ) : Nat → List Nat → List (List ℚ)
  | _, [] => []
  | n, m :: ms => ((List.range m).map fun i => s (n + i)) :: blocks s (n + m) ms

theorem echo_blocks {fb : ℚ} {D : Nat} {s : Nat → ℚ} (ms : List Nat) {n : Nat} {e : Echo} (h : EchoInv fl fb D s n e) :
    ∃ e' outs, runC (Echo.process fl) e (blocks s n ms) = .ok (e', outs) ∧
      outs.flatten = ((List.range ms.sum).map fun i => (s (n + i), echoSpec fl fb D s (n + i))) ∧ outs.map List.length = ms := by
  induction ms generalizing n e with
  | nil => exact ⟨e, [], rfl, rfl, rfl⟩
  | cons m ms ih =>
    obtain ⟨e1, s1, h1⟩ := echo_run h m
    obtain ⟨e2, outs, s2, f2, l2⟩ := ih h1
    refine ⟨e2, ((List.range m).map fun i => (s (n + i), echoSpec fl fb D s (n + i))) :: outs, ?_, ?_, ?_⟩
    · rw [blocks, runC, s1, PD.ok_bind]
      simp only []
      rw [s2]
      rfl
    · rw [List.flatten_cons, f2, List.sum_cons, range_split]
      congr 1
      exact List.map_congr_left fun i _ => by rw [show n + m + i = n + (m + i) by omega]
    · simp [l2]

end Example

open Example

/-- **C99.** The echo program, for every delay time, rate and feedback, every input and every way the host divides it into callbacks of any numbers of
frames: no call goes wrong; the left channel is the input; the right channel is the input plus the feedback times the right channel `D` samples
earlier (zero before the start), `D` being the least power of two not below the delay in samples.  Any rounding. -/
theorem C99_echo (fl fd : ℚ → ℚ) (d : ℚ) (sps : Nat) (fb : ℚ) (size D : Nat) (hs : delaySize fd d sps = .ok size) (h63 : size ≤ 2 ^ 63)
    (hD : IsLeastPow2 size D) (s : Nat → ℚ) (sizes : List Nat) :
    ∃ e0 e outs, Echo.mk' fd d sps fb = .ok e0 ∧ runC (Echo.process fl) e0 (blocks s 0 sizes) = .ok (e, outs) ∧ outs.map List.length = sizes ∧
      outs.flatten.length = sizes.sum ∧
      ∀ n, n < sizes.sum → outs.flatten[n]? = some (s n, echoSpec fl fb D s n) := by
  have hm := hist_mk' (0 : ℚ) size h63
  rw [← hD.eq] at hm
  refine ⟨{ delay := RingBuf.mk' 0 size, feedback := fb, y := 0 }, ?_⟩
  obtain ⟨e, outs, h1, h2, h3⟩ := echo_blocks (fl := fl) (fb := fb) (D := D) (s := s) sizes (n := 0)
    (e := { delay := RingBuf.mk' 0 size, feedback := fb, y := 0 }) ⟨rfl, hm⟩
  refine ⟨e, outs, by rw [Echo.mk', hs]; rfl, h1, h3, by rw [h2]; simp, fun n hn => ?_⟩
  rw [h2, List.getElem?_map, List.getElem?_range hn]
  simp

/-- **C99.** In exact arithmetic the right channel is the sum of the echoes: `∑ₖ fb^k · s[n - k D]`. -/
theorem C99_echoes (fb : ℚ) (D : Nat) (hD : 0 < D) (s : Nat → ℚ) (n : Nat) :
    echoSpec id fb D s n = ((List.range (n / D + 1)).map fun k => fb ^ k * s (n - k * D)).sum := by
  induction n using Nat.strong_induction_on with
  | _ n ih =>
    rw [echoSpec]
    by_cases hn : D ≤ n
    · rw [dif_pos ⟨hD, hn⟩, ih (n - D) (by omega)]
      have hdiv : n / D = (n - D) / D + 1 := by
        rw [← Nat.add_div_right _ hD]; congr 1; omega
      rw [hdiv, List.range_succ_eq_map (n := (n - D) / D + 1), List.map_cons, List.sum_cons, List.map_map]
      simp only [id_eq, pow_zero, one_mul, zero_mul, Nat.sub_zero]
      congr 1
      have hmul : ∀ l : List ℚ, l.sum * fb = (l.map (fb * ·)).sum := by
        intro l
        induction l with
        | nil => simp
        | cons a l ih => rw [List.sum_cons, List.map_cons, List.sum_cons, add_mul, ih, mul_comm]
      rw [hmul, List.map_map]
      congr 1
      apply List.map_congr_left
      intro k _
      show fb * (fb ^ k * s (n - D - k * D)) = fb ^ (k + 1) * s (n - (k + 1) * D)
      rw [pow_succ, show n - (k + 1) * D = n - D - k * D by rw [Nat.add_mul]; omega]
      ring
    · rw [dif_neg (by omega), Nat.div_eq_of_lt (by omega)]
      simp

/-- **C99.** Bounded for ever, in rounded arithmetic: if the input stays within `B`, the feedback within `φ`, and `M` is a number of the format such
that `B` plus the rounded `φ M` is at most `M`, the right channel stays within `M`. -/
theorem C99_bounded {p : ℕ} {emin : ℤ} {fl : ℚ → ℚ} (L : Lawful p emin fl) (fb φ B M : ℚ) (hM : Rep p emin M) (hM0 : 0 ≤ M) (hφ : |fb| ≤ φ)
    (hBM : B + fl (φ * M) ≤ M) (D : Nat) (s : Nat → ℚ) (hs : ∀ n, |s n| ≤ B) (n : Nat) : |echoSpec fl fb D s n| ≤ M := by
  have hφ0 : 0 ≤ φ := (abs_nonneg _).trans hφ
  have key : ∀ x, |x| ≤ M → |fl x| ≤ M := by
    intro x hx
    rw [abs_le] at hx ⊢
    constructor
    · have := L.mono _ _ hx.1
      rw [L.neg, L.fix M hM] at this; exact this
    · have := L.mono _ _ hx.2
      rw [L.fix M hM] at this; exact this
  have keyφ : ∀ x, |x| ≤ φ * M → |fl x| ≤ fl (φ * M) := by
    intro x hx
    rw [abs_le] at hx ⊢
    constructor
    · have := L.mono _ _ hx.1
      rw [L.neg] at this; exact this
    · exact L.mono _ _ hx.2
  have hfl0 : fl 0 = 0 := L.fix 0 ⟨0, emin, by simp, le_refl _, by simp⟩
  induction n using Nat.strong_induction_on with
  | _ n ih =>
    rw [echoSpec]
    split
    · rename_i h
      apply key
      have h1 := ih (n - D) (by omega)
      have h2 : |fl (echoSpec fl fb D s (n - D) * fb)| ≤ fl (φ * M) := by
        apply keyφ
        rw [abs_mul, mul_comm]
        exact mul_le_mul hφ h1 (abs_nonneg _) hφ0
      exact (abs_add_le _ _).trans (by have := hs n; linarith)
    · apply key
      rw [add_zero]
      have : 0 ≤ fl (φ * M) := by
        have := L.mono _ _ (mul_nonneg hφ0 hM0)
        rwa [hfl0] at this
      have := hs n
      linarith

/-- **C99.** The settings of the two programs, in binary32: an input within ±1 gives a right channel within ±7 for the feedback 0.85 (delay.cpp) and
within ±2 for the feedback 0.4 (io_delay.cpp), for ever. -/
theorem C99_example_bounds {fl : ℚ → ℚ} (L : Lawful 24 (-149) fl) (D : Nat) (s : Nat → ℚ) (hs : ∀ n, |s n| ≤ 1) (n : Nat) :
    |echoSpec fl (fl (85 / 100)) D s n| ≤ 7 ∧ |echoSpec fl (fl (4 / 10)) D s n| ≤ 2 := by
  have e1 := L.err (85 / 100)
  have e2 := L.err (4 / 10)
  have r6 : fl 6 = 6 := L.fix 6 ⟨6, 0, by norm_num, by norm_num, by norm_num⟩
  have r1 : fl 1 = 1 := L.fix 1 ⟨1, 0, by norm_num, by norm_num, by norm_num⟩
  constructor
  · refine C99_bounded L _ (6 / 7) 1 7 ⟨7, 0, by norm_num, by norm_num, by norm_num⟩ (by norm_num) ?_ ?_ D s hs n
    · have : max (|(85 / 100 : ℚ)| / 2 ^ 24) ((2 : ℚ) ^ (-149 : ℤ) / 2) ≤ 1 / 1000 := max_le (by norm_num) (by norm_num)
      have := abs_le.1 (e1.trans this)
      rw [abs_le]
      constructor <;> linarith
    · rw [show (6 / 7 * 7 : ℚ) = 6 by norm_num, r6]; norm_num
  · refine C99_bounded L _ (1 / 2) 1 2 ⟨2, 0, by norm_num, by norm_num, by norm_num⟩ (by norm_num) ?_ ?_ D s hs n
    · have : max (|(4 / 10 : ℚ)| / 2 ^ 24) ((2 : ℚ) ^ (-149 : ℤ) / 2) ≤ 1 / 1000 := max_le (by norm_num) (by norm_num)
      have := abs_le.1 (e2.trans this)
      rw [abs_le]
      constructor <;> linarith
    · rw [show (1 / 2 * 2 : ℚ) = 1 by norm_num, r1]; norm_num

/-- The delay of delay.cpp: 350 ms at 44100 samples per second. -/
theorem Example.size350 {fd : ℚ → ℚ} (L : Lawful 53 (-1074) fd) :
    ∃ size, delaySize fd (UnitTypes.scaledInt fd (1 / 1000) 350) 44100 = .ok size ∧ 15435 ≤ size ∧ size ≤ 15436 := by
  have small : ∀ x : ℚ, |x| ≤ 20000 → |fd x - x| ≤ 20000 / 2 ^ 53 := by
    intro x hx
    refine (L.err x).trans (max_le (div_le_div_of_nonneg_right hx (by norm_num)) ?_)
    rw [show (-1074 : ℤ) = -((1074 : ℕ) : ℤ) by norm_num, zpow_neg, zpow_natCast]
    have : ((2 : ℚ) ^ 1074)⁻¹ ≤ 1 / 2 ^ 53 := by
      rw [← one_div]
      apply one_div_le_one_div_of_le (by positivity)
      exact pow_le_pow_right₀ (by norm_num) (by norm_num)
    generalize ((2 : ℚ) ^ 1074)⁻¹ = w at *
    norm_num at this ⊢
    linarith
  have f350 : fd ((350 : ℕ) : ℚ) = 350 := by
    rw [Nat.cast_ofNat]; exact L.fix 350 ⟨350, 0, by norm_num, by norm_num, by norm_num⟩
  have a1 := abs_le.1 (small (1 / 1000) (by norm_num [abs_le]))
  obtain ⟨u, hu⟩ : ∃ u, u = fd (1 / 1000) := ⟨_, rfl⟩
  rw [← hu] at a1
  have a2 := abs_le.1 (small (350 * u) (by rw [abs_le]; norm_num at a1 ⊢; constructor <;> linarith))
  obtain ⟨v, hv⟩ : ∃ v, v = fd (350 * u) := ⟨_, rfl⟩
  rw [← hv] at a2
  have hlit : UnitTypes.scaledInt fd (1 / 1000) 350 = v := by rw [UnitTypes.scaledInt, f350, ← hu, hv]
  have a3 := abs_le.1 (small (v * (44100 : ℕ)) (by rw [abs_le]; norm_num at a1 a2 ⊢; constructor <;> linarith))
  rw [hlit, delaySize]
  generalize fd (v * (44100 : ℕ)) = w at *
  have c1 : 15434 < ⌈w⌉ := by rw [Int.lt_ceil]; norm_num at a1 a2 a3 ⊢; linarith
  have c2 : ⌈w⌉ ≤ 15436 := by rw [Int.ceil_le]; norm_num at a1 a2 a3 ⊢; linarith
  have q1 : (-1 : ℚ) < (⌈w⌉ : ℚ) := by exact_mod_cast (by omega : (-1 : ℤ) < ⌈w⌉)
  have q2 : ((⌈w⌉ : ℤ) : ℚ) < 2 ^ 64 := by
    have : ((⌈w⌉ : ℤ) : ℚ) ≤ 15436 := by exact_mod_cast c2
    exact lt_of_le_of_lt this (by norm_num)
  refine ⟨_, if_pos ⟨q1, q2⟩, ?_, ?_⟩ <;> omega

/-- **C99 violation.** The echo of delay.cpp, set to 350 ms: at 44100 samples per second the echo of a click comes after 16384 samples (371.5 ms),
not after 15435 (350 ms), where the output is silent. -/
theorem C99_violation {fl fd : ℚ → ℚ} (L : Lawful 24 (-149) fl) (D : Lawful 53 (-1074) fd) :
    ∃ e0, Echo.mk' fd (UnitTypes.scaledInt fd (1 / 1000) 350) 44100 (fl (85 / 100)) = .ok e0 ∧ ∀ sizes : List Nat, 16384 < sizes.sum →
      ∃ e outs, runC (Echo.process fl) e0 (blocks (fun n => if n = 0 then 1 else 0) 0 sizes) = .ok (e, outs) ∧ outs.flatten[0]? = some (1, 1) ∧
        (∀ n, 0 < n → n < 16384 → outs.flatten[n]? = some (0, 0)) ∧ outs.flatten[16384]? = some (0, fl (85 / 100)) := by
  obtain ⟨size, h1, h2, h3⟩ := Example.size350 D
  have hp : IsLeastPow2 size 16384 := ⟨⟨14, by norm_num⟩, by omega, by
    rintro j hj
    by_contra hc
    have : 2 ^ j < 2 ^ 14 := by omega
    have hj14 : j < 14 := (Nat.pow_lt_pow_iff_right (by omega)).1 this
    have : 2 ^ j ≤ 2 ^ 13 := Nat.pow_le_pow_right (by omega) (by omega)
    omega⟩
  have hk : ∀ sizes, _ := fun sizes => C99_echo fl fd (UnitTypes.scaledInt fd (1 / 1000) 350) 44100 (fl (85 / 100)) size 16384 h1 (by omega) hp
    (fun n => if n = 0 then 1 else 0) sizes
  have f0 : fl 0 = 0 := L.fix 0 ⟨0, 0, by norm_num, by norm_num, by norm_num⟩
  have f1 : fl 1 = 1 := L.fix 1 ⟨1, 0, by norm_num, by norm_num, by norm_num⟩
  have q0 : echoSpec fl (fl (85 / 100)) 16384 (fun n => if n = 0 then 1 else 0) 0 = 1 := by
    rw [echoSpec, dif_neg (by omega)]; simp [f1]
  obtain ⟨e0, -, -, m0, -⟩ := hk []
  refine ⟨e0, m0, fun sizes hsum => ?_⟩
  obtain ⟨e0', e, outs, m1, r1, -, -, o⟩ := hk sizes
  have : e0' = e0 := by rw [m0] at m1; injection m1 with m1; exact m1.symm
  subst this
  refine ⟨e, outs, r1, ?_, fun n hn0 hn => ?_, ?_⟩
  · rw [o 0 (by omega), q0]; rfl
  · rw [o n (by omega), echoSpec, dif_neg (by omega), if_neg (by omega), add_zero, f0]
  · rw [o 16384 hsum, echoSpec, dif_pos (by omega), if_neg (by omega), show 16384 - 16384 = 0 from rfl, q0, one_mul, zero_add,
      L.fix _ (L.rep _), L.fix _ (L.rep _)]
end Verif
