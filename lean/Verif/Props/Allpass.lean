import Verif.Model.Fx
import Verif.Model.Signal
import Mathlib.Tactic.Linarith
import Mathlib.Tactic.FieldSimp
import Mathlib.Tactic.LinearCombination
import Mathlib.Analysis.Complex.Trigonometric
import Mathlib.Analysis.SpecialFunctions.Complex.Arg
import Mathlib.Analysis.SpecificLimits.Basic
/-!
# All-pass filters (C57)
-/
set_option linter.unusedSectionVars false
namespace Verif
open Fx Filter Topology

/-- Specification: the energy of a signal. -/
def energy {K : Type} [Field K] (xs : List K) : K := (xs.map (· ^ 2)).sum

section
variable {K : Type} [Field K] [LinearOrder K] [IsStrictOrderedRing K]

/-- A processor with a stored energy `e`: the energy of the outputs plus the increase of the stored energy is the energy
of the inputs. -/
private theorem lossless {σ : Type} (step : σ → K → σ × K) (e : σ → K)
    (h : ∀ st s, e (step st s).1 + (step st s).2 ^ 2 = e st + s ^ 2) (st : σ) (xs : List K) :
    energy (outputs step st xs) + e (final step st xs) = energy xs + e st := by
  induction xs generalizing st with
  | nil => simp [outputs, final, energy]
  | cons x xs ih =>
    have := ih (step st x).1
    have := h st x
    simp only [energy, outputs, final, List.map_cons, List.sum_cons] at *
    linarith

/-- **C57, one-pole all-pass.** For every pole `a` inside the unit circle and every input: the energy of the output never
exceeds that of the input, and after the input has ended (followed by `n` zeros) the missing energy is what is still
stored, which shrinks by the factor `a²` per sample; so all the energy comes out. -/
theorem C57_one_pole (a : K) (ha : |a| < 1) (xs : List K) (n : Nat) :
    let y := final (onePoleAllpass a) 0 xs
    energy (outputs (onePoleAllpass a) 0 xs) ≤ energy xs ∧
    energy (outputs (onePoleAllpass a) 0 (xs ++ List.replicate n 0)) = energy xs - (a ^ 2) ^ n * (y ^ 2 / (1 - a ^ 2)) := by
  have ha2 : 0 < 1 - a ^ 2 := by
    have := (sq_lt_one_iff_abs_lt_one a).2 ha; linarith
  have key := lossless (onePoleAllpass a) (fun y => y ^ 2 / (1 - a ^ 2)) (by
    intro y s
    simp only [onePoleAllpass]
    field_simp
    ring)
  have tail : ∀ (n : Nat) (y : K), final (onePoleAllpass a) y (List.replicate n 0) = (-a) ^ n * y := by
    intro n
    induction n with
    | zero => intro y; simp [final]
    | succ n ih =>
      intro y
      rw [List.replicate_succ, final, ih]
      simp only [onePoleAllpass]
      ring
  have e0 : ∀ n, energy (List.replicate n (0 : K)) = 0 := by intro n; simp [energy]
  have eapp : ∀ xs ys : List K, energy (xs ++ ys) = energy xs + energy ys := by intro xs ys; simp [energy]
  intro y
  refine ⟨?_, ?_⟩
  · have := key 0 xs
    have h2 : 0 ≤ (final (onePoleAllpass a) 0 xs) ^ 2 / (1 - a ^ 2) := by positivity
    rw [show (0 : K) ^ 2 / (1 - a ^ 2) = 0 by simp] at this
    linarith
  · have := key 0 (xs ++ List.replicate n 0)
    rw [final_append, tail, eapp, e0] at this
    rw [show (0 : K) ^ 2 / (1 - a ^ 2) = 0 by simp] at this
    have e : ((-a) ^ n * final (onePoleAllpass a) 0 xs) ^ 2 = (a ^ 2) ^ n * y ^ 2 := by
      rw [mul_pow, ← pow_mul, mul_comm n 2, pow_mul, neg_sq]
    rw [e] at this
    rw [← mul_div_assoc]
    linarith

/-- Stored energy of a polyphase all-pass. -/
private def Poly.stored (a : K) (p : Poly K) : K := ((a * p.y2 - p.x2) ^ 2 + (a * p.y1 - p.x1) ^ 2) / (1 - a ^ 2)

private theorem poly_lossless (a : K) (ha : 0 < 1 - a ^ 2) (p : Poly K) (s : K) :
    Poly.stored a (p.feed a s).1 + (p.feed a s).2 ^ 2 = Poly.stored a p + s ^ 2 := by
  simp only [Poly.stored, Poly.feed]
  field_simp
  ring

private theorem poly_energy (a : K) (ha : |a| < 1) (xs : List K) :
    energy (outputs (Poly.feed a) Poly.init xs) ≤ energy xs := by
  have ha2 : 0 < 1 - a ^ 2 := by
    have := (sq_lt_one_iff_abs_lt_one a).2 ha; linarith
  have := lossless (Poly.feed a) (Poly.stored a) (poly_lossless a ha2) Poly.init xs
  have h0 : Poly.stored a Poly.init = 0 := by simp [Poly.stored, Poly.init]
  have h1 : 0 ≤ Poly.stored a (final (Poly.feed a) Poly.init xs) := by unfold Poly.stored; positivity
  rw [h0] at this
  linarith

/-- **C57, polyphase all-pass.** The energy of the output never exceeds that of the input, and after the input has ended
the missing energy shrinks by the factor `a²` every two samples. -/
theorem C57_polyphase (a : K) (ha : |a| < 1) (xs : List K) :
    energy (outputs (Poly.feed a) Poly.init xs) ≤ energy xs ∧
    ∃ E, ∀ n, energy (outputs (Poly.feed a) Poly.init (xs ++ List.replicate (2 * n) 0)) = energy xs - (a ^ 2) ^ n * E := by
  have ha2 : 0 < 1 - a ^ 2 := by
    have := (sq_lt_one_iff_abs_lt_one a).2 ha; linarith
  refine ⟨poly_energy a ha xs, Poly.stored a (final (Poly.feed a) Poly.init xs), ?_⟩
  intro n
  have key := lossless (Poly.feed a) (Poly.stored a) (poly_lossless a ha2) Poly.init (xs ++ List.replicate (2 * n) 0)
  have tail : ∀ (n : Nat) (p : Poly K),
      Poly.stored a (final (Poly.feed a) p (List.replicate (2 * n) 0)) = (a ^ 2) ^ n * Poly.stored a p := by
    intro n
    induction n with
    | zero => intro p; simp [final]
    | succ n ih =>
      intro p
      rw [show 2 * (n + 1) = 2 * n + 2 by ring, List.replicate_succ, List.replicate_succ, final, final, ih]
      simp only [Poly.stored, Poly.feed]
      field_simp
      ring
  have h0 : Poly.stored a Poly.init = 0 := by simp [Poly.stored, Poly.init]
  have e0 : ∀ n, energy (List.replicate n (0 : K)) = 0 := by intro n; simp [energy]
  have eapp : ∀ xs ys : List K, energy (xs ++ ys) = energy xs + energy ys := by intro xs ys; simp [energy]
  rw [final_append, tail, eapp, e0, h0] at key
  linarith

/-- The outputs of a Hilbert filter are two chains of all-pass filters. -/
private theorem hilbert_outputs (k : Fin 8 → K) (h : Hilbert K) (xs : List K) :
    let o := outputs (Hilbert.feed k) h xs
    o.map Prod.fst = outputs delay1 h.dly (outputs (Poly.feed (k 3)) h.d (outputs (Poly.feed (k 2)) h.c
      (outputs (Poly.feed (k 1)) h.b (outputs (Poly.feed (k 0)) h.a xs)))) ∧
    o.map Prod.snd = outputs (Poly.feed (k 7)) h.z (outputs (Poly.feed (k 6)) h.y
      (outputs (Poly.feed (k 5)) h.x (outputs (Poly.feed (k 4)) h.w xs))) := by
  induction xs generalizing h with
  | nil => simp [outputs]
  | cons x xs ih =>
    obtain ⟨i1, i2⟩ := ih (Hilbert.feed k h x).1
    refine ⟨?_, ?_⟩
    · simp only [outputs, List.map_cons]
      congr 1
    · simp only [outputs, List.map_cons]
      congr 1

end

private theorem hilbert_coef_lt (k : Fin 8 → ℝ) (hk : ∀ i, |k i - hilbertCoefs i| ≤ 1 / 10 ^ 7) (i : Fin 8) : |k i| < 1 := by
  have hb : ∀ i, (1 / 10 : ℚ) ≤ hilbertCoefs i ∧ hilbertCoefs i ≤ 0.9975 := by
    intro i; fin_cases i <;> simp [hilbertCoefs] <;> norm_num
  have h := abs_le.1 (hk i)
  have l : ((1 / 10 : ℚ) : ℝ) ≤ (hilbertCoefs i : ℝ) := by exact_mod_cast (hb i).1
  have u : (hilbertCoefs i : ℝ) ≤ ((0.9975 : ℚ) : ℝ) := by exact_mod_cast (hb i).2
  norm_num at l u h
  rw [abs_lt]; constructor <;> linarith

/-- **C57, Hilbert filter.** Whatever the exact `float` coefficients, neither output of the Hilbert filter ever contains more energy than the input. -/
theorem C57_hilbert_energy (k : Fin 8 → ℝ) (hk : ∀ i, |k i - hilbertCoefs i| ≤ 1 / 10 ^ 7) (xs : List ℝ) :
    let o := outputs (Hilbert.feed k) Hilbert.init xs
    energy (o.map Prod.fst) ≤ energy xs ∧ energy (o.map Prod.snd) ≤ energy xs := by
  have hk := hilbert_coef_lt k hk
  obtain ⟨e1, e2⟩ := hilbert_outputs k Hilbert.init xs
  have dl : ∀ ys : List ℝ, energy (outputs delay1 0 ys) ≤ energy ys := by
    intro ys
    have := lossless (K := ℝ) delay1 (fun y => y ^ 2) (by intro y s; simp [delay1, add_comm]) 0 ys
    have := sq_nonneg (final delay1 (0 : ℝ) ys)
    linarith
  intro o
  refine ⟨?_, ?_⟩
  · simp only [o]
    rw [e1]
    refine (dl _).trans ?_
    exact (poly_energy _ (hk 3) _).trans ((poly_energy _ (hk 2) _).trans ((poly_energy _ (hk 1) _).trans
      (poly_energy _ (hk 0) _)))
  · simp only [o]
    rw [e2]
    exact (poly_energy _ (hk 7) _).trans ((poly_energy _ (hk 6) _).trans ((poly_energy _ (hk 5) _).trans
      (poly_energy _ (hk 4) _)))


/-! ## Frequency response -/

/-- Specification: a processor `F` of endless signals shifts the phase of a sinusoid of frequency `θ` (radians per
sample) by `ψ` and leaves its amplitude alone: an input that approaches the sinusoid gives an output that approaches the
shifted sinusoid. -/
def Shifts (F : (ℕ → ℝ) → ℕ → ℝ) (θ ψ : ℝ) : Prop :=
  ∀ (φ : ℝ) (x : ℕ → ℝ), Tendsto (fun n => x n - Real.cos (θ * n + φ)) atTop (𝓝 0) →
    Tendsto (fun n => F x n - Real.cos (θ * n + φ + ψ)) atTop (𝓝 0)

private theorem Shifts.comp {F G : (ℕ → ℝ) → ℕ → ℝ} {θ ψ χ : ℝ} (hF : Shifts F θ ψ) (hG : Shifts G θ χ) :
    Shifts (fun x => G (F x)) θ (ψ + χ) := by
  intro φ x hx
  have := hG (φ + ψ) (F x) (by simpa [add_assoc] using hF φ x hx)
  simpa [add_assoc] using this

private theorem decay_le (A u : ℕ → ℝ) (r : ℝ) (hr0 : 0 ≤ r) (hr1 : r < 1) (hA : ∀ n, 0 ≤ A n)
    (h : ∀ n, A (n + 1) ≤ r * A n + u n) (hu : Tendsto u atTop (𝓝 0)) : Tendsto A atTop (𝓝 0) := by
  rw [Metric.tendsto_atTop]
  intro ε hε
  have hp : 0 < ε * (1 - r) / 2 := by have : 0 < 1 - r := by linarith
                                      positivity
  obtain ⟨N, hN⟩ := (Metric.tendsto_atTop.1 hu) _ hp
  have b : ∀ k, A (N + k) ≤ r ^ k * A N + ε / 2 := by
    intro k
    induction k with
    | zero => simp; linarith
    | succ k ih =>
      have h1 := h (N + k)
      have h2 := hN (N + k) (by omega)
      rw [Real.dist_eq, sub_zero] at h2
      have h3 := (abs_lt.1 h2).2
      have h4 := mul_le_mul_of_nonneg_left ih hr0
      rw [show N + (k + 1) = N + k + 1 by ring, pow_succ]
      nlinarith
  have hlim : Tendsto (fun k => r ^ k * A N) atTop (𝓝 0) := by
    simpa using (tendsto_pow_atTop_nhds_zero_of_lt_one hr0 hr1).mul_const (A N)
  obtain ⟨M, hM⟩ := (Metric.tendsto_atTop.1 hlim) (ε / 2) (by linarith)
  refine ⟨N + M, fun n hn => ?_⟩
  obtain ⟨k, rfl⟩ : ∃ k, n = N + k := ⟨n - N, by omega⟩
  have h5 := hM k (by omega)
  rw [Real.dist_eq, sub_zero] at h5
  have := (abs_lt.1 h5).2
  have := b k
  rw [Real.dist_eq, sub_zero, abs_of_nonneg (hA _)]
  linarith

private theorem decay1 (y u : ℕ → ℝ) (a : ℝ) (ha : |a| < 1) (h : ∀ n, y (n + 1) = a * y n + u n)
    (hu : Tendsto u atTop (𝓝 0)) : Tendsto y atTop (𝓝 0) := by
  rw [tendsto_zero_iff_abs_tendsto_zero]
  refine decay_le _ (fun n => |u n|) |a| (abs_nonneg _) ha (fun n => abs_nonneg _) (fun n => ?_) ?_
  · simp only [Function.comp, h n]
    exact (abs_add_le _ _).trans (by rw [abs_mul])
  · simpa using hu.abs

private theorem decay2 (y u : ℕ → ℝ) (a : ℝ) (ha : |a| < 1) (h : ∀ n, y (n + 2) = a * y n + u n)
    (hu : Tendsto u atTop (𝓝 0)) : Tendsto y atTop (𝓝 0) := by
  set r := Real.sqrt |a| with hr
  have hr0 : 0 ≤ r := Real.sqrt_nonneg _
  have hrr : r * r = |a| := Real.mul_self_sqrt (abs_nonneg _)
  have hr1 : r < 1 := by nlinarith
  have hA : Tendsto (fun n => r * |y n| + |y (n + 1)|) atTop (𝓝 0) := by
    refine decay_le _ (fun n => |u n|) r hr0 hr1 (fun n => by positivity) (fun n => ?_) (by simpa using hu.abs)
    have h1 : |y (n + 2)| ≤ |a| * |y n| + |u n| := by
      rw [h n]; exact (abs_add_le _ _).trans (by rw [abs_mul])
    simp only [show n + 1 + 1 = n + 2 by ring]
    rw [← hrr] at h1
    nlinarith
  rw [← tendsto_add_atTop_iff_nat 1, tendsto_zero_iff_abs_tendsto_zero]
  refine squeeze_zero (fun n => abs_nonneg _) (fun n => ?_) hA
  have : 0 ≤ r * |y n| := by positivity
  simp only [Function.comp]
  linarith

open Complex in
private theorem re_shift (H : ℂ) (ψ : ℝ) (hH : H = exp (ψ * I)) (t : ℝ) : Real.cos (t + ψ) = (H * exp (t * I)).re := by
  rw [hH, ← Complex.exp_add, show (ψ : ℂ) * I + t * I = ((t + ψ : ℝ) : ℂ) * I by push_cast; ring,
    Complex.exp_ofReal_mul_I_re]

open Complex in
/-- The polyphase all-pass shifts the phase by the argument of `(a - z²) / (1 - a z²)`. -/
private theorem poly_shifts (a θ ψ : ℝ) (ha : |a| < 1) (p : Poly ℝ)
    (hψ : (a : ℂ) - exp (-(2 * θ * I)) = exp (ψ * I) * (1 - a * exp (-(2 * θ * I)))) :
    Shifts (outAt (Poly.feed a) p) θ ψ := by
  intro φ x hx
  set e := fun n => x n - Real.cos (θ * n + φ) with he
  have hrec : ∀ n, outAt (Poly.feed a) p x (n + 2) = a * x (n + 2) - x n + a * outAt (Poly.feed a) p x n := by
    intro n
    have h1 : (stateAt (Poly.feed a) p x (n + 2)).y2 = outAt (Poly.feed a) p x n := rfl
    have h2 : (stateAt (Poly.feed a) p x (n + 2)).x2 = x n := rfl
    conv_lhs => simp only [outAt, Poly.feed]
    rw [h1, h2]; ring
  have part : ∀ n : ℕ, Real.cos (θ * (n + 2 : ℕ) + φ + ψ) = a * Real.cos (θ * (n + 2 : ℕ) + φ) - Real.cos (θ * n + φ)
      + a * Real.cos (θ * n + φ + ψ) := by
    intro n
    rw [re_shift _ ψ rfl (θ * (n + 2 : ℕ) + φ), re_shift _ ψ rfl (θ * n + φ),
      ← Complex.exp_ofReal_mul_I_re (θ * (n + 2 : ℕ) + φ), ← Complex.exp_ofReal_mul_I_re (θ * n + φ)]
    rw [← Complex.re_ofReal_mul, ← Complex.re_ofReal_mul, ← Complex.sub_re, ← Complex.add_re]
    congr 1
    have e2 : exp (((θ * n + φ : ℝ) : ℂ) * I) = exp (-(2 * θ * I)) * exp (((θ * (n + 2 : ℕ) + φ : ℝ) : ℂ) * I) := by
      rw [← Complex.exp_add]; congr 1; push_cast; ring
    rw [e2]
    linear_combination (-exp (((θ * (n + 2 : ℕ) + φ : ℝ) : ℂ) * I)) * hψ
  have hu : Tendsto (fun n => a * e (n + 2) - e n) atTop (𝓝 0) := by
    simpa using (((tendsto_add_atTop_iff_nat 2).2 hx).const_mul a).sub hx
  refine decay2 _ _ a ha (fun n => ?_) hu
  rw [hrec n, part n]
  simp only [he]
  ring

open Complex in
/-- The one-pole all-pass shifts the phase by the argument of `(a + z) / (1 + a z)`. -/
private theorem one_pole_shifts (a θ ψ y : ℝ) (ha : |a| < 1)
    (hψ : (a : ℂ) + exp (-(θ * I)) = exp (ψ * I) * (1 + a * exp (-(θ * I)))) :
    Shifts (outAt (onePoleAllpass a) y) θ ψ := by
  intro φ x hx
  set e := fun n => x n - Real.cos (θ * n + φ) with he
  have hrec : ∀ n, outAt (onePoleAllpass a) y x (n + 1) = a * x (n + 1) + x n - a * outAt (onePoleAllpass a) y x n := by
    intro n
    have h1 : stateAt (onePoleAllpass a) y x (n + 1) = x n - a * outAt (onePoleAllpass a) y x n := rfl
    conv_lhs => simp only [outAt, onePoleAllpass]
    rw [h1]; ring
  have part : ∀ n : ℕ, Real.cos (θ * (n + 1 : ℕ) + φ + ψ) = a * Real.cos (θ * (n + 1 : ℕ) + φ) + Real.cos (θ * n + φ)
      - a * Real.cos (θ * n + φ + ψ) := by
    intro n
    rw [re_shift _ ψ rfl (θ * (n + 1 : ℕ) + φ), re_shift _ ψ rfl (θ * n + φ),
      ← Complex.exp_ofReal_mul_I_re (θ * (n + 1 : ℕ) + φ), ← Complex.exp_ofReal_mul_I_re (θ * n + φ)]
    rw [← Complex.re_ofReal_mul, ← Complex.re_ofReal_mul, ← Complex.add_re, ← Complex.sub_re]
    congr 1
    have e2 : exp (((θ * n + φ : ℝ) : ℂ) * I) = exp (-(θ * I)) * exp (((θ * (n + 1 : ℕ) + φ : ℝ) : ℂ) * I) := by
      rw [← Complex.exp_add]; congr 1; push_cast; ring
    rw [e2]
    linear_combination (-exp (((θ * (n + 1 : ℕ) + φ : ℝ) : ℂ) * I)) * hψ
  have hu : Tendsto (fun n => a * e (n + 1) + e n) atTop (𝓝 0) := by
    simpa using (((tendsto_add_atTop_iff_nat 1).2 hx).const_mul a).add hx
  refine decay1 _ _ (-a) (by simpa using ha) (fun n => ?_) hu
  rw [hrec n, part n]
  simp only [he]
  ring

private theorem delay1_shifts (θ y : ℝ) : Shifts (outAt delay1 y) θ (-θ) := by
  intro φ x hx
  rw [← tendsto_add_atTop_iff_nat 1]
  refine hx.congr fun n => ?_
  have : outAt delay1 y x (n + 1) = x n := rfl
  rw [this]
  congr 2; push_cast; ring

open Complex in
/-- A number of modulus one is the exponential of its argument. -/
private theorem exists_phase (a : ℝ) (ha : |a| < 1) (w : ℂ) (hw : ‖w‖ = 1) :
    ∃ ψ : ℝ, (a : ℂ) - w = exp (ψ * I) * (1 - a * w) := by
  have hd : (1 - a * w : ℂ) ≠ 0 := by
    intro h
    have h1 : ‖(a : ℂ) * w‖ = 1 := by rw [← sub_eq_zero.1 h]; simp
    rw [norm_mul, hw, mul_one, Complex.norm_real, Real.norm_eq_abs] at h1
    linarith
  have hn : ‖(a : ℂ) - w‖ = ‖(1 - a * w : ℂ)‖ := by
    have e : (1 - a * w : ℂ) = w * (starRingEnd ℂ) (w - a) := by
      rw [map_sub, Complex.conj_ofReal, mul_sub, Complex.mul_conj, Complex.normSq_eq_norm_sq, hw]
      push_cast; ring
    rw [e, norm_mul, hw, one_mul, Complex.norm_conj, norm_sub_rev]
  refine ⟨(((a : ℂ) - w) / (1 - a * w)).arg, ?_⟩
  have h1 : ‖((a : ℂ) - w) / (1 - a * w)‖ = 1 := by
    rw [norm_div, hn, div_self]; simpa using hd
  have := Complex.norm_mul_exp_arg_mul_I (((a : ℂ) - w) / (1 - a * w))
  rw [h1, Complex.ofReal_one, one_mul] at this
  rw [this, div_mul_cancel₀ _ hd]

private theorem norm_two (θ : ℝ) : ‖Complex.exp (-(2 * θ * Complex.I))‖ = 1 := by
  rw [show (-(2 * θ * Complex.I) : ℂ) = ((-(2 * θ) : ℝ) : ℂ) * Complex.I by push_cast; ring]
  exact Complex.norm_exp_ofReal_mul_I _

/-- **C57, polyphase all-pass.** At every frequency, from every state, a sinusoid only has its phase shifted. -/
theorem C57_polyphase_response (a θ : ℝ) (ha : |a| < 1) : ∃ ψ, ∀ p, Shifts (outAt (Poly.feed a) p) θ ψ := by
  obtain ⟨ψ, h⟩ := exists_phase a ha _ (norm_two θ)
  exact ⟨ψ, fun p => poly_shifts a θ ψ ha p h⟩

/-- **C57, one-pole all-pass.** At every frequency, from every state, a sinusoid only has its phase shifted. -/
theorem C57_one_pole_response (a θ : ℝ) (ha : |a| < 1) : ∃ ψ, ∀ y, Shifts (outAt (onePoleAllpass a) y) θ ψ := by
  obtain ⟨ψ, h⟩ := exists_phase (-a) (by simpa using ha) (Complex.exp (-(θ * Complex.I))) (by
    rw [← neg_mul, ← Complex.ofReal_neg]; exact Complex.norm_exp_ofReal_mul_I _)
  refine ⟨ψ + Real.pi, fun y => one_pole_shifts a θ _ y ha ?_⟩
  have : Complex.exp (((ψ + Real.pi : ℝ) : ℂ) * Complex.I) = -Complex.exp (ψ * Complex.I) := by
    push_cast; rw [add_mul, Complex.exp_add, Complex.exp_pi_mul_I]; ring
  rw [this]
  push_cast at h
  linear_combination -h

/-- **C57, one-pole all-pass.** With the coefficient `tan (π f / sps - π / 4)`, the phase shift at the pivot frequency `f` is
a quarter of a period. -/
theorem C57_pivot (f sps y : ℝ) (hs : 0 < sps) (h0 : 0 < f) (h1 : f < sps / 2) :
    let a := Real.tan (Real.pi * f / sps - Real.pi / 4)
    |a| < 1 ∧ Shifts (outAt (onePoleAllpass a) y) (2 * Real.pi * f / sps) (-(Real.pi / 2)) := by
  have hp := Real.pi_pos
  set u := Real.pi * f / sps with hu
  have u0 : 0 < u := by positivity
  have u1 : u < Real.pi / 2 := by rw [hu, div_lt_iff₀ hs]; nlinarith
  intro a
  have ha : |a| < 1 := by
    rw [abs_lt]
    have t4 := Real.tan_pi_div_four
    have m := Real.tan_lt_tan_of_lt_of_lt_pi_div_two (x := u - Real.pi / 4) (y := Real.pi / 4) (by linarith) (by linarith)
      (by linarith)
    have m2 := Real.tan_lt_tan_of_lt_of_lt_pi_div_two (x := -(Real.pi / 4)) (y := u - Real.pi / 4) (by linarith) (by linarith)
      (by linarith)
    rw [Real.tan_neg] at m2
    simp only [a]
    constructor <;> linarith
  refine ⟨ha, ?_⟩
  have hθ : 2 * Real.pi * f / sps = 2 * u := by rw [hu]; ring
  rw [hθ]
  refine one_pole_shifts a _ _ y ha ?_
  have em : Complex.exp ((-(Real.pi / 2) : ℝ) * Complex.I) = -Complex.I := by
    have : ((-(Real.pi / 2) : ℝ) : ℂ) * Complex.I = -(Real.pi / 2 * Complex.I) := by push_cast; ring
    rw [this, Complex.exp_neg, Complex.exp_pi_div_two_mul_I, Complex.inv_I]
  rw [em]
  have ez : Complex.exp (-(((2 * u : ℝ) : ℂ) * Complex.I)) = (Real.cos (2 * u) : ℂ) - Real.sin (2 * u) * Complex.I := by
    rw [← neg_mul, ← Complex.ofReal_neg, Complex.exp_mul_I, ← Complex.ofReal_cos, ← Complex.ofReal_sin, Real.cos_neg,
      Real.sin_neg]
    push_cast; ring
  rw [ez]
  -- `a = (sin u - cos u) / (sin u + cos u)`
  have hc : 0 < Real.cos u := Real.cos_pos_of_mem_Ioo ⟨by linarith, u1⟩
  have hsn : 0 < Real.sin u := Real.sin_pos_of_pos_of_lt_pi u0 (by linarith)
  have ea : a * (Real.sin u + Real.cos u) = Real.sin u - Real.cos u := by
    have h2 : Real.sqrt 2 / 2 ≠ 0 := by positivity
    simp only [a]
    rw [Real.tan_eq_sin_div_cos, Real.sin_sub, Real.cos_sub, Real.cos_pi_div_four, Real.sin_pi_div_four]
    have h3 : Real.cos u * (Real.sqrt 2 / 2) + Real.sin u * (Real.sqrt 2 / 2) ≠ 0 := by positivity
    field_simp
    ring
  have eb : a * (1 + Real.sin (2 * u)) = -Real.cos (2 * u) := by
    have sc := Real.sin_sq_add_cos_sq u
    have hne : Real.sin u + Real.cos u ≠ 0 := by positivity
    rw [Real.sin_two_mul, Real.cos_two_mul]
    have : 1 + 2 * Real.sin u * Real.cos u = (Real.sin u + Real.cos u) * (Real.sin u + Real.cos u) := by
      linear_combination -sc
    rw [this, ← mul_assoc, ea]
    linear_combination sc
  have sc2 := Real.sin_sq_add_cos_sq (2 * u)
  have ec : a * Real.cos (2 * u) = -(1 - Real.sin (2 * u)) := by
    have hne : 1 + Real.sin (2 * u) ≠ 0 := by
      have : 0 < Real.sin (2 * u) := Real.sin_pos_of_pos_of_lt_pi (by linarith) (by linarith)
      positivity
    apply mul_right_cancel₀ hne
    linear_combination Real.cos (2 * u) * eb - sc2
  generalize Real.cos (2 * u) = c at *
  generalize Real.sin (2 * u) = s at *
  have eb' : (a : ℂ) * (1 + s) = -c := by exact_mod_cast eb
  have ec' : (a : ℂ) * c = -(1 - s) := by exact_mod_cast ec
  linear_combination eb' + Complex.I * ec' - (a * s) * Complex.I_sq

/-! ## The Hilbert filter -/

private theorem hilbert_state (k : Fin 8 → ℝ) (h : Hilbert ℝ) (x : ℕ → ℝ) (n : ℕ) :
    let A := outAt (Poly.feed (k 0)) h.a x
    let B := outAt (Poly.feed (k 1)) h.b A
    let C := outAt (Poly.feed (k 2)) h.c B
    let D := outAt (Poly.feed (k 3)) h.d C
    let W := outAt (Poly.feed (k 4)) h.w x
    let X := outAt (Poly.feed (k 5)) h.x W
    let Y := outAt (Poly.feed (k 6)) h.y X
    stateAt (Hilbert.feed k) h x n = ⟨stateAt (Poly.feed (k 0)) h.a x n, stateAt (Poly.feed (k 1)) h.b A n,
      stateAt (Poly.feed (k 2)) h.c B n, stateAt (Poly.feed (k 3)) h.d C n, stateAt (Poly.feed (k 4)) h.w x n,
      stateAt (Poly.feed (k 5)) h.x W n, stateAt (Poly.feed (k 6)) h.y X n, stateAt (Poly.feed (k 7)) h.z Y n,
      stateAt delay1 h.dly D n⟩ := by
  induction n with
  | zero => rfl
  | succ n ih =>
    intro A B C D W X Y
    rw [stateAt, ih]
    rfl

private theorem hilbert_out (k : Fin 8 → ℝ) (h : Hilbert ℝ) (x : ℕ → ℝ) (n : ℕ) :
    outAt (Hilbert.feed k) h x n =
      (outAt delay1 h.dly (outAt (Poly.feed (k 3)) h.d (outAt (Poly.feed (k 2)) h.c (outAt (Poly.feed (k 1)) h.b
        (outAt (Poly.feed (k 0)) h.a x)))) n,
       outAt (Poly.feed (k 7)) h.z (outAt (Poly.feed (k 6)) h.y (outAt (Poly.feed (k 5)) h.x
        (outAt (Poly.feed (k 4)) h.w x))) n) := by
  rw [outAt, hilbert_state]
  rfl

/-- **C57, Hilbert filter.** At every frequency, from every state, both outputs have the amplitude of the input. -/
theorem C57_hilbert_response (k : Fin 8 → ℝ) (hk : ∀ i, |k i - hilbertCoefs i| ≤ 1 / 10 ^ 7) (θ : ℝ) :
    ∃ ψ χ, ∀ h, Shifts (fun x n => (outAt (Hilbert.feed k) h x n).1) θ ψ ∧
      Shifts (fun x n => (outAt (Hilbert.feed k) h x n).2) θ χ := by
  have hk := hilbert_coef_lt k hk
  have ph : ∀ i, ∃ ψ, ∀ p, Shifts (outAt (Poly.feed (k i)) p) θ ψ := fun i => C57_polyphase_response (k i) θ (hk i)
  choose ψ hψ using ph
  refine ⟨ψ 0 + ψ 1 + ψ 2 + ψ 3 + -θ, ψ 4 + ψ 5 + ψ 6 + ψ 7, fun h => ⟨?_, ?_⟩⟩
  · simp only [hilbert_out]
    exact ((((hψ 0 h.a).comp (hψ 1 h.b)).comp (hψ 2 h.c)).comp (hψ 3 h.d)).comp (delay1_shifts θ h.dly)
  · simp only [hilbert_out]
    exact (((hψ 4 h.w).comp (hψ 5 h.x)).comp (hψ 6 h.y)).comp (hψ 7 h.z)

/-- **C57, Hilbert filter.** At a quarter of the sample rate the two outputs are exactly a quarter of a period apart. -/
theorem C57_hilbert_quadrature (k : Fin 8 → ℝ) (hk : ∀ i, |k i - hilbertCoefs i| ≤ 1 / 10 ^ 7) (h : Hilbert ℝ) :
    Shifts (fun x n => (outAt (Hilbert.feed k) h x n).1) (Real.pi / 2) (-(Real.pi / 2)) ∧
    Shifts (fun x n => (outAt (Hilbert.feed k) h x n).2) (Real.pi / 2) 0 := by
  have hk := hilbert_coef_lt k hk
  have ph : ∀ i p, Shifts (outAt (Poly.feed (k i)) p) (Real.pi / 2) 0 := by
    intro i p
    refine poly_shifts (k i) _ 0 (hk i) p ?_
    have : Complex.exp (-(2 * ((Real.pi / 2 : ℝ) : ℂ) * Complex.I)) = -1 := by
      rw [show (-(2 * ((Real.pi / 2 : ℝ) : ℂ) * Complex.I)) = -(Real.pi * Complex.I) by push_cast; ring, Complex.exp_neg,
        Complex.exp_pi_mul_I]
      norm_num
    rw [this]; simp; ring
  refine ⟨?_, ?_⟩
  · have := ((((ph 0 h.a).comp (ph 1 h.b)).comp (ph 2 h.c)).comp (ph 3 h.d)).comp (delay1_shifts (Real.pi / 2) h.dly)
    simp only [hilbert_out]
    simpa using this
  · have := (((ph 4 h.w).comp (ph 5 h.x)).comp (ph 6 h.y)).comp (ph 7 h.z)
    simp only [hilbert_out]
    simpa using this

end Verif
