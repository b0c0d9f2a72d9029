import Verif.Props.RoundFilter
import Mathlib.Analysis.Complex.Norm
/-!
# C69: the resonant filter in `float` arithmetic
-/
namespace Verif
open Rounding RoundFilter

namespace RoundFilter

/-- `reso_filter`: rounding error of the first half of a step. -/
theorem reso_noise0 {fl : ℚ → ℚ} (L : Lawful 24 (-149) fl) {f g y0 y1 s B M0 M1 : ℚ} (f0 : 0 ≤ f) (f1 : f ≤ 1 / 2) (hg : |g| ≤ 31 / 10) (hs : |s| ≤ B)
    (h0 : |y0| ≤ M0) (h1 : |y1| ≤ M1) :
    |fl (y0 + fl (f * fl (fl (s - y0) + fl (g * fl (y0 - y1))))) - (y0 + f * (s - y0 + g * (y0 - y1)))|
      ≤ uq * (M0 + 202 / 100 * (B + M0) + 8 * (M0 + M1)) + 8 * eq := by
  have B0 : 0 ≤ B := (abs_nonneg _).trans hs
  have q0 : 0 ≤ M0 := (abs_nonneg _).trans h0
  have q1 : 0 ≤ M1 := (abs_nonneg _).trans h1
  have fa : |f| ≤ 1 / 2 := by rw [abs_of_nonneg f0]; exact f1
  have mf : ∀ {x X : ℚ}, |x| ≤ X → |f * x| ≤ 1 / 2 * X := fun {x X} h => by
    rw [abs_mul]; exact mul_le_mul fa h (abs_nonneg _) (by norm_num)
  have mg : ∀ {x X : ℚ}, |x| ≤ X → |g * x| ≤ 31 / 10 * X := fun {x X} h => by
    rw [abs_mul]; exact mul_le_mul hg h (abs_nonneg _) (by norm_num)
  have e1 : |fl (s - y0) - (s - y0)| ≤ uq * (B + M0) + eq :=
    (errQ L _).trans (by have := mul_le_mul_of_nonneg_left (absSub hs h0) (by norm_num : 0 ≤ uq); linarith)
  have e2 : |fl (y0 - y1) - (y0 - y1)| ≤ uq * (M0 + M1) + eq :=
    (errQ L _).trans (by have := mul_le_mul_of_nonneg_left (absSub h0 h1) (by norm_num : 0 ≤ uq); linarith)
  have e3 := stepQ L (xh := g * fl (y0 - y1)) (x := g * (y0 - y1)) (le_of_eq_of_le (congrArg abs (mul_sub _ _ _).symm) (mg e2)) (mg (absSub h0 h1))
  have b4 := absAdd (absSub hs h0) (mg (absSub h0 h1))
  have e4 := stepQ L (xh := fl (s - y0) + fl (g * fl (y0 - y1))) (x := s - y0 + g * (y0 - y1))
    (le_of_eq_of_le (congrArg abs (add_sub_add_comm _ _ _ _)) (absAdd e1 e3)) b4
  have e5 := stepQ L (xh := f * fl (fl (s - y0) + fl (g * fl (y0 - y1)))) (x := f * (s - y0 + g * (y0 - y1)))
    (le_of_eq_of_le (congrArg abs (mul_sub _ _ _).symm) (mf e4)) (mf b4)
  have e6 := stepQ L (xh := y0 + fl (f * fl (fl (s - y0) + fl (g * fl (y0 - y1))))) (x := y0 + f * (s - y0 + g * (y0 - y1)))
    (le_of_eq_of_le (congrArg abs (add_sub_add_left_eq_sub _ _ _)) e5) (absAdd h0 (mf b4))
  refine e6.trans ?_
  have := eq_pos
  generalize eq = h at *
  unfold uq
  nlinarith

/-- `reso_filter`: rounding error of the second half of a step. -/
theorem reso_noise1 {fl : ℚ → ℚ} (L : Lawful 24 (-149) fl) {f m y1 M0 M1 : ℚ} (f0 : 0 ≤ f) (f1 : f ≤ 1 / 2) 
    (h0 : |m| ≤ M0) (h1 : |y1| ≤ M1) :
    |fl (y1 + fl (f * fl (m - y1))) - (y1 + f * (m - y1))| ≤ uq * (M1 + 152 / 100 * (M0 + M1)) + 3 * eq := by
  have q0 : 0 ≤ M0 := (abs_nonneg _).trans h0
  have q1 : 0 ≤ M1 := (abs_nonneg _).trans h1
  have fa : |f| ≤ 1 / 2 := by rw [abs_of_nonneg f0]; exact f1
  have mf : ∀ {x X : ℚ}, |x| ≤ X → |f * x| ≤ 1 / 2 * X := fun {x X} h => by
    rw [abs_mul]; exact mul_le_mul fa h (abs_nonneg _) (by norm_num)
  have e2 : |fl (m - y1) - (m - y1)| ≤ uq * (M0 + M1) + eq :=
    (errQ L _).trans (by have := mul_le_mul_of_nonneg_left (absSub h0 h1) (by norm_num : 0 ≤ uq); linarith)
  have e3 := stepQ L (xh := f * fl (m - y1)) (x := f * (m - y1)) (le_of_eq_of_le (congrArg abs (mul_sub _ _ _).symm) (mf e2)) (mf (absSub h0 h1))
  have e4 := stepQ L (xh := y1 + fl (f * fl (m - y1))) (x := y1 + f * (m - y1))
    (le_of_eq_of_le (congrArg abs (add_sub_add_left_eq_sub _ _ _)) e3) (absAdd h1 (mf (absSub h0 h1)))
  refine e4.trans ?_
  have := eq_pos
  generalize eq = h at *
  unfold uq
  nlinarith

/-- The first half of a step is bounded. -/
theorem reso_half {f g y0 y1 s B M0 M1 : ℚ} (f0 : 0 ≤ f) (f1 : f ≤ 1 / 2) (hg : |g| ≤ 31 / 10) (hs : |s| ≤ B)
    (h0 : |y0| ≤ M0) (h1 : |y1| ≤ M1) : |y0 + f * (s - y0 + g * (y0 - y1))| ≤ M0 + 1 / 2 * (B + M0 + 31 / 10 * (M0 + M1)) := by
  have fa : |f| ≤ 1 / 2 := by rw [abs_of_nonneg f0]; exact f1
  have mf : ∀ {x X : ℚ}, |x| ≤ X → |f * x| ≤ 1 / 2 * X := fun {x X} h => by
    rw [abs_mul]; exact mul_le_mul fa h (abs_nonneg _) (by norm_num)
  have mg : ∀ {x X : ℚ}, |x| ≤ X → |g * x| ≤ 31 / 10 * X := fun {x X} h => by
    rw [abs_mul]; exact mul_le_mul hg h (abs_nonneg _) (by norm_num)
  exact absAdd h0 (mf (absAdd (absSub hs h0) (mg (absSub h0 h1))))

/-- Modal coordinate of the filter: `z = d0 + c d1` with `c² + h (1 + f) c + h = 0`, `h p = g`, `p = 1 - f + f g`. -/
theorem reso_modal {f g p h e d0 d1 n0 n1 : ℝ} {c : ℂ} (hc : c ^ 2 + h * (1 + f) * c + h = 0) (hp : p = 1 - f + f * g) (hh : h * p = g) :
    ((d0 + f * (e - d0 + g * (d0 - d1)) + n0 : ℝ) : ℂ) + c * ((d1 + f * ((d0 + f * (e - d0 + g * (d0 - d1)) + n0) - d1) + n1 : ℝ) : ℂ)
      = p * (1 + f * c) * (d0 + c * d1) + (1 + f * c) * (f * e + n0) + c * n1 := by
  have hh' : (h : ℂ) * p = g := by rw [← hh]; push_cast; ring
  have hp' : (p : ℂ) = 1 - f + f * g := by rw [hp]; push_cast; ring
  push_cast
  rw [← hh'] at hp' ⊢
  linear_combination (-(f : ℂ) * p * d1) * hc + (-(d0 : ℂ) * (1 + f * c) - c * d1) * hp'

/-- The modal coordinate exists when the poles are complex (`v = g (1 - f)`, `v - v²/4 ≥ p²/16`). -/
theorem reso_coord {f g p δ : ℝ} (f0 : 0 < f) (f1 : f ≤ 1 / 2) (g0 : 0 ≤ g) (hp : p = 1 - f + f * g) (δ1 : δ ≤ 1)
    (h1 : p ^ 2 / 16 ≤ g * (1 - f) - (g * (1 - f)) ^ 2 / 4) (h2 : g ≤ 9 / 4 * p) (h3 : p * (1 - f) ≤ (1 - δ) ^ 2) :
    ∃ (c : ℂ) (h : ℝ), c ^ 2 + h * (1 + f) * c + h = 0 ∧ h * p = g ∧ ‖c‖ ≤ 3 / 2 ∧ 1 / 4 ≤ c.im ∧ ‖1 + f * c‖ ≤ 1 ∧ ‖p * (1 + f * c)‖ ≤ 1 - δ := by
  have p0 : 0 < p := by rw [hp]; nlinarith
  obtain ⟨h, hh⟩ : ∃ h, h * p = g := ⟨g / p, by field_simp⟩
  have hn : 0 ≤ h := by by_contra H; nlinarith
  have h94 : h ≤ 9 / 4 := by by_contra H; nlinarith
  have hd : 1 / 16 ≤ h - (h * (1 + f) / 2) ^ 2 := by
    have e : (h - (h * (1 + f) / 2) ^ 2 - 1 / 16) * p ^ 2 = g * (1 - f) - (g * (1 - f)) ^ 2 / 4 - p ^ 2 / 16 := by
      have : (h - (h * (1 + f) / 2) ^ 2 - 1 / 16) * p ^ 2 = (h * p) * p - ((h * p) * (1 + f) / 2) ^ 2 - p ^ 2 / 16 := by ring
      rw [this, hh, hp]; ring
    by_contra H
    have : (h - (h * (1 + f) / 2) ^ 2 - 1 / 16) * p ^ 2 < 0 := mul_neg_of_neg_of_pos (by linarith) (by positivity)
    rw [e] at this
    linarith
  set a := h * (1 + f) / 2 with ha
  set s := Real.sqrt (h - a ^ 2) with hs
  have s2 : s ^ 2 = h - a ^ 2 := Real.sq_sqrt (by linarith)
  have s14 : 1 / 4 ≤ s := by
    rw [hs]; apply Real.le_sqrt_of_sq_le; linarith
  have nc : ‖(⟨-a, s⟩ : ℂ)‖ ^ 2 = h := by rw [Complex.sq_norm, Complex.normSq_mk]; linarith
  have n1 : ‖1 + (f : ℂ) * ⟨-a, s⟩‖ ^ 2 = 1 - f * h := by
    have : (1 + (f : ℂ) * ⟨-a, s⟩) = ⟨1 - f * a, f * s⟩ := by
      apply Complex.ext <;> simp; ring
    rw [this, Complex.sq_norm, Complex.normSq_mk]
    have : (1 - f * a) * (1 - f * a) + f * s * (f * s) = 1 - 2 * f * a + f ^ 2 * (a ^ 2 + s ^ 2) := by ring
    rw [this, s2, ha]; ring
  refine ⟨⟨-a, s⟩, h, ?_, hh, ?_, s14, ?_, ?_⟩
  · have h2a : (h : ℂ) * (1 + f) = ((2 * a : ℝ) : ℂ) := by rw [ha]; push_cast; ring
    rw [h2a]
    have e : (⟨-a, s⟩ : ℂ) ^ 2 + ((2 * a : ℝ) : ℂ) * ⟨-a, s⟩ + (h : ℂ) = ((h - a ^ 2 - s ^ 2 : ℝ) : ℂ) := by
      apply Complex.ext
      · simp only [pow_two, Complex.add_re, Complex.mul_re, Complex.ofReal_re, Complex.ofReal_im]; ring
      · simp only [pow_two, Complex.add_im, Complex.mul_im, Complex.ofReal_re, Complex.ofReal_im]; ring
    rw [e, s2]; simp
  · apply abs_le_of_sq_le_sq' _ (by norm_num) |>.2
    rw [nc]; linarith
  · apply abs_le_of_sq_le_sq' _ (by norm_num) |>.2
    rw [n1]; nlinarith
  · rw [norm_mul, Complex.norm_real, Real.norm_of_nonneg p0.le]
    apply abs_le_of_sq_le_sq' _ (by linarith) |>.2
    rw [mul_pow, n1]
    have : p ^ 2 * (1 - f * h) = p * (1 - f) := by
      have : p ^ 2 * (1 - f * h) = p * (p - f * (h * p)) := by ring
      rw [this, hh, hp]; ring
    linarith

/-- The contents from the modal coordinate. -/
theorem reso_contents {d0 d1 Z : ℝ} {c : ℂ} (h1 : ‖c‖ ≤ 3 / 2) (h2 : 1 / 4 ≤ c.im) (hz : ‖(d0 : ℂ) + c * d1‖ ≤ Z) : |d0| ≤ 7 * Z ∧ |d1| ≤ 4 * Z := by
  have i1 := (Complex.abs_im_le_norm _).trans hz
  have r1 := (Complex.abs_re_le_norm _).trans hz
  have cr := (Complex.abs_re_le_norm c).trans h1
  simp only [Complex.add_im, Complex.ofReal_im, Complex.mul_im, Complex.ofReal_re, mul_zero, zero_add, Complex.add_re, Complex.mul_re, sub_zero] at i1 r1
  have a1 : |d1| ≤ 4 * Z := by
    rw [abs_mul, abs_of_pos (by linarith : 0 < c.im)] at i1
    nlinarith [abs_nonneg d1]
  refine ⟨?_, a1⟩
  have : |c.re * d1| ≤ 3 / 2 * (4 * Z) := by rw [abs_mul]; exact mul_le_mul cr a1 (abs_nonneg _) (by norm_num)
  have e : d0 = (d0 + c.re * d1) - c.re * d1 := by ring
  rw [e]
  exact (abs_sub _ _).trans (by linarith)

/-- One step of the rounded filter as the exact step plus noise. -/
theorem reso_total {Z E B : ℚ} (hZ : 0 ≤ Z) (hE : 0 ≤ E) (hB : B ≤ Z / 2) {δ : ℚ} (hδ : 1000 * uq ≤ δ) (hE2 : δ * E = 250 * uq * Z + 20 * eq)
    {f g y0 y1 s : ℚ} (f0 : 0 ≤ f) (f1 : f ≤ 1 / 2) (hg : |g| ≤ 31 / 10) (hs : |s| ≤ B) (h0 : |y0| ≤ 7 * (Z + E)) (h1 : |y1| ≤ 4 * (Z + E)) :
    ∃ n0 n1 : ℚ, fl32 (y0 + fl32 (f * fl32 (fl32 (s - y0) + fl32 (g * fl32 (y0 - y1))))) = y0 + f * (s - y0 + g * (y0 - y1)) + n0 ∧
      fl32 (y1 + fl32 (f * fl32 (fl32 (y0 + fl32 (f * fl32 (fl32 (s - y0) + fl32 (g * fl32 (y0 - y1))))) - y1)))
        = y1 + f * ((y0 + f * (s - y0 + g * (y0 - y1)) + n0) - y1) + n1 ∧ |n0| + 3 / 2 * |n1| ≤ δ * E := by
  obtain ⟨n0, e0⟩ : ∃ n0, n0 = fl32 (y0 + fl32 (f * fl32 (fl32 (s - y0) + fl32 (g * fl32 (y0 - y1))))) - (y0 + f * (s - y0 + g * (y0 - y1))) := ⟨_, rfl⟩
  have b0 := reso_noise0 fl32_lawful f0 f1 hg hs h0 h1
  have bh := reso_half f0 f1 hg hs h0 h1
  rw [← e0] at b0
  have em : fl32 (y0 + fl32 (f * fl32 (fl32 (s - y0) + fl32 (g * fl32 (y0 - y1))))) = y0 + f * (s - y0 + g * (y0 - y1)) + n0 := by rw [e0]; ring
  have hq := eq_pos
  have c0 : |n0| ≤ uq * (1104 / 10 * (Z + E)) + 8 * eq := b0.trans (by
    have : 7 * (Z + E) + 202 / 100 * (B + 7 * (Z + E)) + 8 * (7 * (Z + E) + 4 * (Z + E)) ≤ 1104 / 10 * (Z + E) := by linarith
    have := mul_le_mul_of_nonneg_left this (by norm_num : 0 ≤ uq)
    linarith)
  have bm : |y0 + f * (s - y0 + g * (y0 - y1)) + n0| ≤ 28 * (Z + E) + 8 * eq := by
    refine (absAdd bh c0).trans ?_
    unfold uq; linarith
  have b1 := reso_noise1 fl32_lawful f0 f1 bm h1
  rw [em]
  refine ⟨n0, fl32 (y1 + fl32 (f * fl32 (y0 + f * (s - y0 + g * (y0 - y1)) + n0 - y1))) - (y1 + f * (y0 + f * (s - y0 + g * (y0 - y1)) + n0 - y1)), rfl, by ring, ?_⟩
  have k : uq * E ≤ 1 / 1000 * (δ * E) := by
    have := mul_le_mul_of_nonneg_right hδ hE
    rw [mul_assoc] at this
    generalize δ * E = z at *
    generalize uq * E = w at *
    linarith only [this]
  rw [hE2] at k ⊢
  generalize |fl32 (y1 + fl32 (f * fl32 (y0 + f * (s - y0 + g * (y0 - y1)) + n0 - y1))) - (y1 + f * (y0 + f * (s - y0 + g * (y0 - y1)) + n0 - y1))| = z at *
  generalize |n0| = z0 at *
  clear em e0 bm bh b0 hE2
  generalize eq = h at *
  unfold uq at *
  linarith

/-- The modal region is kept by a step. -/
structure ResoRel (f g : ℚ) (c : ℂ) (Z E : ℚ) (p q : Fx.Reso ℚ) : Prop where
  pf : p.f = f
  pg : p.fb = g
  qf : q.f = f
  qg : q.fb = g
  z : ‖((q.y0 : ℝ) : ℂ) + c * ((q.y1 : ℝ) : ℂ)‖ ≤ (Z : ℝ)
  e : ‖((p.y0 - q.y0 : ℝ) : ℂ) + c * ((p.y1 - q.y1 : ℝ) : ℂ)‖ ≤ (E : ℝ)

theorem ResoRel.step {f g δ Z E B : ℚ} {c : ℂ} {h : ℝ} {p q : Fx.Reso ℚ} (R : ResoRel f g c Z E p q) (f0 : 0 < f) (f1 : f ≤ 1 / 2) (hg : |g| ≤ 31 / 10)
    (hc : c ^ 2 + h * (1 + (f : ℝ)) * c + h = 0) (hh : h * (1 - f + f * g) = g) (c1 : ‖c‖ ≤ 3 / 2) (c2 : 1 / 4 ≤ c.im) (c3 : ‖1 + (f : ℝ) * c‖ ≤ 1)
    (c4 : ‖((1 - f + f * g : ℝ) : ℂ) * (1 + (f : ℝ) * c)‖ ≤ 1 - δ) (hB : B ≤ Z / 2) (hZ : f * B ≤ δ * Z) (hδ : 1000 * uq ≤ δ)
    (hE2 : δ * E = 250 * uq * Z + 20 * eq) {s : ℚ} (hs : |s| ≤ B) :
    ResoRel f g c Z E (reso fl32 p s).1 (q.feed s).1 ∧ |(reso fl32 p s).2 - (q.feed s).2| ≤ 4 * E := by
  obtain ⟨pf, pg, pr, p0, p1⟩ := p
  obtain ⟨qf, qg, qr, q0, q1⟩ := q
  obtain ⟨e1, e2, e3, e4, hz, he⟩ := R
  simp only at e1 e2 e3 e4 hz he
  subst e1 e2 e3 e4
  have Z0 : (0 : ℝ) ≤ Z := (norm_nonneg _).trans hz
  have E0 : (0 : ℝ) ≤ E := (norm_nonneg _).trans he
  have Z0' : 0 ≤ Z := by exact_mod_cast Z0
  have E0' : 0 ≤ E := by exact_mod_cast E0
  have bq := reso_contents c1 c2 hz
  have bd := reso_contents c1 c2 he
  have q0b : |q0| ≤ 7 * Z := by exact_mod_cast bq.1
  have q1b : |q1| ≤ 4 * Z := by exact_mod_cast bq.2
  have d0b : |p0 - q0| ≤ 7 * E := by exact_mod_cast bd.1
  have d1b : |p1 - q1| ≤ 4 * E := by exact_mod_cast bd.2
  have p0b : |p0| ≤ 7 * (Z + E) := (bound_of_close q0b d0b).trans (by linarith)
  have p1b : |p1| ≤ 4 * (Z + E) := (bound_of_close q1b d1b).trans (by linarith)
  obtain ⟨n0, n1, m0, m1, hn⟩ := reso_total Z0' E0' hB hδ hE2 f0.le f1 hg hs p0b p1b
  have f0r : (0 : ℝ) < qf := by exact_mod_cast f0
  have hzr : (qf : ℝ) * |(s : ℝ)| ≤ δ * Z := by
    have : qf * |s| ≤ δ * Z := (mul_le_mul_of_nonneg_left hs f0.le).trans hZ
    exact_mod_cast this
  have hnr : |(n0 : ℝ)| + 3 / 2 * |(n1 : ℝ)| ≤ δ * E := by
    have : ((|n0| + 3 / 2 * |n1| : ℚ) : ℝ) ≤ ((δ * E : ℚ) : ℝ) := by exact_mod_cast hn
    push_cast at this
    exact this
  have step : ∀ (d0 d1 e n0 n1 W X : ℝ), ‖(d0 : ℂ) + c * d1‖ ≤ W → qf * |e| + |n0| + 3 / 2 * |n1| ≤ X → X ≤ δ * W →
      ‖((d0 + qf * (e - d0 + qg * (d0 - d1)) + n0 : ℝ) : ℂ) + c * ((d1 + qf * ((d0 + qf * (e - d0 + qg * (d0 - d1)) + n0) - d1) + n1 : ℝ) : ℂ)‖ ≤ W := by
    intro d0 d1 e n0 n1 W X hW h1 h2
    have W0 : 0 ≤ W := (norm_nonneg _).trans hW
    rw [reso_modal (p := 1 - qf + qf * qg) hc rfl hh]
    have t1 : ‖((1 - qf + qf * qg : ℝ) : ℂ) * (1 + (qf : ℝ) * c) * (d0 + c * d1)‖ ≤ (1 - δ) * W := by
      rw [norm_mul]; exact mul_le_mul c4 hW (norm_nonneg _) ((norm_nonneg _).trans c4)
    have t2 : ‖(1 + (qf : ℝ) * c) * ((qf : ℝ) * (e : ℂ) + n0)‖ ≤ qf * |e| + |n0| := by
      rw [norm_mul]
      have : ‖((qf : ℝ) : ℂ) * (e : ℂ) + n0‖ ≤ qf * |e| + |n0| := by
        refine (norm_add_le _ _).trans ?_
        rw [norm_mul, Complex.norm_real, Complex.norm_real, Complex.norm_real, Real.norm_of_nonneg f0r.le]; rfl
      calc _ ≤ 1 * (qf * |e| + |n0|) := mul_le_mul c3 this (norm_nonneg _) (by norm_num)
        _ = _ := one_mul _
    have t3 : ‖c * (n1 : ℂ)‖ ≤ 3 / 2 * |n1| := by
      rw [norm_mul, Complex.norm_real]; exact mul_le_mul_of_nonneg_right c1 (norm_nonneg _)
    refine (norm_add₃_le).trans ?_
    linarith
  have out : ‖((fl32 (p0 + fl32 (qf * fl32 (fl32 (s - p0) + fl32 (qg * fl32 (p0 - p1))))) - (q0 + qf * (s - q0 + qg * (q0 - q1)) : ℚ) : ℝ) : ℂ)
      + c * ((fl32 (p1 + fl32 (qf * fl32 (fl32 (p0 + fl32 (qf * fl32 (fl32 (s - p0) + fl32 (qg * fl32 (p0 - p1))))) - p1)))
        - (q1 + qf * ((q0 + qf * (s - q0 + qg * (q0 - q1))) - q1) : ℚ) : ℝ) : ℂ)‖ ≤ (E : ℝ) := by
    have := step (p0 - q0) (p1 - q1) 0 n0 n1 E _ he le_rfl (by simpa using hnr)
    rw [m1, m0]
    convert this using 4 <;> · push_cast; ring
  refine ⟨⟨rfl, rfl, rfl, rfl, ?_, out⟩, ?_⟩
  · have := step q0 q1 s 0 0 Z _ hz le_rfl (by simpa using hzr)
    show ‖(((q0 + qf * (s - q0 + qg * (q0 - q1)) : ℚ) : ℝ) : ℂ) + c * (((q1 + qf * ((q0 + qf * (s - q0 + qg * (q0 - q1))) - q1) : ℚ) : ℝ) : ℂ)‖ ≤ (Z : ℝ)
    convert this using 4 <;> · push_cast; ring
  · have := (reso_contents c1 c2 out).2
    exact_mod_cast this

theorem reso_ar1 {p v f : ℚ} (p0 : 0 < p) (v0 : 7 / 100 ≤ v) (v2 : v ≤ 2) (f0 : 0 < f) (f1 : f ≤ 1 / 2) (q : p ≤ 1 + f * (2 * v - 1)) :
    p ^ 2 / 16 ≤ v - v ^ 2 / 4 := by
  rcases le_total v (1 / 2) with h | h
  · have h1 : p ≤ 1 := by nlinarith
    have h2 : p ^ 2 ≤ 1 := by nlinarith
    nlinarith
  · have h1 : p ≤ 1 / 2 + v := by nlinarith
    have h2 : p ^ 2 ≤ (1 / 2 + v) ^ 2 := by nlinarith
    nlinarith

theorem reso_ar2 {v f : ℚ} (f0 : 0 < f) (f1 : f ≤ 1 / 2) (v0 : 0 ≤ v) (vt : v ≤ 2 - f) : v ≤ 9 / 4 * ((1 - f) ^ 2 + f * v) := by
  have : 0 ≤ (2 - f - v) * f := mul_nonneg (by linarith) f0.le
  nlinarith

theorem reso_ar3 {v f r : ℚ} (f0 : 0 < f) (f1 : f ≤ 1 / 2) (r1 : 1 / 2 ^ 20 ≤ 1 / 2 * (1 - r)) (v1 : v ≤ r * (2 - f) + 1 / 2 ^ 20) :
    (1 - f) ^ 2 + f * v ≤ (1 - f * (1 - r) / 2) ^ 2 := by
  have k1 : f * v ≤ f * (r * (2 - f) + 1 / 2 * (1 - r)) := mul_le_mul_of_nonneg_left (by linarith) f0.le
  have k2 : 0 ≤ f * (1 - r) * (1 / 2 - f) := mul_nonneg (mul_nonneg f0.le (by linarith)) (by linarith)
  nlinarith [sq_nonneg (f * (1 - r) / 2)]

/-- Low resonance: the step is a contraction in the maximum norm. -/
theorem reso_low {f g B D : ℚ} (f0 : 0 < f) (f1 : f ≤ 1 / 2) (hf : 2000 * uq ≤ f) (hg : |g| ≤ 16 / 100) (B0 : 0 ≤ B) (hD : f * D = 100 * uq * B + 30 * eq)
    (xs : List ℚ) (hx : ∀ x ∈ xs, |x| ≤ B) (r : ℚ) :
    List.Forall₂ (fun yh y => |yh - y| ≤ D) (outputs (reso fl32) ⟨f, g, r, 0, 0⟩ xs) (outputs Fx.Reso.feed ⟨f, g, r, 0, 0⟩ xs) := by
  have hq := eq_pos
  have hu : (0 : ℚ) < uq := by norm_num [uq]
  have D0 : 0 ≤ D := by
    have : 0 < f * D := by rw [hD]; positivity
    exact ((mul_pos_iff_of_pos_left f0).1 this).le
  obtain ⟨M, hM⟩ : ∃ M, M = 3 / 2 * B + D := ⟨_, rfl⟩
  have M0 : 0 ≤ M := by rw [hM]; positivity
  obtain ⟨N1, hN1⟩ : ∃ N1, N1 = uq * (102 / 10 * M + 16 / 10 * B) + 4 * eq := ⟨_, rfl⟩
  obtain ⟨N0, hN0⟩ : ∃ N0, N0 = uq * (191 / 10 * M + 21 / 10 * B) + 8 * eq := ⟨_, rfl⟩
  have N1p : 0 ≤ N1 := by rw [hN1]; positivity
  have N0p : 0 ≤ N0 := by rw [hN0]; positivity
  have uD : uq * D ≤ 1 / 2000 * (f * D) := by
    have := mul_le_mul_of_nonneg_right hf D0
    rw [mul_assoc] at this
    generalize f * D = z at *
    generalize uq * D = w at *
    linarith only [this]
  have key : 84 / 100 * N1 + N0 ≤ 68 / 100 * (f * D) := by
    have e : 84 / 100 * N1 + N0 = 44946 / 1000 * (uq * B) + 27668 / 1000 * (uq * D) + 1136 / 100 * eq := by rw [hN1, hN0, hM]; ring
    have hB : 0 ≤ uq * B := by positivity
    rw [e]
    rw [hD, mul_assoc] at uD
    rw [hD, mul_assoc]
    generalize uq * D = w1 at *
    generalize uq * B = w2 at *
    generalize eq = h at *
    linarith only [uD, hB, hq]
  have mg : ∀ {x X : ℚ}, |x| ≤ X → |g * x| ≤ 16 / 100 * X := fun {x X} h => by
    rw [abs_mul]; exact mul_le_mul hg h (abs_nonneg _) (by norm_num)
  have mf : ∀ {x X : ℚ}, |x| ≤ X → |f * x| ≤ f * X := fun {x X} h => by
    rw [abs_mul, abs_of_pos f0]; exact mul_le_mul_of_nonneg_left h f0.le
  have m1f : ∀ {x X : ℚ}, |x| ≤ X → |(1 - f) * x| ≤ (1 - f) * X := fun {x X} h => by
    rw [abs_mul, abs_of_pos (by linarith : 0 < 1 - f)]; exact mul_le_mul_of_nonneg_left h (by linarith)
  have same := RoundFilter.same hx
  refine outputs_forall₂ _ _ (fun (p q : Fx.Reso ℚ) => (p.f = f ∧ p.fb = g ∧ q.f = f ∧ q.fb = g) ∧ |q.y0| ≤ 3 / 2 * B ∧ |q.y1| ≤ 3 / 2 * B ∧
      f * |p.y0 - q.y0| ≤ f * D - N1 ∧ |p.y1 - q.y1| ≤ D) (fun x x' => x' = x ∧ |x| ≤ B) _ ?_ _ _ ?_ _ _ same
  · rintro ⟨pf, pg, pr, p0, p1⟩ ⟨qf, qg, qr, q0, q1⟩ _ x ⟨⟨e1, e2, e3, e4⟩, b0, b1, d0, d1⟩ ⟨rfl, hs⟩
    simp only at e1 e2 e3 e4 b0 b1 d0 d1
    subst e1 e2 e3 e4
    have dd0 : |p0 - q0| ≤ D := by
      by_contra H
      have := mul_lt_mul_of_pos_left (not_le.1 H) f0
      linarith
    have pb0 : |p0| ≤ M := (bound_of_close b0 dd0).trans_eq hM.symm
    have pb1 : |p1| ≤ M := (bound_of_close b1 d1).trans_eq hM.symm
    have hg' : |qg| ≤ 31 / 10 := hg.trans (by norm_num)
    obtain ⟨n0, e0⟩ : ∃ n0, n0 = fl32 (p0 + fl32 (qf * fl32 (fl32 (x - p0) + fl32 (qg * fl32 (p0 - p1))))) - (p0 + qf * (x - p0 + qg * (p0 - p1))) := ⟨_, rfl⟩
    have bn0 := reso_noise0 fl32_lawful f0.le f1 hg' hs pb0 pb1
    have bh := reso_half f0.le f1 hg' hs pb0 pb1
    rw [← e0] at bn0
    have em : fl32 (p0 + fl32 (qf * fl32 (fl32 (x - p0) + fl32 (qg * fl32 (p0 - p1))))) = p0 + qf * (x - p0 + qg * (p0 - p1)) + n0 := by rw [e0]; ring
    have c0 : |n0| ≤ N0 := bn0.trans (by
      rw [hN0]
      have : M + 202 / 100 * (B + M) + 8 * (M + M) ≤ 191 / 10 * M + 21 / 10 * B := by linarith
      have := mul_le_mul_of_nonneg_left this hu.le
      linarith)
    have bm : |p0 + qf * (x - p0 + qg * (p0 - p1)) + n0| ≤ 5 * M + B + 8 * eq := by
      refine (absAdd bh c0).trans ?_
      rw [hN0]; unfold uq; linarith
    have bn1 := reso_noise1 fl32_lawful f0.le f1 bm pb1
    obtain ⟨n1, e1⟩ : ∃ n1, n1 = fl32 (p1 + fl32 (qf * fl32 (p0 + qf * (x - p0 + qg * (p0 - p1)) + n0 - p1))) - (p1 + qf * (p0 + qf * (x - p0 + qg * (p0 - p1)) + n0 - p1)) :=
      ⟨_, rfl⟩
    rw [← e1] at bn1
    have em1 : fl32 (p1 + fl32 (qf * fl32 (p0 + qf * (x - p0 + qg * (p0 - p1)) + n0 - p1))) = p1 + qf * (p0 + qf * (x - p0 + qg * (p0 - p1)) + n0 - p1) + n1 := by rw [e1]; ring
    have c1 : |n1| ≤ N1 := bn1.trans (by
      rw [hN1]; clear em em1 e0 e1 hM hN0 hD key uD
      generalize eq = h at *
      unfold uq
      linarith)
    -- exact filter
    have x0 : |q0 + qf * (x - q0 + qg * (q0 - q1))| ≤ 3 / 2 * B := by
      have e : q0 + qf * (x - q0 + qg * (q0 - q1)) = (1 - qf) * q0 + qf * (x + qg * (q0 - q1)) := by ring
      rw [e]
      refine (absAdd (m1f b0) (mf (absAdd hs (mg (absSub b0 b1))))).trans ?_
      nlinarith
    have x1 : |q1 + qf * (q0 + qf * (x - q0 + qg * (q0 - q1)) - q1)| ≤ 3 / 2 * B := by
      have e : q1 + qf * (q0 + qf * (x - q0 + qg * (q0 - q1)) - q1) = (1 - qf) * q1 + qf * (q0 + qf * (x - q0 + qg * (q0 - q1))) := by ring
      rw [e]
      refine (absAdd (m1f b1) (mf x0)).trans (le_of_eq (by ring))
    -- difference
    have y0 : qf * |p0 + qf * (x - p0 + qg * (p0 - p1)) + n0 - (q0 + qf * (x - q0 + qg * (q0 - q1)))| ≤ qf * D - N1 := by
      have e : p0 + qf * (x - p0 + qg * (p0 - p1)) + n0 - (q0 + qf * (x - q0 + qg * (q0 - q1)))
          = (1 - qf) * (p0 - q0) + qf * (qg * ((p0 - q0) - (p1 - q1))) + n0 := by ring
      have t := absAdd (absAdd (m1f (le_refl |p0 - q0|)) (mf (mg (absSub (le_refl |p0 - q0|) d1)))) c0
      rw [← e] at t
      have t2 := mul_le_mul_of_nonneg_left t f0.le
      refine t2.trans ?_
      have k1 : (1 - qf) * (qf * |p0 - q0|) ≤ (1 - qf) * (qf * D - N1) := mul_le_mul_of_nonneg_left d0 (by linarith)
      have k2 : qf * (16 / 100 * (qf * |p0 - q0|)) ≤ qf * (16 / 100 * (qf * D - N1)) := mul_le_mul_of_nonneg_left (by linarith) f0.le
      have k3 : qf * (84 / 100 * N1 + N0) ≤ qf * (68 / 100 * (qf * D)) := mul_le_mul_of_nonneg_left key f0.le
      have e4 : qf * ((1 - qf) * |p0 - q0| + qf * (16 / 100 * (|p0 - q0| + D)) + N0)
        = (1 - qf) * (qf * |p0 - q0|) + qf * (16 / 100 * (qf * |p0 - q0|)) + qf * (16 / 100 * (qf * D)) + qf * N0 := by ring
      rw [e4]
      have e5 : (1 - qf) * (qf * D - N1) + qf * (16 / 100 * (qf * D - N1)) + qf * (16 / 100 * (qf * D)) + qf * N0
        = (qf * D - N1) - qf * (68 / 100 * (qf * D)) + qf * (84 / 100 * N1 + N0) := by ring
      linarith
    have y1 : |p1 + qf * (p0 + qf * (x - p0 + qg * (p0 - p1)) + n0 - p1) + n1 - (q1 + qf * (q0 + qf * (x - q0 + qg * (q0 - q1)) - q1))| ≤ D := by
      have e : p1 + qf * (p0 + qf * (x - p0 + qg * (p0 - p1)) + n0 - p1) + n1 - (q1 + qf * (q0 + qf * (x - q0 + qg * (q0 - q1)) - q1))
          = (1 - qf) * (p1 - q1) + qf * (p0 + qf * (x - p0 + qg * (p0 - p1)) + n0 - (q0 + qf * (x - q0 + qg * (q0 - q1)))) + n1 := by ring
      rw [e]
      have t := absAdd (absAdd (m1f d1) (mf (le_refl |p0 + qf * (x - p0 + qg * (p0 - p1)) + n0 - (q0 + qf * (x - q0 + qg * (q0 - q1)))|))) c1
      exact t.trans (by linarith)
    have o : RoundFilter.reso fl32 ⟨qf, qg, pr, p0, p1⟩ x
        = (⟨qf, qg, pr, p0 + qf * (x - p0 + qg * (p0 - p1)) + n0, p1 + qf * (p0 + qf * (x - p0 + qg * (p0 - p1)) + n0 - p1) + n1⟩,
           p1 + qf * (p0 + qf * (x - p0 + qg * (p0 - p1)) + n0 - p1) + n1) := by
      simp only [RoundFilter.reso, em, em1]
    rw [o]
    exact ⟨⟨⟨rfl, rfl, rfl, rfl⟩, x0, x1, y0, y1⟩, y1⟩
  · refine ⟨⟨rfl, rfl, rfl, rfl⟩, ?_, ?_, ?_, ?_⟩
    · simpa using B0
    · simpa using B0
    · simp only [sub_self, abs_zero, mul_zero]
      linarith
    · simpa using D0

set_option maxHeartbeats 1000000 in
theorem reso_track (f r g : ℚ) (f0 : 0 < f) (f1 : f ≤ 1 / 2) (r0 : 0 ≤ r) (hr : 2000 * (1 / 2 ^ 24) ≤ f * (1 - r)) (hg : |g - (r + r / (1 - f))| ≤ 1 / 2 ^ 20)
    (B : ℚ) (xs : List ℚ) (hx : ∀ x ∈ xs, |x| ≤ B) :
    List.Forall₂ (fun yh y => |yh - y| ≤ (4000 * (1 / 2 ^ 24) * B / (1 - r) + 160 * (1 / 2 ^ 150)) / (f * (1 - r)))
      (outputs (RoundFilter.reso fl32) { Fx.Reso.mk' f r with fb := g } xs) (outputs Fx.Reso.feed { Fx.Reso.mk' f r with fb := g } xs) := by
  cases xs with
  | nil => exact .nil
  | cons x0 xs0 =>
  have B0 : 0 ≤ B := (abs_nonneg _).trans (hx x0 (by simp))
  generalize x0 :: xs0 = xs at *
  have p1 : 0 < f * (1 - r) := lt_of_lt_of_le (by norm_num) hr
  have r1 : 0 < 1 - r := (mul_pos_iff_of_pos_left f0).1 p1
  have hq := eq_pos
  have fr : f * (1 - r) ≤ 1 / 2 * (1 - r) := mul_le_mul_of_nonneg_right f1 r1.le
  have f2 : 0 < 1 - f := by linarith
  -- the coefficient
  have eg : r + r / (1 - f) = r * (2 - f) / (1 - f) := by field_simp; ring
  obtain ⟨v, hv⟩ : ∃ v, v = g * (1 - f) := ⟨_, rfl⟩
  have gv : g = v / (1 - f) := by rw [hv]; field_simp
  have va := abs_le.1 hg
  have v1 : v ≤ r * (2 - f) + 1 / 2 ^ 20 := by
    have : g ≤ r * (2 - f) / (1 - f) + 1 / 2 ^ 20 := by rw [← eg]; linarith
    have := mul_le_mul_of_nonneg_right this f2.le
    have e : (r * (2 - f) / (1 - f) + 1 / 2 ^ 20) * (1 - f) = r * (2 - f) + 1 / 2 ^ 20 * (1 - f) := by field_simp
    rw [e] at this
    rw [hv]; linarith
  have v2 : r * (2 - f) - 1 / 2 ^ 20 ≤ v := by
    have : r * (2 - f) / (1 - f) - 1 / 2 ^ 20 ≤ g := by rw [← eg]; linarith
    have := mul_le_mul_of_nonneg_right this f2.le
    have e : (r * (2 - f) / (1 - f) - 1 / 2 ^ 20) * (1 - f) = r * (2 - f) - 1 / 2 ^ 20 * (1 - f) := by field_simp
    rw [e] at this
    rw [hv]; linarith
  have r2 : 4000 * (1 / 2 ^ 24) ≤ 1 - r := by linarith
  have vt : v ≤ 2 - f := by nlinarith
  rcases lt_or_ge r (1 / 20) with hr20 | hr20
  · have ga : |g| ≤ 16 / 100 := by
      have k1 : v ≤ 16 / 100 * (1 - f) := by nlinarith
      have k2 : -(16 / 100 * (1 - f)) ≤ v := by nlinarith
      rw [gv, abs_le]
      constructor
      · rw [le_div_iff₀ f2]; linarith
      · rw [div_le_iff₀ f2]; linarith
    have := reso_low (D := (100 * uq * B + 30 * eq) / f) f0 f1 (by unfold uq; nlinarith) ga B0 (by field_simp) xs hx r
    refine List.Forall₂.imp (fun yh y h => le_trans h ?_) this
    have e1 : (100 * uq * B + 30 * eq) / f ≤ (4000 * (1 / 2 ^ 24) * B / (1 - r) + 160 * (1 / 2 ^ 150)) / f := by
      refine div_le_div_of_nonneg_right ?_ f0.le
      have : 4000 * (1 / 2 ^ 24) * B ≤ 4000 * (1 / 2 ^ 24) * B / (1 - r) := by
        rw [le_div_iff₀ r1]
        have : 0 ≤ 4000 * (1 / 2 ^ 24) * B := by positivity
        nlinarith
      unfold eq uq at *
      generalize 4000 * (1 / 2 ^ 24) * B / (1 - r) = z at *
      generalize (1 : ℚ) / 2 ^ 150 = h at *
      linarith
    refine e1.trans ?_
    refine div_le_div_of_nonneg_left (by positivity) p1 ?_
    nlinarith
  · have v0 : 7 / 100 ≤ v := by nlinarith
    have g0 : 0 ≤ g := by rw [gv]; exact div_nonneg (by linarith) f2.le
    have g2v : g ≤ 2 * v := by rw [gv, div_le_iff₀ f2]; nlinarith
    obtain ⟨p, hp⟩ : ∃ p, p = 1 - f + f * g := ⟨_, rfl⟩
    have p0 : 0 < p := by rw [hp]; nlinarith
    have pe : p * (1 - f) = (1 - f) ^ 2 + f * v := by rw [hp, hv]; ring
    obtain ⟨δ, hδ⟩ : ∃ δ, δ = f * (1 - r) / 2 := ⟨_, rfl⟩
    have h1 : p ^ 2 / 16 ≤ v - v ^ 2 / 4 := by
      have q : p ≤ 1 + f * (2 * v - 1) := by rw [hp]; nlinarith
      exact reso_ar1 p0 v0 (by linarith) f0 f1 q
    have h2 : g ≤ 9 / 4 * p := by
      have : v ≤ 9 / 4 * (p * (1 - f)) := by rw [pe]; exact reso_ar2 f0 f1 (by linarith) vt
      rw [hv] at this
      have : g * (1 - f) ≤ 9 / 4 * p * (1 - f) := by linarith
      exact le_of_mul_le_mul_right this f2
    have h3 : p * (1 - f) ≤ (1 - δ) ^ 2 := by
      rw [pe, hδ]
      exact reso_ar3 f0 f1 (by linarith) v1
    have ga : |g| ≤ 31 / 10 := by rw [abs_of_nonneg g0, gv, div_le_iff₀ f2]; linarith
    have δ1 : δ ≤ 1 := by rw [hδ]; nlinarith
    obtain ⟨c, h, c0, hh, c1, c2, c3, c4⟩ := reso_coord (f := (f : ℝ)) (g := g) (p := p) (δ := δ) (by exact_mod_cast f0) (by
        have : ((f : ℚ) : ℝ) ≤ ((1 / 2 : ℚ) : ℝ) := by exact_mod_cast f1
        push_cast at this; exact this) (by exact_mod_cast g0) (by rw [hp]; push_cast; ring) (by exact_mod_cast δ1) (by
        rw [hv] at h1
        have : ((p ^ 2 / 16 : ℚ) : ℝ) ≤ ((g * (1 - f) - (g * (1 - f)) ^ 2 / 4 : ℚ) : ℝ) := by exact_mod_cast h1
        push_cast at this; exact this) (by
        have : ((g : ℚ) : ℝ) ≤ ((9 / 4 * p : ℚ) : ℝ) := by exact_mod_cast h2
        push_cast at this; exact this) (by exact_mod_cast h3)
    obtain ⟨Z, hZ⟩ : ∃ Z, Z = 2 * B / (1 - r) := ⟨_, rfl⟩
    have δ0 : 0 < δ := by rw [hδ]; positivity
    obtain ⟨E, hE⟩ : ∃ E, E = (250 * uq * Z + 20 * eq) / δ := ⟨_, rfl⟩
    have Z0 : 0 ≤ Z := by rw [hZ]; positivity
    have E0 : 0 ≤ E := by rw [hE]; have : (0 : ℚ) < uq := by norm_num [uq]
                          positivity
    have e4 : 4 * E = (4000 * (1 / 2 ^ 24) * B / (1 - r) + 160 * (1 / 2 ^ 150)) / (f * (1 - r)) := by
      rw [hE, hZ, hδ]; unfold uq eq; field_simp; ring
    rw [← e4]
    have pr : ((p : ℚ) : ℝ) = 1 - (f : ℝ) + f * g := by rw [hp]; push_cast; ring
    refine outputs_forall₂ _ _ (ResoRel f g c Z E) (fun x x' => x' = x ∧ |x| ≤ B) _ ?_ _ _ ?_ _ _ (same hx)
    · rintro a b _ x R ⟨rfl, hs⟩
      refine R.step (δ := δ) (B := B) (h := h) f0 f1 ga c0 (by rw [← pr]; exact hh) c1 c2 c3 (by
        have := c4
        rw [pr] at this; exact this) ?_ ?_ ?_ ?_ hs
      · rw [hZ]
        have : 2 * B / (1 - r) / 2 = B / (1 - r) := by field_simp
        rw [this, le_div_iff₀ r1]; nlinarith
      · rw [hδ, hZ]
        refine le_of_eq ?_
        field_simp
      · rw [hδ]; unfold uq; linarith
      · rw [hE]; field_simp
    · refine ⟨rfl, rfl, rfl, rfl, ?_, ?_⟩
      · simp [Fx.Reso.mk', Z0]
      · simp [Fx.Reso.mk', E0]

/-- The feedback coefficient as computed. -/
theorem reso_coef {f r : ℚ} (f0 : 0 < f) (f1 : f ≤ 1 / 2) (r0 : 0 ≤ r) (r1 : r < 1) : |fl32 (r + fl32 (r / fl32 (1 - f))) - (r + r / (1 - f))| ≤ 1 / 2 ^ 20 := by
  have L := fl32_lawful
  have f2 : 0 < 1 - f := by linarith
  have ra : |r| ≤ 1 := by rw [abs_of_nonneg r0]; exact r1.le
  have e1 : |fl32 (1 - f) - (1 - f)| ≤ uq + eq := (errQ L _).trans (by
    rw [abs_of_pos f2]
    have : uq * (1 - f) ≤ uq * 1 := mul_le_mul_of_nonneg_left (by linarith) (by norm_num)
    linarith)
  have a1 := abs_le.1 e1
  have lo : 49 / 100 ≤ fl32 (1 - f) := by
    have : uq + eq ≤ 1 / 100 := by norm_num [uq, eq]
    generalize uq + eq = ε at *
    linarith
  generalize fl32 (1 - f) = a at *
  have a0 : 0 < a := by linarith
  have e2 : |r / a - r / (1 - f)| ≤ 41 / 10 * (uq + eq) := by
    have : r / a - r / (1 - f) = r * ((1 - f) - a) / (a * (1 - f)) := by field_simp
    rw [this, abs_div, abs_of_pos (mul_pos a0 f2), div_le_iff₀ (mul_pos a0 f2)]
    have k : |r * ((1 - f) - a)| ≤ uq + eq := by rw [abs_mul, abs_sub_comm]; nlinarith [abs_nonneg r, abs_nonneg (a - (1 - f))]
    have k2 : 245 / 1000 ≤ a * (1 - f) := by nlinarith
    have k3 : 0 ≤ uq + eq := by norm_num [uq, eq]
    generalize uq + eq = ε at *
    nlinarith
  have b2 : |r / (1 - f)| ≤ 2 := by
    rw [abs_of_nonneg (by positivity), div_le_iff₀ f2]; linarith
  have e3 := stepQ L e2 b2
  have e4 := stepQ L (xh := r + fl32 (r / a)) (x := r + r / (1 - f)) (le_of_eq_of_le (congrArg abs (add_sub_add_left_eq_sub _ _ _)) e3) (absAdd ra b2)
  refine e4.trans ?_
  norm_num [uq, eq]

end RoundFilter

/-- **C69.** `reso_filter` in `float` arithmetic: for every frequency coefficient `f` in `(0, 1/2]` and resonance `r` in `[0, 1)` with `f (1 - r) ≥ 1.2e-4`, and every
signal bounded by `B`, of any length, each output from rest is within `(4000·2^-24 B / (1 - r) + 160·2^-150) / (f (1 - r))` of the exact filter with the same
coefficients (the feedback coefficient as the constructor computes it in `float`). -/
theorem C69_reso (f r : ℚ) (f0 : 0 < f) (f1 : f ≤ 1 / 2) (r0 : 0 ≤ r) (hr : 2000 * (1 / 2 ^ 24) ≤ f * (1 - r)) (B : ℚ) (xs : List ℚ) (hx : ∀ x ∈ xs, |x| ≤ B) :
    List.Forall₂ (fun yh y => |yh - y| ≤ (4000 * (1 / 2 ^ 24) * B / (1 - r) + 160 * (1 / 2 ^ 150)) / (f * (1 - r)))
      (outputs (RoundFilter.reso fl32) (RoundFilter.resoMk fl32 f r) xs) (outputs Fx.Reso.feed (RoundFilter.resoMk fl32 f r) xs) := by
  have r1 : 0 < 1 - r := (mul_pos_iff_of_pos_left f0).1 (lt_of_lt_of_le (by norm_num) hr)
  exact reso_track f r _ f0 f1 r0 hr (reso_coef f0 f1 r0 (by linarith)) B xs hx

/-- The hypotheses are met by a cut-off coefficient `0.142` (1 kHz at 44.1 kHz) and resonance `0.9`. -/
example : (0 : ℚ) < 0.142 ∧ (2000 * (1 / 2 ^ 24) : ℚ) ≤ 0.142 * (1 - 0.9) := by norm_num

end Verif
