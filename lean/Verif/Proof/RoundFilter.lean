import Verif.Model.RoundFilter
import Verif.Proof.Rounding
import Verif.Proof.Bibo
/-!
# Recursive filters with noise
-/
namespace Verif
namespace RoundFilter
open Rounding

/-- Two processors in lock-step. -/
theorem outputs_forall₂ {σ σ' ι ι' ο ο' : Type _} (f : σ → ι → σ × ο) (g : σ' → ι' → σ' × ο') (R : σ → σ' → Prop)
    (I : ι → ι' → Prop) (Q : ο → ο' → Prop)
    (hs : ∀ s t x x', R s t → I x x' → R (f s x).1 (g t x').1 ∧ Q (f s x).2 (g t x').2)
    (s : σ) (t : σ') (h : R s t) (xs : List ι) (xs' : List ι') (hx : List.Forall₂ I xs xs') :
    List.Forall₂ Q (outputs f s xs) (outputs g t xs') := by
  induction hx generalizing s t with
  | nil => exact .nil
  | cons h1 _ ih => exact .cons (hs _ _ _ _ h h1).2 (ih _ _ (hs _ _ _ _ h h1).1)

/-- `u = 2^-24`, the unit round-off of `float`. -/
noncomputable abbrev u : ℝ := 1 / 2 ^ 24
/-- `η = 2^-150`, half the smallest `float`. -/
noncomputable abbrev eta : ℝ := 1 / 2 ^ 150

variable {fl : ℚ → ℚ}

/-- The rounding error of a `float` operation. -/
theorem err (L : Lawful 24 (-149) fl) (x : ℚ) : |((fl x : ℚ) : ℝ) - x| ≤ u * |(x : ℝ)| + eta := by
  have h := L.err x
  have h2 : |fl x - x| ≤ 1 / 2 ^ 24 * |x| + 1 / 2 ^ 150 := by
    refine h.trans (max_le ?_ ?_)
    · have : (0 : ℚ) ≤ 1 / 2 ^ 150 := by positivity
      rw [div_eq_inv_mul, ← one_div]; linarith
    · have : (0 : ℚ) ≤ 1 / 2 ^ 24 * |x| := by positivity
      have e : (2 : ℚ) ^ (-149 : ℤ) / 2 = 1 / 2 ^ 150 := by norm_num
      rw [e]; linarith
  have := (Rat.cast_le (K := ℝ)).mpr h2
  push_cast at this
  simpa [u, eta] using this

/-- If a computed `x̂` is within `e` of `x`, then `fl x̂` is within `u|x| + (1+u)e + η` of `x`. -/
theorem step (L : Lawful 24 (-149) fl) {xh : ℚ} {x e X : ℝ} (h : |(xh : ℝ) - x| ≤ e) (hX : |x| ≤ X) :
    |((fl xh : ℚ) : ℝ) - x| ≤ u * X + (1 + u) * e + eta := by
  have h1 := err L xh
  have h2 : |(xh : ℝ)| ≤ X + e := by
    calc |(xh : ℝ)| = |x + (xh - x)| := by ring_nf
      _ ≤ |x| + |(xh : ℝ) - x| := abs_add_le _ _
      _ ≤ _ := add_le_add hX h
  have u0 : 0 ≤ u := by norm_num
  calc |((fl xh : ℚ) : ℝ) - x| = |((fl xh : ℚ) - xh : ℝ) + (xh - x)| := by ring_nf
    _ ≤ |((fl xh : ℚ) : ℝ) - xh| + |(xh : ℝ) - x| := abs_add_le _ _
    _ ≤ (u * |(xh : ℝ)| + eta) + e := add_le_add h1 h
    _ ≤ (u * (X + e) + eta) + e := by have := mul_le_mul_of_nonneg_left h2 u0; linarith
    _ = _ := by ring

/-- One step of a first-order recursion with an error. -/
theorem first {a d w c0 c1 Y yh y D r : ℝ} (ha : |a| ≤ r) (hd : |yh - y| ≤ D) (hy : |y| ≤ Y) (h1 : 0 ≤ c1)
    (he : |w - a * yh| ≤ c0 + c1 * |yh|) (hD : c0 + c1 * (Y + D) ≤ (1 - r) * D) (hdd : d = a * y) : |w - d| ≤ D := by
  subst hdd
  have h2 : |yh| ≤ Y + D := by
    calc |yh| = |y + (yh - y)| := by ring_nf
      _ ≤ |y| + |yh - y| := abs_add_le _ _
      _ ≤ _ := add_le_add hy hd
  have D0 : 0 ≤ D := (abs_nonneg _).trans hd
  calc |w - a * y| = |(w - a * yh) + a * (yh - y)| := by ring_nf
    _ ≤ |w - a * yh| + |a * (yh - y)| := abs_add_le _ _
    _ ≤ (c0 + c1 * |yh|) + r * D := by
      rw [abs_mul]; exact add_le_add he (mul_le_mul ha hd (abs_nonneg _) ((abs_nonneg _).trans ha))
    _ ≤ (c0 + c1 * (Y + D)) + r * D := by have := mul_le_mul_of_nonneg_left h2 h1; linarith
    _ ≤ D := by linarith

/-- One step of a second-order recursion: the region `|d1|, |d2| ≤ D`, `‖d1 - α d2‖ ≤ (1 - r) D` is kept by an input of size at
most `(1 - r)² D`. -/
theorem second {α β : ℂ} {a3 a4 r d0 d1 d2 e D : ℝ} (h1 : α + β = -(a3 : ℂ)) (h2 : α * β = (a4 : ℂ)) (hα : ‖α‖ ≤ r) (hβ : ‖β‖ ≤ r)
    (b1 : |d1| ≤ D) (b3 : ‖(d1 : ℂ) - α * d2‖ ≤ (1 - r) * D) (he : |e| ≤ (1 - r) ^ 2 * D)
    (hd : d0 = -a3 * d1 - a4 * d2 + e) : |d0| ≤ D ∧ ‖(d0 : ℂ) - α * d1‖ ≤ (1 - r) * D := by
  have r0 : 0 ≤ r := (norm_nonneg _).trans hα
  have D0 : 0 ≤ D := (abs_nonneg _).trans b1
  have e1 : (d0 : ℂ) - α * d1 = e + β * ((d1 : ℂ) - α * d2) := by
    have : (d0 : ℂ) = -a3 * d1 - a4 * d2 + e := by rw [hd]; push_cast; ring
    rw [this, ← h2]
    linear_combination (-(d1 : ℂ)) * h1
  have e2 : ‖(d0 : ℂ) - α * d1‖ ≤ (1 - r) * D := by
    rw [e1]
    calc ‖(e : ℂ) + β * ((d1 : ℂ) - α * d2)‖ ≤ ‖(e : ℂ)‖ + ‖β * ((d1 : ℂ) - α * d2)‖ := norm_add_le _ _
      _ ≤ (1 - r) ^ 2 * D + r * ((1 - r) * D) := by
        rw [norm_mul, Complex.norm_real]
        exact add_le_add he (mul_le_mul hβ b3 (norm_nonneg _) r0)
      _ = (1 - r) * D := by ring
  refine ⟨?_, e2⟩
  calc |d0| = ‖(d0 : ℂ)‖ := by rw [Complex.norm_real]; rfl
    _ = ‖((d0 : ℂ) - α * d1) + α * d1‖ := by ring_nf
    _ ≤ ‖(d0 : ℂ) - α * d1‖ + ‖α * d1‖ := norm_add_le _ _
    _ ≤ (1 - r) * D + r * D := by
      rw [norm_mul, Complex.norm_real]
      exact add_le_add e2 (mul_le_mul hα b1 (norm_nonneg _) r0)
    _ = D := by ring

theorem poles_bound {α β : ℂ} {a3 a4 r : ℝ} (h1 : α + β = -(a3 : ℂ)) (h2 : α * β = (a4 : ℂ)) (hα : ‖α‖ ≤ r) (hβ : ‖β‖ ≤ r)
    (hr : r < 1) : |a3| ≤ 2 ∧ |a4| ≤ 1 := by
  have r0 : 0 ≤ r := (norm_nonneg _).trans hα
  constructor
  · have : ‖-(a3 : ℂ)‖ ≤ 2 := by rw [← h1]; exact (norm_add_le _ _).trans (by linarith)
    rwa [norm_neg, Complex.norm_real] at this
  · have : ‖(a4 : ℂ)‖ ≤ 1 := by
      rw [← h2, norm_mul]
      calc ‖α‖ * ‖β‖ ≤ 1 * 1 := mul_le_mul (by linarith) (by linarith) (norm_nonneg _) (by norm_num)
        _ = 1 := by norm_num
    rwa [Complex.norm_real] at this

/-- Add a rounded term to a partial sum, rounding. -/
theorem addStep (L : Lawful 24 (-149) fl) {ph th : ℚ} {p t c n P : ℝ} (σ : ℚ) (hσ : |(σ : ℝ)| ≤ 1)
    (hp : |(ph : ℝ) - p| ≤ c * u * P + n * eta) (hP : |p| ≤ P) (ht : |(th : ℝ) - t| ≤ u * |t| + eta) (c1 : 1 ≤ c) (c2 : c ≤ 10)
    (n3 : n ≤ 20) :
    |((fl (ph + σ * th) : ℚ) : ℝ) - (p + σ * t)| ≤ (c + 101 / 100) * u * (P + |t|) + (n + 201 / 100) * eta ∧ |p + σ * t| ≤ P + |t| := by
  have P0 : 0 ≤ P := (abs_nonneg _).trans hP
  have t0 : 0 ≤ |t| := abs_nonneg t
  have eta0 : 0 < eta := by unfold eta; positivity
  have b : |p + σ * t| ≤ P + |t| := by
    refine (abs_add_le _ _).trans (add_le_add hP ?_)
    rw [abs_mul]; calc |(σ : ℝ)| * |t| ≤ 1 * |t| := mul_le_mul_of_nonneg_right hσ t0
      _ = |t| := one_mul _
  have e : |((ph + σ * th : ℚ) : ℝ) - (p + σ * t)| ≤ (c * u * P + n * eta) + (u * |t| + eta) := by
    have : ((ph + σ * th : ℚ) : ℝ) - (p + σ * t) = ((ph : ℝ) - p) + σ * (th - t) := by push_cast; ring
    rw [this]
    refine (abs_add_le _ _).trans (add_le_add hp ?_)
    rw [abs_mul]
    calc |(σ : ℝ)| * |(th : ℝ) - t| ≤ 1 * |(th : ℝ) - t| := mul_le_mul_of_nonneg_right hσ (abs_nonneg _)
      _ ≤ _ := by rw [one_mul]; exact ht
  refine ⟨(step L e b).trans ?_, b⟩
  generalize |t| = T at *
  generalize eta = h at *
  unfold u
  have k1 : c * P ≤ 10 * P := mul_le_mul_of_nonneg_right c2 P0
  have k2 : 1 * T ≤ c * T := mul_le_mul_of_nonneg_right c1 t0
  have k3 : n * h ≤ 20 * h := mul_le_mul_of_nonneg_right n3 eta0.le
  nlinarith

/-- The rounding error of `a0 s + a1 x1 + a2 x2 - a3 y1 - a4 y2`. -/
theorem sum5 (L : Lawful 24 (-149) fl) (t0 t1 t2 t3 t4 : ℚ) :
    |((fl (fl (fl (fl (fl t0 + fl t1) + fl t2) - fl t3) - fl t4) : ℚ) : ℝ) - (t0 + t1 + t2 - t3 - t4)| ≤
      506 / 100 * u * (|(t0 : ℝ)| + |(t1 : ℝ)| + |(t2 : ℝ)| + |(t3 : ℝ)| + |(t4 : ℝ)|) + 10 * eta := by
  have eta0 : 0 < eta := by unfold eta; positivity
  have h0 : |((fl t0 : ℚ) : ℝ) - t0| ≤ 1 * u * |(t0 : ℝ)| + 1 * eta := by simpa using err L t0
  obtain ⟨h1, b1⟩ := addStep L 1 (by norm_num) h0 le_rfl (err L t1) (by norm_num) (by norm_num) (by norm_num)
  obtain ⟨h2, b2⟩ := addStep L 1 (by norm_num) h1 b1 (err L t2) (by norm_num) (by norm_num) (by norm_num)
  obtain ⟨h3, b3⟩ := addStep L (-1) (by norm_num) h2 b2 (err L t3) (by norm_num) (by norm_num) (by norm_num)
  obtain ⟨h4, -⟩ := addStep L (-1) (by norm_num) h3 b3 (err L t4) (by norm_num) (by norm_num) (by norm_num)
  simp only [Rat.cast_one, Rat.cast_neg, one_mul, neg_mul, ← sub_eq_add_neg] at h4
  refine h4.trans ?_
  have : 0 ≤ |(t0 : ℝ)| + |(t1 : ℝ)| + |(t2 : ℝ)| + |(t3 : ℝ)| + |(t4 : ℝ)| := by positivity
  generalize |(t0 : ℝ)| + |(t1 : ℝ)| + |(t2 : ℝ)| + |(t3 : ℝ)| + |(t4 : ℝ)| = T at *
  generalize eta = h at *
  unfold u
  nlinarith

/-! Rational versions. -/

/-- `u = 2^-24`. -/
abbrev uq : ℚ := 1 / 2 ^ 24
/-- `η = 2^-150`. -/
abbrev eq : ℚ := 1 / 2 ^ 150

theorem eq_pos : 0 < eq := by unfold eq; positivity

theorem errQ (L : Lawful 24 (-149) fl) (x : ℚ) : |fl x - x| ≤ uq * |x| + eq := by
  have := err L x
  apply (Rat.cast_le (K := ℝ)).mp
  push_cast
  simpa [u, eta] using this

theorem stepQ (L : Lawful 24 (-149) fl) {xh x e X : ℚ} (h : |xh - x| ≤ e) (hX : |x| ≤ X) :
    |fl xh - x| ≤ uq * X + (1 + uq) * e + eq := by
  have h1 := errQ L xh
  have h2 : |xh| ≤ X + e := by
    calc |xh| = |x + (xh - x)| := by ring_nf
      _ ≤ _ := (abs_add_le _ _).trans (add_le_add hX h)
  calc |fl xh - x| = |(fl xh - xh) + (xh - x)| := by ring_nf
    _ ≤ (uq * |xh| + eq) + e := (abs_add_le _ _).trans (add_le_add h1 h)
    _ ≤ (uq * (X + e) + eq) + e := by have := mul_le_mul_of_nonneg_left h2 (by norm_num : 0 ≤ uq); linarith
    _ = _ := by ring

/-- One step of a first-order recursion with an error `E`. -/
theorem firstQ {a w z E yh y D r : ℚ} (ha : |a| ≤ r) (hd : |yh - y| ≤ D) (he : |w - (z + a * yh)| ≤ E) (hD : E ≤ (1 - r) * D) :
    |w - (z + a * y)| ≤ D := by
  calc |w - (z + a * y)| = |(w - (z + a * yh)) + a * (yh - y)| := by ring_nf
    _ ≤ |w - (z + a * yh)| + |a * (yh - y)| := abs_add_le _ _
    _ ≤ E + r * D := by
      rw [abs_mul]; exact add_le_add he (mul_le_mul ha hd (abs_nonneg _) ((abs_nonneg _).trans ha))
    _ ≤ D := by linarith

theorem absAdd {x y a b : ℚ} (hx : |x| ≤ a) (hy : |y| ≤ b) : |x + y| ≤ a + b := (abs_add_le _ _).trans (add_le_add hx hy)
theorem absSub {x y a b : ℚ} (hx : |x| ≤ a) (hy : |y| ≤ b) : |x - y| ≤ a + b := (abs_sub _ _).trans (add_le_add hx hy)
theorem absMul {a x b : ℚ} (ha : |a| ≤ 1) (hx : |x| ≤ b) : |a * x| ≤ b := by
  rw [abs_mul]
  calc |a| * |x| ≤ 1 * b := mul_le_mul ha hx (abs_nonneg _) (by norm_num)
    _ = b := one_mul b

/-- `leaky_integrator`: rounding error of one step. -/
theorem leaky_noise (L : Lawful 24 (-149) fl) {a y s B : ℚ} (a0 : 0 ≤ a) (a1 : a ≤ 1) (hy : |y| ≤ B) (hs : |s| ≤ B) :
    |fl (s + fl (a * fl (y - s))) - (s + a * (y - s))| ≤ 51 / 10 * uq * B + 4 * eq := by
  have B0 : 0 ≤ B := (abs_nonneg _).trans hy
  have aa : |a| ≤ 1 := abs_le.mpr ⟨by linarith, a1⟩
  have h1 : |fl (y - s) - (y - s)| ≤ uq * (B + B) + eq :=
    (errQ L _).trans (by have := mul_le_mul_of_nonneg_left (absSub hy hs) (by norm_num : 0 ≤ uq); linarith)
  have h2 := stepQ L (xh := a * fl (y - s)) (x := a * (y - s)) (le_of_eq_of_le (congrArg abs (mul_sub _ _ _).symm) (absMul aa h1)) (absMul aa (absSub hy hs))
  have c : |s + a * (y - s)| ≤ B := by
    rw [abs_le] at hy hs ⊢; constructor <;> nlinarith
  have h3 := stepQ L (xh := s + fl (a * fl (y - s))) (x := s + a * (y - s)) (le_of_eq_of_le (congrArg abs (add_sub_add_left_eq_sub _ _ _)) h2) c
  refine h3.trans ?_
  have := eq_pos
  generalize eq = h at *
  unfold uq
  nlinarith

/-- `dc_block`: rounding error of one step. -/
theorem dc_noise (L : Lawful 24 (-149) fl) {p y s x B M : ℚ} (hp : |p| ≤ 1) (hy : |y| ≤ M) (hs : |s| ≤ B) (hx : |x| ≤ B) :
    |fl (fl (s - x) + fl (p * y)) - (s - x + p * y)| ≤ 401 / 100 * uq * B + 201 / 100 * uq * M + 4 * eq := by
  have B0 : 0 ≤ B := (abs_nonneg _).trans hs
  have M0 : 0 ≤ M := (abs_nonneg _).trans hy
  have h1 : |fl (s - x) - (s - x)| ≤ uq * (B + B) + eq :=
    (errQ L _).trans (by have := mul_le_mul_of_nonneg_left (absSub hs hx) (by norm_num : 0 ≤ uq); linarith)
  have h2 : |fl (p * y) - p * y| ≤ uq * M + eq :=
    (errQ L _).trans (by have := mul_le_mul_of_nonneg_left (absMul hp hy) (by norm_num : 0 ≤ uq); linarith)
  have h3 := stepQ L (xh := fl (s - x) + fl (p * y)) (x := s - x + p * y) (le_of_eq_of_le (congrArg abs (add_sub_add_comm _ _ _ _)) (absAdd h1 h2))
    (absAdd (absSub hs hx) (absMul hp hy))
  refine h3.trans ?_
  have := eq_pos
  generalize eq = h at *
  unfold uq
  nlinarith

/-- `exp_moving_average`: rounding error of one step. -/
theorem ema_noise (L : Lawful 24 (-149) fl) {b c y s B M : ℚ} (hb : |b| ≤ 1) (hc : |c| ≤ 1) (hy : |y| ≤ M) (hs : |s| ≤ B) :
    |fl (fl (b * s) + fl (c * y)) - (b * s + c * y)| ≤ 201 / 100 * uq * (B + M) + 4 * eq := by
  have B0 : 0 ≤ B := (abs_nonneg _).trans hs
  have M0 : 0 ≤ M := (abs_nonneg _).trans hy
  have h1 : |fl (b * s) - b * s| ≤ uq * B + eq :=
    (errQ L _).trans (by have := mul_le_mul_of_nonneg_left (absMul hb hs) (by norm_num : 0 ≤ uq); linarith)
  have h2 : |fl (c * y) - c * y| ≤ uq * M + eq :=
    (errQ L _).trans (by have := mul_le_mul_of_nonneg_left (absMul hc hy) (by norm_num : 0 ≤ uq); linarith)
  have h3 := stepQ L (xh := fl (b * s) + fl (c * y)) (x := b * s + c * y) (le_of_eq_of_le (congrArg abs (add_sub_add_comm _ _ _ _)) (absAdd h1 h2))
    (absAdd (absMul hb hs) (absMul hc hy))
  refine h3.trans ?_
  have := eq_pos
  generalize eq = h at *
  unfold uq
  nlinarith

/-- `one_pole_allpass`: rounding error of the output and of the new state. -/
theorem allpass_noise (L : Lawful 24 (-149) fl) {a y s B M : ℚ} (ha : |a| ≤ 1) (hy : |y| ≤ M) (hs : |s| ≤ B) :
    |fl (y + fl (a * s)) - (y + a * s)| ≤ uq * (M + 201 / 100 * B) + 201 / 100 * eq ∧
    |fl (s - fl (a * fl (y + fl (a * s)))) - (s - a * (y + a * s))| ≤ 503 / 100 * uq * B + 302 / 100 * uq * M + 5 * eq := by
  have B0 : 0 ≤ B := (abs_nonneg _).trans hs
  have M0 : 0 ≤ M := (abs_nonneg _).trans hy
  have h1 : |fl (a * s) - a * s| ≤ uq * B + eq :=
    (errQ L _).trans (by have := mul_le_mul_of_nonneg_left (absMul ha hs) (by norm_num : 0 ≤ uq); linarith)
  have h2 := stepQ L (xh := y + fl (a * s)) (x := y + a * s) (le_of_eq_of_le (congrArg abs (add_sub_add_left_eq_sub _ _ _)) h1) (absAdd hy (absMul ha hs))
  have h2' : |fl (y + fl (a * s)) - (y + a * s)| ≤ uq * (M + 201 / 100 * B) + 201 / 100 * eq := by
    refine h2.trans ?_
    have := eq_pos
    generalize eq = h at *
    unfold uq
    nlinarith
  refine ⟨h2', ?_⟩
  have h3 := stepQ L (xh := a * fl (y + fl (a * s))) (x := a * (y + a * s)) (le_of_eq_of_le (congrArg abs (mul_sub _ _ _).symm) (absMul ha h2'))
    (absMul ha (absAdd hy (absMul ha hs)))
  have h4 := stepQ L (xh := s - fl (a * fl (y + fl (a * s)))) (x := s - a * (y + a * s))
    (le_of_eq_of_le (by rw [sub_sub_sub_cancel_left, abs_sub_comm]) h3) (absSub hs (absMul ha (absAdd hy (absMul ha hs))))
  refine h4.trans ?_
  have := eq_pos
  generalize eq = h at *
  unfold uq
  nlinarith

/-- `polyphase_allpass`: rounding error of one step. -/
theorem poly_noise (L : Lawful 24 (-149) fl) {a y s x B M : ℚ} (ha : |a| ≤ 1) (hy : |y| ≤ M) (hs : |s| ≤ B) (hx : |x| ≤ B) :
    |fl (fl (a * fl (s + y)) - x) - (a * (s + y) - x)| ≤ 402 / 100 * uq * B + 302 / 100 * uq * M + 4 * eq := by
  have B0 : 0 ≤ B := (abs_nonneg _).trans hs
  have M0 : 0 ≤ M := (abs_nonneg _).trans hy
  have h1 : |fl (s + y) - (s + y)| ≤ uq * (B + M) + eq :=
    (errQ L _).trans (by have := mul_le_mul_of_nonneg_left (absAdd hs hy) (by norm_num : 0 ≤ uq); linarith)
  have h2 := stepQ L (xh := a * fl (s + y)) (x := a * (s + y)) (le_of_eq_of_le (congrArg abs (mul_sub _ _ _).symm) (absMul ha h1)) (absMul ha (absAdd hs hy))
  have h3 := stepQ L (xh := fl (a * fl (s + y)) - x) (x := a * (s + y) - x) (le_of_eq_of_le (congrArg abs (sub_sub_sub_cancel_right _ _ _)) h2)
    (absSub (absMul ha (absAdd hs hy)) hx)
  refine h3.trans ?_
  have := eq_pos
  generalize eq = h at *
  unfold uq
  nlinarith

end RoundFilter
end Verif
